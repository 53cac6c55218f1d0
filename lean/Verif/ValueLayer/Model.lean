import Verif.Space.Geom
import Verif.Geometry.Model

/-
Model of the value layers of `/repo/src/repast4py/value_layer.py`: `ValueLayer` (345-421) with its implementations for one, two and three dimensions
(21-342), and `ReadWriteValueLayer` (992-1109).

A tensor is a function of its indices; a tensor of fewer dimensions has size 1 in the others. An index out of range, for which PyTorch raises
`IndexError`, is `none`. Values are arbitrary; the conversion of a value to the tensor's dtype is not modelled.
-/
namespace Repast.ValueLayer
open Repast.Space Repast.Geometry

structure Ten (V : Type) where
  nz : Nat
  ny : Nat
  nx : Nat
  at_ : Nat → Nat → Nat → V

/-- Indexing a dimension of size `n`: a negative index counts from the end. -/
def index (n : Nat) (i : Int) : Option Nat :=
  if 0 ≤ i then (if i < n then some i.toNat else none) else if 0 ≤ i + n then some (i + n).toNat else none

/-- `tensor[z, y, x] = v`. -/
def Ten.set {V : Type} (t : Ten V) (z y x : Nat) (v : V) : Ten V :=
  { t with at_ := fun k j i => if k = z ∧ j = y ∧ i = x then v else t.at_ k j i }

/-- value_layer.py:23-39, 104-121, 215-237, 362-370: a `ValueLayer` and its implementation. `ptTr` is `pt_translation`, `nghTr` is
`ngh_translation` (and `translation` in one dimension), in the order x, y, z. -/
structure Layer (V : Type) where
  nd : Nat
  box : Box
  periodic : Bool
  tpt : Pt
  ten : Ten V
  ptTr : Pt
  nghTr : Pt

/-- value_layer.py:362-370, 23-39, 104-121, 215-237 `ValueLayer.__init__`. `init z y x` is the initial value of a cell (the same for all cells, or random). -/
def Layer.new {V : Type} (b : Box) (periodic : Bool) (init : Nat → Nat → Nat → V) : Layer V :=
  if b.yext = 0 then
    { nd := 1, box := b, periodic, tpt := ⟨0, 0, 0⟩, ten := { nz := 1, ny := 1, nx := b.xext.toNat, at_ := init },
      ptTr := ⟨0 - b.xmin, 0, 0⟩, nghTr := ⟨0 - b.xmin, 0, 0⟩ }
  else if b.zext = 0 then
    { nd := 2, box := b, periodic, tpt := ⟨0, 0, 0⟩, ten := { nz := 1, ny := b.yext.toNat, nx := b.xext.toNat, at_ := init },
      ptTr := ⟨0 - b.xmin, 0 - b.ymin, 0⟩, nghTr := ⟨0 - b.xmin, 0 - b.ymin, 0⟩ }
  else
    { nd := 3, box := b, periodic, tpt := ⟨0, 0, 0⟩, ten := { nz := b.zext.toNat, ny := b.yext.toNat, nx := b.xext.toNat, at_ := init },
      ptTr := ⟨0 - b.xmin, 0 - b.ymin, 0 - b.zmin⟩, nghTr := ⟨0 - b.xmin, 0 - b.ymin, 0 - b.zmin⟩ }

/-- `self.borders._transform(pt, self.tpt)`: the point `tpt` then holds. -/
def Layer.transform {V : Type} (l : Layer V) (p : Pt) : Pt := if l.periodic then Space.periodic l.box p l.tpt else sticky l.box p

/-- value_layer.py:49-50, 61-62, 142-143, 156-158, 260-261, 272-273: the cell of a transformed point. -/
def Layer.cell {V : Type} (l : Layer V) (p : Pt) : Option (Nat × Nat × Nat) :=
  if l.nd = 1 then do
    let x ← index l.ten.nx (p.x + l.nghTr.x)
    return (0, 0, x)
  else if l.nd = 2 then do
    let y ← index l.ten.ny (p.y + l.ptTr.y)
    let x ← index l.ten.nx (p.x + l.ptTr.x)
    return (0, y, x)
  else do
    let z ← index l.ten.nz (p.z + l.ptTr.z)
    let y ← index l.ten.ny (p.y + l.ptTr.y)
    let x ← index l.ten.nx (p.x + l.ptTr.x)
    return (z, y, x)

/-- The results of the methods. -/
inductive Res (V : Type) where
  | val (v : V)
  | unit
  | nghs (vals : List V) (rows : List (List Int))
  | error
  deriving DecidableEq

/-- value_layer.py:41-50, 134-143, 252-261 `get`. -/
def Layer.get {V : Type} (l : Layer V) (p : Pt) : Layer V × Res V :=
  let q := l.transform p
  ({ l with tpt := q }, match l.cell q with
    | some (z, y, x) => .val (l.ten.at_ z y x)
    | none => .error)

/-- value_layer.py:52-62, 145-158, 263-273 `set`. -/
def Layer.set {V : Type} (l : Layer V) (p : Pt) (v : V) : Layer V × Res V :=
  let q := l.transform p
  match l.cell q with
  | some (z, y, x) => ({ l with tpt := q, ten := l.ten.set z y x v }, .unit)
  | none => ({ l with tpt := q }, .error)

/-- value_layer.py:38, 120, 234: `min_max`. -/
def mmx (b : Box) : MM := { lo := b.xmin, hi := b.xmin + b.xext - 1 }
def mmy (b : Box) : MM := { lo := b.ymin, hi := b.ymin + b.yext - 1 }
def mmz (b : Box) : MM := { lo := b.zmin, hi := b.zmin + b.zext - 1 }

/-- numpy: `np.array([...]) + scalar`. -/
def plus (l : List Int) (d : Int) : List Int := l.map (· + d)

/-- `tensor[idx0, idx1, ...]` with arrays of indices, along the rows. -/
def Ten.gather {V : Type} (t : Ten V) : List Int → List Int → List Int → Option (List V)
  | z :: zs, y :: ys, x :: xs => do
    let k ← index t.nz z
    let j ← index t.ny y
    let i ← index t.nx x
    let vs ← t.gather zs ys xs
    return t.at_ k j i :: vs
  | [], [], [] => some []
  | _, _, _ => none

def toRes {V : Type} (vals : Option (List V)) (rows : List (List Int)) : Res V :=
  match vals with
  | some vs => .nghs vs rows
  | none => .error

/-- value_layer.py:64-74, 160-170, 275-287 `get_nghs`. A one dimensional array is a single row. -/
def Layer.getNghs {V : Type} (l : Layer V) (p : Pt) : Res V :=
  if l.nd = 1 then
    let nghs := if l.periodic then periodic1d p.x (mmx l.box) else sticky1d p.x (mmx l.box)
    let idxs := plus nghs l.nghTr.x
    toRes (l.ten.gather (idxs.map fun _ => 0) (idxs.map fun _ => 0) idxs) [nghs]
  else if l.nd = 2 then
    match if l.periodic then periodic2d p.x p.y (mmx l.box) (mmy l.box) true else sticky2d p.x p.y (mmx l.box) (mmy l.box) true with
    | [r0, r1] =>
      let g0 := plus r0 l.nghTr.y
      let g1 := plus r1 l.nghTr.x
      toRes (l.ten.gather (g0.map fun _ => 0) g0 g1) [r1, r0]
    | _ => .error
  else
    match if l.periodic then periodic3d p.x p.y p.z (mmx l.box) (mmy l.box) (mmz l.box) true
        else sticky3d p.x p.y p.z (mmx l.box) (mmy l.box) (mmz l.box) true with
    | [r0, r1, r2] => toRes (l.ten.gather (plus r0 l.nghTr.z) (plus r1 l.nghTr.y) (plus r2 l.nghTr.x)) [r2, r1, r0]
    | _ => .error

/-- A call on a value layer. -/
inductive Op (V : Type) where
  | get (p : Pt)
  | set (p : Pt) (v : V)
  | nghs (p : Pt)

def Layer.step {V : Type} (l : Layer V) : Op V → Layer V × Res V
  | .get p => l.get p
  | .set p v => l.set p v
  | .nghs p => (l, l.getNghs p)

/-- A sequence of calls and their results. -/
def Layer.run {V : Type} (l : Layer V) : List (Op V) → Layer V × List (Res V)
  | [] => (l, [])
  | o :: os =>
    let r := l.step o
    let q := r.1.run os
    (q.1, r.2 :: q.2)

/-! ### Read/write layers -/

/-- value_layer.py:1031-1033: the two layers of a `ReadWriteValueLayer`. -/
structure RW (V : Type) where
  read : Layer V
  write : Layer V

inductive RWOp (V : Type) where
  | get (p : Pt)
  | set (p : Pt) (v : V)
  | swap
  | nghs (p : Pt)

/-- value_layer.py:1035-1089. `get_nghs` reads the attribute `read`, which does not exist: `AttributeError`. -/
def RW.step {V : Type} (s : RW V) : RWOp V → RW V × Res V
  | .get p => let r := s.read.get p; ({ s with read := r.1 }, r.2)
  | .set p v => let r := s.write.set p v; ({ s with write := r.1 }, r.2)
  | .swap => ({ read := s.write, write := s.read }, .unit)
  | .nghs _ => (s, .error)

def RW.run {V : Type} (s : RW V) : List (RWOp V) → RW V × List (Res V)
  | [] => (s, [])
  | o :: os =>
    let r := s.step o
    let q := r.1.run os
    (q.1, r.2 :: q.2)

end Repast.ValueLayer
