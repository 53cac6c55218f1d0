import Verif.ValueLayer.Model
import Verif.Topology.Buffer

/-
Model of `SharedValueLayer` (`/repo/src/repast4py/value_layer.py`:459-989) in one and two dimensions (three dimensions raise `ValueError`,
value_layer.py:510-511): the layers of all ranks of a topology, and the synchronization of their buffers.

`none` is an exception (or the undefined behaviour of `Topo.buffers`) on some rank. A tensor of one dimension has one row. The slices to send and receive, which the code computes
once from the bounds exchanged at construction (value_layer.py:671-854), are computed at each synchronization. Simplification: assigning to a
slice an array of another shape is an exception (PyTorch would repeat dimensions of size 1).
-/
namespace Repast.ValueLayer
open Repast.Space Repast.Geometry Repast.Topology

/-- A slice of a tensor: rows `[r0, r1)`, columns `[c0, c1)`. -/
structure Rect where
  r0 : Nat
  r1 : Nat
  c0 : Nat
  c1 : Nat
  deriving DecidableEq, Repr

def Rect.h (r : Rect) : Nat := r.r1 - r.r0
def Rect.w (r : Rect) : Nat := r.c1 - r.c0

/-- An end of a slice in a dimension of size `n`: negative ends count from the end; ends out of range are cut off. -/
def norm (n : Nat) (i : Int) : Nat := if i < 0 then (i + n).toNat else min i.toNat n

/-- `tensor[r0:r1, c0:c1]`. -/
def rectOf {V : Type} (t : Ten V) (r0 r1 c0 c1 : Int) : Rect := { r0 := norm t.ny r0, r1 := norm t.ny r1, c0 := norm t.nx c0, c1 := norm t.nx c1 }

/-- `tensor[slice].numpy().reshape(size)`: the values in row-major order. -/
def Ten.read {V : Type} (t : Ten V) (r : Rect) : List V := (List.range (r.h * r.w)).map fun i => t.at_ 0 (r.r0 + i / r.w) (r.c0 + i % r.w)

/-- `tensor[slice] = values.reshape(shape)`. -/
def Ten.write {V : Type} (t : Ten V) (r : Rect) (vals : List V) : Ten V :=
  { t with at_ := fun k j i => if r.r0 ≤ j ∧ j < r.r1 ∧ r.c0 ≤ i ∧ i < r.c1 then vals.getD ((j - r.r0) * r.w + (i - r.c0)) (t.at_ k j i) else t.at_ k j i }

/-! ### Construction -/

/-- value_layer.py:597-609: a dimension of the buffered bounds of a periodic layer. -/
def bufDimP (gmin lo ext buf : Int) : Int × Int := (if gmin < lo then lo - buf else 0, ext + buf * 2)

/-- value_layer.py:618-631: the first dimension of the buffered bounds of a layer that is not periodic. -/
def bufDimX (gmin gext lo ext buf : Int) : Int × Int :=
  if gmin < lo then (lo - buf, if lo + ext < gmin + gext then ext + buf * 2 else ext + buf)
  else (0, if lo + ext < gmin + gext then ext + buf else 0)

/-- value_layer.py:633-650: the second dimension. -/
def bufDimY (gmin gext lo ext buf : Int) : Int × Int :=
  if gmin < lo then (lo - buf, if lo + ext < gmin + gext then ext + buf * 2 else ext + buf)
  else if lo + ext < gmin + gext then (0, ext + buf) else (lo, ext)

/-- value_layer.py:590-669 `_init_buffered_bounds`, 500-504. (The third dimension is left out.) -/
def bufBox (t : Topo) (buf : Nat) (r : Nat) : Box :=
  let b := t.bounds r
  if 1 < t.size then
    let x := if t.periodic then bufDimP t.box.xmin b.xmin b.xext buf else bufDimX t.box.xmin t.box.xext b.xmin b.xext buf
    let y := if 0 < t.box.yext then
      (if t.periodic then bufDimP t.box.ymin b.ymin b.yext buf else bufDimY t.box.ymin t.box.yext b.ymin b.yext buf) else (0, 0)
    { xmin := x.1, xext := x.2, ymin := y.1, yext := y.2, zmin := 0, zext := 0 }
  else b

/-- value_layer.py:513-518: the correction of `pt_translation` in a periodic layer. -/
def patch (t : Topo) (buf : Nat) (p : Pt) : Pt :=
  if t.periodic then
    { x := if p.x = 0 then buf - t.box.xmin else p.x
      y := if 1 < t.nd ∧ p.y = 0 then buf - t.box.ymin else p.y
      z := p.z }
  else p

/-- Copying a slice onto another one of the same shape. -/
def Ten.copy {V : Type} (t : Ten V) (src dst : Rect) : Option (Ten V) :=
  if src.h = dst.h ∧ src.w = dst.w then some (t.write dst (t.read src)) else none

/-- value_layer.py:554-561 `_buffer_self_X`. A tensor of one dimension cannot be indexed with two slices: `IndexError`. -/
def bufferSelfX {V : Type} (nd : Nat) (buf : Nat) (yext : Int) (t : Ten V) : Option (Ten V) :=
  if nd = 1 then none else do
    let t ← t.copy (rectOf t buf (buf + yext) buf (buf * 2)) (rectOf t buf (buf + yext) (-buf) t.nx)
    t.copy (rectOf t buf (buf + yext) (-buf * 2) (-buf)) (rectOf t buf (buf + yext) 0 buf)

/-- value_layer.py:563-569 `_buffer_self_Y`. -/
def bufferSelfY {V : Type} (buf : Nat) (xext : Int) (t : Ten V) : Option (Ten V) := do
  let t ← t.copy (rectOf t buf (buf * 2) buf (buf + xext)) (rectOf t (-buf) t.ny buf (buf + xext))
  t.copy (rectOf t (-buf * 2) (-buf) buf (buf + xext)) (rectOf t 0 buf buf (buf + xext))

/-- value_layer.py:514-527, 571-573 `_buffer_self`. -/
def bufferSelf {V : Type} (t : Topo) (buf : Nat) (r : Nat) (m : Ten V) : Option (Ten V) :=
  if t.periodic then do
    let m ← if t.px = 1 then bufferSelfX t.nd buf (t.bounds r).yext m else some m
    if t.nd = 2 ∧ t.py = 1 then bufferSelfY buf (t.bounds r).xext m else some m
  else some m

/-- value_layer.py:536-548 `_init_value`: `v = none` is 'random'. -/
def initValue {V : Type} (t : Topo) (r : Nat) (v : Option V) (l : Layer V) : Layer V :=
  match v with
  | none => l
  | some v =>
    let b := t.bounds r
    let x1 := b.xmin + l.ptTr.x
    let x2 := b.xmin + b.xext + l.ptTr.x
    let rc := if t.nd = 1 then rectOf l.ten 0 1 x1 x2 else rectOf l.ten (b.ymin + l.ptTr.y) (b.ymin + b.yext + l.ptTr.y) x1 x2
    { l with ten := l.ten.write rc (List.replicate (rc.h * rc.w) v) }

/-- value_layer.py:489-529 `__init__`, before the first synchronization: the layer of rank `r`. `rand` is the random content. The dimensions (509) are those of the
topology, `t.nd`, which `Topo.Ok` says. -/
def construct {V : Type} (t : Topo) (buf : Nat) (rand : Nat → Nat → Nat → V) (v : Option V) (r : Nat) : Option (Layer V) :=
  let l := Layer.new (bufBox t buf r) t.periodic rand
  if t.nd = 3 then none else
  let l := initValue t r v { l with ptTr := patch t buf l.ptTr }
  (bufferSelf t buf r l.ten).map fun m => { l with ten := m }

/-! ### Synchronization -/

/-- value_layer.py:699, 791: what is sent about a buffer: its shape and bounds. In one dimension the buffer is one row. -/
structure Meta where
  h : Int
  w : Int
  y0 : Int
  x0 : Int
  deriving DecidableEq, Repr

/-- value_layer.py:680, 758. -/
def metaOf (nd : Nat) (g : Rng) : Meta :=
  if nd = 1 then { h := 1, w := g.x1 - g.x0, y0 := 0, x0 := g.x0 } else { h := g.y1 - g.y0, w := g.x1 - g.x0, y0 := g.y0, x0 := g.x0 }

def Meta.size (m : Meta) : Nat := (m.h * m.w).toNat

/-- value_layer.py:722, 732, 820, 835: the element that is 0 if there is no buffer. -/
def Meta.first (nd : Nat) (m : Meta) : Int := if nd = 1 then m.w else m.h

/-- value_layer.py:678-683, 755-764: the slice to send. -/
def sendRect {V : Type} (nd : Nat) (l : Layer V) (m : Meta) : Rect :=
  if nd = 1 then rectOf l.ten 0 1 (m.x0 + l.ptTr.x) (m.x0 + l.ptTr.x + m.w)
  else rectOf l.ten (m.y0 + l.ptTr.y) (m.y0 + l.ptTr.y + m.h) (m.x0 + l.ptTr.x) (m.x0 + l.ptTr.x + m.w)

/-- value_layer.py:575-588 `_wrap_slice_vals`, of the start; the end is changed by the same amount. -/
def wrapStart (periodic : Bool) (buf : Nat) (start full local_ : Int) (procs : Nat) : Int :=
  if 1 < procs then (if start < 0 then start + full else if full ≤ start then start - full else start)
  else if start = local_ ∧ periodic = true then start + buf else start

/-- value_layer.py:810-815: the translations of the rows and columns of received buffer `i`. -/
def rts (t : Topo) (r_trans : Int) (i : Nat) : Int := if t.px ≠ 1 ∧ t.py = 1 ∧ (i = 0 ∨ i = 2) then 0 else r_trans
def cts (t : Topo) (c_trans : Int) (i : Nat) : Int := if t.px = 1 ∧ i < 4 then 0 else c_trans

/-- value_layer.py:723-728, 733-738, 821-831, 836-847: the slice to receive buffer `i` from a rank into. -/
def recvRect {V : Type} (t : Topo) (buf : Nat) (r : Nat) (l : Layer V) (i : Nat) (m : Meta) : Rect :=
  let b := t.bounds r
  if t.nd = 1 then
    let c := wrapStart t.periodic buf (m.x0 + l.ptTr.x) t.box.xext b.xext t.px
    rectOf l.ten 0 1 c (c + m.w)
  else
    let y := wrapStart t.periodic buf (m.y0 + rts t l.ptTr.y i) t.box.yext b.yext t.py
    let x := wrapStart t.periodic buf (m.x0 + cts t l.ptTr.x i) t.box.xext b.xext t.px
    rectOf l.ten y (y + m.h) x (x + m.w)

/-- value_layer.py:688-695, 771-780: how many buffers for one rank the exchanged arrays have room for; more are a `ValueError`. -/
def room (t : Topo) : Nat :=
  if t.nd = 1 then (if t.px ≠ 2 ∧ t.periodic = true then 1 else 2)
  else if t.periodic = true then
    (if t.px = 2 ∧ t.py = 2 then 4 else if t.px = 2 ∨ t.py = 2 then (if t.size = 2 then 6 else 2) else 1)
  else 1

/-- value_layer.py:969-971: the part of the send buffer for one rank: each of its slices is written to the beginning. -/
def fill {V : Type} (junk : List V) (parts : List (List V)) : List V := parts.foldl (fun b v => v ++ b.drop v.length) junk

/-- All of a list of optional results. -/
def allSome {α : Type} : List (Option α) → Option (List α)
  | [] => some []
  | a :: l => do
    let x ← a
    let xs ← allSome l
    return x :: xs

/-- value_layer.py:675-702, 752-794, 969-971: what rank `s` sends to rank `k`. (The sorting of the buffers by rank keeps the order of those for one rank.)
`junk` is the previous content of the send buffer. -/
def sent {V : Type} (t : Topo) (buf : Nat) (l : Layer V) (junk : Nat → V) (s k : Nat) : Option (List Meta × List V) := do
  let bs ← t.buffers s buf
  let ms := (bs.filter (fun b => b.1 = k)).map fun b => metaOf t.nd b.2
  if room t < ms.length then none else
  let parts ← allSome (ms.map fun m =>
    let rc := sendRect t.nd l m
    if rc.h * rc.w = m.size then some (l.ten.read rc) else none)
  return (ms, fill ((List.range (ms.map Meta.size).sum).map junk) parts)

/-- value_layer.py:979-984: rank `k` stores the buffers received from one rank, number `i` first. -/
def store {V : Type} (t : Topo) (buf : Nat) (k : Nat) (l : Layer V) (vals : List V) : Nat → List Meta → Ten V → Option (Ten V)
  | _, [], m => some m
  | i, e :: es, m =>
    let rc := recvRect t buf k l i e
    if (rc.h : Int) = e.h ∧ (rc.w : Int) = e.w then store t buf k l vals (i + 1) es (m.write rc (vals.take e.size)) else none

/-- The messages of the ranks in `src` to `k` are stored in the order of the ranks. -/
def receive {V : Type} (t : Topo) (buf : Nat) (w : Nat → Layer V) (junk : Nat → Nat → Nat → V) (k : Nat) : List Nat → Ten V → Option (Ten V)
  | [], m => some m
  | s :: ss, m => do
    let msg ← sent t buf (w s) (junk s k) s k
    let m ← store t buf k (w k) msg.2 0 (msg.1.takeWhile fun e => e.first t.nd ≠ 0) m
    receive t buf w junk k ss m

/-- value_layer.py:957-989 `_synch_ghosts`, on rank `k`. `ngh_buffers[0]` (value_layer.py:686, 768) must exist. -/
def synchRank {V : Type} (t : Topo) (buf : Nat) (w : Nat → Layer V) (junk : Nat → Nat → Nat → V) (k : Nat) : Option (Ten V) := do
  let bs ← t.buffers k buf
  if bs = [] then none else
  let m ← receive t buf w junk k (List.range t.size) (w k).ten
  bufferSelf t buf k m

/-- `_synch_ghosts` on all ranks. On a single rank `send_data` is not defined (value_layer.py:531-532, 966): `AttributeError`. -/
def synch {V : Type} (t : Topo) (buf : Nat) (junk : Nat → Nat → Nat → V) (w : Nat → Layer V) : Option (Nat → Layer V) :=
  if t.size ≤ 1 then none
  else if (List.range t.size).all fun k => (synchRank t buf w junk k).isSome then
    some fun k => { w k with ten := (synchRank t buf w junk k).getD (w k).ten }
  else none

/-- A new shared layer on all ranks (value_layer.py:489-534). -/
def create {V : Type} (t : Topo) (buf : Nat) (junk : Nat → Nat → Nat → V) (rand : Nat → Nat → Nat → Nat → V) (v : Option V) : Option (Nat → Layer V) :=
  if (List.range t.size).all fun k => (construct t buf (rand k) v k).isSome then
    let w := fun k => (construct t buf (rand k) v k).getD (Layer.new (bufBox t buf k) t.periodic (rand k))
    if 1 < t.size then synch t buf junk w else some w
  else none

/-- A call on the layer of one rank, or a synchronization of all. -/
inductive SOp (V : Type) where
  | call (r : Nat) (o : Op V)
  | synch

/-- A sequence of calls. The junk in the send buffers may be different at each synchronization. -/
def srun {V : Type} (t : Topo) (buf : Nat) : (Nat → Layer V) → List (SOp V × (Nat → Nat → Nat → V)) → Option (Nat → Layer V)
  | w, [] => some w
  | w, (.call r o, _) :: os => srun t buf (upd w r ((w r).step o).1) os
  | w, (.synch, junk) :: os => do
    let w ← synch t buf junk w
    srun t buf w os

end Repast.ValueLayer
