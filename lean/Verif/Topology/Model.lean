import Verif.Space.Model

/-
Model of the process topology of shared spaces: `/repo/src/repast4py/distributed_space.cpp` (`CartesianTopology`) and of
`DistributedCartesianSpace` (distributed_space.h:82-331).

MPI is modelled by its specification: `MPI_Cart_create` without reordering numbers the processes of the grid in row-major order (the last
dimension varies fastest), `MPI_Cart_coords` and `MPI_Cart_rank` convert, the latter wrapping coordinates of periodic dimensions.
The process grid (`MPI_Dims_create` or the caller's choice) is arbitrary. Simplification: a dimension the space does not have is represented by a
process count of 1 (and process coordinate 0), so that row-major numbering in 1, 2 and 3 dimensions is one formula.
-/
namespace Repast.Topology
open Repast.Space

/-- distributed_space.h:45-51: the members of `CartesianTopology`. -/
structure Topo where
  nd : Nat
  px : Nat
  py : Nat
  pz : Nat
  periodic : Bool
  box : Box
  deriving DecidableEq, Repr

/-- Process coordinates (`MPI_Cart_coords`). -/
structure Coord where
  x : Nat
  y : Nat
  z : Nat
  deriving DecidableEq, Repr

def Topo.size (t : Topo) : Nat := t.px * t.py * t.pz

/-- `MPI_Cart_coords` -/
def Topo.coords (t : Topo) (r : Nat) : Coord := { x := r / (t.py * t.pz), y := r / t.pz % t.py, z := r % t.pz }

/-- `MPI_Cart_rank` for coordinates in range. -/
def Topo.rankOf (t : Topo) (c : Coord) : Nat := (c.x * t.py + c.y) * t.pz + c.z

/-- `MPI_Cart_rank`'s treatment of one coordinate of a periodic grid (in range coordinates are not changed). -/
def wrapCoord (p : Nat) (c : Int) : Nat := (c % p).toNat

/-- distributed_space.cpp:281-290 `adjust_min_extent`: the new minimum and extent. -/
def adjustMinExtent (coord remainder : Nat) (min_ ext : Int) : Int × Int :=
  if 0 < remainder then
    (if 0 < coord ∧ coord < remainder then min_ + (remainder - (remainder - coord : Int))
     else if remainder ≤ coord then min_ + remainder
     else min_,
     ext + if coord < remainder then 1 else 0)
  else (min_, ext)

/-- distributed_space.cpp:301-303, 311-313, 317-319: minimum and extent of one dimension of the local bounds. -/
def dimBounds (gmin gext : Int) (procs coord : Nat) : Int × Int :=
  let ext := gext.tdiv procs
  adjustMinExtent coord (gext.tmod procs).toNat (gmin + ext * coord) ext

/-- distributed_space.cpp:298-323 `getBounds(rank, local_bounds)`. -/
def Topo.bounds (t : Topo) (r : Nat) : Box :=
  let c := t.coords r
  let bx := dimBounds t.box.xmin t.box.xext t.px c.x
  let by_ := if 1 < t.nd then dimBounds t.box.ymin t.box.yext t.py c.y else (0, 0)
  let bz := if t.nd = 3 then dimBounds t.box.zmin t.box.zext t.pz c.z else (0, 0)
  { xmin := bx.1, xext := bx.2, ymin := by_.1, yext := by_.2, zmin := bz.1, zext := bz.2 }

/-- distributed_space.h:23-30 `CTNeighbor` (the buffer is in `Verif/Topology/Buffer`). -/
structure Ngh where
  rank : Nat
  c : Coord
  deriving DecidableEq, Repr

/-- distributed_space.cpp:344-345, 372-376, 414-421: the offsets of one dimension in a non-periodic grid: those that stay in the grid. -/
def clipOffsets (p c : Nat) (l : List Int) : List Int :=
  l.filter (fun d => !((d = -1 ∧ (c : Int) + d < 0) ∨ (d = 1 ∧ (p : Int) ≤ c + d)))

/-- distributed_space.cpp:342-346: the offsets in a 1-dimensional topology. -/
def offsets1 (t : Topo) (c : Nat) : List Int :=
  if t.periodic then [-1, 1] else clipOffsets t.px c [-1, 1]

/-- distributed_space.cpp:359-377: the offsets of one dimension of a 2-dimensional topology. -/
def offsets2 (periodic : Bool) (p c : Nat) : List Int :=
  if periodic then [-1, 0, 1] else clipOffsets p c [-1, 0, 1]

/-- distributed_space.cpp:396-422: the offsets of one dimension of a 3-dimensional topology. -/
def offsets3 (periodic : Bool) (p c : Nat) : List Int :=
  if periodic then (if p = 1 then [0] else [-1, 0, 1]) else clipOffsets p c [-1, 0, 1]

/-- The process at an offset from `c` (distributed_space.cpp:348-351, 381-385, 427-430). -/
def Topo.at_ (t : Topo) (c : Coord) (dx dy dz : Int) : Ngh :=
  let w : Coord := { x := wrapCoord t.px (c.x + dx), y := wrapCoord t.py (c.y + dy), z := wrapCoord t.pz (c.z + dz) }
  { rank := t.rankOf w, c := w }

/-- distributed_space.cpp:330-452 `getNeighbors`. -/
def Topo.neighbors (t : Topo) (r : Nat) : List Ngh :=
  let c := t.coords r
  if t.nd = 1 then (offsets1 t c.x).map (fun dx => t.at_ c dx 0 0)
  else if t.nd = 2 then
    ((offsets2 t.periodic t.px c.x).flatMap fun dx => (offsets2 t.periodic t.py c.y).flatMap fun dy =>
      if dx = 0 ∧ dy = 0 then [] else [t.at_ c dx dy 0]).filter (fun n => n.rank ≠ r)
  else
    (offsets3 t.periodic t.px c.x).flatMap fun dx => (offsets3 t.periodic t.py c.y).flatMap fun dy =>
      (offsets3 t.periodic t.pz c.z).flatMap fun dz =>
        if dx = 0 ∧ dy = 0 ∧ dz = 0 then [] else [t.at_ c dx dy dz]

/-- distributed_space.h:177-213 `getAllBounds`: the bounds of the neighbours, then those of the other ranks. -/
def Topo.allBounds (t : Topo) (r : Nat) : List (Box × Nat) :=
  let nghs := (t.neighbors r).map (·.rank)
  nghs.map (fun i => (t.bounds i, i)) ++
    ((List.range t.size).filter (fun i => i ≠ r ∧ i ∉ nghs)).map (fun i => (t.bounds i, i))

/-! ### A space of one process of the topology -/

/-- distributed_space.h:85-94: the space of rank `rank`. `oob a` is the entry of `out_of_bounds_agents`: the rank the agent is to be sent to and its
location. The entry holds the coordinate array of the agent's point in the space; every change of that array is made by `move`, which
replaces the entry, so its value is the location at the time of the entry. -/
structure DSp where
  base : Sp Pt
  oob : Nat → Option (Nat × Pt)

/-- The methods of a shared space; `clear` is `_clear_oob` (`clearOOBData`, distributed_space.h:307-316). -/
inductive DOp where
  | base (o : Op Pt)
  | clear

/-- distributed_space.h:268-295: `move`. -/
def dmove (c : Cfg Pt) (local_ : Box) (all : List (Box × Nat)) (s : DSp) (a : Nat) (pt : Pt) : DSp × Res Pt :=
  let r := move c s.base a pt
  match r.2 with
  | .loc (some q) =>
    let oob := upd s.oob a none
    let oob := if local_.contains q then oob
      else match all.find? (fun b => b.1.contains q) with
        | some (_, k) => upd oob a (some (k, q))
        | none => oob
    ({ base := r.1, oob := oob }, r.2)
  | _ => ({ s with base := r.1 }, r.2)

/-- One call on the shared space: distributed_space.h:215-266. -/
def dstep (c : Cfg Pt) (local_ : Box) (all : List (Box × Nat)) (s : DSp) : DOp → DSp × Res Pt
  | .base (.move a pt) => dmove c local_ all s a pt
  | .base (.remove a) =>
    let r := remove c s.base a
    ({ base := r.1, oob := upd s.oob a none }, .bool r.2)
  | .base o => let r := step c s.base o; ({ s with base := r.1 }, r.2)
  | .clear => ({ s with oob := fun _ => none }, .bool true)

def drun (c : Cfg Pt) (local_ : Box) (all : List (Box × Nat)) (s : DSp) : List DOp → DSp × List (DOp × Res Pt)
  | [] => (s, [])
  | o :: os =>
    let r := dstep c local_ all s o
    let q := drun c local_ all r.1 os
    (q.1, (o, r.2) :: q.2)

/-- A new shared space. -/
def DSp.empty : DSp := { base := newGrid, oob := fun _ => none }

end Repast.Topology
