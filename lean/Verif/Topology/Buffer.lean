import Verif.Topology.Model

/-! Model of the buffer zones of a shared space: which points of a rank are sent to which neighbour, and the collection of the agents to send. -/
namespace Repast.Topology
open Repast.Space

/-- The ranges of a buffer: `[x0, x1)`, `[y0, y1)`, `[z0, z1)`. -/
structure Rng where
  x0 : Int
  x1 : Int
  y0 : Int
  y1 : Int
  z0 : Int
  z1 : Int
  deriving DecidableEq, Repr

/-- distributed_space.cpp:41-67: the part of `[lo, hi)` facing a neighbour at offset `o`. -/
def sideRange (lo hi buf o : Int) : Int × Int :=
  if o = -1 ∨ 1 < o then (lo, lo + buf)
  else if o = 1 ∨ o < -1 then (hi - buf, hi - buf + buf)
  else (lo, hi)

/-- distributed_space.cpp:23-77 `compute_buffer_bounds`. -/
def bufferBounds (nd : Nat) (b : Box) (buf : Nat) (ox oy oz : Int) : Rng :=
  let x := sideRange b.xmin b.xmax buf ox
  let y := if 1 < nd then sideRange b.ymin b.ymax buf oy else (0, 0)
  let z := if nd = 3 then sideRange b.zmin b.zmax buf oz else (0, 0)
  { x0 := x.1, x1 := x.2, y0 := y.1, y1 := y.2, z0 := z.1, z1 := z.2 }

/-- The difference of the process coordinates of `n` and `c` (distributed_space.cpp:87, 107, 108, 184-186). -/
def Coord.sub (n c : Coord) : Int × Int × Int := ((n.x : Int) - c.x, (n.y : Int) - c.y, (n.z : Int) - c.z)

/-- distributed_space.cpp:91-94. -/
def flip1 (o : Int) : Int := if o < 0 then 1 else -1

/-- distributed_space.cpp:187-200: the offset in a dimension of two processes, for a neighbour that already has a buffer. -/
def flip3 (two : Bool) (o : Int) : Int := if two then (if o < 0 then 1 else if 0 < o then -1 else o) else o

/-- distributed_space.cpp:86-97, 183-205: the loop over the neighbours with the set `p_ranks` of those seen. -/
def withSeen {β : Type} (first again : Ngh → β) : List Nat → List Ngh → List (Nat × β)
  | _, [] => []
  | seen, n :: ns => (n.rank, if n.rank ∈ seen then again n else first n) :: withSeen first again (n.rank :: seen) ns

/-- distributed_space.cpp:123-148 `fixed_offsets`: the offsets for a neighbour that occurs `count` times, with difference `(ox, oy)`. -/
def fixedOffsets (x2 y2 : Bool) (count : Nat) (ox oy : Int) : List (Int × Int) :=
  match count with
  | 1 => [(ox, oy)]
  | 2 => if ox ≠ 0 ∧ x2 then [(1, oy), (-1, oy)] else if oy ≠ 0 ∧ y2 then [(ox, 1), (ox, -1)] else []
  | 4 => [(1, 1), (1, -1), (-1, 1), (-1, -1)]
  | 6 => if x2 then [(-1, -1), (-1, 1), (1, -1), (1, 1), (-1, 0), (1, 0)]
      else if y2 then [(-1, -1), (-1, 1), (1, -1), (1, 1), (0, -1), (0, 1)] else []
  | _ => []

/-- distributed_space.cpp:151-159: the loop that gives each occurrence of a neighbour the next of its offsets. `none` is undefined behaviour:
the read of `ngh_offsets[idx]` beyond the end of the vector. -/
def nextOffsets {β : Type} (fixed : Nat → List β) : List Nat → List Ngh → Option (List (Nat × β))
  | _, [] => some []
  | seen, n :: ns => do
    let o ← (fixed n.rank)[seen.count n.rank]?
    let l ← nextOffsets fixed (n.rank :: seen) ns
    return (n.rank, o) :: l

/-- distributed_space.cpp:103-117, 122-148: the offsets of neighbour `k`, from the number of its occurrences and its first occurrence. -/
def fixedFor (t : Topo) (c : Coord) (nghs : List Ngh) (k : Nat) : List (Int × Int) :=
  match nghs.find? (fun n => n.rank = k) with
  | none => []
  | some n => fixedOffsets (t.px = 2) (t.py = 2) ((nghs.map (·.rank)).count k) (n.c.sub c).1 (n.c.sub c).2.1

/-- distributed_space.cpp:79-207 `compute_neighbor_buffers`, called from distributed_space.h:141, 162; the list is what `_get_buffer_data` returns. -/
def Topo.buffers (t : Topo) (r : Nat) (buf : Nat) : Option (List (Nat × Rng)) :=
  let c := t.coords r
  let b := t.bounds r
  let nghs := t.neighbors r
  if t.nd = 1 then
    some ((withSeen (fun n => (n.c.sub c).1) (fun n => flip1 (n.c.sub c).1) [] nghs).map fun e => (e.1, bufferBounds t.nd b buf e.2 0 0))
  else if t.nd = 2 then
    (nextOffsets (fixedFor t c nghs) [] nghs).map (·.map fun e => (e.1, bufferBounds t.nd b buf e.2.1 e.2.2 0))
  else
    some ((withSeen (fun n => n.c.sub c) (fun n => (flip3 (t.px = 2) (n.c.sub c).1, flip3 (t.py = 2) (n.c.sub c).2.1, flip3 (t.pz = 2) (n.c.sub c).2.2)) [] nghs).map
      fun e => (e.1, bufferBounds t.nd b buf e.2.1 e.2.2.1 e.2.2.2))

/-- Python's `range(a, b)`. -/
def pyRange (a b : Int) : List Int := (List.range (b - a).toNat).map (fun i => a + (i : Nat))

/-- The points visited by space.py:213-259 `_gather_1d`, `_gather_2d`, `_gather_3d`. -/
def gatherPts (nd : Nat) (g : Rng) : List Pt :=
  if nd = 1 then (pyRange g.x0 g.x1).map fun x => ⟨x, 0, 0⟩
  else if nd = 2 then (pyRange g.x0 g.x1).flatMap fun x => (pyRange g.y0 g.y1).map fun y => ⟨x, y, 0⟩
  else (pyRange g.x0 g.x1).flatMap fun x => (pyRange g.y0 g.y1).flatMap fun y => (pyRange g.z0 g.z1).map fun z => ⟨x, y, z⟩

/-- space.py:138-157 `_fill_send_data`: the agents (with their locations) sent to rank `k`. `loc` is the occupancy of the space of the sending rank. -/
def sendTo (nd : Nat) (bufs : List (Nat × Rng)) (loc : Pt → List Nat) (k : Nat) : List (Nat × Pt) :=
  (bufs.filter (fun b => b.1 = k)).flatMap fun b => (gatherPts nd b.2).flatMap fun p => (loc p).map fun a => (a, p)

end Repast.Topology
