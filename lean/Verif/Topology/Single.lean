import Verif.Topology.Model
import Verif.Topology.OOB
import Verif.Space.Props

/-!
C31 for the grids that users make: `Grid` and `SharedGrid` with `OccupancyType.Single` (space.py, spacemodule.cpp: the occupancy is an argument of the constructor).
-/
namespace Repast.Topology
open Repast.Space

/-- C31: in a grid that was made with single occupancy, no two agents ever have the same location. -/
theorem C31_grid (b : Box) (isPeriodic : Bool) (ops : List (Op Pt)) (a a' : Nat) (p : Pt)
    (h1 : locationOf (grid b isPeriodic true) (run (grid b isPeriodic true) newGrid ops).1 a = .loc (some p))
    (h2 : locationOf (grid b isPeriodic true) (run (grid b isPeriodic true) newGrid ops).1 a' = .loc (some p)) : a = a' :=
  C31_exclusive (grid b isPeriodic true) rfl ⟨0, 0, 0⟩ ops a a' p h1 h2

theorem dstep_base (c : Cfg Pt) (l : Box) (all : List (Box × Nat)) (s : DSp) (o : Op Pt) : (dstep c l all s (.base o)).1.base = (step c s.base o).1 := by
  cases o <;> try rfl
  show (dmove _ _ _ _ _ _).1.base = _
  unfold dmove
  simp only
  split <;> rfl

theorem drun_base (c : Cfg Pt) (l : Box) (all : List (Box × Nat)) (ops : List DOp) (s : DSp) : (drun c l all s ops).1.base = (run c s.base (baseOps ops)).1 := by
  induction ops generalizing s with
  | nil => rfl
  | cons o os ih =>
    show (drun c l all (dstep c l all s o).1 os).1.base = _
    rw [ih]
    cases o with
    | clear => rfl
    | base o =>
      rw [dstep_base]
      rfl

/-- C31: in a shared grid that was made with single occupancy, no two agents of a rank ever have the same location, wherever it is: in the rank's part of the grid, in its
buffer or out of bounds. -/
theorem C31_shared (t : Topo) (r : Nat) (ops : List DOp) (a a' : Nat) (p : Pt)
    (h1 : (sharedGrid t r true ops).1.base.agents a = some (some p))
    (h2 : (sharedGrid t r true ops).1.base.agents a' = some (some p)) : a = a' := by
  unfold sharedGrid at h1 h2
  rw [drun_base] at h1 h2
  refine C31_grid t.box t.periodic (baseOps ops) a a' p ?_ ?_
  · simp only [locationOf, step]
    rw [show (run (grid t.box t.periodic true) newGrid (baseOps ops)).1.agents a = some (some p) from h1]
    rfl
  · simp only [locationOf, step]
    rw [show (run (grid t.box t.periodic true) newGrid (baseOps ops)).1.agents a' = some (some p) from h2]
    rfl

/-- The hypotheses: agent 2 may not come to where agent 1 is, also out of bounds. -/
example : let s := (sharedGrid exTopo 0 true [.base (.add 1), .base (.add 2), .base (.move 1 ⟨5, 8, 0⟩), .base (.move 2 ⟨5, 8, 0⟩)]).1
    s.base.agents 1 = some (some ⟨5, 8, 0⟩) ∧ s.oob 1 = some (5, ⟨5, 8, 0⟩) ∧ s.base.agents 2 = some none := by decide +kernel

end Repast.Topology
