import Verif.Context.WorldProps

/-
Histories of contexts with shared grids in which the code violates C24, C25, C26 and C52: the theorems of `Verif/Context/WorldProps` and
`Verif/Context/OneSpace` cannot be extended to them.

All of them have two ranks, that share a line of 10 cells: the cells 0 to 4 are those of rank 0, the cells 5 to 9 those of rank 1.
-/
namespace Repast.Context
open Repast.Dict Repast.Space Repast.Topology

/-- A shared grid of 10 cells of two ranks. -/
def line2 (single : Bool) (buf : Nat) : GCfg :=
  { topo := { nd := 1, px := 2, py := 1, pz := 1, periodic := false, box := ⟨0, 10, 0, 0, 0, 0⟩ }, single := single, buf := buf }

/-- What a rank sees of agent 7: its state as a local agent, its state as a ghost, and its locations on the grids. -/
def seen (grids : List GCfg) (ops : List (WOp Nat)) (r : Nat) : Option (Option Nat × Option Nat × List (Option (Option Pt))) :=
  (wrun id 2 (World.init grids) ops).map fun w => ((w r).agent 7, (w r).ghostAgent 7, (w r).projs.map fun g => g.sp.st.base.agents 7)

/-- Agent 7 of rank 0 is put at cell 4, and copied to the buffer of rank 1. -/
def buffered7 : List (WOp Nat) := [.add 0 7 1, .gmove 0 0 7 ⟨4, 0, 0⟩, .synch true]

example : seen [line2 false 2] buffered7 0 = some (some 1, none, [some (some ⟨4, 0, 0⟩)]) ∧
    seen [line2 false 2] buffered7 1 = some (none, some 1, [some (some ⟨4, 0, 0⟩)]) := by
  refine ⟨?_, ?_⟩ <;> decide +kernel

/-- C24 is violated: moving an agent (with `move_agents`) to a rank in whose buffer it is raises a `KeyError`, because the ghost is deleted first, and the
grid then removes its buffered agents from the ghosts. -/
theorem C24_violation_move : wrun id 2 (World.init [line2 false 2]) (buffered7 ++ [.move fun r => if r = 0 then [(7, 1)] else []]) = none := by
  decide +kernel

/-- C24 is violated: an agent walks into a rank in whose buffer it is, and `synchronize` is called with `sync_ghosts=False`: the rank of the buffer sends
the ghost back to the old rank, where the agent is no longer known, and where it cannot be restored without its state. -/
theorem C24_violation_no_ghosts :
    wrun id 2 (World.init [line2 false 2]) (buffered7 ++ [.gmove 0 0 7 ⟨6, 0, 0⟩, .synch false]) = none := by
  decide +kernel

/-- C52 is violated: `synchronize` with `sync_ghosts=False` reverts the movement of an agent that is in the buffer of another rank. -/
theorem C52_violation_no_ghosts :
    seen [line2 false 2] (buffered7 ++ [.gmove 0 0 7 ⟨2, 0, 0⟩]) 0 = some (some 1, none, [some (some ⟨2, 0, 0⟩)]) ∧
    seen [line2 false 2] (buffered7 ++ [.gmove 0 0 7 ⟨2, 0, 0⟩, .synch false]) 0 = some (some 1, none, [some (some ⟨4, 0, 0⟩)]) := by
  refine ⟨?_, ?_⟩ <;> decide +kernel

/-- C52 is violated: on a grid with single occupancy an agent that walks to a cell of another rank where there is another agent has no location
afterwards. -/
theorem C52_violation_occupied :
    seen [line2 true 0] [.add 0 7 1, .add 1 8 1, .gmove 1 0 8 ⟨6, 0, 0⟩, .gmove 0 0 7 ⟨6, 0, 0⟩] 0 = some (some 1, none, [some (some ⟨6, 0, 0⟩)]) ∧
    seen [line2 true 0] [.add 0 7 1, .add 1 8 1, .gmove 1 0 8 ⟨6, 0, 0⟩, .gmove 0 0 7 ⟨6, 0, 0⟩, .synch true] 0 = some (none, none, [none]) ∧
    seen [line2 true 0] [.add 0 7 1, .add 1 8 1, .gmove 1 0 8 ⟨6, 0, 0⟩, .gmove 0 0 7 ⟨6, 0, 0⟩, .synch true] 1 = some (some 1, none, [some none]) := by
  refine ⟨?_, ?_, ?_⟩ <;> decide +kernel

/-- C52 is violated: with two grids an agent that moved to another rank stays on the second grid of the old rank, and the new rank does not know its location
on the second grid. -/
theorem C52_violation_two_grids :
    seen [line2 false 0, line2 false 0] [.add 0 7 1, .gmove 0 1 7 ⟨4, 0, 0⟩, .gmove 0 0 7 ⟨6, 0, 0⟩, .synch true] 0 =
      some (none, none, [none, some (some ⟨4, 0, 0⟩)]) ∧
    seen [line2 false 0, line2 false 0] [.add 0 7 1, .gmove 0 1 7 ⟨4, 0, 0⟩, .gmove 0 0 7 ⟨6, 0, 0⟩, .synch true] 1 =
      some (some 1, none, [some (some ⟨6, 0, 0⟩), some none]) := by
  refine ⟨?_, ?_⟩ <;> decide +kernel

/-- C52 is violated: with two grids an agent that is moved to the same cell of another rank on both of them stays on the second grid of the old rank, where it
is neither a local agent nor a ghost. -/
theorem C52_violation_both_grids :
    let ops : List (WOp Nat) := [.add 0 7 1, .gmove 0 0 7 ⟨9, 0, 0⟩, .gmove 0 1 7 ⟨9, 0, 0⟩, .synch true]
    seen [line2 false 2, line2 false 2] ops 0 = some (none, none, [none, some (some ⟨9, 0, 0⟩)]) ∧
    seen [line2 false 2, line2 false 2] ops 1 = some (some 1, none, [some (some ⟨9, 0, 0⟩), some (some ⟨9, 0, 0⟩)]) := by
  intro ops
  refine ⟨?_, ?_⟩ <;> decide +kernel

/-- C25 is violated: a rank that requests an agent that is already in its buffer keeps that ghost for ever, but the owner does not know this. The ghost keeps
its old state when the agent has walked away from the buffer. -/
theorem C25_violation_request :
    let ops := buffered7 ++ [.request fun k => if k = 1 then [(7, 0)] else [], .gmove 0 0 7 ⟨0, 0, 0⟩, .setState 0 7 2, .synch true]
    seen [line2 false 2] ops 0 = some (some 2, none, [some (some ⟨0, 0, 0⟩)]) ∧ seen [line2 false 2] ops 1 = some (none, some 1, [none]) := by
  intro ops
  refine ⟨?_, ?_⟩ <;> decide +kernel

/-- C25 is violated: a requested agent moves to the requesting rank, and back, through the buffer: the rank still treats it as requested, but the owner
does not. -/
theorem C25_violation_moved :
    let ops : List (WOp Nat) := [.add 0 7 1, .request fun k => if k = 1 then [(7, 0)] else [], .move fun r => if r = 0 then [(7, 1)] else [], .gmove 1 0 7 ⟨4, 0, 0⟩, .synch true,
      .gmove 0 0 7 ⟨1, 0, 0⟩, .setState 0 7 9, .synch true]
    seen [line2 false 2] ops 0 = some (some 9, none, [some (some ⟨1, 0, 0⟩)]) ∧ seen [line2 false 2] ops 1 = some (none, some 1, [none]) := by
  intro ops
  refine ⟨?_, ?_⟩ <;> decide +kernel

/-- C25 is violated: a projection that is added while there are ghosts increments their reference counts, and never decrements them. -/
theorem C25_violation_add_projection :
    let ops := buffered7 ++ [.addProj (line2 false 0).new, .gmove 0 0 7 ⟨0, 0, 0⟩, .setState 0 7 2, .synch true]
    seen [line2 false 2] ops 0 = some (some 2, none, [some (some ⟨0, 0, 0⟩), some none]) ∧
      seen [line2 false 2] ops 1 = some (none, some 1, [none, some none]) := by
  intro ops
  refine ⟨?_, ?_⟩ <;> decide +kernel

/-- C26 is violated: as in `C25_violation_request`, but the agent is removed. -/
theorem C26_violation_request :
    let ops := buffered7 ++ [.request fun k => if k = 1 then [(7, 0)] else [], .remove 0 7, .synch true]
    seen [line2 false 2] ops 0 = some (none, none, [none]) ∧ seen [line2 false 2] ops 1 = some (none, some 1, [none]) := by
  intro ops
  refine ⟨?_, ?_⟩ <;> decide +kernel

end Repast.Context
