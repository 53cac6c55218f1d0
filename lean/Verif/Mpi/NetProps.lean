import Verif.Mpi.Network

/-
C72 for contexts with networks: ranks may run at any speed. The other theorems about contexts (C10, C12, C19-C22, ...) are about histories (`wrun`), in which all ranks take part in a collective function
at once. Here it is shown that processes that run at their own speed, and wait for each other only in the calls of MPI, do the same.
-/
namespace Repast.Mpi.Net
open Repast.Dict Repast.Network Repast.Mpi
open Repast.Context (recv sent)

variable {S A : Type} {n : Nat}

theorem Same.init (dirs : List Bool) (others : Nat) : Same n dirs.length (Network.World.init dirs others : Network.World S A) := fun _ _ => List.length_map ..

/-- C72: any history of a model with networks; each rank does its part of it at its own speed. -/
theorem C72_networks (hn : 0 < n) (dirs : List Bool) (others : Nat) (ops : List (WOp S A)) (ho : ∀ o ∈ ops, ∀ q, rankOf o = some q → q < n) :
    AnySpeed n (fun r => parts n r ops (Network.World.init dirs others r)) (wrun n (Network.World.init dirs others) ops) :=
  (lock_parts hn ops _ (Same.init dirs others) ho).anySpeed

/-- C72: a model in which what a rank does depends on what it finds in its context. There is a history that the ranks follow, whatever speed they have. -/
theorem C72_networks_adaptive (hn : 0 < n) (dirs : List Bool) (others : Nat) (ts : List (Turn S A)) :
    ∃ ops, Follows n (Network.World.init dirs others) ts ops ∧
      AnySpeed n (fun r => script n r ts (Network.World.init dirs others r)) (wrun n (Network.World.init dirs others) ops) := by
  obtain ⟨ops, h, e⟩ := wrun_turns (n := n) ts (Network.World.init dirs others)
  exact ⟨ops, h, by rw [e]; exact (lock_script hn (Same.init dirs others) ts).anySpeed⟩

/-! ### The hypotheses are met -/

/-- Agents on three ranks, edges between them in a directed and an undirected network, a requested agent, and an agent that moves. -/
def sample : List (WOp Nat Nat) :=
  [.add 0 1 10, .add 1 2 20, .add 2 3 30, .request fun r => if r = 0 then [(2, 1)] else if r = 2 then [(1, 0)] else [], .addEdge 0 0 1 2 [(0, 5)], .addEdge 2 1 3 1 [], .synch true, .setState 1 2 21,
    .updateEdge 0 0 1 2 [(0, 6)], .synch true, .move fun r => if r = 1 then [(2, 2)] else [], .synch true, .synch false]

example : ∀ o ∈ sample, ∀ q, rankOf o = some q → q < 3 := by decide +kernel
example : (wrun 3 (Network.World.init [true, false]) sample).isSome = true := by decide +kernel
example : ((wrun 3 (Network.World.init [true, false]) sample).map fun w => ((w 0).ghostAgent 2, (w 2).agent 2, (w 2).containsEdge 0 1 2, (w 0).containsEdge 1 3 1)) =
    some (some 21, some 21, true, true) := by decide +kernel

/-- Each rank asks for the agents that it does not have. -/
def asks : List (Turn Nat Nat) :=
  [.own fun r _ => [.add r r], .request fun r c => ((List.range 3).filter fun u => decide (u ≠ r) && (c.agent u).isNone).map fun u => (u, u),
    .own fun r c => ((List.range 3).filter fun u => (c.ghostAgent u).isSome).map fun u => .addEdge 0 r u [], .synch true]

example : ((asks.foldlM (fun w t => wturn 3 t w) (Network.World.init [true])).map fun w => ((w 0).ghostAgent 2, (w 1).containsEdge 0 0 1, (w 2).containsEdge 0 1 0)) = some (some 2, true, false) := by
  decide +kernel

/-! ### Ranks that do not call the same functions -/

/-- C72: all ranks have to call `synchronize`. If one does not, the other one waits for ever. -/
theorem C72_violation_skipped :
    ∀ c w, Steps 2 c (Mpi.World.start fun r => if r = 0 then synchronize 2 0 true (Cx.init 0 [true] : Cx Nat Nat) else .ret (Cx.init r [true])) w → ¬ w.Raised 2 ∧ ∀ a, w.prog 0 ≠ .ret a := by
  intro c w s
  obtain ⟨h0, h1⟩ := Stuck.steps (i := 0) (j := 1) (by omega) (by omega) (by decide +kernel) s
  refine ⟨?_, fun a e => by rw [h0] at e; cases e⟩
  rintro ⟨i, hi, e⟩
  rcases (by omega : i = 0 ∨ i = 1) with rfl | rfl
  · rw [h0] at e; cases e
  · rw [h1] at e; cases e

/-- C72: with the same `sync_ghosts`. If one rank passes `True` and the other one `False`, then both wait for ever. -/
theorem C72_violation_ghosts :
    ∀ c w, Steps 2 c (Mpi.World.start fun r => synchronize 2 r (decide (r = 0)) (Cx.init r [true] : Cx Nat Nat)) w → ¬ w.Raised 2 ∧ ∀ i < 2, ∀ a, w.prog i ≠ .ret a := by
  intro c w s
  obtain ⟨h0, h1⟩ := Stuck.steps (i := 0) (j := 1) (by omega) (by omega) (by decide +kernel) s
  refine ⟨?_, fun i hi a e => ?_⟩
  · rintro ⟨i, hi, e⟩
    rcases (by omega : i = 0 ∨ i = 1) with rfl | rfl
    · rw [h0] at e; cases e
    · rw [h1] at e; cases e
  · rcases (by omega : i = 0 ∨ i = 1) with rfl | rfl
    · rw [h0] at e; cases e
    · rw [h1] at e; cases e

/-- C72: if a rank raises an exception, then the others are not told: rank 0 waits for ever in `synchronize`. -/
theorem C72_violation_raised :
    ∀ c w, Steps 2 c (Mpi.World.start fun r => parts 2 r [.remove 1 7, .synch true] (Cx.init r [true] : Cx Nat Nat)) w → w.prog 1 = .raise ∧ w.prog 0 ≠ .raise ∧ ∀ a, w.prog 0 ≠ .ret a := by
  intro c w s
  obtain ⟨h0, h1⟩ := Stuck.steps (i := 0) (j := 1) (by omega) (by omega) (by decide +kernel) s
  refine ⟨by rw [h1]; rfl, fun e => ?_, fun a e => ?_⟩
  · rw [h0] at e; cases e
  · rw [h0] at e; cases e

end Repast.Mpi.Net
