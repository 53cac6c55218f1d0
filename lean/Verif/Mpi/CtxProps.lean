import Verif.Mpi.CtxTurns
import Verif.Mpi.MixProps
import Verif.Context.OneProps
import Verif.Context.Requested

/-
C72 for contexts with shared spaces: ranks may run at any speed.
-/
namespace Repast.Mpi.Ctx
open Repast.Dict Repast.Context Repast.Mpi
open Repast.Mixed (Kept form)
open Repast.Space (Pt)

variable {S P Q : Type} [Proj P Q] [Kept P] {ty : Nat → Nat} {n : Nat}

/-- C72: any history of a model with shared spaces `ps` (grids, continuous spaces, or both), in which the ranks also move agents with `move_agents`, and add spaces; each rank does its part of it at its own
speed. -/
theorem C72_bounded (hn : 0 < n) (ps : List P) (ops : List (WOp S P Q)) (ho : ∀ o ∈ ops, ∀ q, rankOf o = some q → q < n) :
    AnySpeed n (fun r => parts ty n r ops (Context.World.start ps r)) (wrun ty n (Context.World.start ps) ops) :=
  (lock_parts hn ops _ _ (Same.start ps) ho).anySpeed

/-- C72: a model in which what a rank does depends on what it finds in its context. There is a history that the ranks follow, whatever speed they have. -/
theorem C72_bounded_adaptive (hn : 0 < n) (ps : List P) (ts : List (Turn S P Q)) :
    ∃ ops, Follows ty n (Context.World.start ps) ts ops ∧
      AnySpeed n (fun r => script ty n r ts (Context.World.start ps r)) (wrun ty n (Context.World.start ps) ops) := by
  obtain ⟨ops, h, e⟩ := wrun_turns (n := n) (ty := ty) ts (Context.World.start ps)
  exact ⟨ops, h, by rw [e]; exact (lock_script hn ts _ _ (Same.start ps)).anySpeed⟩

/-! ### The hypotheses are met -/

/-- Agents walk over a border, are requested, and moved; a second grid is added. -/
def busy : List (WOp Nat) :=
  [.add 0 7 1, .add 1 8 5, .gmove 0 0 7 ⟨4, 0, 0⟩, .synch true, .request fun k => if k = 0 then [(8, 1)] else [], .gmove 0 0 7 ⟨6, 0, 0⟩, .addProj (line2 false 1).new, .synch true,
    .move fun k => if k = 1 then [(8, 0)] else [], .setState 0 8 3, .remove 1 7, .synch true]

example : ∀ o ∈ busy, ∀ q, rankOf o = some q → q < 2 := by decide +kernel
example : (wrun (fun _ => 0) 2 (Context.World.start [(line2 false 2).new]) busy).isSome = true := by decide +kernel

/-- The ranks of `C72_violation_buffers`: rank 0 has created its grid with a buffer, rank 1 without one. -/
def uneven : Context.World Nat GridSp := fun r => Cx.start r [(line2 false (if r = 0 then 2 else 0)).new]

/-- They get as far as the buffers. -/
def uneven1 : Option (Context.World Nat GridSp) := Context.each 2 (fun r => (uneven r).preSynchAll) uneven
theorem uneven1_some : uneven1.isSome = true := by decide +kernel
def uneven2 : Option (Context.World Nat GridSp) := Context.moveOob (fun _ => 0) 2 true (uneven1.get uneven1_some)
theorem uneven2_some : uneven2.isSome = true := by decide +kernel
def uneven3 : Option (Context.World Nat GridSp) := Context.updateGhosts 2 (uneven2.get uneven2_some)
theorem uneven3_some : uneven3.isSome = true := by decide +kernel

/-- C72: the ranks must give a space buffers of the same kind. If rank 0 creates its grid with a buffer and rank 1 without one, then rank 0 waits for ever in the first `synchronize`, whatever speeds the ranks
have. -/
theorem C72_violation_buffers :
    ∀ c w, Steps 2 c (Mpi.World.start fun r => synchronize (fun _ => 0) 2 r true (Cx.start r [(line2 false (if r = 0 then 2 else 0)).new] : Cx Nat GridSp)) w → w.prog 0 ≠ .raise ∧ ∀ a, w.prog 0 ≠ .ret a := by
  intro c w s
  have h3 : Halts 2 0 (fun r => Prog.forM (synchGrid 2 r) (List.range (uneven3.get uneven3_some r).projs.length) (uneven3.get uneven3_some r)) :=
    Halts.differ (j := 0) (k := 1) (by omega) (by omega) (by decide +kernel) (by decide +kernel)
  have h2 : Halts 2 0 (fun r => synchGhosts 2 r (uneven2.get uneven2_some r)) :=
    Halts.bind (f := uneven3.get uneven3_some) (by rw [Option.some_get]; exact lock_updateGhosts _) (by omega) h3
  have h1 : Halts 2 0 (fun r => (moveOob (fun _ => 0) 2 r (uneven1.get uneven1_some r)).bind fun c => synchGhosts 2 r c) :=
    Halts.bind (f := uneven2.get uneven2_some) (by rw [Option.some_get]; exact lock_moveOob _) (by omega) h2
  have h0 : Halts 2 0 (fun r => synchronize (fun _ => 0) 2 r true (uneven r)) :=
    Halts.bind (f := uneven1.get uneven1_some) (by rw [Option.some_get]; exact Lock.each (fun r => (uneven r).preSynchAll) uneven) (by omega) h1
  have := h0.waits (by omega) s
  exact ⟨fun e => (by rw [e] at this; cases this), fun a e => (by rw [e] at this; cases this)⟩

end Repast.Mpi.Ctx
