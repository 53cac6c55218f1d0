import Verif.Network.BuryProps
import Verif.Network.NetExample

/-!
Histories with removals that C25, C26 and C43 cover, and what happens in those that are not covered.
-/
namespace Repast.Network
open Repast.Dict Repast.Context

section
variable {S A : Type} [DecidableEq A] {d : Bool} {n : Nat}

/-- A test for `LegalRm`, if all agents are in `ids`, and those of `dead` are removed. -/
def legalRmB (d : Bool) (n : Nat) (ids dead : List Nat) (V : Sp S A) : WOp S A → Bool
  | .remove r u => decide (r < n) && (((V r).loc u).isSome && (List.range n).all fun k => ((V k).net.new ++ ((V k).net.upd ++ (V k).net.rem)).all fun p => !decide (p.1 = u) && !decide (p.2 = u))
  | .add r u s => legalB d n ids V (.add r u s) && !decide (u ∈ dead)
  | .clearEdges r pid => legalB d n ids V (.clearEdges r pid) && dead.isEmpty
  | op => legalB d n ids V op

/-- The removed agents after an operation. -/
def deadOf (dead : List Nat) : WOp S A → List Nat
  | .remove _ u => u :: dead
  | _ => dead

def legalRunRmB (d : Bool) (n : Nat) (ids : List Nat) : List Nat → Sp S A → List (WOp S A) → Bool
  | _, _, [] => true
  | dead, V, o :: os => legalRmB d n ids dead V o && legalRunRmB d n ids (deadOf dead o) (bstep d n (V, fun x => decide (x ∈ dead)) o).1 os

theorem legalRunRmB_sound {ids : List Nat} {ops : List (WOp S A)} : ∀ {V : Sp S A} {dead : List Nat}, SInv NoHid d n V → Inside n ids V → legalRunRmB d n ids dead V ops = true →
    LegalRunRm d n (V, fun x => decide (x ∈ dead)) ops := by
  induction ops with
  | nil => intros; trivial
  | cons o ops ih =>
    intro V dead h hi hb
    simp only [legalRunRmB, Bool.and_eq_true] at hb
    obtain ⟨hb1, hb2⟩ := hb
    by_cases ho : ∃ r u, o = .remove r u
    · obtain ⟨r, u, rfl⟩ := ho
      simp only [legalRmB, Bool.and_eq_true, decide_eq_true_eq, List.all_eq_true, List.mem_range, List.mem_append, Bool.not_eq_true', decide_eq_false_iff_not] at hb1
      obtain ⟨h1, h2, h3⟩ := hb1
      refine ⟨⟨h1, h2, h3⟩, ?_⟩
      have := ih (V := V.bury u) (dead := u :: dead) (h.bury h3) (by
        intro k hk x hx
        exact hi k hk x (isSome_bury.1 hx).2) hb2
      have e : bstep d n (V, fun x => decide (x ∈ dead)) (.remove r u) = (V.bury u, fun x => decide (x ∈ u :: dead)) := by
        show (V.bury u, fun x => decide (x ∈ dead) || decide (x = u)) = _
        congr 1
        funext x
        simp [Bool.or_comm]
      rw [e]; exact this
    · have ho : ∀ r u, o ≠ .remove r u := fun r u e => ho ⟨r, u, e⟩
      have hl : legalB d n ids V o = true := by
        cases o <;> simp only [legalRmB, Bool.and_eq_true] at hb1 <;> first | exact hb1 | exact hb1.1 | exact absurd rfl (ho _ _)
      obtain ⟨h1, h2⟩ := legalB_sound h hi hl
      have hd : deadOf dead o = dead := by cases o <;> first | rfl | exact absurd rfl (ho _ _)
      rw [bstep_of ho, hd] at hb2
      refine ⟨?_, by rw [bstep_of ho]; exact ih (h.step h1) h2 hb2⟩
      cases o with
      | remove r u => exact absurd rfl (ho _ _)
      | add r u s =>
        refine ⟨h1, ?_⟩
        simp only [legalRmB, Bool.and_eq_true, Bool.not_eq_true'] at hb1
        exact hb1.2
      | clearEdges r pid =>
        refine ⟨h1, ?_⟩
        simp only [legalRmB, Bool.and_eq_true, List.isEmpty_iff] at hb1
        intro u
        rw [hb1.2]; rfl
      | _ => exact h1

theorem legalRm_of {ids : List Nat} {ops : List (WOp S A)} (hb : legalRunRmB d n ids [] Sp.init ops = true) : LegalRunRm d n (Sp.init, alive) ops :=
  legalRunRmB_sound (dead := []) (SInv.init d n) (by intro r _ u hu; cases hu) hb

end

/-! ### Histories that are covered -/

/-- An agent with edges to its own rank and to another rank is removed; another one while the first removal is not yet synchronized. -/
def buried : List (WOp Nat Nat) := linked ++ [.remove 0 1, .remove 1 12]

example (d : Bool) : LegalRunRm d 2 (Sp.init, alive) (buried ++ [.synch true]) := by
  cases d <;> exact legalRm_of (ids := [1, 2, 11, 12]) (by decide +kernel)

/-- The agent that is removed has an edge, on both ranks, and a ghost. -/
example (d : Bool) : (wrun 2 (World.init [d]) linked).map (fun w => [(w 0).edgeAttr 0 1 11, (w 1).edgeAttr 0 1 11]) = some [some [(0, 9)], some [(0, 9)]] := by cases d <;> decide +kernel

/-- The network and the ranks are used after removals as before. -/
example (d : Bool) : LegalRunRm d 2 (Sp.init, alive) (buried ++ [.synch true, .add 0 3 7, .request (fun r => if r = 1 then [(3, 0)] else []), .addEdge 1 0 11 3 [(0, 3)], .synch true]) := by
  cases d <;> exact legalRm_of (ids := [1, 2, 3, 11, 12]) (by decide +kernel)

example (d : Bool) : LegalRunRm d 2 (Sp.init, alive) (linked ++ [.remove 0 1] ++ [.updateEdge 0 0 2 12 [(1, 8)], .synch true]) := by
  cases d <;> exact legalRm_of (ids := [1, 2, 11, 12]) (by decide +kernel)

example (d : Bool) : LegalRunRm d 2 (Sp.init, alive) (linked ++ [.remove 0 1] ++ [.removeEdge 0 0 2 12, .synch true]) := by
  cases d <;> exact legalRm_of (ids := [1, 2, 11, 12]) (by decide +kernel)

example (d : Bool) : LegalRunRm d 2 (Sp.init, alive) (linked ++ [.synch true] ++ [.remove 0 1, .synch true]) := by
  cases d <;> exact legalRm_of (ids := [1, 2, 11, 12]) (by decide +kernel)

/-! ### Histories that are not covered -/

/-- C26 is violated: if an edge to a ghost is removed and then one of its ends, `synchronize` raises an exception. -/
theorem C26_violation_removed_edge (d : Bool) :
    raises [d] (linked ++ [.removeEdge 0 0 1 11, .remove 0 1]) = false ∧ raises [d] (linked ++ [.removeEdge 0 0 1 11, .remove 0 1, .synch true]) = true ∧
    raises [d] (linked ++ [.removeEdge 0 0 1 11, .remove 1 11]) = false ∧ raises [d] (linked ++ [.removeEdge 0 0 1 11, .remove 1 11, .synch true]) = true := by
  cases d <;> refine ⟨?_, ?_, ?_, ?_⟩ <;> decide +kernel

/-- C43 is violated: `clear_edges` raises an exception at the next `synchronize` also if the agent of the other rank was removed, and its removal was synchronized. -/
theorem C43_violation_clear_buried (d : Bool) :
    raises [d] (linked ++ [.remove 1 11, .synch true, .clearEdges 0 0]) = false ∧ raises [d] (linked ++ [.remove 1 11, .synch true, .clearEdges 0 0, .synch true]) = true := by
  cases d <;> refine ⟨?_, ?_⟩ <;> decide +kernel

end Repast.Network
