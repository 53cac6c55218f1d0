import Verif.Mixed.Late
import Verif.Context.SumSpace
import Verif.Mixed.MoveProps

/-
C70 for contexts that have both shared grids and shared continuous spaces (context.py:71-94).
-/
namespace Repast.Mixed
open Repast.Dict Repast.Context Repast.Network Repast.Space Repast.Topology Repast.Tree

variable {S A : Type}

/-! ### Model -/

/-- A new shared grid or a new shared continuous space (space.py:330-370, 521-561), as for contexts with spaces of one kind. -/
def newSpace : GCfg ⊕ CSCfg → GridSp ⊕ CSpaceSp
  | .inl g => .inl g.new
  | .inr g => .inr g.new

/-! ### Lemmas -/

theorem Vacant.inl {P1 P2 Q1 Q2 : Type} [Proj P1 Q1] [Proj P2 Q2] {p : P1} {b : (Nat → Bool) → P1} (v : Vacant p b) : Vacant (P := P1 ⊕ P2) (.inl p) (fun f => .inl (b f)) :=
  ⟨congrArg _ v.none, fun r f u => congrArg Sum.inl (v.add r f u), fun r f u => congrArg Sum.inl (v.remove r f u)⟩

theorem Vacant.inr {P1 P2 Q1 Q2 : Type} [Proj P1 Q1] [Proj P2 Q2] {p : P2} {b : (Nat → Bool) → P2} (v : Vacant p b) : Vacant (P := P1 ⊕ P2) (.inr p) (fun f => .inr (b f)) :=
  ⟨congrArg _ v.none, fun r f u => congrArg Sum.inr (v.add r f u), fun r f u => congrArg Sum.inr (v.remove r f u)⟩

/-! ### Theorems -/

/-- C70 for contexts with grids, continuous spaces and networks, to which a grid or a continuous space is added before the first `synchronize` and `request_agents`: the contexts are those of a model that has added it
first. -/
theorem C70_both_partial (n : Nat) (nf : Bool) (ps : List (GridSp ⊕ CSpaceSp)) (dirs : List Bool) (g : GCfg ⊕ CSCfg) {ops : List (WOp S A (Pt ⊕ CPt))} (h : SetUp ps.length dirs.length [] ops) :
    (wrun n nf (World.start ps dirs) ops).map (fun w : World S A (GridSp ⊕ CSpaceSp) => w.addSpace (newSpace g)) = wrun n nf (World.start (ps ++ [newSpace g]) dirs) ops := by
  cases g with
  | inl g => exact space_late n nf ps dirs (grid_vacant g).inl h
  | inr g => exact space_late n nf ps dirs (cspace_vacant g).inr h

/-- C70, at any time, for contexts with grids and continuous spaces: the local agents and ghosts are in the new space, without a location, and no others; nothing changes in the other spaces. -/
theorem C70_placed_both (c : Mx S A (GridSp ⊕ CSpaceSp)) (g : GCfg ⊕ CSCfg) :
    (∀ u, (c.addSpace (newSpace g)).placed c.spaces.length u = if ((c.agent u).isSome || (c.ghostAgent u).isSome) = true then some (none : Option (Pt ⊕ CPt)) else none) ∧
      (∀ pid < c.spaces.length, ∀ u, (c.addSpace (newSpace g)).placed pid u = (c.placed pid u : Option (Option (Pt ⊕ CPt)))) := by
  refine ⟨?_, ?_⟩
  · intro u
    have : (u ∈ keys c.nc.locals ∨ u ∈ keys c.nc.ghosts) ↔ ((c.agent u).isSome || (c.ghostAgent u).isSome) = true := by
      rw [← get_isSome, ← get_isSome, Bool.or_eq_true]
      simp only [Mx.agent, Mx.ghostAgent, Network.Cx.agent, Network.Cx.ghostAgent, Option.isSome_map]
    unfold Mx.placed Mx.addSpace
    cases g with
    | inl g =>
      rw [show newSpace (.inl g) = Sum.inl g.new from rfl, (grid_vacant g).inl.none, (grid_vacant g).inl.adds]
      simp only [List.getElem?_concat_length, Option.bind_some, Bool.false_or, List.mem_append, decide_eq_true_eq]
      show Option.map _ (if _ then _ else _) = _
      by_cases h : u ∈ keys c.nc.locals ∨ u ∈ keys c.nc.ghosts
      · rw [if_pos (this.1 h)]; simp [h]
      · rw [if_neg fun x => h (this.2 x)]; simp [h]
    | inr g =>
      rw [show newSpace (.inr g) = Sum.inr g.new from rfl, (cspace_vacant g).inr.none, (cspace_vacant g).inr.adds]
      simp only [List.getElem?_concat_length, Option.bind_some, Bool.false_or, List.mem_append, decide_eq_true_eq]
      show Option.map _ (Option.bind (some _) fun s => _) = _
      by_cases h : u ∈ keys c.nc.locals ∨ u ∈ keys c.nc.ghosts
      · rw [if_pos (this.1 h)]; simp [h]
      · rw [if_neg fun x => h (this.2 x)]; simp [h]
  · intro pid hp u
    unfold Mx.placed Mx.addSpace
    rw [List.getElem?_append_left hp]

/-! ### Example -/

/-- A model with a grid and a network; agents are added, placed and linked. Then a continuous space is added. -/
def bothOps : List (WOp Nat Nat (Pt ⊕ CPt)) := [.add 0 1 5, .add 1 2 6, .add 0 3 7, .gmove 0 0 1 (.inl ⟨2, 0, 0⟩), .addEdge 0 0 1 3 [(0, 4)], .remove 0 3]

example : SetUp 1 1 [] bothOps := by simp [SetUp, bothOps]

example : ((wrun 2 true (World.start [newSpace (.inl (line 2 1))] [false]) bothOps).map fun w => ((w.addSpace (newSpace (.inr (plane0)))) 0).placed 1 1) = some (some (none : Option (Pt ⊕ CPt))) := by decide +kernel

end Repast.Mixed
