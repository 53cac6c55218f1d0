import Verif.Context.Kind

/-!
What contexts with several shared spaces rely on in each of them. When an agent leaves a rank, `synchronize` removes it from the first space of the old rank only
(context.py:145-163); in the other spaces it is left behind. `Loose` describes a space that may contain agents that were left behind: `Ok r p ag` says that `p`, on rank
`r`, has the agents `ag` and perhaps others that were left behind at locations of other ranks.
-/
namespace Repast.Context
open Repast.Dict Repast.Space

variable {Q P : Type}

structure Loose (G : Geo Q) (P : Type) [Proj P Q] where
  new : P
  Ok : Nat → P → (Nat → Option (Option Q)) → Prop
  /-- nothing is ever left behind -/
  exact : Prop
  n_pos : 0 < G.n
  owner_spec : ∀ {q}, G.valid q → G.owner q < G.n ∧ G.inside (G.owner q) q = true ∧ ∀ k, k < G.n → G.inside k q = true → k = G.owner q
  /-- the points that `move` accepts -/
  takes : Q → Prop
  takes_valid : ∀ {q}, G.valid q → takes q
  dest_id : ∀ {q}, G.valid q → G.dest q = q
  new_ok : ∀ r, Ok r new (fun _ => none)
  shows : ∀ {r p ag u x}, Ok r p ag → ag u = some x → Proj.where_ p u = some x
  hides : ∀ {r p ag}, exact → Ok r p ag → Proj.where_ p = ag
  valid : ∀ {r p ag u q}, Ok r p ag → ag u = some (some q) → G.valid q
  bufSize : ∀ {r p ag}, Ok r p ag → Proj.bufSize p = G.buf
  oob : ∀ {r p ag}, Ok r p ag → ∀ u, Proj.oob p u = G.aim r (ag u)
  add : ∀ {r p ag u}, Ok r p ag → ag u = none → Ok r (Proj.add r p u) (upd ag u (some none))
  remove : ∀ {r p ag u}, Ok r p ag → (ag u).isSome = true → Ok r (Proj.remove r p u) (upd ag u none)
  move : ∀ {r p ag u}, Ok r p ag → (ag u).isSome = true → ∀ q, takes q → (G.excl → ∀ v, v ≠ u → ag v ≠ some (some (G.dest q))) →
    ∃ p', Proj.move r p u q = some p' ∧ Ok r p' (upd ag u (some (some (G.dest q))))
  /-- the queue is cleared when no agent is out of bounds -/
  clear : ∀ {r p ag}, Ok r p ag → (∀ u, G.aim r (ag u) = none) → Ok r (Proj.clear r p) ag
  /-- the queue is cleared and some agents are left behind: all that are out of bounds, and none that is at a location of this rank -/
  leave : ∀ {r p ag ag'}, ¬ exact → Ok r p ag → (∀ u, ag' u = ag u ∨ ag' u = none) → (∀ u, G.aim r (ag u) ≠ none → ag' u = none) →
    (∀ u q, ag u = some (some q) → G.inside r q = true → ag' u = ag u) → Ok r (Proj.clear r p) ag'
  sends : ∀ {r p ag}, 0 < G.buf → r < G.n → Ok r p ag → (∀ u q, ag u = some (some q) → G.inside r q = true) →
    ∃ l, Proj.sends r G.n p = some l ∧ (∀ k u q, (k, u, q) ∈ l ↔ ag u = some (some q) ∧ k < G.n ∧ k ≠ r ∧ G.near k q) ∧
      ∀ k, ((l.filter (fun m => decide (m.1 = k))).map fun m => m.2.1).Nodup

/-- A space from which every agent that leaves is removed. -/
def Kind.strict [Proj P Q] {G : Geo Q} (K : Kind G P) : Loose G P where
  new := K.new
  Ok r p ag := K.Ok r p ∧ Proj.where_ p = ag
  exact := True
  n_pos := K.n_pos
  owner_spec := K.owner_spec
  takes _ := True
  takes_valid _ := trivial
  dest_id := K.dest_id
  new_ok r := ⟨K.new_ok r, K.new_at⟩
  shows h e := by rw [h.2]; exact e
  hides _ h := h.2
  valid h e := K.valid h.1 (by rw [h.2]; exact e)
  bufSize h := K.bufSize h.1
  oob h u := by rw [K.oob h.1, h.2]
  add := by
    rintro r p ag u ⟨h, rfl⟩ hu
    exact K.add h hu
  remove := by
    rintro r p ag u ⟨h, rfl⟩ -
    exact K.remove h u
  move := by
    rintro r p ag u ⟨h, rfl⟩ hu q - hf
    exact K.move h hu q hf
  clear := by
    rintro r p ag ⟨h, rfl⟩ hn
    exact K.clear h hn
  leave h := absurd trivial h
  sends := by
    rintro r p ag h0 hr ⟨h, rfl⟩ hin
    exact K.sends h0 hr h hin

/-- The spaces of a context: at least one, on the same ranks; agents are left behind in all but the first. -/
structure Spaces (Q P : Type) [Proj P Q] where
  n : Nat
  m : Nat
  G : Nat → Geo Q
  K : ∀ j, Loose (G j) P
  ranks : ∀ j, (G j).n = n
  pos : 0 < m
  first : (K 0).exact
  others : ∀ j, 0 < j → ¬ (K j).exact

end Repast.Context
