import Verif.Context.World

/-! What the contexts rely on in a shared space, for grids and continuous spaces alike. -/
namespace Repast.Context
open Repast.Dict Repast.Space

/-- The geometry of a shared space with points `Q`. -/
structure Geo (Q : Type) where
  /-- the number of ranks -/
  n : Nat
  /-- the buffer size -/
  buf : Nat
  /-- where a move leads -/
  dest : Q → Q
  /-- the points that are locations of agents -/
  valid : Q → Prop
  /-- the local bounds of a rank contain the point -/
  inside : Nat → Q → Bool
  /-- the rank whose local bounds contain the point -/
  owner : Q → Nat
  /-- the point is within the buffer size of the local bounds of the rank -/
  near : Nat → Q → Prop
  /-- two agents must not have the same location -/
  excl : Prop

variable {Q P : Type}

/-- The entry in the out of bounds queue of rank `r` for an agent that is where it is. -/
def Geo.aim (G : Geo Q) (r : Nat) : Option (Option Q) → Option (Nat × Q)
  | some (some q) => if G.inside r q then none else some (G.owner q, q)
  | _ => none

theorem Geo.aim_some {G : Geo Q} {r : Nat} {o : Option (Option Q)} {e : Nat × Q} : G.aim r o = some e ↔ o = some (some e.2) ∧ G.inside r e.2 = false ∧ e.1 = G.owner e.2 := by
  obtain ⟨k, q⟩ := e
  unfold Geo.aim
  split
  · rename_i p
    split
    · rename_i h
      constructor
      · intro h; simp at h
      · rintro ⟨h1, h2, -⟩
        simp only [Option.some.injEq] at h1
        subst h1
        rw [h] at h2; cases h2
    · rename_i h
      constructor
      · intro e
        simp only [Option.some.injEq, Prod.mk.injEq] at e
        obtain ⟨rfl, rfl⟩ := e
        exact ⟨rfl, by simpa using h, rfl⟩
      · rintro ⟨h1, -, h3⟩
        simp only [Option.some.injEq] at h1
        subst h1
        simp only at h3
        rw [h3]
  · rename_i h
    constructor
    · intro h; simp at h
    · rintro ⟨h1, -⟩
      exact absurd h1 (h q)

/-- A shared space that behaves according to the geometry: `new` is a new one, and `Ok r p` says that `p` is a consistent state on rank `r`. -/
structure Kind (G : Geo Q) (P : Type) [Proj P Q] where
  new : P
  Ok : Nat → P → Prop
  n_pos : 0 < G.n
  owner_spec : ∀ {q}, G.valid q → G.owner q < G.n ∧ G.inside (G.owner q) q = true ∧ ∀ k, k < G.n → G.inside k q = true → k = G.owner q
  dest_valid : ∀ q, G.valid (G.dest q)
  dest_id : ∀ {q}, G.valid q → G.dest q = q
  new_ok : ∀ r, Ok r new
  new_at : Proj.where_ new = fun _ => none
  valid : ∀ {r p u q}, Ok r p → Proj.where_ p u = some (some q) → G.valid q
  bufSize : ∀ {r p}, Ok r p → Proj.bufSize p = G.buf
  oob : ∀ {r p}, Ok r p → ∀ u, Proj.oob p u = G.aim r (Proj.where_ p u)
  add : ∀ {r p u}, Ok r p → Proj.where_ p u = none → Ok r (Proj.add r p u) ∧ Proj.where_ (Proj.add r p u) = upd (Proj.where_ p) u (some none)
  remove : ∀ {r p}, Ok r p → ∀ u, Ok r (Proj.remove r p u) ∧ Proj.where_ (Proj.remove r p u) = upd (Proj.where_ p) u none
  move : ∀ {r p u}, Ok r p → (Proj.where_ p u).isSome = true → ∀ q, (G.excl → ∀ v, v ≠ u → Proj.where_ p v ≠ some (some (G.dest q))) →
    ∃ p', Proj.move r p u q = some p' ∧ Ok r p' ∧ Proj.where_ p' = upd (Proj.where_ p) u (some (some (G.dest q)))
  clear : ∀ {r p}, Ok r p → (∀ u, G.aim r (Proj.where_ p u) = none) → Ok r (Proj.clear r p) ∧ Proj.where_ (Proj.clear r p) = Proj.where_ p
  sends : ∀ {r p}, 0 < G.buf → r < G.n → Ok r p → (∀ u q, Proj.where_ p u = some (some q) → G.inside r q = true) →
    ∃ l, Proj.sends r G.n p = some l ∧ (∀ k u q, (k, u, q) ∈ l ↔ Proj.where_ p u = some (some q) ∧ k < G.n ∧ k ≠ r ∧ G.near k q) ∧
      ∀ k, ((l.filter (fun m => decide (m.1 = k))).map fun m => m.2.1).Nodup

end Repast.Context
