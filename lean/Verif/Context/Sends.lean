import Verif.Context.OneProps

/-! The messages with which a rank sends its agents to the buffers of the other ranks: what follows from the lists for the individual ranks. -/
namespace Repast.Context

theorem flatMap_single {β : Type} {l : List β} {k : Nat} : ∀ {n : Nat}, k < n → ((List.range n).flatMap fun j => if j = k then l else []) = l := by
  intro n
  induction n with
  | zero => intro h; omega
  | succ n ih =>
    intro h
    rw [List.range_succ, List.flatMap_append]
    by_cases hk : n = k
    · subst hk
      have : ((List.range n).flatMap fun j => if j = n then l else []) = [] := by
        rw [List.flatMap_eq_nil_iff]
        intro j hj
        rw [if_neg (by have := List.mem_range.1 hj; omega)]
      rw [this]; simp
    · rw [ih (by omega)]; simp [hk]

theorem nodup_map_inj {α β : Type} {f : α → β} {l : List α} (hnd : l.Nodup) (hinj : ∀ x ∈ l, ∀ y ∈ l, f x = f y → x = y) : (l.map f).Nodup := by
  induction l with
  | nil => simp
  | cons x l ih =>
    rw [List.nodup_cons] at hnd
    rw [List.map_cons, List.nodup_cons]
    refine ⟨?_, ih hnd.2 (fun a ha b hb => hinj a (by simp [ha]) b (by simp [hb]))⟩
    intro hm
    obtain ⟨y, hy, e⟩ := List.mem_map.1 hm
    exact hnd.1 (hinj y (by simp [hy]) x (by simp) e ▸ hy)

theorem sends_spec {Q : Type} {n r : Nat} {send : Nat → List (Nat × Q)} {loc : Nat → Q → Prop} {near : Nat → Q → Prop}
    (hmem : ∀ k a p, k < n → ((a, p) ∈ send k ↔ loc a p ∧ k ≠ r ∧ near k p)) (hloc : ∀ a p q, loc a p → loc a q → p = q)
    (hnd : ∀ k < n, (send k).Nodup) :
    (∀ k u q, (k, u, q) ∈ ((List.range n).flatMap fun k => (send k).map fun m => (k, m.1, m.2)) ↔ loc u q ∧ k < n ∧ k ≠ r ∧ near k q) ∧
    ∀ k, ((((List.range n).flatMap fun k => (send k).map fun m => (k, m.1, m.2)).filter (fun m => decide (m.1 = k))).map fun m => m.2.1).Nodup := by
  have hraw : ∀ k u q, (k, u, q) ∈ ((List.range n).flatMap fun k => (send k).map fun m => (k, m.1, m.2)) ↔ loc u q ∧ k < n ∧ k ≠ r ∧ near k q := by
    intro k a p
    simp only [List.mem_flatMap, List.mem_range, List.mem_map, Prod.mk.injEq]
    constructor
    · rintro ⟨k', hk', ⟨a', p'⟩, hm, rfl, rfl, rfl⟩
      obtain ⟨h1, h2, h3⟩ := (hmem _ _ _ hk').1 hm
      exact ⟨h1, hk', h2, h3⟩
    · rintro ⟨h1, hk', h2, h3⟩
      exact ⟨k, hk', (a, p), (hmem _ _ _ hk').2 ⟨h1, h2, h3⟩, rfl, rfl, rfl⟩
  refine ⟨hraw, ?_⟩
  intro k
  by_cases hk : k < n
  · have : ((List.range n).flatMap fun k => (send k).map fun m => (k, m.1, m.2)).filter (fun m => decide (m.1 = k)) =
        (send k).map fun m => (k, m.1, m.2) := by
      rw [List.filter_flatMap]
      have hz : ∀ j, ((send j).map fun m => (j, m.1, m.2)).filter (fun m => decide (m.1 = k)) =
          if j = k then (send k).map fun m => (k, m.1, m.2) else [] := by
        intro j
        split
        · rename_i e; rw [e, List.filter_eq_self]
          intro m hm
          obtain ⟨x, -, rfl⟩ := List.mem_map.1 hm
          simp
        · rename_i e
          rw [List.filter_eq_nil_iff]
          intro m hm
          obtain ⟨x, -, rfl⟩ := List.mem_map.1 hm
          simpa using e
      simp only [hz]
      exact flatMap_single hk
    rw [this, List.map_map]
    refine nodup_map_inj (hnd k hk) ?_
    rintro ⟨a, p⟩ hx ⟨b, q⟩ hy e
    simp only [Function.comp_apply] at e
    subst e
    rw [hloc a p q ((hmem _ _ _ hk).1 hx).1 ((hmem _ _ _ hk).1 hy).1]
  · have : ((List.range n).flatMap fun k => (send k).map fun m => (k, m.1, m.2)).filter (fun m => decide (m.1 = k)) = [] := by
      rw [List.filter_eq_nil_iff]
      rintro ⟨j, a, p⟩ hm
      have := ((hraw _ _ _).1 hm).2.1
      simp only [decide_eq_true_eq] at this ⊢
      omega
    rw [this]; simp

end Repast.Context
