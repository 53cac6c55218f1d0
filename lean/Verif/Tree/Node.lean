import Verif.Tree.Model

/-! The tree represents a finite map from points to entries (pointer and count). -/
namespace Repast.Tree
open Repast.Space (Box upd)

theorem upd_self {α β : Type} [DecidableEq α] (f : α → β) (a : α) (b : β) : upd f a b a = b := by simp [upd]
theorem upd_ne {α β : Type} [DecidableEq α] (f : α → β) {a x : α} (b : β) (h : x ≠ a) : upd f a b x = f x := by simp [upd, h]

theorem NBox.contains_iff (d3 : Bool) (b : NBox) (p : CPt) : b.contains d3 p = true ↔
    (b.x0 ≤ p.x ∧ p.x ≤ b.x1) ∧ (b.y0 ≤ p.y ∧ p.y ≤ b.y1) ∧ (d3 = true → b.z0 ≤ p.z ∧ p.z ≤ b.z1) := by
  cases d3 <;> simp [NBox.contains, and_assoc]

theorem childIndex_lt (d3 : Bool) (b : NBox) (p : CPt) : childIndex d3 b p < arity d3 := by
  cases d3
  · simp only [childIndex, arity, Bool.false_eq_true, if_false]
    split <;> split <;> omega
  · simp only [childIndex, arity, if_true]
    split <;> split <;> split <;> omega

/-- A point of a node's bounds is in the bounds of the child it is sent to. -/
theorem childBox_contains {d3 : Bool} {b : NBox} {p : CPt} (h : b.contains d3 p = true) :
    (childBox d3 b (childIndex d3 b p)).contains d3 p = true := by
  rw [NBox.contains_iff] at *
  obtain ⟨⟨h1, h2⟩, ⟨h3, h4⟩, h5⟩ := h
  cases d3 with
  | false =>
    simp only [childIndex, childBox, NBox.xp, NBox.yp]
    by_cases hx : b.x0 + (b.x1 - b.x0) / 2 ≤ p.x <;> by_cases hy : b.y0 + (b.y1 - b.y0) / 2 ≤ p.y <;>
      simp [hx, hy] <;> grind
  | true =>
    have h6 := h5 rfl
    simp only [childIndex, childBox, NBox.xp, NBox.yp, NBox.zp]
    by_cases hx : b.x0 + (b.x1 - b.x0) / 2 ≤ p.x <;> by_cases hy : b.y0 + (b.y1 - b.y0) / 2 ≤ p.y <;>
      by_cases hz : b.z0 + (b.z1 - b.z0) / 2 ≤ p.z <;> simp [hx, hy, hz] <;> grind

abbrev Content := CPt → Option (Nat × Nat)

/-- The node represents the map `M` on the region `R`. -/
def Holds (d3 : Bool) (pts : Nat → CPt) (M : Content) : (CPt → Prop) → Node → Prop
  | R, .leaf b items => (∀ c, R c → b.contains d3 c = true) ∧ (items.map (fun kv => pts kv.1)).Nodup ∧
      ∀ k n, (k, n) ∈ items ↔ R (pts k) ∧ M (pts k) = some (k, n)
  | R, .comp b _ ch => (∀ c, R c → b.contains d3 c = true) ∧
      ∀ i, i < arity d3 → Holds d3 pts M (fun c => R c ∧ childIndex d3 b c = i) (ch i)

def Node.size : Node → Nat
  | .leaf _ items => (items.map (·.2)).sum
  | .comp _ n _ => n

/-- The sizes of composite nodes are right. -/
def SizeOk (d3 : Bool) : Node → Prop
  | .leaf _ _ => True
  | .comp _ n ch => n = ((List.range (arity d3)).map (fun i => (ch i).size)).sum ∧ ∀ i, i < arity d3 → SizeOk d3 (ch i)

theorem Holds.ext {d3 : Bool} {pts pts' : Nat → CPt} {M M' : Content} {R : CPt → Prop} {nd : Node} (h : Holds d3 pts M R nd)
    (hM : ∀ c, R c → M' c = M c) (hk : ∀ k, pts' k = pts k ∨ ((∀ c n, R c → M c ≠ some (k, n)))) :
    Holds d3 pts' M' R nd := by
  induction nd generalizing R with
  | leaf b items =>
    obtain ⟨h1, h2, h3⟩ := h
    have hp : ∀ kv ∈ items, pts' kv.1 = pts kv.1 := by
      rintro ⟨k, n⟩ hm
      have := (h3 k n).1 hm
      rcases hk k with e | e
      · exact e
      · exact absurd this.2 (e _ _ this.1)
    refine ⟨h1, ?_, ?_⟩
    · rw [List.map_congr_left hp]; exact h2
    · intro k n
      constructor
      · intro hm
        have := (h3 k n).1 hm
        rw [hp _ hm]
        exact ⟨this.1, by rw [hM _ this.1]; exact this.2⟩
      · rintro ⟨r, e⟩
        rw [hM _ r] at e
        rcases hk k with e' | e'
        · rw [e'] at r e
          exact (h3 k n).2 ⟨r, e⟩
        · exact absurd e (e' _ _ r)
  | comp b n ch ih =>
    obtain ⟨h1, h2⟩ := h
    refine ⟨h1, fun i hi => ih i (h2 i hi) (fun c hc => hM c hc.1) ?_⟩
    intro k
    rcases hk k with e | e
    · exact Or.inl e
    · exact Or.inr (fun c n hc => e c n hc.1)

theorem Holds.region {d3 : Bool} {pts : Nat → CPt} {M : Content} {R R' : CPt → Prop} {nd : Node} (h : Holds d3 pts M R nd) (hR : ∀ c, R c ↔ R' c) :
    Holds d3 pts M R' nd := by
  have : R = R' := funext fun c => propext (hR c)
  rw [← this]; exact h

theorem Holds.box {d3 : Bool} {pts : Nat → CPt} {M : Content} {R : CPt → Prop} {nd : Node} (h : Holds d3 pts M R nd) :
    ∀ c, R c → (match nd with | .leaf b _ => b | .comp b _ _ => b).contains d3 c = true := by
  cases nd <;> exact h.1

/-! ### the items of a leaf -/

/-- The entry of a point after one more addition. -/
def bump (p : Nat) : Option (Nat × Nat) → Nat × Nat
  | none => (p, 1)
  | some (k, n) => (k, n + 1)

/-- The entry of a point after a removal. -/
def drop1 : Option (Nat × Nat) → Option (Nat × Nat)
  | none => none
  | some (k, n) => if n = 1 then none else some (k, n - 1)

theorem moAdd_none {pts : Nat → CPt} {p : Nat} {l : List (Nat × Nat)} (h : ∀ kv ∈ l, pts kv.1 ≠ pts p) : moAdd pts p l = l ++ [(p, 1)] := by
  induction l with
  | nil => rfl
  | cons x l ih =>
    obtain ⟨k, n⟩ := x
    simp only [moAdd]
    rw [if_neg (h (k, n) (by simp)), ih (fun kv hm => h kv (List.mem_cons_of_mem _ hm))]
    rfl

theorem moAdd_some {pts : Nat → CPt} {p k n : Nat} {l : List (Nat × Nat)} (hn : (l.map (fun kv => pts kv.1)).Nodup) (h : (k, n) ∈ l)
    (he : pts k = pts p) :
    ∃ l1 l2, l = l1 ++ (k, n) :: l2 ∧ moAdd pts p l = l1 ++ (k, n + 1) :: l2 := by
  induction l with
  | nil => cases h
  | cons x l ih =>
    obtain ⟨k', n'⟩ := x
    simp only [List.map_cons, List.nodup_cons, List.mem_map, not_exists, not_and] at hn
    rcases List.mem_cons.1 h with e | h
    · cases e
      exact ⟨[], l, rfl, by simp [moAdd, he]⟩
    · obtain ⟨l1, l2, e1, e2⟩ := ih hn.2 h
      refine ⟨(k', n') :: l1, l2, by rw [e1]; rfl, ?_⟩
      simp only [moAdd]
      rw [if_neg (by rw [← he]; intro e; exact hn.1 _ h e.symm), e2]
      rfl

theorem moRemove_some {pts : Nat → CPt} {p k n : Nat} {l : List (Nat × Nat)} (hn : (l.map (fun kv => pts kv.1)).Nodup) (h : (k, n) ∈ l)
    (he : pts k = pts p) :
    ∃ l1 l2, l = l1 ++ (k, n) :: l2 ∧ moRemove pts p l = (l1 ++ ((if n = 1 then [] else [(k, n - 1)]) ++ l2), true) := by
  induction l with
  | nil => cases h
  | cons x l ih =>
    obtain ⟨k', n'⟩ := x
    simp only [List.map_cons, List.nodup_cons, List.mem_map, not_exists, not_and] at hn
    rcases List.mem_cons.1 h with e | h
    · cases e
      refine ⟨[], l, rfl, ?_⟩
      simp only [moRemove, he, if_true]
      by_cases h1 : n = 1 <;> simp [h1]
    · obtain ⟨l1, l2, e1, e2⟩ := ih hn.2 h
      refine ⟨(k', n') :: l1, l2, by rw [e1]; rfl, ?_⟩
      simp only [moRemove]
      rw [if_neg (by rw [← he]; intro e; exact hn.1 _ h e.symm), e2]
      rfl

theorem soRemove_some {p n : Nat} {l : List (Nat × Nat)} (hn : ∀ m, (p, m) ∈ l → m = n) (h : (p, n) ∈ l) :
    ∃ l1 l2, l = l1 ++ (p, n) :: l2 ∧ soRemove p l = (l1 ++ l2, true) := by
  induction l with
  | nil => cases h
  | cons x l ih =>
    obtain ⟨k', n'⟩ := x
    by_cases hk : k' = p
    · subst hk
      have : n' = n := hn n' (by simp)
      subst this
      exact ⟨[], l, rfl, by simp [soRemove]⟩
    · have h' : (p, n) ∈ l := by
        rcases List.mem_cons.1 h with e | h
        · cases e; exact absurd rfl hk
        · exact h
      obtain ⟨l1, l2, e1, e2⟩ := ih (fun m hm => hn m (List.mem_cons_of_mem _ hm)) h'
      refine ⟨(k', n') :: l1, l2, by rw [e1]; rfl, ?_⟩
      simp only [soRemove]
      rw [if_neg hk, e2]
      rfl

/-- Adding to the items of a leaf. In a single occupancy space the point is new. -/
theorem itemsAdd_spec {single : Bool} {pts : Nat → CPt} {M : Content} {R : CPt → Prop} {p : Nat} {items : List (Nat × Nat)}
    (hK : ∀ c k n, M c = some (k, n) → pts k = c)
    (h2 : (items.map (fun kv => pts kv.1)).Nodup) (h3 : ∀ k n, (k, n) ∈ items ↔ R (pts k) ∧ M (pts k) = some (k, n))
    (hp : R (pts p)) (hs : single = true → M (pts p) = none) :
    let l := itemsAdd single pts p items
    (l.map (fun kv => pts kv.1)).Nodup ∧
    (∀ k n, (k, n) ∈ l ↔ R (pts k) ∧ upd M (pts p) (some (bump p (M (pts p)))) (pts k) = some (k, n)) ∧
    (l.map (·.2)).sum = (items.map (·.2)).sum + 1 ∧
    l.length = items.length + (if M (pts p) = none then 1 else 0) := by
  intro l
  cases hM : M (pts p) with
  | none =>
    have hne : ∀ kv ∈ items, pts kv.1 ≠ pts p := by
      rintro ⟨k, n⟩ hm e
      have := ((h3 k n).1 hm).2
      simp only at e
      rw [e, hM] at this; cases this
    have hl : l = items ++ [(p, 1)] := by
      show itemsAdd single pts p items = _
      unfold itemsAdd
      cases single with
      | false => simpa using moAdd_none hne
      | true =>
        simp only [if_true, soAdd]
        rw [if_neg]
        intro hm
        obtain ⟨kv, hm, e⟩ := List.mem_map.1 hm
        exact hne kv hm (by rw [e])
    rw [hl]
    refine ⟨?_, ?_, by simp, by simp⟩
    · rw [List.map_append, List.nodup_append]
      refine ⟨h2, by simp, ?_⟩
      intro a ha b hb
      simp only [List.map_cons, List.map_nil, List.mem_singleton] at hb
      obtain ⟨kv, hm, e⟩ := List.mem_map.1 ha
      rw [← e, hb]; exact hne kv hm
    · intro k n
      simp only [List.mem_append, List.mem_singleton, Prod.mk.injEq]
      constructor
      · rintro (hm | ⟨rfl, rfl⟩)
        · have := (h3 k n).1 hm
          rw [upd_ne _ _ (hne _ hm)]; exact this
        · rw [upd_self]; exact ⟨hp, rfl⟩
      · rintro ⟨r, e⟩
        by_cases he : pts k = pts p
        · rw [he, upd_self] at e
          simp only [bump, Option.some.injEq, Prod.mk.injEq] at e
          exact Or.inr ⟨e.1.symm, e.2.symm⟩
        · rw [upd_ne _ _ he] at e
          exact Or.inl ((h3 k n).2 ⟨r, e⟩)
  | some v =>
    obtain ⟨k0, n0⟩ := v
    have hk0 := hK _ _ _ hM
    have hm0 : (k0, n0) ∈ items := (h3 k0 n0).2 ⟨by rw [hk0]; exact hp, by rw [hk0]; exact hM⟩
    cases single with
    | true => rw [hs rfl] at hM; cases hM
    | false =>
      obtain ⟨l1, l2, e1, e2⟩ := moAdd_some h2 hm0 hk0
      have hl : l = l1 ++ (k0, n0 + 1) :: l2 := by
        show itemsAdd false pts p items = _
        simpa [itemsAdd] using e2
      rw [hl, e1]
      refine ⟨by rw [e1] at h2; simpa using h2, ?_, by simp; omega, by simp⟩
      intro k n
      have h3' := h3 k n
      rw [e1] at h3' h2
      simp only [List.map_append, List.map_cons, List.nodup_append, List.nodup_cons, List.mem_map, List.mem_cons, not_exists, not_and] at h2
      have out1 : ∀ m, (k, m) ∈ l1 → pts k ≠ pts p := by
        intro m hm e
        exact h2.2.2 _ ⟨_, hm, rfl⟩ _ (Or.inl rfl) (by simp only [e, hk0])
      have out2 : ∀ m, (k, m) ∈ l2 → pts k ≠ pts p := by
        intro m hm e
        exact h2.2.1.1 _ hm (by simp only [e, hk0])
      simp only [List.mem_append, List.mem_cons, Prod.mk.injEq] at h3' ⊢
      constructor
      · rintro (hm | ⟨rfl, rfl⟩ | hm)
        · rw [upd_ne _ _ (out1 n hm)]; exact h3'.1 (Or.inl hm)
        · rw [hk0, upd_self]; exact ⟨hp, rfl⟩
        · rw [upd_ne _ _ (out2 n hm)]; exact h3'.1 (Or.inr (Or.inr hm))
      · rintro ⟨r, e⟩
        by_cases he : pts k = pts p
        · rw [he, upd_self] at e
          simp only [bump, Option.some.injEq, Prod.mk.injEq] at e
          exact Or.inr (Or.inl ⟨e.1.symm, e.2.symm⟩)
        · rw [upd_ne _ _ he] at e
          rcases h3'.2 ⟨r, e⟩ with h | ⟨rfl, rfl⟩ | h
          · exact Or.inl h
          · exact absurd hk0 he
          · exact Or.inr (Or.inr h)

theorem itemsRemove_spec {single : Bool} {pts : Nat → CPt} {M : Content} {R : CPt → Prop} {p k0 n0 : Nat} {items : List (Nat × Nat)}
    (h2 : (items.map (fun kv => pts kv.1)).Nodup) (h3 : ∀ k n, (k, n) ∈ items ↔ R (pts k) ∧ M (pts k) = some (k, n))
    (hp : R (pts p)) (hM : M (pts p) = some (k0, n0)) (hk0 : pts k0 = pts p) (hn : 1 ≤ n0) (hs : single = true → k0 = p ∧ n0 = 1) :
    let r := itemsRemove single pts p items
    r.2 = true ∧ (r.1.map (fun kv => pts kv.1)).Nodup ∧
    (∀ k n, (k, n) ∈ r.1 ↔ R (pts k) ∧ upd M (pts p) (drop1 (M (pts p))) (pts k) = some (k, n)) ∧
    (r.1.map (·.2)).sum + 1 = (items.map (·.2)).sum := by
  intro r
  have hm0 : (k0, n0) ∈ items := (h3 k0 n0).2 ⟨by rw [hk0]; exact hp, by rw [hk0]; exact hM⟩
  have key : ∃ l1 l2, items = l1 ++ (k0, n0) :: l2 ∧ r = (l1 ++ ((if n0 = 1 then [] else [(k0, n0 - 1)]) ++ l2), true) := by
    cases single with
    | false =>
      obtain ⟨l1, l2, e1, e2⟩ := moRemove_some h2 hm0 hk0
      exact ⟨l1, l2, e1, by show itemsRemove false pts p items = _; simpa [itemsRemove] using e2⟩
    | true =>
      obtain ⟨e, e'⟩ := hs rfl
      subst e; subst e'
      obtain ⟨l1, l2, e1, e2⟩ := soRemove_some (l := items) (n := 1) (p := k0) (by
        intro m hm
        have := ((h3 k0 m).1 hm).2
        rw [hM] at this
        simp only [Option.some.injEq, Prod.mk.injEq, true_and] at this
        exact this.symm) hm0
      exact ⟨l1, l2, e1, by show itemsRemove true pts k0 items = _; simpa [itemsRemove] using e2⟩
  obtain ⟨l1, l2, e1, e2⟩ := key
  have hd : drop1 (M (pts p)) = if n0 = 1 then none else some (k0, n0 - 1) := by rw [hM]; rfl
  rw [e2, hd]
  rw [e1] at h2
  refine ⟨rfl, ?_, ?_, ?_⟩
  · by_cases h1 : n0 = 1
    · simp only [h1, if_true, List.nil_append]
      rw [h1] at h2
      simp only [List.map_append, List.map_cons] at h2 ⊢
      exact h2.sublist (List.Sublist.append_left (List.sublist_cons_self _ _) _)
    · simpa [h1] using h2
  · intro k n
    have h3' := h3 k n
    rw [e1] at h3'
    simp only [List.map_append, List.map_cons, List.nodup_append, List.nodup_cons, List.mem_map, List.mem_cons, not_exists, not_and] at h2
    have out1 : ∀ m, (k, m) ∈ l1 → pts k ≠ pts p := by
      intro m hm e
      exact h2.2.2 _ ⟨_, hm, rfl⟩ _ (Or.inl rfl) (by simp only [e, hk0])
    have out2 : ∀ m, (k, m) ∈ l2 → pts k ≠ pts p := by
      intro m hm e
      exact h2.2.1.1 _ hm (by simp only [e, hk0])
    simp only [List.mem_append, List.mem_cons, Prod.mk.injEq] at h3' ⊢
    constructor
    · rintro (hm | hm | hm)
      · rw [upd_ne _ _ (out1 n hm)]; exact h3'.1 (Or.inl hm)
      · by_cases h1 : n0 = 1
        · simp [h1] at hm
        · simp only [h1, if_false, List.mem_singleton, Prod.mk.injEq] at hm ⊢
          obtain ⟨rfl, rfl⟩ := hm
          rw [hk0, upd_self]; exact ⟨hp, rfl⟩
      · rw [upd_ne _ _ (out2 n hm)]; exact h3'.1 (Or.inr (Or.inr hm))
    · rintro ⟨r, e⟩
      by_cases he : pts k = pts p
      · rw [he, upd_self] at e
        by_cases h1 : n0 = 1
        · simp [h1] at e
        · simp only [h1, if_false, Option.some.injEq, Prod.mk.injEq, List.mem_singleton] at e ⊢
          exact Or.inr (Or.inl ⟨e.1.symm, e.2.symm⟩)
      · rw [upd_ne _ _ he] at e
        rcases h3'.2 ⟨r, e⟩ with h | ⟨rfl, rfl⟩ | h
        · exact Or.inl h
        · exact absurd hk0 he
        · exact Or.inr (Or.inr h)
  · rw [e1]
    by_cases h1 : n0 = 1
    · simp [h1]; omega
    · simp [h1]; omega

/-! ### sums over the children -/

theorem sum_upd_range (n : Nat) (f : Nat → Nat) (i v : Nat) (hi : i < n) :
    ((List.range n).map (fun j => if j = i then v else f j)).sum + f i = ((List.range n).map f).sum + v := by
  induction n with
  | zero => omega
  | succ n ih =>
    simp only [List.range_succ, List.map_append, List.sum_append, List.map_cons, List.map_nil, List.sum_cons, List.sum_nil]
    by_cases h : n = i
    · subst h
      have : (List.range n).map (fun j => if j = n then v else f j) = (List.range n).map f := by
        apply List.map_congr_left
        intro j hj
        rw [if_neg (by have := List.mem_range.1 hj; omega)]
      rw [this]; simp; omega
    · have := ih (by omega)
      simp only [if_neg h]
      omega

theorem sum_size_upd (n : Nat) (ch : Nat → Node) (i : Nat) (nd : Node) (hi : i < n) :
    ((List.range n).map (fun j => (upd ch i nd j).size)).sum + (ch i).size = ((List.range n).map (fun j => (ch j).size)).sum + nd.size := by
  rw [← sum_upd_range n (fun j => (ch j).size) i nd.size hi]
  congr 2
  apply List.map_congr_left
  intro j _
  by_cases h : j = i <;> simp [upd, h]

theorem sum_eq_zero {n : Nat} {f : Nat → Nat} (h : ((List.range n).map f).sum = 0) : ∀ i, i < n → f i = 0 := by
  induction n with
  | zero => intro i hi; omega
  | succ n ih =>
    simp only [List.range_succ, List.map_append, List.sum_append, List.map_cons, List.map_nil, List.sum_cons, List.sum_nil] at h
    intro i hi
    by_cases e : i = n
    · subst e; omega
    · exact ih (by omega) i (by omega)

theorem le_sum_of_mem {l : List Nat} {n : Nat} (h : n ∈ l) : n ≤ l.sum := by
  induction l with
  | nil => cases h
  | cons x l ih =>
    simp only [List.sum_cons]
    rcases List.mem_cons.1 h with e | h
    · omega
    · have := ih h; omega

/-! ### adding, splitting, removing -/

theorem Holds.comp_upd {d3 : Bool} {pts : Nat → CPt} {M M' : Content} {R : CPt → Prop} {b : NBox} {n m : Nat} {ch : Nat → Node} {c : CPt} {nd : Node}
    (h : Holds d3 pts M R (.comp b n ch)) (hM : ∀ c', c' ≠ c → M' c' = M c')
    (hnd : Holds d3 pts M' (fun c' => R c' ∧ childIndex d3 b c' = childIndex d3 b c) nd) :
    Holds d3 pts M' R (.comp b m (upd ch (childIndex d3 b c) nd)) := by
  refine ⟨h.1, fun i hi => ?_⟩
  by_cases e : i = childIndex d3 b c
  · subst e; rw [upd_self]; exact hnd
  · rw [upd_ne _ _ e]
    refine (h.2 i hi).ext (fun c' hc' => hM c' ?_) (fun k => Or.inl rfl)
    rintro rfl
    exact e hc'.2.symm

theorem SizeOk.comp_upd {d3 : Bool} {b : NBox} {n m i : Nat} {ch : Nat → Node} {nd : Node} (h : SizeOk d3 (.comp b n ch)) (hi : i < arity d3)
    (hnd : SizeOk d3 nd) (hm : m + (ch i).size = n + nd.size) : SizeOk d3 (.comp b m (upd ch i nd)) := by
  have := sum_size_upd (arity d3) ch i nd hi
  have h1 := h.1
  refine ⟨by omega, fun j hj => ?_⟩
  by_cases e : j = i
  · subst e; rw [upd_self]; exact hnd
  · rw [upd_ne _ _ e]; exact h.2 j hj

/-- Adding without splitting. -/
theorem addNS_holds {d3 single : Bool} {pts : Nat → CPt} {M : Content} {R : CPt → Prop} {nd : Node} {p : Nat} (hK : ∀ c k n, M c = some (k, n) → pts k = c)
    (h : Holds d3 pts M R nd) (hz : SizeOk d3 nd) (hp : R (pts p)) (hs : single = true → M (pts p) = none) :
    Holds d3 pts (upd M (pts p) (some (bump p (M (pts p))))) R (nd.addNS d3 single pts p) ∧ SizeOk d3 (nd.addNS d3 single pts p) ∧
      (nd.addNS d3 single pts p).size = nd.size + 1 := by
  induction nd generalizing R with
  | leaf b items =>
    obtain ⟨h1, h2, h3⟩ := h
    obtain ⟨i1, i2, i3, _⟩ := itemsAdd_spec (single := single) hK h2 h3 hp hs
    exact ⟨⟨h1, i1, i2⟩, trivial, i3⟩
  | comp b n ch ih =>
    have hi := childIndex_lt d3 b (pts p)
    simp only [Node.addNS]
    rw [if_pos (h.1 _ hp)]
    obtain ⟨a1, a2, a3⟩ := ih _ (h.2 _ hi) (hz.2 _ hi) ⟨hp, rfl⟩
    refine ⟨h.comp_upd (fun c' hc' => upd_ne _ _ hc') a1, hz.comp_upd hi a2 (by omega), rfl⟩

theorem newComp_holds {d3 : Bool} {pts : Nat → CPt} {R : CPt → Prop} {b : NBox} (h : ∀ c, R c → b.contains d3 c = true) :
    Holds d3 pts (fun _ => none) R (newComp d3 b) ∧ SizeOk d3 (newComp d3 b) ∧ (newComp d3 b).size = 0 := by
  refine ⟨⟨h, fun i _ => ⟨?_, by simp, by simp⟩⟩, ⟨?_, fun _ _ => trivial⟩, rfl⟩
  · rintro c ⟨hc, rfl⟩
    exact childBox_contains (h c hc)
  · generalize arity d3 = n
    symm
    simp only [Node.size, List.map_nil, List.sum_nil]
    induction n with
    | zero => rfl
    | succ n ih => simp [List.range_succ, ih]

theorem split_fold {d3 single : Bool} {pts : Nat → CPt} {R : CPt → Prop} (items : List (Nat × Nat)) (hn : (items.map (fun kv => pts kv.1)).Nodup)
    (hR : ∀ kv ∈ items, R (pts kv.1)) (nd : Node) (M : Content) (hK : ∀ c k n, M c = some (k, n) → pts k = c) (h : Holds d3 pts M R nd)
    (hz : SizeOk d3 nd) (hf : ∀ kv ∈ items, M (pts kv.1) = none) :
    let nd' := items.foldl (fun nd kv => nd.addNS d3 single pts kv.1) nd
    ∃ M', Holds d3 pts M' R nd' ∧ SizeOk d3 nd' ∧ nd'.size = nd.size + items.length ∧
      (∀ c, (∀ kv ∈ items, pts kv.1 ≠ c) → M' c = M c) ∧ ∀ kv ∈ items, M' (pts kv.1) = some (kv.1, 1) := by
  induction items generalizing nd M with
  | nil => exact ⟨M, h, hz, rfl, fun _ _ => rfl, by simp⟩
  | cons x l ih =>
    simp only [List.map_cons, List.nodup_cons, List.mem_map, not_exists, not_and] at hn
    have hfx := hf x (by simp)
    obtain ⟨a1, a2, a3⟩ := addNS_holds (single := single) hK h hz (hR x (by simp)) (fun _ => hfx)
    have hK' : ∀ c k n, upd M (pts x.1) (some (bump x.1 (M (pts x.1)))) c = some (k, n) → pts k = c := by
      intro c k n e
      by_cases hc : c = pts x.1
      · subst hc
        rw [upd_self, hfx] at e
        simp only [bump, Option.some.injEq, Prod.mk.injEq] at e
        rw [e.1]
      · rw [upd_ne _ _ hc] at e; exact hK _ _ _ e
    obtain ⟨M', b1, b2, b3, b4, b5⟩ := ih hn.2 (fun kv hm => hR kv (List.mem_cons_of_mem _ hm)) _ _ hK' a1 a2 (by
      intro kv hm
      rw [upd_ne _ _ (hn.1 kv hm)]
      exact hf kv (List.mem_cons_of_mem _ hm))
    refine ⟨M', b1, b2, by simp only [List.length_cons, List.foldl_cons]; omega, ?_, ?_⟩
    · intro c hc
      rw [b4 c (fun kv hm => hc kv (List.mem_cons_of_mem _ hm)), upd_ne]
      exact fun e => hc x (by simp) e.symm
    · intro kv hm
      rcases List.mem_cons.1 hm with e | hm
      · subst e
        rw [b4 _ (fun kv' hm' e => hn.1 kv' hm' e), upd_self, hfx]
        rfl
      · exact b5 kv hm

/-- Splitting a leaf in which no point is shared. -/
theorem split_holds {d3 single : Bool} {pts : Nat → CPt} {M : Content} {R : CPt → Prop} {b : NBox} {items : List (Nat × Nat)}
    (h : Holds d3 pts M R (.leaf b items)) (h1 : ∀ c k n, M c = some (k, n) → n = 1) (hK : ∀ c k n, M c = some (k, n) → pts k = c) :
    Holds d3 pts M R (Node.split d3 single pts (.leaf b items)) ∧ SizeOk d3 (Node.split d3 single pts (.leaf b items)) ∧
      (Node.split d3 single pts (.leaf b items)).size = (Node.leaf b items).size := by
  obtain ⟨g1, g2, g3⟩ := h
  obtain ⟨n1, n2, n3⟩ := newComp_holds (pts := pts) g1
  obtain ⟨M', b1, b2, b3, b4, b5⟩ := split_fold (single := single) items g2 (fun kv hm => ((g3 kv.1 kv.2).1 hm).1) _ _ (by simp) n1 n2 (by simp)
  refine ⟨?_, b2, ?_⟩
  · refine b1.ext ?_ (fun k => Or.inl rfl)
    intro c hc
    cases hM : M c with
    | some v =>
      obtain ⟨k, n⟩ := v
      have e1 := h1 _ _ _ hM
      have e2 := hK _ _ _ hM
      subst e1
      have := b5 (k, 1) ((g3 k 1).2 ⟨by rw [e2]; exact hc, by rw [e2]; exact hM⟩)
      simp only [e2] at this
      exact this.symm
    | none =>
      refine (b4 c ?_).symm
      rintro ⟨k, n⟩ hm e
      simp only at e
      have := ((g3 k n).1 hm).2
      rw [e, hM] at this; cases this
  · rw [n3] at b3
    refine b3.trans ?_
    have : items.map (·.2) = List.replicate items.length 1 := by
      rw [List.eq_replicate_iff]
      refine ⟨by simp, ?_⟩
      intro n hn
      obtain ⟨⟨k, m⟩, hm, rfl⟩ := List.mem_map.1 hn
      exact h1 _ _ _ ((g3 k m).1 hm).2
    simp [Node.size, this]

/-- Adding a point. -/
theorem add_holds {d3 single : Bool} {pts : Nat → CPt} {M : Content} {R : CPt → Prop} {nd : Node} {p : Nat} {thr : Int}
    (hK : ∀ c k n, M c = some (k, n) → pts k = c)
    (h : Holds d3 pts M R nd) (hz : SizeOk d3 nd) (hp : R (pts p)) (hs : single = true → M (pts p) = none)
    (hsplit : (∀ c k n, upd M (pts p) (some (bump p (M (pts p)))) c = some (k, n) → n = 1) ∨
      (∀ l : List CPt, l.Nodup → (∀ c ∈ l, upd M (pts p) (some (bump p (M (pts p)))) c ≠ none) → (l.length : Int) ≤ thr)) :
    let nd' := nd.add d3 single pts thr p
    Holds d3 pts (upd M (pts p) (some (bump p (M (pts p))))) R nd'.1 ∧ SizeOk d3 nd'.1 ∧ nd'.1.size = nd.size + 1 ∧
      (nd'.2 = true → ∃ b items, nd'.1 = .leaf b items ∧ ∀ c k n, upd M (pts p) (some (bump p (M (pts p)))) c = some (k, n) → n = 1) := by
  induction nd generalizing R with
  | leaf b items =>
    obtain ⟨h1, h2, h3⟩ := h
    obtain ⟨i1, i2, i3, i4⟩ := itemsAdd_spec (single := single) hK h2 h3 hp hs
    refine ⟨⟨h1, i1, i2⟩, trivial, i3, ?_⟩
    intro ho
    refine ⟨b, _, rfl, ?_⟩
    rcases hsplit with hA | hB
    · exact hA
    · exfalso
      have := hB _ i1 (by
        intro c hc
        obtain ⟨⟨k, n⟩, hm, rfl⟩ := List.mem_map.1 hc
        rw [((i2 k n).1 hm).2]; simp)
      simp only [List.length_map] at this
      simp only [Node.add, over, Bool.and_eq_true, decide_eq_true_eq] at ho
      omega
  | comp b n ch ih =>
    have hi := childIndex_lt d3 b (pts p)
    simp only [Node.add]
    rw [if_pos (h.1 _ hp)]
    obtain ⟨a1, a2, a3, a4⟩ := ih _ (h.2 _ hi) (hz.2 _ hi) ⟨hp, rfl⟩
    have hK' : ∀ c k n, upd M (pts p) (some (bump p (M (pts p)))) c = some (k, n) → pts k = c := by
      intro c k n e
      by_cases hc : c = pts p
      · subst hc
        rw [upd_self] at e
        cases hM : M (pts p) with
        | none =>
          rw [hM] at e
          simp only [bump, Option.some.injEq, Prod.mk.injEq] at e
          rw [e.1]
        | some v =>
          rw [hM] at e
          simp only [bump, Option.some.injEq, Prod.mk.injEq] at e
          rw [← e.1]; exact hK _ _ _ hM
      · rw [upd_ne _ _ hc] at e; exact hK _ _ _ e
    by_cases ho : ((ch (childIndex d3 b (pts p))).add d3 single pts thr p).2 = true
    · obtain ⟨b', items, e, h1⟩ := a4 ho
      rw [if_pos ho]
      rw [e] at a1 a3
      obtain ⟨s1, s2, s3⟩ := split_holds (single := single) a1 h1 hK'
      rw [e]
      exact ⟨h.comp_upd (fun c' hc' => upd_ne _ _ hc') s1, hz.comp_upd hi s2 (by omega), rfl, by simp⟩
    · rw [if_neg ho]
      exact ⟨h.comp_upd (fun c' hc' => upd_ne _ _ hc') a1, hz.comp_upd hi a2 (by omega), rfl, by simp⟩

theorem Holds.size_pos {d3 : Bool} {pts : Nat → CPt} {M : Content} {R : CPt → Prop} {nd : Node} (h : Holds d3 pts M R nd) (hz : SizeOk d3 nd)
    (hK : ∀ c k n, M c = some (k, n) → pts k = c ∧ 1 ≤ n) (h0 : nd.size = 0) : ∀ c, R c → M c = none := by
  induction nd generalizing R with
  | leaf b items =>
    intro c hc
    cases hM : M c with
    | none => rfl
    | some v =>
      obtain ⟨k, n⟩ := v
      obtain ⟨e, hn⟩ := hK _ _ _ hM
      have hm := (h.2.2 k n).2 ⟨by rw [e]; exact hc, by rw [e]; exact hM⟩
      have : n ≤ (items.map (·.2)).sum := le_sum_of_mem (List.mem_map.2 ⟨_, hm, rfl⟩)
      simp only [Node.size] at h0
      omega
  | comp b n ch ih =>
    intro c hc
    simp only [Node.size] at h0
    have h1 := hz.1
    rw [h0] at h1
    have hi := childIndex_lt d3 b c
    exact ih _ (h.2 _ hi) (hz.2 _ hi) (sum_eq_zero h1.symm _ hi) c ⟨hc, rfl⟩

/-- Removing a point. -/
theorem remove_holds {d3 single : Bool} {pts : Nat → CPt} {M : Content} {R : CPt → Prop} {nd : Node} {p k0 n0 : Nat}
    (hK : ∀ c k n, M c = some (k, n) → pts k = c ∧ 1 ≤ n)
    (h : Holds d3 pts M R nd) (hz : SizeOk d3 nd) (hp : R (pts p)) (hM : M (pts p) = some (k0, n0)) (hs : single = true → k0 = p ∧ n0 = 1) :
    let nd' := nd.remove d3 single pts p
    nd'.2 = true ∧ Holds d3 pts (upd M (pts p) (drop1 (M (pts p)))) R nd'.1 ∧ SizeOk d3 nd'.1 ∧ nd'.1.size + 1 = nd.size := by
  induction nd generalizing R with
  | leaf b items =>
    obtain ⟨h1, h2, h3⟩ := h
    obtain ⟨e, hn⟩ := hK _ _ _ hM
    obtain ⟨i1, i2, i3, i4⟩ := itemsRemove_spec (single := single) h2 h3 hp hM e hn hs
    exact ⟨i1, ⟨h1, i2, i3⟩, trivial, i4⟩
  | comp b n ch ih =>
    have hi := childIndex_lt d3 b (pts p)
    simp only [Node.remove]
    rw [if_pos (h.1 _ hp)]
    obtain ⟨a0, a1, a2, a3⟩ := ih _ (h.2 _ hi) (hz.2 _ hi) ⟨hp, rfl⟩
    rw [if_pos a0]
    have hn : 1 ≤ n := by
      rcases Nat.eq_zero_or_pos n with e | e
      · have := h.size_pos hz hK e _ hp
        rw [hM] at this; cases this
      · exact e
    refine ⟨rfl, h.comp_upd (fun c' hc' => upd_ne _ _ hc') a1, hz.comp_upd hi a2 (by omega), ?_⟩
    simp only [Node.size]; omega

/-! ### the query -/

/-- The query has as many dimensions as the tree. -/
def QueryFits (d3 : Bool) (q : Box) : Prop := 0 < q.yext ∧ (d3 = true → 0 < q.zext)

theorem containsC_intersects {d3 : Bool} {b : NBox} {q : Box} {c : CPt} (hq : QueryFits d3 q) (hb : b.contains d3 c = true) (hc : q.containsC c = true) :
    b.intersects d3 q = true := by
  rw [NBox.contains_iff] at hb
  obtain ⟨⟨h1, h2⟩, ⟨h3, h4⟩, h5⟩ := hb
  have hx : ((q.xmin : Rat) ≤ c.x ∧ c.x < (q.xmax : Rat)) ∧ ((q.ymin : Rat) ≤ c.y ∧ c.y < (q.ymax : Rat)) ∧
      (d3 = true → (q.zmin : Rat) ≤ c.z ∧ c.z < (q.zmax : Rat)) := by
    have hy := hq.1
    unfold Box.containsC Box.numDims at hc
    by_cases hz : 0 < q.zext
    · simp only [hz, if_true, Bool.and_eq_true, decide_eq_true_eq] at hc
      exact ⟨hc.1.1, hc.1.2, fun _ => hc.2⟩
    · simp only [hz, hy, if_true, if_false, Bool.and_eq_true, decide_eq_true_eq] at hc
      exact ⟨hc.1, hc.2, fun hd => absurd (hq.2 hd) hz⟩
  obtain ⟨⟨g1, g2⟩, ⟨g3, g4⟩, g5⟩ := hx
  unfold NBox.intersects
  rw [if_neg (by grind), if_neg (by grind), if_neg]
  rintro ⟨hd, h⟩
  have := h5 hd
  have := g5 hd
  grind

/-- What a query of a node returns: every agent of the region in the query box once, and nothing else. -/
def Exact (loc : CPt → List Nat) (q : Box) (R : CPt → Prop) (r : Option (List Nat)) : Prop :=
  ∃ l, r = some l ∧ (∀ a ∈ l, ∃ c, a ∈ loc c) ∧ ∀ a c, a ∈ loc c → (R c ∧ q.containsC c = true → l.count a = 1) ∧ (¬ (R c ∧ q.containsC c = true) → l.count a = 0)

/-- `loc` is the map the tree represents, and no agent is twice in it. -/
structure LocOk (M : Content) (loc : CPt → List Nat) : Prop where
  dom : ∀ c, M c = none ↔ loc c = []
  nodup : ∀ c, (loc c).Nodup
  uniq : ∀ a c c', a ∈ loc c → a ∈ loc c' → c = c'

theorem itemsWithin_exact {pts : Nat → CPt} {loc : CPt → List Nat} {q : Box} {M : Content} (hL : LocOk M loc) (items : List (Nat × Nat))
    (hn : (items.map (fun kv => pts kv.1)).Nodup) (hl : ∀ kv ∈ items, loc (pts kv.1) ≠ []) :
    Exact loc q (fun c => ∃ kv ∈ items, pts kv.1 = c) (itemsWithin pts loc q items) := by
  induction items with
  | nil => exact ⟨[], rfl, by simp, fun a c _ => ⟨by simp, by simp⟩⟩
  | cons x l ih =>
    obtain ⟨k, n⟩ := x
    simp only [List.map_cons, List.nodup_cons, List.mem_map, not_exists, not_and] at hn
    obtain ⟨r, e, hs, hr⟩ := ih hn.2 (fun kv hm => hl kv (List.mem_cons_of_mem _ hm))
    have hk : ¬ ∃ kv ∈ l, pts kv.1 = pts k := by
      rintro ⟨kv, hm, e'⟩; exact hn.1 kv hm e'
    simp only [itemsWithin]
    have hne := hl (k, n) (by simp)
    simp only at hne
    by_cases hc : q.containsC (pts k) = true
    · rw [if_pos hc, if_neg hne, e]
      refine ⟨_, rfl, fun a ha => (List.mem_append.1 ha).elim (fun h => ⟨_, h⟩) (hs a), ?_⟩
      intro a c ha
      obtain ⟨r1, r2⟩ := hr a c ha
      simp only [List.count_append, List.mem_cons, exists_eq_or_imp]
      by_cases hck : pts k = c
      · subst hck
        have h0 := r2 (fun h => hk h.1)
        have h1 : (loc (pts k)).count a = 1 := by
          rw [(hL.nodup _).count, if_pos ha]
        exact ⟨fun _ => by omega, fun h => absurd ⟨Or.inl rfl, hc⟩ h⟩
      · have h0 : (loc (pts k)).count a = 0 := List.count_eq_zero.2 (fun h => hck (hL.uniq a _ _ h ha))
        constructor
        · rintro ⟨h | h, h'⟩
          · exact absurd h hck
          · rw [h0, r1 ⟨h, h'⟩]
        · intro h
          rw [h0, r2 (fun h' => h ⟨Or.inr h'.1, h'.2⟩)]
    · rw [if_neg hc, e]
      refine ⟨r, rfl, hs, ?_⟩
      intro a c ha
      obtain ⟨r1, r2⟩ := hr a c ha
      simp only [List.mem_cons, exists_eq_or_imp]
      constructor
      · rintro ⟨h | h, h'⟩
        · rw [h] at hc; exact absurd h' hc
        · exact r1 ⟨h, h'⟩
      · intro h
        exact r2 (fun h' => h ⟨Or.inr h'.1, h'.2⟩)

theorem gather_exact {loc : CPt → List Nat} {q : Box} {R : CPt → Prop} {ix : CPt → Nat} {f : Nat → Option (List Nat)} (n : Nat)
    (h : ∀ i, i < n → Exact loc q (fun c => R c ∧ ix c = i) (f i)) :
    Exact loc q (fun c => R c ∧ ix c < n) (gather ((List.range n).map f)) := by
  have key : ∀ (m : Nat) (l : List Nat), (∀ i ∈ l, Exact loc q (fun c => R c ∧ ix c = i) (f i)) → l.Nodup →
      Exact loc q (fun c => R c ∧ ix c ∈ l) (gather (l.map f)) := by
    intro _ l
    induction l with
    | nil => intro _ _; exact ⟨[], rfl, by simp, fun a c _ => ⟨by simp, by simp⟩⟩
    | cons i l ih =>
      intro h hn
      simp only [List.nodup_cons] at hn
      obtain ⟨r, e, hs, hr⟩ := ih (fun j hj => h j (List.mem_cons_of_mem _ hj)) hn.2
      obtain ⟨x, ex, hxs, hx⟩ := h i (by simp)
      simp only [List.map_cons, ex, gather, e]
      refine ⟨_, rfl, fun a ha => (List.mem_append.1 ha).elim (hxs a) (hs a), ?_⟩
      intro a c ha
      obtain ⟨r1, r2⟩ := hr a c ha
      obtain ⟨x1, x2⟩ := hx a c ha
      simp only [List.count_append, List.mem_cons]
      by_cases hi : ix c = i
      · have h0 := r2 (fun h => hn.1 (by rw [← hi]; exact h.1.2))
        constructor
        · rintro ⟨⟨hR, _⟩, hc⟩
          rw [x1 ⟨⟨hR, hi⟩, hc⟩, h0]
        · intro h
          rw [x2 (fun h' => h ⟨⟨h'.1.1, Or.inl hi⟩, h'.2⟩), h0]
      · have h0 := x2 (fun h => hi h.1.2)
        constructor
        · rintro ⟨⟨hR, h | h⟩, hc⟩
          · exact absurd h hi
          · rw [h0, r1 ⟨⟨hR, h⟩, hc⟩]
        · intro h
          rw [h0, r2 (fun h' => h ⟨⟨h'.1.1, Or.inr h'.1.2⟩, h'.2⟩)]
  have := key 0 (List.range n) (fun i hi => h i (List.mem_range.1 hi)) List.nodup_range
  simpa only [List.mem_range] using this

theorem Exact.region {loc : CPt → List Nat} {q : Box} {R R' : CPt → Prop} {r : Option (List Nat)} (h : Exact loc q R r)
    (hR : ∀ a c, a ∈ loc c → q.containsC c = true → (R c ↔ R' c)) : Exact loc q R' r := by
  obtain ⟨l, e, hs, hl⟩ := h
  refine ⟨l, e, hs, fun a c ha => ⟨fun h' => (hl a c ha).1 ⟨(hR a c ha h'.2).2 h'.1, h'.2⟩, fun h' => (hl a c ha).2 (fun h'' => h' ⟨(hR a c ha h''.2).1 h''.1, h''.2⟩)⟩⟩

theorem Exact.nothing {loc : CPt → List Nat} {q : Box} {R : CPt → Prop} (h : ∀ a c, a ∈ loc c → R c → q.containsC c = true → False) :
    Exact loc q R (some []) :=
  ⟨[], rfl, by simp, fun a c ha => ⟨fun h' => (h a c ha h'.1 h'.2).elim, fun _ => rfl⟩⟩

theorem within_exact {d3 : Bool} {pts : Nat → CPt} {loc : CPt → List Nat} {q : Box} {M : Content} {R : CPt → Prop} {nd : Node}
    (hK : ∀ c k n, M c = some (k, n) → pts k = c ∧ 1 ≤ n) (hL : LocOk M loc) (hq : QueryFits d3 q)
    (h : Holds d3 pts M R nd) (hz : SizeOk d3 nd) : Exact loc q R (nd.within d3 pts loc q) := by
  induction nd generalizing R with
  | leaf b items =>
    obtain ⟨h1, h2, h3⟩ := h
    have hmem : ∀ a c, a ∈ loc c → (R c ↔ ∃ kv ∈ items, pts kv.1 = c) := by
      intro a c ha
      constructor
      · intro hR
        cases hM : M c with
        | none => rw [(hL.dom c).1 hM] at ha; cases ha
        | some v =>
          obtain ⟨k, n⟩ := v
          have e := (hK _ _ _ hM).1
          exact ⟨(k, n), (h3 k n).2 ⟨by rw [e]; exact hR, by rw [e]; exact hM⟩, e⟩
      · rintro ⟨⟨k, n⟩, hm, rfl⟩
        exact ((h3 k n).1 hm).1
    simp only [Node.within]
    by_cases hc : items.length > 0 ∧ b.intersects d3 q = true
    · rw [if_pos hc]
      refine (itemsWithin_exact hL items h2 ?_).region (fun a c ha _ => (hmem a c ha).symm)
      rintro ⟨k, n⟩ hm e
      have := ((h3 k n).1 hm).2
      rw [(hL.dom _).2 e] at this; cases this
    · rw [if_neg hc]
      refine Exact.nothing (fun a c ha hR hcq => hc ⟨?_, containsC_intersects hq (h1 c hR) hcq⟩)
      obtain ⟨kv, hm, _⟩ := (hmem a c ha).1 hR
      exact List.length_pos_of_mem hm
  | comp b n ch ih =>
    simp only [Node.within]
    by_cases hc : n > 0 ∧ b.intersects d3 q = true
    · rw [if_pos hc]
      refine (gather_exact (R := R) (ix := childIndex d3 b) (arity d3) (fun i hi => ih i (h.2 i hi) (hz.2 i hi))).region ?_
      intro a c _ _
      exact ⟨fun h => h.1, fun h => ⟨h, childIndex_lt d3 b c⟩⟩
    · rw [if_neg hc]
      refine Exact.nothing (fun a c ha hR hcq => hc ⟨?_, containsC_intersects hq (h.1 c hR) hcq⟩)
      rcases Nat.eq_zero_or_pos n with e | e
      · have := h.size_pos hz hK e c hR
        rw [(hL.dom c).1 this] at ha; cases ha
      · exact e

end Repast.Tree
