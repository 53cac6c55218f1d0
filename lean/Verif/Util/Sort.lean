/-! The stable sort (Python's `list.sort`), as insertion sort. -/
namespace Repast

/-- Insert `x` before the first element it is `le` to. -/
def sinsert {α : Type} (le : α → α → Bool) (x : α) : List α → List α
  | [] => [x]
  | y :: ys => if le x y then x :: y :: ys else y :: sinsert le x ys

/-- Python's `list.sort`: the stable sort. -/
def stableSort {α : Type} (le : α → α → Bool) : List α → List α
  | [] => []
  | x :: xs => sinsert le x (stableSort le xs)

variable {α : Type} {le : α → α → Bool}

theorem sinsert_perm (x : α) (l : List α) : (sinsert le x l).Perm (x :: l) := by
  induction l with
  | nil => exact List.Perm.refl _
  | cons y ys ih =>
    simp only [sinsert]
    split
    · exact List.Perm.refl _
    · exact ((List.Perm.cons y ih).trans (List.Perm.swap x y ys))

theorem stableSort_perm (l : List α) : (stableSort le l).Perm l := by
  induction l with
  | nil => exact List.Perm.refl _
  | cons x xs ih => exact (sinsert_perm x _).trans (List.Perm.cons x ih)

theorem sinsert_pairwise (trans : ∀ a b c, le a b = true → le b c = true → le a c = true)
    (total : ∀ a b, le a b = true ∨ le b a = true) (x : α) {l : List α}
    (h : l.Pairwise (fun a b => le a b = true)) : (sinsert le x l).Pairwise (fun a b => le a b = true) := by
  induction l with
  | nil => simp [sinsert]
  | cons y ys ih =>
    rw [List.pairwise_cons] at h
    simp only [sinsert]
    split
    · rename_i hxy
      rw [List.pairwise_cons, List.pairwise_cons]
      refine ⟨?_, h⟩
      intro z hz
      rcases List.mem_cons.1 hz with rfl | hz
      · exact hxy
      · exact trans _ _ _ hxy (h.1 z hz)
    · rename_i hxy
      rw [List.pairwise_cons]
      refine ⟨?_, ih h.2⟩
      intro z hz
      rcases List.mem_cons.1 ((sinsert_perm x ys).mem_iff.1 hz) with rfl | hz
      · exact (total _ _).resolve_left hxy
      · exact h.1 z hz

theorem stableSort_pairwise (trans : ∀ a b c, le a b = true → le b c = true → le a c = true)
    (total : ∀ a b, le a b = true ∨ le b a = true) (l : List α) :
    (stableSort le l).Pairwise (fun a b => le a b = true) := by
  induction l with
  | nil => exact List.Pairwise.nil
  | cons x xs ih => exact sinsert_pairwise trans total x ih

theorem stableSort_of_pairwise {l : List α} (h : l.Pairwise (fun a b => le a b = true)) : stableSort le l = l := by
  induction l with
  | nil => rfl
  | cons x xs ih =>
    rw [List.pairwise_cons] at h
    simp only [stableSort, ih h.2]
    cases xs with
    | nil => rfl
    | cons y ys => simp [sinsert, h.1 y (by simp)]

theorem sinsert_filter_self (p : α → Bool)
    (hp : ∀ a b, p a = true → p b = true → le a b = true) (x : α) (l : List α) :
    (sinsert le x l).filter p = (x :: l).filter p := by
  induction l with
  | nil => rfl
  | cons y ys ih =>
    simp only [sinsert]
    split
    · rfl
    · rename_i hxy
      by_cases hx : p x = true
      · have hy : p y = false := by
          cases hy : p y with
          | false => rfl
          | true => exact absurd (hp x y hx hy) hxy
        simp only [List.filter_cons, hx, hy, if_true, Bool.false_eq_true, if_false] at ih ⊢
        exact ih
      · have hx : p x = false := by simpa using hx
        simp only [List.filter_cons, hx, Bool.false_eq_true, if_false] at ih ⊢
        rw [ih]

/-- Stability: elements that compare as equal keep their order. -/
theorem stableSort_filter (p : α → Bool)
    (hp : ∀ a b, p a = true → p b = true → le a b = true) (l : List α) : (stableSort le l).filter p = l.filter p := by
  induction l with
  | nil => rfl
  | cons x xs ih =>
    simp only [stableSort]
    rw [sinsert_filter_self p hp, List.filter_cons, List.filter_cons, ih]

end Repast
