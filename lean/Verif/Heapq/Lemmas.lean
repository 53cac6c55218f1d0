import Verif.Heapq.Model

/-! The heap operations keep the heap order and the content. -/
namespace Repast.Heapq

variable {α : Type} {lt : α → α → Bool}

/-- Heap order, except at positions where `ok` fails (compared with their parent). -/
def HeapOn (lt : α → α → Bool) (h : List α) (ok : Nat → Prop) : Prop :=
  ∀ i a b, 0 < i → ok i → h[i]? = some a → h[(i-1)/2]? = some b → lt a b = false

/-- The heap order: no element is smaller than its parent. -/
def IsHeap (lt : α → α → Bool) (h : List α) : Prop := HeapOn lt h (fun _ => True)

/-- the comparison is a strict weak order -/
structure Weak (lt : α → α → Bool) : Prop where
  asymm : ∀ a b, lt a b = true → lt b a = false
  trans : ∀ a b c, lt b a = false → lt c b = false → lt c a = false

/-- Swapping the hole and its neighbour does not change the content. -/
theorem set_set_perm [DecidableEq α] {h : List α} {i j : Nat} {x y : α} (hij : i ≠ j) (hi : i < h.length) (hj : h[j]? = some y) :
    ((h.set i y).set j x).Perm (h.set i x) := by
  have hjl := (List.getElem?_eq_some_iff.1 hj).1
  have hje := (List.getElem?_eq_some_iff.1 hj).2
  rw [List.perm_iff_count]
  intro a
  have hpos : ∀ {l : List α} {k : Nat} (hk : k < l.length), (if l[k] == a then 1 else 0) ≤ l.count a := by
    intro l k hk
    split
    · rename_i hh
      simp only [beq_iff_eq] at hh
      rw [← hh]
      exact List.one_le_count_iff.2 (List.getElem_mem hk)
    · omega
  have e1 : (h.set i y)[j]'(by simpa using hjl) = y := by rw [List.getElem_set_ne hij, hje]
  have c1 := List.count_set (a := x) (b := a) (i := j) (l := h.set i y) (by simpa using hjl)
  have c2 := List.count_set (a := y) (b := a) (i := i) (l := h) hi
  have c3 := List.count_set (a := x) (b := a) (i := i) (l := h) hi
  have p1 := hpos (l := h) hi
  have p2 := hpos (l := h.set i y) (k := j) (by simpa using hjl)
  rw [e1] at c1 p2
  rw [c1, c3]
  rw [c2] at p2 ⊢
  grind

theorem siftdown_spec [DecidableEq α] (hw : Weak lt) (heap : List α) (x : α) (pos : Nat) (hp : pos < heap.length)
    (hh : HeapOn lt (heap.set pos x) (fun i => i ≠ pos))
    (hc : ∀ i a b, 0 < pos → 0 < i → (i-1)/2 = pos → heap[i]? = some a → heap[(pos-1)/2]? = some b → lt a b = false) :
    IsHeap lt (siftdown lt heap x pos) ∧ (siftdown lt heap x pos).Perm (heap.set pos x) := by
  induction pos using Nat.strongRecOn generalizing heap with
  | _ pos ih =>
  have done : (∀ b, 0 < pos → heap[(pos-1)/2]? = some b → lt x b = false) → IsHeap lt (heap.set pos x) := by
    intro hx i a b hi _ ha hb
    by_cases hip : i = pos
    · subst hip
      rw [List.getElem?_set_self hp] at ha
      rw [List.getElem?_set_ne (by omega)] at hb
      simp only [Option.some.injEq] at ha
      subst ha
      exact hx b hi hb
    · exact hh i a b hi hip ha hb
  rw [siftdown]
  by_cases h0 : 0 < pos
  · rw [dif_pos h0]
    have hpar : (pos-1)/2 < pos := by omega
    obtain ⟨parent, hparent⟩ : ∃ y, heap[(pos-1)/2]? = some y :=
      ⟨heap[(pos-1)/2]'(by omega), List.getElem?_eq_getElem (by omega)⟩
    simp only [hparent]
    cases hlt : lt x parent with
    | false =>
      simp only [Bool.false_eq_true, if_false]
      refine ⟨done ?_, List.Perm.refl _⟩
      intro b _ hb
      rw [hparent] at hb; simp only [Option.some.injEq] at hb; subst hb; exact hlt
    | true =>
      simp only [if_true]
      have hne : pos ≠ (pos-1)/2 := by omega
      have := ih ((pos-1)/2) hpar (heap.set pos parent) (by simp; omega) ?_ ?_
      · refine ⟨this.1, this.2.trans ?_⟩
        exact set_set_perm hne hp hparent
      · -- heap order apart from the new hole
        intro i a b hi hip ha hb
        by_cases hipos : i = pos
        · subst hipos
          rw [List.getElem?_set_ne (by omega), List.getElem?_set_self hp] at ha
          rw [List.getElem?_set_self (by simp; omega)] at hb
          simp only [Option.some.injEq] at ha hb
          subst ha hb
          exact hw.asymm _ _ hlt
        · rw [List.getElem?_set_ne (by omega), List.getElem?_set_ne (by omega)] at ha
          by_cases hpp : (i-1)/2 = pos
          · rw [hpp, List.getElem?_set_ne (by omega), List.getElem?_set_self hp] at hb
            simp only [Option.some.injEq] at hb
            subst hb
            exact hc i a parent h0 hi hpp ha hparent
          · by_cases hpq : (i-1)/2 = (pos-1)/2
            · -- sibling of the old hole
              rw [hpq, List.getElem?_set_self (by simp; omega)] at hb
              simp only [Option.some.injEq] at hb
              subst hb
              have hsib := hh i a parent hi hipos (by rw [List.getElem?_set_ne (by omega)]; exact ha)
                (by rw [hpq, List.getElem?_set_ne (by omega)]; exact hparent)
              exact hw.trans x parent a (hw.asymm _ _ hlt) hsib
            · rw [List.getElem?_set_ne (by omega), List.getElem?_set_ne (by omega)] at hb
              exact hh i a b hi hipos (by rw [List.getElem?_set_ne (by omega)]; exact ha)
                (by rw [List.getElem?_set_ne (by omega)]; exact hb)
      · -- children of the new hole are not smaller than its parent
        intro i a b hq0 hi hpi ha hb
        rw [List.getElem?_set_ne (by omega)] at hb
        have hgp : lt parent b = false := by
          refine hh ((pos-1)/2) parent b hq0 (by omega) ?_ ?_
          · rw [List.getElem?_set_ne (by omega)]; exact hparent
          · rw [List.getElem?_set_ne (by omega)]; exact hb
        by_cases hipos : i = pos
        · subst hipos
          rw [List.getElem?_set_self hp] at ha
          simp only [Option.some.injEq] at ha
          subst ha
          exact hgp
        · rw [List.getElem?_set_ne (by omega)] at ha
          have hsib := hh i a parent hi hipos (by rw [List.getElem?_set_ne (by omega)]; exact ha)
            (by rw [hpi, List.getElem?_set_ne (by omega)]; exact hparent)
          exact hw.trans b parent a hgp hsib
  · rw [dif_neg h0]
    exact ⟨done (fun b h => absurd h h0), List.Perm.refl _⟩

theorem smallerChild_spec (heap : List α) (pos : Nat) (hw : Weak lt) :
    (smallerChild lt heap pos = 2 * pos + 1 ∨ smallerChild lt heap pos = 2 * pos + 2) ∧
    (heap[smallerChild lt heap pos]? = none → heap.length ≤ 2 * pos + 1) ∧
    ∀ c i a, heap[smallerChild lt heap pos]? = some c → 0 < i → (i-1)/2 = pos → heap[i]? = some a → lt a c = false := by
  unfold smallerChild
  split
  · rename_i l r hl hr
    split
    · rename_i hlr
      refine ⟨Or.inl rfl, by simp [hl], ?_⟩
      intro c i a hc hi hip ha
      rw [hl] at hc; simp only [Option.some.injEq] at hc; subst hc
      have : i = 2*pos+1 ∨ i = 2*pos+2 := by omega
      rcases this with rfl | rfl
      · rw [hl] at ha; simp only [Option.some.injEq] at ha; subst ha
        cases h : lt l l with
        | false => rfl
        | true => have := hw.asymm _ _ h; rw [h] at this; exact this
      · rw [hr] at ha; simp only [Option.some.injEq] at ha; subst ha
        exact hw.asymm _ _ hlr
    · rename_i hlr
      refine ⟨Or.inr rfl, by simp [hr], ?_⟩
      intro c i a hc hi hip ha
      rw [hr] at hc; simp only [Option.some.injEq] at hc; subst hc
      have : i = 2*pos+1 ∨ i = 2*pos+2 := by omega
      rcases this with rfl | rfl
      · rw [hl] at ha; simp only [Option.some.injEq] at ha; subst ha
        simpa using hlr
      · rw [hr] at ha; simp only [Option.some.injEq] at ha; subst ha
        cases h : lt r r with
        | false => rfl
        | true => have := hw.asymm _ _ h; rw [h] at this; exact this
  · rename_i hx
    refine ⟨Or.inl rfl, fun h => List.getElem?_eq_none_iff.1 h, ?_⟩
    intro c i a hc hi hip ha
    have : i = 2*pos+1 ∨ i = 2*pos+2 := by omega
    rcases this with rfl | rfl
    · rw [hc] at ha; simp only [Option.some.injEq] at ha; subst ha
      cases h : lt c c with
      | false => rfl
      | true => have := hw.asymm _ _ h; rw [h] at this; exact this
    · exact absurd ha (hx c a hc)

theorem siftup_spec [DecidableEq α] (hw : Weak lt) (heap : List α) (x : α) (pos : Nat) (hp : pos < heap.length)
    (hh : HeapOn lt heap (fun i => i ≠ pos ∧ (i-1)/2 ≠ pos))
    (hc : ∀ i a b, 0 < pos → 0 < i → (i-1)/2 = pos → heap[i]? = some a → heap[(pos-1)/2]? = some b → lt a b = false) :
    IsHeap lt (siftup lt heap x pos) ∧ (siftup lt heap x pos).Perm (heap.set pos x) := by
  induction hn : heap.length - pos using Nat.strongRecOn generalizing heap pos with
  | _ n ih =>
  obtain ⟨hch, hnone, hmin⟩ := smallerChild_spec heap pos hw
  rw [siftup]
  split
  · rename_i c hcc
    generalize smallerChild lt heap pos = j at *
    have hjl := (List.getElem?_eq_some_iff.1 hcc).1
    have hjp : (j-1)/2 = pos := by omega
    have hj0 : 0 < j := by omega
    have := ih (heap.length - j) (by omega) (heap.set pos c) j (by simpa using hjl) ?_ ?_ (by simp)
    · refine ⟨this.1, this.2.trans ?_⟩
      exact set_set_perm (by omega) hp hcc
    · intro i a b hi hok ha hb
      obtain ⟨hij, hipj⟩ := hok
      by_cases hip : i = pos
      · subst hip
        rw [List.getElem?_set_self hp] at ha
        rw [List.getElem?_set_ne (by omega)] at hb
        simp only [Option.some.injEq] at ha
        subst ha
        exact hc j c b hi hj0 hjp hcc hb
      · rw [List.getElem?_set_ne (by omega)] at ha
        by_cases hpp : (i-1)/2 = pos
        · rw [hpp, List.getElem?_set_self hp] at hb
          simp only [Option.some.injEq] at hb
          subst hb
          exact hmin c i a hcc hi hpp ha
        · rw [List.getElem?_set_ne (by omega)] at hb
          exact hh i a b hi ⟨hip, hpp⟩ ha hb
    · intro i a b _ hi hij ha hb
      rw [List.getElem?_set_ne (by omega)] at ha
      rw [hjp, List.getElem?_set_self hp] at hb
      simp only [Option.some.injEq] at hb
      subst hb
      exact hh i a c hi ⟨by omega, by omega⟩ ha (by rw [hij]; exact hcc)
  · rename_i hcc
    have hle := hnone hcc
    apply siftdown_spec hw heap x pos hp
    · intro i a b hi hip ha hb
      rw [List.getElem?_set_ne (by omega)] at ha
      have hil := (List.getElem?_eq_some_iff.1 ha).1
      have hpp : (i-1)/2 ≠ pos := by omega
      rw [List.getElem?_set_ne (by omega)] at hb
      exact hh i a b hi ⟨hip, hpp⟩ ha hb
    · exact hc

theorem IsHeap.root_le (hw : Weak lt) {h : List α} (hh : IsHeap lt h) {r : α} (hr : h[0]? = some r) :
    ∀ (i : Nat) a, h[i]? = some a → lt a r = false := by
  intro i
  induction i using Nat.strongRecOn with
  | _ i ih =>
  intro a ha
  by_cases h0 : i = 0
  · subst h0
    rw [hr] at ha; simp only [Option.some.injEq] at ha; subst ha
    cases h : lt r r with
    | false => rfl
    | true => have := hw.asymm _ _ h; rw [h] at this; exact this
  · have hil := (List.getElem?_eq_some_iff.1 ha).1
    have hpb : h[(i-1)/2]? = some (h[(i-1)/2]'(by omega)) := List.getElem?_eq_getElem (by omega)
    have h1 := ih ((i-1)/2) (by omega) _ hpb
    have h2 := hh i a _ (by omega) trivial ha hpb
    exact hw.trans _ _ _ h1 h2

end Repast.Heapq
