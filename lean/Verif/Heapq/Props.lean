import Verif.Heapq.Lemmas
import Verif.Schedule.Lemmas
import Verif.Util.List

/-! C14: the binary heap behaves as a sorted list. -/
namespace Repast.Heapq

variable {α : Type} {lt : α → α → Bool}

/-- Pushing keeps every element and the heap order. -/
theorem C14_push [DecidableEq α] (hw : Weak lt) (h : List α) (x : α) (hh : IsHeap lt h) :
    IsHeap lt (heappush lt h x) ∧ (heappush lt h x).Perm (x :: h) := by
  have hset : (h ++ [x]).set h.length x = h ++ [x] := by simp
  have := siftdown_spec hw (h ++ [x]) x h.length (by simp) ?_ ?_
  · refine ⟨this.1, this.2.trans ?_⟩
    rw [hset]
    exact List.perm_append_singleton x h
  · rw [hset]
    intro i a b hi hne ha hb
    have hil := (List.getElem?_eq_some_iff.1 ha).1
    simp only [List.length_append, List.length_cons, List.length_nil] at hil
    rw [List.getElem?_append_left (by omega)] at ha hb
    exact hh i a b hi trivial ha hb
  · intro i a b _ hi hip ha _
    have hil := (List.getElem?_eq_some_iff.1 ha).1
    simp only [List.length_append, List.length_cons, List.length_nil] at hil
    omega

/-- Popping an empty heap fails; popping a non-empty heap returns the first entry `heap[0]`, which is a minimum, and
removes precisely that entry. -/
theorem C14_pop [DecidableEq α] (hw : Weak lt) (h : List α) (hh : IsHeap lt h) :
    (h = [] ∧ heappop lt h = none) ∨
    ∃ x h', heappop lt h = some (x, h') ∧ h[0]? = some x ∧ IsHeap lt h' ∧ h.Perm (x :: h') ∧
      ∀ y ∈ h, lt y x = false := by
  cases hl : h.getLast? with
  | none =>
    left
    have : h = [] := by simpa using hl
    exact ⟨this, by simp [heappop, hl]⟩
  | some last =>
    right
    have hne : h ≠ [] := by rintro rfl; simp at hl
    have hdl : h = h.dropLast ++ [last] := by
      rw [List.getLast?_eq_some_getLast hne] at hl
      simp only [Option.some.injEq] at hl
      rw [← hl]
      exact (List.dropLast_concat_getLast hne).symm
    have hmin : ∀ r, h[0]? = some r → ∀ y ∈ h, lt y r = false := by
      intro r hr y hy
      obtain ⟨i, hi⟩ := List.mem_iff_getElem?.1 hy
      exact hh.root_le hw hr i y hi
    cases hd : h.dropLast with
    | nil =>
      have h1 : h = [last] := by rw [hdl, hd]; rfl
      refine ⟨last, [], by simp [heappop, hl, hd], by simp [h1], ?_, by simp [h1], hmin last (by simp [h1])⟩
      intro i a b _ _ ha
      simp at ha
    | cons root rest =>
      have h1 : h = root :: (rest ++ [last]) := by rw [hdl, hd]; rfl
      have hr : h[0]? = some root := by simp [h1]
      have := siftup_spec hw (root :: rest) last 0 (by simp) ?_ ?_
      · refine ⟨root, _, by simp only [heappop, hl, hd], hr, this.1, ?_, hmin root hr⟩
        rw [h1]
        refine List.Perm.cons root ?_
        refine List.Perm.trans ?_ this.2.symm
        simp only [List.set_cons_zero]
        exact List.perm_append_singleton last rest
      · intro i a b hi hok ha hb
        have e : h = (root :: rest) ++ [last] := by rw [h1]; rfl
        have h2 := (List.getElem?_eq_some_iff.1 ha).1
        have h3 := (List.getElem?_eq_some_iff.1 hb).1
        refine hh i a b hi trivial ?_ ?_
        · rw [e, List.getElem?_append_left h2]; exact ha
        · rw [e, List.getElem?_append_left h3]; exact hb
      · intro i a b h0; omega

/-- A history of heap operations. -/
inductive HOp (α : Type) where
  | push (x : α)
  | pop

/-- The heap and the entries popped so far. Popping an empty heap raises and changes nothing. -/
def hstep (lt : α → α → Bool) (s : List α × List α) : HOp α → List α × List α
  | .push x => (heappush lt s.1 x, s.2)
  | .pop => match heappop lt s.1 with
    | some (x, h') => (h', s.2 ++ [x])
    | none => s

def hrun (lt : α → α → Bool) (ops : List (HOp α)) : List α × List α := ops.foldl (hstep lt) ([], [])

/-- The entries pushed by a history. -/
def pushed (ops : List (HOp α)) : List α := ops.filterMap fun o => match o with | .push x => some x | .pop => none

/-- Whatever the history, no entry is lost or duplicated: those popped and those left are those pushed; and the next pop
returns an entry such that nothing left is smaller. -/
theorem C14_history [DecidableEq α] (hw : Weak lt) (ops : List (HOp α)) :
    (pushed ops).Perm ((hrun lt ops).2 ++ (hrun lt ops).1) ∧ IsHeap lt (hrun lt ops).1 ∧
    ∀ x h', heappop lt (hrun lt ops).1 = some (x, h') → (hrun lt ops).1.Perm (x :: h') ∧ ∀ y ∈ h', lt y x = false := by
  have key : ∀ ops : List (HOp α), (pushed ops).Perm ((hrun lt ops).2 ++ (hrun lt ops).1) ∧ IsHeap lt (hrun lt ops).1 := by
    intro ops
    induction ops using snoc_induction with
    | h0 => exact ⟨by simp [pushed, hrun], by intro i a b _ _ ha; simp [hrun] at ha⟩
    | h1 ops o ih =>
      obtain ⟨ihp, ihh⟩ := ih
      have er : hrun lt (ops ++ [o]) = hstep lt (hrun lt ops) o := by simp [hrun, List.foldl_append]
      rw [er]
      cases o with
      | push x =>
        obtain ⟨h1, h2⟩ := C14_push hw (hrun lt ops).1 x ihh
        refine ⟨?_, h1⟩
        have ep : pushed (ops ++ [HOp.push x]) = pushed ops ++ [x] := by simp [pushed]
        rw [ep]
        simp only [hstep]
        refine (ihp.append_right [x]).trans ?_
        rw [List.append_assoc]
        refine List.Perm.append_left _ ?_
        exact (List.perm_append_singleton x _).trans h2.symm
      | pop =>
        have ep : pushed (ops ++ [HOp.pop]) = pushed ops := by simp [pushed]
        rw [ep]
        rcases C14_pop hw (hrun lt ops).1 ihh with ⟨_, hn⟩ | ⟨x, h', hs, _, hi, hp, _⟩
        · simp only [hstep, hn]; exact ⟨ihp, ihh⟩
        · simp only [hstep, hs]
          refine ⟨ihp.trans ?_, hi⟩
          rw [List.append_assoc]
          exact List.Perm.append_left _ hp
  refine ⟨(key ops).1, (key ops).2, ?_⟩
  intro x h' hpop
  rcases C14_pop hw (hrun lt ops).1 (key ops).2 with ⟨_, hn⟩ | ⟨y, h'', hs, _, _, hp, hmin⟩
  · rw [hn] at hpop; cases hpop
  · rw [hs] at hpop
    simp only [Option.some.injEq, Prod.mk.injEq] at hpop
    obtain ⟨rfl, rfl⟩ := hpop
    exact ⟨hp, fun z hz => hmin z (hp.mem_iff.2 (List.mem_cons_of_mem _ hz))⟩

example : hrun (fun a b => decide (a < b)) [.push 5, .push 2, .push 9, .pop, .push 1, .push 2, .pop, .pop]
    = (([5, 9] : List Nat), [2, 1, 2]) := by decide +kernel

end Repast.Heapq

namespace Repast.Schedule
open Repast.Heapq

/-- The comparison of the schedule's heap entries is a strict weak order. -/
theorem qlt_weak : Weak qlt where
  asymm a b h := by
    simp only [qlt, Bool.or_eq_true, Bool.and_eq_true, decide_eq_true_eq, Bool.or_eq_false_iff, Bool.and_eq_false_iff,
      decide_eq_false_iff_not] at *
    omega
  trans a b c h1 h2 := by
    simp only [qlt, Bool.or_eq_false_iff, Bool.and_eq_false_iff, decide_eq_false_iff_not] at *
    omega

/-- After any history of pushes and pops, the event that is popped is one of the earliest that wait, and of those the one that was scheduled first. -/
theorem C14_events (ops : List (HOp Ev)) (x : Ev) (h' : List Ev) (h : heappop qlt (hrun qlt ops).1 = some (x, h')) :
    ∀ y ∈ h', x.at_ < y.at_ ∨ x.at_ = y.at_ ∧ x.ord ≤ y.ord := by
  intro y hy
  have := ((C14_history qlt_weak ops).2.2 x h' h).2 y hy
  simp only [qlt, Bool.or_eq_false_iff, Bool.and_eq_false_iff, decide_eq_false_iff_not] at this
  omega

/-- The array `h` represents the sorted queue `q`. -/
def Represents (h q : List Ev) : Prop := IsHeap qlt h ∧ h.Perm q ∧ Sorted q

/-- `queue[0]` and `len(queue)` on the array agree with the sorted list. -/
theorem C14_head {h q : List Ev} (hr : Represents h q) : h[0]? = q.head? ∧ h.length = q.length := by
  obtain ⟨hh, hp, hs⟩ := hr
  refine ⟨?_, hp.length_eq⟩
  cases hq : q with
  | nil => subst hq; simp [hp.eq_nil]
  | cons y ys =>
    cases hh0 : h with
    | nil => rw [hh0, hq] at hp; exact absurd hp.symm.eq_nil (by simp)
    | cons x xs =>
      have hx0 : h[0]? = some x := by simp [hh0]
      have hyh : y ∈ h := hp.mem_iff.2 (by simp [hq])
      obtain ⟨i, hi⟩ := List.mem_iff_getElem?.1 hyh
      have h1 := hh.root_le qlt_weak hx0 i y hi
      have hxq : x ∈ q := hp.mem_iff.1 (by simp [hh0])
      rw [hq] at hxq hs
      rcases List.mem_cons.1 hxq with rfl | hxs
      · rfl
      · have := (List.pairwise_cons.1 hs).1 x hxs
        rw [h1] at this; cases this

/-- `heappush` on the array is insertion in the sorted list. -/
theorem C14_push_refines {h q : List Ev} (hr : Represents h q) (ev : Ev) (hne : ∀ x ∈ q, ev.ord ≠ x.ord) :
    Represents (heappush qlt h ev) (qinsert ev q) := by
  obtain ⟨hh, hp, hs⟩ := hr
  obtain ⟨h1, h2⟩ := C14_push qlt_weak h ev hh
  exact ⟨h1, (h2.trans (hp.cons ev)).trans (qinsert_perm ev q).symm, qinsert_sorted ev q hs hne⟩

/-- `heappop` on the array is removal of the first element of the sorted list. -/
theorem C14_pop_refines {h q : List Ev} {x : Ev} (hr : Represents h (x :: q)) :
    ∃ h', heappop qlt h = some (x, h') ∧ Represents h' q := by
  have hd := (C14_head hr).1
  obtain ⟨hh, hp, hs⟩ := hr
  rcases C14_pop qlt_weak h hh with ⟨rfl, _⟩ | ⟨y, h', h1, h2, h3, h4, _⟩
  · exact absurd hp.symm.eq_nil (by simp)
  · rw [h2] at hd
    simp only [List.head?_cons, Option.some.injEq] at hd
    subst hd
    exact ⟨h', h1, h3, List.Perm.cons_inv (h4.symm.trans hp), (List.pairwise_cons.1 hs).2⟩

/-- schedule.py:418-427: the loop of `Schedule.execute` that pops entries while the head has tick `t`, collecting the
events; on an array heap. `fuel` bounds the iterations by the length of the heap. -/
def popTick (t : Int) : Nat → List Ev → List Ev × List Ev
  | 0, h => ([], h)
  | n+1, h => match h[0]? with
    | none => ([], h)
    | some x => if x.at_ = t then
        match heappop qlt h with
        | some (_, h') => let r := popTick t n h'; (x :: r.1, r.2)
        | none => ([], h)
      else ([], h)

/-- Entering a tick pops from the array precisely the entries with the earliest tick, in scheduling order, as
`startExecute` does on the sorted list. -/
theorem C14_tick_refines (t : Int) {h q : List Ev} (hr : Represents h q) (n : Nat) (hn : q.length ≤ n) :
    (popTick t n h).1 = q.takeWhile (fun x => decide (x.at_ = t)) ∧
    Represents (popTick t n h).2 (q.dropWhile (fun x => decide (x.at_ = t))) := by
  induction n generalizing h q with
  | zero =>
    have : q = [] := by cases q <;> simp_all
    subst this
    exact ⟨rfl, hr⟩
  | succ n ih =>
    have hd := (C14_head hr).1
    cases q with
    | nil => simp only [List.head?_nil] at hd; simp only [popTick, hd]; exact ⟨rfl, hr⟩
    | cons x q =>
      simp only [List.head?_cons] at hd
      simp only [popTick, hd]
      by_cases hx : x.at_ = t
      · obtain ⟨h', h1, h2⟩ := C14_pop_refines hr
        have := ih h2 (by simpa using hn)
        simp only [hx, if_true, h1, List.takeWhile_cons, List.dropWhile_cons, decide_true]
        exact ⟨by rw [this.1], this.2⟩
      · simp only [hx, if_false, List.takeWhile_cons, List.dropWhile_cons, decide_false]
        exact ⟨rfl, hr⟩

/-- A non-trivial array heap, as built by `heappush`. -/
example :
    let ev (i : Nat) (t : Int) : Ev := { id := i, at_ := t, ord := i, ptype := .random, prio := none, interval := none, cb := .stop, tag := none }
    let h := heappush qlt (heappush qlt (heappush qlt (heappush qlt [] (ev 0 5)) (ev 1 3)) (ev 2 7)) (ev 3 3)
    Represents h [ev 1 3, ev 3 3, ev 0 5, ev 2 7] ∧ (popTick 3 4 h).1.map (·.id) = [1, 3] := by
  refine ⟨?_, by decide +kernel⟩
  have h0 : Represents [] [] := ⟨by intro i a b _ _ ha; simp at ha, List.Perm.refl _, List.Pairwise.nil⟩
  have h1 := C14_push_refines h0 { id := 0, at_ := 5, ord := 0, ptype := .random, prio := none, interval := none, cb := .stop, tag := none } (by decide)
  have h2 := C14_push_refines h1 { id := 1, at_ := 3, ord := 1, ptype := .random, prio := none, interval := none, cb := .stop, tag := none } (by decide)
  have h3 := C14_push_refines h2 { id := 2, at_ := 7, ord := 2, ptype := .random, prio := none, interval := none, cb := .stop, tag := none } (by decide)
  exact C14_push_refines h3 { id := 3, at_ := 3, ord := 3, ptype := .random, prio := none, interval := none, cb := .stop, tag := none } (by decide)

end Repast.Schedule
