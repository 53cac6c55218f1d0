import Verif.Schedule.Spec

/-! A concrete environment and histories, used to show that the hypotheses of the property theorems are met by
non-trivial cases. -/
namespace Repast.Schedule

theorem pairwise_of_adjacent {l : List Ev} (hs : ∀ ev ∈ l, ev.prio.isSome)
    (h : ∀ i, ∀ a b p q, l[i]? = some a → l[i+1]? = some b → a.prio = some p → b.prio = some q → ¬ q < p) :
    l.Pairwise (fun a b => decide (a.prio.getD 0 ≤ b.prio.getD 0) = true) := by
  induction l with
  | nil => exact List.Pairwise.nil
  | cons x xs ih =>
    have hx := ih (fun ev hev => hs ev (List.mem_cons_of_mem _ hev))
      (fun i a b p q h1 h2 => h (i+1) a b p q (by simpa using h1) (by simpa using h2))
    rw [List.pairwise_cons]
    refine ⟨?_, hx⟩
    cases xs with
    | nil => simp
    | cons y ys =>
      have hxy : x.prio.getD 0 ≤ y.prio.getD 0 := by
        obtain ⟨p, hp⟩ := Option.isSome_iff_exists.1 (hs x (by simp))
        obtain ⟨q, hq⟩ := Option.isSome_iff_exists.1 (hs y (by simp))
        have := h 0 x y p q rfl rfl hp hq
        simp only [hp, hq, Option.getD_some]
        omega
      intro z hz
      rcases List.mem_cons.1 hz with rfl | hz
      · simpa using hxy
      · have := (List.pairwise_cons.1 hx).1 z hz
        simp only [decide_eq_true_eq] at this ⊢
        omega

/-- Sort as CPython does on the lists that occur in the examples. -/
def exSort (l : List Ev) : List Ev :=
  if l.all (fun ev => ev.prio.isSome) then stableSort (fun a b => decide (a.prio.getD 0 ≤ b.prio.getD 0)) l else l

/-- An environment with exact addition, a generator that shuffles nothing and inserts at the end, and the given
callbacks. -/
def exEnv (prog : List Obs → Ev → List Act) (endProg : List Obs → Nat → List Act := fun _ _ => []) : Env where
  adv := fun a b => a + b
  prog := prog
  endProg := endProg
  pick := fun _ n => n
  pick_le := fun _ n => Nat.le_refl n
  shuf := fun _ l => l
  shuf_perm := fun _ l => List.Perm.refl l
  psort := exSort
  psort_perm := by
    intro l; unfold exSort; split
    · exact stableSort_perm _
    · exact List.Perm.refl _
  psort_total := by
    intro l h
    have : l.all (fun ev => ev.prio.isSome) = true := by simpa using h
    simp [exSort, this]
  psort_run := by
    intro l h
    unfold exSort
    split
    · rename_i hs
      exact stableSort_of_pairwise (pairwise_of_adjacent (by simpa using hs) h)
    · rfl

/-- schedule a one-time event -/
def one (at_ : Int) (p : PType := .random) (prio : Option Int := none) (label : Nat := 0) : Act :=
  .sched (some at_) p prio none label none

/-- schedule a repeating event -/
def rep (at_ i : Int) (p : PType := .random) (prio : Option Int := none) (label : Nat := 0) : Act :=
  .sched (some at_) p prio (some i) label none

example : runs (run (exEnv fun _ _ => []) [.act (one 5), .act (rep 1 2), .enter, .loop, .loop, .enter, .loop, .loop, .enter, .loop, .loop]).trace
   = [(1,1),(1,3),(0,5),(1,5)] := by decide +kernel

end Repast.Schedule
