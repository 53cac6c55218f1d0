import Verif.Schedule.Alone

/-!
C86: a rank that takes no further step (its process has crashed, or has ended with an exception, or is in a callback that does not
return) keeps the others from going on to later ticks.
-/
namespace Repast.Schedule

theorem Within.starts {s t : St} (h : Within s t) : Repast.Schedule.starts t.trace = Repast.Schedule.starts s.trace := by
  obtain ⟨-, tl, h, h'⟩ := h
  rw [h, starts_append, starts_eq_nil (fun o ho => (h' o ho).1), List.append_nil]

theorem starts_enter (e : Env) (s : St) : (starts (step e s .enter).trace).length ≤ (starts s.trace).length + 1 := by
  simp only [step]
  split
  · unfold startExecute
    split
    · exact Nat.le_succ _
    · simp [starts_append, starts]
  · exact Nat.le_succ _

theorem starts_skip (e : Env) (s : St) : starts (step e s .skip).trace = starts s.trace := by
  simp only [step]; split <;> rfl

theorem starts_loop (e : Env) (s : St) : starts (step e s .loop).trace = starts s.trace := by
  simp only [step]
  split
  · split
    · exact (within_groupExecute e s).starts
    · rfl
  · rfl

/-- The ticks that rank `k` may still start when rank `i` takes no step. -/
def left (i k : Nat) (w : World) : Nat :=
  (if (w.ranks k).grant.isSome then 1 else 0) + (if (w.ranks i).wait.isSome then 1 else 0)

theorem left_step {e : Nat → Env} {n : Nat} {w : World} {o : WOp} {i k : Nat} (hwg : WG n w.ranks) (hi : i < n) (hk : k < n)
    (ho : o.rank ≠ some i) :
    (starts ((wstep e n w o).ranks k).st.trace).length + left i k (wstep e n w o) ≤ (starts (w.ranks k).st.trace).length + left i k w := by
  by_cases hr : o = .reduce
  · subst hr
    cases hm : w.allreduce n with
    | none => simp only [wstep, hm]; omega
    | some m =>
      have hik := fun j hj => (allreduce_spec hm).1 j hj
      obtain ⟨v, hv, -⟩ := hik i hi
      simp only [wstep, hm, left, hv]
      simp
  · have hwi : (wstep e n w o).ranks i = w.ranks i := by
      cases hor : o.rank with
      | none => cases o <;> simp [WOp.rank] at hor hr
      | some j => exact wstep_other hor (fun h => ho (by rw [hor, h]))
    simp only [left, hwi]
    rcases wstep_cases e n w o k with h | ⟨-, h1, h2, h3, hg, h⟩ | ⟨h1, m, hm, h⟩ | ⟨-, m, hm, h⟩ | ⟨-, hp, h⟩ | ⟨-, hp, hg, h⟩ | ⟨-, hp, h⟩ <;> rw [h]
    · omega
    · simp
    · exact absurd h1 hr
    · rw [hm]
      simp only [Option.isSome_some, Option.isSome_none, if_true]
      split
      · have := starts_enter (e k) (w.ranks k).st; simp at this ⊢; omega
      · rw [starts_skip]; simp
    · rw [starts_loop]; simp
    · simp
    · rw [(within_endEvt (e k) (w.ranks k).st).starts]; simp

theorem wrun_append (e : Nat → Env) (n : Nat) (setup : Nat → List Act) (a b : List WOp) :
    ∃ b' : List WOp, (∀ o ∈ b', o ∈ b) ∧ wrun e n setup (a ++ b) = b'.foldl (wstep e n) (wrun e n setup a) := by
  unfold wrun
  rw [List.filter_append, List.foldl_append]
  exact ⟨_, fun o ho => (List.mem_filter.1 ho).1, rfl⟩

theorem WG.foldl {e : Nat → Env} {n : Nat} (ops : List WOp) : ∀ {w : World}, WG n w.ranks → WG n (ops.foldl (wstep e n) w).ranks := by
  induction ops with
  | nil => exact fun h => h
  | cons o ops ih => exact fun h => ih (by rw [ranks_wstep]; exact h.step o)

/-! ### The theorems -/

/-- Rank `i` takes no step after `ops`. Then, however long the others go on, another rank starts at most one tick more for a reduction that
had completed and on whose result it had not acted yet, and one more if rank `i` was in a reduction. -/
theorem C86_no_run_ahead (e : Nat → Env) (n : Nat) (setup : Nat → List Act) (ops more : List WOp) (i k : Nat) (hi : i < n) (hk : k < n)
    (hc : ∀ o ∈ more, o.rank ≠ some i) :
    (starts ((wrun e n setup (ops ++ more)).ranks k).st.trace).length ≤ (starts ((wrun e n setup ops).ranks k).st.trace).length +
      (if ((wrun e n setup ops).ranks k).grant.isSome then 1 else 0) + (if ((wrun e n setup ops).ranks i).wait.isSome then 1 else 0) := by
  obtain ⟨b, hb, he⟩ := wrun_append e n setup ops more
  rw [he]
  have hwg : WG n (wrun e n setup ops).ranks := WG.foldl _ (WG.init n setup)
  have hb : ∀ o ∈ b, o.rank ≠ some i := fun o ho => hc o (hb o ho)
  generalize wrun e n setup ops = w at hwg ⊢
  have key : ∀ (b : List WOp) (w : World), WG n w.ranks → (∀ o ∈ b, o.rank ≠ some i) →
      (starts ((b.foldl (wstep e n) w).ranks k).st.trace).length ≤ (starts (w.ranks k).st.trace).length + left i k w := by
    intro b
    induction b with
    | nil => exact fun w _ _ => Nat.le_add_right _ _
    | cons o b ih =>
      intro w hw hb
      have h1 := ih (wstep e n w o) (by rw [ranks_wstep]; exact hw.step o) (fun o' ho' => hb o' (List.mem_cons_of_mem _ ho'))
      have h2 := left_step (e := e) (k := k) hw hi hk (hb o List.mem_cons_self)
      exact Nat.le_trans h1 h2
  have := key b w hwg hb
  simp only [left] at this
  omega

/-- In the end, when only rank `i` could go on if it had not crashed, each other rank has returned from `execute()` or waits in the
reduction. -/
theorem C86_others_wait (e : Nat → Env) (n : Nat) (setup : Nat → List Act) (ops : List WOp) (i : Nat)
    (hend : ∀ o, CanGoOn n (wrun e n setup ops) o → o.rank = some i) (k : Nat) (hk : k < n) (hki : k ≠ i) :
    ((wrun e n setup ops).ranks k).st.phase = .finished ∨ ((wrun e n setup ops).ranks k).wait.isSome := by
  have no : ∀ o, o.rank = some k → ¬ CanGoOn n (wrun e n setup ops) o := by
    intro o ho hc
    have := hend o hc
    rw [ho] at this
    exact hki (Option.some.inj this)
  generalize wrun e n setup ops = w at no ⊢
  have h1 := no (.arrive k) rfl
  have h2 := no (.resume k) rfl
  have h3 := no (.loop k) rfl
  have h4 := no (.leave k) rfl
  have h5 := no (.endEvt k) rfl
  simp only [CanGoOn, hk, true_and] at h1 h2 h3 h4 h5
  cases hp : (w.ranks k).st.phase with
  | finished => exact .inl rfl
  | running => exact absurd hp h3
  | ending j => exact absurd ⟨j, hp⟩ h5
  | idle =>
    right
    cases hg : (w.ranks k).st.go with
    | false => exact absurd ⟨hp, hg⟩ h4
    | true =>
      cases hgr : (w.ranks k).grant with
      | some v => rw [hgr] at h2; exact absurd rfl h2
      | none =>
        cases hw : (w.ranks k).wait with
        | none => exact absurd ⟨hp, hg, hw, hgr⟩ h1
        | some v => rfl

/-- What the others have done when rank `i` has crashed is the beginning of what they would have done otherwise: for a continuation
`b` in which rank `i` takes no step and a run `a` that goes on to its end. -/
theorem C86_beginning (e : Nat → Env) (n : Nat) (setup : Nat → List Act) (ops b a : List WOp) (k : Nat)
    (hf : ((wrun e n setup a).ranks k).st.phase = .finished) :
    ∃ tl, ((wrun e n setup a).ranks k).st.trace = ((wrun e n setup (ops ++ b)).ranks k).st.trace ++ tl :=
  (C85_returned e e n n setup setup a (ops ++ b) k k rfl rfl hf).1

/-! ### The hypotheses are met -/

/-- the last tick of `endsWorld`; rank 1 crashes in the reduction before it, and rank 0 gets through that tick -/
def crashOps : List WOp := endsOps.take 19

def crashMore : List WOp := [.arrive 0, .reduce, .resume 0, .loop 0, .loop 0, .leave 0, .endEvt 0]

example : (starts ((wrun endsEnv 2 stopSetup (crashOps ++ crashMore)).ranks 0).st.trace).length ≤
      (starts ((wrun endsEnv 2 stopSetup crashOps).ranks 0).st.trace).length + 0 + 1 ∧
    (starts ((wrun endsEnv 2 stopSetup (crashOps ++ crashMore)).ranks 0).st.trace).length =
      (starts ((wrun endsEnv 2 stopSetup crashOps).ranks 0).st.trace).length + 1 := by
  refine ⟨?_, by decide +kernel⟩
  have := C86_no_run_ahead endsEnv 2 stopSetup crashOps crashMore 1 0 (by omega) (by omega) (by decide)
  have h1 : ((wrun endsEnv 2 stopSetup crashOps).ranks 0).grant.isSome = false := by decide +kernel
  have h2 : ((wrun endsEnv 2 stopSetup crashOps).ranks 1).wait.isSome = true := by decide +kernel
  simpa [h1, h2] using this

/-- rank 1 crashes in the second tick; rank 0 waits for it in the next reduction -/
example : ((wrun endsEnv 2 stopSetup (endsOps.take 15 ++ [.resume 1, .arrive 0])).ranks 0).st.phase = .finished ∨
    ((wrun endsEnv 2 stopSetup (endsOps.take 15 ++ [.resume 1, .arrive 0])).ranks 0).wait.isSome := by
  refine C86_others_wait endsEnv 2 stopSetup _ 1 ?_ 0 (by omega) (by omega)
  have h0 : ((wrun endsEnv 2 stopSetup (endsOps.take 15 ++ [.resume 1, .arrive 0])).ranks 0).st.phase = .idle ∧
    ((wrun endsEnv 2 stopSetup (endsOps.take 15 ++ [.resume 1, .arrive 0])).ranks 0).st.go = true ∧
    ((wrun endsEnv 2 stopSetup (endsOps.take 15 ++ [.resume 1, .arrive 0])).ranks 0).wait.isSome = true ∧
    ((wrun endsEnv 2 stopSetup (endsOps.take 15 ++ [.resume 1, .arrive 0])).ranks 0).grant = none ∧
    ((wrun endsEnv 2 stopSetup (endsOps.take 15 ++ [.resume 1, .arrive 0])).ranks 1).wait = none := by decide +kernel
  generalize wrun endsEnv 2 stopSetup (endsOps.take 15 ++ [.resume 1, .arrive 0]) = w at h0 ⊢
  obtain ⟨h1, h2, h3, h4, h5⟩ := h0
  have two : ∀ j, j < 2 → j ≠ 0 → some j = some 1 := by intro j a b; congr 1; omega
  intro o ho
  cases o with
  | arrive j => refine two j ho.1 ?_; rintro rfl; rw [ho.2.2.2.1] at h3; cases h3
  | reduce => have := ho.2 1 (by omega); rw [h5] at this; cases this
  | resume j => refine two j ho.1 ?_; rintro rfl; have := ho.2; rw [h4] at this; cases this
  | loop j => refine two j ho.1 ?_; rintro rfl; rw [ho.2] at h1; cases h1
  | leave j => refine two j ho.1 ?_; rintro rfl; rw [ho.2.2] at h2; cases h2
  | endEvt j => refine two j ho.1 ?_; rintro rfl; obtain ⟨-, k, hk⟩ := ho; rw [hk] at h1; cases h1

end Repast.Schedule
