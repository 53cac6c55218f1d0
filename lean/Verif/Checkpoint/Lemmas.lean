import Verif.Checkpoint.Model
import Verif.Schedule.WorldLemmas

/-! Lemmas for the schedule checkpoint. -/
namespace Repast.Schedule

/-- A predicate on counters and scheduled events that API calls preserve holds after every history. -/
theorem run_pres (e : Env) (P : St → Prop) (h0 : P St.init) (hact : ∀ s a, P s → P (applyAct s a))
    (hother : ∀ s t : St, P s → t.counter = s.counter → t.lastCount = s.lastCount →
      (∃ tl, t.trace = s.trace ++ tl ∧ ∀ o ∈ tl, ∀ ev n d, o ≠ Obs.sched ev n d) → P t) (ops : List Op) : P (run e ops) := by
  have hsame : ∀ s t : St, P s → t.counter = s.counter → t.lastCount = s.lastCount → t.trace = s.trace → P t :=
    fun s t h h1 h2 h3 => hother s t h h1 h2 ⟨[], by simp [h3], by simp⟩
  have hacts : ∀ (l : List Act) s, P s → P (l.foldl applyAct s) := by
    intro l
    induction l with
    | nil => exact fun s h => h
    | cons a l ih => exact fun s h => ih _ (hact s a h)
  have hcall : ∀ s ev, P s → P (callEv e s ev) := by
    intro s ev h
    unfold callEv
    split
    · exact h
    · have h1 : P { s with trace := s.trace ++ [.ran ev s.tick] } :=
        hother s _ h rfl rfl ⟨_, rfl, by simp⟩
      simp only []
      split
      · exact hact _ _ h1
      · exact hacts _ _ h1
  have hrun : ∀ s ev, P s → P (runEv e s ev) := by
    intro s ev h
    unfold runEv
    simp only []
    have h1 := hcall { s with grp := { s.grp with size := s.grp.size - 1 } } ev (hsame s _ h rfl rfl rfl)
    unfold rescheduleEv
    split
    · exact h1
    · split
      · exact h1
      · exact hsame _ _ h1 rfl rfl rfl
  have hex : ∀ w l s, P s → P (executeEvts e w l s).1 := by
    intro w l
    induction l with
    | nil => exact fun s h => h
    | cons ev l ih =>
      intro s h
      have h1 := hrun { s with grp := s.grp.set l w } ev (hsame s _ h rfl rfl rfl)
      simp only [executeEvts]
      split
      · exact hsame _ _ h1 rfl rfl rfl
      · exact ih _ h1
  have hgrp : ∀ s, P s → P (groupExecute e s) := by
    intro s h
    unfold groupExecute
    simp only []
    have h0 : P { s with grp := { s.grp with executing := true } } := hsame s _ h rfl rfl rfl
    generalize { s with grp := { s.grp with executing := true } } = s0 at h0
    have h1 := hex .first s.grp.first s0 h0
    generalize executeEvts e .first s.grp.first s0 = r1 at h1
    have h2 := hex .prioritized r1.1.grp.prioritized r1.1 h1
    generalize executeEvts e .prioritized r1.1.grp.prioritized r1.1 = r2 at h2
    have h3 := hex .last r2.1.grp.last r2.1 h2
    generalize executeEvts e .last r2.1.grp.last r2.1 = r3 at h3
    split
    · exact h1
    · split
      · exact h2
      · split
        · exact h3
        · exact hsame _ _ h3 rfl rfl rfl
  unfold run
  have : ∀ s, P s → P (ops.foldl (step e) s) := by
    induction ops with
    | nil => exact fun s h => h
    | cons o ops ih =>
      intro s h
      refine ih _ ?_
      cases o with
      | act a => simp only [step]; split; exact hact _ _ h; exact h
      | enter =>
        simp only [step]; split
        · unfold startExecute; split
          · exact hsame _ _ h rfl rfl rfl
          · exact hother _ _ h rfl rfl ⟨_, rfl, by simp⟩
        · exact h
      | skip => simp only [step]; split; exact hsame _ _ h rfl rfl rfl; exact h
      | loop =>
        simp only [step]; split
        · split
          · exact hgrp _ h
          · exact hsame _ _ h rfl rfl rfl
        · exact h
      | leave => simp only [step]; split; exact hsame _ _ h rfl rfl rfl; exact h
      | endEvt =>
        simp only [step]
        split
        · split
          · exact hsame _ _ h rfl rfl rfl
          · split
            · exact hsame _ _ h rfl rfl rfl
            · apply hacts
              exact hother _ _ h rfl rfl ⟨_, rfl, by simp⟩
        · exact h
  exact this _ h0

/-- Stop events are what `schedule_stop` makes, and the counter is one more than the last count. -/
structure Std (s : St) : Prop where
  stop : ∀ ev n d, Obs.sched ev n d ∈ s.trace → ev.cb = .stop → ev.ptype = .random ∧ ev.prio = none ∧ ev.interval = none ∧ ev.tag = none
  count : s.counter = 0 ∧ s.lastCount = 0 ∨ s.counter = s.lastCount + 1

theorem pushEvent_std {s : St} (h : Std s) (a p q i c g) (hc : c = Cb.stop → p = .random ∧ q = none ∧ i = none ∧ g = none) :
    Std (pushEvent s a p q i c g) := by
  have ign : Std { s with nextId := s.nextId + 1, trace := s.trace ++ [.ignored s.nextId] } := by
    refine ⟨?_, h.count⟩
    intro ev n d hm
    simp only [List.mem_append, List.mem_singleton, reduceCtorEq, or_false] at hm
    exact h.stop ev n d hm
  unfold pushEvent
  simp only []
  split
  · exact ign
  · split
    · rename_i t _
      have main : ∀ u : St, u.trace = s.trace ++ [Obs.sched { id := s.nextId, at_ := t, ord := s.counter, ptype := p, prio := q, interval := i, cb := c, tag := g } s.tick s.grp.executing] →
          u.counter = s.counter + 1 → u.lastCount = s.counter → Std u := by
        intro u h1 h2 h3
        refine ⟨?_, Or.inr (by omega)⟩
        intro ev n d hm hs
        rw [h1] at hm
        rcases List.mem_append.1 hm with hm | hm
        · exact h.stop ev n d hm hs
        · simp only [List.mem_singleton, Obs.sched.injEq] at hm
          obtain ⟨rfl, -, -⟩ := hm
          exact hc hs
      split
      · exact main _ rfl rfl rfl
      · exact main _ rfl rfl rfl
    · exact ign

theorem run_std (e : Env) (ops : List Op) : Std (run e ops) := by
  apply run_pres e Std ⟨by simp [St.init], Or.inl ⟨rfl, rfl⟩⟩
  · intro s a h
    have keep : ∀ u : St, (∃ o, u.trace = s.trace ++ [o] ∧ ∀ ev n d, o ≠ Obs.sched ev n d) → u.counter = s.counter → u.lastCount = s.lastCount → Std u := by
      rintro u ⟨o, h1, h2⟩ h3 h4
      refine ⟨?_, by rw [h3, h4]; exact h.count⟩
      intro ev n d hm
      rw [h1] at hm
      rcases List.mem_append.1 hm with hm | hm
      · exact h.stop ev n d hm
      · simp only [List.mem_singleton] at hm
        exact absurd hm.symm (h2 _ _ _)
    cases a with
    | sched a p q i l g =>
      have := pushEvent_std h a p q i (.user l) g (by simp)
      exact ⟨this.stop, this.count⟩
    | schedStop a => exact pushEvent_std h a _ _ _ _ _ (by simp)
    | schedEnd l => exact keep _ ⟨_, rfl, by simp⟩ rfl rfl
    | void x => exact keep _ ⟨_, rfl, by simp⟩ rfl rfl
    | stop => exact keep _ ⟨_, rfl, by simp⟩ rfl rfl
  · rintro s t h h1 h2 ⟨tl, h3, h4⟩
    refine ⟨?_, by rw [h1, h2]; exact h.count⟩
    intro ev n d hm
    rw [h3] at hm
    rcases List.mem_append.1 hm with hm | hm
    · exact h.stop ev n d hm
    · exact absurd rfl (h4 _ hm _ _ _)

theorem sorted_perm_eq {l l' : List Ev} (h : Sorted l) (h' : Sorted l') (hp : l.Perm l') : l = l' := by
  induction l generalizing l' with
  | nil => exact hp.nil_eq
  | cons a l ih =>
    cases l' with
    | nil => exact absurd hp.symm.nil_eq (by simp)
    | cons b l' =>
      have hab : a = b := by
        have h1 : a ∈ b :: l' := hp.mem_iff.1 (by simp)
        have h2 : b ∈ a :: l := hp.mem_iff.2 (by simp)
        rcases List.mem_cons.1 h1 with h1 | h1
        · exact h1
        · rcases List.mem_cons.1 h2 with h2 | h2
          · exact h2.symm
          · have q1 := (List.pairwise_cons.1 h).1 b h2
            have q2 := (List.pairwise_cons.1 h').1 a h1
            simp only [qlt, Bool.or_eq_true, Bool.and_eq_true, decide_eq_true_eq] at q1 q2
            omega
      subst hab
      rw [ih (List.pairwise_cons.1 h).2 (List.pairwise_cons.1 h').2 (List.perm_cons a |>.1 hp)]

end Repast.Schedule
