import Verif.Schedule.View

/-! Order of execution: monotone time, and the order inside a tick. -/
namespace Repast.Schedule

/-! ### History positions -/

/-- Relation `R` holds between the events run in a tick, in the order run, restricted to those known when the first of
the two ran; `H` is a condition on the history before the second. -/
def Ordered (R : Ev → Ev → Prop) (H : List Obs → Prop) (tr : List Obs) : Prop :=
  ∀ i j e1 e2 t1 t2, i < j → tr[i]? = some (.ran e1 t1) → tr[j]? = some (.ran e2 t2) → NoStart tr i j →
    SchedBefore tr e2.id i → H (tr.take j) → R e1 e2

theorem Ordered.ext {R H tr tl} (h : Ordered R H tr) (hr : ∀ o ∈ tl, ∀ ev now, o ≠ .ran ev now) :
    Ordered R H (tr ++ tl) := by
  intro i j e1 e2 t1 t2 hij hi hj hn hs hh
  have hjl : j < tr.length := by
    apply Classical.byContradiction
    intro hc
    rw [List.getElem?_append_right (by omega)] at hj
    exact absurd rfl (hr _ (List.mem_of_getElem? hj) _ _)
  rw [List.getElem?_append_left (by omega)] at hi hj
  rw [List.take_append_of_le_length (by omega)] at hh
  refine h i j e1 e2 t1 t2 hij hi hj ?_ ?_ hh
  · intro k t h1 h2
    have := hn k t h1 h2
    rwa [List.getElem?_append_left (by omega)] at this
  · obtain ⟨k, ev, now, d, h1, h2, h3⟩ := hs
    rw [List.getElem?_append_left (by omega)] at h2
    exact ⟨k, ev, now, d, h1, h2, h3⟩

/-- The pending part of the order. -/
def Pend (R : Ev → Ev → Prop) (H : List Obs → Prop) (tr : List Obs) (x : Ev) : Prop :=
  ∀ i e1 t1, tr[i]? = some (.ran e1 t1) → NoStart tr i tr.length → SchedBefore tr x.id i → H tr → R e1 x

theorem Ordered.ran {R H tr ev t} (h : Ordered R H tr) (hp : Pend R H tr ev) : Ordered R H (tr ++ [.ran ev t]) := by
  intro i j e1 e2 t1 t2 hij hi hj hn hs hh
  by_cases hjl : j < tr.length
  · rw [List.getElem?_append_left (by omega)] at hi hj
    rw [List.take_append_of_le_length (by omega)] at hh
    refine h i j e1 e2 t1 t2 hij hi hj ?_ ?_ hh
    · intro k t h1 h2
      have := hn k t h1 h2
      rwa [List.getElem?_append_left (by omega)] at this
    · obtain ⟨k, ev, now, d, h1, h2, h3⟩ := hs
      rw [List.getElem?_append_left (by omega)] at h2
      exact ⟨k, ev, now, d, h1, h2, h3⟩
  · have hje : j = tr.length := by
      have := (List.getElem?_eq_some_iff.1 hj).1
      simp at this; omega
    subst hje
    rw [List.getElem?_append_right (Nat.le_refl _)] at hj
    simp at hj
    obtain ⟨rfl, rfl⟩ := hj
    rw [List.getElem?_append_left (by omega)] at hi
    rw [List.take_append_of_le_length (by omega), List.take_length] at hh
    refine hp i e1 t1 hi ?_ ?_ hh
    · intro k t h1 h2
      have := hn k t h1 h2
      rwa [List.getElem?_append_left (by omega)] at this
    · obtain ⟨k, ev, now, d, h1, h2, h3⟩ := hs
      rw [List.getElem?_append_left (by omega)] at h2
      exact ⟨k, ev, now, d, h1, h2, h3⟩

/-- A condition on the history that survives going back within the same tick. -/
def TickStable (H : List Obs → Prop) : Prop := ∀ tr tl, (∀ o ∈ tl, ∀ t, o ≠ .start t) → H (tr ++ tl) → H tr

/-! ### What a callback adds to the history and to the group -/

theorem pushEvent_trace' (s : St) (a p q i c g) : ∃ o, (pushEvent s a p q i c g).trace = s.trace ++ [o] ∧
    (∀ ev now, o ≠ .ran ev now) ∧ (∀ t, o ≠ .start t) := by
  unfold pushEvent; simp only []; split
  · exact ⟨_, rfl, by simp, by simp⟩
  · split
    · split <;> exact ⟨_, rfl, by simp, by simp⟩
    · exact ⟨_, rfl, by simp, by simp⟩

theorem applyAct_trace' (s : St) (a : Act) : ∃ o, (applyAct s a).trace = s.trace ++ [o] ∧ (∀ ev now, o ≠ .ran ev now) ∧
    (∀ t, o ≠ .start t) := by
  cases a with
  | sched a p q i l g => exact pushEvent_trace' s a p q i (.user l) g
  | schedStop a => exact pushEvent_trace' s a _ _ _ _ _
  | schedEnd l => exact ⟨_, rfl, by simp, by simp⟩
  | void id => exact ⟨_, rfl, by simp, by simp⟩
  | stop => exact ⟨_, rfl, by simp, by simp⟩

theorem pushEvent_nextId (s : St) (a p q i c g) : s.nextId ≤ (pushEvent s a p q i c g).nextId := by
  unfold pushEvent; simp only []; split
  · exact Nat.le_succ _
  · split
    · split <;> exact Nat.le_succ _
    · exact Nat.le_succ _

theorem applyAct_nextId (s : St) (a : Act) : s.nextId ≤ (applyAct s a).nextId := by
  cases a with
  | sched a p q i l g => exact pushEvent_nextId s a p q i (.user l) g
  | schedStop a => exact pushEvent_nextId s a _ _ _ _ _
  | schedEnd l => exact Nat.le_succ _
  | void id => exact Nat.le_refl _
  | stop => exact Nat.le_refl _

theorem pushEvent_mem (s : St) (a p q i c g) : ∀ x ∈ (pushEvent s a p q i c g).grp.all, x ∈ s.grp.all ∨ s.nextId ≤ x.id := by
  unfold pushEvent; simp only []; split
  · exact fun x hx => Or.inl hx
  · split
    · split
      · intro x hx
        rcases List.mem_cons.1 ((addEvt_all _ _).mem_iff.1 hx) with rfl | hx
        · exact Or.inr (Nat.le_refl _)
        · exact Or.inl hx
      · exact fun x hx => Or.inl hx
    · exact fun x hx => Or.inl hx

theorem applyAct_mem (s : St) (a : Act) : ∀ x ∈ (applyAct s a).grp.all, x ∈ s.grp.all ∨ s.nextId ≤ x.id := by
  cases a with
  | sched a p q i l g => exact pushEvent_mem s a p q i (.user l) g
  | schedStop a => exact pushEvent_mem s a _ _ _ _ _
  | _ => exact fun x hx => Or.inl hx

/-- an event that joins the group inside a callback was scheduled for the current tick in it -/
theorem pushEvent_intr (s : St) (a p q i c g) (h : s.grp.executing = true) (h0 : s.grp.interrupted = false)
    (h1 : (pushEvent s a p q i c g).grp.interrupted = true) :
    ∃ ev, (pushEvent s a p q i c g).trace = s.trace ++ [.sched ev s.tick true] ∧ ev.at_ = s.tick := by
  unfold pushEvent at h1 ⊢
  simp only [] at h1 ⊢
  split
  · simp [h0] at h1
  · rename_i t
    simp only [] at h1
    split
    · rename_i ht
      rw [if_pos ht] at h1
      split
      · rename_i hs
        exact ⟨_, by simp [h]; rfl, hs⟩
      · rename_i hs
        rw [if_neg hs] at h1
        simp [h0] at h1
    · rename_i ht
      rw [if_neg ht] at h1
      simp [h0] at h1

theorem applyAct_intr (s : St) (a : Act) (h : s.grp.executing = true) (h0 : s.grp.interrupted = false)
    (h1 : (applyAct s a).grp.interrupted = true) :
    ∃ ev, (applyAct s a).trace = s.trace ++ [.sched ev s.tick true] ∧ ev.at_ = s.tick := by
  cases a with
  | sched a p q i l g => exact pushEvent_intr s a p q i (.user l) g h h0 h1
  | schedStop a => exact pushEvent_intr s a _ _ _ _ _ h h0 h1
  | _ => simp [applyAct, h0] at h1

theorem foldl_applyAct_facts (l : List Act) (s : St) : ∃ tl, (l.foldl applyAct s).trace = s.trace ++ tl ∧
    (∀ o ∈ tl, ∀ ev now, o ≠ .ran ev now) ∧ (∀ o ∈ tl, ∀ t, o ≠ .start t) ∧
    (∀ x ∈ (l.foldl applyAct s).grp.all, x ∈ s.grp.all ∨ s.nextId ≤ x.id) ∧
    (s.grp.executing = true → s.grp.interrupted = false → (l.foldl applyAct s).grp.interrupted = true →
      ∃ ev, Obs.sched ev s.tick true ∈ tl ∧ ev.at_ = s.tick) := by
  induction l generalizing s with
  | nil => exact ⟨[], by simp, by simp, by simp, fun x hx => Or.inl hx, fun _ h0 h1 => by simp [h0] at h1⟩
  | cons a l ih =>
    obtain ⟨o, h1, h2, h3⟩ := applyAct_trace' s a
    obtain ⟨tl, t1, t2, t3, t4, t5⟩ := ih (applyAct s a)
    refine ⟨o :: tl, by simp [t1, h1], ?_, ?_, ?_, ?_⟩
    · intro o' ho'
      rcases List.mem_cons.1 ho' with rfl | ho'
      · exact h2
      · exact t2 o' ho'
    · intro o' ho'
      rcases List.mem_cons.1 ho' with rfl | ho'
      · exact h3
      · exact t3 o' ho'
    · intro x hx
      have hn := applyAct_nextId s a
      rcases t4 x hx with hx | hx
      · exact applyAct_mem s a x hx
      · right; omega
    · intro hx h0 hi
      cases hc : (applyAct s a).grp.interrupted with
      | false =>
        obtain ⟨ev, he, ha⟩ := t5 (by rw [applyAct_executing]; exact hx) hc hi
        rw [applyAct_tick] at he ha
        exact ⟨ev, by simp [he], ha⟩
      | true =>
        obtain ⟨ev, he, ha⟩ := applyAct_intr s a hx h0 hc
        rw [h1] at he
        have : o = .sched ev s.tick true := by simpa using he
        exact ⟨ev, by simp [this], ha⟩

theorem rescheduleEv_trace (e : Env) (s : St) (ev : Ev) : (rescheduleEv e s ev).trace = s.trace :=
  congrArg V.trace (rescheduleEv_view e s ev)

/-- What running one event does to the history and to the group. -/
theorem runEv_facts (e : Env) (s : St) (ev : Ev) (hx : s.grp.executing = true) (h0 : s.grp.interrupted = false) :
    ∃ tl, ((ev.id ∈ s.voided ∧ tl = [] ∧ (runEv e s ev).trace = s.trace) ∨
        (ev.id ∉ s.voided ∧ (runEv e s ev).trace = (s.trace ++ [.ran ev s.tick]) ++ tl)) ∧
      (∀ o ∈ tl, ∀ ev now, o ≠ .ran ev now) ∧ (∀ o ∈ tl, ∀ t, o ≠ .start t) ∧
      (∀ x ∈ (runEv e s ev).grp.all, x ∈ s.grp.all ∨ s.nextId ≤ x.id) ∧
      ((runEv e s ev).grp.interrupted = true → ∃ ev', Obs.sched ev' s.tick true ∈ tl ∧ ev'.at_ = s.tick) := by
  simp only [runEv, rescheduleEv_grp, rescheduleEv_trace]
  by_cases hv : ev.id ∈ s.voided
  · rw [callEv, if_pos hv]
    exact ⟨[], Or.inl ⟨hv, rfl, rfl⟩, by simp, by simp, fun x hx => Or.inl hx, fun h1 => by simp [h0] at h1⟩
  · obtain ⟨l, hl⟩ := callEv_eq e { s with grp := { s.grp with size := s.grp.size - 1 } } ev hv
    rw [hl]
    obtain ⟨tl, t1, t2, t3, t4, t5⟩ := foldl_applyAct_facts l
      { s with grp := { s.grp with size := s.grp.size - 1 }, trace := s.trace ++ [.ran ev s.tick] }
    exact ⟨tl, Or.inr ⟨hv, t1⟩, t2, t3, t4, t5 hx h0⟩

/-! ### The order in a tick follows the plan -/

theorem mem_all_iff_plan {g : Group} (h1 : g.random = []) (h2 : g.added = []) (x : Ev) : x ∈ g.all ↔ x ∈ g.plan := by
  unfold Group.all Group.plan
  rw [h1, h2]
  simp only [List.mem_append, List.not_mem_nil, or_false]
  grind

/-- `ev` is the first of the plan. -/
theorem Next.plan {g : Group} {w ev rest} (h : Next g w ev rest) : g.plan = ev :: (g.set rest w).plan := by
  obtain ⟨h1, h2, h3⟩ := h
  cases w
  · simp only [Group.get] at h1
    simp [Group.plan, Group.set, h1]
  · simp only [Group.get] at h1
    simp [Group.plan, Group.set, h1, h2 (by simp)]
  · simp only [Group.get] at h1
    simp [Group.plan, Group.set, h1, h2 (by simp), h3 rfl]

structure Seq (R : Ev → Ev → Prop) (H : List Obs → Prop) (s : St) : Prop where
  pend : s.phase = .running → ∀ x ∈ s.grp.all, Pend R H s.trace x
  done : Ordered R H s.trace

theorem Seq.quiet {R H s t} (h : Seq R H s) (htr : t.trace = s.trace) (hp : t.phase = .running → s.phase = .running)
    (hg : t.phase = .running → ∀ x ∈ t.grp.all, x ∈ s.grp.all) : Seq R H t :=
  ⟨fun hr x hx => by rw [htr]; exact h.pend (hp hr) x (hg hr x hx), by rw [htr]; exact h.done⟩

theorem Seq.step {R H e s t} (hH : TickStable H) (hg : GInv s) (hi : Inv e none s)
    (hplan : s.phase = .running → H s.trace → s.grp.plan.Pairwise R) (h : Seq R H s) (hm : MStep e s t) : Seq R H t := by
  cases hm with
  | act a hp =>
    refine ⟨fun hr => ?_, ?_⟩
    · rw [applyAct_phase, hp] at hr; simp at hr
    · obtain ⟨o, h1, h2, h3⟩ := applyAct_trace' s a
      rw [h1]
      exact h.done.ext (by simpa using h2)
  | enter hp hgo =>
    unfold startExecute
    split
    · exact h.quiet rfl (fun hr => hr) (fun _ x hx => hx)
    · rename_i ev0 _ _
      refine ⟨fun _ x hx => ?_, h.done.ext (by simp)⟩
      intro i e1 t1 hi1 hn
      have hil : i < s.trace.length := by
        apply Classical.byContradiction; intro hc
        rw [List.getElem?_append_right (by omega)] at hi1
        have := List.mem_of_getElem? hi1
        simp at this
      exact absurd (by simp) (hn s.trace.length ev0.at_ hil (by simp))
  | skip hp => exact h.quiet rfl (fun hr => hr) (fun _ x hx => hx)
  | exec hp => exact h.quiet rfl (fun hr => hr) (fun _ x hx => hx)
  | event w ev rest hp hx hn =>
    have hall := set_all_perm hn.1
    obtain ⟨r1, r2, r3, -⟩ := hg.run hp
    obtain ⟨tl, f1, f2, f3, f4, -⟩ := runEv_facts e { s with grp := s.grp.set rest w } ev
      (by simp [set_executing, hx]) (by simp [set_interrupted, r3])
    simp only [] at f1 f4
    have htr : (post e (runEv e { s with grp := s.grp.set rest w } ev)).trace =
        (runEv e { s with grp := s.grp.set rest w } ev).trace := congrArg V.trace (post_view _ _)
    have hall' : ∀ x ∈ (post e (runEv e { s with grp := s.grp.set rest w } ev)).grp.all,
        x ∈ (s.grp.set rest w).all ∨ s.nextId ≤ x.id := by
      intro x hx'
      apply f4
      unfold post at hx'
      split at hx'
      · exact (addDuring_all _ _).mem_iff.1 hx'
      · exact hx'
    have hevp : Pend R H s.trace ev := h.pend hp ev (hall.mem_iff.2 (by simp))
    have hschid : ∀ {x k}, SchedBefore s.trace x k → x < s.nextId := by
      intro x k ⟨k', a, n, d, h1, h2, h3⟩
      have := hi.bound _ _ _ (List.mem_of_getElem? h2)
      omega
    -- the rest of the plan comes after `ev`
    have hrest : H s.trace → ∀ x ∈ (s.grp.set rest w).all, R ev x := by
      intro hh x hx'
      have hpl := hplan hp hh
      rw [hn.plan, List.pairwise_cons] at hpl
      exact hpl.1 x ((mem_all_iff_plan (by rw [set_random, r1]) (by rw [set_added, r2]) x).1 hx')
    refine ⟨fun _ x hx' => ?_, ?_⟩
    · rw [htr]
      rcases f1 with ⟨-, -, f1⟩ | ⟨hv, f1⟩
      · rw [f1]
        rcases hall' x hx' with hx' | hx'
        · exact h.pend hp x (hall.mem_iff.2 (List.mem_cons_of_mem _ hx'))
        · intro i e1 t1 _ _ hs _
          have := hschid hs
          omega
      · rw [f1]
        intro i e1 t1 hi1 hns hs hh
        have hHs : H s.trace := by
          refine hH s.trace (.ran ev s.tick :: tl) ?_ (by simpa using hh)
          intro o ho
          rcases List.mem_cons.1 ho with rfl | ho
          · simp
          · exact f3 o ho
        have hile : i ≤ s.trace.length := by
          apply Classical.byContradiction; intro hc
          rw [List.getElem?_append_right (by simp; omega)] at hi1
          exact absurd rfl (f2 _ (List.mem_of_getElem? hi1) _ _)
        -- the event was known before position `i`
        have hs' : SchedBefore s.trace x.id i := by
          obtain ⟨k, a, n, d, h1, h2, h3⟩ := hs
          rw [List.append_assoc, List.getElem?_append_left (by omega)] at h2
          exact ⟨k, a, n, d, h1, h2, h3⟩
        rcases hall' x hx' with hx' | hx'
        · rcases Nat.lt_or_eq_of_le hile with hlt | rfl
          · rw [List.append_assoc, List.getElem?_append_left hlt] at hi1
            refine h.pend hp x (hall.mem_iff.2 (List.mem_cons_of_mem _ hx')) i e1 t1 hi1 ?_ hs' hHs
            intro k t h1 h2
            have := hns k t h1 (by simp; omega)
            rwa [List.append_assoc, List.getElem?_append_left h2] at this
          · have : e1 = ev := by
              rw [List.append_assoc, List.getElem?_append_right (Nat.le_refl _)] at hi1
              simp at hi1
              exact hi1.1.symm
            rw [this]
            exact hrest hHs x hx'
        · have := hschid hs'
          omega
    · rw [htr]
      rcases f1 with ⟨-, -, f1⟩ | ⟨hv, f1⟩
      · rw [f1]; exact h.done
      · rw [f1]
        exact (h.done.ran hevp).ext f2
  | unexec hp => exact h.quiet rfl (fun hr => hr) (fun _ x hx => hx)
  | finish hp => exact h.quiet rfl (fun hr => by simp at hr) (fun hr => by simp at hr)
  | leave hp => exact h.quiet rfl (fun hr => by simp at hr) (fun hr => by simp at hr)
  | endDone i hp => exact h.quiet rfl (fun hr => by simp at hr) (fun hr => by simp at hr)
  | endSkip i id l hp => exact h.quiet rfl (fun hr => by simp at hr) (fun hr => by simp at hr)
  | endRun i id l hp hi hv =>
    refine ⟨fun hr => ?_, ?_⟩
    · simp only [foldl_applyAct_phase] at hr; simp at hr
    · obtain ⟨tl, t1, t2, -⟩ := foldl_applyAct_facts (e.endProg (s.trace ++ [.ranEnd id l]) l)
        { s with phase := .ending (i+1), trace := s.trace ++ [.ranEnd id l] }
      simp only [t1]
      exact (h.done.ext (by simp)).ext t2

end Repast.Schedule
