import Verif.Schedule.Props

/-
C78: end events that raise, and `SharedScheduleRunner.execute` that is called again after it has returned or raised (schedule.py:613-624).
-/
namespace Repast.Schedule

/-- Whether the callable of an end event raises, after the API calls that `Env.endProg` says it makes. -/
abbrev EndRaises := List Obs → Nat → Bool

/-- What happens: as before, or the model goes on after `execute` has returned (and may call it again). -/
inductive AOp where
  | op (o : Op)
  | again
  deriving DecidableEq, Repr

/-- schedule.py:623-624: an end event is called, and whether it raises. -/
def endRaises (y : EndRaises) (s : St) : Bool :=
  match s.phase with
  | .ending i =>
    match s.endEvts[i]? with
    | some p => !decide (p.1 ∈ s.voided) && y (s.trace ++ [.ranEnd p.1 p.2]) p.2
    | none => false
  | _ => false

/-- schedule.py:613-624 `execute`. If an end event raises, the exception leaves `execute`, and the model catches it. `go` is still false then, and after `execute` has returned. The second component says
that an end event raised. -/
def stepA (e : Env) (y : EndRaises) (s : St) : AOp → St × Bool
  | .again => (if s.phase = .finished then { s with phase := .idle } else s, false)
  | .op o => if o = .endEvt ∧ endRaises y s = true then ({ step e s .endEvt with phase := .idle }, true) else (step e s o, false)

def afterA (e : Env) (y : EndRaises) (s : St) (later : List AOp) : St := later.foldl (fun s o => (stepA e y s o).1) s

/-! ### Lemmas -/

/-- What is known about end events once the schedule has stopped. -/
structure Over (s : St) : Prop where
  go : s.go = false
  phase : s.phase ≠ .running
  ends : s.endEvts = schedEnds s.trace
  voided : ∀ x, x ∈ s.voided ↔ IsVoided x s.trace
  ids : s.endEvts.Pairwise (fun a b => a.1 < b.1)
  bound : ∀ p ∈ s.endEvts, p.1 < s.nextId
  ran : ∀ p ∈ ranEnds s.trace, p ∈ s.endEvts

/-- What an API call does to the things that concern end events. -/
theorem applyAct_over {s : St} (h : Over s) (a : Act) : Over (applyAct s a) ∧ (∃ l, (applyAct s a).endEvts = s.endEvts ++ l) ∧ (∃ tl, (applyAct s a).trace = s.trace ++ tl) ∧
    ranEnds (applyAct s a).trace = ranEnds s.trace ∧ runs (applyAct s a).trace = runs s.trace ∧ starts (applyAct s a).trace = starts s.trace ∧ (∀ x ∈ s.voided, x ∈ (applyAct s a).voided) := by
  have push : ∀ (at_ : Option Int) p q i c g, ∃ o, (∀ id l, o ≠ Obs.schedEnd id l) ∧ (∀ id l, o ≠ Obs.ranEnd id l) ∧ (∀ x, o ≠ Obs.voided x) ∧ (∀ ev n, o ≠ Obs.ran ev n) ∧ (∀ t, o ≠ Obs.start t) ∧
      (pushEvent s at_ p q i c g).trace = s.trace ++ [o] ∧ (pushEvent s at_ p q i c g).endEvts = s.endEvts ∧ (pushEvent s at_ p q i c g).voided = s.voided ∧
      (pushEvent s at_ p q i c g).go = s.go ∧ (pushEvent s at_ p q i c g).nextId = s.nextId + 1 := by
    intro at_ p q i c g
    unfold pushEvent
    simp only []
    split
    · exact ⟨.ignored s.nextId, by simp, by simp, by simp, by simp, by simp, rfl, rfl, rfl, rfl, rfl⟩
    · split
      · split
        · exact ⟨.sched _ _ _, by simp, by simp, by simp, by simp, by simp, rfl, rfl, rfl, rfl, rfl⟩
        · exact ⟨.sched _ _ _, by simp, by simp, by simp, by simp, by simp, rfl, rfl, rfl, rfl, rfl⟩
      · exact ⟨.ignored s.nextId, by simp, by simp, by simp, by simp, by simp, rfl, rfl, rfl, rfl, rfl⟩
  have hp := applyAct_phase s a
  have quiet : ∀ (s' : St), s'.phase = s.phase → (∃ o, (∀ id l, o ≠ Obs.schedEnd id l) ∧ (∀ id l, o ≠ Obs.ranEnd id l) ∧ (∀ x, o ≠ Obs.voided x) ∧ (∀ ev n, o ≠ Obs.ran ev n) ∧ (∀ t, o ≠ Obs.start t) ∧
      s'.trace = s.trace ++ [o] ∧ s'.endEvts = s.endEvts ∧ s'.voided = s.voided ∧ s'.go = s.go ∧ s'.nextId = s.nextId + 1) →
      Over s' ∧ (∃ l, s'.endEvts = s.endEvts ++ l) ∧ (∃ tl, s'.trace = s.trace ++ tl) ∧ ranEnds s'.trace = ranEnds s.trace ∧ runs s'.trace = runs s.trace ∧ starts s'.trace = starts s.trace ∧
      ∀ x ∈ s.voided, x ∈ s'.voided := by
    rintro s' hph ⟨o, o1, o2, o3, o4, o5, e1, e2, e3, e4, e5⟩
    have r1 : ranEnds [o] = [] := by cases o <;> simp_all [ranEnds]
    have r2 : schedEnds [o] = [] := by cases o <;> simp_all [schedEnds]
    have r3 : runs [o] = [] := by cases o <;> simp_all [runs]
    have r4 : starts [o] = [] := by cases o <;> simp_all [starts]
    have f1 : ranEnds s'.trace = ranEnds s.trace := by rw [e1, ranEnds_append, r1, List.append_nil]
    refine ⟨⟨by rw [e4, h.go], by rw [hph]; exact h.phase, by rw [e2, e1, schedEnds_append, r2, List.append_nil, h.ends], fun x => ?_, by rw [e2]; exact h.ids, fun p hp' => ?_, fun p hp' => ?_⟩,
      ⟨[], by rw [e2, List.append_nil]⟩, ⟨[o], e1⟩, f1, ?_, ?_, fun x hx => by rw [e3]; exact hx⟩
    · rw [e3, h.voided x, e1]
      unfold IsVoided
      simp only [List.mem_append, List.mem_singleton]
      exact ⟨.inl, fun hh => hh.resolve_right fun e => o3 x e.symm⟩
    · have := h.bound p (by rw [e2] at hp'; exact hp'); omega
    · rw [f1] at hp'; rw [e2]; exact h.ran p hp'
    · rw [e1]; unfold runs at r3 ⊢; rw [List.filterMap_append, r3, List.append_nil]
    · rw [e1]; unfold starts at r4 ⊢; rw [List.filterMap_append, r4, List.append_nil]
  cases a with
  | sched at_ p q i l g =>
    refine quiet _ hp ?_
    obtain ⟨o, h1, h2, h3, h4, h5, h6⟩ := push at_ p q i (.user l) g
    exact ⟨o, h1, h2, h3, h4, h5, h6⟩
  | schedStop at_ => exact quiet _ hp (push at_ _ _ _ _ _)
  | schedEnd l =>
    have f1 : ranEnds (s.trace ++ [Obs.schedEnd s.nextId l]) = ranEnds s.trace := by rw [ranEnds_append]; simp [ranEnds]
    refine ⟨⟨h.go, h.phase, ?_, fun x => ?_, ?_, fun p hp' => ?_, fun p hp' => ?_⟩, ⟨_, rfl⟩, ⟨_, rfl⟩, f1, ?_, ?_, fun x hx => hx⟩
    · show s.endEvts ++ _ = schedEnds (s.trace ++ _)
      rw [schedEnds_append, h.ends]; rfl
    · show x ∈ s.voided ↔ _
      rw [h.voided x]
      show _ ↔ IsVoided x (s.trace ++ _)
      unfold IsVoided
      simp
    · show (s.endEvts ++ [(s.nextId, l)]).Pairwise _
      rw [List.pairwise_append]
      exact ⟨h.ids, by simp, fun a ha b hb => by rw [List.mem_singleton.1 hb]; exact h.bound a ha⟩
    · show p.1 < s.nextId + 1
      rcases List.mem_append.1 hp' with hp' | hp'
      · have := h.bound p hp'; omega
      · rw [List.mem_singleton.1 hp']; simp
    · exact List.mem_append_left _ (h.ran p (by rw [← f1]; exact hp'))
    · show runs (s.trace ++ _) = _
      simp [runs, List.filterMap_append]
    · show starts (s.trace ++ _) = _
      simp [starts, List.filterMap_append]
  | void id =>
    have f1 : ranEnds (s.trace ++ [Obs.voided id]) = ranEnds s.trace := by rw [ranEnds_append]; simp [ranEnds]
    refine ⟨⟨h.go, h.phase, ?_, fun x => ?_, h.ids, h.bound, fun p hp' => h.ran p (by rw [← f1]; exact hp')⟩, ⟨[], by simp [applyAct]⟩, ⟨_, rfl⟩, f1, ?_, ?_, fun x hx => List.mem_cons_of_mem _ hx⟩
    · show s.endEvts = schedEnds (s.trace ++ _)
      rw [schedEnds_append, h.ends]; simp [schedEnds]
    · show x ∈ id :: s.voided ↔ IsVoided x (s.trace ++ _)
      rw [List.mem_cons, h.voided x]
      unfold IsVoided
      simp [Or.comm]
    · show runs (s.trace ++ _) = _
      simp [runs, List.filterMap_append]
    · show starts (s.trace ++ _) = _
      simp [starts, List.filterMap_append]
  | stop =>
    have f1 : ranEnds (s.trace ++ [Obs.stopped]) = ranEnds s.trace := by rw [ranEnds_append]; simp [ranEnds]
    refine ⟨⟨rfl, h.phase, ?_, fun x => ?_, h.ids, h.bound, fun p hp' => h.ran p (by rw [← f1]; exact hp')⟩, ⟨[], by simp [applyAct]⟩, ⟨_, rfl⟩, f1, ?_, ?_, fun x hx => hx⟩
    · show s.endEvts = schedEnds (s.trace ++ _)
      rw [schedEnds_append, h.ends]; simp [schedEnds]
    · show x ∈ s.voided ↔ IsVoided x (s.trace ++ _)
      rw [h.voided x]
      unfold IsVoided
      simp
    · show runs (s.trace ++ _) = _
      simp [runs, List.filterMap_append]
    · show starts (s.trace ++ _) = _
      simp [starts, List.filterMap_append]

/-- `s'` comes after `s`; `new` are the end events that ran in between. -/
structure Later (s s' : St) (new : List (Nat × Nat)) : Prop where
  over : Over s'
  ends : ∃ l, s'.endEvts = s.endEvts ++ l
  trace : ∃ tl, s'.trace = s.trace ++ tl ∧ ranEnds tl = new
  runs : runs s'.trace = runs s.trace
  starts : starts s'.trace = starts s.trace
  voided : ∀ x ∈ s.voided, x ∈ s'.voided

theorem Later.refl {s : St} (h : Over s) : Later s s [] := ⟨h, ⟨[], by simp⟩, ⟨[], by simp, rfl⟩, rfl, rfl, fun _ h => h⟩

theorem Later.trans {s s' s'' : St} {a b} (h : Later s s' a) (h' : Later s' s'' b) : Later s s'' (a ++ b) := by
  obtain ⟨l, hl⟩ := h.ends
  obtain ⟨l', hl'⟩ := h'.ends
  obtain ⟨t, ht, hn⟩ := h.trace
  obtain ⟨t', ht', hn'⟩ := h'.trace
  exact ⟨h'.over, ⟨l ++ l', by rw [hl', hl, List.append_assoc]⟩, ⟨t ++ t', by rw [ht', ht, List.append_assoc], by rw [ranEnds_append, hn, hn']⟩, h'.runs.trans h.runs, h'.starts.trans h.starts,
    fun x hx => h'.voided x (h.voided x hx)⟩

theorem Later.ran {s s' : St} {a} (h : Later s s' a) : ranEnds s'.trace = ranEnds s.trace ++ a := by
  obtain ⟨t, ht, hn⟩ := h.trace
  rw [ht, ranEnds_append, hn]

theorem Later.phase {s s' : St} {a} (h : Later s s' a) {ph : Phase} (hp : ph ≠ .running) : Later s { s' with phase := ph } a :=
  ⟨⟨h.over.go, hp, h.over.ends, h.over.voided, h.over.ids, h.over.bound, h.over.ran⟩, h.ends, h.trace, h.runs, h.starts, h.voided⟩

theorem later_act {s : St} (h : Over s) (a : Act) : Later s (applyAct s a) [] := by
  obtain ⟨h1, h2, ⟨tl, h3⟩, h4, h5, h6, h7⟩ := applyAct_over h a
  refine ⟨h1, h2, ⟨tl, h3, ?_⟩, h5, h6, h7⟩
  rw [h3, ranEnds_append] at h4
  exact List.append_cancel_left (h4.trans (List.append_nil _).symm)

theorem later_acts (l : List Act) {s : St} (h : Over s) : Later s (l.foldl applyAct s) [] := by
  induction l generalizing s with
  | nil => exact Later.refl h
  | cons a l ih => exact (later_act h a).trans (ih (applyAct_over h a).1)

/-- One step of the loop over the end events. -/
theorem later_endEvt {e : Env} {s : St} (h : Over s) {i : Nat} (hi : s.phase = .ending i) :
    (s.endEvts[i]? = none ∧ step e s .endEvt = { s with phase := .finished }) ∨
    ∃ p, s.endEvts[i]? = some p ∧ (step e s .endEvt).phase = .ending (i + 1) ∧
      ((p.1 ∈ s.voided ∧ Later s (step e s .endEvt) []) ∨ (p.1 ∉ s.voided ∧ Later s (step e s .endEvt) [p])) := by
  unfold step
  rw [hi]
  simp only []
  cases hp : s.endEvts[i]? with
  | none => exact .inl ⟨rfl, rfl⟩
  | some p =>
    obtain ⟨id, l⟩ := p
    refine .inr ⟨(id, l), rfl, ?_, ?_⟩
    · simp only []
      split
      · rfl
      · rw [foldl_applyAct_phase]
    · simp only []
      by_cases hv : id ∈ s.voided
      · rw [if_pos hv]
        exact .inl ⟨hv, (Later.refl h).phase (by simp)⟩
      · rw [if_neg hv]
        refine .inr ⟨hv, ?_⟩
        have hm : (id, l) ∈ s.endEvts := List.mem_of_getElem? hp
        have f1 : ranEnds (s.trace ++ [Obs.ranEnd id l]) = ranEnds s.trace ++ [(id, l)] := by rw [ranEnds_append]; rfl
        have h1 : Later s { s with phase := .ending (i + 1), trace := s.trace ++ [.ranEnd id l] } [(id, l)] := by
          refine ⟨⟨h.go, by simp, ?_, fun x => ?_, h.ids, h.bound, fun p hp' => ?_⟩, ⟨[], by simp⟩, ⟨[.ranEnd id l], rfl, rfl⟩, ?_, ?_, fun _ h => h⟩
          · show s.endEvts = schedEnds (s.trace ++ _)
            rw [schedEnds_append, h.ends]; simp [schedEnds]
          · show x ∈ s.voided ↔ IsVoided x (s.trace ++ _)
            rw [h.voided x]
            unfold IsVoided
            simp
          · rw [show ranEnds _ = _ from f1] at hp'
            rcases List.mem_append.1 hp' with hp' | hp'
            · exact h.ran p hp'
            · rw [List.mem_singleton.1 hp']; exact hm
          · show Schedule.runs (s.trace ++ _) = _
            simp [Schedule.runs, List.filterMap_append]
          · show Schedule.starts (s.trace ++ _) = _
            simp [Schedule.starts, List.filterMap_append]
        exact h1.trans (later_acts _ h1.over)

/-- What one step can be once the schedule has stopped. -/
inductive Kind (y : EndRaises) (s s' : St) : Prop
  | quiet (h : Later s s' []) (hp : s' = s ∨ s'.phase = .idle ∨ s'.phase = .ending 0)
  | ended (i : Nat) (hi : s.phase = .ending i) (hn : s.endEvts.length ≤ i) (h : Later s s' []) (he : s'.endEvts = s.endEvts) (hp : s'.phase = .finished)
  | called (i : Nat) (p : Nat × Nat) (hi : s.phase = .ending i) (hp : s.endEvts[i]? = some p) (hv : p.1 ∉ s.voided) (h : Later s s' [p]) (hph : (s'.phase = .ending (i + 1) ∧ y (s.trace ++ [.ranEnd p.1 p.2]) p.2 = false) ∨ s'.phase = .idle)
  | voided (i : Nat) (p : Nat × Nat) (hi : s.phase = .ending i) (hp : s.endEvts[i]? = some p) (hv : p.1 ∈ s.voided) (h : Later s s' []) (hph : s'.phase = .ending (i + 1))

theorem stepA_kind {e : Env} {y : EndRaises} {s : St} (h : Over s) (o : AOp) : Kind y s (stepA e y s o).1 := by
  have stay : Kind y s s := .quiet (Later.refl h) (.inl rfl)
  cases o with
  | again =>
    unfold stepA
    simp only []
    split
    · exact .quiet ((Later.refl h).phase (by simp)) (.inr (.inl rfl))
    · exact stay
  | op o =>
    have plain : o ≠ .endEvt → Kind y s (step e s o) := by
      intro ho
      cases o with
      | act a =>
        unfold step
        simp only []
        split
        · rename_i hid
          exact .quiet (later_act h a) (.inr (.inl (by rw [applyAct_phase, hid])))
        · exact stay
      | enter => unfold step; simp only []; rw [if_neg (by rw [h.go]; simp)]; exact stay
      | skip => unfold step; simp only []; rw [if_neg (by rw [h.go]; simp)]; exact stay
      | loop => unfold step; simp only []; rw [if_neg h.phase]; exact stay
      | leave =>
        unfold step
        simp only []
        split
        · exact .quiet ((Later.refl h).phase (by simp)) (.inr (.inr rfl))
        · exact stay
      | endEvt => exact absurd rfl ho
    unfold stepA
    simp only []
    by_cases ho : o = .endEvt
    · subst ho
      by_cases hph : ∃ i, s.phase = .ending i
      · obtain ⟨i, hi⟩ := hph
        rcases later_endEvt (e := e) h hi with ⟨h1, h2⟩ | ⟨p, h1, h2, h3⟩
        · have hr : endRaises y s = false := by unfold endRaises; rw [hi]; simp only []; rw [h1]
          rw [if_neg (by rw [hr]; simp), h2]
          exact .ended i hi (List.getElem?_eq_none_iff.1 h1) ((Later.refl h).phase (by simp)) rfl rfl
        · rcases h3 with ⟨hv, hl⟩ | ⟨hv, hl⟩
          · have hr : endRaises y s = false := by unfold endRaises; rw [hi]; simp only []; rw [h1]; simp [hv]
            rw [if_neg (by rw [hr]; simp)]
            exact .voided i p hi h1 hv hl h2
          · split
            · exact .called i p hi h1 hv (hl.phase (by simp)) (.inr rfl)
            · rename_i hr
              refine .called i p hi h1 hv hl (.inl ⟨h2, ?_⟩)
              have hr : endRaises y s = false := by cases hh : endRaises y s with
                | false => rfl
                | true => exact absurd ⟨rfl, hh⟩ hr
              unfold endRaises at hr
              rw [hi] at hr
              simp only [] at hr
              rw [h1] at hr
              simpa [hv] using hr
      · have hs : step e s .endEvt = s := by
          unfold step
          cases hx : s.phase with
          | ending i => exact absurd ⟨i, hx⟩ hph
          | _ => rfl
        have hr : endRaises y s = false := by
          unfold endRaises
          cases hx : s.phase with
          | ending i => exact absurd ⟨i, hx⟩ hph
          | _ => rfl
        rw [if_neg (by rw [hr]; simp), hs]
        exact stay
    · rw [if_neg (fun hh => ho hh.1)]
      exact plain ho

theorem Kind.later {y : EndRaises} {s s' : St} (h : Kind y s s') : ∃ new, Later s s' new := by
  cases h with
  | quiet h | ended _ _ _ h | called _ _ _ _ _ h | voided _ _ _ _ _ h => exact ⟨_, h⟩

theorem Kind.over {y : EndRaises} {s s' : St} (h : Kind y s s') : Over s' := by
  obtain ⟨_, h⟩ := h.later
  exact h.over

theorem later_after (e : Env) (y : EndRaises) (l : List AOp) {s : St} (h : Over s) : ∃ new, Later s (afterA e y s l) new := by
  induction l generalizing s with
  | nil => exact ⟨[], Later.refl h⟩
  | cons o l ih =>
    obtain ⟨n1, h1⟩ := (stepA_kind (e := e) (y := y) h o).later
    obtain ⟨n2, h2⟩ := ih h1.over
    exact ⟨n1 ++ n2, h1.trans h2⟩

theorem Over.of_run {e : Env} {ops : List Op} (hs : Obs.stopped ∈ (run e ops).trace) (hp : (run e ops).phase = .idle) : Over (run e ops) ∧ ranEnds (run e ops).trace = [] := by
  have f := run_facts e ops
  have h0 : ranEnds (run e ops).trace = [] := by
    have := f.noEnd (.inl hp)
    unfold ranEnds
    rw [List.filterMap_eq_nil_iff]
    intro o ho
    cases o with
    | ranEnd id l => exact absurd ho (this id l)
    | _ => rfl
  exact ⟨⟨f.go.2 hs, by rw [hp]; simp, f.ends, f.voided, f.endIds, f.endBound, by rw [h0]; simp⟩, h0⟩

theorem afterA_append (e : Env) (y : EndRaises) (s : St) (a b : List AOp) : afterA e y s (a ++ b) = afterA e y (afterA e y s a) b := by
  unfold afterA; rw [List.foldl_append]

theorem afterA_cons (e : Env) (y : EndRaises) (s : St) (o : AOp) (b : List AOp) : afterA e y s (o :: b) = afterA e y (stepA e y s o).1 b := rfl

/-- A pass over the end events that comes to its end has called all of them. -/
theorem pass (e : Env) (y : EndRaises) (l : List AOp) {s : St} (h : Over s) {new : List (Nat × Nat)}
    (hc : ∀ i, s.phase = .ending i → ∀ p ∈ s.endEvts.take i, p ∈ new ∨ p.1 ∈ s.voided) (hf : s.phase = .finished → ∀ p ∈ s.endEvts, p ∈ new ∨ p.1 ∈ s.voided)
    (hend : (afterA e y s l).phase = .finished) :
    ∃ more, Later s (afterA e y s l) more ∧ ∀ p ∈ (afterA e y s l).endEvts, p ∈ new ++ more ∨ p.1 ∈ (afterA e y s l).voided := by
  induction l generalizing s new with
  | nil => exact ⟨[], Later.refl h, by rw [List.append_nil]; exact hf hend⟩
  | cons o l ih =>
    rw [afterA_cons] at hend ⊢
    have hk := stepA_kind (e := e) (y := y) h o
    revert hk hend
    generalize (stepA e y s o).1 = s'
    intro hend hk
    have go : ∀ n, Later s s' n → (∀ i, s'.phase = .ending i → ∀ p ∈ s'.endEvts.take i, p ∈ new ++ n ∨ p.1 ∈ s'.voided) → (s'.phase = .finished → ∀ p ∈ s'.endEvts, p ∈ new ++ n ∨ p.1 ∈ s'.voided) →
        ∃ more, Later s (afterA e y s' l) more ∧ ∀ p ∈ (afterA e y s' l).endEvts, p ∈ new ++ more ∨ p.1 ∈ (afterA e y s' l).voided := by
      intro n hl h1 h2
      obtain ⟨more, h3, h4⟩ := ih hl.over h1 h2 hend
      exact ⟨n ++ more, hl.trans h3, by rw [← List.append_assoc]; exact h4⟩
    have next : ∀ (i : Nat) (q : Nat × Nat) (n : List (Nat × Nat)), s.phase = .ending i → s.endEvts[i]? = some q → Later s s' n → (q ∈ n ∨ q.1 ∈ s.voided) →
        ∀ p ∈ s'.endEvts.take (i + 1), p ∈ new ++ n ∨ p.1 ∈ s'.voided := by
      intro i q n hi hq hl hqn p hp
      obtain ⟨m, hm⟩ := hl.ends
      obtain ⟨hlt, hg⟩ := List.getElem?_eq_some_iff.1 hq
      rw [hm, List.take_append_of_le_length (by omega), List.take_succ, hq] at hp
      rcases List.mem_append.1 hp with hp | hp
      · exact (hc i hi p hp).imp (List.mem_append_left _) (hl.voided _)
      · rw [show p = q by simpa using hp]
        exact hqn.imp (List.mem_append_right _) (hl.voided _)
    cases hk with
    | quiet hl hp =>
      refine go [] hl ?_ ?_
      · rw [List.append_nil]
        intro i hi
        rcases hp with hp | hp | hp
        · rw [hp] at hi ⊢; exact hc i hi
        · rw [hp] at hi; cases hi
        · rw [hp] at hi; cases hi; simp
      · rw [List.append_nil]
        intro hi
        rcases hp with hp | hp | hp
        · rw [hp] at hi ⊢; exact hf hi
        · rw [hp] at hi; cases hi
        · rw [hp] at hi; cases hi
    | ended i hi hn hl hsame hp =>
      refine go [] hl (fun j hj => by rw [hp] at hj; cases hj) fun _ p hp' => ?_
      rw [hsame] at hp'
      rw [List.append_nil]
      exact (hc i hi p (by rw [List.take_of_length_le hn]; exact hp')).imp id (hl.voided _)
    | called i q hi hq hv hl hph =>
      refine go [q] hl (fun j hj => ?_) (fun hj => by rcases hph with ⟨hp, _⟩ | hp <;> rw [hp] at hj <;> cases hj)
      rcases hph with ⟨hp, _⟩ | hp
      · rw [hp] at hj; cases hj
        exact next i q [q] hi hq hl (.inl (by simp))
      · rw [hp] at hj; cases hj
    | voided i q hi hq hv hl hph =>
      refine go [] hl (fun j hj => ?_) (fun hj => by rw [hph] at hj; cases hj)
      rw [hph] at hj; cases hj
      exact next i q [] hi hq hl (.inr hv)

/-- What holds as long as an end event that always raises is not voided. -/
def Blocks (p : Nat × Nat) (s : St) : Prop :=
  p.1 ∈ s.voided ∨ (p ∈ s.endEvts → (∀ b ∈ ranEnds s.trace, b.1 ≤ p.1) ∧ ∀ i, s.phase = .ending i → p ∉ s.endEvts.take i)

theorem Later.before {s s' : St} {n} (h : Over s) (hl : Later s s' n) {p : Nat × Nat} (hp : p ∈ s'.endEvts) (hn : p ∉ s.endEvts) : ∀ q ∈ s.endEvts, q.1 < p.1 := by
  obtain ⟨l, hl'⟩ := hl.ends
  have hi := hl.over.ids
  rw [hl'] at hi hp
  have hp := (List.mem_append.1 hp).resolve_left hn
  exact fun q hq => (List.pairwise_append.1 hi).2.2 q hq p hp

theorem Blocks.step {y : EndRaises} {s s' : St} (h : Over s) {p : Nat × Nat} (hy : ∀ tr, y tr p.2 = true) (hb : Blocks p s) (hk : Kind y s s') : Blocks p s' := by
  obtain ⟨n0, hl0⟩ := hk.later
  rcases hb with hb | hb
  · exact .inl (hl0.voided _ hb)
  -- the end events that ran before
  have old : ∀ n, Later s s' n → p ∈ s'.endEvts → ∀ b ∈ ranEnds s.trace, b.1 ≤ p.1 := by
    intro n hl hp b hb'
    by_cases hm : p ∈ s.endEvts
    · exact (hb hm).1 b hb'
    · exact Nat.le_of_lt (hl.before h hp hm b (h.ran b hb'))
  have take : ∀ n i q, Later s s' n → s.phase = .ending i → s.endEvts[i]? = some q → p ≠ q → p ∈ s'.endEvts → p ∉ s'.endEvts.take (i + 1) := by
    intro n i q hl hi hq hne hp hm
    obtain ⟨m, hm'⟩ := hl.ends
    obtain ⟨hlt, hg⟩ := List.getElem?_eq_some_iff.1 hq
    rw [hm', List.take_append_of_le_length (by omega)] at hm
    have hps : p ∈ s.endEvts := List.mem_of_mem_take hm
    rw [List.take_succ, hq] at hm
    rcases List.mem_append.1 hm with hm | hm
    · exact (hb hps).2 i hi hm
    · exact hne (by simpa using hm)
  cases hk with
  | quiet hl hph =>
    rcases hph with hph | hph
    · rw [hph]; exact .inr hb
    · refine .inr fun hp => ⟨fun b hb' => old _ hl hp b (by rw [hl.ran, List.append_nil] at hb'; exact hb'), fun i hi => ?_⟩
      rcases hph with hph | hph <;> rw [hph] at hi <;> cases hi
      simp
  | ended i hi hn hl he hph =>
    exact .inr fun hp => ⟨fun b hb' => old _ hl hp b (by rw [hl.ran, List.append_nil] at hb'; exact hb'), fun i hi => by rw [hph] at hi; cases hi⟩
  | called i q hi hq hv hl hph =>
    refine .inr fun hp => ⟨fun b hb' => ?_, fun j hj => ?_⟩
    · rw [hl.ran] at hb'
      rcases List.mem_append.1 hb' with hb' | hb'
      · exact old _ hl hp b hb'
      · rw [List.mem_singleton.1 hb']
        by_cases hm : p ∈ s.endEvts
        · have hnt := (hb hm).2 i hi
          obtain ⟨k, hk, hg⟩ := List.mem_iff_getElem.1 hm
          obtain ⟨hlt, hgq⟩ := List.getElem?_eq_some_iff.1 hq
          have hik : i ≤ k := by
            refine Nat.le_of_not_lt fun hki => hnt ?_
            rw [← hg]
            exact List.mem_take_iff_getElem.2 ⟨k, by omega, rfl⟩
          rcases Nat.lt_or_eq_of_le hik with hlt' | heq
          · have := List.pairwise_iff_getElem.1 h.ids i k hlt hk hlt'
            rw [hg, hgq] at this
            exact Nat.le_of_lt this
          · subst heq; rw [← hg, ← hgq]; exact Nat.le_refl _
        · exact Nat.le_of_lt (hl.before h hp hm q (List.mem_of_getElem? hq))
    · rcases hph with ⟨hph, hf⟩ | hph
      · rw [hph] at hj; cases hj
        refine take _ i q hl hi hq ?_ hp
        rintro rfl
        rw [hy] at hf; cases hf
      · rw [hph] at hj; cases hj
  | voided i q hi hq hv hl hph =>
    by_cases hpq : p = q
    · subst hpq; exact .inl (hl.voided _ hv)
    · refine .inr fun hp => ⟨fun b hb' => old _ hl hp b (by rw [hl.ran, List.append_nil] at hb'; exact hb'), fun j hj => ?_⟩
      rw [hph] at hj; cases hj
      exact take _ i q hl hi hq hpq hp

theorem Blocks.after (e : Env) (y : EndRaises) {p : Nat × Nat} (hy : ∀ tr, y tr p.2 = true) (l : List AOp) {s : St} (h : Over s) (hb : Blocks p s) : Blocks p (afterA e y s l) := by
  induction l generalizing s with
  | nil => exact hb
  | cons o l ih =>
    have hk := stepA_kind (e := e) (y := y) h o
    exact ih hk.over (hb.step h hy hk)

/-! ### C78 End events that raise, and execute called again -/

/-- As long as no end event raises and `execute` is not called again, what happens is what happens in the model of C01 to C11: in particular every end event runs once and in order (C11). -/
theorem C78_until_partial (e : Env) (y : EndRaises) (ops : List Op) (h : ∀ pre o post, ops = pre ++ o :: post → (stepA e y (run e pre) (.op o)).2 = false) :
    afterA e y St.init (ops.map AOp.op) = run e ops := by
  have step1 : ∀ s o, (stepA e y s (.op o)).2 = false → (stepA e y s (.op o)).1 = step e s o := by
    intro s o
    unfold stepA
    simp only []
    split
    · intro hh; cases hh
    · intro _; rfl
  have : ∀ post pre, ops = pre ++ post → afterA e y (run e pre) (post.map AOp.op) = post.foldl (step e) (run e pre) := by
    intro post
    induction post with
    | nil => intro pre _; rfl
    | cons o post ih =>
      intro pre hp
      have h2 := ih (pre ++ [o]) (by rw [hp]; simp)
      have h3 : run e (pre ++ [o]) = step e (run e pre) o := by unfold run; rw [List.foldl_append]; rfl
      rw [List.map_cons, afterA_cons, step1 _ _ (h pre o post hp), List.foldl_cons, ← h3]
      exact h2
  exact this ops [] rfl

/-- The first end event that raises: the end events scheduled before it have run (or are voided), it has run, and those scheduled after it have not. -/
theorem C78_raise_partial (e : Env) (y : EndRaises) (ops : List Op) (hr : (stepA e y (run e ops) (.op .endEvt)).2 = true) :
    ∃ as p bs, schedEnds (run e ops).trace = as ++ p :: bs ∧
      (∀ a ∈ as, a ∈ ranEnds (run e ops).trace ∨ IsVoided a.1 (run e ops).trace) ∧
      ranEnds (stepA e y (run e ops) (.op .endEvt)).1.trace = ranEnds (run e ops).trace ++ [p] ∧
      (∀ b ∈ bs, b ∉ ranEnds (stepA e y (run e ops) (.op .endEvt)).1.trace) ∧
      (stepA e y (run e ops) (.op .endEvt)).1.phase = .idle := by
  have f := run_facts e ops
  revert hr f
  generalize run e ops = s
  intro hr f
  have hraise : endRaises y s = true := by
    unfold stepA at hr
    simp only [true_and] at hr
    split at hr
    · assumption
    · cases hr
  have hstep : stepA e y s (.op .endEvt) = ({ step e s .endEvt with phase := .idle }, true) := by
    unfold stepA
    simp only [true_and]
    rw [if_pos hraise]
  have hex := hraise
  unfold endRaises at hex
  cases hph : s.phase with
  | ending i =>
    rw [hph] at hex
    simp only [] at hex
    cases hq : s.endEvts[i]? with
    | none => rw [hq] at hex; cases hex
    | some p =>
      rw [hq] at hex
      simp only [Bool.and_eq_true, Bool.not_eq_true', decide_eq_false_iff_not] at hex
      have hover : Over s := ⟨f.ending (by rw [show s.view.phase = _ from hph]; simp) (by rw [show s.view.phase = _ from hph]; simp), by rw [hph]; simp, f.ends, f.voided, f.endIds, f.endBound,
        fun q hq' => f.sub.2.subset hq'⟩
      rcases later_endEvt (e := e) hover hph with ⟨h1, _⟩ | ⟨q, h1, _, h3⟩
      · rw [hq] at h1; cases h1
      · rw [hq] at h1; cases h1
        have hl := (h3.resolve_left fun hh => hex.1 hh.1).2
        obtain ⟨hlt, hg⟩ := List.getElem?_eq_some_iff.1 hq
        have hsplit : s.endEvts = s.endEvts.take i ++ p :: s.endEvts.drop (i + 1) := by
          rw [← hg, ← List.drop_eq_getElem_cons hlt, List.take_append_drop]
        rw [hstep]
        refine ⟨s.endEvts.take i, p, s.endEvts.drop (i + 1), by rw [← hsplit]; exact hover.ends.symm, fun a ha => (f.cover.1 i hph a ha).imp id fun hv => (hover.voided _).1 hv, hl.ran, fun b hb hm => ?_, rfl⟩
        have hm : b ∈ ranEnds s.trace ++ [p] := by rw [← hl.ran]; exact hm
        have hids := hover.ids
        rw [hsplit] at hids
        have hpw := List.pairwise_append.1 hids
        rcases List.mem_append.1 hm with hm | hm
        · have := hpw.2.2 b ((f.sub.1 i hph).subset hm) b (List.mem_cons_of_mem _ hb)
          exact Nat.lt_irrefl _ this
        · rw [List.mem_singleton.1 hm] at hb
          exact Nat.lt_irrefl _ ((List.pairwise_cons.1 hpw.2.1).1 p hb)
  | _ => rw [hph] at hex; cases hex

/-- Once the schedule has been told to stop, no tick begins and no event other than the end events runs, however often `execute` is called again and whatever raises. -/
theorem C78_no_tick_partial (e : Env) (y : EndRaises) (ops : List Op) (hs : Obs.stopped ∈ (run e ops).trace) (hp : (run e ops).phase = .idle) (later : List AOp) :
    runs (afterA e y (run e ops) later).trace = runs (run e ops).trace ∧ starts (afterA e y (run e ops) later).trace = starts (run e ops).trace := by
  obtain ⟨n, h⟩ := later_after e y later (Over.of_run hs hp).1
  exact ⟨h.runs, h.starts⟩

/-- If a call to `execute` returns without an exception, every end event has run or is voided, also if earlier calls raised. -/
theorem C78_returned_partial (e : Env) (y : EndRaises) (ops : List Op) (hs : Obs.stopped ∈ (run e ops).trace) (hp : (run e ops).phase = .idle) (later : List AOp)
    (hf : (afterA e y (run e ops) later).phase = .finished) :
    ∀ p ∈ schedEnds (afterA e y (run e ops) later).trace, p ∈ ranEnds (afterA e y (run e ops) later).trace ∨ IsVoided p.1 (afterA e y (run e ops) later).trace := by
  obtain ⟨h, h0⟩ := Over.of_run hs hp
  obtain ⟨more, hl, hm⟩ := pass e y later h (new := []) (fun i hi => by rw [hp] at hi; cases hi) (fun hi => by rw [hp] at hi; cases hi) hf
  intro p hp'
  rw [← hl.over.ends] at hp'
  rcases hm p hp' with hm | hm
  · exact .inl (by rw [hl.ran]; exact List.mem_append_right _ hm)
  · exact .inr ((hl.over.voided _).1 hm)

/-- An end event that has run runs again whenever `execute` is called again: both after a call that returned and after a call in which a later end event (or it itself) raised. -/
theorem C78_violation_twice (e : Env) (y : EndRaises) (ops : List Op) (hs : Obs.stopped ∈ (run e ops).trace) (hp : (run e ops).phase = .idle) (before later : List AOp)
    (hi : (afterA e y (run e ops) before).phase = .idle) (hf : (afterA e y (run e ops) (before ++ later)).phase = .finished)
    (p : Nat × Nat) (hr : p ∈ ranEnds (afterA e y (run e ops) before).trace) (hv : ¬ IsVoided p.1 (afterA e y (run e ops) (before ++ later)).trace) :
    2 ≤ (ranEnds (afterA e y (run e ops) (before ++ later)).trace).count p := by
  obtain ⟨h, h0⟩ := Over.of_run hs hp
  obtain ⟨n, h1⟩ := later_after e y before h
  rw [afterA_append] at hf hv ⊢
  obtain ⟨more, hl, hm⟩ := pass e y later h1.over (new := []) (fun i hi' => by rw [hi] at hi'; cases hi') (fun hi' => by rw [hi] at hi'; cases hi') hf
  obtain ⟨l, he⟩ := hl.ends
  have hmem := hm p (by rw [he]; exact List.mem_append_left _ (h1.over.ran p hr))
  have hmem := hmem.resolve_right fun hh => hv ((hl.over.voided _).1 hh)
  rw [hl.ran, List.count_append]
  have := List.count_pos_iff.2 hr
  have : 0 < more.count p := List.count_pos_iff.2 hmem
  omega

/-- If an end event always raises, and nobody voids it, the end events scheduled after it never run, however often `execute` is called. -/
theorem C78_violation_never (e : Env) (y : EndRaises) (ops : List Op) (hs : Obs.stopped ∈ (run e ops).trace) (hp : (run e ops).phase = .idle) (later : List AOp)
    (as : List (Nat × Nat)) (p : Nat × Nat) (bs : List (Nat × Nat)) (hsch : schedEnds (afterA e y (run e ops) later).trace = as ++ p :: bs) (hy : ∀ tr, y tr p.2 = true)
    (hv : ¬ IsVoided p.1 (afterA e y (run e ops) later).trace) :
    ∀ b ∈ bs, b ∉ ranEnds (afterA e y (run e ops) later).trace := by
  obtain ⟨h, h0⟩ := Over.of_run hs hp
  obtain ⟨n, hl⟩ := later_after e y later h
  have hb := Blocks.after e y hy later h (p := p) (.inr fun _ => ⟨by rw [h0]; simp, fun i hi => by rw [hp] at hi; cases hi⟩)
  have hb := hb.resolve_left fun hh => hv ((hl.over.voided _).1 hh)
  have hids := hl.over.ids
  rw [hl.over.ends, hsch] at hids
  intro b hbs hm
  have h1 := (hb (by rw [hl.over.ends, hsch]; simp)).1 b hm
  have h2 := (List.pairwise_cons.1 (List.pairwise_append.1 hids).2.1).1 b hbs
  exact Nat.lt_irrefl _ (Nat.lt_of_lt_of_le h2 h1)

/-! ### Examples -/

/-- Three end events, the second raises the first time only; `execute` is called again after that, and again after it has returned. -/
def agOps : List Op := [.act (one 5), .act (.schedEnd 7), .act (.schedEnd 8), .act (.schedEnd 9), .act (.schedStop (some 5)), .enter, .loop, .loop, .loop]

def agOnce : EndRaises := fun tr l => l == 8 && (tr.filterMap fun o => match o with | .ranEnd _ 8 => some () | _ => none).length == 1

def agLater : List AOp := [.op .leave, .op .endEvt, .op .endEvt, .op .leave, .op .endEvt, .op .endEvt, .op .endEvt, .op .endEvt, .again, .op .leave, .op .endEvt, .op .endEvt, .op .endEvt, .op .endEvt]

example : Obs.stopped ∈ (run (exEnv fun _ _ => []) agOps).trace ∧ (run (exEnv fun _ _ => []) agOps).phase = .idle ∧
    (afterA (exEnv fun _ _ => []) agOnce (run (exEnv fun _ _ => []) agOps) (agLater.take 3)).phase = .idle ∧
    (afterA (exEnv fun _ _ => []) agOnce (run (exEnv fun _ _ => []) agOps) (agLater.take 8)).phase = .finished ∧
    (ranEnds (afterA (exEnv fun _ _ => []) agOnce (run (exEnv fun _ _ => []) agOps) agLater).trace).map (·.2) = [7, 8, 7, 8, 9, 7, 8, 9] ∧
    (afterA (exEnv fun _ _ => []) agOnce (run (exEnv fun _ _ => []) agOps) agLater).phase = .finished := by
  decide +kernel

example : (stepA (exEnv fun _ _ => []) agOnce (run (exEnv fun _ _ => []) (agOps ++ [.leave, .endEvt])) (.op .endEvt)).2 = true := by decide +kernel

/-- The second end event always raises: the third never runs. -/
example : (∀ tr, (fun (_ : List Obs) l => l == 8 : EndRaises) tr 8 = true) ∧
    (schedEnds (afterA (exEnv fun _ _ => []) (fun _ l => l == 8) (run (exEnv fun _ _ => []) agOps) agLater).trace).map (·.2) = [7] ++ 8 :: [9] ∧
    (ranEnds (afterA (exEnv fun _ _ => []) (fun _ l => l == 8) (run (exEnv fun _ _ => []) agOps) agLater).trace).map (·.2) = [7, 8, 7, 8, 7, 8] := by
  refine ⟨fun _ => rfl, ?_⟩
  decide +kernel

/-- Nothing raises: each end event runs once. -/
example : (afterA (exEnv fun _ _ => []) (fun _ _ => false) St.init ((agOps ++ [Op.leave, .endEvt, .endEvt, .endEvt, .endEvt]).map AOp.op)).phase = .finished ∧
    (ranEnds (afterA (exEnv fun _ _ => []) (fun _ _ => false) St.init ((agOps ++ [Op.leave, .endEvt, .endEvt, .endEvt, .endEvt]).map AOp.op)).trace).map (·.2) = [7, 8, 9] := by
  decide +kernel

end Repast.Schedule
