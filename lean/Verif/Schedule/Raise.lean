import Verif.Schedule.Examples
import Verif.Schedule.Inv

/-
Events whose callables raise: the state in which `schedule.py` leaves the schedule, and what happens if the model catches the exception and executes the
schedule again. (End events do not raise here; for those see Again.lean.)
-/
namespace Repast.Schedule

/-- Whether the callable of an event raises, after the API calls that `Env.prog` says it makes. -/
abbrev Raises := List Obs → Ev → Bool

/-- Whether `evt()` raises (schedule.py:71-72, 245): a voided event and `SharedScheduleRunner.stop` do not. -/
def throws (x : Raises) (s : St) (ev : Ev) : Bool :=
  if ev.id ∈ s.voided then false
  else match ev.cb with
    | .stop => false
    | .user _ => x (s.trace ++ [.ran ev s.tick]) ev

/-- How `ScheduleGroup.execute_evts` ends. -/
inductive Done where
  | all | interrupted | raised
  deriving DecidableEq, Repr

/-- schedule.py:239-258 `ScheduleGroup.execute_evts`. An exception leaves it at once: the event is not rescheduled, and the list of events, of which `all` are the ones
at the beginning, still has those that were executed. -/
def executeEvtsX (e : Env) (x : Raises) (w : Which) (all : List Ev) : List Ev → St → St × Done
  | [], s => (s, .all)
  | ev :: rest, s =>
    let s := { s with grp := s.grp.set rest w }
    let s := { s with grp := { s.grp with size := s.grp.size - 1 } }
    let c := callEv e s ev
    if throws x s ev then ({ c with grp := c.grp.set all w }, .raised) else
    let s := rescheduleEv e c ev
    if s.grp.interrupted then (addDuring e s, .interrupted)
    else executeEvtsX e x w all rest s

/-- schedule.py:260-271 `ScheduleGroup.execute`; the second component says that an event raised. -/
def groupExecuteX (e : Env) (x : Raises) (s : St) : St × Bool :=
  let s := { s with grp := { s.grp with executing := true } }
  let r := executeEvtsX e x .first s.grp.first s.grp.first s
  if r.2 ≠ .all then (r.1, decide (r.2 = .raised)) else
  let r := executeEvtsX e x .prioritized r.1.grp.prioritized r.1.grp.prioritized r.1
  if r.2 ≠ .all then (r.1, decide (r.2 = .raised)) else
  let r := executeEvtsX e x .last r.1.grp.last r.1.grp.last r.1
  if r.2 ≠ .all then (r.1, decide (r.2 = .raised)) else
  ({ r.1 with grp := { r.1.grp with executing := false } }, false)

/-- One step of a process, as `step`. If an event raises, the exception leaves `Schedule.execute` and `SharedScheduleRunner.execute` (schedule.py:431-433, 617-621), and the model
catches it. The second component says that this happened. -/
def stepX (e : Env) (x : Raises) (s : St) (o : Op) : St × Bool :=
  if o = .loop ∧ s.phase = .running ∧ 0 < s.grp.size then
    let r := groupExecuteX e x s
    if r.2 then ({ r.1 with phase := .idle }, true) else r
  else (step e s o, false)

/-- The state after a history of steps. -/
def runX (e : Env) (x : Raises) (ops : List Op) : St := ops.foldl (fun s o => (stepX e x s o).1) St.init

/-- Whether an event raises in a step. -/
def raisesAt (e : Env) (x : Raises) (ops : List Op) (o : Op) : Prop := (stepX e x (runX e x ops) o).2 = true

/-! ### After an exception -/

/-- The group believes that it is executing, and does not execute. -/
structure Wedged (s : St) : Prop where
  exec : s.grp.executing = true
  size : s.phase = .running → s.grp.size ≤ 0

theorem runs_acts (l : List Act) (s : St) : runs (l.foldl applyAct s).trace = runs s.trace := by
  obtain ⟨tl, h1, h2⟩ := foldl_applyAct_ext l s
  have : runs tl = [] := by
    unfold runs
    rw [List.filterMap_eq_nil_iff]
    intro o ho
    cases o with
    | ran ev now => exact absurd rfl (h2 _ ho ev now)
    | _ => rfl
  unfold runs at this ⊢
  rw [h1, List.filterMap_append, this, List.append_nil]

theorem addEvts_wedged (l : List Ev) (g : Group) (h : g.executing = true) : (l.foldl Group.addEvt g).executing = true ∧ (l.foldl Group.addEvt g).size = g.size := by
  induction l generalizing g with
  | nil => exact ⟨h, rfl⟩
  | cons ev l ih =>
    rw [List.foldl_cons, addEvt_executing g ev h]
    exact ih _ h

theorem Wedged.step {e : Env} {s : St} (h : Wedged s) (o : Op) : Wedged (step e s o) ∧ runs (step e s o).trace = runs s.trace := by
  cases o with
  | act a =>
    unfold Schedule.step
    dsimp only
    split
    · rename_i hp
      refine ⟨⟨by rw [applyAct_executing]; exact h.exec, fun hr => ?_⟩, runs_acts [a] s⟩
      rw [applyAct_phase, hp] at hr
      cases hr
    · exact ⟨h, rfl⟩
  | enter =>
    unfold Schedule.step
    dsimp only
    split
    · unfold startExecute
      split
      · exact ⟨⟨h.exec, h.size⟩, rfl⟩
      · rename_i ev _ _
        have := addEvts_wedged (s.queue.takeWhile (fun x => decide (x.at_ = ev.at_))) s.grp.reset h.exec
        refine ⟨⟨?_, fun _ => ?_⟩, ?_⟩
        · simp only [sort_executing]; exact this.1
        · simp only [sort_size]; rw [this.2]; exact Int.le_refl 0
        · simp [runs]
    · exact ⟨h, rfl⟩
  | skip =>
    unfold Schedule.step
    dsimp only
    split
    · exact ⟨⟨h.exec, h.size⟩, rfl⟩
    · exact ⟨h, rfl⟩
  | loop =>
    unfold Schedule.step
    dsimp only
    split
    · rename_i hp
      rw [if_neg (by have := h.size hp; omega)]
      exact ⟨⟨h.exec, fun hr => by cases hr⟩, rfl⟩
    · exact ⟨h, rfl⟩
  | leave =>
    unfold Schedule.step
    dsimp only
    split
    · exact ⟨⟨h.exec, fun hr => by cases hr⟩, rfl⟩
    · exact ⟨h, rfl⟩
  | endEvt =>
    unfold Schedule.step
    dsimp only
    split
    · split
      · exact ⟨⟨h.exec, fun hr => by cases hr⟩, rfl⟩
      · split
        · exact ⟨⟨h.exec, fun hr => by cases hr⟩, rfl⟩
        · refine ⟨⟨?_, fun hr => ?_⟩, ?_⟩
          · rw [foldl_applyAct_executing]; exact h.exec
          · rw [foldl_applyAct_phase] at hr; cases hr
          · rw [runs_acts]; simp [runs]
    · exact ⟨h, rfl⟩

theorem Wedged.stepX {e : Env} {x : Raises} {s : St} (h : Wedged s) (o : Op) : stepX e x s o = (Schedule.step e s o, false) := by
  unfold Schedule.stepX
  rw [if_neg]
  rintro ⟨-, hp, hs⟩
  have := h.size hp
  omega

theorem Wedged.run {e : Env} {x : Raises} (ops : List Op) {s : St} (h : Wedged s) : runs (ops.foldl (fun s o => (Schedule.stepX e x s o).1) s).trace = runs s.trace := by
  induction ops generalizing s with
  | nil => rfl
  | cons o ops ih =>
    rw [List.foldl_cons, h.stepX o, ih (h.step o).1, (h.step o).2]

/-- What a group's execution keeps: it still believes that it is executing, and entries of the queue are only added. -/
theorem applyAct_keeps (s : St) (a : Act) : s.queue ⊆ (applyAct s a).queue := by
  have hp : ∀ at_ p q i c g, s.queue ⊆ (pushEvent s at_ p q i c g).queue := by
    intro at_ p q i c g
    unfold pushEvent
    dsimp only
    split
    · exact fun _ h => h
    · split
      · split
        · exact fun _ h => h
        · exact fun ev h => (qinsert_perm _ _).mem_iff.2 (List.mem_cons_of_mem _ h)
      · exact fun _ h => h
  cases a with
  | sched a p q i l g => exact hp a p q i (.user l) g
  | schedStop a => exact hp a _ _ _ _ _
  | _ => exact fun _ h => h

theorem callEv_keeps (e : Env) (s : St) (ev : Ev) (h : s.grp.executing = true) : (callEv e s ev).grp.executing = true ∧ s.queue ⊆ (callEv e s ev).queue := by
  refine ⟨(callEv_same e s ev h).executing.trans h, ?_⟩
  by_cases hv : ev.id ∈ s.voided
  · rw [callEv, if_pos hv]; exact fun _ h => h
  · obtain ⟨l, hl⟩ := callEv_eq e s ev hv
    rw [hl]
    have : ∀ (l : List Act) (s : St), s.queue ⊆ (l.foldl applyAct s).queue := by
      intro l
      induction l with
      | nil => exact fun _ _ h => h
      | cons a l ih => exact fun s _ h => ih _ (applyAct_keeps s a h)
    exact this l { s with trace := s.trace ++ [.ran ev s.tick] }

theorem rescheduleEv_keeps (e : Env) (s : St) (ev : Ev) (h : s.grp.executing = true) : (rescheduleEv e s ev).grp.executing = true ∧ s.queue ⊆ (rescheduleEv e s ev).queue := by
  unfold rescheduleEv
  split
  · exact ⟨h, fun _ h => h⟩
  · split
    · exact ⟨h, fun _ h => h⟩
    · exact ⟨h, fun ev h => (qinsert_perm _ _).mem_iff.2 (List.mem_cons_of_mem _ h)⟩

theorem executeEvtsX_keeps (e : Env) (x : Raises) (w : Which) (all l : List Ev) (s : St) (h : s.grp.executing = true) :
    (executeEvtsX e x w all l s).1.grp.executing = true ∧ s.queue ⊆ (executeEvtsX e x w all l s).1.queue := by
  induction l generalizing s with
  | nil => exact ⟨h, fun _ h => h⟩
  | cons ev rest ih =>
    have h1 := callEv_keeps e { s with grp := { s.grp.set rest w with size := (s.grp.set rest w).size - 1 } } ev (by show (s.grp.set rest w).executing = true; rw [set_executing]; exact h)
    have h2 := rescheduleEv_keeps e _ ev h1.1
    unfold executeEvtsX
    dsimp only
    split
    · exact ⟨by rw [set_executing]; exact h1.1, h1.2⟩
    · split
      · refine ⟨?_, fun _ hq => h2.2 (h1.2 hq)⟩
        rw [addDuring_executing]
        exact h2.1
      · have := ih _ h2.1
        exact ⟨this.1, fun _ hq => this.2 (h2.2 (h1.2 hq))⟩

theorem groupExecuteX_keeps (e : Env) (x : Raises) (s : St) (h : (groupExecuteX e x s).2 = true) :
    (groupExecuteX e x s).1.grp.executing = true ∧ s.queue ⊆ (groupExecuteX e x s).1.queue := by
  have h1 := executeEvtsX_keeps e x .first s.grp.first s.grp.first { s with grp := { s.grp with executing := true } } rfl
  unfold groupExecuteX at h ⊢
  dsimp only at h ⊢
  generalize executeEvtsX e x .first s.grp.first s.grp.first { s with grp := { s.grp with executing := true } } = r1 at h h1 ⊢
  split
  · exact h1
  · rename_i hd
    rw [if_neg hd] at h
    have h2 := executeEvtsX_keeps e x .prioritized r1.1.grp.prioritized r1.1.grp.prioritized r1.1 h1.1
    generalize executeEvtsX e x .prioritized r1.1.grp.prioritized r1.1.grp.prioritized r1.1 = r2 at h h2 ⊢
    split
    · exact ⟨h2.1, fun _ hq => h2.2 (h1.2 hq)⟩
    · rename_i hd
      rw [if_neg hd] at h
      have h3 := executeEvtsX_keeps e x .last r2.1.grp.last r2.1.grp.last r2.1 h2.1
      generalize executeEvtsX e x .last r2.1.grp.last r2.1.grp.last r2.1 = r3 at h h3 ⊢
      split
      · exact ⟨h3.1, fun _ hq => h3.2 (h2.2 (h1.2 hq))⟩
      · rename_i hd
        rw [if_neg hd] at h
        cases h

theorem stepX_raised {e : Env} {x : Raises} {s : St} {o : Op} (h : (stepX e x s o).2 = true) : Wedged (stepX e x s o).1 ∧ s.queue ⊆ (stepX e x s o).1.queue := by
  unfold stepX at h ⊢
  split
  · rename_i hc
    rw [if_pos hc] at h
    dsimp only at h ⊢
    split
    · rename_i hr
      have := groupExecuteX_keeps e x s hr
      exact ⟨⟨this.1, fun hp => by cases hp⟩, this.2⟩
    · rename_i hr
      rw [if_neg hr] at h
      exact absurd h hr
  · rename_i hc
    rw [if_neg hc] at h
    cases h

/-! ### Without an exception -/

theorem executeEvtsX_eq (e : Env) (x : Raises) (w : Which) (all l : List Ev) (s : St) (h : (executeEvtsX e x w all l s).2 ≠ .raised) :
    (executeEvtsX e x w all l s).1 = (executeEvts e w l s).1 ∧ ((executeEvtsX e x w all l s).2 = .all ↔ (executeEvts e w l s).2 = false) := by
  induction l generalizing s with
  | nil => exact ⟨rfl, by simp [executeEvtsX, executeEvts]⟩
  | cons ev rest ih =>
    unfold executeEvtsX at h ⊢
    unfold executeEvts
    dsimp only [runEv] at h ⊢
    split
    · rename_i hr
      rw [if_pos hr] at h
      exact absurd rfl h
    · rename_i hr
      rw [if_neg hr] at h
      split
      · exact ⟨rfl, by simp⟩
      · rename_i hi
        rw [if_neg hi] at h
        exact ih _ h

theorem groupExecuteX_eq (e : Env) (x : Raises) (s : St) (h : (groupExecuteX e x s).2 = false) : (groupExecuteX e x s).1 = groupExecute e s := by
  unfold groupExecuteX at h ⊢
  unfold groupExecute
  dsimp only at h ⊢
  have h1 := executeEvtsX_eq e x .first s.grp.first s.grp.first { s with grp := { s.grp with executing := true } }
  generalize executeEvtsX e x .first s.grp.first s.grp.first { s with grp := { s.grp with executing := true } } = r1 at h h1 ⊢
  generalize executeEvts e .first s.grp.first { s with grp := { s.grp with executing := true } } = t1 at h1 ⊢
  by_cases hd : r1.2 = .all
  · obtain ⟨e1, e1'⟩ := h1 (by rw [hd]; intro hc; cases hc)
    have n1 : ¬ (r1.2 ≠ .all) := fun hc => hc hd
    have m1 : ¬ (t1.2 = true) := by rw [e1'.1 hd]; decide
    rw [if_neg n1] at h ⊢
    rw [if_neg m1, ← e1]
    have h2 := executeEvtsX_eq e x .prioritized r1.1.grp.prioritized r1.1.grp.prioritized r1.1
    generalize executeEvtsX e x .prioritized r1.1.grp.prioritized r1.1.grp.prioritized r1.1 = r2 at h h2 ⊢
    generalize executeEvts e .prioritized r1.1.grp.prioritized r1.1 = t2 at h2 ⊢
    by_cases hd : r2.2 = .all
    · obtain ⟨e2, e2'⟩ := h2 (by rw [hd]; intro hc; cases hc)
      have n2 : ¬ (r2.2 ≠ .all) := fun hc => hc hd
      have m2 : ¬ (t2.2 = true) := by rw [e2'.1 hd]; decide
      rw [if_neg n2] at h ⊢
      rw [if_neg m2, ← e2]
      have h3 := executeEvtsX_eq e x .last r2.1.grp.last r2.1.grp.last r2.1
      generalize executeEvtsX e x .last r2.1.grp.last r2.1.grp.last r2.1 = r3 at h h3 ⊢
      generalize executeEvts e .last r2.1.grp.last r2.1 = t3 at h3 ⊢
      by_cases hd : r3.2 = .all
      · obtain ⟨e3, e3'⟩ := h3 (by rw [hd]; intro hc; cases hc)
        have n3 : ¬ (r3.2 ≠ .all) := fun hc => hc hd
        have m3 : ¬ (t3.2 = true) := by rw [e3'.1 hd]; decide
        rw [if_neg n3, if_neg m3, ← e3]
      · rw [if_pos (show r3.2 ≠ .all from hd)] at h ⊢
        have hr : r3.2 ≠ .raised := by simpa using h
        obtain ⟨e3, e3'⟩ := h3 hr
        rw [if_pos (show t3.2 = true by simpa using fun hc => hd (e3'.2 hc))]
        exact e3
    · rw [if_pos (show r2.2 ≠ .all from hd)] at h ⊢
      have hr : r2.2 ≠ .raised := by simpa using h
      obtain ⟨e2, e2'⟩ := h2 hr
      rw [if_pos (show t2.2 = true by simpa using fun hc => hd (e2'.2 hc))]
      exact e2
  · rw [if_pos (show r1.2 ≠ .all from hd)] at h ⊢
    have hr : r1.2 ≠ .raised := by simpa using h
    obtain ⟨e1, e1'⟩ := h1 hr
    rw [if_pos (show t1.2 = true by simpa using fun hc => hd (e1'.2 hc))]
    exact e1

theorem stepX_eq {e : Env} {x : Raises} {s : St} {o : Op} (h : (stepX e x s o).2 = false) : (stepX e x s o).1 = step e s o := by
  unfold stepX at h ⊢
  split
  · rename_i hc
    rw [if_pos hc] at h
    obtain ⟨rfl, hp, hs⟩ := hc
    dsimp only at h ⊢
    split
    · rename_i hr
      rw [if_pos hr] at h
      cases h
    · rename_i hr
      rw [if_neg hr] at h
      rw [groupExecuteX_eq e x s h]
      simp only [step, if_pos hp, if_pos hs]
  · rfl

/-! ### C65 -/

/-- Until an event raises, the schedule does what it does with events that do not raise, so that C01 - C11 hold. (Missing: what a user expects after an exception, which is not the case: `C65_violation`.) -/
theorem C65_until_partial (e : Env) (x : Raises) (ops : List Op) (h : ∀ k o, ops[k]? = some o → ¬ raisesAt e x (ops.take k) o) : runX e x ops = run e ops := by
  have key : ∀ m ≤ ops.length, runX e x (ops.take m) = run e (ops.take m) := by
    intro m
    induction m with
    | zero => exact fun _ => rfl
    | succ m ih =>
      intro hm
      have hl : m < ops.length := hm
      have hg : ops[m]? = some ops[m] := List.getElem?_eq_getElem hl
      have hn := h m _ hg
      unfold raisesAt at hn
      rw [List.take_succ, hg]
      unfold runX run at ih ⊢
      rw [Option.toList_some, List.foldl_append, List.foldl_append, ih (by omega)]
      simp only [List.foldl_cons, List.foldl_nil]
      apply stepX_eq
      have hi := ih (by omega)
      rw [← hi]
      simpa [runX] using hn
  have := key ops.length (Nat.le_refl _)
  rwa [List.take_length] at this

/-- An exception loses no event that was waiting for a later tick: all of them are still in the queue when the exception has left `execute`. (They are lost when the schedule is executed
again: `C65_violation`.) -/
theorem C65_waiting_partial (e : Env) (x : Raises) (ops : List Op) (o : Op) (h : raisesAt e x ops o) : (runX e x ops).queue ⊆ (runX e x (ops ++ [o])).queue := by
  have := (stepX_raised h).2
  unfold runX at this ⊢
  rw [List.foldl_append]
  exact this

/-- C65 is violated, for every schedule and every event that raises: whatever is done afterwards, no event ever runs again. The schedule still advances to the ticks of the waiting
events, and drops them. -/
theorem C65_violation (e : Env) (x : Raises) (ops : List Op) (o : Op) (h : raisesAt e x ops o) (later : List Op) :
    runs (runX e x (ops ++ o :: later)).trace = runs (runX e x (ops ++ [o])).trace := by
  have hs := (stepX_raised h).1
  have := hs.run (e := e) (x := x) later
  unfold runX at this ⊢
  rw [List.foldl_append, List.foldl_append]
  exact this

/-! ### Which calls raise -/

/-- In the observations `tl`, made after `b`, the callable of a user's event was invoked that raises at that time. -/
def Loud (x : Raises) (b tl : List Obs) : Prop :=
  ∃ pre ev now post l, tl = pre ++ .ran ev now :: post ∧ ev.cb = .user l ∧ x (b ++ pre ++ [.ran ev now]) ev = true

theorem loud_append {x : Raises} (b t u : List Obs) : Loud x b (t ++ u) ↔ Loud x b t ∨ Loud x (b ++ t) u := by
  constructor
  · rintro ⟨pre, ev, now, post, l, h1, h2, h3⟩
    rcases List.append_eq_append_iff.1 h1 with ⟨a, ha, hb⟩ | ⟨a, ha, hb⟩
    · exact .inr ⟨a, ev, now, post, l, hb, h2, by rw [List.append_assoc b t a, ← ha]; exact h3⟩
    · cases a with
      | nil =>
        rw [List.append_nil] at ha
        subst ha
        exact .inr ⟨[], ev, now, post, l, by simpa using hb.symm, h2, by simpa using h3⟩
      | cons o a =>
        simp only [List.cons_append, List.cons.injEq] at hb
        obtain ⟨rfl, hb⟩ := hb
        exact .inl ⟨pre, ev, now, a, l, ha, h2, h3⟩
  · rintro (⟨pre, ev, now, post, l, rfl, h2, h3⟩ | ⟨pre, ev, now, post, l, rfl, h2, h3⟩)
    · exact ⟨pre, ev, now, post ++ u, l, by simp, h2, h3⟩
    · exact ⟨t ++ pre, ev, now, post, l, by simp, h2, by rw [← List.append_assoc b t pre]; exact h3⟩

theorem loud_none {x : Raises} {b tl : List Obs} (h : ∀ o ∈ tl, ∀ ev now, o ≠ .ran ev now) : ¬ Loud x b tl := by
  rintro ⟨pre, ev, now, post, l, rfl, -, -⟩
  exact h _ (by simp) ev now rfl

theorem callEv_loud (e : Env) (x : Raises) (s : St) (ev : Ev) :
    ∃ tl, (callEv e s ev).trace = s.trace ++ tl ∧ (throws x s ev = true ↔ Loud x s.trace tl) := by
  have hone : ∀ tl : List Obs, (∀ o ∈ tl, ∀ ev now, o ≠ .ran ev now) →
      (Loud x s.trace (.ran ev s.tick :: tl) ↔ ∃ l, ev.cb = .user l ∧ x (s.trace ++ [.ran ev s.tick]) ev = true) := by
    intro tl htl
    have : Obs.ran ev s.tick :: tl = [.ran ev s.tick] ++ tl := rfl
    rw [this, loud_append]
    constructor
    · rintro (⟨pre, ev', now, post, l, h1, h2, h3⟩ | h)
      · cases pre with
        | nil =>
          simp only [List.nil_append, List.cons.injEq, Obs.ran.injEq] at h1
          obtain ⟨⟨rfl, rfl⟩, -⟩ := h1
          exact ⟨l, h2, by simpa using h3⟩
        | cons o pre => simp at h1
      · exact absurd h (loud_none htl)
    · rintro ⟨l, h1, h2⟩
      exact .inl ⟨[], ev, s.tick, [], l, rfl, h1, by simpa using h2⟩
  unfold callEv throws
  split
  · exact ⟨[], by simp, by simp only [Bool.false_eq_true, false_iff]; exact loud_none (by simp)⟩
  · dsimp only
    split
    · rename_i hcb
      refine ⟨[.ran ev s.tick, .stopped], by simp [applyAct], ?_⟩
      rw [hone [.stopped] (by simp)]
      simp [hcb]
    · rename_i l hcb
      obtain ⟨tl, h1, h2⟩ := foldl_applyAct_ext (e.prog (s.trace ++ [.ran ev s.tick]) ev) { s with trace := s.trace ++ [.ran ev s.tick] }
      refine ⟨.ran ev s.tick :: tl, by rw [h1]; simp, ?_⟩
      rw [hone tl h2]
      simp [hcb]

theorem executeEvtsX_loud (e : Env) (x : Raises) (w : Which) (all l : List Ev) (s : St) :
    ∃ tl, (executeEvtsX e x w all l s).1.trace = s.trace ++ tl ∧ ((executeEvtsX e x w all l s).2 = .raised ↔ Loud x s.trace tl) := by
  induction l generalizing s with
  | nil => exact ⟨[], by simp [executeEvtsX], by simp only [executeEvtsX, reduceCtorEq, false_iff]; exact loud_none (by simp)⟩
  | cons ev l ih =>
    obtain ⟨tl, h1, h2⟩ := callEv_loud e x { s with grp := { s.grp.set l w with size := (s.grp.set l w).size - 1 } } ev
    have hr : ∀ c : St, (rescheduleEv e c ev).trace = c.trace := by
      intro c
      unfold rescheduleEv
      split
      · rfl
      · split <;> rfl
    unfold executeEvtsX
    dsimp only
    split
    · rename_i ht
      exact ⟨tl, h1, by simp only [true_iff]; exact h2.1 ht⟩
    · rename_i ht
      have hq : ¬ Loud x s.trace tl := fun h => ht (h2.2 h)
      split
      · refine ⟨tl, ?_, ?_⟩
        · show (rescheduleEv e _ ev).trace = _
          rw [hr]; exact h1
        · simp only [reduceCtorEq, false_iff]; exact hq
      · obtain ⟨u, g1, g2⟩ := ih (rescheduleEv e (callEv e { s with grp := { s.grp.set l w with size := (s.grp.set l w).size - 1 } } ev) ev)
        rw [hr, h1] at g1 g2
        refine ⟨tl ++ u, by rw [g1, List.append_assoc], ?_⟩
        rw [loud_append, g2]
        simp only [hq, false_or]

theorem stepX_loud (e : Env) (x : Raises) (s : St) (o : Op) :
    ∃ tl, (stepX e x s o).1.trace = s.trace ++ tl ∧ ((stepX e x s o).2 = true ↔ Loud x s.trace tl) := by
  unfold stepX
  split
  · have hg : ∃ tl, (groupExecuteX e x s).1.trace = s.trace ++ tl ∧ ((groupExecuteX e x s).2 = true ↔ Loud x s.trace tl) := by
      unfold groupExecuteX
      dsimp only
      obtain ⟨t1, a1, a2⟩ := executeEvtsX_loud e x .first s.grp.first s.grp.first { s with grp := { s.grp with executing := true } }
      generalize executeEvtsX e x .first s.grp.first s.grp.first { s with grp := { s.grp with executing := true } } = r1 at a1 a2
      split
      · exact ⟨t1, a1, by simpa using a2⟩
      · rename_i hr1
        have hq1 : ¬ Loud x s.trace t1 := fun h => by rw [a2.2 h] at hr1; simp at hr1
        obtain ⟨t2, b1, b2⟩ := executeEvtsX_loud e x .prioritized r1.1.grp.prioritized r1.1.grp.prioritized r1.1
        generalize executeEvtsX e x .prioritized r1.1.grp.prioritized r1.1.grp.prioritized r1.1 = r2 at b1 b2
        rw [a1] at b1 b2
        split
        · exact ⟨t1 ++ t2, by rw [b1, List.append_assoc], by rw [loud_append]; simpa [hq1] using b2⟩
        · rename_i hr2
          have hq2 : ¬ Loud x (s.trace ++ t1) t2 := fun h => by rw [b2.2 h] at hr2; simp at hr2
          obtain ⟨t3, c1, c2⟩ := executeEvtsX_loud e x .last r2.1.grp.last r2.1.grp.last r2.1
          generalize executeEvtsX e x .last r2.1.grp.last r2.1.grp.last r2.1 = r3 at c1 c2
          rw [b1] at c1 c2
          have hl : Loud x s.trace (t1 ++ (t2 ++ t3)) ↔ Loud x (s.trace ++ t1 ++ t2) t3 := by
            rw [loud_append, loud_append]; simp [hq1, hq2]
          split
          · exact ⟨t1 ++ (t2 ++ t3), by rw [c1]; simp, by rw [hl]; simpa using c2⟩
          · rename_i hr3
            refine ⟨t1 ++ (t2 ++ t3), by show r3.1.trace = _; rw [c1]; simp, ?_⟩
            rw [hl, ← c2]
            simp only [Bool.false_eq_true, false_iff]
            intro h
            rw [h] at hr3; simp at hr3
    obtain ⟨tl, h1, h2⟩ := hg
    dsimp only
    split
    · rename_i hr
      exact ⟨tl, h1, by simpa using h2.1 hr⟩
    · exact ⟨tl, h1, h2⟩
  · rename_i hc
    have hn : ∃ tl, (step e s o).trace = s.trace ++ tl ∧ ∀ o ∈ tl, ∀ ev now, o ≠ .ran ev now := by
      cases o with
      | act a =>
        unfold step; dsimp only; split
        · obtain ⟨o, h1, h2⟩ := applyAct_trace s a
          exact ⟨[o], h1, by simpa using h2⟩
        · exact ⟨[], by simp, by simp⟩
      | enter =>
        unfold step; dsimp only; split
        · unfold startExecute; split
          · exact ⟨[], by simp, by simp⟩
          · exact ⟨_, rfl, by simp⟩
        · exact ⟨[], by simp, by simp⟩
      | skip => unfold step; dsimp only; split <;> exact ⟨[], by simp, by simp⟩
      | loop =>
        unfold step; dsimp only; split
        · rename_i hp
          rw [if_neg (fun h => hc ⟨rfl, hp, h⟩)]
          exact ⟨[], by simp, by simp⟩
        · exact ⟨[], by simp, by simp⟩
      | leave => unfold step; dsimp only; split <;> exact ⟨[], by simp, by simp⟩
      | endEvt =>
        unfold step; dsimp only; split
        · split
          · exact ⟨[], by simp, by simp⟩
          · rename_i id label _
            split
            · exact ⟨[], by simp, by simp⟩
            · obtain ⟨tl, h1, h2⟩ := foldl_applyAct_ext (e.endProg (s.trace ++ [.ranEnd id label]) label)
                { s with phase := .ending (_ + 1), trace := s.trace ++ [.ranEnd id label] }
              refine ⟨.ranEnd id label :: tl, by rw [h1]; simp, ?_⟩
              intro o ho
              rcases List.mem_cons.1 ho with rfl | ho
              · simp
              · exact h2 o ho
        · exact ⟨[], by simp, by simp⟩
    obtain ⟨tl, h1, h2⟩ := hn
    exact ⟨tl, h1, by simp only [Bool.false_eq_true, false_iff]; exact loud_none h2⟩

/-- A step raises exactly if a callable invoked before raised: in the observations of the whole history there is an invocation of a user's event (not one that is voided, which is never
invoked, C09) that raises at that time. `x` says which invocations raise. -/
theorem C65_raised (e : Env) (x : Raises) (ops : List Op) :
    (∃ k o, ops[k]? = some o ∧ raisesAt e x (ops.take k) o) ↔
    ∃ pre ev now post l, (runX e x ops).trace = pre ++ .ran ev now :: post ∧ ev.cb = .user l ∧ x (pre ++ [.ran ev now]) ev = true := by
  have key : ∀ m ≤ ops.length, (∃ k o, k < m ∧ ops[k]? = some o ∧ raisesAt e x (ops.take k) o) ↔ Loud x [] (runX e x (ops.take m)).trace := by
    intro m
    induction m with
    | zero =>
      intro _
      constructor
      · rintro ⟨k, o, h, -⟩; omega
      · intro h
        exact absurd h (loud_none (by simp [runX, St.init]))
    | succ m ih =>
      intro hm
      have hl : m < ops.length := hm
      have hg : ops[m]? = some ops[m] := List.getElem?_eq_getElem hl
      obtain ⟨tl, h1, h2⟩ := stepX_loud e x (runX e x (ops.take m)) ops[m]
      have hr : runX e x (ops.take (m + 1)) = (stepX e x (runX e x (ops.take m)) ops[m]).1 := by
        rw [List.take_succ, hg]
        unfold runX
        rw [Option.toList_some, List.foldl_append]
        rfl
      rw [hr, h1, loud_append, ← ih (by omega), List.nil_append, ← h2]
      constructor
      · rintro ⟨k, o, hk, hko, hx⟩
        rcases Nat.lt_or_ge k m with h | h
        · exact .inl ⟨k, o, h, hko, hx⟩
        · have : k = m := by omega
          subst this
          rw [hg] at hko
          cases hko
          exact .inr hx
      · rintro (⟨k, o, hk, hko, hx⟩ | hx)
        · exact ⟨k, o, by omega, hko, hx⟩
        · exact ⟨m, _, by omega, hg, hx⟩
  have := key ops.length (Nat.le_refl _)
  rw [List.take_length] at this
  constructor
  · rintro ⟨k, o, h1, h2⟩
    have hk : k < ops.length := (List.getElem?_eq_some_iff.1 h1).1
    obtain ⟨pre, ev, now, post, l, g1, g2, g3⟩ := this.1 ⟨k, o, hk, h1, h2⟩
    exact ⟨pre, ev, now, post, l, g1, g2, by simpa using g3⟩
  · rintro ⟨pre, ev, now, post, l, g1, g2, g3⟩
    obtain ⟨k, o, -, h1, h2⟩ := this.2 ⟨pre, ev, now, post, l, g1, g2, by simpa using g3⟩
    exact ⟨k, o, h1, h2⟩

/-- Two events at ticks 1 and 2; the first one raises. -/
def raiseOps : List Op := [.act (.sched (some 1) .random none none 1 none), .act (.sched (some 2) .random none none 2 none), .enter]

def raiseFirst : Raises := fun _ ev => ev.cb == .user 1

example : raisesAt (exEnv fun _ _ => []) raiseFirst raiseOps .loop := by
  show (stepX _ _ _ _).2 = true
  decide +kernel

/-- The second event is waiting after the exception. Then the schedule enters tick 2, without running the event, and nothing is left. -/
example : ((runX (exEnv fun _ _ => []) raiseFirst (raiseOps ++ [.loop])).queue.map (·.id)) = [1] ∧
    (let s := runX (exEnv fun _ _ => []) raiseFirst (raiseOps ++ [.loop, .enter, .loop])
     (starts s.trace, runs s.trace, s.queue.length, s.phase)) = ([1, 2], [(0, 1)], 0, .idle) := by
  refine ⟨?_, ?_⟩ <;> decide +kernel

/-- Both ticks are executed. -/
def allOps : List Op := raiseOps ++ [.loop, .loop, .enter, .loop, .loop]

/-- Without exceptions both events run. -/
example : (∀ k o, allOps[k]? = some o → ¬ raisesAt (exEnv fun _ _ => []) (fun _ _ => false) (allOps.take k) o) ∧
    runs (runX (exEnv fun _ _ => []) (fun _ _ => false) allOps).trace = [(0, 1), (1, 2)] := by
  refine ⟨?_, by decide +kernel⟩
  intro k o ho
  have hk : k < 8 := by
    have := (List.getElem?_eq_some_iff.1 ho).1
    simpa [allOps, raiseOps] using this
  have : ∀ k < 8, ∀ o, allOps[k]? = some o →
      (stepX (exEnv fun _ _ => []) (fun _ _ => false) (runX (exEnv fun _ _ => []) (fun _ _ => false) (allOps.take k)) o).2 = false := by
    intro k hk o ho
    match k, hk with
    | 0, _ | 1, _ | 2, _ | 3, _ | 4, _ | 5, _ | 6, _ | 7, _ =>
      cases ho
      decide +kernel
  unfold raisesAt
  rw [this k hk o ho]
  decide

end Repast.Schedule
