import Verif.Schedule.WorldProps

/-!
C73: stopping a run of several processes. `schedule_stop(at)` on each rank (schedule.py:588-597) puts an event on that
rank's own schedule whose callable clears `go` (schedule.py:600-603); a rank that has left the loop (schedule.py:617) takes
no part in the reductions of the others any more.
-/
namespace Repast.Schedule

/-! ### Specification -/

/-- This step can be taken: a rank that is not stopped and not in a tick can call `allreduce`, a reduction with everybody in it
can complete, a rank can go on with a result, with a tick, out of the loop or with the end events. -/
def CanGoOn (n : Nat) (w : World) : WOp → Prop
  | .arrive i => i < n ∧ (w.ranks i).st.phase = .idle ∧ (w.ranks i).st.go = true ∧ (w.ranks i).wait = none ∧ (w.ranks i).grant = none
  | .reduce => 0 < n ∧ ∀ i, i < n → (w.ranks i).wait.isSome
  | .resume i => i < n ∧ (w.ranks i).grant.isSome
  | .loop i => i < n ∧ (w.ranks i).st.phase = .running
  | .leave i => i < n ∧ (w.ranks i).st.phase = .idle ∧ (w.ranks i).st.go = false
  | .endEvt i => i < n ∧ ∃ k, (w.ranks i).st.phase = .ending k

/-- `schedule_stop(T)` is among the calls made before `execute()`, for a tick that is not over, and that stop is not voided
in the history `tr`. -/
def StopsAt (T : Int) (setup : List Act) (tr : List Obs) : Prop :=
  startTick < T ∧ Act.schedStop (some T) ∈ setup ∧
    ∀ ev now d, Obs.sched ev now d ∈ tr → ev.cb = .stop → ev.at_ = T → ¬ IsVoided ev.id tr

/-- In the history `tr` the process is stopped only once tick `T` has been entered. -/
def NotBefore (T : Int) (tr : List Obs) : Prop := ∀ pre post, tr = pre ++ .stopped :: post → Obs.start T ∈ pre

/-! ### A stop event that runs stops the process -/

def StopRan (tr : List Obs) : Prop := ∀ ev now, Obs.ran ev now ∈ tr → ev.cb = .stop → Obs.stopped ∈ tr

/-- No event calls `stop()` itself. -/
def NoStop (e : Env) : Prop := ∀ h ev, Act.stop ∉ e.prog h ev

def StopCaused (tr : List Obs) : Prop := Obs.stopped ∈ tr → ∃ ev now, Obs.ran ev now ∈ tr ∧ ev.cb = .stop

def Adds (e : Env) (s t : St) : Prop := ∃ tl, t.trace = s.trace ++ tl ∧ StopRan tl ∧ (NoStop e → StopCaused tl)

theorem StopRan.append {a b : List Obs} (ha : StopRan a) (hb : StopRan b) : StopRan (a ++ b) := by
  intro ev now h hc
  rcases List.mem_append.1 h with h | h
  · exact List.mem_append_left _ (ha ev now h hc)
  · exact List.mem_append_right _ (hb ev now h hc)

theorem StopCaused.append {a b : List Obs} (ha : StopCaused a) (hb : StopCaused b) : StopCaused (a ++ b) := by
  intro h
  rcases List.mem_append.1 h with h | h
  · obtain ⟨ev, now, h1, h2⟩ := ha h; exact ⟨ev, now, List.mem_append_left _ h1, h2⟩
  · obtain ⟨ev, now, h1, h2⟩ := hb h; exact ⟨ev, now, List.mem_append_right _ h1, h2⟩

theorem Adds.refl {e : Env} (s : St) : Adds e s s := ⟨[], by simp, by simp [StopRan], by simp [StopCaused]⟩
theorem Adds.of_eq {e : Env} {s t : St} (h : t.trace = s.trace) : Adds e s t := ⟨[], by simp [h], by simp [StopRan], by simp [StopCaused]⟩
theorem Adds.trans {e : Env} {a b c : St} (h1 : Adds e a b) (h2 : Adds e b c) : Adds e a c := by
  obtain ⟨l1, e1, p1, q1⟩ := h1
  obtain ⟨l2, e2, p2, q2⟩ := h2
  exact ⟨l1 ++ l2, by rw [e2, e1, List.append_assoc], p1.append p2, fun h => (q1 h).append (q2 h)⟩

theorem acts_quiet (l : List Act) (s : St) : ∃ tl, (l.foldl applyAct s).trace = s.trace ++ tl ∧ StopRan tl ∧
    (Act.stop ∉ l → Obs.stopped ∉ tl) := by
  induction l generalizing s with
  | nil => exact ⟨[], by simp, by simp [StopRan], by simp⟩
  | cons a l ih =>
    obtain ⟨o, h1, h2⟩ := applyAct_trace s a
    obtain ⟨tl, h3, h4, h5⟩ := ih (applyAct s a)
    refine ⟨o :: tl, by rw [List.foldl_cons, h3, h1]; simp, ?_, ?_⟩
    · intro ev now h hc
      rcases List.mem_cons.1 h with h | h
      · exact absurd h.symm (h2 ev now)
      · exact List.mem_cons_of_mem _ (h4 ev now h hc)
    · intro hs hm
      rcases List.mem_cons.1 hm with h | h
      · subst h
        have hp : ∀ a p q i c g, (pushEvent s a p q i c g).trace ≠ s.trace ++ [Obs.stopped] := by
          intro a p q i c g
          unfold pushEvent
          dsimp only
          split
          · simp
          · split
            · split <;> simp
            · simp
        cases a with
        | sched a p q i l g => exact hp _ _ _ _ _ _ h1
        | schedStop t => exact hp _ _ _ _ _ _ h1
        | schedEnd l => simp [applyAct] at h1
        | void x => simp [applyAct] at h1
        | stop => simp at hs
      · exact h5 (fun h => hs (List.mem_cons_of_mem _ h)) h

theorem adds_acts {e : Env} (l : List Act) (s : St) (hl : NoStop e → Act.stop ∉ l) : Adds e s (l.foldl applyAct s) := by
  obtain ⟨tl, h1, h2, h3⟩ := acts_quiet l s
  exact ⟨tl, h1, h2, fun h hm => absurd hm (h3 (hl h))⟩

theorem adds_callEv (e : Env) (s : St) (ev : Ev) : Adds e s (callEv e s ev) := by
  unfold callEv
  split
  · exact .refl s
  · dsimp only
    split
    · refine ⟨[.ran ev s.tick, .stopped], by simp [applyAct], ?_, ?_⟩
      · intro ev' now _ _
        simp
      · rename_i hcb
        exact fun _ _ => ⟨ev, s.tick, by simp, hcb⟩
    · rename_i l hcb
      refine Adds.trans (b := { s with trace := s.trace ++ [.ran ev s.tick] }) ⟨[.ran ev s.tick], rfl, ?_, by simp [StopCaused]⟩
        (adds_acts _ _ (fun h => h _ _))
      intro ev' now h hc
      simp only [List.mem_singleton, Obs.ran.injEq] at h
      rw [h.1, hcb] at hc
      cases hc

theorem adds_runEv (e : Env) (s : St) (ev : Ev) : Adds e s (runEv e s ev) := by
  unfold runEv
  dsimp only
  refine Adds.trans (b := { s with grp := { s.grp with size := s.grp.size - 1 } }) (.of_eq rfl) ((adds_callEv e _ ev).trans ?_)
  unfold rescheduleEv
  split
  · exact .refl _
  · split
    · exact .refl _
    · exact .of_eq rfl

theorem adds_executeEvts (e : Env) (w : Which) (l : List Ev) (s : St) : Adds e s (executeEvts e w l s).1 := by
  induction l generalizing s with
  | nil => exact .refl s
  | cons ev l ih =>
    have h0 : Adds e s { s with grp := s.grp.set l w } := .of_eq rfl
    have h1 := h0.trans (adds_runEv e _ ev)
    simp only [executeEvts]
    split
    · exact h1.trans (.of_eq rfl)
    · exact h1.trans (ih _)

theorem adds_groupExecute (e : Env) (s : St) : Adds e s (groupExecute e s) := by
  unfold groupExecute
  simp only []
  have h0 : Adds e s { s with grp := { s.grp with executing := true } } := .of_eq rfl
  generalize { s with grp := { s.grp with executing := true } } = s0 at h0
  have h1 := h0.trans (adds_executeEvts e .first s.grp.first s0)
  generalize executeEvts e .first s.grp.first s0 = r1 at h1
  have h2 := h1.trans (adds_executeEvts e .prioritized r1.1.grp.prioritized r1.1)
  generalize executeEvts e .prioritized r1.1.grp.prioritized r1.1 = r2 at h2
  have h3 := h2.trans (adds_executeEvts e .last r2.1.grp.last r2.1)
  generalize executeEvts e .last r2.1.grp.last r2.1 = r3 at h3
  split
  · exact h1
  · split
    · exact h2
    · split
      · exact h3
      · exact h3.trans (.of_eq rfl)

theorem adds_step (e : Env) (s : St) (op : Op) (h1 : ∀ a, op ≠ .act a) (h2 : op ≠ .endEvt) : Adds e s (step e s op) := by
  cases op with
  | act a => exact absurd rfl (h1 a)
  | enter =>
    simp only [step]; split
    · unfold startExecute; split
      · exact .of_eq rfl
      · exact ⟨_, rfl, by simp [StopRan], by simp [StopCaused]⟩
    · exact .refl _
  | skip => simp only [step]; split <;> exact .of_eq rfl
  | loop =>
    simp only [step]; split
    · split
      · exact adds_groupExecute _ _
      · exact .of_eq rfl
    · exact .refl _
  | leave => simp only [step]; split <;> exact .of_eq rfl
  | endEvt => exact absurd rfl h2

theorem step_stopRan (e : Env) (s : St) (op : Op) (h : StopRan s.trace) : StopRan (step e s op).trace := by
  by_cases h1 : ∃ a, op = .act a
  · obtain ⟨a, rfl⟩ := h1
    simp only [step]; split
    · obtain ⟨tl, h1, h2, -⟩ := acts_quiet [a] s
      rw [List.foldl_cons, List.foldl_nil] at h1
      rw [h1]; exact h.append h2
    · exact h
  · by_cases h2 : op = .endEvt
    · subst h2
      simp only [step]; split
      · split
        · exact h
        · rename_i i _ _ id l _
          split
          · exact h
          · obtain ⟨tl, h1, h2, -⟩ := acts_quiet (e.endProg (s.trace ++ [.ranEnd id l]) l)
              { s with phase := .ending (i+1), trace := s.trace ++ [.ranEnd id l] }
            rw [h1]
            exact (h.append (by simp [StopRan])).append h2
      · exact h
    · obtain ⟨tl, h1, h2, -⟩ := adds_step e s op (fun a ha => h1 ⟨a, ha⟩) h2
      rw [h1]; exact h.append h2

theorem run_stopRan (e : Env) (ops : List Op) : StopRan (run e ops).trace := by
  have : ∀ (ops : List Op) (s : St), StopRan s.trace → StopRan (ops.foldl (step e) s).trace := by
    intro ops
    induction ops with
    | nil => exact fun s h => h
    | cons o ops ih =>
      intro s h
      rw [List.foldl_cons]
      exact ih _ (step_stopRan e s o h)
  exact this ops St.init (by simp [StopRan, St.init])

/-! ### The stop event of a rank -/

theorem setup_stop {T : Int} {l : List Act} (hT : startTick < T) (h : Act.schedStop (some T) ∈ l) :
    ∃ ev d, Obs.sched ev startTick d ∈ (l.foldl applyAct St.init).trace ∧ ev.cb = .stop ∧ ev.at_ = T ∧ ev.interval = none := by
  obtain ⟨a, b, rfl⟩ := List.append_of_mem h
  rw [List.foldl_append, List.foldl_cons]
  have ht : (a.foldl applyAct St.init).tick = startTick := foldl_applyAct_tick _ _
  generalize a.foldl applyAct St.init = s at ht
  obtain ⟨tl, h1, -⟩ := foldl_applyAct_ext b (applyAct s (.schedStop (some T)))
  refine ⟨{ id := s.nextId, at_ := T, ord := s.counter, ptype := .random, prio := none, interval := none, cb := .stop, tag := none },
    s.grp.executing, ?_, rfl, rfl, rfl⟩
  rw [h1]
  apply List.mem_append_left
  simp only [applyAct, pushEvent]
  rw [if_pos (by omega)]
  split <;> simp [ht]

theorem init_prefix (e : Nat → Env) (n : Nat) (setup : Nat → List Act) (ops : List WOp) (i : Nat) :
    ∃ tl, ((ops.foldl (wstep e n) (World.init setup)).ranks i).st.trace = ((setup i).foldl applyAct St.init).trace ++ tl := by
  induction ops using snoc_induction with
  | h0 => exact ⟨[], by simp [World.init]⟩
  | h1 ops o ih =>
    obtain ⟨tl, h⟩ := ih
    rw [List.foldl_append, List.foldl_cons, List.foldl_nil]
    obtain ⟨tl', h'⟩ := wstep_prefix e n (ops.foldl (wstep e n) (World.init setup)) o i
    exact ⟨tl ++ tl', by rw [h', h, List.append_assoc]⟩

/-- A rank with a stop at `T` that is not in a tick has been stopped, or its next tick is not after `T`. -/
theorem stop_due {e : Nat → Env} {n : Nat} {setup : Nat → List Act} {ops : List WOp} {i : Nat} {T : Int}
    (h : StopsAt T (setup i) ((ops.foldl (wstep e n) (World.init setup)).ranks i).st.trace)
    (hp : ((ops.foldl (wstep e n) (World.init setup)).ranks i).st.phase ≠ .running) :
    ((ops.foldl (wstep e n) (World.init setup)).ranks i).st.go = false ∨
    (((ops.foldl (wstep e n) (World.init setup)).ranks i).st.tick < T ∧
      ∃ t, headTick ((ops.foldl (wstep e n) (World.init setup)).ranks i).st = some t ∧ t ≤ T) := by
  obtain ⟨hT, hm, hv⟩ := h
  obtain ⟨ev, d, h1, h2, h3, h4⟩ := setup_stop hT hm
  obtain ⟨tl, htl⟩ := init_prefix e n setup ops i
  have hin : Obs.sched ev startTick d ∈ ((ops.foldl (wstep e n) (World.init setup)).ranks i).st.trace := by
    rw [htl]; exact List.mem_append_left _ h1
  have hnv := hv ev _ _ hin h2 h3
  obtain ⟨l, hl⟩ := rank_run e n setup ops i
  rw [hl] at hin hnv hp ⊢
  rcases C02_one_time (e i) l ev startTick d hin h4 (.inl (by omega)) hnv hp with h | ⟨-, hlt, t, ht, hle⟩
  · left
    refine (run_facts (e i) l).go.2 (run_stopRan (e i) l ev ev.at_ ?_ h2)
    have : (ev, ev.at_) ∈ runsOf ev.id (run (e i) l).trace := by rw [h]; simp
    simp only [runsOf, List.mem_filterMap] at this
    obtain ⟨o, ho, hr⟩ := this
    cases o <;> simp at hr
    obtain ⟨-, rfl, rfl⟩ := hr
    exact ho
  · right; rw [h3] at hlt hle; exact ⟨hlt, t, ht, hle⟩

/-! ### Induction over the histories of all ranks -/

theorem wrun_induct (e : Nat → Env) (n : Nat) (setup : Nat → List Act) (hadv : ∀ i, AdvMono (e i))
    (hs : ∀ i, i < n → Synced ((setup i).foldl applyAct St.init)) (H P : World → Prop)
    (hH : ∀ w o, H (wstep e n w o) → H w) (hn : ∀ w, H w → ∀ i, i < n → NonNegIntervals (w.ranks i).st.trace)
    (h0 : P (World.init setup))
    (hstep : ∀ ops o L, (∀ i, o.rank = some i → i < n) → WInv n (ops.foldl (wstep e n) (World.init setup)) L →
      H ((ops ++ [o]).foldl (wstep e n) (World.init setup)) → P (ops.foldl (wstep e n) (World.init setup)) →
      P ((ops ++ [o]).foldl (wstep e n) (World.init setup)))
    (ops : List WOp) (h : H (wrun e n setup ops)) : P (wrun e n setup ops) := by
  unfold wrun at *
  have hv : ∀ o ∈ ops.filter (fun o => match o with
    | .reduce => true
    | .arrive i | .resume i | .loop i | .leave i | .endEvt i => decide (i < n)), ∀ i, o.rank = some i → i < n := by
    intro o ho i hi
    have := (List.mem_filter.1 ho).2
    cases o <;> simp only [WOp.rank, Option.some.injEq, reduceCtorEq] at hi
    all_goals (subst hi; simpa using this)
  generalize ops.filter _ = ops at *
  have key : (∃ L, WInv n (ops.foldl (wstep e n) (World.init setup)) L) ∧ P (ops.foldl (wstep e n) (World.init setup)) := by
    induction ops using snoc_induction with
    | h0 => exact ⟨⟨_, WInv.init n setup hs (e 0)⟩, h0⟩
    | h1 ops o ih =>
      have hm : ∀ i, i < n → Mono (((ops ++ [o]).foldl (wstep e n) (World.init setup)).ranks i).st := by
        intro i hi
        obtain ⟨l, hl⟩ := rank_run e n setup (ops ++ [o]) i
        have := hn _ h i hi
        rw [hl] at this ⊢
        exact run_mono (e i) l (hadv i) this
      have h' := h
      rw [List.foldl_append, List.foldl_cons, List.foldl_nil] at h'
      obtain ⟨⟨L, hL⟩, ihP⟩ := ih (hH _ _ h') (fun o ho => hv o (List.mem_append_left _ ho))
      have hr : ∀ i, i < n → Sorted ((ops.foldl (wstep e n) (World.init setup)).ranks i).st.queue := by
        intro i _
        obtain ⟨l, hl⟩ := rank_run e n setup ops i
        rw [hl]
        exact (run_inv (e i) l).sorted
      refine ⟨?_, hstep ops o L (hv o (by simp)) hL h ihP⟩
      rw [List.foldl_append, List.foldl_cons, List.foldl_nil] at hm ⊢
      obtain ⟨L', _, h''⟩ := hL.world_step e o (hv o (by simp)) hr hm
      exact ⟨L', h''⟩
  exact key.2

theorem step_tick (e : Env) (s : St) (op : Op) (h : op ≠ .enter) (h' : ∀ a, op ≠ .act a) : (step e s op).tick = s.tick := by
  cases op with
  | act a => exact absurd rfl (h' a)
  | enter => exact absurd rfl h
  | skip => simp only [step]; split <;> rfl
  | loop =>
    simp only [step]; split
    · split
      · exact (within_groupExecute _ _).1
      · rfl
    · rfl
  | leave => simp only [step]; split <;> rfl
  | endEvt => exact (within_endEvt e s).1

/-- Entering a tick with a refreshed `next_tick`: nothing pending, or that tick starts. -/
theorem enter_tick {e : Env} {s : St} (h1 : s.phase = .idle) (h2 : s.go = true) (hs : Synced s) :
    (s.queue = [] ∧ (step e s .enter).tick = s.tick ∧ (step e s .enter).phase = .idle) ∨
    ((step e s .enter).tick = s.nextTick ∧ (step e s .enter).phase = .running) := by
  simp only [step, h1, h2, and_self, if_true]
  rcases hs.head with ⟨hq, -⟩ | ⟨ev, l, hq, hn⟩
  · left; refine ⟨hq, ?_⟩; unfold startExecute; simp only [hq]; exact ⟨trivial, h1⟩
  · right; unfold startExecute; simp only [hq]; exact ⟨hn.symm, trivial⟩

end Repast.Schedule
