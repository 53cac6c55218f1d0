import Verif.Schedule.Confluent

/-!
C85: what a rank does to the others is to make them wait, nothing else.
-/
namespace Repast.Schedule

/-! ### `next_tick` is not looked at by anything but the reduction -/

/-- Equal up to `next_tick`. -/
def Eqn (s t : St) : Prop := ∃ x, t = { s with nextTick := x }

theorem Eqn.refl (s : St) : Eqn s s := ⟨s.nextTick, rfl⟩

theorem Eqn.symm {s t : St} (h : Eqn s t) : Eqn t s := by obtain ⟨x, rfl⟩ := h; exact ⟨s.nextTick, rfl⟩

theorem Eqn.trans {s t u : St} (h : Eqn s t) (h' : Eqn t u) : Eqn s u := by
  obtain ⟨x, rfl⟩ := h; obtain ⟨y, rfl⟩ := h'; exact ⟨y, rfl⟩

theorem pushEvent_eqn {s t : St} (h : Eqn s t) (at_ : Option Int) (p : PType) (q i : Option Int) (cb : Cb) (g : Option Nat) :
    Eqn (pushEvent s at_ p q i cb g) (pushEvent t at_ p q i cb g) := by
  obtain ⟨x, rfl⟩ := h
  refine ⟨x, ?_⟩
  cases at_ with
  | none => rfl
  | some u =>
    by_cases h1 : s.tick ≤ u
    · by_cases h2 : u = s.tick
      · subst h2
        simp only [pushEvent, h1, if_true]
      · simp only [pushEvent, h1, h2, if_true, if_false]
    · simp only [pushEvent, h1, if_false]

theorem applyAct_eqn {s t : St} (h : Eqn s t) (a : Act) : Eqn (applyAct s a) (applyAct t a) := by
  cases a with
  | sched at_ p q i l g =>
    obtain ⟨x, hx⟩ := pushEvent_eqn h at_ p q i (.user l) g
    simp only [applyAct, hx]
    exact ⟨schedNextTick { pushEvent s at_ p q i (.user l) g with nextTick := x }, rfl⟩
  | schedStop at_ => exact pushEvent_eqn h _ _ _ _ _ _
  | schedEnd l => obtain ⟨x, rfl⟩ := h; exact ⟨x, rfl⟩
  | void id => obtain ⟨x, rfl⟩ := h; exact ⟨x, rfl⟩
  | stop => obtain ⟨x, rfl⟩ := h; exact ⟨x, rfl⟩

theorem acts_eqn (l : List Act) : ∀ {s t : St}, Eqn s t → Eqn (l.foldl applyAct s) (l.foldl applyAct t) := by
  induction l with
  | nil => exact fun h => h
  | cons a l ih => exact fun h => ih (applyAct_eqn h a)

theorem callEv_eqn (e : Env) {s t : St} (h : Eqn s t) (ev : Ev) : Eqn (callEv e s ev) (callEv e t ev) := by
  obtain ⟨x, rfl⟩ := h
  unfold callEv
  by_cases hv : ev.id ∈ s.voided
  · simp only [hv, if_true]; exact ⟨x, rfl⟩
  · simp only [hv, if_false]
    cases ev.cb with
    | stop => exact applyAct_eqn ⟨x, rfl⟩ _
    | user l => exact acts_eqn _ ⟨x, rfl⟩

theorem rescheduleEv_eqn (e : Env) {s t : St} (h : Eqn s t) (ev : Ev) : Eqn (rescheduleEv e s ev) (rescheduleEv e t ev) := by
  obtain ⟨x, rfl⟩ := h
  unfold rescheduleEv
  cases ev.interval with
  | none => exact ⟨x, rfl⟩
  | some i =>
    by_cases hv : ev.id ∈ s.voided
    · simp only [hv, if_true]; exact ⟨x, rfl⟩
    · simp only [hv, if_false]; exact ⟨x, rfl⟩

theorem runEv_eqn (e : Env) {s t : St} (h : Eqn s t) (ev : Ev) : Eqn (runEv e s ev) (runEv e t ev) := by
  obtain ⟨x, rfl⟩ := h
  exact rescheduleEv_eqn e (callEv_eqn e ⟨x, rfl⟩ ev) ev

theorem addDuring_eqn (e : Env) {s t : St} (h : Eqn s t) : Eqn (addDuring e s) (addDuring e t) := by
  obtain ⟨x, rfl⟩ := h; exact ⟨x, rfl⟩

theorem executeEvts_eqn (e : Env) (w : Which) (l : List Ev) : ∀ {s t : St}, Eqn s t →
    Eqn (executeEvts e w l s).1 (executeEvts e w l t).1 ∧ (executeEvts e w l s).2 = (executeEvts e w l t).2 := by
  induction l with
  | nil => exact fun h => ⟨h, rfl⟩
  | cons ev l ih =>
    intro s t h
    have h1 : Eqn (runEv e { s with grp := s.grp.set l w } ev) (runEv e { t with grp := t.grp.set l w } ev) := by
      obtain ⟨x, rfl⟩ := h
      exact runEv_eqn e ⟨x, rfl⟩ ev
    have h2 : (runEv e { t with grp := t.grp.set l w } ev).grp = (runEv e { s with grp := s.grp.set l w } ev).grp := by
      obtain ⟨x, hx⟩ := h1; rw [hx]
    simp only [executeEvts, h2]
    split
    · exact ⟨addDuring_eqn e h1, rfl⟩
    · exact ih h1

theorem groupExecute_eqn (e : Env) {s t : St} (h : Eqn s t) : Eqn (groupExecute e s) (groupExecute e t) := by
  have grp : ∀ {s t : St}, Eqn s t → t.grp = s.grp := by rintro s t ⟨x, rfl⟩; rfl
  have h0 : Eqn { s with grp := { s.grp with executing := true } } { t with grp := { t.grp with executing := true } } := by
    obtain ⟨x, rfl⟩ := h; exact ⟨x, rfl⟩
  have h1 := executeEvts_eqn e .first s.grp.first h0
  have hs := grp h
  simp only [groupExecute, hs] at h1 ⊢
  rw [← h1.2]
  split
  · exact h1.1
  have h2 := executeEvts_eqn e .prioritized (executeEvts e .first s.grp.first { s with grp := { s.grp with executing := true } }).1.grp.prioritized h1.1
  rw [grp h1.1, ← h2.2]
  split
  · exact h2.1
  have h3 := executeEvts_eqn e .last (executeEvts e .prioritized (executeEvts e .first s.grp.first
    { s with grp := { s.grp with executing := true } }).1.grp.prioritized (executeEvts e .first s.grp.first { s with grp := { s.grp with executing := true } }).1).1.grp.last h2.1
  rw [grp h2.1, ← h3.2]
  split
  · exact h3.1
  · obtain ⟨x, hx⟩ := h3.1
    rw [hx]; exact ⟨x, rfl⟩

theorem startExecute_eqn (e : Env) {s t : St} (h : Eqn s t) : Eqn (startExecute e s) (startExecute e t) := by
  obtain ⟨x, rfl⟩ := h
  unfold startExecute
  cases s.queue with
  | nil => exact ⟨_, rfl⟩
  | cons ev q => exact ⟨x, rfl⟩

/-- The runner of one process takes the same steps, whatever is in `next_tick`. -/
theorem step_eqn (e : Env) {s t : St} (h : Eqn s t) (op : Op) : Eqn (step e s op) (step e t op) := by
  have hp : t.phase = s.phase := by obtain ⟨x, rfl⟩ := h; rfl
  have hg : t.go = s.go := by obtain ⟨x, rfl⟩ := h; rfl
  have hz : t.grp = s.grp := by obtain ⟨x, rfl⟩ := h; rfl
  cases op with
  | act a => simp only [step, hp]; split; exact applyAct_eqn h a; exact h
  | enter => simp only [step, hp, hg]; split; exact startExecute_eqn e h; exact h
  | skip =>
    simp only [step, hp, hg]; split
    · obtain ⟨x, rfl⟩ := h; exact ⟨_, rfl⟩
    · exact h
  | loop =>
    simp only [step, hp, hz]; split
    · split
      · exact groupExecute_eqn e h
      · obtain ⟨x, rfl⟩ := h; exact ⟨_, rfl⟩
    · exact h
  | leave =>
    simp only [step, hp, hg]; split
    · obtain ⟨x, rfl⟩ := h; exact ⟨x, rfl⟩
    · exact h
  | endEvt =>
    have he : t.endEvts = s.endEvts := by obtain ⟨x, rfl⟩ := h; rfl
    have hv : t.voided = s.voided := by obtain ⟨x, rfl⟩ := h; rfl
    have ht : t.trace = s.trace := by obtain ⟨x, rfl⟩ := h; rfl
    simp only [step, hp, he]
    split
    · split
      · obtain ⟨x, rfl⟩ := h; exact ⟨x, rfl⟩
      · simp only [hv, ht]
        split
        · obtain ⟨x, rfl⟩ := h; exact ⟨x, rfl⟩
        · refine acts_eqn _ ?_
          obtain ⟨x, rfl⟩ := h; exact ⟨x, rfl⟩
    · exact h

/-! ### One process on its own -/

/-- schedule.py:613-624: what a process does next when nobody makes it wait. -/
def nextOp (s : St) : Op :=
  match s.phase with
  | .idle => if s.go then .enter else .leave
  | .running => .loop
  | _ => .endEvt

/-- What a process with the runner `s` has done after `k` steps when nobody makes it wait. -/
def solo (e : Env) (s : St) : Nat → St
  | 0 => s
  | k + 1 => step e (solo e s k) (nextOp (solo e s k))

theorem nextOp_eqn {s t : St} (h : Eqn s t) : nextOp t = nextOp s := by obtain ⟨x, rfl⟩ := h; rfl

theorem solo_prefix (e : Env) (s : St) {k m : Nat} (h : k ≤ m) : ∃ tl, (solo e s m).trace = (solo e s k).trace ++ tl := by
  obtain ⟨d, rfl⟩ := Nat.le.dest h
  clear h
  induction d with
  | zero => exact ⟨[], by simp⟩
  | succ d ih =>
    obtain ⟨tl, ht⟩ := ih
    obtain ⟨tl', ht'⟩ := step_prefix e (solo e s (k + d)) (nextOp (solo e s (k + d)))
    exact ⟨tl ++ tl', by rw [← Nat.add_assoc]; simp only [solo]; rw [ht', ht]; simp⟩

theorem solo_finished (e : Env) (s : St) {k m : Nat} (h : k ≤ m) (hf : (solo e s k).phase = .finished) : solo e s m = solo e s k := by
  obtain ⟨d, rfl⟩ := Nat.le.dest h
  clear h
  induction d with
  | zero => rfl
  | succ d ih =>
    rw [← Nat.add_assoc]
    simp only [solo]
    rw [ih]
    simp [step, nextOp, hf]

/-- Whatever the others do, a process is at some point of what it does on its own. -/
theorem on_orbit (e : Nat → Env) (n : Nat) (setup : Nat → List Act) (ops : List WOp) (i : Nat) :
    ∃ k, Eqn (solo (e i) ((setup i).foldl applyAct St.init) k) ((wrun e n setup ops).ranks i).st := by
  unfold wrun
  generalize ops.filter _ = ops
  induction ops using snoc_induction with
  | h0 => exact ⟨0, Eqn.refl _⟩
  | h1 ops o ih =>
    obtain ⟨k, hk⟩ := ih
    rw [List.foldl_append, List.foldl_cons, List.foldl_nil]
    generalize List.foldl (wstep e n) (World.init setup) ops = w at hk ⊢
    have go : ∀ op, nextOp (w.ranks i).st = op → ∃ k', Eqn (solo (e i) ((setup i).foldl applyAct St.init) k') (step (e i) (w.ranks i).st op) := by
      intro op hop
      refine ⟨k + 1, ?_⟩
      simp only [solo]
      rw [← nextOp_eqn hk, hop]
      exact step_eqn (e i) hk op
    rcases wstep_cases e n w o i with h | ⟨-, h1, h2, h3, hg, h⟩ | ⟨h1, m, hm, h⟩ | ⟨-, m, hm, h⟩ | ⟨-, hp, h⟩ | ⟨-, hp, hg, h⟩ | ⟨-, ⟨j, hp⟩, h⟩ <;> rw [h]
    · exact ⟨k, hk⟩
    · exact ⟨k, hk⟩
    · exact ⟨k, hk⟩
    · by_cases hpg : (w.ranks i).st.phase = .idle ∧ (w.ranks i).st.go = true
      · by_cases hnm : (w.ranks i).st.nextTick = m
        · rw [if_pos hnm]
          exact go .enter (by simp [nextOp, hpg.1, hpg.2])
        · rw [if_neg hnm]
          refine ⟨k, hk.trans ?_⟩
          simp only [step, if_pos hpg]
          exact ⟨_, rfl⟩
      · refine ⟨k, hk.trans ?_⟩
        by_cases hnm : (w.ranks i).st.nextTick = m
        · rw [if_pos hnm]; simp only [step, if_neg hpg]; exact Eqn.refl _
        · rw [if_neg hnm]; simp only [step, if_neg hpg]; exact Eqn.refl _
    · exact go .loop (by simp [nextOp, hp])
    · have := go .leave (by simp [nextOp, hp, hg])
      simpa [step, hp, hg] using this
    · exact go .endEvt (by simp [nextOp, hp])

/-! ### The theorems -/

/-- A process with the same calls before `execute()`, the same callbacks and the same draws does the same things in the same order at
the same ticks in any two runs, with other numbers of other processes that do other things: of its two histories, one is a
beginning of the other. -/
theorem C85_same_history (e e' : Nat → Env) (n n' : Nat) (setup setup' : Nat → List Act) (ops ops' : List WOp) (i j : Nat)
    (he : e i = e' j) (hs : setup i = setup' j) :
    (∃ tl, ((wrun e' n' setup' ops').ranks j).st.trace = ((wrun e n setup ops).ranks i).st.trace ++ tl) ∨
    (∃ tl, ((wrun e n setup ops).ranks i).st.trace = ((wrun e' n' setup' ops').ranks j).st.trace ++ tl) := by
  obtain ⟨k, x, hk⟩ := on_orbit e n setup ops i
  obtain ⟨m, y, hm⟩ := on_orbit e' n' setup' ops' j
  rw [hk, hm, he, hs]
  rcases Nat.le_total k m with h | h
  · exact .inl (solo_prefix _ _ h)
  · exact .inr (solo_prefix _ _ h)

/-- Where `execute()` has returned, nothing more can have happened in any other run: the history in the other run is a beginning of
this one, and if `execute()` has returned there too, the histories and the clocks are equal. -/
theorem C85_returned (e e' : Nat → Env) (n n' : Nat) (setup setup' : Nat → List Act) (ops ops' : List WOp) (i j : Nat)
    (he : e i = e' j) (hs : setup i = setup' j) (hf : ((wrun e n setup ops).ranks i).st.phase = .finished) :
    (∃ tl, ((wrun e n setup ops).ranks i).st.trace = ((wrun e' n' setup' ops').ranks j).st.trace ++ tl) ∧
    (((wrun e' n' setup' ops').ranks j).st.phase = .finished →
      ((wrun e' n' setup' ops').ranks j).st.trace = ((wrun e n setup ops).ranks i).st.trace ∧
      ((wrun e' n' setup' ops').ranks j).st.tick = ((wrun e n setup ops).ranks i).st.tick) := by
  obtain ⟨k, x, hk⟩ := on_orbit e n setup ops i
  obtain ⟨m, y, hm⟩ := on_orbit e' n' setup' ops' j
  rw [hk] at hf
  rw [hk, hm, ← he, ← hs]
  have hf : (solo (e i) ((setup i).foldl applyAct St.init) k).phase = .finished := hf
  rcases Nat.le_total k m with h | h
  · rw [solo_finished _ _ h hf]
    exact ⟨⟨[], by simp⟩, fun _ => ⟨rfl, rfl⟩⟩
  · refine ⟨solo_prefix _ _ h, fun hf' => ?_⟩
    have hf' : (solo (e i) ((setup i).foldl applyAct St.init) m).phase = .finished := hf'
    have := solo_finished _ _ h hf'
    simp only [this, and_self]

/-! ### The hypotheses are met -/

/-- rank 0 of `endsWorld` without rank 1 -/
def aloneOps : List WOp :=
  [.arrive 0, .reduce, .resume 0, .loop 0, .loop 0, .loop 0, .loop 0, .arrive 0, .reduce, .resume 0, .loop 0, .loop 0,
   .leave 0, .endEvt 0, .endEvt 0, .endEvt 0, .endEvt 0]

/-- rank 0 does the same alone as beside a rank that makes it skip a tick -/
example : ((wrun (fun _ => endsEnv 0) 1 (fun _ => stopSetup 0) aloneOps).ranks 0).st.trace =
      ((wrun endsEnv 2 stopSetup endsOps).ranks 0).st.trace ∧
    15 ≤ ((wrun endsEnv 2 stopSetup endsOps).ranks 0).st.trace.length :=
  ⟨((C85_returned endsEnv (fun _ => endsEnv 0) 2 1 stopSetup (fun _ => stopSetup 0) endsOps aloneOps 0 0 rfl rfl (by decide +kernel)).2
    (by decide +kernel)).1, by decide +kernel⟩

end Repast.Schedule
