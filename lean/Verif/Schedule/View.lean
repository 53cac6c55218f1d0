import Verif.Schedule.Inv

/-! The part of the state that decides what may happen next, and its transitions one observation at a time. -/
namespace Repast.Schedule

structure V where
  trace : List Obs
  voided : List Nat
  tick : Int
  go : Bool
  endEvts : List (Nat × Nat)
  phase : Phase
  nextId : Nat

def St.view (s : St) : V := ⟨s.trace, s.voided, s.tick, s.go, s.endEvts, s.phase, s.nextId⟩

/-- One observation. -/
inductive VStep : V → V → Prop where
  | sched (v : V) (ev : Ev) (d : Bool) : ev.id = v.nextId → v.tick ≤ ev.at_ →
      VStep v { v with trace := v.trace ++ [.sched ev v.tick d], nextId := v.nextId + 1 }
  | ignored (v : V) : VStep v { v with trace := v.trace ++ [.ignored v.nextId], nextId := v.nextId + 1 }
  | void (v : V) (x : Nat) : VStep v { v with trace := v.trace ++ [.voided x], voided := x :: v.voided }
  | stop (v : V) : VStep v { v with trace := v.trace ++ [.stopped], go := false }
  | schedEnd (v : V) (l : Nat) : v.phase ≠ .finished → VStep v
      { v with trace := v.trace ++ [.schedEnd v.nextId l], endEvts := v.endEvts ++ [(v.nextId, l)], nextId := v.nextId + 1 }
  | start (v : V) (t : Int) : v.phase = .idle → v.go = true →
      VStep v { v with trace := v.trace ++ [.start t], tick := t, phase := .running }
  | ran (v : V) (ev : Ev) : v.phase = .running → ev.id ∉ v.voided → ev.id < v.nextId →
      VStep v { v with trace := v.trace ++ [.ran ev v.tick] }
  | finish (v : V) : v.phase = .running → VStep v { v with phase := .idle }
  | leave (v : V) : v.phase = .idle → v.go = false → VStep v { v with phase := .ending 0 }
  | endSkip (v : V) (i id l) : v.phase = .ending i → v.endEvts[i]? = some (id, l) → id ∈ v.voided →
      VStep v { v with phase := .ending (i+1) }
  | endRun (v : V) (i id l) : v.phase = .ending i → v.endEvts[i]? = some (id, l) → id ∉ v.voided →
      VStep v { v with phase := .ending (i+1), trace := v.trace ++ [.ranEnd id l] }
  | endDone (v : V) (i) : v.phase = .ending i → v.endEvts[i]? = none → VStep v { v with phase := .finished }

inductive VReach : V → V → Prop where
  | refl (s) : VReach s s
  | tail {s t u} : VReach s t → VStep t u → VReach s u

theorem VReach.trans {a b c : V} (h1 : VReach a b) (h2 : VReach b c) : VReach a c := by
  induction h2 with
  | refl => exact h1
  | tail _ h ih => exact .tail ih h

theorem VReach.single {a b : V} (h : VStep a b) : VReach a b := .tail (.refl a) h

theorem VReach.of_eq {a b : V} (h : a = b) : VReach a b := h ▸ .refl a

theorem pushEvent_view (s : St) (a p q i c g) : VStep s.view (pushEvent s a p q i c g).view := by
  unfold pushEvent
  simp only []
  split
  · exact .ignored s.view
  · split
    · rename_i t h
      split
      · exact .sched s.view _ _ rfl h
      · exact .sched s.view _ _ rfl h
    · exact .ignored s.view

theorem applyAct_view (s : St) (a : Act) (hf : s.phase ≠ .finished) : VStep s.view (applyAct s a).view := by
  cases a with
  | sched a p q i l g => exact pushEvent_view s a p q i (.user l) g
  | schedStop a => exact pushEvent_view s a _ _ _ _ _
  | schedEnd l => exact .schedEnd s.view l hf
  | void x => exact .void s.view x
  | stop => exact .stop s.view

theorem foldl_applyAct_view (l : List Act) (s : St) (hf : s.phase ≠ .finished) : VReach s.view (l.foldl applyAct s).view := by
  induction l generalizing s with
  | nil => exact .refl _
  | cons a l ih => exact (VReach.single (applyAct_view s a hf)).trans (ih _ (by rw [applyAct_phase]; exact hf))

theorem rescheduleEv_view (e : Env) (s : St) (ev : Ev) : (rescheduleEv e s ev).view = s.view := by
  unfold rescheduleEv
  split
  · rfl
  · split <;> rfl

theorem post_view (e : Env) (s : St) : (post e s).view = s.view := by
  unfold post; split
  · rfl
  · rfl

theorem runEv_view (e : Env) (s : St) (ev : Ev) (hp : s.phase = .running) (hid : ev.id < s.nextId) : VReach s.view (runEv e s ev).view := by
  simp only [runEv, rescheduleEv_view]
  by_cases hv : ev.id ∈ s.voided
  · rw [callEv, if_pos hv]; exact .refl _
  · obtain ⟨l, hl⟩ := callEv_eq e { s with grp := { s.grp with size := s.grp.size - 1 } } ev hv
    rw [hl]
    have h2 := foldl_applyAct_view l { s with grp := { s.grp with size := s.grp.size - 1 }, trace := s.trace ++ [.ran ev s.tick] }
      (by simp [hp])
    exact (VReach.single (VStep.ran s.view ev hp hv hid)).trans h2

theorem MStep.view {e s t} (hi : Inv e none s) (h : MStep e s t) : VReach s.view t.view := by
  cases h with
  | act a hp => exact .single (applyAct_view s a (by simp [hp]))
  | enter hp hg =>
    unfold startExecute; split
    · exact .refl _
    · exact .single (.start s.view _ hp hg)
  | skip => exact .refl _
  | exec => exact .refl _
  | event w ev rest hp hx hn =>
    rw [post_view]
    obtain ⟨a, n, d, h1, h2⟩ := hi.src ev (List.mem_append_right _ ((set_all_perm hn.1).mem_iff.2 (by simp)))
    exact runEv_view e { s with grp := s.grp.set rest w } ev hp (by have := (hi.bound _ _ _ h1).1; simp only []; omega)
  | unexec => exact .refl _
  | finish hp => exact .single (.finish s.view hp)
  | leave hp hg => exact .single (.leave s.view hp hg)
  | endDone i hp hi => exact .single (.endDone s.view i hp hi)
  | endSkip i id l hp hi hv => exact .single (.endSkip s.view i id l hp hi hv)
  | endRun i id l hp hi hv =>
    have h2 := foldl_applyAct_view (e.endProg (s.trace ++ [.ranEnd id l]) l)
      { s with phase := .ending (i+1), trace := s.trace ++ [.ranEnd id l] } (by simp)
    exact (VReach.single (VStep.endRun s.view i id l hp hi hv)).trans h2

/-- Induction one observation at a time. -/
theorem view_induction (e : Env) (P : V → Prop) (h0 : P St.init.view) (hs : ∀ v w, P v → VStep v w → P w)
    (ops : List Op) : P (run e ops).view := by
  have hr : ∀ v w, P v → VReach v w → P w := by
    intro v w hv hr
    induction hr with
    | refl => exact hv
    | tail _ h ih => exact hs _ _ ih h
  exact (run_induction e (fun s => Inv e none s ∧ P s.view) ⟨Inv.init e, h0⟩
    (fun s t hg hp hm => ⟨hp.1.step hg hm, hr _ _ hp.2 (hm.view hp.1)⟩) ops).2

/-- Every observation extends the history by at most one entry. -/
theorem VStep.trace {v w} (h : VStep v w) : w.trace = v.trace ∨ ∃ o, w.trace = v.trace ++ [o] := by
  cases h <;> first | exact Or.inl rfl | exact Or.inr ⟨_, rfl⟩

end Repast.Schedule
