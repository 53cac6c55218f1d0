import Verif.Schedule.Ends

/-!
C83: what has been done when `execute()` (schedule.py:612-624) has returned on a rank that calls `schedule_stop` before it.
-/
namespace Repast.Schedule

theorem occ_le {e : Env} (hadv : AdvMono e) {ev : Ev} {iv : Int} (hint : ev.interval = some iv) (h0 : 0 ≤ iv) {k m : Nat} (hkm : k ≤ m) :
    occ e ev k ≤ occ e ev m := by
  induction m with
  | zero => rw [Nat.le_zero.1 hkm]; exact Int.le_refl _
  | succ m ih =>
    by_cases h : k = m + 1
    · rw [h]; exact Int.le_refl _
    · have h1 := ih (by omega)
      have h2 := hadv (occ e ev m) iv h0
      simp only [occ, hint]
      omega

theorem eq_of_sublist {a b : List (Nat × Nat)} (h : a.Sublist b) (hd : b.Pairwise (fun x y => x.1 ≠ y.1)) (hm : ∀ p ∈ b, p ∈ a) : a = b := by
  induction h with
  | slnil => rfl
  | cons p h ih =>
    rw [List.pairwise_cons] at hd
    exact absurd rfl (hd.1 p (h.subset (hm p (by simp))))
  | cons_cons p h ih =>
    rw [List.pairwise_cons] at hd
    rw [ih hd.2]
    intro q hq
    rcases List.mem_cons.1 (hm q (by simp [hq])) with h | h
    · exact absurd (by rw [h]) (hd.1 q hq)
    · exact h

/-- A rank with a stop at `T` never enters a tick after `T`, whatever the other ranks do. -/
theorem own_notPast (e : Nat → Env) (n : Nat) (setup : Nat → List Act) (ops : List WOp) (T : Int) (i : Nat)
    (hT : StopsAt T (setup i) ((wrun e n setup ops).ranks i).st.trace) : ((wrun e n setup ops).ranks i).st.tick ≤ T := by
  unfold wrun at *
  generalize ops.filter _ = ops at *
  induction ops using snoc_induction with
  | h0 =>
    have h1 : ((setup i).foldl applyAct St.init).tick = startTick := foldl_applyAct_tick _ _
    have := hT.1
    simp only [List.foldl_nil, World.init, h1]
    omega
  | h1 ops o ih =>
    have hdue := stop_due (e := e) (n := n) (setup := setup) (ops := ops) (i := i) (T := T)
    rw [List.foldl_append, List.foldl_cons, List.foldl_nil] at hT ⊢
    have ih := ih hT.prev
    have hdue := hdue hT.prev
    generalize ops.foldl (wstep e n) (World.init setup) = w at *
    rcases wstep_cases e n w o i with h | ⟨-, -, -, -, hg, h⟩ | ⟨-, m, hm, h⟩ | ⟨-, m, hm, h⟩ | ⟨-, hp, h⟩ | ⟨-, hp, hg, h⟩ | ⟨-, hp, h⟩ <;> rw [h]
    · exact ih
    · exact ih
    · exact ih
    · split
      · by_cases hpg : (w.ranks i).st.phase = .idle ∧ (w.ranks i).st.go = true
        · simp only [step, if_pos hpg]
          rcases hdue (by rw [hpg.1]; simp) with hgo | ⟨-, t, ht, hle⟩
          · rw [hpg.2] at hgo; cases hgo
          · unfold headTick at ht
            unfold startExecute
            cases hq : (w.ranks i).st.queue with
            | nil => rw [hq] at ht; simp at ht
            | cons ev q =>
              rw [hq] at ht
              simp only [List.head?_cons, Option.map_some, Option.some.injEq] at ht
              simp only [ht]; exact hle
        · simp only [step, if_neg hpg]; exact ih
      · simp only [step_tick (e i) _ .skip (by simp) (by simp)]; exact ih
    · simp only [step_tick (e i) _ .loop (by simp) (by simp)]; exact ih
    · exact ih
    · simp only [step_tick (e i) _ .endEvt (by simp) (by simp)]; exact ih

/-- A rank that calls `schedule_stop(T)` before `execute()` enters no tick after `T`, whatever the other ranks do and in whatever order
the calls before `execute()` are made. Partial: intervals are not negative. -/
theorem C73_own_stop_partial (e : Nat → Env) (n : Nat) (setup : Nat → List Act) (ops : List WOp) (T : Int) (i : Nat) (hadv : AdvMono (e i))
    (hnn : NonNegIntervals ((wrun e n setup ops).ranks i).st.trace)
    (hT : StopsAt T (setup i) ((wrun e n setup ops).ranks i).st.trace)
    (t : Int) (ht : Obs.start t ∈ ((wrun e n setup ops).ranks i).st.trace) : t ≤ T := by
  have hle := own_notPast e n setup ops T i hT
  obtain ⟨l, hl⟩ : ∃ l, ((wrun e n setup ops).ranks i).st = run (e i) l := by
    unfold wrun
    exact rank_run e n setup (ops.filter _) i
  rw [hl] at hnn hle ht
  exact Int.le_trans (mono_start_le (run_mono (e i) l hadv hnn) ht) hle

/-- rank 0 of `stopSetup`, alone -/
example : ∀ t, Obs.start t ∈ ((wrun endsEnv 1 stopSetup [.arrive 0, .reduce, .resume 0, .loop 0, .loop 0]).ranks 0).st.trace → t ≤ 3 :=
  C73_own_stop_partial endsEnv 1 stopSetup _ 3 0 (fun t d hd => by simp only [endsEnv, exEnv]; omega)
    (nonNeg_of_check (by decide +kernel)) (stopsAt_of_check (by decide +kernel))

/-- A rank calls `schedule_stop(T)` before `execute()`, that stop is not voided and the rank is not stopped before tick `T`. When
`execute()` has returned there, whatever the other ranks do: its clock is at `T`; a one-time event that was accepted and not voided has run exactly once, at
its tick, if that is not after `T`, and not at all otherwise; a repeating event that moves on has run exactly at those of its ticks
that are not after `T`; every end event has run or was voided, and if none was voided they have run in the order in which they were scheduled, each once.
Partial: events for the current tick that are scheduled outside of a tick are excepted (they never run, see C10), and intervals are
not negative. -/
theorem C83_all_done_partial (e : Nat → Env) (n : Nat) (setup : Nat → List Act) (ops : List WOp) (T : Int) (i : Nat) (hadv : AdvMono (e i))
    (hnni : NonNegIntervals ((wrun e n setup ops).ranks i).st.trace)
    (hT : StopsAt T (setup i) ((wrun e n setup ops).ranks i).st.trace)
    (hb : NotBefore T ((wrun e n setup ops).ranks i).st.trace)
    (hfin : ((wrun e n setup ops).ranks i).st.phase = .finished) :
    ((wrun e n setup ops).ranks i).st.tick = T ∧
    (∀ ev now d, Obs.sched ev now d ∈ ((wrun e n setup ops).ranks i).st.trace → (now < ev.at_ ∨ d = true) →
      ¬ IsVoided ev.id ((wrun e n setup ops).ranks i).st.trace →
      (ev.interval = none → runsOf ev.id ((wrun e n setup ops).ranks i).st.trace = if ev.at_ ≤ T then [(ev, ev.at_)] else []) ∧
      ∀ iv, ev.interval = some iv → (∀ t, t ≤ T → t < (e i).adv t iv) →
        ∃ k, runsOf ev.id ((wrun e n setup ops).ranks i).st.trace =
            (List.range k).map (fun m => ({ ev with at_ := occ (e i) ev m }, occ (e i) ev m)) ∧
          ∀ m, m < k ↔ occ (e i) ev m ≤ T) ∧
    ((∀ p ∈ schedEnds ((wrun e n setup ops).ranks i).st.trace, ¬ IsVoided p.1 ((wrun e n setup ops).ranks i).st.trace) →
      ranEnds ((wrun e n setup ops).ranks i).st.trace = schedEnds ((wrun e n setup ops).ranks i).st.trace) ∧
    ∀ p ∈ schedEnds ((wrun e n setup ops).ranks i).st.trace,
      p ∈ ranEnds ((wrun e n setup ops).ranks i).st.trace ∨ IsVoided p.1 ((wrun e n setup ops).ranks i).st.trace := by
  have hle := own_notPast e n setup ops T i hT
  have hTi := hT.1
  obtain ⟨l, hl⟩ : ∃ l, ((wrun e n setup ops).ranks i).st = run (e i) l := by
    unfold wrun
    exact rank_run e n setup (ops.filter _) i
  rw [hl] at hfin hnni hb hle ⊢
  have hm := run_mono (e i) l hadv hnni
  have h1 : ∀ t, Obs.start t ∈ (run (e i) l).trace → t ≤ T := fun t ht => Int.le_trans (mono_start_le hm ht) hle
  have htick : (run (e i) l).tick = T := by
    have hgo := (run_facts (e i) l).ending (by simp [St.view, hfin]) (by simp [St.view, hfin])
    obtain ⟨pre, post, hp⟩ := List.append_of_mem ((run_facts (e i) l).go.1 hgo)
    have hp : (run (e i) l).trace = pre ++ Obs.stopped :: post := hp
    have := mono_start_le hm (t := T) (by rw [hp]; exact List.mem_append_left _ (hb pre post hp))
    omega
  have hnr : (run (e i) l).phase ≠ .running := by rw [hfin]; simp
  have ranLe : ∀ ev now, Obs.ran ev now ∈ (run (e i) l).trace → now ≤ T := by
    intro ev now hr
    obtain ⟨j, hj⟩ := List.getElem?_of_mem hr
    obtain ⟨-, hlast⟩ := C01_runs_at_own_tick (e i) l j ev now hj
    rcases List.mem_cons.1 (List.mem_of_getLast? hlast) with h | h
    · omega
    · simp only [starts, List.mem_filterMap] at h
      obtain ⟨o, ho, h⟩ := h
      cases o <;> simp at h
      exact h1 now (by rw [← h]; exact List.mem_of_mem_take ho)
  refine ⟨htick, ?_, ?_, C11_all_end_events (e i) l hfin⟩
  · intro ev now d hev hacc hv
    refine ⟨fun hint => ?_, fun iv hint hmove => ?_⟩
    · rcases C02_one_time (e i) l ev now d hev hint hacc hv hnr with h | ⟨h, h3, -⟩
      · have : (ev, ev.at_) ∈ runsOf ev.id (run (e i) l).trace := by rw [h]; simp
        have := ranLe ev ev.at_ (mem_runsOf.1 this).1
        rw [if_pos this]; exact h
      · rw [if_neg (by omega)]; exact h
    · obtain ⟨k, h3, h4⟩ := C03_repeating (e i) l ev now iv d hev hint
      refine ⟨k, h3, fun m => ⟨fun hmk => ?_, fun hmT => ?_⟩⟩
      · have : (({ ev with at_ := occ (e i) ev m } : Ev), occ (e i) ev m) ∈ runsOf ev.id (run (e i) l).trace := by
          rw [h3]; exact List.mem_map.2 ⟨m, List.mem_range.2 hmk, rfl⟩
        exact ranLe _ _ (mem_runsOf.1 this).1
      · apply Nat.lt_of_not_le
        intro hkm
        have hkT : (run (e i) l).tick < occ (e i) ev k := by
          apply (h4 hacc hv hnr).2.2
          cases k with
          | zero => exact .inl rfl
          | succ k =>
            right
            have h5 := occ_le hadv hint (hnni ev now d iv hev hint) (show k ≤ m by omega)
            have := hmove (occ (e i) ev k) (by omega)
            simpa [occ, hint] using this
        have := occ_le hadv hint (hnni ev now d iv hev hint) hkm
        omega
  · intro hv
    obtain ⟨h3, h4, -⟩ := C11_end_events (e i) l
    exact eq_of_sublist h3 h4 (fun p hp => (C11_all_end_events (e i) l hfin p hp).resolve_right (hv p hp))

/-! ### Examples -/

/-- rank 1, with an event that repeats at 1, 2, 3; rank 0, whose events and end events have scheduled others -/
example : (∃ k, runsOf 1 ((endsWorld 34).ranks 1).st.trace = (List.range k).map (fun m : Nat => (⟨1, 1 + (m : Int), 1, .random, none, some 1, .user 0, none⟩, 1 + (m : Int))) ∧
      ∀ m : Nat, m < k ↔ 1 + (m : Int) ≤ 3) ∧
    ranEnds ((endsWorld 34).ranks 0).st.trace = schedEnds ((endsWorld 34).ranks 0).st.trace ∧
    ranEnds ((endsWorld 34).ranks 0).st.trace = [(2, 0), (5, 1), (6, 1)] := by
  have henv : ∀ i, (endsEnv i).adv = fun a b => a + b := by
    intro i; unfold endsEnv; split <;> rfl
  have chk : ∀ i, i < 2 → NonNegIntervals ((endsWorld 34).ranks i).st.trace ∧ StopsAt 3 (stopSetup i) ((endsWorld 34).ranks i).st.trace ∧
      NotBefore 3 ((endsWorld 34).ranks i).st.trace := by
    intro i hi
    have h := endsChecks 34 (by omega) i hi
    simp only [Bool.and_eq_true, decide_eq_true_eq] at h
    exact ⟨nonNeg_of_check h.1.1.1.1, stopsAt_of_check h.1.1.1.2, notBefore_of_check h.1.1.2⟩
  unfold endsWorld at chk ⊢
  have key := fun i hi => C83_all_done_partial endsEnv 2 stopSetup ((List.range 34).map endsNext) 3 i (fun t d hd => by rw [henv]; simp only []; omega)
    (chk i hi).1 (chk i hi).2.1 (chk i hi).2.2
  refine ⟨?_, (key 0 (by omega) (by decide +kernel)).2.2.1 ?_, by decide +kernel⟩
  · have hocc : ∀ m : Nat, occ (endsEnv 1) ⟨1, 1, 1, .random, none, some 1, .user 0, none⟩ m = 1 + (m : Int) := by
      intro m
      induction m with
      | zero => rfl
      | succ m ih => simp only [occ, ih, henv]; omega
    obtain ⟨k, h1, h2⟩ := ((key 1 (by omega) (by decide +kernel)).2.1 ⟨1, 1, 1, .random, none, some 1, .user 0, none⟩ startTick false
      (by decide +kernel) (.inl (by decide)) (by unfold IsVoided; decide +kernel)).2 1 rfl (fun t _ => by rw [henv]; simp only []; omega)
    simp only [hocc] at h1 h2
    exact ⟨k, h1, h2⟩
  · unfold IsVoided
    decide +kernel

/-- the run of `C73_violation`, in which rank 0 hangs: rank 1, which has an end event and the stop only, has done what was due there -/
def hangSetup (i : Nat) : List Act := if i = 0 then [one 1, .schedStop (some 2)] else [.schedEnd 7, .schedStop (some 2)]

def hangOps : List WOp :=
  [.arrive 0, .arrive 1, .reduce, .resume 0, .resume 1, .loop 1, .loop 1, .leave 1, .endEvt 1, .endEvt 1, .arrive 0]

example : ((wrun (fun _ => exEnv fun _ _ => []) 2 hangSetup hangOps).ranks 1).st.tick = 2 ∧
    ranEnds ((wrun (fun _ => exEnv fun _ _ => []) 2 hangSetup hangOps).ranks 1).st.trace = [(0, 7)] ∧
    ((wrun (fun _ => exEnv fun _ _ => []) 2 hangSetup hangOps).ranks 0).wait.isSome := by
  have key := C83_all_done_partial (fun _ => exEnv fun _ _ => []) 2 hangSetup hangOps 2 1 (fun t d hd => by simp only [exEnv]; omega)
    (nonNeg_of_check (by decide +kernel)) (stopsAt_of_check (by decide +kernel)) (notBefore_of_check (by decide +kernel)) (by decide +kernel)
  refine ⟨key.1, ?_, by decide +kernel⟩
  rw [key.2.2.1 (by unfold IsVoided; decide +kernel)]
  decide +kernel

end Repast.Schedule
