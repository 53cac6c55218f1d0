import Verif.Schedule.Fresh

/-! C12 and C13: several processes sharing a schedule. -/
namespace Repast.Schedule

/-- Setups of the example: rank 0 has events at 2 and 5, rank 1 at 3 and 5, rank 2 a repeating one. -/
def exSetup : Nat → List Act
  | 0 => [one 2, one 5]
  | 1 => [one 3, one 5]
  | _ => [rep 4 1, .schedStop (some 20)]

/-- A history of three rounds of three ranks. -/
def exWOps : List WOp :=
  [.arrive 2, .arrive 0, .arrive 1, .reduce, .resume 1, .arrive 1, .resume 0, .loop 0, .resume 2, .loop 0, .arrive 2, .arrive 0, .reduce,
   .resume 0, .resume 1, .loop 1, .resume 2, .loop 1, .arrive 2, .arrive 0, .arrive 1, .reduce, .resume 0, .resume 1, .resume 2, .loop 2]

/-- C12, first half. Whatever the number of ranks and whatever the callbacks do, the ticks entered and the ticks at which
callbacks run are non-decreasing over all ranks. Partial: it requires that on no rank the last call before `execute()` that
schedules something is a `schedule_stop` for a tick before all its events (see `C12_violation`), and that intervals are not negative. -/
theorem C12_global_order_partial (e : Nat → Env) (n : Nat) (setup : Nat → List Act) (ops : List WOp) (hadv : ∀ i, AdvMono (e i))
    (hs : ∀ i, i < n → StopsFresh (setup i) ∨ ∀ t, Act.schedStop t ∉ setup i)
    (hnn : ∀ i, i < n → NonNegIntervals ((wrun e n setup ops).ranks i).st.trace) :
    (wrun e n setup ops).times.Pairwise (· ≤ ·) := by
  obtain ⟨L, h⟩ := wrun_inv e n setup ops hadv (fun i hi => fresh_synced (hs i hi)) hnn
  exact h.sorted

/-- C12, second half. While a rank executes a tick, no rank has a pending event that is earlier. Partial for the same reason. -/
theorem C12_no_rank_ahead_partial (e : Nat → Env) (n : Nat) (setup : Nat → List Act) (ops : List WOp) (hadv : ∀ i, AdvMono (e i))
    (hs : ∀ i, i < n → StopsFresh (setup i) ∨ ∀ t, Act.schedStop t ∉ setup i)
    (hnn : ∀ i, i < n → NonNegIntervals ((wrun e n setup ops).ranks i).st.trace)
    (i j : Nat) (hi : i < n) (hj : j < n) (hrun : ((wrun e n setup ops).ranks i).st.phase = .running) :
    ∀ ev ∈ ((wrun e n setup ops).ranks j).st.queue, ((wrun e n setup ops).ranks i).st.tick ≤ ev.at_ := by
  obtain ⟨L, h⟩ := wrun_inv e n setup ops hadv (fun i hi => fresh_synced (hs i hi)) hnn
  intro ev hev
  rw [((h.rank i hi).busy (by simp [hrun])).1]
  exact (h.rank j hj).queue ev hev

example : (wrun (fun _ => exEnv fun _ _ => []) 3 exSetup exWOps).times = [2, 2, 3, 3, 4, 4] := by decide +kernel

example : AdvMono (exEnv fun _ _ => []) ∧ (∀ i, i < 3 → StopsFresh (exSetup i) ∨ ∀ t, Act.schedStop t ∉ exSetup i) ∧
    ∀ i, i < 3 → NonNegIntervals ((wrun (fun _ => exEnv fun _ _ => []) 3 exSetup exWOps).ranks i).st.trace := by
  refine ⟨fun t d hd => ?_, fun i hi => ?_, fun i hi ev now d k hm hk => ?_⟩
  · simp only [exEnv]; omega
  · match i, hi with
    | 0, _ => right; intro t; simp [exSetup, one]
    | 1, _ => right; intro t; simp [exSetup, one]
    | 2, _ => left; right; exact ⟨4, .random, none, some 1, 0, none, by simp [exSetup, rep], by decide, fun u hu => by simp [exSetup, rep] at hu; omega⟩
  · have : ∀ o ∈ ((wrun (fun _ => exEnv fun _ _ => []) 3 exSetup exWOps).ranks i).st.trace, (match o with
        | .sched ev _ _ => (ev.interval.all fun k => decide (0 ≤ k))
        | _ => true) = true := by
      have h3 : i = 0 ∨ i = 1 ∨ i = 2 := by omega
      rcases h3 with rfl | rfl | rfl <;> decide +kernel
    simpa [hk] using this _ hm

/-- C12 does not hold in general: rank 0 schedules an event at 5, then the stop at 3; `schedule_stop` does not refresh the
runner's `next_tick`, so rank 1 executes tick 4 before rank 0 executes tick 3. -/
theorem C12_violation : ∃ (e : Nat → Env) (setup : Nat → List Act) (ops : List WOp),
    (∀ i, AdvMono (e i)) ∧ ((wrun e 2 setup ops).times = [4, 4, 3, 3]) := by
  refine ⟨fun _ => exEnv fun _ _ => [], fun i => if i = 0 then [one 5, .schedStop (some 3)] else [one 4, one 6],
    [.arrive 0, .arrive 1, .reduce, .resume 0, .resume 1, .loop 1, .loop 1, .arrive 0, .arrive 1, .reduce, .resume 0, .resume 1, .loop 0], ?_, by decide +kernel⟩
  intro i t d hd
  simp only [exEnv]
  omega

/-- C13, partial: when all ranks have reached the reduction and every rank has a pending event, the reduction completes and a rank
enters a tick precisely if its next tick is the least one over all ranks; there is such a rank. Missing: the case where some rank
has no pending event, in which the property is false (`C13_starvation`). -/
theorem C13_progress_partial (e : Nat → Env) (n : Nat) (hn : 0 < n) (setup : Nat → List Act) (ops : List WOp) (hadv : ∀ i, AdvMono (e i))
    (hs : ∀ i, i < n → StopsFresh (setup i) ∨ ∀ t, Act.schedStop t ∉ setup i)
    (hnn : ∀ i, i < n → NonNegIntervals ((wrun e n setup ops).ranks i).st.trace)
    (next : Nat → Int)
    (hpend : ∀ i, i < n → headTick ((wrun e n setup ops).ranks i).st = some (next i))
    (hwait : ∀ i, i < n → ((wrun e n setup ops).ranks i).wait.isSome) :
    ∃ t, (∃ i, i < n ∧ next i = t) ∧ (∀ i, i < n → t ≤ next i) ∧
      ∀ i, i < n →
        (wrun e n setup (ops ++ [.reduce, .resume i])).log = (wrun e n setup ops).log ++ (if next i = t then [(i, Obs.start t)] else []) ∧
        ((wrun e n setup (ops ++ [.reduce, .resume i])).ranks i).st.phase = (if next i = t then .running else .idle) := by
  obtain ⟨L, h⟩ := wrun_inv e n setup ops hadv (fun i hi => fresh_synced (hs i hi)) hnn
  have hnext : ∀ i, i < n → ((wrun e n setup ops).ranks i).st.nextTick = next i := by
    intro i hi
    obtain ⟨v, hv⟩ := Option.isSome_iff_exists.1 (hwait i hi)
    have := (h.rank i hi).sync ((h.rank i hi).wait v hv).2.1
    rw [this, schedNextTick, hpend i hi]
    rfl
  have hw : ∀ i, i < n → ((wrun e n setup ops).ranks i).wait = some (next i) := by
    intro i hi
    obtain ⟨v, hv⟩ := Option.isSome_iff_exists.1 (hwait i hi)
    rw [hv, ((h.rank i hi).wait v hv).1, hnext i hi]
  obtain ⟨m, hm⟩ : ∃ m, (wrun e n setup ops).allreduce n = some m := by
    unfold World.allreduce
    rw [if_pos (by simpa using hwait)]
    cases hmm : (List.map (fun i => ((wrun e n setup ops).ranks i).wait.getD 0) (List.range n)).min? with
    | some m => exact ⟨m, rfl⟩
    | none =>
      have := List.min?_eq_none_iff.1 hmm
      simp at this; omega
  obtain ⟨ha, i0, hi0, hm0⟩ := allreduce_spec hm
  refine ⟨m, ⟨i0, hi0, ?_⟩, ?_, ?_⟩
  · rw [hw i0 hi0] at hm0; simpa using hm0
  · intro i hi
    obtain ⟨v, hv, hmv⟩ := ha i hi
    rw [hw i hi] at hv
    simp only [Option.some.injEq] at hv
    omega
  · intro i hi
    have er : wrun e n setup (ops ++ [.reduce, .resume i]) = wstep e n (wstep e n (wrun e n setup ops) .reduce) (.resume i) := by
      unfold wrun
      rw [List.filter_append, List.foldl_append]
      simp [hi]
    rw [er]
    have h1 : wstep e n (wrun e n setup ops) .reduce = { wrun e n setup ops with
        ranks := fun i => { (wrun e n setup ops).ranks i with wait := none, grant := some m } } := by
      simp only [wstep, hm]
    rw [h1]
    generalize wrun e n setup ops = w at *
    simp only [wstep, World.localStep, hnext i hi]
    obtain ⟨p1, p2⟩ := ((h.rank i hi).wait _ (hw i hi)).2
    by_cases hc : next i = m
    · simp only [hc, if_true]
      obtain ⟨ev, l, hq⟩ : ∃ ev l, (w.ranks i).st.queue = ev :: l := by
        have := hpend i hi
        unfold headTick at this
        cases hq : (w.ranks i).st.queue with
        | nil => rw [hq] at this; simp at this
        | cons ev l => exact ⟨ev, l, rfl⟩
      have hev : ev.at_ = m := by
        have := hpend i hi
        unfold headTick at this
        rw [hq] at this
        simp only [List.head?_cons, Option.map_some, Option.some.injEq] at this
        omega
      have e2 : (step (e i) (w.ranks i).st .enter).trace = (w.ranks i).st.trace ++ [Obs.start m] := by
        rw [step, if_pos ⟨p1, p2⟩, startExecute, hq]; simp only [hev]
      have e3 : (step (e i) (w.ranks i).st .enter).phase = .running := by
        rw [step, if_pos ⟨p1, p2⟩, startExecute, hq]
      exact ⟨by rw [e2]; simp, e3⟩
    · simp only [hc, if_false]
      have e2 : step (e i) (w.ranks i).st .skip = { (w.ranks i).st with nextTick := schedNextTick (w.ranks i).st } := by
        rw [step, if_pos ⟨p1, p2⟩]
      rw [e2]
      exact ⟨by simp, p1⟩

example : let w := wrun (fun _ => exEnv fun _ _ => []) 3 exSetup [.arrive 2, .arrive 0, .arrive 1]
    (∀ i, i < 3 → (w.ranks i).wait.isSome) ∧ (∀ i, i < 3 → headTick (w.ranks i).st = some ([2, 3, 4].getD i 0)) := by
  refine ⟨?_, ?_⟩
  · intro i hi
    match i, hi with
    | 0, _ | 1, _ | 2, _ => rfl
  · intro i hi
    match i, hi with
    | 0, _ | 1, _ | 2, _ => rfl

/-! ### Starvation -/

/-- The state of a rank when nothing can happen. -/
structure Stuck (j i : Nat) (r : Rank) : Prop where
  phase : r.st.phase ≠ .running
  tick : r.st.tick = startTick
  queue : ∀ ev ∈ r.st.queue, startTick < ev.at_
  sync : r.st.phase = .idle → Synced r.st
  empty : i = j → r.st.phase = .idle → r.st.queue = []
  wait : ∀ v, r.wait = some v → v = r.st.nextTick ∧ r.st.phase = .idle
  grant : ∀ m, r.grant = some m → m = noTick ∧ r.st.phase = .idle ∧ r.st.go = true
  go : r.wait ≠ none → r.st.go = true

theorem Stuck.local {j i : Nat} {e : Env} {r : Rank} (h : Stuck j i r) {op : Op} (hw : Within r.st (step e r.st op))
    (hp : (step e r.st op).phase ≠ .running) (hq : ∀ ev ∈ (step e r.st op).queue, startTick < ev.at_)
    (hs : (step e r.st op).phase = .idle → Synced (step e r.st op))
    (hm : i = j → (step e r.st op).phase = .idle → (step e r.st op).queue = []) : Stuck j i { st := step e r.st op } :=
  ⟨hp, hw.1.trans h.tick, hq, hs, hm, by simp, by simp, by simp⟩

/-- C13 is false when a rank has nothing scheduled: if a rank makes no scheduling call before `execute()`, then no rank ever executes
any event, whatever is scheduled elsewhere and however long the run. -/
theorem C13_starvation (e : Nat → Env) (n : Nat) (setup : Nat → List Act) (ops : List WOp)
    (hs : ∀ i, i < n → StopsFresh (setup i) ∨ ∀ t, Act.schedStop t ∉ setup i)
    (j : Nat) (hj : j < n) (hidle : ∀ a ∈ setup j, a = .stop ∨ (∃ x, a = .void x) ∨ ∃ l, a = .schedEnd l) :
    (wrun e n setup ops).times = [] := by
  suffices h : (wrun e n setup ops).times = [] ∧ ∀ i, i < n → Stuck j i ((wrun e n setup ops).ranks i) from h.1
  unfold wrun
  have hv : ∀ o ∈ ops.filter (fun o => match o with
    | .reduce => true
    | .arrive i | .resume i | .loop i | .leave i | .endEvt i => decide (i < n)), ∀ i, o.rank = some i → i < n := by
    intro o ho i hi
    have := (List.mem_filter.1 ho).2
    cases o <;> simp only [WOp.rank, Option.some.injEq, reduceCtorEq] at hi
    all_goals (subst hi; simpa using this)
  generalize ops.filter _ = ops at *
  induction ops using snoc_induction with
  | h0 =>
    refine ⟨rfl, fun i hi => ?_⟩
    have hp : ((setup i).foldl applyAct St.init).phase = .idle := foldl_applyAct_phase _ _
    refine ⟨?_, foldl_applyAct_tick _ _, ?_, fun _ => fresh_synced (hs i hi), ?_, by simp [World.init], by simp [World.init], by simp [World.init]⟩
    · simp only [List.foldl_nil, World.init, hp]; simp
    · intro ev hev
      rcases foldl_applyAct_queue _ _ ev hev with h | h
      · simp [St.init] at h
      · simpa [St.init] using h
    · rintro rfl _
      simp only [List.foldl_nil, World.init]
      have hq : St.init.queue = [] := rfl
      generalize St.init = s at hq
      generalize setup i = l at hidle
      induction l generalizing s with
      | nil => exact hq
      | cons a l ih =>
        refine ih _ ?_ (fun a ha => hidle a (List.mem_cons_of_mem _ ha))
        rcases hidle a (by simp) with rfl | ⟨x, rfl⟩ | ⟨x, rfl⟩ <;> exact hq
  | h1 ops o ih =>
    obtain ⟨iht, ihr⟩ := ih (fun o ho => hv o (List.mem_append_left _ ho))
    rw [List.foldl_append, List.foldl_cons, List.foldl_nil]
    generalize ops.foldl (wstep e n) (World.init setup) = w at *
    have loc : ∀ i, i < n → ∀ op, Within (w.ranks i).st (step (e i) (w.ranks i).st op) →
        (∀ o ∈ (step (e i) (w.ranks i).st op).trace.drop (w.ranks i).st.trace.length, ∀ ev now, o ≠ .ran ev now) →
        (step (e i) (w.ranks i).st op).phase ≠ .running → (∀ ev ∈ (step (e i) (w.ranks i).st op).queue, startTick < ev.at_) →
        ((step (e i) (w.ranks i).st op).phase = .idle → Synced (step (e i) (w.ranks i).st op)) →
        (i = j → (step (e i) (w.ranks i).st op).phase = .idle → (step (e i) (w.ranks i).st op).queue = []) →
        (w.localStep e i op).times = [] ∧ ∀ k, k < n → Stuck j k ((w.localStep e i op).ranks k) := by
      intro i hi op h1 h1' h2 h3 h4 h5
      refine ⟨?_, ?_⟩
      · obtain ⟨ht, tl, htl, hall⟩ := h1
        unfold World.localStep
        simp only [htl, List.drop_left] at h1' ⊢
        rw [times_append, iht, List.nil_append]
        unfold lclock
        rw [List.filterMap_eq_nil_iff]
        intro o ho
        have h6 := (hall o ho).1
        have h7 := h1' o ho
        cases o <;> simp
        · exact absurd rfl (h6 _)
        · exact absurd rfl (h7 _ _)
      · intro k hk
        by_cases hki : k = i
        · subst hki
          simp only [World.localStep, if_true]
          exact (ihr k hk).local h1 h2 h3 h4 h5
        · simp only [World.localStep, hki, if_false]; exact ihr k hk
    cases o with
    | arrive i =>
      have hi := hv (.arrive i) (by simp) i rfl
      simp only [wstep]
      split
      · rename_i hc
        refine ⟨iht, fun k hk => ?_⟩
        by_cases hki : k = i
        · subst hki
          simp only [if_true]
          have := ihr k hk
          refine ⟨this.phase, this.tick, this.queue, this.sync, this.empty, ?_, by simp [hc.2.2.2], fun _ => hc.2.1⟩
          intro v hv
          simp only [Option.some.injEq] at hv
          exact ⟨hv.symm, hc.1⟩
        · simp only [hki, if_false]; exact ihr k hk
      · exact ⟨iht, ihr⟩
    | reduce =>
      simp only [wstep]
      cases hall : w.allreduce n with
      | none => exact ⟨iht, ihr⟩
      | some m =>
        obtain ⟨ha, i0, hi0, hm0⟩ := allreduce_spec hall
        have hmn : m = noTick := by
          obtain ⟨v, hv, hmv⟩ := ha j hj
          obtain ⟨h1, h2⟩ := (ihr j hj).wait v hv
          have hvn : v = noTick := by
            rw [h1, (ihr j hj).sync h2, schedNextTick, headTick, (ihr j hj).empty rfl h2]; rfl
          obtain ⟨h3, h4⟩ := (ihr i0 hi0).wait m hm0
          rcases ((ihr i0 hi0).sync h4).head with ⟨_, hn⟩ | ⟨ev, l, hq, hn⟩
          · omega
          · have := (ihr i0 hi0).queue ev (by simp [hq])
            have := noTick_lt
            omega
        refine ⟨iht, fun k hk => ?_⟩
        have := ihr k hk
        obtain ⟨v, hv, _⟩ := ha k hk
        refine ⟨this.phase, this.tick, this.queue, this.sync, this.empty, by simp, ?_, by simp⟩
        intro m' hm'
        simp only [Option.some.injEq] at hm'
        exact ⟨hm' ▸ hmn, (this.wait v hv).2, this.go (by simp [hv])⟩
    | resume i =>
      have hi := hv (.resume i) (by simp) i rfl
      simp only [wstep]
      cases hg : (w.ranks i).grant with
      | none => exact ⟨iht, ihr⟩
      | some m =>
        simp only []
        have hr := ihr i hi
        obtain ⟨rfl, p1, p2⟩ := hr.grant m hg
        have hst : step (e i) (w.ranks i).st (if (w.ranks i).st.nextTick = noTick then .enter else .skip) =
            { (w.ranks i).st with nextTick := schedNextTick (w.ranks i).st } := by
          split
          · rename_i hn
            rw [step, if_pos ⟨p1, p2⟩]
            unfold startExecute
            rcases (hr.sync p1).head with ⟨hq, _⟩ | ⟨ev, l, hq, hn'⟩
            · split
              · rfl
              · rename_i h; rw [hq] at h; cases h
            · have := hr.queue ev (by simp [hq])
              have := noTick_lt
              omega
          · rw [step, if_pos ⟨p1, p2⟩]
        apply loc i hi
        · rw [hst]; exact .of_eq rfl rfl
        · rw [hst]; simp
        · rw [hst]; exact hr.phase
        · rw [hst]; exact hr.queue
        · rw [hst]; intro _; rfl
        · rw [hst]; exact hr.empty
    | loop i =>
      have hi := hv (.loop i) (by simp) i rfl
      simp only [wstep]
      rw [if_neg (ihr i hi).phase]
      exact ⟨iht, ihr⟩
    | leave i =>
      have hi := hv (.leave i) (by simp) i rfl
      simp only [wstep]
      split
      · rename_i hc
        have hst : step (e i) (w.ranks i).st .leave = { (w.ranks i).st with phase := .ending 0 } := by rw [step, if_pos hc]
        apply loc i hi
        · rw [hst]; exact .of_eq rfl rfl
        · rw [hst]; simp
        · rw [hst]; simp
        · rw [hst]; exact (ihr i hi).queue
        · rw [hst]; simp
        · rw [hst]; simp
      · exact ⟨iht, ihr⟩
    | endEvt i =>
      have hi := hv (.endEvt i) (by simp) i rfl
      simp only [wstep]
      split
      · rename_i k hp
        have hr := ihr i hi
        have hph : (step (e i) (w.ranks i).st .endEvt).phase ≠ .running ∧ (step (e i) (w.ranks i).st .endEvt).phase ≠ .idle := by
          simp only [step, hp]
          split
          · simp
          · split
            · simp
            · rw [foldl_applyAct_phase]; simp
        apply loc i hi .endEvt (within_endEvt _ _) ?_ hph.1 ?_ (fun h => absurd h hph.2) (fun _ h => absurd h hph.2)
        · intro o ho ev now
          simp only [step, hp] at ho
          split at ho
          · simp at ho
          · split at ho
            · simp at ho
            · rename_i id l _ _
              obtain ⟨tl, t1, t2, t3, -⟩ := foldl_applyAct_facts ((e i).endProg ((w.ranks i).st.trace ++ [.ranEnd id l]) l)
                { (w.ranks i).st with phase := .ending (k+1), trace := (w.ranks i).st.trace ++ [.ranEnd id l] }
              rw [t1] at ho
              simp only [List.append_assoc, List.drop_left] at ho
              rcases List.mem_append.1 ho with ho | ho
              · simp only [List.mem_singleton] at ho; subst ho; simp
              · exact t2 o ho ev now
        · simp only [step, hp]
          split
          · exact hr.queue
          · split
            · exact hr.queue
            · intro ev hev
              rcases foldl_applyAct_queue _ _ ev hev with h | h
              · exact hr.queue ev h
              · simp only [hr.tick] at h; exact h
      · exact ⟨iht, ihr⟩

/-- rank 0 has an event at tick 1, rank 1 has nothing: the event is never executed -/
example : (wrun (fun _ => exEnv fun _ _ => []) 2 (fun i => if i = 0 then [one 1] else [.schedEnd 0])
    [.arrive 0, .arrive 1, .reduce, .resume 0, .resume 1, .loop 0, .arrive 0, .arrive 1, .reduce, .resume 0]).times = [] := by
  decide +kernel

end Repast.Schedule
