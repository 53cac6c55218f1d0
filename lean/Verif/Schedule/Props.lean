import Verif.Schedule.Dead
import Verif.Schedule.Examples

/-!
Properties C01–C06 and C08–C11 of the scheduler. `run e ops` is the state of a process after an arbitrary history `ops`
(API calls from outside, steps of the main loop) in an arbitrary environment `e` (callbacks, random generator, float
addition); `.trace` is everything observable that happened. The vocabulary is in `Spec.lean`.
-/
namespace Repast.Schedule

/-! ### Example histories -/

/-- A history with a repeating event, one-time events of all kinds, a same-tick addition and a void. -/
def exProg : List Obs → Ev → List Act := fun _ ev =>
  if ev.cb = .user 7 then [one 5 .last none 8, .void 0] else if ev.cb = .user 9 then [.stop] else []

def exOps : List Op :=
  [.act (rep 1 2 .first none 1), .act (one 5 .random none 7), .act (one 5 .byPriority (some 2) 2), .act (one 5 .byPriority (some 1) 3),
   .act (one 5 .last none 4), .act (one 5 .first none 5), .act (one 6 .first none 9), .act (.schedEnd 1), .act (.schedEnd 2),
   .enter, .loop, .loop, .enter, .loop, .loop, .enter, .loop, .loop, .loop, .act (one 2), .enter, .loop, .loop, .leave, .endEvt, .endEvt, .endEvt]

def exTrace : List Obs := (run (exEnv exProg) exOps).trace

example : runs exTrace = [(0, 1), (0, 3), (0, 5), (5, 5), (3, 5), (2, 5), (1, 5), (4, 5), (9, 5), (6, 6)] := by decide +kernel
example : ranEnds exTrace = [(7, 1), (8, 2)] := by decide +kernel

/-! ### C01 Simulated time never goes backwards -/

/-- The ticks observed (`tick()` when a tick starts, when a callable runs and when an event is accepted) never decrease,
as long as repeating events have non-negative intervals. -/
theorem C01_time_monotone (e : Env) (ops : List Op) (hadv : AdvMono e) (hnn : NonNegIntervals (run e ops).trace) :
    (clock (run e ops).trace).Pairwise (· ≤ ·) ∧ (starts (run e ops).trace).Pairwise (· ≤ ·) ∧
    ∀ c ∈ clock (run e ops).trace, c ≤ (run e ops).tick := by
  have hm := run_mono e ops hadv hnn
  have hc := run_clock e ops
  refine ⟨(List.pairwise_cons.1 (hc.sorted hm.starts)).2, (List.pairwise_cons.1 hm.starts).2, ?_⟩
  intro c hcm
  exact hc.le hm.starts c (List.mem_cons_of_mem _ hcm)

example : AdvMono (exEnv exProg) ∧ NonNegIntervals exTrace ∧ clock exTrace ≠ [] := by
  refine ⟨fun t i h => by simp only [exEnv]; omega, ?_, by decide +kernel⟩
  have : ∀ ev ∈ scheds exTrace, 0 ≤ ev.interval.getD 0 := by decide +kernel
  intro ev now d i hm hi
  have := this _ (mem_scheds.2 ⟨_, _, hm⟩)
  simpa [hi] using this

/-- `tick()` while an event's callable runs is the tick the event is for, and it is the tick that was last started. -/
theorem C01_runs_at_own_tick (e : Env) (ops : List Op) (j : Nat) (ev : Ev) (now : Int)
    (h : (run e ops).trace[j]? = some (Obs.ran ev now)) :
    now = ev.at_ ∧ (startTick :: starts ((run e ops).trace.take j)).getLast? = some now := by
  have hi := run_inv e ops
  have hmem := List.mem_of_getElem? h
  refine ⟨?_, run_nowTick e ops j now (Or.inl ⟨ev, h⟩)⟩
  obtain ⟨a, n, d, hs, hid⟩ := hi.ranSrc ev now hmem
  obtain ⟨k, hk⟩ := hi.track a n d hs
  have hm : (ev, now) ∈ runsOf a.id (run e ops).trace := mem_runsOf.2 ⟨hmem, hid⟩
  rw [hk.runs, List.mem_map] at hm
  obtain ⟨i, -, hi⟩ := hm
  simp only [Prod.mk.injEq] at hi
  rw [← hi.1, ← hi.2]
  rfl

example : exTrace[17]? = some (Obs.ran ⟨2, 5, 2, .byPriority, some 2, none, .user 2, none⟩ 5) := by decide +kernel

/-- The hypothesis on intervals is needed: with a negative interval time does go backwards. -/
theorem C01_negative_interval : ∃ ops, ¬ (starts (run (exEnv fun _ _ => []) ops).trace).Pairwise (· ≤ ·) :=
  ⟨[.act (rep 5 (-2)), .enter, .loop, .loop, .enter], by decide +kernel⟩

/-! ### C02 One-time events run exactly once, at their tick -/

theorem headTick_le {e : Env} {fl s} (hi : Inv e fl s) {x : Ev} (hx : x ∈ s.queue) : ∃ t, headTick s = some t ∧ t ≤ x.at_ := by
  have hsort := hi.sorted
  unfold headTick
  cases hq : s.queue with
  | nil => rw [hq] at hx; simp at hx
  | cons y ys =>
    rw [hq] at hx hsort
    refine ⟨y.at_, rfl, ?_⟩
    rcases List.mem_cons.1 hx with rfl | hx
    · exact Int.le_refl _
    · exact sorted_head_le hsort x hx

/-- An accepted one-time event (for a future tick, or scheduled by a running event) that is not voided has, whenever no
tick is being executed, either run exactly once, at its tick, or not run at all; and then its tick is still in the future
and the schedule's next tick is not after it. -/
theorem C02_one_time (e : Env) (ops : List Op) (ev : Ev) (now : Int) (d : Bool)
    (hs : Obs.sched ev now d ∈ (run e ops).trace) (h1 : ev.interval = none) (hacc : now < ev.at_ ∨ d = true)
    (hv : ¬ IsVoided ev.id (run e ops).trace) (hidle : (run e ops).phase ≠ .running) :
    runsOf ev.id (run e ops).trace = [(ev, ev.at_)] ∨
    (runsOf ev.id (run e ops).trace = [] ∧ (run e ops).tick < ev.at_ ∧
      ∃ t, headTick (run e ops) = some t ∧ t ≤ ev.at_) := by
  have hi := run_inv e ops
  obtain ⟨k, hk⟩ := hi.track ev now d hs
  have hnv : ev.id ∉ (run e ops).voided := fun h => hv (((run_facts e ops).voided _).1 h)
  cases hk.status with
  | queued q1 q2 q3 q4 =>
    have hk0 := q3 h1
    subst hk0
    right
    refine ⟨by rw [hk.runs]; rfl, q4.2 (Or.inl rfl), ?_⟩
    exact headTick_le hi (x := ev) (mem_sel.1 (by rw [q1]; simp : ev ∈ sel ev.id (run e ops).queue)).1
  | grouped _ _ _ _ g5 =>
    obtain ⟨p1, p2, -⟩ := g5 hidle
    rcases hacc with h | h
    · omega
    · rw [h] at p2; simp at p2
  | flying j _ _ _ h4 => simp at h4
  | gone _ _ g3 =>
    rcases g3 with g3 | ⟨-, rfl⟩ | ⟨g3, g4, -⟩
    · exact absurd g3.1 hnv
    · left; rw [hk.runs]; rfl
    · rcases hacc with h | h
      · omega
      · rw [h] at g4; simp at g4

/-- At any moment, also in the middle of a tick, a one-time event has run at most once, and only at its tick. -/
theorem C02_at_most_once (e : Env) (ops : List Op) (ev : Ev) (now : Int) (d : Bool)
    (hs : Obs.sched ev now d ∈ (run e ops).trace) (h1 : ev.interval = none) :
    runsOf ev.id (run e ops).trace = [] ∨ runsOf ev.id (run e ops).trace = [(ev, ev.at_)] := by
  obtain ⟨k, hk⟩ := (run_inv e ops).track ev now d hs
  have hone : k ≤ 1 := by
    cases hk.status with
    | queued _ _ q3 _ => have := q3 h1; omega
    | grouped _ _ g3 _ _ => have := g3 h1; omega
    | flying j _ _ _ h4 => simp at h4
    | gone _ _ g3 =>
      rcases g3 with g3 | g3 | g3
      · exact g3.2 h1
      · omega
      · omega
  match k, hone with
  | 0, _ => left; rw [hk.runs]; rfl
  | 1, _ => right; rw [hk.runs]; rfl

/-- Every callable invocation is that of an accepted event. -/
theorem C02_nothing_else (e : Env) (ops : List Op) (ev : Ev) (now : Int) (h : Obs.ran ev now ∈ (run e ops).trace) :
    ∃ a n d, Obs.sched a n d ∈ (run e ops).trace ∧ a.id = ev.id ∧ ev = { a with at_ := ev.at_ } := by
  have hi := run_inv e ops
  obtain ⟨a, n, d, hs, hid⟩ := hi.ranSrc ev now h
  obtain ⟨k, hk⟩ := hi.track a n d hs
  have hm : (ev, now) ∈ runsOf a.id (run e ops).trace := mem_runsOf.2 ⟨h, hid⟩
  rw [hk.runs, List.mem_map] at hm
  obtain ⟨i, -, hi⟩ := hm
  simp only [Prod.mk.injEq] at hi
  exact ⟨a, n, d, hs, hid.symm, by rw [← hi.1]; rfl⟩

example : Obs.sched ⟨2, 5, 2, .byPriority, some 2, none, .user 2, none⟩ startTick false ∈ exTrace ∧ ¬ IsVoided 2 exTrace ∧
    (run (exEnv exProg) exOps).phase ≠ .running ∧ startTick < (5 : Int) := by
  unfold IsVoided; decide +kernel

/-! ### C03 Repeating events -/

/-- At every moment a repeating event has run at its first `k` occurrences, in order, for some `k`. Whenever no tick is
being executed and it is not voided, occurrence `k` is pending, exactly once; the schedule's next tick is not after it; and
it is in the future unless adding the interval did not advance time. -/
theorem C03_repeating (e : Env) (ops : List Op) (ev : Ev) (now i : Int) (d : Bool)
    (hs : Obs.sched ev now d ∈ (run e ops).trace) (hint : ev.interval = some i) :
    ∃ k, runsOf ev.id (run e ops).trace = (List.range k).map (fun n => ({ ev with at_ := occ e ev n }, occ e ev n)) ∧
      ((now < ev.at_ ∨ d = true) → ¬ IsVoided ev.id (run e ops).trace → (run e ops).phase ≠ .running →
        (run e ops).queue.filter (fun x => x.id == ev.id) = [{ ev with at_ := occ e ev k }] ∧
        (∃ t, headTick (run e ops) = some t ∧ t ≤ occ e ev k) ∧
        (k = 0 ∨ occ e ev (k-1) < occ e ev k → (run e ops).tick < occ e ev k)) := by
  have hi := run_inv e ops
  obtain ⟨k, hk⟩ := hi.track ev now d hs
  refine ⟨k, hk.runs, fun hacc hv hidle => ?_⟩
  have hnv : ev.id ∉ (run e ops).voided := fun h => hv (((run_facts e ops).voided _).1 h)
  cases hk.status with
  | queued q1 q2 q3 q4 =>
    refine ⟨q1, ?_, q4.2⟩
    exact headTick_le hi (x := nth e ev k) (mem_sel.1 (by rw [q1]; simp : nth e ev k ∈ sel ev.id (run e ops).queue)).1
  | grouped _ _ _ _ g5 =>
    obtain ⟨p1, p2, -⟩ := g5 hidle
    rcases hacc with h | h
    · omega
    · rw [h] at p2; simp at p2
  | flying j _ _ _ h4 => simp at h4
  | gone _ _ g3 =>
    rcases g3 with g3 | ⟨g3, -⟩ | ⟨g3, g4, -⟩
    · exact absurd g3.1 hnv
    · rw [hint] at g3; simp at g3
    · rcases hacc with h | h
      · omega
      · rw [h] at g4; simp at g4

theorem lt_of_step {f : Nat → Int} (h : ∀ n, f n < f (n+1)) : ∀ {m n}, m < n → f m < f n := by
  intro m n hmn
  induction n with
  | zero => omega
  | succ n ih =>
    by_cases hm : m = n
    · subst hm; exact h m
    · have := ih (by omega); have := h n; omega

/-- If each occurrence is later than the one before, then between ticks all occurrences up to the current tick have run
and no later one has. -/
theorem C03_all_due (e : Env) (ops : List Op) (ev : Ev) (now i : Int) (d : Bool)
    (hs : Obs.sched ev now d ∈ (run e ops).trace) (hint : ev.interval = some i) (hacc : now < ev.at_ ∨ d = true)
    (hv : ¬ IsVoided ev.id (run e ops).trace) (hidle : (run e ops).phase ≠ .running)
    (hinc : ∀ n, occ e ev n < occ e ev (n+1)) :
    ∃ k, runsOf ev.id (run e ops).trace = (List.range k).map (fun n => ({ ev with at_ := occ e ev n }, occ e ev n)) ∧
      ∀ n, occ e ev n ≤ (run e ops).tick → n < k := by
  obtain ⟨k, h1, h2⟩ := C03_repeating e ops ev now i d hs hint
  obtain ⟨-, -, h3⟩ := h2 hacc hv hidle
  refine ⟨k, h1, fun n hn => ?_⟩
  have htk : (run e ops).tick < occ e ev k := by
    apply h3
    cases k with
    | zero => exact Or.inl rfl
    | succ k => exact Or.inr (hinc k)
  apply Nat.lt_of_not_le
  intro hle
  rcases Nat.lt_or_eq_of_le hle with h | h
  · have := lt_of_step hinc h; omega
  · subst h; omega

/-- When addition is exact the occurrences are the arithmetic progression. -/
theorem occ_exact (e : Env) (hadd : ∀ a b, e.adv a b = a + b) (ev : Ev) (i : Int) (hint : ev.interval = some i) (k : Nat) :
    occ e ev k = ev.at_ + k * i := by
  induction k with
  | zero => simp [occ]
  | succ k ih => simp only [occ, hint, hadd, ih]; rw [Int.natCast_succ, Int.add_mul]; omega

example : Obs.sched ⟨0, 1, 0, .first, none, some 2, .user 1, none⟩ startTick false ∈
    (run (exEnv exProg) (exOps.take 15)).trace ∧ ¬ IsVoided 0 (run (exEnv exProg) (exOps.take 15)).trace ∧
    (run (exEnv exProg) (exOps.take 15)).phase = .idle ∧
    runsOf 0 (run (exEnv exProg) (exOps.take 15)).trace =
      [(⟨0, 1, 0, .first, none, some 2, .user 1, none⟩, 1), (⟨0, 3, 0, .first, none, some 2, .user 1, none⟩, 3)] := by
  unfold IsVoided; decide +kernel

example : ∀ n, occ (exEnv exProg) ⟨0, 1, 0, .first, none, some 2, .user 1, none⟩ n <
    occ (exEnv exProg) ⟨0, 1, 0, .first, none, some 2, .user 1, none⟩ (n+1) := by
  intro n
  rw [occ_exact _ (fun _ _ => rfl) _ 2 rfl, occ_exact _ (fun _ _ => rfl) _ 2 rfl]
  simp only []
  omega

/-! ### C04 Events scheduled in the past are ignored -/

/-- Scheduling an event for a tick before the current one (or for NaN) changes nothing but the history and the supply of
event identities (`next_tick` is re-read from the unchanged queue). -/
theorem C04_no_effect (s : St) (at_ : Option Int) (ptype : PType) (prio interval : Option Int) (label : Nat) (tag : Option Nat)
    (hpast : ∀ t, at_ = some t → t < s.tick) :
    applyAct s (.sched at_ ptype prio interval label tag) =
      { s with nextId := s.nextId + 1, trace := s.trace ++ [.ignored s.nextId], nextTick := schedNextTick s } := by
  cases at_ with
  | none => rfl
  | some t =>
    have : ¬ s.tick ≤ t := by have := hpast t rfl; omega
    simp only [applyAct, pushEvent, this, if_false]
    rfl

/-- The same for `schedule_stop`. -/
theorem C04_no_effect_stop (s : St) (at_ : Option Int) (hpast : ∀ t, at_ = some t → t < s.tick) :
    applyAct s (.schedStop at_) = { s with nextId := s.nextId + 1, trace := s.trace ++ [.ignored s.nextId] } := by
  cases at_ with
  | none => rfl
  | some t =>
    have : ¬ s.tick ≤ t := by have := hpast t rfl; omega
    simp only [applyAct, pushEvent, this, if_false]

/-- The callable of an ignored event is never invoked, whatever happens later. -/
theorem C04_never_runs (e : Env) (ops : List Op) (x : Nat) (h : Obs.ignored x ∈ (run e ops).trace) :
    runsOf x (run e ops).trace = [] :=
  (run_doomed e ops x (Or.inl h)).runs

/-- Accepted events are never in the past. -/
theorem C04_accepted_not_past (e : Env) (ops : List Op) (ev : Ev) (now : Int) (d : Bool)
    (h : Obs.sched ev now d ∈ (run e ops).trace) : now ≤ ev.at_ := (run_inv e ops).nowLe ev now d h

example : Obs.ignored 10 ∈ exTrace := by decide +kernel
example : (run (exEnv exProg) (exOps.take 20)).tick = 5 ∧ ∀ t, some (2 : Int) = some t → t < 5 :=
  ⟨by decide +kernel, by simp⟩

/-! ### C05 FIRST, then RANDOM and BY_PRIORITY, then LAST -/

theorem scheduledEarlier_of_ord {e : Env} {s : St} (hi : Inv e none s) {a b : Ev} {na nb : Int}
    (ha : Obs.ran a na ∈ s.trace) (hb : Obs.ran b nb ∈ s.trace) (h : a.ord < b.ord) : ScheduledEarlier s.trace a.id b.id := by
  have src : ∀ {x : Ev} {n : Int}, Obs.ran x n ∈ s.trace → ∃ x0 n0 d0, Obs.sched x0 n0 d0 ∈ s.trace ∧ x.id = x0.id ∧ x.ord = x0.ord := by
    intro x n hx
    obtain ⟨x0, n0, d0, hs, hid⟩ := hi.ranSrc x n hx
    obtain ⟨k, hk⟩ := hi.track x0 n0 d0 hs
    have hm : (x, n) ∈ runsOf x0.id s.trace := mem_runsOf.2 ⟨hx, hid⟩
    rw [hk.runs, List.mem_map] at hm
    obtain ⟨i, -, hi⟩ := hm
    simp only [Prod.mk.injEq] at hi
    exact ⟨x0, n0, d0, hs, hid, by rw [← hi.1]; rfl⟩
  obtain ⟨a0, n1, d1, hs1, hid1, ho1⟩ := src ha
  obtain ⟨b0, n2, d2, hs2, hid2, ho2⟩ := src hb
  obtain ⟨i, hil, hie⟩ := List.getElem_of_mem hs1
  obtain ⟨j, hjl, hje⟩ := List.getElem_of_mem hs2
  refine ⟨i, j, a0, b0, n1, n2, d1, d2, ?_, by rw [List.getElem?_eq_getElem hil, hie], by rw [List.getElem?_eq_getElem hjl, hje],
    hid1.symm, hid2.symm⟩
  apply Nat.lt_of_not_le
  intro hle
  have hne : j ≠ i := by
    rintro rfl
    rw [hie] at hje
    simp only [Obs.sched.injEq] at hje
    rw [hje.1] at ho1
    omega
  have hu := hi.uniq
  unfold scheds at hu
  rw [List.pairwise_filterMap] at hu
  have hr := List.pairwise_iff_getElem.1 hu j i hjl hil (by omega) b0 (by rw [hje]) a0 (by rw [hie])
  omega

/-- Two events that run in the same tick, the later one already scheduled when the earlier one runs: no FIRST event after a
RANDOM, BY_PRIORITY or LAST one, no RANDOM or BY_PRIORITY after a LAST one, and two FIRST (or two LAST) events in the order in
which they were scheduled. -/
theorem C05_class_order (e : Env) (ops : List Op) (i j : Nat) (a b : Ev) (na nb : Int) (hij : i < j)
    (ha : (run e ops).trace[i]? = some (.ran a na)) (hb : (run e ops).trace[j]? = some (.ran b nb))
    (hsame : NoStart (run e ops).trace i j) (hknown : SchedBefore (run e ops).trace b.id i) :
    (b.ptype = .first → a.ptype = .first) ∧ (a.ptype = .last → b.ptype = .last) ∧
    (a.ptype = .first → b.ptype = .first → ScheduledEarlier (run e ops).trace a.id b.id) ∧
    (a.ptype = .last → b.ptype = .last → ScheduledEarlier (run e ops).trace a.id b.id) := by
  have h := (run_full e ops).cls.done i j a b na nb hij ha hb hsame hknown trivial
  obtain ⟨h1, h2, h3, h4⟩ := h
  have hse := fun h => scheduledEarlier_of_ord (run_inv e ops) (List.mem_of_getElem? ha) (List.mem_of_getElem? hb) h
  exact ⟨h1, h2, fun x y => hse (h3 x y), fun x y => hse (h4 x y)⟩

/-- The events not known when the earlier one ran are the ones added by callbacks in between: in a tick in which no callback
adds an event for that very tick the order holds without that hypothesis. -/
theorem C05_known (e : Env) (ops : List Op) (i j : Nat) (a b : Ev) (na nb : Int)
    (_ha : (run e ops).trace[i]? = some (.ran a na)) (hb : (run e ops).trace[j]? = some (.ran b nb)) :
    SchedBefore (run e ops).trace b.id i ∨ ∃ k ev n d, i ≤ k ∧ k < j ∧ (run e ops).trace[k]? = some (.sched ev n d) ∧ ev.id = b.id := by
  obtain ⟨b0, n, d, hs, hid⟩ := (run_inv e ops).ranSrc b nb (List.mem_of_getElem? hb)
  obtain ⟨k, hkl, hke⟩ := List.getElem_of_mem hs
  have hjl := (List.getElem?_eq_some_iff.1 hb).1
  have hke' : (run e ops).trace[k]? = some (.sched b0 n d) := by rw [List.getElem?_eq_getElem hkl, hke]
  have hkj : k < j := by
    apply Nat.lt_of_not_le
    intro hle
    have hne : j ≠ k := by rintro rfl; rw [hb] at hke'; simp at hke'
    have hr := List.pairwise_iff_getElem.1 (run_causal e ops).rel j k hjl hkl (by omega)
    have hb' := hb
    rw [List.getElem?_eq_getElem hjl] at hb'
    simp only [Option.some.injEq] at hb'
    simp only [St.view, hb', hke, Rel2] at hr
    exact hr hid
  by_cases h : k < i
  · exact Or.inl ⟨k, b0, n, d, h, hke', hid.symm⟩
  · exact Or.inr ⟨k, b0, n, d, by omega, hkj, hke', hid.symm⟩

example : (exTrace.drop 13).take 9 = [
    Obs.start 5, .ran ⟨0, 5, 0, .first, none, some 2, .user 1, none⟩ 5, .ran ⟨5, 5, 5, .first, none, none, .user 5, none⟩ 5,
    .ran ⟨3, 5, 3, .byPriority, some 1, none, .user 3, none⟩ 5, .ran ⟨2, 5, 2, .byPriority, some 2, none, .user 2, none⟩ 5,
    .ran ⟨1, 5, 1, .random, none, none, .user 7, none⟩ 5, .sched ⟨9, 5, 7, .last, none, none, .user 8, none⟩ 5 true, .voided 0,
    .ran ⟨4, 5, 4, .last, none, none, .user 4, none⟩ 5] := by decide +kernel

/-! ### C06 BY_PRIORITY order -/

/-- Two BY_PRIORITY events that run in the same tick run in order of priority, equal priorities in scheduling order,
whatever RANDOM events are in between: provided that (the later one was known when the earlier one ran and) either no
callback has added an event to the running tick, or no RANDOM or BY_PRIORITY event has a NaN priority.
Missing: after an interruption with RANDOM events (whose priority is NaN) left over the order can be violated, see
`C06_violation`. -/
theorem C06_priority_order_partial (e : Env) (ops : List Op) (i j : Nat) (a b : Ev) (na nb p q : Int) (hij : i < j)
    (ha : (run e ops).trace[i]? = some (.ran a na)) (hb : (run e ops).trace[j]? = some (.ran b nb))
    (hsame : NoStart (run e ops).trace i j) (hknown : SchedBefore (run e ops).trace b.id i)
    (hpr : Prioritized ((run e ops).trace.take j)) (hok : Clean ((run e ops).trace.take j) ∨ NoNaN ((run e ops).trace.take j))
    (hpa : a.ptype = .byPriority) (hpb : b.ptype = .byPriority) (hp : a.prio = some p) (hq : b.prio = some q) :
    p < q ∨ (p = q ∧ ScheduledEarlier (run e ops).trace a.id b.id) := by
  have h := (run_full e ops).pri.done i j a b na nb hij ha hb hsame hknown ⟨hpr, hok⟩ hpa hpb p q hp hq
  rcases h with h | ⟨h1, h2⟩
  · exact Or.inl h
  · exact Or.inr ⟨h1, scheduledEarlier_of_ord (run_inv e ops) (List.mem_of_getElem? ha) (List.mem_of_getElem? hb) h2⟩

/-- The hypotheses are met by positions 16 and 17 of the example history. -/
example : exTrace[16]? = some (.ran ⟨3, 5, 3, .byPriority, some 1, none, .user 3, none⟩ 5) ∧
    exTrace[17]? = some (.ran ⟨2, 5, 2, .byPriority, some 2, none, .user 2, none⟩ 5) ∧
    NoStart exTrace 16 17 ∧ SchedBefore exTrace 2 16 ∧ Prioritized (exTrace.take 17) ∧ Clean (exTrace.take 17) := by
  refine ⟨by decide +kernel, by decide +kernel, fun k t h1 h2 => by omega,
    ⟨2, ⟨2, 5, 2, .byPriority, some 2, none, .user 2, none⟩, startTick, false, by decide, by decide +kernel, rfl⟩, ?_, ?_⟩
  · have h : ∀ ev ∈ scheds (exTrace.take 17), ev.ptype = .byPriority → ev.prio.isSome = true := by decide +kernel
    exact fun ev now d hm => h ev (mem_scheds.2 ⟨_, _, hm⟩)
  · have h : ((exTrace.take 17).all fun o => match o with | .sched _ _ d => !d | _ => true) = true := by decide +kernel
    intro i ev now hi
    have := List.all_eq_true.1 h _ (List.mem_of_getElem? hi)
    simp at this

/-- The RANDOM event 2 (NaN) between the BY_PRIORITY events 1 (priority 3) and 3 (priority 2) in scheduling order; the
BY_PRIORITY event 0 (priority 1) runs first and adds event 4 to the tick. -/
def c06Ops : List Op :=
  [.act (one 5 .byPriority (some 1) 1), .act (one 5 .byPriority (some 3) 2), .act (one 5 .random none 3), .act (one 5 .byPriority (some 2) 4),
   .enter, .loop, .loop, .loop]

def c06Env : Env := exEnv fun _ ev => if ev.cb = .user 1 then [one 5 .last none 9] else []

/-- The code violates the property: in this history the event with priority 3 runs before the one with priority 2. -/
theorem C06_violation : (run c06Env c06Ops).trace[7]? = some (.ran ⟨1, 5, 1, .byPriority, some 3, none, .user 2, none⟩ 5) ∧
    (run c06Env c06Ops).trace[9]? = some (.ran ⟨3, 5, 3, .byPriority, some 2, none, .user 4, none⟩ 5) ∧
    NoStart (run c06Env c06Ops).trace 7 9 ∧ SchedBefore (run c06Env c06Ops).trace 3 7 := by
  refine ⟨by decide +kernel, by decide +kernel, ?_, ⟨3, ⟨3, 5, 3, .byPriority, some 2, none, .user 4, none⟩, startTick, false, by decide, by decide +kernel, rfl⟩⟩
  intro k t h1 h2
  have : k = 8 := by omega
  subst this
  have : (run c06Env c06Ops).trace[8]? = some (.ran ⟨2, 5, 2, .random, none, none, .user 3, none⟩ 5) := by decide +kernel
  simp [this]

/-- The violation does not depend on how the environment of `C06_violation` sorts: no element of the list to be sorted is
smaller than its predecessor, so every sort that does not move such elements leaves the list alone. -/
theorem C06_sort_forced (e : Env) (a b c : Ev) (p q : Int) (_ : a.prio = some p) (hb : b.prio = none) (_ : c.prio = some q) :
    e.psort [a, b, c] = [a, b, c] := by
  apply e.psort_run
  intro i x y p q h1 h2 hp hq
  match i with
  | 0 => simp at h1 h2; subst h1 h2; simp [hb] at hq
  | 1 => simp at h1 h2; subst h1 h2; simp [hb] at hp
  | (i+2) => simp at h2

/-! ### C08 Same-tick additions -/

/-- An event that a running event schedules for the current tick has run by the time the tick is over: after it was
scheduled, at that tick, and before the next tick started. -/
theorem C08_same_tick (e : Env) (ops : List Op) (i : Nat) (ev : Ev) (now : Int)
    (hs : (run e ops).trace[i]? = some (.sched ev now true)) (hat : ev.at_ = now)
    (hv : ¬ IsVoided ev.id (run e ops).trace) (hidle : (run e ops).phase ≠ .running) :
    ∃ j, i < j ∧ (run e ops).trace[j]? = some (.ran ev now) ∧ NoStart (run e ops).trace i j := by
  obtain ⟨hc, h⟩ := run_causal' e ops
  exact h.idle (run_inv e ops) hc hidle hs hat (fun h => hv (((run_facts e ops).voided _).1 h))

example : exTrace[19]? = some (.sched ⟨9, 5, 7, .last, none, none, .user 8, none⟩ 5 true) := by decide +kernel

/-! ### C09 Voided events never run -/

/-- Once `void()` has been called on an event (or end event) its callable is not invoked any more. -/
theorem C09_voided_never_runs (e : Env) (ops : List Op) (i j x : Nat) (hij : i < j)
    (hv : (run e ops).trace[i]? = some (.voided x)) :
    (∀ ev now, (run e ops).trace[j]? = some (.ran ev now) → ev.id ≠ x) ∧
    (∀ id l, (run e ops).trace[j]? = some (.ranEnd id l) → id ≠ x) := by
  have key : ∀ o, (run e ops).trace[j]? = some o → Rel (.voided x) o := by
    intro o ho
    have hil := (List.getElem?_eq_some_iff.1 hv)
    have hjl := (List.getElem?_eq_some_iff.1 ho)
    have hr := List.pairwise_iff_getElem.1 (run_facts e ops).rel i j hil.1 hjl.1 hij
    simp only [St.view, hil.2, hjl.2] at hr
    exact hr
  exact ⟨fun ev now h => key _ h, fun id l h => key _ h⟩

/-- A voided repeating event is not re-scheduled: `reschedule` does nothing. -/
theorem C09_not_rescheduled (e : Env) (s : St) (ev : Ev) (hv : ev.id ∈ s.voided) : rescheduleEv e s ev = s := by
  unfold rescheduleEv
  split
  · rfl
  · rw [if_pos hv]

example : exTrace[20]? = some (.voided 0) ∧ exTrace[21]? = some (.ran ⟨4, 5, 4, .last, none, none, .user 4, none⟩ 5) := by
  decide +kernel

/-! ### C10 No accepted event is dropped -/

/-- Every accepted event (one-time or repeating) that is for a future tick or scheduled by a running event, and not voided:
whenever no tick is being executed, it has run at its occurrences so far and either it is a one-time event that has run or
its next occurrence is pending and the next tick to be executed is not after it.
Missing: an event accepted for the current tick outside execution is dropped, see `C10_dropped`. -/
theorem C10_never_dropped_partial (e : Env) (ops : List Op) (ev : Ev) (now : Int) (d : Bool)
    (hs : Obs.sched ev now d ∈ (run e ops).trace) (hacc : now < ev.at_ ∨ d = true)
    (hv : ¬ IsVoided ev.id (run e ops).trace) (hidle : (run e ops).phase ≠ .running) :
    ∃ k, runsOf ev.id (run e ops).trace = (List.range k).map (fun n => ({ ev with at_ := occ e ev n }, occ e ev n)) ∧
      ((ev.interval = none ∧ k = 1) ∨ ∃ t, headTick (run e ops) = some t ∧ t ≤ occ e ev k) := by
  rcases Option.eq_none_or_eq_some ev.interval with hint | ⟨i, hint⟩
  · rcases C02_one_time e ops ev now d hs hint hacc hv hidle with h | ⟨h, -, h2⟩
    · exact ⟨1, by rw [h]; simp [occ], Or.inl ⟨hint, rfl⟩⟩
    · exact ⟨0, by rw [h]; simp, Or.inr h2⟩
  · obtain ⟨k, h1, h2⟩ := C03_repeating e ops ev now i d hs hint
    obtain ⟨-, h3, -⟩ := h2 hacc hv hidle
    exact ⟨k, h1, Or.inr h3⟩

/-- While events are pending and the process is not stopped, entering a tick starts the earliest pending tick. -/
theorem C10_progress (e : Env) (s : St) (t : Int) (hidle : s.phase = .idle) (hgo : s.go = true) (ht : headTick s = some t) :
    (step e s .enter).trace = s.trace ++ [.start t] ∧ (step e s .enter).tick = t ∧ (step e s .enter).phase = .running := by
  unfold headTick at ht
  simp only [step, hidle, hgo, and_self, if_true, startExecute]
  cases hq : s.queue with
  | nil => rw [hq] at ht; simp at ht
  | cons x xs =>
    rw [hq] at ht
    simp at ht
    simp [ht]

/-- The code does drop events: one accepted for the current tick while no tick is being executed never runs, whatever
happens later. -/
theorem C10_dropped (e : Env) (ops : List Op) (ev : Ev) (now : Int) (hs : Obs.sched ev now false ∈ (run e ops).trace)
    (hat : ev.at_ = now) : runsOf ev.id (run e ops).trace = [] :=
  (run_doomed e ops ev.id (Or.inr ⟨ev, now, hs, hat, rfl⟩)).runs

/-- So the property does not hold: here event 1 is accepted at tick 5 for tick 5, between two ticks. -/
example : Obs.sched ⟨1, 5, 1, .random, none, none, .user 0, none⟩ 5 false ∈
    (run (exEnv fun _ _ => []) [.act (one 5), .enter, .loop, .loop, .act (one 5), .act (one 6), .enter, .loop, .loop]).trace ∧
    runs (run (exEnv fun _ _ => []) [.act (one 5), .enter, .loop, .loop, .act (one 5), .act (one 6), .enter, .loop, .loop]).trace =
      [(0, 5), (2, 6)] := by decide +kernel

/-! ### C11 Stopping and end events -/

/-- After `stop()` no tick is started; whatever still runs belongs to the tick in which it was called. -/
theorem C11_no_later_tick (e : Env) (ops : List Op) (i j : Nat) (hij : i < j) (hs : (run e ops).trace[i]? = some .stopped) :
    (∀ t, (run e ops).trace[j]? ≠ some (.start t)) ∧
    ∀ ev now, (run e ops).trace[j]? = some (.ran ev now) →
      ev.at_ = now ∧ (startTick :: starts ((run e ops).trace.take i)).getLast? = some now := by
  have key : ∀ j, i < j → ∀ t, (run e ops).trace[j]? ≠ some (.start t) := by
    intro j hij t ho
    have hil := (List.getElem?_eq_some_iff.1 hs)
    have hjl := (List.getElem?_eq_some_iff.1 ho)
    have hr := List.pairwise_iff_getElem.1 (run_facts e ops).rel i j hil.1 hjl.1 hij
    simp only [St.view, hil.2, hjl.2] at hr
    exact hr
  refine ⟨key j hij, fun ev now hr => ?_⟩
  obtain ⟨h1, h2⟩ := C01_runs_at_own_tick e ops j ev now hr
  refine ⟨h1.symm, ?_⟩
  have : starts ((run e ops).trace.take j) = starts ((run e ops).trace.take i) := by
    have hsplit : (run e ops).trace.take j = (run e ops).trace.take i ++ ((run e ops).trace.take j).drop i := by
      have := List.take_append_drop i ((run e ops).trace.take j)
      rw [List.take_take, Nat.min_eq_left (Nat.le_of_lt hij)] at this
      exact this.symm
    rw [hsplit, starts_append, starts_eq_nil (tr := ((run e ops).trace.take j).drop i)]
    · simp
    · intro o ho t hot
      obtain ⟨k, hk⟩ := List.getElem?_of_mem ho
      subst hot
      rw [List.getElem?_drop, List.getElem?_take] at hk
      split at hk
      · by_cases hk0 : k = 0
        · subst hk0; simp only [Nat.add_zero] at hk; rw [hs] at hk; simp at hk
        · exact key (i+k) (by omega) t hk
      · simp at hk
  rwa [this] at h2

/-- The tick in which `stop()` is called is completed: when it is over, every accepted one-time event due has run. -/
theorem C11_tick_completed (e : Env) (ops : List Op) (_hs : Obs.stopped ∈ (run e ops).trace) (hidle : (run e ops).phase ≠ .running)
    (ev : Ev) (now : Int) (d : Bool) (hse : Obs.sched ev now d ∈ (run e ops).trace) (h1 : ev.interval = none)
    (hacc : now < ev.at_ ∨ d = true) (hv : ¬ IsVoided ev.id (run e ops).trace) (hdue : ev.at_ ≤ (run e ops).tick) :
    runsOf ev.id (run e ops).trace = [(ev, ev.at_)] := by
  rcases C02_one_time e ops ev now d hse h1 hacc hv hidle with h | ⟨-, h, -⟩
  · exact h
  · omega

/-- End events run only after a stop, after every other event, in the order in which they were scheduled, each at most once. -/
theorem C11_end_events (e : Env) (ops : List Op) :
    (ranEnds (run e ops).trace).Sublist (schedEnds (run e ops).trace) ∧
    (schedEnds (run e ops).trace).Pairwise (fun a b => a.1 ≠ b.1) ∧
    (∀ id l, Obs.ranEnd id l ∈ (run e ops).trace → Obs.stopped ∈ (run e ops).trace) ∧
    (∀ (i j id l : Nat), i < j → (run e ops).trace[i]? = some (.ranEnd id l) →
      (∀ t, (run e ops).trace[j]? ≠ some (.start t)) ∧ ∀ ev now, (run e ops).trace[j]? ≠ some (.ran ev now)) := by
  have hf := run_facts e ops
  have hends := hf.ends
  refine ⟨?_, ?_, ?_, ?_⟩
  · have := hf.sub.2; rwa [hends] at this
  · have := hf.endIds; rw [hends] at this
    exact this.imp (fun h => Nat.ne_of_lt h)
  · intro id l hm
    apply hf.go.1
    apply hf.ending
    · intro hp; exact hf.noEnd (Or.inl hp) id l hm
    · intro hp; exact hf.noEnd (Or.inr hp) id l hm
  · intro i j id l hij hi
    have key : ∀ o, (run e ops).trace[j]? = some o → Rel (.ranEnd id l) o := by
      intro o ho
      have hil := (List.getElem?_eq_some_iff.1 hi)
      have hjl := (List.getElem?_eq_some_iff.1 ho)
      have hr := List.pairwise_iff_getElem.1 hf.rel i j hil.1 hjl.1 hij
      simp only [St.view, hil.2, hjl.2] at hr
      exact hr
    exact ⟨fun t h => key _ h, fun ev now h => key _ h⟩

/-- When `execute()` has returned every end event has run, unless it was voided. -/
theorem C11_all_end_events (e : Env) (ops : List Op) (hfin : (run e ops).phase = .finished) :
    ∀ p ∈ schedEnds (run e ops).trace, p ∈ ranEnds (run e ops).trace ∨ IsVoided p.1 (run e ops).trace := by
  have hf := run_facts e ops
  intro p hp
  have hends : (run e ops).endEvts = schedEnds (run e ops).trace := hf.ends
  rw [← hends] at hp
  exact (hf.cover.2 hfin p hp).imp id (hf.voided _).1

example : (run (exEnv exProg) exOps).phase = .finished ∧ Obs.stopped ∈ exTrace ∧ ranEnds exTrace = schedEnds exTrace ∧
    schedEnds exTrace = [(7, 1), (8, 2)] := by decide +kernel

end Repast.Schedule
