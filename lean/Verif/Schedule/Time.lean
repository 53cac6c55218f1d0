import Verif.Schedule.Plan

/-! Monotonicity of time; one-observation facts about voiding, stopping and end events. -/
namespace Repast.Schedule

theorem starts_append (a b : List Obs) : starts (a ++ b) = starts a ++ starts b := by
  simp [starts, List.filterMap_append]

theorem starts_eq_nil {tr : List Obs} (h : ∀ o ∈ tr, ∀ t, o ≠ .start t) : starts tr = [] := by
  unfold starts
  rw [List.filterMap_eq_nil_iff]
  intro o ho
  cases o with
  | start t => exact absurd rfl (h _ ho t)
  | _ => rfl

theorem pushEvent_queue (s : St) (a p q i c g) : ∀ x ∈ (pushEvent s a p q i c g).queue, x ∈ s.queue ∨ s.tick < x.at_ := by
  unfold pushEvent; simp only []; split
  · exact fun x hx => Or.inl hx
  · split
    · split
      · exact fun x hx => Or.inl hx
      · intro x hx
        rcases List.mem_cons.1 ((qinsert_perm _ _).mem_iff.1 hx) with rfl | hx
        · right; simp only []; omega
        · exact Or.inl hx
    · exact fun x hx => Or.inl hx

theorem applyAct_queue (s : St) (a : Act) : ∀ x ∈ (applyAct s a).queue, x ∈ s.queue ∨ s.tick < x.at_ := by
  cases a with
  | sched a p q i l g => exact pushEvent_queue s a p q i (.user l) g
  | schedStop a => exact pushEvent_queue s a _ _ _ _ _
  | _ => exact fun x hx => Or.inl hx

theorem foldl_applyAct_queue (l : List Act) (s : St) : ∀ x ∈ (l.foldl applyAct s).queue, x ∈ s.queue ∨ s.tick < x.at_ := by
  induction l generalizing s with
  | nil => exact fun x hx => Or.inl hx
  | cons a l ih =>
    intro x hx
    rcases ih _ x hx with hx | hx
    · exact applyAct_queue s a x hx
    · rw [applyAct_tick] at hx; exact Or.inr hx

theorem rescheduleEv_queue (e : Env) (s : St) (ev : Ev) : ∀ x ∈ (rescheduleEv e s ev).queue, x ∈ s.queue ∨
    ∃ i, ev.interval = some i ∧ x.at_ = e.adv ev.at_ i := by
  unfold rescheduleEv; split
  · exact fun x hx => Or.inl hx
  · rename_i i hi
    split
    · exact fun x hx => Or.inl hx
    · intro x hx
      rcases List.mem_cons.1 ((qinsert_perm _ _).mem_iff.1 hx) with rfl | hx
      · exact Or.inr ⟨i, hi, rfl⟩
      · exact Or.inl hx

theorem runEv_tick (e : Env) (s : St) (ev : Ev) : (runEv e s ev).tick = s.tick := by
  have h1 : ∀ v : St, (rescheduleEv e v ev).tick = v.tick := by
    intro v; unfold rescheduleEv; split
    · rfl
    · split <;> rfl
  simp only [runEv, h1, callEv]
  split
  · rfl
  · split
    · rfl
    · rw [foldl_applyAct_tick]

theorem runEv_queue (e : Env) (s : St) (ev : Ev) : ∀ x ∈ (runEv e s ev).queue, x ∈ s.queue ∨ s.tick < x.at_ ∨
    ∃ i, ev.interval = some i ∧ x.at_ = e.adv ev.at_ i := by
  intro x hx
  simp only [runEv] at hx
  rcases rescheduleEv_queue _ _ _ x hx with hx | hx
  · by_cases hv : ev.id ∈ s.voided
    · rw [callEv, if_pos hv] at hx; exact Or.inl hx
    · obtain ⟨l, hl⟩ := callEv_eq e { s with grp := { s.grp with size := s.grp.size - 1 } } ev hv
      rw [hl] at hx
      rcases foldl_applyAct_queue l _ x hx with hx | hx
      · exact Or.inl hx
      · exact Or.inr (Or.inl hx)
  · exact Or.inr (Or.inr hx)

theorem post_queue (e : Env) (s : St) : (post e s).queue = s.queue := by
  unfold post; split <;> rfl

/-- Time never goes back. -/
structure Mono (s : St) : Prop where
  queue : ∀ x ∈ s.queue, s.tick ≤ x.at_
  starts : (startTick :: starts s.trace).Pairwise (· ≤ ·)
  last : (startTick :: Repast.Schedule.starts s.trace).getLast? = some s.tick

theorem Mono.same {s t} (h : Mono s) (ht : t.tick = s.tick) (hs : Repast.Schedule.starts t.trace = Repast.Schedule.starts s.trace)
    (hq : ∀ x ∈ t.queue, x ∈ s.queue ∨ s.tick ≤ x.at_) : Mono t := by
  refine ⟨?_, by rw [hs]; exact h.starts, by rw [hs, ht]; exact h.last⟩
  intro x hx
  rw [ht]
  rcases hq x hx with hx | hx
  · exact h.queue x hx
  · exact hx

theorem NonNegIntervals.left {a b : List Obs} (h : NonNegIntervals (a ++ b)) : NonNegIntervals a :=
  fun ev now d i hm => h ev now d i (List.mem_append_left _ hm)

theorem MStep.trace_prefix {e s t} (hi : Inv e none s) (hm : MStep e s t) : ∃ tl, t.trace = s.trace ++ tl := by
  have := hm.view hi
  have gen : ∀ v w, VReach v w → ∃ tl, w.trace = v.trace ++ tl := by
    intro v w h
    induction h with
    | refl => exact ⟨[], by simp⟩
    | tail _ h ih =>
      obtain ⟨tl, ih⟩ := ih
      rcases h.trace with h | ⟨o, h⟩
      · exact ⟨tl, by rw [h, ih]⟩
      · exact ⟨tl ++ [o], by rw [h, ih]; simp⟩
  exact gen _ _ this

theorem Mono.step {e s t} (hadv : AdvMono e) (hg : GInv s) (hi : Inv e none s) (hnn : NonNegIntervals s.trace) (h : Mono s)
    (hm : MStep e s t) : Mono t := by
  cases hm with
  | act a hp =>
    obtain ⟨o, h1, h2, h3⟩ := applyAct_trace' s a
    refine h.same (applyAct_tick _ _) ?_ (fun x hx => ?_)
    · rw [h1, starts_append, starts_eq_nil (tr := [o]) (by simpa using h3)]; simp
    · rcases applyAct_queue s a x hx with hx | hx
      · exact Or.inl hx
      · right; omega
  | enter hp hgo =>
    unfold startExecute
    split
    · exact h.same rfl rfl (fun x hx => Or.inl hx)
    · rename_i ev l hq
      have hle : ∀ x ∈ s.queue, ev.at_ ≤ x.at_ := by
        intro x hx
        have hs := hi.sorted
        rw [hq] at hx hs
        rcases List.mem_cons.1 hx with rfl | hx
        · exact Int.le_refl _
        · exact sorted_head_le hs x hx
      have htl : s.tick ≤ ev.at_ := h.queue ev (by rw [hq]; simp)
      have hst : Repast.Schedule.starts (s.trace ++ [Obs.start ev.at_]) = Repast.Schedule.starts s.trace ++ [ev.at_] := by
        rw [starts_append]; rfl
      refine ⟨?_, ?_, ?_⟩
      · intro x hx
        exact hle x ((List.dropWhile_sublist _).subset hx)
      · show List.Pairwise _ (startTick :: Repast.Schedule.starts (s.trace ++ [Obs.start ev.at_]))
        rw [hst, ← List.cons_append, List.pairwise_append]
        refine ⟨h.starts, by simp, ?_⟩
        intro a ha b hb
        simp only [List.mem_singleton] at hb
        subst hb
        -- the last tick is the largest
        have hlast := h.last
        obtain ⟨ys, hys⟩ := List.getLast?_eq_some_iff.1 hlast
        have hpw := h.starts
        rw [hys, List.pairwise_append] at hpw
        rw [hys] at ha
        rcases List.mem_append.1 ha with ha | ha
        · have := hpw.2.2 a ha s.tick (by simp)
          omega
        · simp only [List.mem_singleton] at ha; omega
      · show List.getLast? (startTick :: Repast.Schedule.starts (s.trace ++ [Obs.start ev.at_])) = some ev.at_
        rw [hst, ← List.cons_append, List.getLast?_append]
        rfl
  | skip hp => exact h.same rfl rfl (fun x hx => Or.inl hx)
  | exec hp => exact h.same rfl rfl (fun x hx => Or.inl hx)
  | event w ev rest hp hx hn =>
    obtain ⟨r1, r2, r3, -⟩ := hg.run hp
    obtain ⟨tl, f1, f2, f3, -, -⟩ := runEv_facts e { s with grp := s.grp.set rest w } ev
      (by simp [set_executing, hx]) (by simp [set_interrupted, r3])
    simp only [] at f1
    refine h.same ?_ ?_ ?_
    · have : (post e (runEv e { s with grp := s.grp.set rest w } ev)).tick = (runEv e { s with grp := s.grp.set rest w } ev).tick :=
        congrArg V.tick (post_view _ _)
      rw [this, runEv_tick]
    · have htr : (post e (runEv e { s with grp := s.grp.set rest w } ev)).trace =
        (runEv e { s with grp := s.grp.set rest w } ev).trace := congrArg V.trace (post_view _ _)
      rw [htr]
      rcases f1 with ⟨-, -, f1⟩ | ⟨-, f1⟩
      · rw [f1]
      · rw [f1, starts_append, starts_append, starts_eq_nil f3, starts_eq_nil (tr := [Obs.ran ev s.tick]) (by simp)]; simp
    · intro x hxq
      rw [post_queue] at hxq
      rcases runEv_queue _ _ _ x hxq with hxq | hxq | ⟨i, hint, hat⟩
      · exact Or.inl hxq
      · right; simp only [] at hxq; omega
      · right
        have hevall : ev ∈ s.grp.all := (set_all_perm hn.1).mem_iff.2 (by simp)
        obtain ⟨a, n, d, k, hs, htk, rfl⟩ := hi.pending_eq (List.mem_append_right _ hevall)
        have hocc : occ e a k = s.tick := by
          cases htk.status with
          | queued _ h2 =>
            have : nth e a k ∈ sel a.id s.grp.all := mem_sel.2 ⟨hevall, rfl⟩
            rw [h2] at this; simp at this
          | grouped _ _ _ h4 => exact h4
          | flying _ _ _ _ h4 => simp at h4
          | gone _ h2 =>
            have : nth e a k ∈ sel a.id s.grp.all := mem_sel.2 ⟨hevall, rfl⟩
            rw [h2] at this; simp at this
        have := hadv (occ e a k) i (hnn a n d i hs hint)
        rw [hat]
        simp only [nth]
        omega
  | unexec hp => exact h.same rfl rfl (fun x hx => Or.inl hx)
  | finish hp => exact h.same rfl rfl (fun x hx => Or.inl hx)
  | leave hp => exact h.same rfl rfl (fun x hx => Or.inl hx)
  | endDone i hp => exact h.same rfl rfl (fun x hx => Or.inl hx)
  | endSkip i id l hp => exact h.same rfl rfl (fun x hx => Or.inl hx)
  | endRun i id l hp =>
    obtain ⟨tl, t1, t2, t3, -⟩ := foldl_applyAct_facts (e.endProg (s.trace ++ [.ranEnd id l]) l)
        { s with phase := .ending (i+1), trace := s.trace ++ [.ranEnd id l] }
    refine h.same ?_ ?_ ?_
    · simp [foldl_applyAct_tick]
    · simp only [t1]
      rw [starts_append, starts_append, starts_eq_nil t3, starts_eq_nil (tr := [Obs.ranEnd id l]) (by simp)]; simp
    · intro x hx
      rcases foldl_applyAct_queue _ _ x hx with hx | hx
      · exact Or.inl hx
      · right; simp only [] at hx; omega

theorem run_mono (e : Env) (ops : List Op) (hadv : AdvMono e) (hnn : NonNegIntervals (run e ops).trace) : Mono (run e ops) := by
  have : Inv e none (run e ops) ∧ (NonNegIntervals (run e ops).trace → Mono (run e ops)) := by
    refine run_induction e (fun s => Inv e none s ∧ (NonNegIntervals s.trace → Mono s)) ?_ ?_ ops
    · refine ⟨Inv.init e, fun _ => ⟨by simp [St.init], ?_, ?_⟩⟩ <;> simp [St.init, starts]
    · intro s t hg ⟨hi, h⟩ hm
      refine ⟨hi.step hg hm, fun hnn => ?_⟩
      obtain ⟨tl, htl⟩ := hm.trace_prefix hi
      rw [htl] at hnn
      exact (h hnn.left).step hadv hg hi hnn.left hm
  exact this.2 hnn

/-- The clock is the last tick started. -/
structure ClockInv (v : V) : Prop where
  last : (startTick :: starts v.trace).getLast? = some v.tick
  sorted : (startTick :: starts v.trace).Pairwise (· ≤ ·) → (startTick :: clock v.trace).Pairwise (· ≤ ·)
  le : (startTick :: starts v.trace).Pairwise (· ≤ ·) → ∀ c ∈ startTick :: clock v.trace, c ≤ v.tick

theorem clock_append (a b : List Obs) : clock (a ++ b) = clock a ++ clock b := by
  simp [clock, List.filterMap_append]

theorem pairwise_getLast {l : List Int} {a : Int} (h : l.Pairwise (· ≤ ·)) (hl : l.getLast? = some a) : ∀ x ∈ l, x ≤ a := by
  obtain ⟨ys, rfl⟩ := List.getLast?_eq_some_iff.1 hl
  rw [List.pairwise_append] at h
  intro x hx
  rcases List.mem_append.1 hx with hx | hx
  · exact h.2.2 x hx a (by simp)
  · simp only [List.mem_singleton] at hx; omega

theorem ClockInv.step {v w} (h : ClockInv v) (hs : VStep v w) : ClockInv w := by
  have keep : ∀ u : V, u.tick = v.tick → ∀ o, u.trace = v.trace ++ [o] → (∀ t, o ≠ .start t) →
      (clock [o] = [] ∨ clock [o] = [v.tick]) → ClockInv u := by
    intro u ht o htr hst hc
    have e1 : starts u.trace = starts v.trace := by
      rw [htr, starts_append, starts_eq_nil (tr := [o]) (by simpa using hst)]; simp
    refine ⟨by rw [e1, ht]; exact h.last, ?_, ?_⟩
    · rw [e1]
      intro hp
      rw [htr, clock_append]
      rcases hc with hc | hc
      · rw [hc, List.append_nil]; exact h.sorted hp
      · rw [hc, ← List.cons_append, List.pairwise_append]
        refine ⟨h.sorted hp, by simp, ?_⟩
        intro a ha b hb
        simp only [List.mem_singleton] at hb
        subst hb
        exact h.le hp a ha
    · rw [e1, htr, clock_append, ht]
      intro hp c hcm
      rcases hc with hc | hc
      · rw [hc, List.append_nil] at hcm; exact h.le hp c hcm
      · rw [hc, ← List.cons_append] at hcm
        rcases List.mem_append.1 hcm with hcm | hcm
        · exact h.le hp c hcm
        · simp only [List.mem_singleton] at hcm; omega
  cases hs with
  | sched ev d => exact keep _ rfl _ rfl (by simp) (Or.inr rfl)
  | ignored => exact keep _ rfl _ rfl (by simp) (Or.inl rfl)
  | void x => exact keep _ rfl _ rfl (by simp) (Or.inl rfl)
  | stop => exact keep _ rfl _ rfl (by simp) (Or.inl rfl)
  | schedEnd l => exact keep _ rfl _ rfl (by simp) (Or.inl rfl)
  | start t hp hgo =>
    have e1 : starts (v.trace ++ [Obs.start t]) = starts v.trace ++ [t] := by rw [starts_append]; rfl
    have e2 : clock (v.trace ++ [Obs.start t]) = clock v.trace ++ [t] := by rw [clock_append]; rfl
    have hpre : (startTick :: starts (v.trace ++ [Obs.start t])).Pairwise (· ≤ ·) →
        (startTick :: starts v.trace).Pairwise (· ≤ ·) ∧ v.tick ≤ t := by
      intro hpw
      rw [e1, ← List.cons_append, List.pairwise_append] at hpw
      exact ⟨hpw.1, hpw.2.2 v.tick (List.mem_of_getLast? h.last) t (by simp)⟩
    refine ⟨?_, ?_, ?_⟩
    · simp only [e1]; rw [← List.cons_append, List.getLast?_append]; rfl
    · intro hpw
      obtain ⟨h1, h2⟩ := hpre hpw
      simp only [e2]
      rw [← List.cons_append, List.pairwise_append]
      refine ⟨h.sorted h1, by simp, ?_⟩
      intro a ha b hb
      simp only [List.mem_singleton] at hb
      subst hb
      have := h.le h1 a ha
      omega
    · intro hpw
      obtain ⟨h1, h2⟩ := hpre hpw
      simp only [e2]
      intro c hc
      rw [← List.cons_append] at hc
      rcases List.mem_append.1 hc with hc | hc
      · have := h.le h1 c hc; omega
      · simp only [List.mem_singleton] at hc; omega
  | ran ev hp hv _ => exact keep _ rfl _ rfl (by simp) (Or.inr rfl)
  | endRun i id l hp hi hv => exact keep _ rfl _ rfl (by simp) (Or.inl rfl)
  | _ => exact ⟨h.last, h.sorted, h.le⟩

theorem run_clock (e : Env) (ops : List Op) : ClockInv (run e ops).view :=
  view_induction e ClockInv ⟨rfl, by simp [St.view, St.init, clock], by simp [St.view, St.init, clock]⟩ (fun _ _ h hs => h.step hs) ops

/-- `tick()` seen by a callback or a `schedule_*` call is the last tick started. -/
def NowTick (tr : List Obs) : Prop := ∀ (j : Nat) (now : Int),
  ((∃ ev, tr[j]? = some (Obs.ran ev now)) ∨ ∃ ev d, tr[j]? = some (Obs.sched ev now d)) →
  (startTick :: starts (tr.take j)).getLast? = some now

theorem NowTick.snoc {v : V} (hc : ClockInv v) (h : NowTick v.trace) (o : Obs) (h1 : ∀ ev n, o = .ran ev n → n = v.tick)
    (h2 : ∀ ev n d, o = .sched ev n d → n = v.tick) : NowTick (v.trace ++ [o]) := by
  intro j now hj
  by_cases hjl : j < v.trace.length
  · simp only [List.getElem?_append_left hjl] at hj
    rw [List.take_append_of_le_length (Nat.le_of_lt hjl)]
    exact h j now hj
  · have hje : j = v.trace.length := by
      rcases hj with ⟨ev, hj⟩ | ⟨ev, d, hj⟩ <;>
      · have := (List.getElem?_eq_some_iff.1 hj).1
        simp at this; omega
    subst hje
    rw [List.take_append_of_le_length (Nat.le_refl _), List.take_length, hc.last]
    simp only [List.getElem?_append_right (Nat.le_refl _), Nat.sub_self, List.getElem?_cons_zero, Option.some.injEq] at hj
    rcases hj with ⟨ev, hj⟩ | ⟨ev, d, hj⟩
    · rw [h1 _ _ hj]
    · rw [h2 _ _ _ hj]

theorem run_nowTick (e : Env) (ops : List Op) : NowTick (run e ops).trace := by
  have := view_induction e (fun v => ClockInv v ∧ NowTick v.trace)
    ⟨run_clock e [], by intro j now h; simp [St.view, St.init] at h⟩ ?_ ops
  · exact this.2
  · intro v w ⟨hc, h⟩ hs
    refine ⟨hc.step hs, ?_⟩
    cases hs with
    | sched ev d => exact h.snoc hc _ (by simp) (by simp)
    | ignored => exact h.snoc hc _ (by simp) (by simp)
    | void x => exact h.snoc hc _ (by simp) (by simp)
    | stop => exact h.snoc hc _ (by simp) (by simp)
    | schedEnd l => exact h.snoc hc _ (by simp) (by simp)
    | start t => exact h.snoc hc _ (by simp) (by simp)
    | ran ev => exact h.snoc hc _ (by simp) (by simp)
    | endRun i id l => exact h.snoc hc _ (by simp) (by simp)
    | _ => exact h

/-! ### Voiding, stopping, ignored events, end events -/

theorem schedEnds_append (a b : List Obs) : schedEnds (a ++ b) = schedEnds a ++ schedEnds b := by
  simp [schedEnds, List.filterMap_append]

theorem ranEnds_append (a b : List Obs) : ranEnds (a ++ b) = ranEnds a ++ ranEnds b := by
  simp [ranEnds, List.filterMap_append]

/-- What may follow what. -/
def Rel : Obs → Obs → Prop
  | .voided x, .ran ev _ => ev.id ≠ x
  | .voided x, .ranEnd id _ => id ≠ x
  | .stopped, .start _ => False
  | .ranEnd _ _, .start _ => False
  | .ranEnd _ _, .ran _ _ => False
  | _, _ => True

structure Facts (v : V) : Prop where
  voided : ∀ x, x ∈ v.voided ↔ IsVoided x v.trace
  rel : v.trace.Pairwise Rel
  go : v.go = false ↔ Obs.stopped ∈ v.trace
  ending : v.phase ≠ .idle → v.phase ≠ .running → v.go = false
  noEnd : (v.phase = .idle ∨ v.phase = .running) → ∀ id l, Obs.ranEnd id l ∉ v.trace
  ends : v.endEvts = schedEnds v.trace
  endIds : v.endEvts.Pairwise (fun a b => a.1 < b.1)
  endBound : ∀ p ∈ v.endEvts, p.1 < v.nextId
  sub : (∀ i, v.phase = .ending i → (ranEnds v.trace).Sublist (v.endEvts.take i)) ∧ (ranEnds v.trace).Sublist v.endEvts
  cover : (∀ i, v.phase = .ending i → ∀ p ∈ v.endEvts.take i, p ∈ ranEnds v.trace ∨ p.1 ∈ v.voided) ∧
    (v.phase = .finished → ∀ p ∈ v.endEvts, p ∈ ranEnds v.trace ∨ p.1 ∈ v.voided)
  bound : ∀ i, v.phase = .ending i → i ≤ v.endEvts.length

theorem Facts.init : Facts St.init.view := by
  constructor <;> simp [St.view, St.init, IsVoided, schedEnds, ranEnds]

/-- Observations other than starts, runs of events or end events, voids, stops and end event scheduling. -/
theorem Facts.plain {v} (h : Facts v) (o : Obs) (n : Nat) (hn : v.nextId ≤ n)
    (hrel : ∀ a, Rel a o) (h1 : ∀ x, o ≠ .voided x) (h2 : o ≠ .stopped)
    (h3 : ∀ id l, o ≠ .ranEnd id l) (h4 : ∀ id l, o ≠ .schedEnd id l) :
    Facts { v with trace := v.trace ++ [o], nextId := n } := by
  have es : schedEnds [o] = [] := by cases o <;> simp_all [schedEnds]
  have er : ranEnds [o] = [] := by cases o <;> simp_all [ranEnds]
  refine ⟨?_, ?_, ?_, h.ending, ?_, ?_, h.endIds, ?_, ?_, ?_, h.bound⟩
  · intro x; simp only [IsVoided, List.mem_append, List.mem_singleton, (h1 x).symm, or_false]; exact h.voided x
  · rw [List.pairwise_append]; exact ⟨h.rel, by simp, fun a _ b hb => by simp only [List.mem_singleton] at hb; rw [hb]; exact hrel a⟩
  · simp only [List.mem_append, List.mem_singleton, h2.symm, or_false]; exact h.go
  · intro hp id l hm
    simp only [List.mem_append, List.mem_singleton, (h3 id l).symm, or_false] at hm
    exact h.noEnd hp id l hm
  · simp only [schedEnds_append, es, List.append_nil]; exact h.ends
  · intro p hp; have := h.endBound p hp; simp only []; omega
  · simp only [ranEnds_append, er, List.append_nil]; exact h.sub
  · simp only [ranEnds_append, er, List.append_nil]; exact h.cover

theorem Facts.step {v w} (h : Facts v) (hs : VStep v w) : Facts w := by
  cases hs with
  | sched ev d hid hat =>
    exact h.plain _ _ (Nat.le_succ _) (by intro a; cases a <;> simp [Rel]) (by simp) (by simp) (by simp) (by simp)
  | ignored =>
    exact h.plain _ _ (Nat.le_succ _) (by intro a; cases a <;> simp [Rel]) (by simp) (by simp) (by simp) (by simp)
  | void x =>
    refine ⟨?_, ?_, ?_, h.ending, ?_, ?_, h.endIds, h.endBound, ?_, ?_, h.bound⟩
    · intro y
      have := h.voided y
      simp only [IsVoided] at this ⊢
      simp only [List.mem_cons, List.mem_append, this, List.not_mem_nil, or_false, Obs.voided.injEq]
      exact Or.comm
    · rw [List.pairwise_append]
      refine ⟨h.rel, by simp, fun a _ b hb => ?_⟩
      simp only [List.mem_singleton] at hb; subst hb
      cases a <;> simp [Rel]
    · simp only [List.mem_append, List.mem_singleton, reduceCtorEq, or_false]; exact h.go
    · intro hp id l hm
      simp only [List.mem_append, List.mem_singleton, reduceCtorEq, or_false] at hm
      exact h.noEnd hp id l hm
    · simp only [schedEnds_append]; rw [h.ends]; simp [schedEnds]
    · simp only [ranEnds_append]; simpa [ranEnds] using h.sub
    · simp only [ranEnds_append]
      have h0 : ranEnds [Obs.voided x] = [] := rfl
      rw [h0, List.append_nil]
      refine ⟨fun i hi p hp => ?_, fun hf p hp => ?_⟩
      · exact (h.cover.1 i hi p hp).imp id (List.mem_cons_of_mem _)
      · exact (h.cover.2 hf p hp).imp id (List.mem_cons_of_mem _)
  | stop =>
    refine ⟨?_, ?_, ?_, fun _ _ => rfl, ?_, ?_, h.endIds, h.endBound, ?_, ?_, h.bound⟩
    · intro x; simp only [IsVoided, List.mem_append, List.mem_singleton, reduceCtorEq, or_false]; exact h.voided x
    · rw [List.pairwise_append]
      refine ⟨h.rel, by simp, fun a _ b hb => ?_⟩
      simp only [List.mem_singleton] at hb; subst hb
      cases a <;> simp [Rel]
    · simp
    · intro hp id l hm
      simp only [List.mem_append, List.mem_singleton, reduceCtorEq, or_false] at hm
      exact h.noEnd hp id l hm
    · simp only [schedEnds_append]; rw [h.ends]; simp [schedEnds]
    · simp only [ranEnds_append]; simpa [ranEnds] using h.sub
    · simp only [ranEnds_append]; simpa [ranEnds] using h.cover
  | schedEnd l hnf =>
    refine ⟨?_, ?_, ?_, h.ending, ?_, ?_, ?_, ?_, ?_, ?_, ?_⟩
    · intro x; simp only [IsVoided, List.mem_append, List.mem_singleton, reduceCtorEq, or_false]; exact h.voided x
    · rw [List.pairwise_append]
      refine ⟨h.rel, by simp, fun a _ b hb => ?_⟩
      simp only [List.mem_singleton] at hb; subst hb
      cases a <;> simp [Rel]
    · simp only [List.mem_append, List.mem_singleton, reduceCtorEq, or_false]; exact h.go
    · intro hp id l hm
      simp only [List.mem_append, List.mem_singleton, reduceCtorEq, or_false] at hm
      exact h.noEnd hp id l hm
    · simp only [schedEnds_append]; rw [h.ends]; simp [schedEnds]
    · simp only []
      rw [List.pairwise_append]
      refine ⟨h.endIds, by simp, fun a ha b hb => ?_⟩
      simp only [List.mem_singleton] at hb; subst hb
      exact h.endBound a ha
    · intro p hp
      rcases List.mem_append.1 hp with hp | hp
      · have := h.endBound p hp; simp only []; omega
      · simp only [List.mem_singleton] at hp; subst hp; simp
    · have h0 : ranEnds (v.trace ++ [Obs.schedEnd v.nextId l]) = ranEnds v.trace := by
        rw [ranEnds_append]; simp [ranEnds]
      simp only [h0]
      refine ⟨fun i hi => ?_, h.sub.2.trans (List.sublist_append_left _ _)⟩
      have := h.bound i hi
      rw [List.take_append_of_le_length this]
      exact h.sub.1 i hi
    · have h0 : ranEnds (v.trace ++ [Obs.schedEnd v.nextId l]) = ranEnds v.trace := by
        rw [ranEnds_append]; simp [ranEnds]
      simp only [h0]
      refine ⟨fun i hi => ?_, fun hf => ?_⟩
      · have := h.bound i hi
        rw [List.take_append_of_le_length this]
        exact h.cover.1 i hi
      · exact absurd hf hnf
    · intro i hi
      have := h.bound i hi
      simp; omega
  | start t hp hgo =>
    refine ⟨?_, ?_, ?_, by simp, ?_, ?_, h.endIds, h.endBound, ⟨by simp, ?_⟩, ⟨by simp, by simp⟩, by simp⟩
    · intro x; simp only [IsVoided, List.mem_append, List.mem_singleton, reduceCtorEq, or_false]; exact h.voided x
    · rw [List.pairwise_append]
      refine ⟨h.rel, by simp, fun a ha b hb => ?_⟩
      simp only [List.mem_singleton] at hb; subst hb
      cases a with
      | stopped => have := h.go.2 ha; simp [hgo] at this
      | ranEnd id l => exact absurd ha (h.noEnd (Or.inl hp) id l)
      | _ => simp [Rel]
    · simp only [List.mem_append, List.mem_singleton, reduceCtorEq, or_false]; exact h.go
    · intro _ id l hm
      simp only [List.mem_append, List.mem_singleton, reduceCtorEq, or_false] at hm
      exact h.noEnd (Or.inl hp) id l hm
    · simp only [schedEnds_append]; rw [h.ends]; simp [schedEnds]
    · simp only [ranEnds_append]; simpa [ranEnds] using h.sub.2
  | ran ev hp hv _ =>
    refine ⟨?_, ?_, ?_, h.ending, ?_, ?_, h.endIds, h.endBound, ?_, ?_, h.bound⟩
    · intro x; simp only [IsVoided, List.mem_append, List.mem_singleton, reduceCtorEq, or_false]; exact h.voided x
    · rw [List.pairwise_append]
      refine ⟨h.rel, by simp, fun a ha b hb => ?_⟩
      simp only [List.mem_singleton] at hb; subst hb
      cases a with
      | voided x =>
        simp only [Rel]
        rintro rfl
        exact hv ((h.voided _).2 ha)
      | ranEnd id l => exact absurd ha (h.noEnd (Or.inr hp) id l)
      | _ => simp [Rel]
    · simp only [List.mem_append, List.mem_singleton, reduceCtorEq, or_false]; exact h.go
    · intro hp id l hm
      simp only [List.mem_append, List.mem_singleton, reduceCtorEq, or_false] at hm
      exact h.noEnd hp id l hm
    · simp only [schedEnds_append]; rw [h.ends]; simp [schedEnds]
    · simp only [ranEnds_append]; simpa [ranEnds] using h.sub
    · simp only [ranEnds_append]; simpa [ranEnds] using h.cover
  | finish hp =>
    exact ⟨h.voided, h.rel, h.go, by simp, fun _ => h.noEnd (Or.inr hp), h.ends, h.endIds, h.endBound,
      ⟨by simp, h.sub.2⟩, ⟨by simp, by simp⟩, by simp⟩
  | leave hp hgo =>
    refine ⟨h.voided, h.rel, h.go, fun _ _ => hgo, by simp, h.ends, h.endIds, h.endBound,
      ⟨fun i hi => ?_, h.sub.2⟩, ⟨fun i hi => ?_, by simp⟩, fun i hi => ?_⟩
    · simp at hi; subst hi
      have : ranEnds v.trace = [] := by
        unfold ranEnds
        rw [List.filterMap_eq_nil_iff]
        intro o ho
        cases o with
        | ranEnd id l => exact absurd ho (h.noEnd (Or.inl hp) id l)
        | _ => rfl
      simp [this]
    · simp at hi; subst hi; simp
    · simp at hi; subst hi; simp
  | endSkip i id l hp hi hv =>
    have hil := (List.getElem?_eq_some_iff.1 hi).1
    have htake : v.endEvts.take (i+1) = v.endEvts.take i ++ [(id, l)] := by
      rw [List.take_add_one, hi]; rfl
    refine ⟨h.voided, h.rel, h.go, fun _ _ => h.ending (by simp [hp]) (by simp [hp]), by simp, h.ends, h.endIds, h.endBound,
      ⟨fun j hj => ?_, h.sub.2⟩, ⟨fun j hj => ?_, by simp⟩, fun j hj => ?_⟩
    · simp at hj; subst hj
      rw [htake]
      exact (h.sub.1 i hp).trans (List.sublist_append_left _ _)
    · simp at hj; subst hj
      simp only [htake]
      intro p hpm
      rcases List.mem_append.1 hpm with hpm | hpm
      · exact h.cover.1 i hp p hpm
      · simp only [List.mem_singleton] at hpm; subst hpm; exact Or.inr hv
    · simp at hj; subst hj; simp only []; omega
  | endRun i id l hp hi hv =>
    have hil := (List.getElem?_eq_some_iff.1 hi).1
    have htake : v.endEvts.take (i+1) = v.endEvts.take i ++ [(id, l)] := by
      rw [List.take_add_one, hi]; rfl
    have h0 : ranEnds (v.trace ++ [Obs.ranEnd id l]) = ranEnds v.trace ++ [(id, l)] := by
      rw [ranEnds_append]; rfl
    have hsub : (ranEnds v.trace ++ [(id, l)]).Sublist (v.endEvts.take (i+1)) := by
      rw [htake]; exact (h.sub.1 i hp).append (List.Sublist.refl _)
    refine ⟨?_, ?_, ?_, fun _ _ => h.ending (by simp [hp]) (by simp [hp]), by simp, ?_, h.endIds, h.endBound,
      ⟨fun j hj => ?_, ?_⟩, ⟨fun j hj => ?_, by simp⟩, fun j hj => ?_⟩
    · intro x; simp only [IsVoided, List.mem_append, List.mem_singleton, reduceCtorEq, or_false]; exact h.voided x
    · rw [List.pairwise_append]
      refine ⟨h.rel, by simp, fun a ha b hb => ?_⟩
      simp only [List.mem_singleton] at hb; subst hb
      cases a with
      | voided x =>
        simp only [Rel]
        rintro rfl
        exact hv ((h.voided _).2 ha)
      | _ => simp [Rel]
    · simp only [List.mem_append, List.mem_singleton, reduceCtorEq, or_false]; exact h.go
    · simp only [schedEnds_append]; rw [h.ends]; simp [schedEnds]
    · simp at hj; subst hj
      simp only [h0]; exact hsub
    · simp only [h0]
      exact hsub.trans (List.take_sublist _ _)
    · simp at hj; subst hj
      simp only [htake, h0]
      intro p hpm
      rcases List.mem_append.1 hpm with hpm | hpm
      · rcases h.cover.1 i hp p hpm with h1 | h1
        · exact Or.inl (List.mem_append_left _ h1)
        · exact Or.inr h1
      · exact Or.inl (List.mem_append_right _ hpm)
    · simp at hj; subst hj; simp only []; omega
  | endDone i hp hi =>
    have hil : v.endEvts.length ≤ i := List.getElem?_eq_none_iff.1 hi
    refine ⟨h.voided, h.rel, h.go, fun _ _ => h.ending (by simp [hp]) (by simp [hp]), by simp, h.ends, h.endIds, h.endBound,
      ⟨by simp, h.sub.2⟩, ⟨by simp, fun _ => ?_⟩, by simp⟩
    have := h.cover.1 i hp
    rwa [List.take_of_length_le hil] at this

theorem run_facts (e : Env) (ops : List Op) : Facts (run e ops).view :=
  view_induction e Facts Facts.init (fun _ _ h hs => h.step hs) ops

/-! ### Scheduling comes before running -/

/-- `schedule_*` calls return new events. -/
def Rel2 : Obs → Obs → Prop
  | .ran a _, .sched b _ _ => a.id ≠ b.id
  | .sched a _ _, .sched b _ _ => a.id ≠ b.id
  | _, _ => True

structure Causal (v : V) : Prop where
  ran : ∀ a n, Obs.ran a n ∈ v.trace → a.id < v.nextId
  sched : ∀ a n d, Obs.sched a n d ∈ v.trace → a.id < v.nextId
  rel : v.trace.Pairwise Rel2

theorem Causal.step {v w} (h : Causal v) (hs : VStep v w) : Causal w := by
  have plain : ∀ (o : Obs) (w : V), w.trace = v.trace ++ [o] → v.nextId ≤ w.nextId → (∀ a n, o = .ran a n → a.id < w.nextId) →
      (∀ a n d, o ≠ .sched a n d) → Causal w := by
    intro o w htr hn h1 h2
    refine ⟨fun a n hm => ?_, fun a n d hm => ?_, ?_⟩
    · rw [htr, List.mem_append, List.mem_singleton] at hm
      rcases hm with hm | hm
      · have := h.ran a n hm; omega
      · exact h1 a n hm.symm
    · rw [htr, List.mem_append, List.mem_singleton] at hm
      rcases hm with hm | hm
      · have := h.sched a n d hm; omega
      · exact absurd hm.symm (h2 a n d)
    · rw [htr, List.pairwise_append]
      refine ⟨h.rel, by simp, fun a _ b hb => ?_⟩
      simp only [List.mem_singleton] at hb
      subst hb
      cases b with
      | sched ev n d => exact absurd rfl (h2 ev n d)
      | _ => cases a <;> simp [Rel2]
  cases hs with
  | sched ev d hid hat =>
    refine ⟨fun a n hm => ?_, fun a n d hm => ?_, ?_⟩
    · simp only [List.mem_append, List.mem_singleton, reduceCtorEq, or_false] at hm
      have := h.ran a n hm; simp only []; omega
    · simp only [List.mem_append, List.mem_singleton] at hm
      rcases hm with hm | hm
      · have := h.sched a n d hm; simp only []; omega
      · simp only [Obs.sched.injEq] at hm; simp only [hm.1]; omega
    · rw [List.pairwise_append]
      refine ⟨h.rel, by simp, fun a ha b hb => ?_⟩
      simp only [List.mem_singleton] at hb
      subst hb
      cases a with
      | ran a n => have := h.ran a n ha; simp only [Rel2]; omega
      | sched a n d => have := h.sched a n d ha; simp only [Rel2]; omega
      | _ => simp [Rel2]
  | ignored => exact plain _ _ rfl (Nat.le_succ _) (by simp) (by simp)
  | void x => exact plain _ _ rfl (Nat.le_refl _) (by simp) (by simp)
  | stop => exact plain _ _ rfl (Nat.le_refl _) (by simp) (by simp)
  | schedEnd l => exact plain _ _ rfl (Nat.le_succ _) (by simp) (by simp)
  | start t => exact plain _ _ rfl (Nat.le_refl _) (by simp) (by simp)
  | ran ev hp hv hid => exact plain _ _ rfl (Nat.le_refl _) (fun a n h => by simp only [Obs.ran.injEq] at h; rw [← h.1]; exact hid) (by simp)
  | endRun i id l => exact plain _ _ rfl (Nat.le_refl _) (by simp) (by simp)
  | _ => exact ⟨h.ran, h.sched, h.rel⟩

theorem run_causal (e : Env) (ops : List Op) : Causal (run e ops).view :=
  view_induction e Causal ⟨by simp [St.view, St.init], by simp [St.view, St.init], by simp [St.view, St.init]⟩
    (fun _ _ h hs => h.step hs) ops

/-! ### Events added to the current tick -/

theorem MStep.tail {e s t} (hg : GInv s) (hm : MStep e s t) : ∃ tl, t.trace = s.trace ++ tl ∧
    ((∀ o ∈ tl, ∀ t, o ≠ .start t) ∨ (s.phase = .idle ∧ ∃ t, tl = [.start t])) := by
  cases hm with
  | act a hp =>
    obtain ⟨o, h1, h2, h3⟩ := applyAct_trace' s a
    exact ⟨[o], h1, Or.inl (by simpa using h3)⟩
  | enter hp hgo =>
    unfold startExecute; split
    · exact ⟨[], by simp⟩
    · exact ⟨_, rfl, Or.inr ⟨hp, _, rfl⟩⟩
  | event w ev rest hp hx hn =>
    obtain ⟨r1, r2, r3, -⟩ := hg.run hp
    obtain ⟨tl, f1, f2, f3, -, -⟩ := runEv_facts e { s with grp := s.grp.set rest w } ev
      (by simp [set_executing, hx]) (by simp [set_interrupted, r3])
    simp only [] at f1
    have htr : (post e (runEv e { s with grp := s.grp.set rest w } ev)).trace =
      (runEv e { s with grp := s.grp.set rest w } ev).trace := congrArg V.trace (post_view _ _)
    rw [htr]
    rcases f1 with ⟨-, -, f1⟩ | ⟨-, f1⟩
    · exact ⟨[], by simp [f1]⟩
    · refine ⟨[.ran ev s.tick] ++ tl, by rw [f1]; simp, Or.inl ?_⟩
      intro o ho
      rcases List.mem_append.1 ho with ho | ho
      · simp only [List.mem_singleton] at ho; subst ho; simp
      · exact f3 o ho
  | endRun i id l hp =>
    obtain ⟨tl, t1, t2, t3, -⟩ := foldl_applyAct_facts (e.endProg (s.trace ++ [.ranEnd id l]) l)
        { s with phase := .ending (i+1), trace := s.trace ++ [.ranEnd id l] }
    refine ⟨[.ranEnd id l] ++ tl, by simp only [t1]; simp, Or.inl ?_⟩
    intro o ho
    rcases List.mem_append.1 ho with ho | ho
    · simp only [List.mem_singleton] at ho; subst ho; simp
    · exact t3 o ho
  | _ => exact ⟨[], by simp⟩

theorem NoStart.ext {tr tl : List Obs} {i : Nat} (h : NoStart tr i tr.length) (hns : ∀ o ∈ tl, ∀ t, o ≠ .start t) :
    NoStart (tr ++ tl) i (tr ++ tl).length := by
  intro k t h1 h2 hk
  by_cases hkl : k < tr.length
  · rw [List.getElem?_append_left hkl] at hk
    exact h k t h1 hkl hk
  · rw [List.getElem?_append_right (by omega)] at hk
    exact hns _ (List.mem_of_getElem? hk) t rfl

theorem NoStart.mono {tr tl : List Obs} {i j : Nat} (h : NoStart tr i j) (hj : j ≤ tr.length) : NoStart (tr ++ tl) i j := by
  intro k t h1 h2 hk
  rw [List.getElem?_append_left (by omega)] at hk
  exact h k t h1 h2 hk

/-- An event added to the current tick by a callback has run, before the next tick starts, or is still to run in this
one (or is voided). -/
def SameTick (s : St) : Prop := ∀ (i : Nat) ev now, s.trace[i]? = some (Obs.sched ev now true) → ev.at_ = now →
  ev.id ∈ s.voided ∨ NoStart s.trace i s.trace.length ∨
  ∃ j : Nat, i < j ∧ s.trace[j]? = some (Obs.ran ev now) ∧ NoStart s.trace i j

theorem mem_runsOf {x : Nat} {tr : List Obs} {p : Ev × Int} : p ∈ runsOf x tr ↔ Obs.ran p.1 p.2 ∈ tr ∧ p.1.id = x := by
  unfold runsOf
  rw [List.mem_filterMap]
  constructor
  · rintro ⟨o, ho, h⟩
    cases o <;> simp at h
    obtain ⟨h1, rfl⟩ := h
    exact ⟨ho, h1⟩
  · rintro ⟨h1, h2⟩
    exact ⟨_, h1, by simp [h2]⟩

/-- Outside a tick, such an event has run. -/
theorem SameTick.idle {e s} (hi : Inv e none s) (hc : Causal s.view) (h : SameTick s) (hp : s.phase ≠ .running)
    {i : Nat} {ev now} (hs : s.trace[i]? = some (Obs.sched ev now true)) (hat : ev.at_ = now) (hv : ev.id ∉ s.voided) :
    ∃ j : Nat, i < j ∧ s.trace[j]? = some (Obs.ran ev now) ∧ NoStart s.trace i j := by
  rcases h i ev now hs hat with h | h | h
  · exact absurd h hv
  · obtain ⟨k, hk⟩ := hi.track ev now true (List.mem_of_getElem? hs)
    have hk1 : 1 ≤ k := by
      apply Nat.one_le_iff_ne_zero.2
      rintro rfl
      cases hk.status with
      | queued _ _ _ h4 => have := h4.1 rfl; omega
      | grouped _ _ _ _ h5 => have := (h5 hp).2.1; simp at this
      | flying j _ _ h3 => omega
      | gone _ _ h3 =>
        rcases h3 with h3 | h3 | h3
        · exact hv h3.1
        · omega
        · simp at h3
    have hm : (ev, now) ∈ runsOf ev.id s.trace := by
      rw [hk.runs, List.mem_map]
      exact ⟨0, by simp; omega, by simp [occ, hat]⟩
    obtain ⟨hm, -⟩ := mem_runsOf.1 hm
    obtain ⟨j, hj, hje⟩ := List.getElem_of_mem hm
    have hje : s.trace[j]? = some (Obs.ran ev now) := by rw [List.getElem?_eq_getElem hj, hje]
    refine ⟨j, ?_, hje, fun k t h1 h2 => h k t h1 (by omega)⟩
    apply Nat.lt_of_not_le
    intro hle
    have hne : j ≠ i := by rintro rfl; rw [hje] at hs; simp at hs
    have hil := (List.getElem?_eq_some_iff.1 hs).1
    have hr := List.pairwise_iff_getElem.1 hc.rel j i hj hil (by omega)
    rw [List.getElem?_eq_getElem hj] at hje
    rw [List.getElem?_eq_getElem hil] at hs
    simp only [Option.some.injEq] at hje hs
    simp only [St.view, hje, hs, Rel2] at hr
    exact hr rfl
  · exact h

theorem MStep.voided_mono {e s t} (hi : Inv e none s) (hm : MStep e s t) : ∀ x ∈ s.voided, x ∈ t.voided := by
  have gen : ∀ v w, VReach v w → ∀ x ∈ v.voided, x ∈ w.voided := by
    intro v w h
    induction h with
    | refl => exact fun _ h => h
    | tail _ h ih =>
      intro x hx
      have := ih x hx
      cases h <;> first | exact this | exact List.mem_cons_of_mem _ this
  exact gen _ _ (hm.view hi)

theorem run_causal' (e : Env) (ops : List Op) : Causal (run e ops).view ∧ SameTick (run e ops) := by
  have : Inv e none (run e ops) ∧ Causal (run e ops).view ∧ SameTick (run e ops) := by
    refine run_induction e (fun s => Inv e none s ∧ Causal s.view ∧ SameTick s) ?_ ?_ ops
    · exact ⟨Inv.init e, run_causal e [], by intro i ev now h; simp [St.init] at h⟩
    · intro s t hg ⟨hi, hc, h⟩ hm
      refine ⟨hi.step hg hm, ?_, ?_⟩
      · have gen : ∀ v w, VReach v w → Causal v → Causal w := by
          intro v w h
          induction h with
          | refl => exact id
          | tail _ h ih => exact fun hv => (ih hv).step h
        exact gen _ _ (hm.view hi) hc
      · obtain ⟨tl, htr, hcase⟩ := hm.tail hg
        have hvm := hm.voided_mono hi
        intro i ev now hs hat
        rw [htr] at hs ⊢
        by_cases hil : i < s.trace.length
        · rw [List.getElem?_append_left hil] at hs
          have keep : (∃ j : Nat, i < j ∧ s.trace[j]? = some (Obs.ran ev now) ∧ NoStart s.trace i j) →
              ∃ j : Nat, i < j ∧ (s.trace ++ tl)[j]? = some (Obs.ran ev now) ∧ NoStart (s.trace ++ tl) i j := by
            rintro ⟨j, h1, h2, h3⟩
            have hjl := (List.getElem?_eq_some_iff.1 h2).1
            exact ⟨j, h1, by rw [List.getElem?_append_left hjl]; exact h2, h3.mono (Nat.le_of_lt hjl)⟩
          rcases hcase with hns | ⟨hp, t0, rfl⟩
          · rcases h i ev now hs hat with h | h | h
            · exact Or.inl (hvm _ h)
            · exact Or.inr (Or.inl (h.ext hns))
            · exact Or.inr (Or.inr (keep h))
          · by_cases hv : ev.id ∈ s.voided
            · exact Or.inl (hvm _ hv)
            · exact Or.inr (Or.inr (keep (h.idle hi hc (by simp [hp]) hs hat hv)))
        · right; left
          rcases hcase with hns | ⟨hp, t0, rfl⟩
          · intro k t h1 h2 hk
            rw [List.getElem?_append_right (by omega)] at hk
            exact hns _ (List.mem_of_getElem? hk) t rfl
          · rw [List.getElem?_append_right (by omega)] at hs
            have := List.mem_of_getElem? hs
            simp at this
  exact this.2

end Repast.Schedule
