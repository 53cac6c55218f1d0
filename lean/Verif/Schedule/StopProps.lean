import Verif.Schedule.Stop

/-! C73: the theorems. -/
namespace Repast.Schedule

theorem StopsAt.left {T : Int} {l : List Act} {a b : List Obs} (h : StopsAt T l (a ++ b)) : StopsAt T l a :=
  ⟨h.1, h.2.1, fun ev now d hs hc ht hv =>
    h.2.2 ev now d (List.mem_append_left _ hs) hc ht (List.mem_append_left (bs := b) hv)⟩

theorem NotBefore.left {T : Int} {a b : List Obs} (h : NotBefore T (a ++ b)) : NotBefore T a := by
  intro pre post hp
  exact h pre (post ++ b) (by rw [hp]; simp)

/-! Checks of the hypotheses for the examples. -/

def stopsAtCheck (T : Int) (l : List Act) (tr : List Obs) : Bool :=
  decide (startTick < T) && decide (Act.schedStop (some T) ∈ l) && tr.all (fun o => match o with
    | .sched ev _ _ => !(decide (ev.cb = .stop) && decide (ev.at_ = T)) || decide (Obs.voided ev.id ∉ tr)
    | _ => true)

theorem stopsAt_of_check {T : Int} {l : List Act} {tr : List Obs} (h : stopsAtCheck T l tr = true) : StopsAt T l tr := by
  simp only [stopsAtCheck, Bool.and_eq_true, decide_eq_true_eq, List.all_eq_true] at h
  refine ⟨h.1.1, h.1.2, ?_⟩
  intro ev now d hm hc ht
  have := h.2 _ hm
  simpa [hc, ht, IsVoided] using this

def notBeforeCheck (T : Int) (tr : List Obs) : Bool :=
  (List.range tr.length).all (fun k => !decide (tr[k]? = some .stopped) || decide (Obs.start T ∈ tr.take k))

theorem notBefore_of_check {T : Int} {tr : List Obs} (h : notBeforeCheck T tr = true) : NotBefore T tr := by
  intro pre post hp
  simp only [notBeforeCheck, List.all_eq_true, List.mem_range] at h
  have := h pre.length (by rw [hp]; simp)
  rw [hp] at this
  simpa using this

def nonNegCheck (tr : List Obs) : Bool := tr.all (fun o => match o with
  | .sched ev _ _ => decide (0 ≤ ev.interval.getD 0)
  | _ => true)

theorem nonNeg_of_check {tr : List Obs} (h : nonNegCheck tr = true) : NonNegIntervals tr := by
  intro ev now d i hm hi
  simp only [nonNegCheck, List.all_eq_true] at h
  have := h _ hm
  simpa [hi] using this

/-- What a step does to one rank. -/
theorem wstep_cases (e : Nat → Env) (n : Nat) (w : World) (o : WOp) (k : Nat) :
    (wstep e n w o).ranks k = w.ranks k ∨
    (o = .arrive k ∧ (w.ranks k).st.phase = .idle ∧ (w.ranks k).st.go = true ∧ (w.ranks k).wait = none ∧ (w.ranks k).grant = none ∧
      (wstep e n w o).ranks k = { w.ranks k with wait := some (w.ranks k).st.nextTick }) ∨
    (o = .reduce ∧ ∃ m, w.allreduce n = some m ∧ (wstep e n w o).ranks k = { w.ranks k with wait := none, grant := some m }) ∨
    (o = .resume k ∧ ∃ m, (w.ranks k).grant = some m ∧
      (wstep e n w o).ranks k = { st := step (e k) (w.ranks k).st (if (w.ranks k).st.nextTick = m then .enter else .skip) }) ∨
    (o = .loop k ∧ (w.ranks k).st.phase = .running ∧ (wstep e n w o).ranks k = { st := step (e k) (w.ranks k).st .loop }) ∨
    (o = .leave k ∧ (w.ranks k).st.phase = .idle ∧ (w.ranks k).st.go = false ∧
      (wstep e n w o).ranks k = { st := { (w.ranks k).st with phase := .ending 0 } }) ∨
    (o = .endEvt k ∧ (∃ i, (w.ranks k).st.phase = .ending i) ∧ (wstep e n w o).ranks k = { st := step (e k) (w.ranks k).st .endEvt }) := by
  cases o with
  | arrive i =>
    simp only [wstep]
    split
    · rename_i h
      by_cases hk : k = i
      · subst hk; right; left; exact ⟨rfl, h.1, h.2.1, h.2.2.1, h.2.2.2, by simp⟩
      · left; simp [hk]
    · left; rfl
  | reduce =>
    simp only [wstep]
    cases h : w.allreduce n with
    | none => left; rfl
    | some m => right; right; left; exact ⟨trivial, m, rfl, rfl⟩
  | resume i =>
    simp only [wstep]
    cases h : (w.ranks i).grant with
    | none => left; rfl
    | some m =>
      simp only [World.localStep]
      by_cases hk : k = i
      · subst hk; right; right; right; left; exact ⟨rfl, m, h, by simp⟩
      · left; simp [hk]
  | loop i =>
    simp only [wstep]
    split
    · rename_i h
      simp only [World.localStep]
      by_cases hk : k = i
      · subst hk; right; right; right; right; left; exact ⟨rfl, h, by simp⟩
      · left; simp [hk]
    · left; rfl
  | leave i =>
    simp only [wstep]
    split
    · rename_i h
      simp only [World.localStep]
      by_cases hk : k = i
      · subst hk; right; right; right; right; right; left
        refine ⟨rfl, h.1, h.2, ?_⟩
        simp only [if_true, step, if_pos h]
      · left; simp [hk]
    · left; rfl
  | endEvt i =>
    simp only [wstep]
    split
    · rename_i j h
      simp only [World.localStep]
      by_cases hk : k = i
      · subst hk; right; right; right; right; right; right; exact ⟨rfl, ⟨j, h⟩, by simp⟩
      · left; simp [hk]
    · left; rfl

theorem endEvt_phase {e : Env} {s : St} {k : Nat} (hp : s.phase = .ending k) :
    (step e s .endEvt).phase ≠ .running ∧ (step e s .endEvt).phase ≠ .idle := by
  simp only [step, hp]
  split
  · simp
  · split
    · simp
    · rw [foldl_applyAct_phase]; simp

/-- What all the theorems ask of the histories of the ranks. -/
def Runs (n : Nat) (w : World) : Prop := ∀ i, i < n → NonNegIntervals (w.ranks i).st.trace

theorem Runs.prev {e : Nat → Env} {n : Nat} {w : World} {o : WOp} (h : Runs n (wstep e n w o)) : Runs n w := by
  intro i hi
  obtain ⟨tl, ht⟩ := wstep_prefix e n w o i
  have := h i hi
  rw [ht] at this
  exact this.left

theorem StopsAt.prev {e : Nat → Env} {n : Nat} {w : World} {o : WOp} {T : Int} {l : List Act} {i : Nat}
    (h : StopsAt T l ((wstep e n w o).ranks i).st.trace) : StopsAt T l (w.ranks i).st.trace := by
  obtain ⟨tl, ht⟩ := wstep_prefix e n w o i
  rw [ht] at h
  exact h.left

theorem NotBefore.prev {e : Nat → Env} {n : Nat} {w : World} {o : WOp} {T : Int} {i : Nat}
    (h : NotBefore T ((wstep e n w o).ranks i).st.trace) : NotBefore T (w.ranks i).st.trace := by
  obtain ⟨tl, ht⟩ := wstep_prefix e n w o i
  rw [ht] at h
  exact h.left

/-- No rank is past `T`. -/
def NotPast (T : Int) (r : Rank) : Prop := r.st.tick ≤ T ∧ ∀ m, r.grant = some m → m ≤ T

theorem notPast_all (e : Nat → Env) (n : Nat) (setup : Nat → List Act) (ops : List WOp) (hadv : ∀ i, AdvMono (e i))
    (hs : ∀ i, i < n → Synced ((setup i).foldl applyAct St.init)) (hnn : Runs n (wrun e n setup ops))
    (T : Int) (i : Nat) (hi : i < n) (hT : StopsAt T (setup i) ((wrun e n setup ops).ranks i).st.trace) :
    ∀ k, k < n → NotPast T ((wrun e n setup ops).ranks k) := by
  refine wrun_induct e n setup hadv hs (fun w => Runs n w ∧ StopsAt T (setup i) (w.ranks i).st.trace)
    (fun w => ∀ k, k < n → NotPast T (w.ranks k)) (fun w o h => ⟨h.1.prev, h.2.prev⟩) (fun w h => h.1) ?_ ?_ ops ⟨hnn, hT⟩
  · intro k hk
    have h1 : ((setup k).foldl applyAct St.init).tick = startTick := foldl_applyAct_tick _ _
    refine ⟨?_, by simp [World.init]⟩
    have := hT.1
    simp only [World.init, h1]
    omega
  · intro ops o L ho hL hH hP k hk
    have hdue := stop_due (e := e) (n := n) (setup := setup) (ops := ops) (i := i) (T := T)
    rw [List.foldl_append, List.foldl_cons, List.foldl_nil] at hH ⊢
    have hdue := hdue hH.2.prev
    generalize ops.foldl (wstep e n) (World.init setup) = w at *
    have hPk := hP k hk
    rcases wstep_cases e n w o k with h | ⟨-, -, -, -, hg, h⟩ | ⟨-, m, hm, h⟩ | ⟨-, m, hm, h⟩ | ⟨-, hp, h⟩ | ⟨-, hp, hg, h⟩ | ⟨-, hp, h⟩ <;> rw [h]
    · exact hPk
    · exact ⟨hPk.1, hPk.2⟩
    · refine ⟨hPk.1, ?_⟩
      intro m' hm'
      simp only [Option.some.injEq] at hm'
      subst hm'
      obtain ⟨v, hv, hmv⟩ := (allreduce_spec hm).1 i hi
      obtain ⟨h1, h2, h3⟩ := (hL.rank i hi).wait v hv
      rcases hdue (by rw [h2]; simp) with hgo | ⟨-, t, ht, hle⟩
      · rw [h3] at hgo; cases hgo
      · have := (hL.rank i hi).sync h2
        unfold Synced schedNextTick at this
        rw [ht] at this
        simp only [Option.getD_some] at this
        omega
    · have hmT := hPk.2 m hm
      obtain ⟨h1, h2, -⟩ := (hL.rank k hk).grant m hm
      refine ⟨?_, by simp⟩
      split
      · rename_i hn
        rcases enter_tick (e := e k) h1 h2 ((hL.rank k hk).sync h1) with ⟨-, ht, -⟩ | ⟨ht, -⟩
        · simp only [ht]; exact hPk.1
        · simp only [ht, hn]; exact hmT
      · simp only [step_tick (e k) _ .skip (by simp) (by simp)]; exact hPk.1
    · exact ⟨by simp only [step_tick (e k) _ .loop (by simp) (by simp)]; exact hPk.1, by simp⟩
    · exact ⟨hPk.1, by simp⟩
    · exact ⟨by simp only [step_tick (e k) _ .endEvt (by simp) (by simp)]; exact hPk.1, by simp⟩

theorem wrun_mono (e : Nat → Env) (n : Nat) (setup : Nat → List Act) (ops : List WOp) (hadv : ∀ i, AdvMono (e i))
    (hnn : Runs n (wrun e n setup ops)) (k : Nat) (hk : k < n) : Mono ((wrun e n setup ops).ranks k).st := by
  have := hnn k hk
  unfold wrun at *
  obtain ⟨l, hl⟩ := rank_run e n setup (ops.filter _) k
  rw [hl] at this ⊢
  exact run_mono (e k) l (hadv k) this

theorem mono_start_le {s : St} (h : Mono s) {t : Int} (ht : Obs.start t ∈ s.trace) : t ≤ s.tick := by
  have hm : t ∈ starts s.trace := by
    simp only [starts, List.mem_filterMap]
    exact ⟨_, ht, rfl⟩
  have hp := h.starts
  have hl := h.last
  rw [List.pairwise_cons] at hp
  obtain ⟨l, x, hx⟩ : ∃ l x, starts s.trace = l ++ [x] := by
    rcases List.eq_nil_or_concat (starts s.trace) with h | ⟨l, x, h⟩
    · rw [h] at hm; simp at hm
    · exact ⟨l, x, by simpa using h⟩
  rw [hx] at hm hp hl
  have : x = s.tick := by
    rw [← List.cons_append, List.getLast?_append] at hl
    simpa using hl
  subst this
  rw [List.mem_append] at hm
  rcases hm with hm | hm
  · exact (List.pairwise_append.1 hp.2).2.2 t hm _ (by simp)
  · simp at hm; omega

/-- If one rank schedules its stop at `T`, no rank enters a tick after `T`. -/
theorem C73_no_tick_after_partial (e : Nat → Env) (n : Nat) (setup : Nat → List Act) (ops : List WOp) (hadv : ∀ i, AdvMono (e i))
    (hs : ∀ i, i < n → StopsFresh (setup i) ∨ ∀ t, Act.schedStop t ∉ setup i)
    (hnn : ∀ i, i < n → NonNegIntervals ((wrun e n setup ops).ranks i).st.trace)
    (T : Int) (i : Nat) (hi : i < n) (hT : StopsAt T (setup i) ((wrun e n setup ops).ranks i).st.trace)
    (k : Nat) (hk : k < n) (t : Int) (ht : Obs.start t ∈ ((wrun e n setup ops).ranks k).st.trace) : t ≤ T := by
  have h1 := notPast_all e n setup ops hadv (fun i hi => fresh_synced (hs i hi)) hnn T i hi hT k hk
  exact Int.le_trans (mono_start_le (wrun_mono e n setup ops hadv hnn k hk) ht) h1.1

theorem stop_caused (e : Nat → Env) (n : Nat) (setup : Nat → List Act) (ops : List WOp) (k : Nat)
    (h1 : Act.stop ∉ setup k) (h2 : NoStop (e k)) :
    StopCaused ((ops.foldl (wstep e n) (World.init setup)).ranks k).st.trace := by
  induction ops using snoc_induction with
  | h0 =>
    obtain ⟨tl, h3, -, h4⟩ := acts_quiet (setup k) St.init
    simp only [List.foldl_nil, World.init]
    rw [h3]
    intro h
    exact absurd (by simpa [St.init] using h) (h4 h1)
  | h1 ops o ih =>
    have hf : ∀ j, ((ops.foldl (wstep e n) (World.init setup)).ranks k).st.phase = .ending j →
        Obs.stopped ∈ ((ops.foldl (wstep e n) (World.init setup)).ranks k).st.trace := by
      intro j hj
      obtain ⟨l, hl⟩ := rank_run e n setup ops k
      rw [hl] at hj ⊢
      refine (run_facts (e k) l).go.1 ((run_facts (e k) l).ending ?_ ?_) <;> simp [St.view, hj]
    rw [List.foldl_append, List.foldl_cons, List.foldl_nil]
    obtain ⟨tl, ht⟩ := wstep_prefix e n (ops.foldl (wstep e n) (World.init setup)) o k
    generalize ops.foldl (wstep e n) (World.init setup) = w at *
    have loc : ∀ op, (∀ a, op ≠ .act a) → op ≠ .endEvt → StopCaused (step (e k) (w.ranks k).st op).trace := by
      intro op h3 h4
      obtain ⟨tl, h5, -, h6⟩ := adds_step (e k) (w.ranks k).st op h3 h4
      rw [h5]
      exact ih.append (h6 h2)
    rcases wstep_cases e n w o k with h | ⟨-, -, -, -, hg, h⟩ | ⟨-, m, hm, h⟩ | ⟨-, m, hm, h⟩ | ⟨-, hp, h⟩ | ⟨-, hp, hg, h⟩ | ⟨-, ⟨j, hp⟩, h⟩
    · rw [h]; exact ih
    · rw [h]; exact ih
    · rw [h]; exact ih
    · rw [h]
      refine loc _ ?_ ?_ <;> split <;> simp
    · rw [h]; exact loc _ (by simp) (by simp)
    · rw [h]; exact ih
    · intro _
      obtain ⟨ev, now, h3, h4⟩ := ih (hf j hp)
      exact ⟨ev, now, by rw [ht]; exact List.mem_append_left _ h3, h4⟩

theorem le_occ {e : Env} (hadv : AdvMono e) {ev : Ev} (h : ∀ i, ev.interval = some i → 0 ≤ i) (k : Nat) : ev.at_ ≤ occ e ev k := by
  induction k with
  | zero => exact Int.le_refl _
  | succ k ih =>
    simp only [occ]
    split
    · exact Int.le_refl _
    · rename_i i hi
      exact Int.le_trans ih (hadv _ _ (h i hi))

/-- If one rank schedules its stop at `T`, a rank all of whose stops are for later ticks, and whose events do not call `stop()` themselves, is
never stopped and never finishes, whatever happens. -/
theorem C73_left_behind (e : Nat → Env) (n : Nat) (setup : Nat → List Act) (ops : List WOp) (hadv : ∀ i, AdvMono (e i))
    (hs : ∀ i, i < n → StopsFresh (setup i) ∨ ∀ t, Act.schedStop t ∉ setup i)
    (hnn : ∀ i, i < n → NonNegIntervals ((wrun e n setup ops).ranks i).st.trace)
    (T : Int) (i : Nat) (hi : i < n) (hT : StopsAt T (setup i) ((wrun e n setup ops).ranks i).st.trace)
    (k : Nat) (hk : k < n) (h1 : Act.stop ∉ setup k) (h2 : ∀ h ev, Act.stop ∉ (e k).prog h ev)
    (h3 : ∀ ev now d, Obs.sched ev now d ∈ ((wrun e n setup ops).ranks k).st.trace → ev.cb = .stop → T < ev.at_) :
    Obs.stopped ∉ ((wrun e n setup ops).ranks k).st.trace ∧ ((wrun e n setup ops).ranks k).st.phase ≠ .finished := by
  have hafter := C73_no_tick_after_partial e n setup ops hadv hs hnn T i hi hT k hk
  have hnn := hnn k hk
  have hcaused : StopCaused ((wrun e n setup ops).ranks k).st.trace := by
    unfold wrun
    exact stop_caused e n setup _ k h1 h2
  obtain ⟨l, hl⟩ : ∃ l, ((wrun e n setup ops).ranks k).st = run (e k) l := by
    unfold wrun
    exact rank_run e n setup (ops.filter _) k
  rw [hl] at hafter hnn hcaused h3 ⊢
  have key : Obs.stopped ∉ (run (e k) l).trace := by
    intro h
    obtain ⟨ev, now, hr, hc⟩ := hcaused h
    obtain ⟨j, hj⟩ := List.getElem?_of_mem hr
    obtain ⟨hnow, hlast⟩ := C01_runs_at_own_tick (e k) l j ev now hj
    obtain ⟨a, na, da, hs0, hid⟩ := (run_inv (e k) l).ranSrc ev now hr
    obtain ⟨c, hcn⟩ := (run_inv (e k) l).track a na da hs0
    have hm : (ev, now) ∈ runsOf a.id (run (e k) l).trace := mem_runsOf.2 ⟨hr, hid⟩
    rw [hcn.runs, List.mem_map] at hm
    obtain ⟨x, -, hx⟩ := hm
    simp only [Prod.mk.injEq] at hx
    have hacb : a.cb = .stop := by rw [← hc, ← hx.1]; rfl
    have h4 := h3 a na da hs0 hacb
    have h5 := le_occ (hadv k) (hnn a na da · hs0) x
    have hmem := List.mem_of_getLast? hlast
    have hT1 := hT.1
    rcases List.mem_cons.1 hmem with h | h
    · omega
    · simp only [starts, List.mem_filterMap] at h
      obtain ⟨o, ho, h⟩ := h
      cases o <;> simp at h
      have := hafter now (by rw [← h]; exact List.mem_of_mem_take ho)
      omega
  refine ⟨key, fun hf => key ?_⟩
  refine (run_facts (e k) l).go.1 ((run_facts (e k) l).ending ?_ ?_) <;> simp [St.view, hf]

/-! ### All ranks stop at the same tick -/

def Before (T : Int) (r : Rank) : Prop := r.st.tick < T ∧ ∀ m, r.grant = some m → m < T

def During (T : Int) (r : Rank) : Prop :=
  (r.wait = none ∧ r.grant = some T ∧ r.st.nextTick = T) ∨
  (r.st.phase = .running ∧ r.st.tick = T ∧ r.wait = none ∧ r.grant = none) ∨
  (r.st.phase ≠ .running ∧ r.st.go = false ∧ r.st.tick = T ∧ r.wait = none ∧ r.grant = none)

/-- What is asked of all the ranks. -/
def AllStop (n : Nat) (T : Int) (setup : Nat → List Act) (w : World) : Prop :=
  ∀ i, i < n → NonNegIntervals (w.ranks i).st.trace ∧ StopsAt T (setup i) (w.ranks i).st.trace ∧ NotBefore T (w.ranks i).st.trace

theorem AllStop.prev {e : Nat → Env} {n : Nat} {w : World} {o : WOp} {T : Int} {setup : Nat → List Act}
    (h : AllStop n T setup (wstep e n w o)) : AllStop n T setup w := by
  intro i hi
  have hr : Runs n (wstep e n w o) := fun i hi => (h i hi).1
  exact ⟨hr.prev i hi, (h i hi).2.1.prev, (h i hi).2.2.prev⟩

/-- Before `T` nobody is stopped. -/
theorem go_of_lt (e : Nat → Env) (n : Nat) (setup : Nat → List Act) (ops : List WOp) (hadv : ∀ i, AdvMono (e i))
    (T : Int) (h : AllStop n T setup (ops.foldl (wstep e n) (World.init setup))) (k : Nat) (hk : k < n)
    (ht : ((ops.foldl (wstep e n) (World.init setup)).ranks k).st.tick < T) :
    ((ops.foldl (wstep e n) (World.init setup)).ranks k).st.go = true ∧
    (((ops.foldl (wstep e n) (World.init setup)).ranks k).st.phase = .idle ∨
      ((ops.foldl (wstep e n) (World.init setup)).ranks k).st.phase = .running) := by
  obtain ⟨h1, -, h3⟩ := h k hk
  obtain ⟨l, hl⟩ := rank_run e n setup ops k
  rw [hl] at h1 h3 ht ⊢
  have hm := run_mono (e k) l (hadv k) h1
  have hgo : (run (e k) l).go = true := by
    cases hgo : (run (e k) l).go with
    | true => rfl
    | false =>
      obtain ⟨pre, post, hp⟩ := List.append_of_mem ((run_facts (e k) l).go.1 hgo)
      have hp : (run (e k) l).trace = pre ++ Obs.stopped :: post := hp
      have := mono_start_le hm (t := T) (by rw [hp]; exact List.mem_append_left _ (h3 pre post hp))
      omega
  refine ⟨hgo, ?_⟩
  apply Classical.byContradiction
  intro hc
  have := (run_facts (e k) l).ending (fun h => hc (.inl h)) (fun h => hc (.inr h))
  rw [show (run (e k) l).view.go = (run (e k) l).go from rfl, hgo] at this
  cases this

theorem together (e : Nat → Env) (n : Nat) (setup : Nat → List Act) (ops : List WOp) (hadv : ∀ i, AdvMono (e i))
    (hs : ∀ i, i < n → Synced ((setup i).foldl applyAct St.init)) (T : Int) (hT : startTick < T)
    (hall : AllStop n T setup (wrun e n setup ops)) :
    (∀ k, k < n → Before T ((wrun e n setup ops).ranks k)) ∨ (∀ k, k < n → During T ((wrun e n setup ops).ranks k)) := by
  refine wrun_induct e n setup hadv hs (fun w => AllStop n T setup w)
    (fun w => (∀ k, k < n → Before T (w.ranks k)) ∨ (∀ k, k < n → During T (w.ranks k)))
    (fun w o h => h.prev) (fun w h i hi => (h i hi).1) ?_ ?_ ops hall
  · left
    intro k hk
    have h1 : ((setup k).foldl applyAct St.init).tick = startTick := foldl_applyAct_tick _ _
    refine ⟨?_, by simp [World.init]⟩
    simp only [World.init, h1]
    omega
  · intro ops o L ho hL hH hP
    have hdue' := fun k (hk : k < n) => stop_due (e := e) (n := n) (setup := setup) (ops := ops ++ [o]) (i := k) (T := T) (hH k hk).2.1
    have hH0 : AllStop n T setup (ops.foldl (wstep e n) (World.init setup)) := by
      rw [List.foldl_append, List.foldl_cons, List.foldl_nil] at hH
      exact hH.prev
    have hdue := fun k (hk : k < n) => stop_due (e := e) (n := n) (setup := setup) (ops := ops) (i := k) (T := T) (hH0 k hk).2.1
    have hgo := fun k (hk : k < n) => go_of_lt e n setup ops hadv T hH0 k hk
    rw [List.foldl_append, List.foldl_cons, List.foldl_nil] at hdue' ⊢
    generalize ops.foldl (wstep e n) (World.init setup) = w at *
    have hhead : ∀ k, k < n → (w.ranks k).st.phase = .idle → (w.ranks k).st.go = true → (w.ranks k).st.nextTick ≤ T ∧ (w.ranks k).st.queue ≠ [] := by
      intro k hk h1 h2
      rcases hdue k hk (by rw [h1]; simp) with h | ⟨-, t, ht, hle⟩
      · rw [h2] at h; cases h
      · have := (hL.rank k hk).sync h1
        unfold Synced schedNextTick at this
        rw [ht] at this
        simp only [Option.getD_some] at this
        refine ⟨by omega, ?_⟩
        intro hq
        rw [headTick, hq] at ht
        simp at ht
    rcases hP with hP | hP
    · by_cases hred : ∃ m, o = .reduce ∧ w.allreduce n = some m
      · obtain ⟨m, rfl, hm⟩ := hred
        have hw : ∀ k, k < n → m ≤ (w.ranks k).st.nextTick ∧ (w.ranks k).st.nextTick ≤ T := by
          intro k hk
          obtain ⟨v, hv, hmv⟩ := (allreduce_spec hm).1 k hk
          obtain ⟨h1, h2, h3⟩ := (hL.rank k hk).wait v hv
          exact ⟨by omega, (hhead k hk h2 h3).1⟩
        by_cases hmT : m = T
        · right
          intro k hk
          obtain ⟨h1, h2⟩ := hw k hk
          simp only [wstep, hm]
          exact .inl ⟨rfl, by rw [hmT], by simp only []; omega⟩
        · left
          intro k hk
          obtain ⟨h1, h2⟩ := hw k hk
          simp only [wstep, hm]
          refine ⟨(hP k hk).1, ?_⟩
          intro m' hm'
          simp only [Option.some.injEq] at hm'
          omega
      · left
        intro k hk
        have hPk := hP k hk
        rcases wstep_cases e n w o k with h | ⟨-, -, -, -, hg, h⟩ | ⟨h1, m, hm, h⟩ | ⟨-, m, hm, h⟩ | ⟨-, hp, h⟩ | ⟨-, hp, hg, h⟩ | ⟨-, hp, h⟩
        · rw [h]; exact hPk
        · rw [h]; exact ⟨hPk.1, hPk.2⟩
        · exact absurd ⟨m, h1, hm⟩ hred
        · rw [h]
          have hmT := hPk.2 m hm
          obtain ⟨h1, h2, -⟩ := (hL.rank k hk).grant m hm
          refine ⟨?_, by simp⟩
          split
          · rename_i hn
            rcases enter_tick (e := e k) h1 h2 ((hL.rank k hk).sync h1) with ⟨-, ht, -⟩ | ⟨ht, -⟩
            · simp only [ht]; exact hPk.1
            · simp only [ht, hn]; exact hmT
          · simp only [step_tick (e k) _ .skip (by simp) (by simp)]; exact hPk.1
        · rw [h]; exact ⟨by simp only [step_tick (e k) _ .loop (by simp) (by simp)]; exact hPk.1, by simp⟩
        · rw [h]; exact ⟨hPk.1, by simp⟩
        · rw [h]; exact ⟨by simp only [step_tick (e k) _ .endEvt (by simp) (by simp)]; exact hPk.1, by simp⟩
    · right
      intro k hk
      have hPk := hP k hk
      have hd' := hdue' k hk
      rcases wstep_cases e n w o k with h | ⟨-, h1, h2, h3, hg, h⟩ | ⟨h1, m, hm, h⟩ | ⟨-, m, hm, h⟩ | ⟨-, hp, h⟩ | ⟨-, hp, hg, h⟩ | ⟨-, hp, h⟩
      · rw [h]; exact hPk
      · rcases hPk with ⟨-, h, -⟩ | ⟨h, -⟩ | ⟨-, h, -⟩
        · rw [hg] at h; cases h
        · rw [h1] at h; cases h
        · rw [h2] at h; cases h
      · obtain ⟨v, hv, -⟩ := (allreduce_spec hm).1 k hk
        rcases hPk with ⟨h, -⟩ | ⟨-, -, h, -⟩ | ⟨-, -, -, h, -⟩ <;> (rw [hv] at h; cases h)
      · rw [h]
        rcases hPk with ⟨h3, h4, h5⟩ | ⟨-, -, -, h'⟩ | ⟨-, -, -, -, h'⟩
        · rw [h4] at hm
          have hmT : m = T := (Option.some.inj hm).symm
          subst hmT
          obtain ⟨h1, h2, -⟩ := (hL.rank k hk).grant m h4
          rw [if_pos h5]
          rcases enter_tick (e := e k) h1 h2 ((hL.rank k hk).sync h1) with ⟨hq, -⟩ | ⟨ht, hr⟩
          · exact absurd hq (hhead k hk h1 h2).2
          · exact .inr (.inl ⟨hr, by rw [← h5]; exact ht, rfl, rfl⟩)
        · rw [hm] at h'; cases h'
        · rw [hm] at h'; cases h'
      · rw [h] at hd' ⊢
        have htick : (step (e k) (w.ranks k).st .loop).tick = T := by
          rw [step_tick (e k) _ .loop (by simp) (by simp)]
          rcases hPk with ⟨-, h4, -⟩ | ⟨-, h4, -⟩ | ⟨h4, -⟩
          · have := ((hL.rank k hk).grant T h4).1
            rw [hp] at this; cases this
          · exact h4
          · exact absurd hp h4
        by_cases hr : (step (e k) (w.ranks k).st .loop).phase = .running
        · exact .inr (.inl ⟨hr, htick, rfl, rfl⟩)
        · rcases hd' hr with h' | ⟨h', -⟩
          · exact .inr (.inr ⟨hr, h', htick, rfl, rfl⟩)
          · simp only [htick] at h'; omega
      · rw [h]
        rcases hPk with ⟨-, h4, -⟩ | ⟨h4, -⟩ | ⟨-, -, h4, -⟩
        · have := ((hL.rank k hk).grant T h4).2.1
          rw [hg] at this; cases this
        · rw [hp] at h4; cases h4
        · exact .inr (.inr ⟨by simp, hg, h4, rfl, rfl⟩)
      · rw [h] at hd' ⊢
        obtain ⟨i, hp⟩ := hp
        have hph := endEvt_phase (e := e k) hp
        rcases hPk with ⟨-, h4, -⟩ | ⟨h4, -⟩ | ⟨-, -, h4, -⟩
        · have := ((hL.rank k hk).grant T h4).1
          rw [hp] at this; cases this
        · rw [hp] at h4; cases h4
        · have htick : (step (e k) (w.ranks k).st .endEvt).tick = T := by
            rw [step_tick (e k) _ .endEvt (by simp) (by simp)]; exact h4
          rcases hd' hph.1 with h' | ⟨h', -⟩
          · exact .inr (.inr ⟨hph.1, h', htick, rfl, rfl⟩)
          · simp only [htick] at h'; omega

/-- Every rank calls `schedule_stop(T)` before `execute()`, that stop is not voided and nobody is stopped before tick `T`. Then, in
every reachable state: all ranks have finished or some rank can go on; no rank has entered a tick after `T`; and a rank that
has left the loop has entered `T`. Partial: it requires that `next_tick` is right when `execute()` begins (`StopsFresh`, see
`C73_violation`) and that intervals are not negative. -/
theorem C73_stop_together_partial (e : Nat → Env) (n : Nat) (setup : Nat → List Act) (ops : List WOp) (hadv : ∀ i, AdvMono (e i))
    (T : Int) (hs : ∀ i, i < n → StopsFresh (setup i))
    (hnn : ∀ i, i < n → NonNegIntervals ((wrun e n setup ops).ranks i).st.trace)
    (hT : ∀ i, i < n → StopsAt T (setup i) ((wrun e n setup ops).ranks i).st.trace)
    (hb : ∀ i, i < n → NotBefore T ((wrun e n setup ops).ranks i).st.trace) :
    ((∀ i, i < n → ((wrun e n setup ops).ranks i).st.phase = .finished) ∨ ∃ o, CanGoOn n (wrun e n setup ops) o) ∧
    ∀ i, i < n →
      (∀ t, Obs.start t ∈ ((wrun e n setup ops).ranks i).st.trace → t ≤ T) ∧
      (((wrun e n setup ops).ranks i).st.phase ≠ .idle → ((wrun e n setup ops).ranks i).st.phase ≠ .running →
        Obs.start T ∈ ((wrun e n setup ops).ranks i).st.trace) := by
  by_cases hn : n = 0
  · subst hn
    exact ⟨.inl (fun i hi => absurd hi (by omega)), fun i hi => absurd hi (by omega)⟩
  have hT0 : startTick < T := (hT 0 (by omega)).1
  have hsync : ∀ i, i < n → Synced ((setup i).foldl applyAct St.init) := fun i hi => (hs i hi).synced
  have hall : AllStop n T setup (wrun e n setup ops) := fun i hi => ⟨hnn i hi, hT i hi, hb i hi⟩
  have hor := together e n setup ops hadv hsync T hT0 hall
  have hgo : ∀ i, i < n → ((wrun e n setup ops).ranks i).st.tick < T → ((wrun e n setup ops).ranks i).st.go = true ∧
      (((wrun e n setup ops).ranks i).st.phase = .idle ∨ ((wrun e n setup ops).ranks i).st.phase = .running) := by
    intro i hi
    unfold wrun at *
    exact go_of_lt e n setup (ops.filter _) hadv T hall i hi
  refine ⟨?_, fun i hi => ⟨fun t ht =>
    C73_no_tick_after_partial e n setup ops hadv (fun i hi => .inl (hs i hi)) hnn T i hi (hT i hi) i hi t ht, fun h1 h2 => ?_⟩⟩
  · rcases hor with h | h
    · by_cases h1 : ∃ i, i < n ∧ ((wrun e n setup ops).ranks i).st.phase = .running
      · obtain ⟨i, h1, h2⟩ := h1
        exact .inr ⟨.loop i, h1, h2⟩
      · have hidle : ∀ i, i < n → ((wrun e n setup ops).ranks i).st.phase = .idle :=
          fun i hi => (hgo i hi (h i hi).1).2.resolve_right (fun hr => h1 ⟨i, hi, hr⟩)
        by_cases h2 : ∃ i, i < n ∧ ((wrun e n setup ops).ranks i).grant.isSome
        · obtain ⟨i, h1, h2⟩ := h2
          exact .inr ⟨.resume i, h1, h2⟩
        · by_cases h3 : ∃ i, i < n ∧ ((wrun e n setup ops).ranks i).wait = none
          · obtain ⟨i, hi, h3⟩ := h3
            refine .inr ⟨.arrive i, hi, hidle i hi, (hgo i hi (h i hi).1).1, h3, ?_⟩
            cases hg : ((wrun e n setup ops).ranks i).grant with
            | none => rfl
            | some m => exact absurd ⟨i, hi, by simp [hg]⟩ h2
          · refine .inr ⟨.reduce, by omega, ?_⟩
            intro i hi
            cases hw : ((wrun e n setup ops).ranks i).wait with
            | none => exact absurd ⟨i, hi, hw⟩ h3
            | some v => rfl
    · by_cases hf : ∀ i, i < n → ((wrun e n setup ops).ranks i).st.phase = .finished
      · exact .inl hf
      · right
        simp only [Classical.not_forall] at hf
        obtain ⟨i, hi, hf⟩ := hf
        rcases h i hi with ⟨-, h, -⟩ | ⟨h, -⟩ | ⟨h1, h2, -⟩
        · exact ⟨.resume i, hi, by simp [h]⟩
        · exact ⟨.loop i, hi, h⟩
        · cases hp : ((wrun e n setup ops).ranks i).st.phase with
          | idle => exact ⟨.leave i, hi, hp, h2⟩
          | running => exact absurd hp h1
          | ending k => exact ⟨.endEvt i, hi, k, hp⟩
          | finished => exact absurd hp hf
  · have htick : ((wrun e n setup ops).ranks i).st.tick = T := by
      rcases hor with h | h
      · rcases (hgo i hi (h i hi).1).2 with h | h
        · exact absurd h h1
        · exact absurd h h2
      · rcases h i hi with ⟨-, h, -⟩ | ⟨h, -⟩ | ⟨-, -, h, -⟩
        · obtain ⟨L, hL⟩ := wrun_inv e n setup ops hadv hsync hnn
          exact absurd ((hL.rank i hi).grant T h).1 h1
        · exact absurd h h2
        · exact h
    have hm := (wrun_mono e n setup ops hadv hnn i hi).last
    rw [htick] at hm
    have := List.mem_of_getLast? hm
    rcases List.mem_cons.1 this with h | h
    · omega
    · simp only [starts, List.mem_filterMap] at h
      obtain ⟨o, ho, h⟩ := h
      cases o <;> simp at h
      rw [← h]; exact ho

/-! ### A rank that has left the loop is missed by the others -/

theorem wait_grant (e : Nat → Env) (n : Nat) (setup : Nat → List Act) (ops : List WOp) (k : Nat) (hk : k < n) :
    ∀ w, w = ops.foldl (wstep e n) (World.init setup) → ((w.ranks k).wait.isSome ∨ (w.ranks k).grant.isSome) →
      (w.ranks k).st.phase = .idle ∧ (w.ranks k).st.go = true ∧ ((w.ranks k).wait = none ∨ (w.ranks k).grant = none) := by
  induction ops using snoc_induction with
  | h0 => rintro w rfl; simp [World.init]
  | h1 ops o ih =>
    rintro w rfl
    rw [List.foldl_append, List.foldl_cons, List.foldl_nil]
    have ih := ih _ rfl
    generalize ops.foldl (wstep e n) (World.init setup) = w at *
    rcases wstep_cases e n w o k with h | ⟨-, h1, h2, h3, hg, h⟩ | ⟨h1, m, hm, h⟩ | ⟨-, m, hm, h⟩ | ⟨-, hp, h⟩ | ⟨-, hp, hg, h⟩ | ⟨-, hp, h⟩ <;> rw [h]
    · exact ih
    · exact fun _ => ⟨h1, h2, .inr hg⟩
    · obtain ⟨v, hv, -⟩ := (allreduce_spec hm).1 k hk
      have := ih (.inl (by simp [hv]))
      exact fun _ => ⟨this.1, this.2.1, .inl rfl⟩
    · simp
    · simp
    · simp
    · simp

/-- Once a rank has left the loop, a rank that has called `allreduce` stays there: nothing about it changes any more. -/
theorem C73_waits_for_ever (e : Nat → Env) (n : Nat) (setup : Nat → List Act) (ops more : List WOp) (i k : Nat) (hi : i < n) (hk : k < n)
    (h1 : ((wrun e n setup ops).ranks i).st.phase ≠ .idle) (h2 : ((wrun e n setup ops).ranks i).st.phase ≠ .running)
    (hw : ((wrun e n setup ops).ranks k).wait.isSome) :
    (wrun e n setup (ops ++ more)).ranks k = (wrun e n setup ops).ranks k := by
  unfold wrun at *
  rw [List.filter_append, List.foldl_append]
  generalize ops.filter _ = ops at *
  generalize more.filter _ = more
  have hki := wait_grant e n setup ops k hk _ rfl (.inl hw)
  have hii := wait_grant e n setup ops i hi _ rfl
  generalize ops.foldl (wstep e n) (World.init setup) = w at *
  have hii : (w.ranks i).wait = none ∧ (w.ranks i).grant = none := by
    refine ⟨?_, ?_⟩
    · cases hc : (w.ranks i).wait with
      | none => rfl
      | some v => exact absurd (hii (.inl (by simp [hc]))).1 h1
    · cases hc : (w.ranks i).grant with
      | none => rfl
      | some v => exact absurd (hii (.inr (by simp [hc]))).1 h1
  obtain ⟨v, hv⟩ := Option.isSome_iff_exists.1 hw
  have hkg : (w.ranks k).grant = none := by
    rcases hki.2.2 with h | h
    · rw [hv] at h; cases h
    · exact h
  have key : ∀ (more : List WOp) (w' : World), w'.ranks k = w.ranks k → (w'.ranks i).st.phase ≠ .idle → (w'.ranks i).st.phase ≠ .running →
      (w'.ranks i).wait = none → (w'.ranks i).grant = none → (more.foldl (wstep e n) w').ranks k = w.ranks k := by
    intro more
    induction more with
    | nil => exact fun w' h _ _ _ _ => h
    | cons o more ih =>
      intro w' hk' hi1 hi2 hi3 hi4
      have hnored : w'.allreduce n = none := by
        cases hr : w'.allreduce n with
        | none => rfl
        | some m =>
          obtain ⟨v, hv, -⟩ := (allreduce_spec hr).1 i hi
          rw [hi3] at hv; cases hv
      rw [List.foldl_cons]
      have hkk : (wstep e n w' o).ranks k = w'.ranks k := by
        rcases wstep_cases e n w' o k with h | ⟨-, h1, h2, h3, hg, h⟩ | ⟨h1, m, hm, h⟩ | ⟨-, m, hm, h⟩ | ⟨-, hp, h⟩ | ⟨-, hp, hg, h⟩ | ⟨-, ⟨j, hp⟩, h⟩
        · exact h
        · rw [hk', hv] at h3; cases h3
        · rw [hnored] at hm; cases hm
        · rw [hk', hkg] at hm; cases hm
        · rw [hk', hki.1] at hp; cases hp
        · rw [hk', hki.2.1] at hg; cases hg
        · rw [hk', hki.1] at hp; cases hp
      have hstay : ((wstep e n w' o).ranks i).st.phase ≠ .idle ∧ ((wstep e n w' o).ranks i).st.phase ≠ .running ∧
          ((wstep e n w' o).ranks i).wait = none ∧ ((wstep e n w' o).ranks i).grant = none := by
        rcases wstep_cases e n w' o i with h | ⟨-, h1, h2, h3, hg, h⟩ | ⟨h1, m, hm, h⟩ | ⟨-, m, hm, h⟩ | ⟨-, hp, h⟩ | ⟨-, hp, hg, h⟩ | ⟨-, ⟨j, hp⟩, h⟩
        · rw [h]; exact ⟨hi1, hi2, hi3, hi4⟩
        · exact absurd h1 hi1
        · rw [hnored] at hm; cases hm
        · rw [hi4] at hm; cases hm
        · exact absurd hp hi2
        · exact absurd hp hi1
        · rw [h]
          have := endEvt_phase (e := e i) hp
          exact ⟨this.2, this.1, rfl, rfl⟩
      exact ih _ (hkk.trans hk') hstay.1 hstay.2.1 hstay.2.2.1 hstay.2.2.2
  exact key more w rfl h1 h2 hii.1 hii.2

/-- C73 does not hold in general: two ranks schedule their stop at the same tick, one of them after an event at 1, and on the other
the stop is all there is. `schedule_stop` does not refresh `next_tick`, so that rank contributes -1 to the first reduction, executes its
stop straight away and leaves; the other one waits in `allreduce` for ever, with its event and its stop pending. -/
theorem C73_violation : ∃ (e : Nat → Env) (setup : Nat → List Act) (ops : List WOp),
    (∀ i, AdvMono (e i)) ∧ (∀ i, i < 2 → StopsAt 2 (setup i) ((wrun e 2 setup ops).ranks i).st.trace) ∧
    (∀ i, i < 2 → NotBefore 2 ((wrun e 2 setup ops).ranks i).st.trace) ∧
    ∀ more, ((wrun e 2 setup (ops ++ more)).ranks 0).wait.isSome ∧ starts ((wrun e 2 setup (ops ++ more)).ranks 0).st.trace = [] ∧
      ((wrun e 2 setup (ops ++ more)).ranks 0).st.queue.map (·.at_) = [1, 2] := by
  refine ⟨fun _ => exEnv fun _ _ => [], fun i => if i = 0 then [one 1, .schedStop (some 2)] else [.schedStop (some 2)],
    [.arrive 0, .arrive 1, .reduce, .resume 0, .resume 1, .loop 1, .loop 1, .leave 1, .endEvt 1, .arrive 0], ?_, ?_, ?_, ?_⟩
  · intro i t d hd; simp only [exEnv]; omega
  · intro i hi
    have : i = 0 ∨ i = 1 := by omega
    rcases this with rfl | rfl
    · exact stopsAt_of_check (by decide +kernel)
    · exact stopsAt_of_check (by decide +kernel)
  · intro i hi
    have : i = 0 ∨ i = 1 := by omega
    rcases this with rfl | rfl
    · exact notBefore_of_check (by decide +kernel)
    · exact notBefore_of_check (by decide +kernel)
  · intro more
    rw [C73_waits_for_ever _ 2 _ _ more 1 0 (by omega) (by omega) (by decide +kernel) (by decide +kernel) (by decide +kernel)]
    decide +kernel

/-! ### Examples -/

/-- Two ranks with a stop at 3; the second has a repeating event. -/
def stopSetup : Nat → List Act
  | 0 => [one 2, .schedStop (some 3), .schedEnd 0]
  | _ => [.schedStop (some 3), rep 1 1]

def stopRound : List WOp :=
  [.arrive 1, .arrive 0, .reduce, .resume 0, .loop 0, .resume 1, .loop 1, .loop 1, .loop 0]

def stopOps : List WOp := stopRound ++ stopRound ++ stopRound ++ [.leave 1, .endEvt 1, .leave 0, .endEvt 0, .endEvt 0]

def stopWorld (k : Nat) : World := wrun (fun _ => exEnv fun _ _ => []) 2 stopSetup (stopOps.take k)

theorem stopSetup_fresh : ∀ i, i < 2 → StopsFresh (stopSetup i) := by
  intro i hi
  have : i = 0 ∨ i = 1 := by omega
  rcases this with rfl | rfl
  · exact .inr ⟨2, .random, none, none, 0, none, by simp [stopSetup, one], by decide, by simp [stopSetup, one]⟩
  · exact .inl ⟨[.schedStop (some 3)], _, _, _, _, _, _, [], rfl, by simp⟩

/-- in the middle of the run, and at its end -/
example : (∀ i, i < 2 → ((stopWorld 200).ranks i).st.phase = .finished) ∧ starts ((stopWorld 200).ranks 1).st.trace = [1, 2, 3] ∧
    starts ((stopWorld 200).ranks 0).st.trace = [2, 3] := by decide +kernel

example : ((∀ i, i < 2 → ((stopWorld 20).ranks i).st.phase = .finished) ∨ ∃ o, CanGoOn 2 (stopWorld 20) o) :=
  (C73_stop_together_partial _ 2 stopSetup (stopOps.take 20) (fun i t d hd => by simp only [exEnv]; omega) 3 stopSetup_fresh
    (fun i hi => nonNeg_of_check (by have : i = 0 ∨ i = 1 := by omega
                                     rcases this with rfl | rfl <;> decide +kernel))
    (fun i hi => stopsAt_of_check (by have : i = 0 ∨ i = 1 := by omega
                                      rcases this with rfl | rfl <;> decide +kernel))
    (fun i hi => notBefore_of_check (by have : i = 0 ∨ i = 1 := by omega
                                        rcases this with rfl | rfl <;> decide +kernel))).1

/-- Rank 0 stops at 2 and rank 1 at 4. -/
def apartSetup : Nat → List Act
  | 0 => [one 1, .schedStop (some 2)]
  | _ => [.schedStop (some 4), rep 1 1]

/-- rank 0 finishes and rank 1 waits in `allreduce`, as it will for ever -/
example : let w := wrun (fun _ => exEnv fun _ _ => []) 2 apartSetup (stopRound ++ stopRound ++ [.leave 0, .endEvt 0, .arrive 1])
    (w.ranks 0).st.phase = .finished ∧ (w.ranks 1).wait = some 3 ∧ starts (w.ranks 1).st.trace = [1, 2] := by decide +kernel

example : ((wrun (fun _ => exEnv fun _ _ => []) 2 apartSetup ((stopRound ++ stopRound ++ [.leave 0, .endEvt 0, .arrive 1]))).ranks 1).st.phase
    ≠ .finished :=
  (C73_left_behind _ 2 apartSetup _ (fun i t d hd => by simp only [exEnv]; omega)
    (fun i hi => by
      have : i = 0 ∨ i = 1 := by omega
      rcases this with rfl | rfl
      · exact .inl (.inr ⟨1, .random, none, none, 0, none, by simp [apartSetup, one], by decide, by simp [apartSetup, one]⟩)
      · exact .inl (.inl ⟨[.schedStop (some 4)], _, _, _, _, _, _, [], rfl, by simp⟩))
    (fun i hi => nonNeg_of_check (by have : i = 0 ∨ i = 1 := by omega
                                     rcases this with rfl | rfl <;> decide +kernel))
    2 0 (by omega) (stopsAt_of_check (by decide +kernel)) 1 (by omega) (by simp [apartSetup, rep]) (by simp [exEnv])
    (fun ev now d hm hc => by
      have h : ∀ ev ∈ scheds ((wrun (fun _ => exEnv fun _ _ => []) 2 apartSetup
          ((stopRound ++ stopRound ++ [.leave 0, .endEvt 0, .arrive 1]))).ranks 1).st.trace, ev.cb = .stop → 2 < ev.at_ := by decide +kernel
      exact h ev (mem_scheds.2 ⟨now, d, hm⟩) hc)).2

end Repast.Schedule
