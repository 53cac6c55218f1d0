import Verif.Schedule.World
import Verif.Util.List

/-! Invariants of the system of processes. -/
namespace Repast.Schedule

/-- `t` comes from `s` without entering a tick: the clock is the same, and what happened meanwhile happened at that tick. -/
def Within (s t : St) : Prop :=
  t.tick = s.tick ∧ ∃ tl, t.trace = s.trace ++ tl ∧ ∀ o ∈ tl, (∀ u, o ≠ .start u) ∧ ∀ ev now, o = .ran ev now → now = s.tick

theorem Within.refl (s : St) : Within s s := ⟨rfl, [], by simp, by simp⟩

theorem Within.trans {a b c : St} (h1 : Within a b) (h2 : Within b c) : Within a c := by
  obtain ⟨t1, l1, e1, p1⟩ := h1
  obtain ⟨t2, l2, e2, p2⟩ := h2
  refine ⟨t2.trans t1, l1 ++ l2, by rw [e2, e1, List.append_assoc], ?_⟩
  intro o ho
  rcases List.mem_append.1 ho with ho | ho
  · exact p1 o ho
  · rw [← t1]; exact p2 o ho

theorem Within.of_eq {s t : St} (h1 : t.tick = s.tick) (h2 : t.trace = s.trace) : Within s t := ⟨h1, [], by simp [h2], by simp⟩

theorem within_act (s : St) (a : Act) : Within s (applyAct s a) := by
  obtain ⟨o, h1, h2, h3⟩ := applyAct_trace' s a
  refine ⟨applyAct_tick s a, [o], h1, ?_⟩
  intro o' ho
  simp only [List.mem_singleton] at ho
  subst ho
  exact ⟨h3, fun ev now h => absurd h (h2 ev now)⟩

theorem within_acts (l : List Act) (s : St) : Within s (l.foldl applyAct s) := by
  induction l generalizing s with
  | nil => exact .refl s
  | cons a l ih => exact (within_act s a).trans (ih _)

theorem within_callEv (e : Env) (s : St) (ev : Ev) : Within s (callEv e s ev) := by
  unfold callEv
  split
  · exact .refl s
  · have h0 : Within s { s with trace := s.trace ++ [.ran ev s.tick] } := by
      refine ⟨rfl, [.ran ev s.tick], rfl, ?_⟩
      intro o ho
      simp only [List.mem_singleton] at ho
      subst ho
      refine ⟨by simp, ?_⟩
      intro ev' now h
      simp only [Obs.ran.injEq] at h
      exact h.2.symm
    simp only []
    split
    · exact h0.trans (within_act _ _)
    · exact h0.trans (within_acts _ _)

theorem within_runEv (e : Env) (s : St) (ev : Ev) : Within s (runEv e s ev) := by
  unfold runEv
  simp only []
  have h0 : Within s { s with grp := { s.grp with size := s.grp.size - 1 } } := .of_eq rfl rfl
  refine (h0.trans (within_callEv e _ ev)).trans ?_
  unfold rescheduleEv
  split
  · exact .refl _
  · split
    · exact .refl _
    · exact .of_eq rfl rfl

theorem within_executeEvts (e : Env) (w : Which) (l : List Ev) (s : St) : Within s (executeEvts e w l s).1 := by
  induction l generalizing s with
  | nil => exact .refl s
  | cons ev l ih =>
    have h0 : Within s { s with grp := s.grp.set l w } := .of_eq rfl rfl
    have h1 := h0.trans (within_runEv e _ ev)
    simp only [executeEvts]
    split
    · exact h1.trans (.of_eq rfl rfl)
    · exact h1.trans (ih _)

theorem within_groupExecute (e : Env) (s : St) : Within s (groupExecute e s) := by
  unfold groupExecute
  simp only []
  have h0 : Within s { s with grp := { s.grp with executing := true } } := .of_eq rfl rfl
  generalize { s with grp := { s.grp with executing := true } } = s0 at h0
  have h1 := h0.trans (within_executeEvts e .first s.grp.first s0)
  generalize executeEvts e .first s.grp.first s0 = r1 at h1
  have h2 := h1.trans (within_executeEvts e .prioritized r1.1.grp.prioritized r1.1)
  generalize executeEvts e .prioritized r1.1.grp.prioritized r1.1 = r2 at h2
  have h3 := h2.trans (within_executeEvts e .last r2.1.grp.last r2.1)
  generalize executeEvts e .last r2.1.grp.last r2.1 = r3 at h3
  split
  · exact h1
  · split
    · exact h2
    · split
      · exact h3
      · exact h3.trans (.of_eq rfl rfl)

theorem within_endEvt (e : Env) (s : St) : Within s (step e s .endEvt) := by
  simp only [step]
  split
  · split
    · exact .of_eq rfl rfl
    · rename_i i _ _ id l _
      have h0 : Within s { s with phase := .ending (i+1) } := .of_eq rfl rfl
      split
      · exact h0
      · refine Within.trans (b := { s with phase := .ending (i+1), trace := s.trace ++ [.ranEnd id l] }) ?_ (within_acts _ _)
        refine ⟨rfl, [.ranEnd id l], rfl, ?_⟩
        intro o ho
        simp only [List.mem_singleton] at ho
        subst ho
        exact ⟨by simp, by simp⟩
  · exact .refl s

/-- The runner's `next_tick` is that of its schedule. -/
def Synced (s : St) : Prop := s.nextTick = schedNextTick s

theorem runEv_phase' (e : Env) (w : Which) (l : List Ev) (s : St) : (executeEvts e w l s).1.phase = s.phase := by
  induction l generalizing s with
  | nil => rfl
  | cons ev l ih =>
    simp only [executeEvts]
    split
    · simp only [addDuring_phase, runEv_phase]
    · rw [ih, runEv_phase]

theorem groupExecute_phase (e : Env) (s : St) : (groupExecute e s).phase = s.phase := by
  unfold groupExecute
  simp only []
  split
  · rw [runEv_phase']
  · split
    · rw [runEv_phase', runEv_phase']
    · split
      · rw [runEv_phase', runEv_phase', runEv_phase']
      · simp only [runEv_phase']

/-- the clocks of a piece of history -/
def lclock (tr : List Obs) : List Int := tr.filterMap fun o => match o with
    | .start t => some t
    | .ran _ now => some now
    | _ => none

theorem times_append (w : World) (i : Nat) (l : List Obs) (r : Nat → Rank) :
    World.times { ranks := r, log := w.log ++ l.map (fun o => (i, o)) } = w.times ++ lclock l := by
  simp only [World.times, List.filterMap_append, List.filterMap_map, lclock]
  congr 1

/-- The state of every process is one reached by a single process. -/
theorem rank_run (e : Nat → Env) (n : Nat) (setup : Nat → List Act) (ops : List WOp) (i : Nat) :
    ∃ l, ((ops.foldl (wstep e n) (World.init setup)).ranks i).st = run (e i) l := by
  induction ops using snoc_induction with
  | h0 =>
    refine ⟨(setup i).map .act, ?_⟩
    simp only [List.foldl_nil, World.init, run]
    have : ∀ (l : List Act) (s : St), s.phase = .idle → l.foldl applyAct s = (l.map Op.act).foldl (step (e i)) s := by
      intro l
      induction l with
      | nil => intro s _; rfl
      | cons a l ih =>
        intro s hs
        simp only [List.foldl_cons, List.map_cons, step, hs, if_true]
        exact ih _ (by rw [applyAct_phase, hs])
    exact this _ _ rfl
  | h1 ops o ih =>
    obtain ⟨l, ih⟩ := ih
    rw [List.foldl_append, List.foldl_cons, List.foldl_nil]
    generalize ops.foldl (wstep e n) (World.init setup) = w at *
    have hl : ∀ j op, ∃ l, ((w.localStep e j op).ranks i).st = run (e i) l := by
      intro j op
      simp only [World.localStep]
      by_cases hij : i = j
      · subst hij
        simp only [if_true]
        exact ⟨l ++ [op], by rw [ih]; simp [run, List.foldl_append]⟩
      · simp only [hij, if_false]; exact ⟨l, ih⟩
    cases o with
    | arrive j =>
      simp only [wstep]
      split
      · by_cases hij : i = j
        · subst hij; simp only [if_true]; exact ⟨l, ih⟩
        · simp only [hij, if_false]; exact ⟨l, ih⟩
      · exact ⟨l, ih⟩
    | reduce => simp only [wstep]; split <;> exact ⟨l, ih⟩
    | resume j => simp only [wstep]; split; exact ⟨l, ih⟩; exact hl _ _
    | loop j => simp only [wstep]; split; exact hl _ _; exact ⟨l, ih⟩
    | leave j => simp only [wstep]; split; exact hl _ _; exact ⟨l, ih⟩
    | endEvt j => simp only [wstep]; split; exact hl _ _; exact ⟨l, ih⟩

/-! ### The invariant -/

structure RInv (L : Int) (r : Rank) : Prop where
  queue : ∀ ev ∈ r.st.queue, L ≤ ev.at_
  busy : r.st.phase ≠ .idle → r.st.tick = L ∧ r.wait = none ∧ r.grant = none
  nogo : r.st.go = false → r.st.tick = L
  sync : r.st.phase = .idle → Synced r.st
  wait : ∀ v, r.wait = some v → v = r.st.nextTick ∧ r.st.phase = .idle ∧ r.st.go = true
  grant : ∀ m, r.grant = some m → r.st.phase = .idle ∧ r.st.go = true ∧ (m = L ∨ m = noTick)

structure WInv (n : Nat) (w : World) (L : Int) : Prop where
  low : startTick ≤ L
  sorted : w.times.Pairwise (· ≤ ·)
  le : ∀ t ∈ w.times, t ≤ L
  rank : ∀ i, i < n → RInv L (w.ranks i)

theorem applyAct_synced {s : St} {a : Act} (h : Synced s) (ha : ∀ t, a ≠ .schedStop t) : Synced (applyAct s a) := by
  cases a with
  | sched a p q i l g => rfl
  | schedStop t => exact absurd rfl (ha t)
  | _ => exact h

theorem setup_synced {l : List Act} (h : StopsFirst l) : Synced (l.foldl applyAct St.init) := by
  obtain ⟨pre, at_, p, q, i, lb, g, post, rfl, hp⟩ := h
  rw [List.foldl_append, List.foldl_cons]
  generalize pre.foldl applyAct St.init = s0
  have h0 : Synced (applyAct s0 (.sched at_ p q i lb g)) := rfl
  generalize applyAct s0 (.sched at_ p q i lb g) = s1 at h0
  induction post generalizing s1 with
  | nil => exact h0
  | cons a post ih =>
    rw [List.foldl_cons]
    refine ih (fun t ht => hp t (List.mem_cons_of_mem _ ht)) _ (applyAct_synced h0 ?_)
    intro t ht
    exact hp t (by simp [ht])

theorem setup_synced' {l : List Act} (h : StopsFirst l ∨ ∀ t, Act.schedStop t ∉ l) : Synced (l.foldl applyAct St.init) := by
  rcases h with h | h
  · exact setup_synced h
  · have h0 : Synced St.init := rfl
    generalize St.init = s at h0
    induction l generalizing s with
    | nil => exact h0
    | cons a l ih =>
      rw [List.foldl_cons]
      refine ih (fun t ht => h t (List.mem_cons_of_mem _ ht)) _ (applyAct_synced h0 ?_)
      intro t ht
      exact h t (by simp [ht])

theorem WInv.init (n : Nat) (setup : Nat → List Act) (hs : ∀ i, i < n → Synced ((setup i).foldl applyAct St.init)) (e : Env) :
    WInv n (World.init setup) startTick := by
  refine ⟨by omega, by simp [World.times, World.init], by simp [World.times, World.init], ?_⟩
  intro i hi
  have ht : ((setup i).foldl applyAct St.init).tick = startTick := foldl_applyAct_tick _ _
  refine ⟨?_, ?_, fun _ => ht, fun _ => hs i hi, by simp [World.init], by simp [World.init]⟩
  · intro ev hev
    rcases foldl_applyAct_queue _ _ ev hev with h | h
    · simp [St.init] at h
    · simp only [St.init] at h; omega
  · intro h
    exact absurd (foldl_applyAct_phase (setup i) St.init) h

theorem lclock_within {tick : Int} {tl : List Obs} (h : ∀ o ∈ tl, (∀ u, o ≠ .start u) ∧ ∀ ev now, o = .ran ev now → now = tick) :
    ∀ t ∈ lclock tl, t = tick := by
  intro t ht
  simp only [lclock, List.mem_filterMap] at ht
  obtain ⟨o, ho, h1⟩ := ht
  obtain ⟨h2, h3⟩ := h o ho
  cases o <;> simp at h1
  · exact absurd rfl (h2 _)
  · subst h1; exact h3 _ _ rfl

theorem WInv.append {n : Nat} {w : World} {L : Int} (h : WInv n w L) (i : Nat) (tl : List Obs) (r : Nat → Rank)
    (hr : ∀ j, j < n → RInv L (r j)) (htl : ∀ t ∈ lclock tl, t = L) :
    WInv n { ranks := r, log := w.log ++ tl.map (fun o => (i, o)) } L := by
  refine ⟨h.low, ?_, ?_, hr⟩
  · rw [times_append, List.pairwise_append]
    refine ⟨h.sorted, ?_, ?_⟩
    · refine List.Pairwise.imp_of_mem (R := fun _ _ => True) ?_ (List.pairwise_of_forall (fun _ _ => trivial))
      intro a b ha hb _
      rw [htl a ha, htl b hb]; omega
    · intro a ha b hb
      rw [htl b hb]; exact h.le a ha
  · rw [times_append]
    intro t ht
    rcases List.mem_append.1 ht with ht | ht
    · exact h.le t ht
    · rw [htl t ht]; omega

/-- A local step that stays within the current tick, of a process whose tick is that of the current round. -/
theorem WInv.localStep {n : Nat} {w : World} {L : Int} (h : WInv n w L) (e : Nat → Env) (i : Nat) (op : Op)
    (hw : Within (w.ranks i).st (step (e i) (w.ranks i).st op)) (ht : (w.ranks i).st.tick = L)
    (hm : Mono (step (e i) (w.ranks i).st op))
    (hs : (step (e i) (w.ranks i).st op).phase = .idle → Synced (step (e i) (w.ranks i).st op)) :
    WInv n (w.localStep e i op) L := by
  obtain ⟨h1, tl, h2, h3⟩ := hw
  unfold World.localStep
  simp only [h2, List.drop_left]
  refine h.append i tl _ ?_ (by rw [← ht]; exact lclock_within h3)
  intro j hj
  by_cases hji : j = i
  · subst hji
    simp only [if_true]
    refine ⟨?_, fun _ => ⟨h1.trans ht, rfl, rfl⟩, fun _ => h1.trans ht, hs, by simp, by simp⟩
    intro ev hev
    have := hm.queue ev hev
    simp only [h1, ht] at this
    exact this
  · simp only [hji, if_false]
    exact h.rank j hj

theorem noTick_lt : noTick < startTick := by decide

theorem Synced.head {s : St} (h : Synced s) : (s.queue = [] ∧ s.nextTick = noTick) ∨ ∃ ev l, s.queue = ev :: l ∧ s.nextTick = ev.at_ := by
  unfold Synced schedNextTick headTick at h
  cases hq : s.queue with
  | nil => left; rw [hq] at h; exact ⟨rfl, by simpa using h⟩
  | cons ev l => right; rw [hq] at h; exact ⟨ev, l, rfl, by simpa using h⟩

theorem allreduce_spec {n : Nat} {w : World} {m : Int} (h : w.allreduce n = some m) :
    (∀ i, i < n → ∃ v, (w.ranks i).wait = some v ∧ m ≤ v) ∧ ∃ i, i < n ∧ (w.ranks i).wait = some m := by
  unfold World.allreduce at h
  split at h
  · rename_i ha
    simp only [List.all_eq_true, List.mem_range] at ha
    have hm := List.min?_eq_some_iff.1 h
    refine ⟨?_, ?_⟩
    · intro i hi
      obtain ⟨v, hv⟩ := Option.isSome_iff_exists.1 (ha i hi)
      refine ⟨v, hv, ?_⟩
      have := hm.2 v (List.mem_map.2 ⟨i, by simpa using hi, by simp [hv]⟩)
      exact this
    · obtain ⟨i, hi, hv⟩ := List.mem_map.1 hm.1
      simp only [List.mem_range] at hi
      obtain ⟨v, hv'⟩ := Option.isSome_iff_exists.1 (ha i hi)
      refine ⟨i, hi, ?_⟩
      rw [hv'] at hv ⊢
      simpa using hv
  · cases h

def WOp.rank : WOp → Option Nat
  | .reduce => none
  | .arrive i | .resume i | .loop i | .leave i | .endEvt i => some i

theorem WInv.world_step {n : Nat} {w : World} {L : Int} (h : WInv n w L) (e : Nat → Env) (o : WOp) (ho : ∀ i, o.rank = some i → i < n)
    (hr : ∀ i, i < n → Sorted (w.ranks i).st.queue)
    (hm : ∀ i, i < n → Mono ((wstep e n w o).ranks i).st) : ∃ L', L ≤ L' ∧ WInv n (wstep e n w o) L' := by
  cases o with
  | arrive i =>
    refine ⟨L, by omega, ?_⟩
    simp only [wstep]
    split
    · rename_i hc
      obtain ⟨h1, h2, h3, h4⟩ := hc
      refine ⟨h.low, h.sorted, h.le, ?_⟩
      intro j hj
      by_cases hji : j = i
      · subst hji
        simp only [if_true]
        have := h.rank j hj
        refine ⟨this.queue, by simp [h1], this.nogo, this.sync, ?_, by simp [h4]⟩
        intro v hv
        simp only [Option.some.injEq] at hv
        exact ⟨hv.symm, h1, h2⟩
      · simp only [hji, if_false]; exact h.rank j hj
    · exact h
  | reduce =>
    simp only [wstep]
    cases hall : w.allreduce n with
    | none => exact ⟨L, by omega, h⟩
    | some m =>
      simp only []
      obtain ⟨ha, i0, hi0, hm0⟩ := allreduce_spec hall
      have hidle : ∀ i, i < n → (w.ranks i).st.phase = .idle ∧ (w.ranks i).st.go = true := by
        intro i hi
        obtain ⟨v, hv, _⟩ := ha i hi
        exact ((h.rank i hi).wait v hv).2
      have hgen : ∀ L', L ≤ L' → (m = L' ∨ m = noTick) → (∀ i, i < n → ∀ ev ∈ (w.ranks i).st.queue, L' ≤ ev.at_) →
          WInv n { w with ranks := fun i => { w.ranks i with wait := none, grant := some m } } L' := by
        intro L' hL hmL hq
        refine ⟨by have := h.low; omega, h.sorted, fun t ht => by have := h.le t ht; omega, ?_⟩
        intro i hi
        obtain ⟨p1, p2⟩ := hidle i hi
        refine ⟨hq i hi, by simp [p1], by simp [p2], fun _ => (h.rank i hi).sync p1, by simp, ?_⟩
        intro m' hm'
        simp only [Option.some.injEq] at hm'
        subst hm'
        exact ⟨p1, p2, hmL⟩
      by_cases hmn : m = noTick
      · exact ⟨L, by omega, hgen L (by omega) (Or.inr hmn) (fun i hi => (h.rank i hi).queue)⟩
      · have hv0 := ((h.rank i0 hi0).wait m hm0).1
        rcases ((h.rank i0 hi0).sync (hidle i0 hi0).1).head with ⟨_, hn⟩ | ⟨ev0, l0, hq0, hn0⟩
        · exact absurd (hv0.trans hn) hmn
        · have hLm : L ≤ m := by
            have := (h.rank i0 hi0).queue ev0 (by simp [hq0]); omega
          refine ⟨m, hLm, hgen m hLm (Or.inl rfl) ?_⟩
          intro i hi ev hev
          obtain ⟨v, hv, hmv⟩ := ha i hi
          have hvn := ((h.rank i hi).wait v hv).1
          rcases ((h.rank i hi).sync (hidle i hi).1).head with ⟨hq, _⟩ | ⟨ev1, l1, hq1, hn1⟩
          · rw [hq] at hev; simp at hev
          · have hs := hr i hi
            rw [hq1] at hs hev
            rcases List.mem_cons.1 hev with rfl | hev
            · omega
            · have := sorted_head_le hs ev hev; omega
  | resume i =>
    have hi := ho i rfl
    refine ⟨L, by omega, ?_⟩
    have hmi := hm i hi
    revert hmi
    simp only [wstep]
    cases hg : (w.ranks i).grant with
    | none => exact fun _ => h
    | some m =>
      simp only []
      intro hmi
      simp only [World.localStep, if_true] at hmi
      obtain ⟨p1, p2, p3⟩ := (h.rank i hi).grant m hg
      have hsync := (h.rank i hi).sync p1
      have skip : ∀ op, (step (e i) (w.ranks i).st op).tick = (w.ranks i).st.tick →
          (step (e i) (w.ranks i).st op).trace = (w.ranks i).st.trace →
          (step (e i) (w.ranks i).st op).queue = (w.ranks i).st.queue →
          (step (e i) (w.ranks i).st op).phase = .idle →
          (step (e i) (w.ranks i).st op).go = true →
          Synced (step (e i) (w.ranks i).st op) → WInv n (w.localStep e i op) L := by
        intro op e1 e2 e3 e4 e5 e6
        unfold World.localStep
        simp only [e2, List.drop_length]
        refine h.append i [] _ ?_ (by simp [lclock])
        intro j hj
        by_cases hji : j = i
        · subst hji
          simp only [if_true]
          refine ⟨by rw [e3]; exact (h.rank j hj).queue, by simp [e4], by simp [e5], fun _ => e6, by simp, by simp⟩
        · simp only [hji, if_false]; exact h.rank j hj
      by_cases hnm : (w.ranks i).st.nextTick = m
      · simp only [hnm, if_true] at hmi ⊢
        rcases hsync.head with ⟨hq, hn⟩ | ⟨ev, l, hq, hn⟩
        · have hst : step (e i) (w.ranks i).st .enter = { (w.ranks i).st with nextTick := schedNextTick (w.ranks i).st } := by
            rw [step, if_pos ⟨p1, p2⟩]
            unfold startExecute
            split
            · rfl
            · rename_i h; rw [hq] at h; cases h
          refine skip .enter ?_ ?_ ?_ ?_ ?_ ?_ <;> rw [hst]
          · exact p1
          · exact p2
          · rfl
        · have hL : ev.at_ = L := by
            rcases p3 with p3 | p3
            · omega
            · have := (h.rank i hi).queue ev (by simp [hq]); have := h.low; have := noTick_lt; omega
          have e1 : (step (e i) (w.ranks i).st .enter).tick = L := by
            rw [step, if_pos ⟨p1, p2⟩, startExecute, hq]; exact hL
          have e2 : (step (e i) (w.ranks i).st .enter).trace = (w.ranks i).st.trace ++ [Obs.start L] := by
            rw [step, if_pos ⟨p1, p2⟩, startExecute, hq]; simp only [hL]
          have e3 : (step (e i) (w.ranks i).st .enter).phase = .running := by
            rw [step, if_pos ⟨p1, p2⟩, startExecute, hq]
          unfold World.localStep
          simp only [e2, List.drop_left]
          refine h.append i [Obs.start L] _ ?_ (by simp [lclock])
          intro j hj
          by_cases hji : j = i
          · subst hji
            simp only [if_true]
            refine ⟨?_, fun _ => ⟨e1, rfl, rfl⟩, fun _ => e1, by simp [e3], by simp, by simp⟩
            intro ev' hev'
            have := hmi.queue ev' hev'
            simp only [e1] at this
            exact this
          · simp only [hji, if_false]; exact h.rank j hj
      · simp only [hnm, if_false] at hmi ⊢
        have hst : step (e i) (w.ranks i).st .skip = { (w.ranks i).st with nextTick := schedNextTick (w.ranks i).st } := by
          rw [step, if_pos ⟨p1, p2⟩]
        refine skip .skip ?_ ?_ ?_ ?_ ?_ ?_ <;> rw [hst]
        · exact p1
        · exact p2
        · rfl
  | loop i =>
    have hi := ho i rfl
    refine ⟨L, by omega, ?_⟩
    have hmi := hm i hi
    revert hmi
    simp only [wstep]
    split
    · rename_i hp
      intro hmi
      simp only [World.localStep, if_true] at hmi
      refine h.localStep e i .loop ?_ ((h.rank i hi).busy (by simp [hp])).1 hmi ?_
      · rw [step, if_pos hp]
        split
        · exact within_groupExecute _ _
        · exact .of_eq rfl rfl
      · rw [step, if_pos hp]
        split
        · rw [groupExecute_phase, hp]; simp
        · intro _; rfl
    · exact fun _ => h
  | leave i =>
    have hi := ho i rfl
    refine ⟨L, by omega, ?_⟩
    have hmi := hm i hi
    revert hmi
    simp only [wstep]
    split
    · rename_i hp
      intro hmi
      simp only [World.localStep, if_true] at hmi
      refine h.localStep e i .leave ?_ ((h.rank i hi).nogo hp.2) hmi ?_
      · rw [step, if_pos hp]
        exact .of_eq rfl rfl
      · rw [step, if_pos hp]; simp
    · exact fun _ => h
  | endEvt i =>
    have hi := ho i rfl
    refine ⟨L, by omega, ?_⟩
    have hmi := hm i hi
    revert hmi
    simp only [wstep]
    split
    · rename_i k hp
      intro hmi
      simp only [World.localStep, if_true] at hmi
      refine h.localStep e i .endEvt (within_endEvt _ _) ((h.rank i hi).busy (by simp [hp])).1 hmi ?_
      intro hidle
      exfalso
      simp only [step, hp] at hidle
      split at hidle
      · simp at hidle
      · split at hidle
        · simp at hidle
        · rw [foldl_applyAct_phase] at hidle; simp at hidle
    · exact fun _ => h

theorem within_prefix {s t : St} (h : Within s t) : ∃ tl, t.trace = s.trace ++ tl := by
  obtain ⟨_, tl, h, _⟩ := h
  exact ⟨tl, h⟩

theorem step_prefix (e : Env) (s : St) (op : Op) : ∃ tl, (step e s op).trace = s.trace ++ tl := by
  cases op with
  | act a => simp only [step]; split; exact within_prefix (within_act _ _); exact ⟨[], by simp⟩
  | enter =>
    simp only [step]; split
    · unfold startExecute; split
      · exact ⟨[], by simp⟩
      · exact ⟨_, rfl⟩
    · exact ⟨[], by simp⟩
  | skip => simp only [step]; split <;> exact ⟨[], by simp⟩
  | loop =>
    simp only [step]; split
    · split
      · exact within_prefix (within_groupExecute _ _)
      · exact ⟨[], by simp⟩
    · exact ⟨[], by simp⟩
  | leave => simp only [step]; split <;> exact ⟨[], by simp⟩
  | endEvt => exact within_prefix (within_endEvt e s)

theorem wstep_prefix (e : Nat → Env) (n : Nat) (w : World) (o : WOp) (i : Nat) :
    ∃ tl, ((wstep e n w o).ranks i).st.trace = (w.ranks i).st.trace ++ tl := by
  have hl : ∀ j op, ∃ tl, ((w.localStep e j op).ranks i).st.trace = (w.ranks i).st.trace ++ tl := by
    intro j op
    simp only [World.localStep]
    by_cases hij : i = j
    · subst hij
      simp only [if_true]
      exact step_prefix _ _ _
    · simp only [hij, if_false]; exact ⟨[], by simp⟩
  cases o with
  | arrive j =>
    simp only [wstep]
    split
    · by_cases hij : i = j
      · subst hij; simp only [if_true]; exact ⟨[], by simp⟩
      · simp only [hij, if_false]; exact ⟨[], by simp⟩
    · exact ⟨[], by simp⟩
  | reduce => simp only [wstep]; split <;> exact ⟨[], by simp⟩
  | resume j => simp only [wstep]; split; exact ⟨[], by simp⟩; exact hl _ _
  | loop j => simp only [wstep]; split; exact hl _ _; exact ⟨[], by simp⟩
  | leave j => simp only [wstep]; split; exact hl _ _; exact ⟨[], by simp⟩
  | endEvt j => simp only [wstep]; split; exact hl _ _; exact ⟨[], by simp⟩

theorem wrun_inv (e : Nat → Env) (n : Nat) (setup : Nat → List Act) (ops : List WOp) (hadv : ∀ i, AdvMono (e i))
    (hs : ∀ i, i < n → Synced ((setup i).foldl applyAct St.init))
    (hnn : ∀ i, i < n → NonNegIntervals ((wrun e n setup ops).ranks i).st.trace) :
    ∃ L, WInv n (wrun e n setup ops) L := by
  unfold wrun at *
  have hv : ∀ o ∈ ops.filter (fun o => match o with
    | .reduce => true
    | .arrive i | .resume i | .loop i | .leave i | .endEvt i => decide (i < n)), ∀ i, o.rank = some i → i < n := by
    intro o ho i hi
    have := (List.mem_filter.1 ho).2
    cases o <;> simp only [WOp.rank, Option.some.injEq, reduceCtorEq] at hi
    all_goals (subst hi; simpa using this)
  generalize ops.filter _ = ops at *
  induction ops using snoc_induction with
  | h0 => exact ⟨_, WInv.init n setup hs (e 0)⟩
  | h1 ops o ih =>
    have hm : ∀ i, i < n → Mono (((ops ++ [o]).foldl (wstep e n) (World.init setup)).ranks i).st := by
      intro i hi
      obtain ⟨l, hl⟩ := rank_run e n setup (ops ++ [o]) i
      have := hnn i hi
      rw [hl] at this ⊢
      exact run_mono (e i) l (hadv i) this
    rw [List.foldl_append, List.foldl_cons, List.foldl_nil] at hnn hm ⊢
    obtain ⟨L, hL⟩ := ih (fun i hi => by
      obtain ⟨tl, h⟩ := wstep_prefix e n (ops.foldl (wstep e n) (World.init setup)) o i
      have := hnn i hi
      rw [h] at this
      exact this.left) (fun o ho => hv o (List.mem_append_left _ ho))
    have hr : ∀ i, i < n → Sorted ((ops.foldl (wstep e n) (World.init setup)).ranks i).st.queue := by
      intro i _
      obtain ⟨l, hl⟩ := rank_run e n setup ops i
      rw [hl]
      exact (run_inv (e i) l).sorted
    obtain ⟨L', _, h'⟩ := hL.world_step e o (hv o (by simp)) hr hm
    exact ⟨L', h'⟩

end Repast.Schedule
