import Verif.Schedule.Ends

/-!
C84: the order in which the ranks go on between the reductions of schedule.py:617 does not matter.
-/
namespace Repast.Schedule

/-! ### The ranks without the global log -/

/-- The state of all processes (as `World`, without its log of what happened in which order over all ranks). -/
def wof (R : Nat → Rank) : World := { ranks := R }

/-- schedule.py:613-634: a step of `wstep`, without the log. -/
def rstep (e : Nat → Env) (n : Nat) (R : Nat → Rank) (o : WOp) : Nat → Rank := (wstep e n (wof R) o).ranks

/-- What a step of rank `i` does to it depends on that rank only. -/
theorem wstep_own {e : Nat → Env} {n : Nat} {w w' : World} {o : WOp} {i : Nat} (ho : o.rank = some i) (h : w.ranks i = w'.ranks i) :
    (wstep e n w o).ranks i = (wstep e n w' o).ranks i := by
  cases o with
  | reduce => cases ho
  | arrive j =>
    obtain rfl : j = i := by simpa [WOp.rank] using ho
    by_cases c : (w.ranks j).st.phase = .idle ∧ (w.ranks j).st.go = true ∧ (w.ranks j).wait = none ∧ (w.ranks j).grant = none
    · have c' := c; rw [h] at c'
      simp only [wstep, if_pos c, if_pos c', if_true, h]
    · have c' := c; rw [h] at c'
      simp only [wstep, if_neg c, if_neg c', h]
  | resume j =>
    obtain rfl : j = i := by simpa [WOp.rank] using ho
    cases c : (w.ranks j).grant with
    | none =>
      have c' := c; rw [h] at c'
      simp only [wstep, c, c', h]
    | some m =>
      have c' := c; rw [h] at c'
      simp only [wstep, c, c', World.localStep, if_true, h]
  | loop j =>
    obtain rfl : j = i := by simpa [WOp.rank] using ho
    by_cases c : (w.ranks j).st.phase = .running
    · have c' := c; rw [h] at c'
      simp only [wstep, if_pos c, if_pos c', World.localStep, if_true, h]
    · have c' := c; rw [h] at c'
      simp only [wstep, if_neg c, if_neg c', h]
  | leave j =>
    obtain rfl : j = i := by simpa [WOp.rank] using ho
    by_cases c : (w.ranks j).st.phase = .idle ∧ (w.ranks j).st.go = false
    · have c' := c; rw [h] at c'
      simp only [wstep, if_pos c, if_pos c', World.localStep, if_true, h]
    · have c' := c; rw [h] at c'
      simp only [wstep, if_neg c, if_neg c', h]
  | endEvt j =>
    obtain rfl : j = i := by simpa [WOp.rank] using ho
    cases c : (w.ranks j).st.phase with
    | ending k =>
      have c' := c; rw [h] at c'
      simp only [wstep, c, c', World.localStep, if_true, h]
    | _ =>
      have c' := c; rw [h] at c'
      simp only [wstep, c, c', h]

theorem ranks_wstep (e : Nat → Env) (n : Nat) (w : World) (o : WOp) : (wstep e n w o).ranks = rstep e n w.ranks o := by
  funext k
  cases hr : o.rank with
  | none =>
    have : o = .reduce := by cases o <;> simp [WOp.rank] at hr; rfl
    subst this
    have : (wof w.ranks).allreduce n = w.allreduce n := rfl
    simp only [rstep, wstep, this]
    split <;> rfl
  | some i =>
    by_cases hk : k = i
    · subst hk; exact wstep_own hr rfl
    · exact (wstep_other hr hk).trans (wstep_other (w := wof w.ranks) hr hk).symm

theorem canGoOn_wof {n : Nat} {w : World} {o : WOp} : CanGoOn n (wof w.ranks) o ↔ CanGoOn n w o := by
  cases o <;> exact Iff.rfl

theorem rstep_own {e : Nat → Env} {n : Nat} {R S : Nat → Rank} {o : WOp} {i : Nat} (ho : o.rank = some i) (h : R i = S i) :
    rstep e n R o i = rstep e n S o i := wstep_own (w := wof R) (w' := wof S) ho h

theorem rstep_other {e : Nat → Env} {n : Nat} {R : Nat → Rank} {o : WOp} {i j : Nat} (ho : o.rank = some i) (hj : j ≠ i) :
    rstep e n R o j = R j := wstep_other (w := wof R) ho hj

/-- Whether a rank can go on depends on that rank only. -/
theorem canGoOn_own {n : Nat} {R S : Nat → Rank} {o : WOp} {i : Nat} (ho : o.rank = some i) (h : R i = S i) (hc : CanGoOn n (wof R) o) :
    CanGoOn n (wof S) o := by
  cases o <;> simp only [WOp.rank, Option.some.injEq, reduceCtorEq] at ho
  all_goals subst ho
  all_goals simp only [CanGoOn, wof, h] at hc ⊢
  all_goals exact hc

/-- In an `allreduce`, or with its result in hand, a rank is in its main loop. -/
def WG (n : Nat) (R : Nat → Rank) : Prop := ∀ k, k < n → ((R k).wait.isSome ∨ (R k).grant.isSome) →
  (R k).st.phase = .idle ∧ (R k).st.go = true ∧ ((R k).wait = none ∨ (R k).grant = none)

theorem WG.step {e : Nat → Env} {n : Nat} {R : Nat → Rank} (h : WG n R) (o : WOp) : WG n (rstep e n R o) := by
  intro k hk
  have ih := h k hk
  unfold rstep
  rcases wstep_cases e n (wof R) o k with h | ⟨-, h1, h2, h3, hg, h⟩ | ⟨h1, m, hm, h⟩ | ⟨-, m, hm, h⟩ | ⟨-, hp, h⟩ | ⟨-, hp, hg, h⟩ | ⟨-, hp, h⟩ <;> rw [h]
  · exact ih
  · exact fun _ => ⟨h1, h2, .inr hg⟩
  · obtain ⟨v, hv, -⟩ := (allreduce_spec hm).1 k hk
    have hv : (R k).wait = some v := hv
    have := ih (.inl (by simp [hv]))
    exact fun _ => ⟨this.1, this.2.1, .inl rfl⟩
  · simp
  · simp
  · simp
  · simp

theorem WG.init (n : Nat) (setup : Nat → List Act) : WG n (World.init setup).ranks := by
  intro k _; simp [World.init]

/-- While a reduction can complete, nothing else can happen. -/
theorem only_reduce {n : Nat} {R : Nat → Rank} (h : WG n R) (hc : CanGoOn n (wof R) .reduce) {o : WOp} (ho : CanGoOn n (wof R) o) : o = .reduce := by
  have hw := hc.2
  simp only [wof] at hw
  have key : ∀ i, i < n → (R i).st.phase = .idle ∧ (R i).st.go = true ∧ (R i).wait ≠ none ∧ (R i).grant = none := by
    intro i hi
    obtain ⟨h1, h2, h3⟩ := h i hi (.inl (hw i hi))
    have h4 := hw i hi
    cases hwi : (R i).wait with
    | none => rw [hwi] at h4; cases h4
    | some v =>
      rw [hwi] at h3
      refine ⟨h1, h2, by simp, ?_⟩
      rcases h3 with h3 | h3
      · cases h3
      · exact h3
  cases o with
  | reduce => rfl
  | arrive i => exact absurd ho.2.2.2.1 (key i ho.1).2.2.1
  | resume i =>
    have h1 := ho.2
    simp only [wof] at h1
    rw [(key i ho.1).2.2.2] at h1; cases h1
  | loop i =>
    have h1 := ho.2
    simp only [wof] at h1
    rw [(key i ho.1).1] at h1; cases h1
  | leave i =>
    have h1 := ho.2.2
    simp only [wof] at h1
    rw [(key i ho.1).2.1] at h1; cases h1
  | endEvt i =>
    obtain ⟨h1, k, h2⟩ := ho
    simp only [wof] at h2
    rw [(key i h1).1] at h2; cases h2

/-- A rank can go on in one way at most. -/
theorem only_one {n : Nat} {R : Nat → Rank} (h : WG n R) {a b : WOp} {i : Nat} (ha : CanGoOn n (wof R) a) (hb : CanGoOn n (wof R) b)
    (hai : a.rank = some i) (hbi : b.rank = some i) : a = b := by
  have key : ∀ i, i < n → (R i).grant.isSome → (R i).st.phase = .idle ∧ (R i).st.go = true := fun i hi hg =>
    ⟨(h i hi (.inr hg)).1, (h i hi (.inr hg)).2.1⟩
  cases a <;> simp only [WOp.rank, Option.some.injEq, reduceCtorEq] at hai <;> cases b <;>
    simp only [WOp.rank, Option.some.injEq, reduceCtorEq] at hbi <;> subst hai <;> subst hbi <;> first
    | rfl
    | (exfalso
       simp only [CanGoOn, wof] at ha hb
       have hk := key _ ha.1
       grind)

/-- Two steps that can both be taken can be taken in either order. -/
theorem diamond {e : Nat → Env} {n : Nat} {R : Nat → Rank} (h : WG n R) {a b : WOp} (ha : CanGoOn n (wof R) a) (hb : CanGoOn n (wof R) b)
    (hab : a ≠ b) : CanGoOn n (wof (rstep e n R a)) b ∧ CanGoOn n (wof (rstep e n R b)) a ∧
      rstep e n (rstep e n R a) b = rstep e n (rstep e n R b) a := by
  cases hra : a.rank with
  | none =>
    have : a = .reduce := by cases a <;> simp [WOp.rank] at hra; rfl
    subst this
    exact absurd (only_reduce h ha hb).symm hab
  | some i =>
    cases hrb : b.rank with
    | none =>
      have : b = .reduce := by cases b <;> simp [WOp.rank] at hrb; rfl
      subst this
      exact absurd (only_reduce h hb ha) hab
    | some j =>
      have hij : i ≠ j := by
        rintro rfl
        exact hab (only_one h ha hb hra hrb)
      refine ⟨canGoOn_own hrb (rstep_other hra (Ne.symm hij)).symm hb, canGoOn_own hra (rstep_other hrb hij).symm ha, ?_⟩
      funext k
      by_cases hki : k = i
      · subst hki
        rw [rstep_other hrb hij]
        exact rstep_own hra (rstep_other hrb hij).symm
      · rw [rstep_other (R := rstep e n R b) hra hki]
        by_cases hkj : k = j
        · subst hkj
          exact rstep_own hrb (rstep_other hra hki)
        · rw [rstep_other hrb hkj, rstep_other hrb hkj, rstep_other hra hki]

/-! ### Paths -/

/-- From the state `R` the steps can be taken one after the other, and lead to `F`. -/
def Path (e : Nat → Env) (n : Nat) : (Nat → Rank) → List WOp → (Nat → Rank) → Prop
  | R, [], F => R = F
  | R, o :: ops, F => CanGoOn n (wof R) o ∧ Path e n (rstep e n R o) ops F

theorem Path.append {e : Nat → Env} {n : Nat} {a b : List WOp} {R S F : Nat → Rank} (h1 : Path e n R a S) (h2 : Path e n S b F) :
    Path e n R (a ++ b) F := by
  induction a generalizing R with
  | nil => rw [show R = S from h1]; exact h2
  | cons o a ih => exact ⟨h1.1, ih h1.2⟩

theorem Possible.path {e : Nat → Env} {n : Nat} {setup : Nat → List Act} {ops : List WOp} (h : Possible e n setup ops) :
    Path e n (World.init setup).ranks ops (wrun e n setup ops).ranks := by
  induction ops using snoc_induction with
  | h0 => rfl
  | h1 ops o ih =>
    have hc := h ops o [] (by simp)
    refine (ih h.left).append ⟨canGoOn_wof.2 hc, ?_⟩
    rw [wrun_snoc (canGoOn_rank hc), ranks_wstep]
    rfl

/-- Whatever is done first, the end is the same and as far away. -/
theorem Path.first {e : Nat → Env} {n : Nat} {ops : List WOp} {R F : Nat → Rank} (hw : WG n R) (h : Path e n R ops F)
    (hF : ∀ o, ¬ CanGoOn n (wof F) o) {o : WOp} (ho : CanGoOn n (wof R) o) :
    ∃ ops', ops.length = ops'.length + 1 ∧ Path e n (rstep e n R o) ops' F := by
  induction ops generalizing R o with
  | nil => rw [show R = F from h] at ho; exact absurd ho (hF o)
  | cons a ops ih =>
    by_cases hao : a = o
    · subst hao; exact ⟨ops, by simp, h.2⟩
    · obtain ⟨d1, d2, d3⟩ := diamond (e := e) hw h.1 ho hao
      obtain ⟨ops', hl, hp⟩ := ih (hw.step a) h.2 d1
      refine ⟨a :: ops', by simp [hl], d2, ?_⟩
      rw [← d3]; exact hp

theorem Path.rest {e : Nat → Env} {n : Nat} {a b : List WOp} {R F S : Nat → Rank} (hw : WG n R) (ha : Path e n R a F)
    (hF : ∀ o, ¬ CanGoOn n (wof F) o) (hb : Path e n R b S) : ∃ c, a.length = b.length + c.length ∧ Path e n S c F := by
  induction b generalizing R a with
  | nil => exact ⟨a, by simp, by rw [← show R = S from hb]; exact ha⟩
  | cons o b ih =>
    obtain ⟨a', hl, hp⟩ := ha.first hw hF hb.1
    obtain ⟨c, hc, hq⟩ := ih (hw.step o) hp hb.2
    exact ⟨c, by simp [hl, hc]; omega, hq⟩

theorem Path.prefix {e : Nat → Env} {n : Nat} {ops : List WOp} {R F : Nat → Rank} (h : Path e n R ops F) (i : Nat) :
    ∃ tl, (F i).st.trace = (R i).st.trace ++ tl := by
  induction ops generalizing R with
  | nil => rw [show R = F from h]; exact ⟨[], by simp⟩
  | cons o ops ih =>
    obtain ⟨tl, ht⟩ := ih h.2
    obtain ⟨tl', ht'⟩ := wstep_prefix e n (wof R) o i
    exact ⟨tl' ++ tl, by rw [ht, show (rstep e n R o i).st.trace = _ from ht']; simp [wof]⟩

/-! ### The theorems -/

/-- Two runs of the same program, in which the ranks go on in any two orders until nobody can go on any more, end in the same state of
every rank, after the same number of steps: what has been run, when, and in which order on a rank does not depend on the speeds of
the ranks. -/
theorem C84_same_result (e : Nat → Env) (n : Nat) (setup : Nat → List Act) (a b : List WOp)
    (ha : Possible e n setup a) (hb : Possible e n setup b)
    (hta : ∀ o, ¬ CanGoOn n (wrun e n setup a) o) (htb : ∀ o, ¬ CanGoOn n (wrun e n setup b) o) :
    (∀ i, i < n → (wrun e n setup a).ranks i = (wrun e n setup b).ranks i) ∧ a.length = b.length := by
  obtain ⟨c, hl, hp⟩ := ha.path.rest (WG.init n setup) (fun o ho => hta o (canGoOn_wof.1 ho)) hb.path
  cases c with
  | nil =>
    have : (wrun e n setup b).ranks = (wrun e n setup a).ranks := hp
    exact ⟨fun i _ => by rw [this], by simpa using hl⟩
  | cons o c => exact absurd (canGoOn_wof.1 hp.1) (htb o)

/-- If nobody can go on after one order of steps, then no order of steps is longer, and what a rank has done in any of them is the
beginning of what it has done at the end. -/
theorem C84_on_the_way (e : Nat → Env) (n : Nat) (setup : Nat → List Act) (a b : List WOp)
    (ha : Possible e n setup a) (hta : ∀ o, ¬ CanGoOn n (wrun e n setup a) o) (hb : Possible e n setup b) :
    b.length ≤ a.length ∧
    ∀ i, i < n → ∃ tl, ((wrun e n setup a).ranks i).st.trace = ((wrun e n setup b).ranks i).st.trace ++ tl := by
  obtain ⟨c, hl, hp⟩ := ha.path.rest (WG.init n setup) (fun o ho => hta o (canGoOn_wof.1 ho)) hb.path
  exact ⟨by omega, fun i _ => hp.prefix i⟩

/-- In particular, `execute()` returns on all ranks in every order of steps if it does in one. -/
theorem C84_returns (e : Nat → Env) (n : Nat) (setup : Nat → List Act) (a b : List WOp)
    (ha : Possible e n setup a) (hfa : ∀ i, i < n → ((wrun e n setup a).ranks i).st.phase = .finished)
    (hb : Possible e n setup b) (htb : ∀ o, ¬ CanGoOn n (wrun e n setup b) o) :
    ∀ i, i < n → ((wrun e n setup b).ranks i).st.phase = .finished ∧
      ((wrun e n setup b).ranks i).st.trace = ((wrun e n setup a).ranks i).st.trace := by
  have hwg : WG n (wrun e n setup a).ranks := by
    have gen : ∀ (ops : List WOp) (w : World), WG n w.ranks → WG n (ops.foldl (wstep e n) w).ranks := by
      intro ops
      induction ops with
      | nil => exact fun _ h => h
      | cons o ops ih => exact fun w h => ih _ (by rw [ranks_wstep]; exact h.step o)
    exact gen _ _ (WG.init n setup)
  have hta : ∀ o, ¬ CanGoOn n (wrun e n setup a) o := by
    intro o ho
    cases o with
    | arrive i => have := hfa i ho.1; rw [ho.2.1] at this; cases this
    | reduce => have := hfa 0 ho.1; rw [(hwg 0 ho.1 (.inl (ho.2 0 ho.1))).1] at this; cases this
    | resume i => have := hfa i ho.1; rw [(hwg i ho.1 (.inr ho.2)).1] at this; cases this
    | loop i => have := hfa i ho.1; rw [ho.2] at this; cases this
    | leave i => have := hfa i ho.1; rw [ho.2.1] at this; cases this
    | endEvt i => obtain ⟨h1, k, h2⟩ := ho; have := hfa i h1; rw [h2] at this; cases this
  intro i hi
  have := (C84_same_result e n setup a b ha hb hta htb).1 i hi
  exact ⟨by rw [← this]; exact hfa i hi, by rw [this]⟩

/-! ### The hypotheses are met -/

/-- the steps of `endsOps` in another order -/
def ends2Ops : List WOp :=
  [.arrive 0, .arrive 1, .reduce, .resume 1, .loop 1, .loop 1, .arrive 1, .resume 0, .arrive 0,
   .reduce, .resume 1, .loop 1, .loop 1, .arrive 1, .resume 0, .loop 0, .loop 0, .loop 0, .loop 0, .arrive 0,
   .reduce, .resume 1, .loop 1, .loop 1, .leave 1, .endEvt 1, .resume 0, .loop 0, .loop 0,
   .leave 0, .endEvt 0, .endEvt 0, .endEvt 0, .endEvt 0]

theorem possible_of_check {e : Nat → Env} {n : Nat} {setup : Nat → List Act} {ops : List WOp}
    (h : ∀ k, k < ops.length → canGoOnCheck n (wrun e n setup (ops.take k)) (ops.getD k .reduce) = true) : Possible e n setup ops := by
  intro pre o post he
  have := h pre.length (by rw [he]; simp)
  rw [he] at this
  simp at this
  exact canGoOn_of_check this

theorem endsOps_possible : Possible endsEnv 2 stopSetup endsOps := possible_of_check (by decide +kernel)
theorem ends2Ops_possible : Possible endsEnv 2 stopSetup ends2Ops := possible_of_check (by decide +kernel)

/-- the two orders differ, and so does what has happened over all ranks, but not what has happened on a rank -/
example : endsOps ≠ ends2Ops ∧
    (∀ i, i < 2 → ((wrun endsEnv 2 stopSetup ends2Ops).ranks i).st.phase = .finished) ∧
    (∀ i, i < 2 → ((wrun endsEnv 2 stopSetup endsOps).ranks i).st.trace = ((wrun endsEnv 2 stopSetup ends2Ops).ranks i).st.trace) ∧
    (wrun endsEnv 2 stopSetup endsOps).log ≠ (wrun endsEnv 2 stopSetup ends2Ops).log := by
  have hf : ∀ i, i < 2 → ((wrun endsEnv 2 stopSetup ends2Ops).ranks i).st.phase = .finished ∧
      ((wrun endsEnv 2 stopSetup ends2Ops).ranks i).wait = none ∧ ((wrun endsEnv 2 stopSetup ends2Ops).ranks i).grant = none := by decide +kernel
  have hg : ∀ i, i < 2 → ((wrun endsEnv 2 stopSetup endsOps).ranks i).st.phase = .finished ∧
      ((wrun endsEnv 2 stopSetup endsOps).ranks i).wait = none ∧ ((wrun endsEnv 2 stopSetup endsOps).ranks i).grant = none := by decide +kernel
  refine ⟨by decide, fun i hi => (hf i hi).1, fun i hi => ?_, by decide +kernel⟩
  refine (C84_returns endsEnv 2 stopSetup ends2Ops endsOps ends2Ops_possible (fun i hi => (hf i hi).1) endsOps_possible ?_ i hi).2
  intro o ho
  cases o with
  | arrive i => have := hg i ho.1; rw [ho.2.1] at this; cases this.1
  | reduce => have := hg 0 (by omega); have h2 := ho.2 0 (by omega); rw [this.2.1] at h2; cases h2
  | resume i => have := hg i ho.1; have h2 := ho.2; rw [this.2.2] at h2; cases h2
  | loop i => have := hg i ho.1; rw [ho.2] at this; cases this.1
  | leave i => have := hg i ho.1; rw [ho.2.1] at this; cases this.1
  | endEvt i => obtain ⟨h1, k, h2⟩ := ho; have := hg i h1; rw [h2] at this; cases this.1

end Repast.Schedule
