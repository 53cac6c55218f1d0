import Verif.Schedule.Model

/-! Helper lemmas about the schedule model: permutations, group bookkeeping, decomposition into single-event steps. -/
namespace Repast.Schedule

/-! ### Queue -/

theorem qinsert_perm (ev : Ev) (l : List Ev) : (qinsert ev l).Perm (ev :: l) := by
  induction l with
  | nil => simp [qinsert]
  | cons x xs ih =>
    simp only [qinsert]
    split
    · exact List.Perm.refl _
    · exact (List.Perm.cons x ih).trans (List.Perm.swap ev x xs)

theorem qlt_trans {a b c : Ev} (h1 : qlt a b = true) (h2 : qlt b c = true) : qlt a c = true := by
  simp only [qlt, Bool.or_eq_true, Bool.and_eq_true, decide_eq_true_eq] at *
  omega

theorem qlt_total {a b : Ev} (h : qlt a b = false) (hne : a.ord ≠ b.ord) : qlt b a = true := by
  have h' : ¬ (qlt a b = true) := by simp [h]
  simp only [qlt, Bool.or_eq_true, Bool.and_eq_true, decide_eq_true_eq] at *
  omega

theorem qlt_at {a b : Ev} (h : qlt a b = true) : a.at_ ≤ b.at_ := by
  simp only [qlt, Bool.or_eq_true, Bool.and_eq_true, decide_eq_true_eq] at h
  omega

abbrev Sorted (l : List Ev) : Prop := l.Pairwise (fun a b => qlt a b = true)

theorem qinsert_sorted (ev : Ev) (l : List Ev) (hs : Sorted l) (hne : ∀ x ∈ l, ev.ord ≠ x.ord) :
    Sorted (qinsert ev l) := by
  induction l with
  | nil => simp [qinsert, Sorted]
  | cons x xs ih =>
    simp only [Sorted, List.pairwise_cons] at hs
    simp only [qinsert]
    split
    · rename_i h
      simp only [Sorted, List.pairwise_cons, List.mem_cons]
      refine ⟨?_, hs.1, hs.2⟩
      rintro a (rfl | ha)
      · exact h
      · exact qlt_trans h (hs.1 a ha)
    · rename_i h
      simp only [Sorted, List.pairwise_cons]
      refine ⟨?_, ih hs.2 (fun y hy => hne y (List.mem_cons_of_mem _ hy))⟩
      intro a ha
      have := (qinsert_perm ev xs).mem_iff.1 ha
      rcases List.mem_cons.1 this with rfl | h'
      · exact qlt_total (by simpa using h) (hne x (by simp))
      · exact hs.1 a h'

theorem sorted_head_le {ev : Ev} {l : List Ev} (hs : Sorted (ev :: l)) : ∀ x ∈ l, ev.at_ ≤ x.at_ := by
  intro x hx
  exact qlt_at ((List.pairwise_cons.1 hs).1 x hx)

theorem mem_dropWhile_gt {t : Int} {l : List Ev} (hs : Sorted l) (hle : ∀ x ∈ l, t ≤ x.at_) :
    ∀ x ∈ l.dropWhile (fun x => decide (x.at_ = t)), t < x.at_ := by
  induction l with
  | nil => simp
  | cons y ys ih =>
    intro x hx
    rw [List.dropWhile_cons] at hx
    split at hx
    · exact ih (List.pairwise_cons.1 hs).2 (fun z hz => hle z (List.mem_cons_of_mem _ hz)) x hx
    · rename_i h
      have hy : t < y.at_ := by
        have := hle y (by simp)
        simp at h; omega
      rcases List.mem_cons.1 hx with rfl | hx
      · exact hy
      · have := sorted_head_le hs x hx
        omega

theorem mem_takeWhile_eq {t : Int} {l : List Ev} : ∀ x ∈ l.takeWhile (fun x => decide (x.at_ = t)), x.at_ = t := by
  induction l with
  | nil => simp
  | cons y ys ih =>
    intro x hx
    rw [List.takeWhile_cons] at hx
    split at hx
    · rename_i h
      rcases List.mem_cons.1 hx with rfl | hx
      · simpa using h
      · exact ih x hx
    · simp at hx

/-! ### Groups -/

/-- All events held by a group. -/
def Group.all (g : Group) : List Ev := g.first ++ g.last ++ g.random ++ g.prioritized ++ g.added

theorem perm_filter_singleton {l l' : List Ev} {p : Ev → Bool} (h : l.Perm l') : (l.filter p).Perm (l'.filter p) :=
  h.filter p

theorem addEvt'_all (g : Group) (ev : Ev) : (g.addEvt' ev).all.Perm (ev :: g.all) := by
  unfold Group.addEvt' Group.all
  rw [List.perm_iff_count]
  intro a
  split <;> simp only [List.count_append, List.count_cons, List.count_nil] <;> omega

theorem addEvt_all (g : Group) (ev : Ev) : (g.addEvt ev).all.Perm (ev :: g.all) := by
  unfold Group.addEvt
  split
  · unfold Group.all
    rw [List.perm_iff_count]
    intro a
    simp only [List.count_append, List.count_cons, List.count_nil]; omega
  · exact addEvt'_all g ev

theorem reset_all (g : Group) : g.reset.all = [] := by simp [Group.reset, Group.all]

theorem foldl_addEvt_all (l : List Ev) (g : Group) : (l.foldl Group.addEvt g).all.Perm (l ++ g.all) := by
  induction l generalizing g with
  | nil => simp
  | cons x xs ih =>
    simp only [List.foldl_cons, List.cons_append]
    refine (ih _).trans ?_
    refine (List.Perm.append_left xs (addEvt_all g x)).trans ?_
    exact List.perm_middle

theorem foldl_addEvt'_all (l : List Ev) (g : Group) : (l.foldl Group.addEvt' g).all.Perm (l ++ g.all) := by
  induction l generalizing g with
  | nil => simp
  | cons x xs ih =>
    simp only [List.foldl_cons, List.cons_append]
    refine (ih _).trans ?_
    refine (List.Perm.append_left xs (addEvt'_all g x)).trans ?_
    exact List.perm_middle

theorem ordSort_perm (l : List Ev) : (ordSort l).Perm l := stableSort_perm _

theorem insertRandom_perm (e : Env) (k : Nat) (acc l : List Ev) : (insertRandom e k acc l).Perm (l ++ acc) := by
  induction l generalizing k acc with
  | nil => simp [insertRandom]
  | cons x xs ih =>
    simp only [insertRandom, List.cons_append]
    refine (ih _ _).trans ?_
    refine (List.Perm.append_left xs (List.perm_insertIdx x acc (e.pick_le k _))).trans ?_
    exact List.perm_middle

theorem sort_all (e : Env) (k : Nat) (g : Group) : (g.sort e k).1.all.Perm g.all := by
  unfold Group.sort Group.all
  have h1 := (ordSort_perm g.first).count_eq
  have h2 := (ordSort_perm g.last).count_eq
  have h3 := (ordSort_perm g.random).count_eq
  have h4 := (ordSort_perm g.prioritized).count_eq
  rw [List.perm_iff_count]
  intro a
  simp only []
  split
  · have h5 := (e.shuf_perm k (ordSort g.random)).count_eq
    simp only [List.count_append, List.count_nil, h1, h2, h4, h5, h3]; omega
  · have h5 := (insertRandom_perm e k (e.psort (ordSort g.prioritized)) (ordSort g.random)).count_eq
    have h6 := (e.psort_perm (ordSort g.prioritized)).count_eq
    simp only [List.count_append, List.count_nil, h1, h2, h5, h3, h6, h4]; omega

theorem sort_random (e : Env) (k : Nat) (g : Group) : (g.sort e k).1.random = [] := by
  unfold Group.sort; simp only []; split <;> rfl

theorem sort_added (e : Env) (k : Nat) (g : Group) : (g.sort e k).1.added = g.added := by
  unfold Group.sort; simp only []; split <;> rfl

theorem sort_executing (e : Env) (k : Nat) (g : Group) : (g.sort e k).1.executing = g.executing := by
  unfold Group.sort; simp only []; split <;> rfl

theorem sort_interrupted (e : Env) (k : Nat) (g : Group) : (g.sort e k).1.interrupted = g.interrupted := by
  unfold Group.sort; simp only []; split <;> rfl

theorem sort_size (e : Env) (k : Nat) (g : Group) : (g.sort e k).1.size = g.size := by
  unfold Group.sort; simp only []; split <;> rfl

theorem addDuring_all (e : Env) (s : St) : (addDuring e s).grp.all.Perm s.grp.all := by
  unfold addDuring
  simp only []
  have h1 := sort_all e s.rnd (s.grp.added.foldl Group.addEvt' s.grp)
  have h2 := foldl_addEvt'_all s.grp.added s.grp
  have h3 : ∀ (l : List Ev) (g : Group), (l.foldl Group.addEvt' g).added = g.added := by
    intro l
    induction l with
    | nil => intro g; rfl
    | cons x xs ih =>
      intro g
      simp only [List.foldl_cons, ih]
      unfold Group.addEvt'; split <;> rfl
  have h4 : ((s.grp.added.foldl Group.addEvt' s.grp).sort e s.rnd).1.added = s.grp.added := by
    rw [sort_added, h3]
  have h5 := (h1.trans h2).count_eq
  rw [List.perm_iff_count]
  intro a
  have := h5 a
  unfold Group.all at this ⊢
  rw [h4] at this
  simp only [List.count_append, List.count_nil] at this ⊢
  omega

/-- The events of a group that will be executed, in the planned order. -/
def Group.plan (g : Group) : List Ev := g.first ++ (g.prioritized ++ g.last)

theorem foldl_addEvt'_fields (l : List Ev) (g : Group) :
    (l.foldl Group.addEvt' g).added = g.added ∧ (l.foldl Group.addEvt' g).executing = g.executing ∧
    (l.foldl Group.addEvt' g).interrupted = g.interrupted ∧
    (l.foldl Group.addEvt' g).size = g.size + l.length := by
  induction l generalizing g with
  | nil => simp
  | cons x xs ih =>
    simp only [List.foldl_cons, List.length_cons]
    obtain ⟨h1, h2, h3, h4⟩ := ih (g.addEvt' x)
    have : (g.addEvt' x).added = g.added ∧ (g.addEvt' x).executing = g.executing ∧
      (g.addEvt' x).interrupted = g.interrupted ∧ (g.addEvt' x).size = g.size + 1 := by
      unfold Group.addEvt'; split <;> simp
    refine ⟨h1.trans this.1, h2.trans this.2.1, h3.trans this.2.2.1, ?_⟩
    rw [h4, this.2.2.2]; push_cast; omega

theorem foldl_addEvt_idle (l : List Ev) (g : Group) (h : g.executing = false) :
    l.foldl Group.addEvt g = l.foldl Group.addEvt' g := by
  induction l generalizing g with
  | nil => rfl
  | cons x xs ih =>
    simp only [List.foldl_cons]
    have : g.addEvt x = g.addEvt' x := by simp [Group.addEvt, h]
    rw [this]
    apply ih
    unfold Group.addEvt'; split <;> simpa using h

theorem all_length (g : Group) : g.all.length =
    g.first.length + g.last.length + g.random.length + g.prioritized.length + g.added.length := by
  simp [Group.all]; omega

/-! ### API calls inside a callback -/

theorem pushEvent_phase (s : St) (a p q i c g) : (pushEvent s a p q i c g).phase = s.phase := by
  unfold pushEvent; simp only []; split
  · rfl
  · split
    · split <;> rfl
    · rfl

theorem applyAct_phase (s : St) (a : Act) : (applyAct s a).phase = s.phase := by
  cases a <;> simp [applyAct, pushEvent_phase]

theorem foldl_applyAct_phase (l : List Act) (s : St) : (l.foldl applyAct s).phase = s.phase := by
  induction l generalizing s with
  | nil => rfl
  | cons a l ih => simp [ih, applyAct_phase]

theorem pushEvent_tick (s : St) (a p q i c g) : (pushEvent s a p q i c g).tick = s.tick := by
  unfold pushEvent; simp only []; split
  · rfl
  · split
    · split <;> rfl
    · rfl

theorem applyAct_tick (s : St) (a : Act) : (applyAct s a).tick = s.tick := by
  cases a <;> simp [applyAct, pushEvent_tick]

theorem foldl_applyAct_tick (l : List Act) (s : St) : (l.foldl applyAct s).tick = s.tick := by
  induction l generalizing s with
  | nil => rfl
  | cons a l ih => simp [ih, applyAct_tick]

/-- While a group executes, API calls change only its `added` list and `interrupted` flag. -/
theorem addEvt_executing (g : Group) (ev : Ev) (h : g.executing = true) :
    g.addEvt ev = { g with added := g.added ++ [ev], interrupted := true } := by
  simp [Group.addEvt, h]

/-- The parts of the group that a callback cannot change. -/
structure SameGroup (g g' : Group) : Prop where
  first : g'.first = g.first
  last : g'.last = g.last
  random : g'.random = g.random
  prioritized : g'.prioritized = g.prioritized
  executing : g'.executing = g.executing
  size : g'.size = g.size
  added : (g.interrupted = false → g.added = []) → (g'.interrupted = false → g'.added = [])
  mono : g'.interrupted = false → g.interrupted = false
  added2 : (g.interrupted = true → g.added ≠ []) → (g'.interrupted = true → g'.added ≠ [])

theorem SameGroup.refl (g : Group) : SameGroup g g := ⟨rfl, rfl, rfl, rfl, rfl, rfl, id, id, id⟩

theorem SameGroup.trans {a b c : Group} (h1 : SameGroup a b) (h2 : SameGroup b c) : SameGroup a c :=
  ⟨h2.first.trans h1.first, h2.last.trans h1.last, h2.random.trans h1.random, h2.prioritized.trans h1.prioritized,
   h2.executing.trans h1.executing, h2.size.trans h1.size, fun h => h2.added (h1.added h), fun h => h1.mono (h2.mono h),
   fun h => h2.added2 (h1.added2 h)⟩

theorem pushEvent_same (s : St) (a p q i c g) (h : s.grp.executing = true) :
    SameGroup s.grp (pushEvent s a p q i c g).grp := by
  unfold pushEvent; simp only []; split
  · exact SameGroup.refl _
  · split
    · split
      · simp only [addEvt_executing _ _ h]
        constructor <;> simp
      · exact SameGroup.refl _
    · exact SameGroup.refl _

theorem applyAct_same (s : St) (a : Act) (h : s.grp.executing = true) : SameGroup s.grp (applyAct s a).grp := by
  cases a <;> simp only [applyAct]
  · exact pushEvent_same _ _ _ _ _ _ _ h
  · exact pushEvent_same _ _ _ _ _ _ _ h
  all_goals exact SameGroup.refl _

theorem foldl_applyAct_same (l : List Act) (s : St) (h : s.grp.executing = true) :
    SameGroup s.grp (l.foldl applyAct s).grp := by
  induction l generalizing s with
  | nil => exact SameGroup.refl _
  | cons a l ih =>
    have h1 := applyAct_same s a h
    exact h1.trans (ih _ (h1.executing.trans h))

theorem callEv_same (e : Env) (s : St) (ev : Ev) (h : s.grp.executing = true) : SameGroup s.grp (callEv e s ev).grp := by
  unfold callEv
  split
  · exact SameGroup.refl _
  · simp only []
    split
    · exact applyAct_same { s with trace := s.trace ++ [.ran ev s.tick] } _ h
    · exact foldl_applyAct_same _ { s with trace := s.trace ++ [.ran ev s.tick] } h

theorem callEv_phase (e : Env) (s : St) (ev : Ev) : (callEv e s ev).phase = s.phase := by
  unfold callEv
  split
  · rfl
  · simp only []
    split
    · rfl
    · simp [foldl_applyAct_phase]

theorem rescheduleEv_grp (e : Env) (s : St) (ev : Ev) : (rescheduleEv e s ev).grp = s.grp := by
  unfold rescheduleEv; split
  · rfl
  · split <;> rfl

theorem rescheduleEv_phase (e : Env) (s : St) (ev : Ev) : (rescheduleEv e s ev).phase = s.phase := by
  unfold rescheduleEv; split
  · rfl
  · split <;> rfl

theorem runEv_phase (e : Env) (s : St) (ev : Ev) : (runEv e s ev).phase = s.phase := by
  simp [runEv, rescheduleEv_phase, callEv_phase]

theorem runEv_same (e : Env) (s : St) (ev : Ev) (h : s.grp.executing = true) :
    SameGroup { s.grp with size := s.grp.size - 1 } (runEv e s ev).grp := by
  simp only [runEv, rescheduleEv_grp]
  exact callEv_same e { s with grp := { s.grp with size := s.grp.size - 1 } } ev h

/-! ### Single-event steps -/

/-- Close the current group after one event: merge events added meanwhile. -/
def post (e : Env) (s : St) : St := if s.grp.interrupted then addDuring e s else s

/-- The next event is the head of list `w`, all lists before it being exhausted. -/
def Next (g : Group) (w : Which) (ev : Ev) (rest : List Ev) : Prop :=
  g.get w = ev :: rest ∧ (w ≠ .first → g.first = []) ∧ (w = .last → g.prioritized = [])

/-- Single-event steps of one process; every history of `step`s is a sequence of these. -/
inductive MStep (e : Env) : St → St → Prop where
  | act (s a) : s.phase = .idle → MStep e s (applyAct s a)
  | enter (s) : s.phase = .idle → s.go = true → MStep e s (startExecute e s)
  | skip (s) : s.phase = .idle → s.go = true → MStep e s { s with nextTick := schedNextTick s }
  | exec (s) : s.phase = .running → MStep e s { s with grp := { s.grp with executing := true } }
  | event (s w ev rest) : s.phase = .running → s.grp.executing = true → Next s.grp w ev rest →
      MStep e s (post e (runEv e { s with grp := s.grp.set rest w } ev))
  | unexec (s) : s.phase = .running → s.grp.first = [] → s.grp.prioritized = [] → s.grp.last = [] →
      MStep e s { s with grp := { s.grp with executing := false } }
  | finish (s) : s.phase = .running → s.grp.size ≤ 0 → s.grp.executing = false →
      MStep e s { s with phase := .idle, nextTick := schedNextTick s }
  | leave (s) : s.phase = .idle → s.go = false → MStep e s { s with phase := .ending 0 }
  | endDone (s i) : s.phase = .ending i → s.endEvts[i]? = none → MStep e s { s with phase := .finished }
  | endSkip (s i id l) : s.phase = .ending i → s.endEvts[i]? = some (id, l) → id ∈ s.voided →
      MStep e s { s with phase := .ending (i+1) }
  | endRun (s i id l) : s.phase = .ending i → s.endEvts[i]? = some (id, l) → id ∉ s.voided →
      MStep e s ((e.endProg (s.trace ++ [.ranEnd id l]) l).foldl applyAct
        { s with phase := .ending (i+1), trace := s.trace ++ [.ranEnd id l] })

inductive MReach (e : Env) : St → St → Prop where
  | refl (s) : MReach e s s
  | tail {s t u} : MReach e s t → MStep e t u → MReach e s u

theorem MReach.trans {e : Env} {a b c : St} (h1 : MReach e a b) (h2 : MReach e b c) : MReach e a c := by
  induction h2 with
  | refl => exact h1
  | tail _ h ih => exact .tail ih h

theorem MReach.single {e : Env} {a b : St} (h : MStep e a b) : MReach e a b := .tail (.refl a) h

theorem set_executing (g : Group) (l : List Ev) (w : Which) : (g.set l w).executing = g.executing := by
  cases w <;> rfl

theorem addDuring_executing (e : Env) (s : St) : (addDuring e s).grp.executing = s.grp.executing := by
  unfold addDuring
  simp only [sort_executing]
  exact (foldl_addEvt'_fields _ _).2.1

theorem addDuring_phase (e : Env) (s : St) : (addDuring e s).phase = s.phase := rfl

theorem pushEvent_executing (s : St) (a p q i c g) : (pushEvent s a p q i c g).grp.executing = s.grp.executing := by
  unfold pushEvent; simp only []; split
  · rfl
  · split
    · split
      · simp only [Group.addEvt, Group.addEvt']; split
        · rfl
        · split <;> rfl
      · rfl
    · rfl

theorem applyAct_executing (s : St) (a : Act) : (applyAct s a).grp.executing = s.grp.executing := by
  cases a <;> simp [applyAct, pushEvent_executing]

/-! ### Group bookkeeping -/

/-- What holds of the group between single-event steps. -/
structure GInv (s : St) : Prop where
  idle : s.phase ≠ .running → s.grp.executing = false
  run : s.phase = .running → s.grp.random = [] ∧ s.grp.added = [] ∧ s.grp.interrupted = false ∧
    s.grp.size = s.grp.first.length + s.grp.prioritized.length + s.grp.last.length

theorem GInv.init : GInv St.init := ⟨fun _ => rfl, by simp [St.init]⟩

theorem startExecute_phase (e : Env) (s : St) : (startExecute e s).phase = s.phase ∨ (startExecute e s).phase = .running := by
  unfold startExecute; split
  · exact Or.inl rfl
  · exact Or.inr rfl

theorem size_of_all {g : Group} (h1 : g.random = []) (h2 : g.added = []) :
    (g.all.length : Int) = g.first.length + g.prioritized.length + g.last.length := by
  rw [all_length, h1, h2]; simp only [List.length_nil]; omega

theorem GInv.start {e s} (h : GInv s) (hp : s.phase = .idle) : GInv (startExecute e s) := by
  have hx := h.idle (by simp [hp])
  unfold startExecute
  split
  · exact ⟨h.idle, h.run⟩
  · simp only []
    refine ⟨by simp, fun _ => ?_⟩
    rw [foldl_addEvt_idle _ _ (by simpa [Group.reset] using hx)]
    generalize hl : s.queue.takeWhile _ = l
    obtain ⟨f1, f2, f3, f4⟩ := foldl_addEvt'_fields l s.grp.reset
    have hall := (sort_all e s.rnd (l.foldl Group.addEvt' s.grp.reset)).trans (foldl_addEvt'_all l s.grp.reset)
    rw [reset_all] at hall
    have hr := sort_random e s.rnd (l.foldl Group.addEvt' s.grp.reset)
    have ha : ((l.foldl Group.addEvt' s.grp.reset).sort e s.rnd).1.added = [] := by rw [sort_added, f1]; rfl
    refine ⟨hr, ha, ?_, ?_⟩
    · rw [sort_interrupted, f3]; rfl
    · rw [← size_of_all hr ha, hall.length_eq, sort_size, f4]; simp [Group.reset]

theorem set_size (g : Group) (l w) : (g.set l w).size = g.size := by cases w <;> rfl
theorem set_random (g : Group) (l w) : (g.set l w).random = g.random := by cases w <;> rfl
theorem set_added (g : Group) (l w) : (g.set l w).added = g.added := by cases w <;> rfl
theorem set_interrupted (g : Group) (l w) : (g.set l w).interrupted = g.interrupted := by cases w <;> rfl

theorem GInv.event {e s w ev rest} (h : GInv s) (hp : s.phase = .running) (hx : s.grp.executing = true)
    (hn : Next s.grp w ev rest) : GInv (post e (runEv e { s with grp := s.grp.set rest w } ev)) := by
  obtain ⟨r1, r2, r3, r4⟩ := h.run hp
  have hsame := runEv_same e { s with grp := s.grp.set rest w } ev (by simp [set_executing, hx])
  have hph : (runEv e { s with grp := s.grp.set rest w } ev).phase = .running := by rw [runEv_phase]; exact hp
  have hlen : ((runEv e { s with grp := s.grp.set rest w } ev).grp.size : Int) =
      (runEv e { s with grp := s.grp.set rest w } ev).grp.first.length +
      (runEv e { s with grp := s.grp.set rest w } ev).grp.prioritized.length +
      (runEv e { s with grp := s.grp.set rest w } ev).grp.last.length := by
    rw [hsame.size, hsame.first, hsame.prioritized, hsame.last]
    have hg := hn.1
    simp only [set_size, r4]
    cases w <;> simp only [Group.get] at hg <;> simp only [Group.set, hg, List.length_cons] <;> push_cast <;> omega
  have hrand : (runEv e { s with grp := s.grp.set rest w } ev).grp.random = [] := by
    rw [hsame.random]; simp [set_random, r1]
  have hadd := hsame.added (by simp [set_added, r2])
  have hex : (runEv e { s with grp := s.grp.set rest w } ev).grp.executing = true := by
    rw [hsame.executing]; simp [set_executing, hx]
  generalize runEv e { s with grp := s.grp.set rest w } ev = v at *
  unfold post
  split
  · refine ⟨fun hc => absurd (by rw [addDuring_phase]; exact hph) hc, fun _ => ?_⟩
    have hall := addDuring_all e v
    have a1 : (addDuring e v).grp.random = [] := by unfold addDuring; exact sort_random _ _ _
    have a2 : (addDuring e v).grp.added = [] := rfl
    refine ⟨a1, a2, rfl, ?_⟩
    rw [← size_of_all a1 a2, hall.length_eq, all_length, hrand]
    have : (addDuring e v).grp.size = v.grp.size + v.grp.added.length := by
      unfold addDuring
      simp only [sort_size]
      exact (foldl_addEvt'_fields _ _).2.2.2
    rw [this, hlen]; simp only [List.length_nil]; push_cast; omega
  · rename_i hi
    have hi : v.grp.interrupted = false := by simpa using hi
    exact ⟨fun hc => absurd hph hc, fun _ => ⟨hrand, hadd hi, hi, hlen⟩⟩

theorem foldl_applyAct_executing (l : List Act) (s : St) : (l.foldl applyAct s).grp.executing = s.grp.executing := by
  induction l generalizing s with
  | nil => rfl
  | cons a l ih => simp [ih, applyAct_executing]

theorem GInv.step {e s t} (h : GInv s) (hm : MStep e s t) : GInv t := by
  cases hm with
  | act a hp =>
    refine ⟨fun hc => ?_, fun hc => ?_⟩
    · rw [applyAct_executing]; rw [applyAct_phase] at hc; exact h.idle hc
    · rw [applyAct_phase, hp] at hc; simp at hc
  | enter hp => exact h.start hp
  | skip hp => exact ⟨h.idle, h.run⟩
  | exec hp => exact ⟨fun hc => absurd hp hc, h.run⟩
  | event w ev rest hp hx hn => exact h.event hp hx hn
  | unexec hp => exact ⟨fun _ => rfl, h.run⟩
  | finish hp hsz hx => exact ⟨fun _ => hx, by simp⟩
  | leave hp => exact ⟨fun _ => h.idle (by simp [hp]), by simp⟩
  | endDone i hp hi => exact ⟨fun _ => h.idle (by simp [hp]), by simp⟩
  | endSkip i id l hp => exact ⟨fun _ => h.idle (by simp [hp]), by simp⟩
  | endRun i id l hp =>
    refine ⟨fun _ => ?_, ?_⟩
    · rw [foldl_applyAct_executing]; exact h.idle (by simp [hp])
    · rw [foldl_applyAct_phase]; simp

/-- `execute_evts` is a sequence of single-event steps. -/
theorem executeEvts_reach (e : Env) (w : Which) (l : List Ev) (s : St)
    (hp : s.phase = .running) (hx : s.grp.executing = true) (hl : s.grp.get w = l)
    (h1 : w ≠ .first → s.grp.first = []) (h2 : w = .last → s.grp.prioritized = []) (hi0 : s.grp.interrupted = false) :
    ((executeEvts e w l s).2 = true → 0 < (executeEvts e w l s).1.grp.all.length) ∧
    ((executeEvts e w l s).2 = false → (executeEvts e w l s).1.grp.interrupted = false) ∧
    MReach e s (executeEvts e w l s).1 ∧
    (executeEvts e w l s).1.phase = .running ∧ (executeEvts e w l s).1.grp.executing = true ∧
    ((executeEvts e w l s).2 = false → (executeEvts e w l s).1.grp.get w = [] ∧
      (w ≠ .first → (executeEvts e w l s).1.grp.first = []) ∧
      (w = .last → (executeEvts e w l s).1.grp.prioritized = []) ∧
      (w = .first → (executeEvts e w l s).1.grp.prioritized = s.grp.prioritized) ∧
      (w ≠ .last → (executeEvts e w l s).1.grp.last = s.grp.last)) := by
  induction l generalizing s with
  | nil =>
    exact ⟨by simp [executeEvts], fun _ => hi0, .refl _, hp, hx, fun _ => ⟨hl, h1, h2, fun _ => rfl, fun _ => rfl⟩⟩
  | cons ev rest ih =>
    have hstep := MStep.event (e := e) s w ev rest hp hx ⟨hl, h1, h2⟩
    simp only [executeEvts]
    have hsame := runEv_same e { s with grp := s.grp.set rest w } ev (by simp [set_executing, hx])
    have hph : (runEv e { s with grp := s.grp.set rest w } ev).phase = .running := by rw [runEv_phase]; exact hp
    have hex : (runEv e { s with grp := s.grp.set rest w } ev).grp.executing = true := by
      rw [hsame.executing]; simp [set_executing, hx]
    split
    · rename_i hi
      simp only [post, hi, if_true] at hstep
      refine ⟨fun _ => ?_, by simp, .single hstep, ?_, ?_, by simp⟩
      · rw [(addDuring_all e _).length_eq, all_length]
        have := hsame.added2 (by simp [set_interrupted, hi0]) hi
        have := List.length_pos_iff.2 this
        omega
      · rw [addDuring_phase]; exact hph
      · rw [addDuring_executing]; exact hex
    · rename_i hi
      simp only [post, hi] at hstep
      have hf := hsame.first
      have hpr := hsame.prioritized
      have hla := hsame.last
      have := ih (runEv e { s with grp := s.grp.set rest w } ev) hph hex
        (by cases w <;> simp_all [Group.get, Group.set])
        (by intro hw; rw [hf]; cases w <;> simp_all [Group.set])
        (by intro hw; rw [hpr]; cases w <;> simp_all [Group.set]) (by simpa using hi)
      obtain ⟨r01, r02, r1, r2, r3, r4⟩ := this
      refine ⟨r01, r02, (MReach.single (by simpa using hstep)).trans r1, r2, r3, ?_⟩
      intro h
      obtain ⟨q1, q2, q3, q4, q5⟩ := r4 h
      refine ⟨q1, q2, q3, ?_, ?_⟩
      · intro hw; rw [q4 hw, hpr]; subst hw; rfl
      · intro hw; rw [q5 hw, hla]; cases w <;> simp_all [Group.set]

theorem groupExecute_reach (e : Env) (s : St) (hp : s.phase = .running) (hi : s.grp.interrupted = false) :
    MReach e s (groupExecute e s) ∧
    ((groupExecute e s).grp.executing = true → 0 < (groupExecute e s).grp.all.length) := by
  have h0 : MReach e s { s with grp := { s.grp with executing := true } } := .single (.exec s hp)
  unfold groupExecute
  simp only []
  have A := executeEvts_reach e .first s.grp.first { s with grp := { s.grp with executing := true } } hp rfl rfl
    (by simp) (by simp) hi
  obtain ⟨a01, a02, a1, a2, a3, a4⟩ := A
  split
  · rename_i ha
    exact ⟨h0.trans a1, fun _ => a01 ha⟩
  · rename_i ha
    have ha : (executeEvts e .first s.grp.first { s with grp := { s.grp with executing := true } }).2 = false := by simpa using ha
    obtain ⟨a4, -, -, a5, a6⟩ := a4 ha
    have B := executeEvts_reach e .prioritized _ _ a2 a3 rfl (fun _ => a4) (by simp) (a02 ha)
    simp only [Group.get] at B
    obtain ⟨b01, b02, b1, b2, b3, b4⟩ := B
    split
    · rename_i hb
      exact ⟨h0.trans (a1.trans b1), fun _ => b01 hb⟩
    · rename_i hb
      have hb := Bool.eq_false_iff.2 hb
      obtain ⟨b4, b5, -, -, b6⟩ := b4 hb
      have C := executeEvts_reach e .last _ _ b2 b3 rfl (fun _ => b5 (by simp)) (fun _ => b4) (b02 hb)
      simp only [Group.get] at C
      obtain ⟨c01, c02, c1, c2, c3, c4⟩ := C
      split
      · rename_i hc
        exact ⟨h0.trans (a1.trans (b1.trans c1)), fun _ => c01 hc⟩
      · rename_i hc
        obtain ⟨c4, c5, c6, -, -⟩ := c4 (by simpa using hc)
        exact ⟨(h0.trans (a1.trans (b1.trans c1))).tail (.unexec _ c2 (c5 (by simp)) (c6 trivial) c4), by simp⟩

theorem MReach.ginv {e s t} (h : MReach e s t) (hg : GInv s) : GInv t := by
  induction h with
  | refl => exact hg
  | tail _ hm ih => exact ih.step hm

/-- Between two evaluations of the `while size > 0` loop the `executing` flag is set only if events remain. -/
def OpInv (s : St) : Prop := s.phase = .running → s.grp.executing = true → 0 < s.grp.all.length

theorem startExecute_executing (e : Env) (s : St) : (startExecute e s).grp.executing = s.grp.executing := by
  unfold startExecute
  split
  · rfl
  · simp only [sort_executing]
    generalize List.takeWhile _ s.queue = l
    have : ∀ (l : List Ev) (g : Group), (l.foldl Group.addEvt g).executing = g.executing := by
      intro l
      induction l with
      | nil => intro g; rfl
      | cons x xs ih =>
        intro g
        simp only [List.foldl_cons, ih]
        unfold Group.addEvt Group.addEvt'; split
        · rfl
        · split <;> rfl
    rw [this]; rfl

theorem step_reach (e : Env) (s : St) (op : Op) (hg : GInv s) (ho : OpInv s) :
    MReach e s (step e s op) ∧ OpInv (step e s op) := by
  have hidle : s.phase = .idle → s.grp.executing = false := fun h => hg.idle (by simp [h])
  cases op with
  | act a =>
    simp only [step]; split
    · rename_i hp
      refine ⟨.single (.act s a hp), fun hr => ?_⟩
      rw [applyAct_phase, hp] at hr; simp at hr
    · exact ⟨.refl _, ho⟩
  | enter =>
    simp only [step]; split
    · rename_i h
      refine ⟨.single (.enter s h.1 h.2), fun _ hx => ?_⟩
      rw [startExecute_executing, hidle h.1] at hx; simp at hx
    · exact ⟨.refl _, ho⟩
  | skip =>
    simp only [step]; split
    · rename_i h; exact ⟨.single (.skip s h.1 h.2), ho⟩
    · exact ⟨.refl _, ho⟩
  | loop =>
    simp only [step]; split
    · rename_i hp
      split
      · have := groupExecute_reach e s hp (hg.run hp).2.2.1
        exact ⟨this.1, fun _ => this.2⟩
      · rename_i hsz
        refine ⟨.single (.finish s hp (by omega) ?_), by simp [OpInv]⟩
        cases hx : s.grp.executing with
        | false => rfl
        | true =>
          have h1 := ho hp hx
          obtain ⟨r1, r2, -, r4⟩ := hg.run hp
          have := size_of_all r1 r2
          omega
    · exact ⟨.refl _, ho⟩
  | leave =>
    simp only [step]; split
    · rename_i h; exact ⟨.single (.leave s h.1 h.2), by simp [OpInv]⟩
    · exact ⟨.refl _, ho⟩
  | endEvt =>
    simp only [step]
    split
    · rename_i i hp
      split
      · exact ⟨.single (.endDone s i hp ‹_›), by simp [OpInv]⟩
      · rename_i id l hi
        by_cases hv : id ∈ s.voided
        · rw [if_pos hv]; exact ⟨.single (.endSkip s i id l hp hi hv), by simp [OpInv]⟩
        · rw [if_neg hv]
          refine ⟨.single (.endRun s i id l hp hi hv), fun hr => ?_⟩
          simp only [foldl_applyAct_phase] at hr
          simp at hr
    · exact ⟨.refl _, ho⟩

theorem run_reach (e : Env) (ops : List Op) (s : St) (hg : GInv s) (ho : OpInv s) :
    MReach e s (ops.foldl (step e) s) := by
  induction ops generalizing s with
  | nil => exact .refl _
  | cons o ops ih =>
    have := step_reach e s o hg ho
    exact this.1.trans (ih _ (this.1.ginv hg) this.2)

/-- Induction principle: a predicate that holds of a fresh runner and is preserved by single-event steps holds after
every history. -/
theorem run_induction (e : Env) (P : St → Prop) (h0 : P St.init) (hs : ∀ s t, GInv s → P s → MStep e s t → P t)
    (ops : List Op) : P (run e ops) := by
  have : ∀ s t, GInv s → P s → MReach e s t → P t := by
    intro s t hg h hr
    induction hr with
    | refl => exact h
    | tail hr hm ih => exact hs _ _ (hr.ginv hg) ih hm
  exact this _ _ GInv.init h0 (run_reach e ops _ GInv.init (by simp [OpInv, St.init]))

theorem run_ginv (e : Env) (ops : List Op) : GInv (run e ops) :=
  run_induction e GInv GInv.init (fun _ _ h _ hm => h.step hm) ops

end Repast.Schedule
