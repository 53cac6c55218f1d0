import Verif.Schedule.Order

/-! The plan of a tick: FIRST events, then the middle ones, then LAST events. -/
namespace Repast.Schedule

/-! ### Shape of the group -/

structure Shape (mid : PType → Prop) (g : Group) : Prop where
  first : ∀ x ∈ g.first, x.ptype = .first
  last : ∀ x ∈ g.last, x.ptype = .last
  random : ∀ x ∈ g.random, x.ptype = .random
  prioritized : ∀ x ∈ g.prioritized, mid x.ptype

def isMid (p : PType) : Prop := p = .random ∨ p = .byPriority
def isPrio (p : PType) : Prop := p = .byPriority

theorem Shape.addEvt' {mid g} (h : Shape mid g) (hm : mid .byPriority) (ev : Ev) : Shape mid (g.addEvt' ev) := by
  unfold Group.addEvt'
  split
  · rename_i hp
    refine ⟨h.first, h.last, ?_, h.prioritized⟩
    intro x hx
    rcases List.mem_append.1 hx with hx | hx
    · exact h.random x hx
    · simp only [List.mem_singleton] at hx; rw [hx]; exact hp
  · rename_i hp
    refine ⟨?_, h.last, h.random, h.prioritized⟩
    intro x hx
    rcases List.mem_append.1 hx with hx | hx
    · exact h.first x hx
    · simp only [List.mem_singleton] at hx; rw [hx]; exact hp
  · rename_i hp
    refine ⟨h.first, ?_, h.random, h.prioritized⟩
    intro x hx
    rcases List.mem_append.1 hx with hx | hx
    · exact h.last x hx
    · simp only [List.mem_singleton] at hx; rw [hx]; exact hp
  · rename_i hp
    refine ⟨h.first, h.last, h.random, ?_⟩
    intro x hx
    rcases List.mem_append.1 hx with hx | hx
    · exact h.prioritized x hx
    · simp only [List.mem_singleton] at hx; rw [hx, hp]; exact hm

theorem Shape.foldl {mid} (hm : mid .byPriority) (l : List Ev) {g} (h : Shape mid g) : Shape mid (l.foldl Group.addEvt' g) := by
  induction l generalizing g with
  | nil => exact h
  | cons x xs ih => exact ih (h.addEvt' hm x)

theorem sort_first (e : Env) (k : Nat) (g : Group) : (g.sort e k).1.first = ordSort g.first := by
  unfold Group.sort; simp only []; split <;> rfl

theorem sort_last (e : Env) (k : Nat) (g : Group) : (g.sort e k).1.last = ordSort g.last := by
  unfold Group.sort; simp only []; split <;> rfl

theorem sort_prioritized_perm (e : Env) (k : Nat) (g : Group) :
    (g.sort e k).1.prioritized.Perm (g.prioritized ++ g.random) := by
  unfold Group.sort; simp only []; split
  · exact ((ordSort_perm _).append ((e.shuf_perm _ _).trans (ordSort_perm _)))
  · refine (insertRandom_perm _ _ _ _).trans ?_
    refine List.perm_append_comm.trans ?_
    exact ((e.psort_perm _).trans (ordSort_perm _)).append (ordSort_perm _)

theorem Shape.sort {mid g} (h : Shape mid g) (hmid : ∀ p, mid p → isMid p) (e : Env) (k : Nat) :
    Shape isMid (g.sort e k).1 := by
  refine ⟨?_, ?_, ?_, ?_⟩
  · intro x hx; rw [sort_first] at hx; exact h.first x ((ordSort_perm _).mem_iff.1 hx)
  · intro x hx; rw [sort_last] at hx; exact h.last x ((ordSort_perm _).mem_iff.1 hx)
  · intro x hx; rw [sort_random] at hx; simp at hx
  · intro x hx
    have hx := (sort_prioritized_perm e k g).mem_iff.1 hx
    rcases List.mem_append.1 hx with hx | hx
    · exact hmid _ (h.prioritized x hx)
    · exact Or.inl (h.random x hx)

theorem ordSort_sorted (l : List Ev) : (ordSort l).Pairwise (fun a b => a.ord ≤ b.ord) := by
  have := stableSort_pairwise (le := fun a b : Ev => decide (a.ord ≤ b.ord))
    (by intro a b c; simp only [decide_eq_true_eq]; omega) (by intro a b; simp only [decide_eq_true_eq]; omega) l
  exact this.imp (by intro a b h; simpa using h)

structure PInv (s : St) : Prop where
  shape : s.phase = .running → Shape isMid s.grp
  first : s.phase = .running → s.grp.first.Pairwise (fun a b => a.ord ≤ b.ord)
  last : s.phase = .running → s.grp.last.Pairwise (fun a b => a.ord ≤ b.ord)

theorem Shape.of_same {mid g g'} (h : Shape mid g) (h1 : g'.first = g.first) (h2 : g'.last = g.last) (h3 : g'.random = g.random)
    (h4 : g'.prioritized = g.prioritized) : Shape mid g' :=
  ⟨by rw [h1]; exact h.first, by rw [h2]; exact h.last, by rw [h3]; exact h.random, by rw [h4]; exact h.prioritized⟩

theorem addDuring_shape {e s} (h : Shape isMid s.grp) : Shape isMid (addDuring e s).grp := by
  unfold addDuring
  simp only []
  have := (Shape.foldl (Or.inr rfl) s.grp.added h).sort (fun _ h => h) e s.rnd
  exact this.of_same rfl rfl rfl rfl

theorem reset_shape (mid) (g : Group) : Shape mid g.reset := by
  constructor <;> simp [Group.reset]

theorem PInv.other {s : St} (h : s.phase ≠ .running) : PInv s :=
  ⟨fun hr => absurd hr h, fun hr => absurd hr h, fun hr => absurd hr h⟩

theorem PInv.step {e s t} (hg : GInv s) (h : PInv s) (hm : MStep e s t) : PInv t := by
  cases hm with
  | act a hp => exact .other (by rw [applyAct_phase, hp]; simp)
  | enter hp =>
    unfold startExecute
    split
    · exact .other (by simp [hp])
    · simp only []
      rw [foldl_addEvt_idle _ _ (by simpa [Group.reset] using hg.idle (by simp [hp]))]
      refine ⟨fun _ => ?_, fun _ => ?_, fun _ => ?_⟩
      · exact (Shape.foldl (mid := isPrio) rfl _ (reset_shape isPrio _)).sort (fun p hp => Or.inr hp) e _
      · rw [sort_first]; exact ordSort_sorted _
      · rw [sort_last]; exact ordSort_sorted _
  | skip hp => exact .other (by simp [hp])
  | exec hp => exact ⟨fun _ => (h.shape hp).of_same rfl rfl rfl rfl, fun _ => h.first hp, fun _ => h.last hp⟩
  | event w ev rest hp hx hn =>
    have hsame := runEv_same e { s with grp := s.grp.set rest w } ev (by simp [set_executing, hx])
    have hshape : Shape isMid (s.grp.set rest w) := by
      have h0 := h.shape hp
      have hget := hn.1
      cases w <;> simp only [Group.get] at hget <;> simp only [Group.set]
      · exact ⟨fun x hx => h0.first x (by rw [hget]; exact List.mem_cons_of_mem _ hx), h0.last, h0.random, h0.prioritized⟩
      · exact ⟨h0.first, h0.last, h0.random, fun x hx => h0.prioritized x (by rw [hget]; exact List.mem_cons_of_mem _ hx)⟩
      · exact ⟨h0.first, fun x hx => h0.last x (by rw [hget]; exact List.mem_cons_of_mem _ hx), h0.random, h0.prioritized⟩
    have hf : (s.grp.set rest w).first.Pairwise (fun a b => a.ord ≤ b.ord) := by
      have h0 := h.first hp
      have hget := hn.1
      cases w <;> simp only [Group.get] at hget <;> simp only [Group.set]
      · rw [hget] at h0; exact (List.pairwise_cons.1 h0).2
      · exact h0
      · exact h0
    have hl : (s.grp.set rest w).last.Pairwise (fun a b => a.ord ≤ b.ord) := by
      have h0 := h.last hp
      have hget := hn.1
      cases w <;> simp only [Group.get] at hget <;> simp only [Group.set]
      · exact h0
      · exact h0
      · rw [hget] at h0; exact (List.pairwise_cons.1 h0).2
    have hs2 : Shape isMid (runEv e { s with grp := s.grp.set rest w } ev).grp :=
      hshape.of_same hsame.first hsame.last hsame.random hsame.prioritized
    unfold post
    split
    · refine ⟨fun _ => addDuring_shape hs2, fun _ => ?_, fun _ => ?_⟩
      · unfold addDuring; simp only [sort_first]; exact ordSort_sorted _
      · unfold addDuring; simp only [sort_last]; exact ordSort_sorted _
    · exact ⟨fun _ => hs2, fun _ => by rw [hsame.first]; exact hf, fun _ => by rw [hsame.last]; exact hl⟩
  | unexec hp => exact ⟨fun _ => (h.shape hp).of_same rfl rfl rfl rfl, fun _ => h.first hp, fun _ => h.last hp⟩
  | finish hp => exact .other (by simp)
  | leave hp => exact .other (by simp)
  | endDone i hp => exact .other (by simp)
  | endSkip i id l hp => exact .other (by simp)
  | endRun i id l hp => exact .other (by simp [foldl_applyAct_phase])

/-- Pending entries belong to different events. -/
theorem Inv.all_ord_ne {e s} (h : Inv e none s) : s.grp.all.Pairwise (fun a b => a.ord ≠ b.ord) := by
  rw [List.pairwise_iff_forall_sublist]
  intro a b hab heq
  have ha : a ∈ s.grp.all := hab.subset (by simp)
  have hb : b ∈ s.grp.all := hab.subset (by simp)
  obtain ⟨ea, na, da, ka, sa, ta, rfl⟩ := h.pending_eq (List.mem_append_right _ ha)
  obtain ⟨eb, nb, db, kb, sb, tb, rfl⟩ := h.pending_eq (List.mem_append_right _ hb)
  have : ea = eb := h.sched_ord_inj sa sb heq
  subst this
  have hsub : ([nth e ea ka, nth e ea kb].filter (fun ev => ev.id == ea.id)).Sublist (sel ea.id s.grp.all) := hab.filter _
  simp at hsub
  have := hsub.length_le
  cases ta.status with
  | queued _ h2 => rw [h2] at this; simp at this
  | grouped _ h2 => rw [h2] at this; simp at this
  | flying _ _ h2 => rw [h2] at this; simp at this
  | gone _ h2 => rw [h2] at this; simp at this

theorem Inv.first_lt {e s} (h : Inv e none s) (hp : PInv s) (hr : s.phase = .running) :
    s.grp.first.Pairwise (fun a b => a.ord < b.ord) := by
  have h1 := hp.first hr
  have h2 : s.grp.first.Pairwise (fun a b => a.ord ≠ b.ord) :=
    h.all_ord_ne.sublist (by unfold Group.all; grind)
  exact (h1.and h2).imp (by intro a b ⟨h1, h2⟩; omega)

theorem Inv.last_lt {e s} (h : Inv e none s) (hp : PInv s) (hr : s.phase = .running) :
    s.grp.last.Pairwise (fun a b => a.ord < b.ord) := by
  have h1 := hp.last hr
  have h2 : s.grp.last.Pairwise (fun a b => a.ord ≠ b.ord) :=
    h.all_ord_ne.sublist (by unfold Group.all; grind)
  exact (h1.and h2).imp (by intro a b ⟨h1, h2⟩; omega)

/-- FIRST events come before all others, LAST events after all others; each kind in order index order. -/
def ClassOrder (a b : Ev) : Prop :=
  (b.ptype = .first → a.ptype = .first) ∧ (a.ptype = .last → b.ptype = .last) ∧
  (a.ptype = .first → b.ptype = .first → a.ord < b.ord) ∧ (a.ptype = .last → b.ptype = .last → a.ord < b.ord)

theorem plan_class {e s} (h : Inv e none s) (hp : PInv s) (hr : s.phase = .running) : s.grp.plan.Pairwise ClassOrder := by
  have hs := hp.shape hr
  unfold Group.plan
  rw [List.pairwise_append, List.pairwise_append]
  refine ⟨?_, ⟨?_, ?_, ?_⟩, ?_⟩
  · refine List.Pairwise.imp_of_mem ?_ (h.first_lt hp hr)
    intro a b ha hb hab
    have := hs.first a ha; have := hs.first b hb
    simp_all [ClassOrder]
  · apply List.pairwise_of_forall_mem_list
    intro a ha b hb
    have := hs.prioritized a ha; have := hs.prioritized b hb
    simp only [isMid] at *
    unfold ClassOrder
    grind
  · refine List.Pairwise.imp_of_mem ?_ (h.last_lt hp hr)
    intro a b ha hb hab
    have := hs.last a ha; have := hs.last b hb
    simp_all [ClassOrder]
  · intro a ha b hb
    have := hs.prioritized a ha; have := hs.last b hb
    simp only [isMid] at *
    unfold ClassOrder
    grind
  · intro a ha b hb
    have h1 := hs.first a ha
    have h2 : isMid b.ptype ∨ b.ptype = .last := by
      rcases List.mem_append.1 hb with hb | hb
      · exact Or.inl (hs.prioritized b hb)
      · exact Or.inr (hs.last b hb)
    simp only [isMid] at *
    unfold ClassOrder
    grind

/-! ### BY_PRIORITY order -/

/-- smaller priority first; equal priorities in order index order -/
def PrioOrder (a b : Ev) : Prop :=
  a.ptype = .byPriority → b.ptype = .byPriority → ∀ p q, a.prio = some p → b.prio = some q → p < q ∨ (p = q ∧ a.ord < b.ord)

/-- the priority key on lists without NaN -/
def pkey (a : Ev) : Int := a.prio.getD 0

theorem psort_filter_eq (l : List Ev) (v : Int) :
    (stableSort (fun a b => decide (pkey a ≤ pkey b)) l).filter (fun a => decide (pkey a = v)) =
      l.filter (fun a => decide (pkey a = v)) := by
  apply stableSort_filter
  · intro a b; simp only [decide_eq_true_eq]; omega

theorem psort_lex (l : List Ev) (hl : l.Pairwise (fun a b => a.ord ≤ b.ord)) :
    (stableSort (fun a b => decide (pkey a ≤ pkey b)) l).Pairwise
      (fun a b => pkey a < pkey b ∨ (pkey a = pkey b ∧ a.ord ≤ b.ord)) := by
  have hs := stableSort_pairwise (le := fun a b : Ev => decide (pkey a ≤ pkey b))
    (by intro a b c; simp only [decide_eq_true_eq]; omega) (by intro a b; simp only [decide_eq_true_eq]; omega) l
  rw [List.pairwise_iff_forall_sublist]
  intro a b hab
  have h1 : pkey a ≤ pkey b := by simpa using (List.pairwise_iff_forall_sublist.1 hs) hab
  rcases Int.lt_or_eq_of_le h1 with h | h
  · exact Or.inl h
  · right
    refine ⟨h, ?_⟩
    have h2 := hab.filter (fun x => decide (pkey x = pkey b))
    rw [psort_filter_eq] at h2
    simp [h] at h2
    exact (List.pairwise_iff_forall_sublist.1 hl) (h2.trans List.filter_sublist)

theorem insertIdx_filter (l : List Ev) (n : Nat) (a : Ev) (p : Ev → Bool) (h : p a = false) :
    (l.insertIdx n a).filter p = l.filter p := by
  induction l generalizing n with
  | nil => cases n <;> simp [h]
  | cons x xs ih => cases n <;> simp [h, List.filter_cons, ih]

theorem insertRandom_filter (e : Env) (p : Ev → Bool) (k : Nat) (acc l : List Ev) (h : ∀ x ∈ l, p x = false) :
    (insertRandom e k acc l).filter p = acc.filter p := by
  induction l generalizing k acc with
  | nil => rfl
  | cons x xs ih =>
    simp only [insertRandom]
    rw [ih _ _ (fun y hy => h y (List.mem_cons_of_mem _ hy)), insertIdx_filter _ _ _ _ (h x (by simp))]

def isBP (x : Ev) : Bool := decide (x.ptype = .byPriority)

theorem sort_prio {mid} (e : Env) (k : Nat) (g : Group) (hs : Shape mid g) (hn : ∀ x ∈ g.prioritized, x.prio.isSome) :
    ((g.sort e k).1.prioritized.filter isBP).Pairwise (fun a b => pkey a < pkey b ∨ (pkey a = pkey b ∧ a.ord ≤ b.ord)) := by
  have hr : ∀ x ∈ ordSort g.random, isBP x = false := by
    intro x hx
    have := hs.random x ((ordSort_perm _).mem_iff.1 hx)
    simp [isBP, this]
  unfold Group.sort
  simp only []
  split
  · rename_i he
    have he : ordSort g.prioritized = [] := by simpa using he
    have : (e.shuf k (ordSort g.random)).filter isBP = [] := by
      rw [List.filter_eq_nil_iff]
      intro x hx
      have := hr x ((e.shuf_perm _ _).mem_iff.1 hx)
      simp [this]
    rw [he, List.nil_append, this]
    exact List.Pairwise.nil
  · rw [insertRandom_filter _ _ _ _ _ hr]
    apply List.Pairwise.filter
    rw [e.psort_total _ (fun x hx => hn x ((ordSort_perm _).mem_iff.1 hx))]
    exact psort_lex _ (ordSort_sorted _)

def PrioOK (tr : List Obs) : Prop := Prioritized tr ∧ (Clean tr ∨ NoNaN tr)

theorem PrioOK.stable : TickStable PrioOK := by
  intro tr tl hns ⟨h1, h2⟩
  refine ⟨fun ev now d hm => h1 ev now d (List.mem_append_left _ hm), ?_⟩
  rcases h2 with h2 | h2
  · left
    intro i ev now hi ha
    have hil := (List.getElem?_eq_some_iff.1 hi).1
    obtain ⟨k, t, hk, hkt⟩ := h2 i ev now (by rw [List.getElem?_append_left hil]; exact hi) ha
    by_cases hkl : k < tr.length
    · rw [List.getElem?_append_left hkl] at hkt
      exact ⟨k, t, hk, hkt⟩
    · rw [List.getElem?_append_right (by omega)] at hkt
      exact absurd rfl (hns _ (List.mem_of_getElem? hkt) t)
  · right
    exact fun ev now d hm => h2 ev now d (List.mem_append_left _ hm)

def PrioInv (s : St) : Prop := s.phase = .running → PrioOK s.trace →
  (s.grp.prioritized.filter isBP).Pairwise (fun a b => pkey a < pkey b ∨ (pkey a = pkey b ∧ a.ord ≤ b.ord))

theorem PrioInv.other {s : St} (h : s.phase ≠ .running) : PrioInv s := fun hr => absurd hr h

theorem PrioInv.step {e s t} (hg : GInv s) (hi : Inv e none s) (hi' : Inv e none t) (hpi : PInv s)
    (h : PrioInv s) (hm : MStep e s t) : PrioInv t := by
  cases hm with
  | act a hp => exact .other (by rw [applyAct_phase, hp]; simp)
  | enter hp =>
    by_cases hq : s.queue = []
    · simp only [startExecute, hq]; exact .other (by simp [hp])
    · obtain ⟨ev, l, hq⟩ : ∃ ev l, s.queue = ev :: l := by
        cases hh : s.queue with
        | nil => exact absurd hh hq
        | cons a b => exact ⟨a, b, rfl⟩
      intro _ hok
      rw [startExecute, hq] at hok ⊢
      simp only [] at hok ⊢
      rw [foldl_addEvt_idle _ _ (by simpa [Group.reset] using hg.idle (by simp [hp]))]
      apply sort_prio (mid := isPrio) _ _ _ (Shape.foldl (mid := isPrio) rfl _ (reset_shape isPrio _))
      intro x hx
      have hxs : x.ptype = .byPriority := (Shape.foldl (mid := isPrio) rfl _ (reset_shape isPrio _)).prioritized x hx
      have hxq : x ∈ s.queue := by
        have h1 : x ∈ (List.foldl Group.addEvt' s.grp.reset (List.takeWhile (fun x => decide (x.at_ = ev.at_)) (ev :: l))).all := by
          simp only [Group.all, List.mem_append]; exact Or.inl (Or.inr hx)
        have h2 := (foldl_addEvt'_all _ _).mem_iff.1 h1
        rw [reset_all, List.append_nil] at h2
        rw [hq]
        exact (List.takeWhile_sublist _).subset h2
      obtain ⟨a, n, d, k, hs, -, rfl⟩ := hi.pending_eq (List.mem_append_left _ hxq)
      exact hok.1 a n d (List.mem_append_left _ hs) hxs
  | skip hp => exact .other (by simp [hp])
  | exec hp => exact h
  | event w ev rest hp hx hn =>
    have hsame := runEv_same e { s with grp := s.grp.set rest w } ev (by simp [set_executing, hx])
    obtain ⟨r1, r2, r3, -⟩ := hg.run hp
    obtain ⟨tl, f1, f2, f3, f4, f5⟩ := runEv_facts e { s with grp := s.grp.set rest w } ev
      (by simp [set_executing, hx]) (by simp [set_interrupted, r3])
    simp only [] at f1 f4 f5
    have htr : (post e (runEv e { s with grp := s.grp.set rest w } ev)).trace =
        (runEv e { s with grp := s.grp.set rest w } ev).trace := congrArg V.trace (post_view _ _)
    intro _ hok
    have hoks : PrioOK s.trace := by
      rw [htr] at hok
      rcases f1 with ⟨-, -, f1⟩ | ⟨-, f1⟩
      · rw [f1] at hok; exact hok
      · rw [f1] at hok
        refine PrioOK.stable s.trace (.ran ev s.tick :: tl) ?_ (by simpa using hok)
        intro o ho
        rcases List.mem_cons.1 ho with rfl | ho
        · simp
        · exact f3 o ho
    have hold := h hp hoks
    have hset : ((s.grp.set rest w).prioritized.filter isBP).Pairwise (fun a b => pkey a < pkey b ∨ (pkey a = pkey b ∧ a.ord ≤ b.ord)) := by
      have hget := hn.1
      cases w <;> simp only [Group.get] at hget <;> simp only [Group.set]
      · exact hold
      · rw [hget] at hold
        exact hold.sublist ((List.sublist_cons_self _ _).filter _)
      · exact hold
    cases hint : (runEv e { s with grp := s.grp.set rest w } ev).grp.interrupted with
    | false =>
      simp only [post, hint, Bool.false_eq_true, if_false] at *
      rw [hsame.prioritized]; exact hset
    | true =>
      -- an event was added to this tick: the history is not clean, so there are no NaN priorities
      obtain ⟨ev', he', ha'⟩ := f5 hint
      have hnan : NoNaN (post e (runEv e { s with grp := s.grp.set rest w } ev)).trace := by
        rcases hok.2 with hc | hc
        · exfalso
          rw [htr] at hc
          rcases f1 with ⟨-, rfl, -⟩ | ⟨-, f1⟩
          · simp at he'
          · rw [f1] at hc
            obtain ⟨j, hj⟩ := List.getElem?_of_mem he'
            have hjl := (List.getElem?_eq_some_iff.1 hj).1
            obtain ⟨k, t, hk, hkt⟩ := hc ((s.trace ++ [Obs.ran ev s.tick]).length + j) ev' s.tick
              (by rw [List.getElem?_append_right (by omega)]; simpa using hj) ha'
            rw [List.getElem?_append_right (by omega)] at hkt
            exact absurd rfl (f3 _ (List.mem_of_getElem? hkt) t)
        · exact hc
      have hpost : post e (runEv e { s with grp := s.grp.set rest w } ev) =
          addDuring e (runEv e { s with grp := s.grp.set rest w } ev) := by simp [post, hint]
      have hshape : Shape isMid (runEv e { s with grp := s.grp.set rest w } ev).grp := by
        have h0 := hpi.shape hp
        have hget := hn.1
        have h1 : Shape isMid (s.grp.set rest w) := by
          cases w <;> simp only [Group.get] at hget <;> simp only [Group.set]
          · exact ⟨fun x hx => h0.first x (by rw [hget]; exact List.mem_cons_of_mem _ hx), h0.last, h0.random, h0.prioritized⟩
          · exact ⟨h0.first, h0.last, h0.random, fun x hx => h0.prioritized x (by rw [hget]; exact List.mem_cons_of_mem _ hx)⟩
          · exact ⟨h0.first, fun x hx => h0.last x (by rw [hget]; exact List.mem_cons_of_mem _ hx), h0.random, h0.prioritized⟩
        exact h1.of_same hsame.first hsame.last hsame.random hsame.prioritized
      -- all pending events have a priority, if they are middle events
      have hpend : ∀ x ∈ (post e (runEv e { s with grp := s.grp.set rest w } ev)).grp.all, isMid x.ptype → x.prio.isSome := by
        intro x hx' hmid
        obtain ⟨a, n, d, k, hs, -, rfl⟩ := hi'.pending_eq (List.mem_append_right _ hx')
        exact hnan a n d hs hmid
      rw [hpost] at hpend ⊢
      generalize runEv e { s with grp := s.grp.set rest w } ev = v at *
      have hsh2 := Shape.foldl (mid := isMid) (Or.inr rfl) v.grp.added hshape
      apply sort_prio (mid := isMid) _ _ _ hsh2
      intro x hx'
      apply hpend
      · refine (addDuring_all e v).mem_iff.2 ?_
        have h1 : x ∈ (List.foldl Group.addEvt' v.grp v.grp.added).all := by unfold Group.all; simp [hx']
        have h2 := (foldl_addEvt'_all _ _).mem_iff.1 h1
        rcases List.mem_append.1 h2 with h2 | h2
        · unfold Group.all; simp [h2]
        · exact h2
      · exact hsh2.prioritized x hx'
  | unexec hp => exact h
  | finish hp => exact .other (by simp)
  | leave hp => exact .other (by simp)
  | endDone i hp => exact .other (by simp)
  | endSkip i id l hp => exact .other (by simp)
  | endRun i id l hp => exact .other (by simp [foldl_applyAct_phase])

theorem plan_prio {e s} (h : Inv e none s) (hp : PInv s) (hpr : PrioInv s) (hr : s.phase = .running) (hok : PrioOK s.trace) :
    s.grp.plan.Pairwise PrioOrder := by
  have hs := hp.shape hr
  have hne : s.grp.prioritized.Pairwise (fun a b => a.ord ≠ b.ord) := h.all_ord_ne.sublist (by unfold Group.all; grind)
  unfold Group.plan
  rw [List.pairwise_append, List.pairwise_append]
  have nof : ∀ a ∈ s.grp.first, ∀ b, PrioOrder a b := by
    intro a ha b h1; have := hs.first a ha; simp_all
  have nol : ∀ a, ∀ b ∈ s.grp.last, PrioOrder a b := by
    intro a b hb _ h1; have := hs.last b hb; simp_all
  refine ⟨?_, ⟨?_, ?_, ?_⟩, ?_⟩
  · exact List.pairwise_of_forall_mem_list (fun a ha b _ => nof a ha b)
  · rw [List.pairwise_iff_forall_sublist]
    intro a b hab h1 h2 p q hpa hqb
    have hlex := hpr hr hok
    have hf := hab.filter isBP
    simp [isBP, h1, h2] at hf
    have hf' : [a, b].Sublist (s.grp.prioritized.filter isBP) := by simpa [isBP] using hf
    have := (List.pairwise_iff_forall_sublist.1 hlex) hf'
    have hne := (List.pairwise_iff_forall_sublist.1 hne) hab
    simp only [pkey, hpa, hqb, Option.getD_some] at this
    omega
  · exact List.pairwise_of_forall_mem_list (fun a _ b hb => nol a b hb)
  · exact fun a _ b hb => nol a b hb
  · exact fun a ha b _ => nof a ha b

/-- All invariants of the order together. -/
structure Full (e : Env) (s : St) : Prop where
  inv : Inv e none s
  pinv : PInv s
  prio : PrioInv s
  cls : Seq ClassOrder (fun _ => True) s
  pri : Seq PrioOrder PrioOK s

theorem run_full (e : Env) (ops : List Op) : Full e (run e ops) := by
  refine run_induction e (Full e) ?_ ?_ ops
  · refine ⟨Inv.init e, .other (by simp [St.init]), .other (by simp [St.init]), ⟨by simp [St.init], ?_⟩, ⟨by simp [St.init], ?_⟩⟩ <;>
    · intro i j e1 e2 t1 t2 _ hi; simp [St.init] at hi
  · intro s t hg h hm
    have hi' := h.inv.step hg hm
    exact ⟨hi', h.pinv.step hg hm, h.prio.step hg h.inv hi' h.pinv hm,
      h.cls.step (fun _ _ _ _ => trivial) hg h.inv (fun hr _ => plan_class h.inv h.pinv hr) hm,
      h.pri.step PrioOK.stable hg h.inv (fun hr hok => plan_prio h.inv h.pinv h.prio hr hok) hm⟩

end Repast.Schedule
