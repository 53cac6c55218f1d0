import Verif.Schedule.Lemmas
import Verif.Schedule.Spec

/-! The accounting invariant of the schedule: every accepted event is in exactly one place. -/
namespace Repast.Schedule

/-- `ev` at its `k`-th occurrence. -/
def nth (e : Env) (ev : Ev) (k : Nat) : Ev := { ev with at_ := occ e ev k }

@[simp] theorem nth_id (e : Env) (ev : Ev) (k : Nat) : (nth e ev k).id = ev.id := rfl
@[simp] theorem nth_zero (e : Env) (ev : Ev) : nth e ev 0 = ev := rfl
@[simp] theorem nth_ord (e : Env) (ev : Ev) (k : Nat) : (nth e ev k).ord = ev.ord := rfl
@[simp] theorem nth_interval (e : Env) (ev : Ev) (k : Nat) : (nth e ev k).interval = ev.interval := rfl

/-- entries of a list belonging to event `x` -/
def sel (x : Nat) (l : List Ev) : List Ev := l.filter (fun ev => ev.id == x)

theorem sel_perm {x : Nat} {l l' : List Ev} (h : l.Perm l') : (sel x l).Perm (sel x l') := h.filter _

theorem sel_eq_of_perm_singleton {x : Nat} {l l' : List Ev} {a : Ev} (h : l.Perm l') (h' : sel x l' = [a]) :
    sel x l = [a] := by
  have := sel_perm (x := x) h
  rw [h'] at this
  exact List.perm_singleton.1 this

theorem sel_eq_of_perm_nil {x : Nat} {l l' : List Ev} (h : l.Perm l') (h' : sel x l' = []) : sel x l = [] := by
  have := sel_perm (x := x) h
  rw [h'] at this
  exact List.perm_nil.1 this

theorem sel_cons_ne {x : Nat} {ev : Ev} {l : List Ev} (h : ev.id ≠ x) : sel x (ev :: l) = sel x l := by
  simp [sel, h]

theorem sel_cons_eq {x : Nat} {ev : Ev} {l : List Ev} (h : ev.id = x) : sel x (ev :: l) = ev :: sel x l := by
  simp [sel, h]

theorem sel_append {x : Nat} {l l' : List Ev} : sel x (l ++ l') = sel x l ++ sel x l' := by simp [sel]

theorem mem_sel {x : Nat} {l : List Ev} {a : Ev} : a ∈ sel x l ↔ a ∈ l ∧ a.id = x := by simp [sel]

/-- Where the event accepted as `ev` (at tick `now`, `d`uring execution or not) is, after `k` runs. `fl` is the event
whose callable is being run, if any. -/
inductive Status (e : Env) (fl : Option Ev) (s : St) (ev : Ev) (now : Int) (d : Bool) (k : Nat) : Prop where
  | queued : sel ev.id s.queue = [nth e ev k] → sel ev.id s.grp.all = [] → (ev.interval = none → k = 0) →
      (k = 0 → now < ev.at_) ∧ (k = 0 ∨ occ e ev (k-1) < occ e ev k → s.tick < occ e ev k) → Status e fl s ev now d k
  | grouped : sel ev.id s.queue = [] → sel ev.id s.grp.all = [nth e ev k] → (ev.interval = none → k = 0) →
      occ e ev k = s.tick → (s.phase ≠ .running → now = ev.at_ ∧ d = false ∧ k = 0) → Status e fl s ev now d k
  | flying (j : Nat) : sel ev.id s.queue = [] → sel ev.id s.grp.all = [] → k = j + 1 → fl = some (nth e ev j) →
      (ev.interval = none → j = 0) → Status e fl s ev now d k
  | gone : sel ev.id s.queue = [] → sel ev.id s.grp.all = [] →
      ((ev.id ∈ s.voided ∧ (ev.interval = none → k ≤ 1)) ∨ (ev.interval = none ∧ k = 1) ∨ (now = ev.at_ ∧ d = false ∧ k = 0)) →
      Status e fl s ev now d k

structure Track (e : Env) (fl : Option Ev) (s : St) (ev : Ev) (now : Int) (d : Bool) (k : Nat) : Prop where
  runs : runsOf ev.id s.trace = (List.range k).map (fun i => (nth e ev i, occ e ev i))
  status : Status e fl s ev now d k

structure Inv (e : Env) (fl : Option Ev) (s : St) : Prop where
  bound : ∀ ev now d, Obs.sched ev now d ∈ s.trace → ev.id < s.nextId ∧ ev.ord < s.counter
  uniq : (scheds s.trace).Pairwise (fun a b => a.id < b.id ∧ a.ord < b.ord)
  src : ∀ x ∈ s.queue ++ s.grp.all, ∃ ev now d, Obs.sched ev now d ∈ s.trace ∧ x.id = ev.id
  track : ∀ ev now d, Obs.sched ev now d ∈ s.trace → ∃ k, Track e fl s ev now d k
  sorted : Sorted s.queue
  ranSrc : ∀ x now, Obs.ran x now ∈ s.trace → ∃ ev now d, Obs.sched ev now d ∈ s.trace ∧ x.id = ev.id
  nowLe : ∀ ev now d, Obs.sched ev now d ∈ s.trace → now ≤ ev.at_
  fly : ∀ f, fl = some f → sel f.id s.queue = [] ∧ sel f.id s.grp.all = [] ∧ f.id < s.nextId

theorem mem_scheds {ev : Ev} {tr : List Obs} : ev ∈ scheds tr ↔ ∃ now d, Obs.sched ev now d ∈ tr := by
  unfold scheds
  rw [List.mem_filterMap]
  constructor
  · rintro ⟨o, ho, h⟩
    cases o <;> simp at h
    subst h
    exact ⟨_, _, ho⟩
  · rintro ⟨now, d, h⟩
    exact ⟨_, h, rfl⟩

theorem pairwise_unique {α : Type} {l : List α} {f : α → Nat} (h : l.Pairwise (fun a b => f a < f b)) {a b : α} (ha : a ∈ l) (hb : b ∈ l)
    (hab : f a = f b) : a = b := by
  induction l with
  | nil => simp at ha
  | cons x xs ih =>
    rw [List.pairwise_cons] at h
    rcases List.mem_cons.1 ha with rfl | ha'
    · rcases List.mem_cons.1 hb with rfl | hb
      · rfl
      · have := h.1 b hb; omega
    · rcases List.mem_cons.1 hb with rfl | hb
      · have := h.1 a ha'; omega
      · exact ih h.2 ha' hb

theorem Inv.sched_id_inj {e fl s} (h : Inv e fl s) {a b : Ev} {n1 n2 d1 d2} (ha : Obs.sched a n1 d1 ∈ s.trace)
    (hb : Obs.sched b n2 d2 ∈ s.trace) (hid : a.id = b.id) : a = b :=
  pairwise_unique (f := Ev.id) (h.uniq.imp (fun h => h.1)) (mem_scheds.2 ⟨_, _, ha⟩) (mem_scheds.2 ⟨_, _, hb⟩) hid

theorem Inv.sched_ord_inj {e fl s} (h : Inv e fl s) {a b : Ev} {n1 n2 d1 d2} (ha : Obs.sched a n1 d1 ∈ s.trace)
    (hb : Obs.sched b n2 d2 ∈ s.trace) (hid : a.ord = b.ord) : a = b :=
  pairwise_unique (f := Ev.ord) (h.uniq.imp (fun h => h.2)) (mem_scheds.2 ⟨_, _, ha⟩) (mem_scheds.2 ⟨_, _, hb⟩) hid

/-- every pending entry is some occurrence of an accepted event -/
theorem Inv.pending_eq {e fl s} (h : Inv e fl s) {x : Ev} (hx : x ∈ s.queue ++ s.grp.all) :
    ∃ ev now d k, Obs.sched ev now d ∈ s.trace ∧ Track e fl s ev now d k ∧ x = nth e ev k := by
  obtain ⟨ev, now, d, hs, hid⟩ := h.src x hx
  obtain ⟨k, hk⟩ := h.track ev now d hs
  refine ⟨ev, now, d, k, hs, hk, ?_⟩
  rcases List.mem_append.1 hx with hq | hg
  · have hm : x ∈ sel ev.id s.queue := mem_sel.2 ⟨hq, hid⟩
    cases hk.status with
    | queued h1 => rw [h1] at hm; simpa using hm
    | grouped h1 => rw [h1] at hm; simp at hm
    | flying j h1 => rw [h1] at hm; simp at hm
    | gone h1 => rw [h1] at hm; simp at hm
  · have hm : x ∈ sel ev.id s.grp.all := mem_sel.2 ⟨hg, hid⟩
    cases hk.status with
    | queued _ h1 => rw [h1] at hm; simp at hm
    | grouped _ h1 => rw [h1] at hm; simpa using hm
    | flying j _ h1 => rw [h1] at hm; simp at hm
    | gone _ h1 => rw [h1] at hm; simp at hm

theorem Inv.pending_ord {e fl s} (h : Inv e fl s) {x : Ev} (hx : x ∈ s.queue ++ s.grp.all) : x.ord < s.counter := by
  obtain ⟨ev, now, d, k, hs, -, rfl⟩ := h.pending_eq hx
  exact (h.bound _ _ _ hs).2

/-! ### Trace projections under extension -/

theorem runsOf_append (x : Nat) (a b : List Obs) : runsOf x (a ++ b) = runsOf x a ++ runsOf x b := by
  simp [runsOf, List.filterMap_append]

theorem scheds_append (a b : List Obs) : scheds (a ++ b) = scheds a ++ scheds b := by
  simp [scheds, List.filterMap_append]

theorem runsOf_eq_nil {x : Nat} {tr : List Obs} (h : ∀ ev now, Obs.ran ev now ∈ tr → ev.id ≠ x) : runsOf x tr = [] := by
  unfold runsOf
  rw [List.filterMap_eq_nil_iff]
  intro o ho
  cases o with
  | ran ev now => simp [h ev now ho]
  | _ => rfl

/-- Changing parts of the state the invariant does not look at. -/
theorem Inv.of_eq {e fl s t} (h : Inv e fl s) (hq : t.queue = s.queue) (hg : t.grp.all.Perm s.grp.all)
    (ht : t.tick = s.tick) (hc : s.counter ≤ t.counter) (hn : s.nextId ≤ t.nextId) (hv : ∀ x ∈ s.voided, x ∈ t.voided)
    (hp : t.phase ≠ .running → s.phase ≠ .running ∨ t.grp.all = [])
    (tail : List Obs) (htr : t.trace = s.trace ++ tail) (htail : ∀ o ∈ tail, ∀ ev now d, o ≠ .sched ev now d)
    (htail' : ∀ o ∈ tail, ∀ ev now, o ≠ .ran ev now) : Inv e fl t := by
  have hmem : ∀ ev now d, Obs.sched ev now d ∈ t.trace → Obs.sched ev now d ∈ s.trace := by
    intro ev now d hm
    rw [htr, List.mem_append] at hm
    rcases hm with hm | hm
    · exact hm
    · exact absurd rfl (htail _ hm ev now d)
  have hmem' : ∀ {o}, o ∈ s.trace → o ∈ t.trace := by
    intro o ho; rw [htr]; exact List.mem_append_left _ ho
  refine ⟨?_, ?_, ?_, ?_, ?_, ?_, fun ev now d hm => h.nowLe ev now d (hmem ev now d hm), fun f hf => ?_⟩
  · intro ev now d hm
    have := h.bound ev now d (hmem ev now d hm)
    omega
  · have : scheds t.trace = scheds s.trace := by
      rw [htr, scheds_append]
      have : scheds tail = [] := by
        unfold scheds
        rw [List.filterMap_eq_nil_iff]
        intro o ho
        cases o with
        | sched ev now d => exact absurd rfl (htail _ ho ev now d)
        | _ => rfl
      simp [this]
    rw [this]; exact h.uniq
  · intro x hx
    have : x ∈ s.queue ++ s.grp.all := by
      rw [hq] at hx
      rcases List.mem_append.1 hx with hx | hx
      · exact List.mem_append_left _ hx
      · exact List.mem_append_right _ (hg.mem_iff.1 hx)
    obtain ⟨ev, now, d, h1, h2⟩ := h.src x this
    exact ⟨ev, now, d, hmem' h1, h2⟩
  · intro ev now d hm
    obtain ⟨k, hk⟩ := h.track ev now d (hmem ev now d hm)
    refine ⟨k, ?_, ?_⟩
    · rw [htr, runsOf_append, hk.runs]
      have : runsOf ev.id tail = [] := runsOf_eq_nil (fun ev now hm => absurd rfl (htail' _ hm ev now))
      simp [this]
    · cases hk.status with
      | queued h1 h2 h3 h4 =>
        exact .queued (by rw [hq]; exact h1) (sel_eq_of_perm_nil hg h2) h3 (by rw [ht]; exact h4)
      | grouped h1 h2 h3 h4 h5 =>
        refine .grouped (by rw [hq]; exact h1) (sel_eq_of_perm_singleton hg h2) h3 (by rw [ht]; exact h4) ?_
        intro hph
        rcases hp hph with hph | hph
        · exact h5 hph
        · have := sel_eq_of_perm_singleton hg h2
          rw [hph] at this
          simp [sel] at this
      | flying j h1 h2 h3 h4 h5 =>
        exact .flying j (by rw [hq]; exact h1) (sel_eq_of_perm_nil hg h2) h3 h4 h5
      | gone h1 h2 h3 =>
        refine .gone (by rw [hq]; exact h1) (sel_eq_of_perm_nil hg h2) ?_
        rcases h3 with h3 | h3
        · exact Or.inl ⟨hv _ h3.1, h3.2⟩
        · exact Or.inr h3
  · rw [hq]; exact h.sorted
  · intro x now hx
    rw [htr, List.mem_append] at hx
    rcases hx with hx | hx
    · obtain ⟨ev, now, d, h1, h2⟩ := h.ranSrc x now hx
      exact ⟨ev, now, d, hmem' h1, h2⟩
    · exact absurd rfl (htail' _ hx x now)
  · obtain ⟨h1, h2, h3⟩ := h.fly f hf
    exact ⟨by rw [hq]; exact h1, sel_eq_of_perm_nil hg h2, by omega⟩

theorem Inv.push {e fl s} (h : Inv e fl s) (a p q i c g) (hx : s.grp.executing = true ↔ s.phase = .running) :
    Inv e fl (pushEvent s a p q i c g) := by
  unfold pushEvent
  simp only []
  split
  · exact h.of_eq rfl (List.Perm.refl _) rfl (Nat.le_refl _) (Nat.le_succ _) (fun _ h => h) (fun h => Or.inl h)
      [.ignored s.nextId] rfl (by simp) (by simp)
  · rename_i t
    split
    · rename_i hle
      -- accepted
      have fresh : ∀ x ∈ s.queue ++ s.grp.all, x.id ≠ s.nextId := by
        intro x hx
        obtain ⟨ev, now, d, h1, h2⟩ := h.src x hx
        have := h.bound _ _ _ h1
        omega
      have freshord : ∀ x ∈ s.queue, s.counter ≠ x.ord := by
        intro x hx
        have := h.pending_ord (List.mem_append_left _ hx)
        omega
      have freshrun : runsOf s.nextId s.trace = [] := by
        apply runsOf_eq_nil
        intro ev now hm
        obtain ⟨ev', now', d', h1, h2⟩ := h.ranSrc ev now hm
        have := h.bound _ _ _ h1
        omega
      have selq : sel s.nextId s.queue = [] := by
        unfold sel; rw [List.filter_eq_nil_iff]
        intro x hx; simpa using fresh x (List.mem_append_left _ hx)
      have selg : sel s.nextId s.grp.all = [] := by
        unfold sel; rw [List.filter_eq_nil_iff]
        intro x hx; simpa using fresh x (List.mem_append_right _ hx)
      generalize hev : ({ id := s.nextId, at_ := t, ord := s.counter, ptype := p, prio := q, interval := i, cb := c, tag := g } : Ev) = ev
      have hid : ev.id = s.nextId := by rw [← hev]
      have hat : ev.at_ = t := by rw [← hev]
      have hord : ev.ord = s.counter := by rw [← hev]
      -- the common part: any state with the event somewhere
      have key : ∀ u : St, u.trace = s.trace ++ [.sched ev s.tick s.grp.executing] → u.counter = s.counter + 1 →
          u.nextId = s.nextId + 1 → u.tick = s.tick → u.phase = s.phase → u.voided = s.voided →
          ((u.queue.Perm (ev :: s.queue) ∧ u.grp = s.grp ∧ s.tick < t ∧ Sorted u.queue) ∨
           (u.queue = s.queue ∧ u.grp.all.Perm (ev :: s.grp.all) ∧ t = s.tick)) → Inv e fl u := by
        intro u htr hc hn ht hph hv hcase
        have hmem' : ∀ {o}, o ∈ s.trace → o ∈ u.trace := by
          intro o ho; rw [htr]; exact List.mem_append_left _ ho
        have hnew : Obs.sched ev s.tick s.grp.executing ∈ u.trace := by rw [htr]; simp
        have hmem : ∀ {a n d}, Obs.sched a n d ∈ u.trace → Obs.sched a n d ∈ s.trace ∨ (a = ev ∧ n = s.tick ∧ d = s.grp.executing) := by
          intro a n d ha
          rw [htr, List.mem_append] at ha
          rcases ha with ha | ha
          · exact Or.inl ha
          · right; simpa using ha
        refine ⟨?_, ?_, ?_, ?_, ?_, ?_, ?_, ?_⟩
        · intro a n d ha
          rcases hmem ha with ha | ⟨rfl, -, -⟩
          · have := h.bound _ _ _ ha; omega
          · omega
        · rw [htr, scheds_append]
          have : scheds [Obs.sched ev s.tick s.grp.executing] = [ev] := rfl
          rw [this, List.pairwise_append]
          refine ⟨h.uniq, by simp, ?_⟩
          intro a ha b hb
          simp only [List.mem_singleton] at hb
          subst hb
          obtain ⟨n, d, ha⟩ := mem_scheds.1 ha
          have := h.bound _ _ _ ha
          omega
        · intro x hx
          have : x = ev ∨ x ∈ s.queue ++ s.grp.all := by
            rcases hcase with ⟨h1, h2, -, -⟩ | ⟨h1, h2, -⟩
            · rw [h2] at hx
              rcases List.mem_append.1 hx with hx | hx
              · rcases List.mem_cons.1 (h1.mem_iff.1 hx) with h | h
                · exact Or.inl h
                · exact Or.inr (List.mem_append_left _ h)
              · exact Or.inr (List.mem_append_right _ hx)
            · rw [h1] at hx
              rcases List.mem_append.1 hx with hx | hx
              · exact Or.inr (List.mem_append_left _ hx)
              · rcases List.mem_cons.1 (h2.mem_iff.1 hx) with h | h
                · exact Or.inl h
                · exact Or.inr (List.mem_append_right _ h)
          rcases this with rfl | hx
          · exact ⟨_, _, _, hnew, rfl⟩
          · obtain ⟨a, n, d, h1, h2⟩ := h.src x hx
            exact ⟨a, n, d, hmem' h1, h2⟩
        · intro a n d ha
          rcases hmem ha with ha | ⟨rfl, rfl, rfl⟩
          · -- an older event
            have hne : ev.id ≠ a.id := by have := h.bound _ _ _ ha; omega
            have hq : sel a.id u.queue = sel a.id s.queue ∨ (sel a.id u.queue).Perm (sel a.id s.queue) := by
              rcases hcase with ⟨h1, -, -, -⟩ | ⟨h1, -, -⟩
              · right
                have := sel_perm (x := a.id) h1
                rwa [sel_cons_ne hne] at this
              · left; rw [h1]
            have hq' : (sel a.id u.queue).Perm (sel a.id s.queue) := by
              rcases hq with hq | hq
              · rw [hq]
              · exact hq
            have hg' : (sel a.id u.grp.all).Perm (sel a.id s.grp.all) := by
              rcases hcase with ⟨-, h2, -, -⟩ | ⟨-, h2, -⟩
              · rw [h2]
              · have := sel_perm (x := a.id) h2
                rwa [sel_cons_ne hne] at this
            obtain ⟨k, hk⟩ := h.track a n d ha
            refine ⟨k, ?_, ?_⟩
            · rw [htr, runsOf_append, hk.runs]
              simp [runsOf]
            · cases hk.status with
              | queued h1 h2 h3 h4 =>
                exact .queued (by rw [h1] at hq'; exact List.perm_singleton.1 hq')
                  (by rw [h2] at hg'; exact List.perm_nil.1 hg') h3 (by rw [ht]; exact h4)
              | grouped h1 h2 h3 h4 h5 =>
                exact .grouped (by rw [h1] at hq'; exact List.perm_nil.1 hq')
                  (by rw [h2] at hg'; exact List.perm_singleton.1 hg') h3 (by rw [ht]; exact h4) (by rw [hph]; exact h5)
              | flying j h1 h2 h3 h4 h5 =>
                exact .flying j (by rw [h1] at hq'; exact List.perm_nil.1 hq')
                  (by rw [h2] at hg'; exact List.perm_nil.1 hg') h3 h4 h5
              | gone h1 h2 h3 =>
                exact .gone (by rw [h1] at hq'; exact List.perm_nil.1 hq')
                  (by rw [h2] at hg'; exact List.perm_nil.1 hg') (by rw [hv]; exact h3)
          · refine ⟨0, ?_, ?_⟩
            · rw [htr, runsOf_append, hid, freshrun]
              simp [runsOf]
            · rcases hcase with ⟨h1, h2, h3, -⟩ | ⟨h1, h2, h3⟩
              · refine .queued ?_ ?_ (fun _ => rfl) ?_
                · apply sel_eq_of_perm_singleton h1
                  rw [sel_cons_eq rfl, hid, selq]; rfl
                · rw [h2, hid]; exact selg
                · rw [ht]; exact ⟨fun _ => by rw [hat]; exact h3, fun _ => by show s.tick < a.at_; rw [hat]; exact h3⟩
              · refine .grouped ?_ ?_ (fun _ => rfl) ?_ ?_
                · rw [h1, hid]; exact selq
                · apply sel_eq_of_perm_singleton h2
                  rw [sel_cons_eq rfl, hid, selg]; rfl
                · rw [ht]; show a.at_ = s.tick; rw [hat, h3]
                · intro hnr
                  refine ⟨by rw [hat, h3], ?_, rfl⟩
                  cases hxx : s.grp.executing with
                  | false => rfl
                  | true => exact absurd (hph ▸ hx.1 hxx) hnr
        · rcases hcase with ⟨-, -, -, h4⟩ | ⟨h1, -, -⟩
          · exact h4
          · rw [h1]; exact h.sorted
        · intro x n hxm
          rw [htr, List.mem_append] at hxm
          rcases hxm with hxm | hxm
          · obtain ⟨a, n, d, h1, h2⟩ := h.ranSrc x n hxm
            exact ⟨a, n, d, hmem' h1, h2⟩
          · simp at hxm
        · intro a n d ha
          rcases hmem ha with ha | ⟨rfl, rfl, rfl⟩
          · exact h.nowLe _ _ _ ha
          · omega
        · intro f hf
          obtain ⟨f1, f2, f3⟩ := h.fly f hf
          have hne : ev.id ≠ f.id := by omega
          rcases hcase with ⟨h1, h2, -, -⟩ | ⟨h1, h2, -⟩
          · exact ⟨sel_eq_of_perm_nil h1 (by rw [sel_cons_ne hne]; exact f1), by rw [h2]; exact f2, by omega⟩
          · exact ⟨by rw [h1]; exact f1, sel_eq_of_perm_nil h2 (by rw [sel_cons_ne hne]; exact f2), by omega⟩
      split
      · rename_i heq
        exact key _ rfl rfl rfl rfl rfl rfl (Or.inr ⟨rfl, addEvt_all _ _, heq⟩)
      · rename_i hne
        refine key _ rfl rfl rfl rfl rfl rfl (Or.inl ⟨qinsert_perm _ _, rfl, ?_, ?_⟩)
        · omega
        · exact qinsert_sorted _ _ h.sorted (by rw [hord]; exact freshord)
    · exact h.of_eq rfl (List.Perm.refl _) rfl (Nat.le_refl _) (Nat.le_succ _) (fun _ h => h) (fun h => Or.inl h)
        [.ignored s.nextId] rfl (by simp) (by simp)

theorem Inv.act {e fl s} (h : Inv e fl s) (a : Act) (hx : s.grp.executing = true ↔ s.phase = .running) :
    Inv e fl (applyAct s a) := by
  cases a with
  | sched a p q i l g =>
    have h' := h.push a p q i (.user l) g hx
    exact h'.of_eq rfl (List.Perm.refl _) rfl (Nat.le_refl _) (Nat.le_refl _) (fun _ h => h) (fun h => Or.inl h)
      [] (by simp [applyAct]) (by simp) (by simp)
  | schedStop a => exact h.push a _ _ _ _ _ hx
  | schedEnd l =>
    exact h.of_eq rfl (List.Perm.refl _) rfl (Nat.le_refl _) (Nat.le_succ _) (fun _ h => h) (fun h => Or.inl h)
      [.schedEnd s.nextId l] rfl (by simp) (by simp)
  | void id =>
    exact h.of_eq rfl (List.Perm.refl _) rfl (Nat.le_refl _) (Nat.le_refl _)
      (fun _ h => List.mem_cons_of_mem _ h) (fun h => Or.inl h) [.voided id] rfl (by simp) (by simp)
  | stop =>
    exact h.of_eq rfl (List.Perm.refl _) rfl (Nat.le_refl _) (Nat.le_refl _) (fun _ h => h) (fun h => Or.inl h)
      [.stopped] rfl (by simp) (by simp)

theorem Inv.acts {e fl} (l : List Act) {s} (h : Inv e fl s) (hx : s.grp.executing = true ↔ s.phase = .running) :
    Inv e fl (l.foldl applyAct s) := by
  induction l generalizing s with
  | nil => exact h
  | cons a l ih =>
    exact ih (h.act a hx) (by rw [applyAct_executing, applyAct_phase]; exact hx)

theorem pushEvent_trace (s : St) (a p q i c g) : ∃ o, (pushEvent s a p q i c g).trace = s.trace ++ [o] ∧
    ∀ ev now, o ≠ .ran ev now := by
  unfold pushEvent; simp only []; split
  · exact ⟨_, rfl, by simp⟩
  · split
    · split <;> exact ⟨_, rfl, by simp⟩
    · exact ⟨_, rfl, by simp⟩

theorem applyAct_trace (s : St) (a : Act) : ∃ o, (applyAct s a).trace = s.trace ++ [o] ∧ ∀ ev now, o ≠ .ran ev now := by
  cases a with
  | sched a p q i l g => exact pushEvent_trace s a p q i (.user l) g
  | schedStop a => exact pushEvent_trace s a _ _ _ _ _
  | schedEnd l => exact ⟨_, rfl, by simp⟩
  | void id => exact ⟨_, rfl, by simp⟩
  | stop => exact ⟨_, rfl, by simp⟩

theorem foldl_applyAct_ext (l : List Act) (s : St) : ∃ tl, (l.foldl applyAct s).trace = s.trace ++ tl ∧
    ∀ o ∈ tl, ∀ ev now, o ≠ .ran ev now := by
  induction l generalizing s with
  | nil => exact ⟨[], by simp⟩
  | cons a l ih =>
    obtain ⟨o, h1, h2⟩ := applyAct_trace s a
    obtain ⟨tl, h3, h4⟩ := ih (applyAct s a)
    refine ⟨o :: tl, by simp [h3, h1], ?_⟩
    intro o' ho'
    rcases List.mem_cons.1 ho' with rfl | ho'
    · exact h2
    · exact h4 o' ho'

theorem foldl_applyAct_trace (l : List Act) (s : St) {o : Obs} (h : o ∈ s.trace) : o ∈ (l.foldl applyAct s).trace := by
  obtain ⟨tl, h1, -⟩ := foldl_applyAct_ext l s
  rw [h1]; exact List.mem_append_left _ h

theorem foldl_applyAct_runs (l : List Act) (s : St) (x : Nat) : runsOf x (l.foldl applyAct s).trace = runsOf x s.trace := by
  obtain ⟨tl, h1, h2⟩ := foldl_applyAct_ext l s
  rw [h1, runsOf_append, runsOf_eq_nil (fun ev now hm => absurd rfl (h2 _ hm ev now))]
  simp

/-- A callback is a sequence of API calls. -/
theorem callEv_eq (e : Env) (s : St) (ev : Ev) (h : ev.id ∉ s.voided) :
    ∃ l : List Act, callEv e s ev = l.foldl applyAct { s with trace := s.trace ++ [.ran ev s.tick] } := by
  rw [callEv, if_neg h]
  simp only []
  split
  · exact ⟨[.stop], rfl⟩
  · exact ⟨_, rfl⟩

theorem set_all_perm {g : Group} {w : Which} {ev : Ev} {rest : List Ev} (h : g.get w = ev :: rest) :
    g.all.Perm (ev :: (g.set rest w).all) := by
  rw [List.perm_iff_count]
  intro a
  cases w <;> simp only [Group.get] at h <;>
    simp only [Group.all, Group.set, h, List.count_append, List.count_cons] <;> omega

/-- Running one event preserves the invariant. -/
theorem Inv.runEv {e s} (h : Inv e none s) {w ev rest} (hp : s.phase = .running) (hx : s.grp.executing = true)
    (hg : s.grp.get w = ev :: rest) :
    Inv e none (runEv e { s with grp := s.grp.set rest w } ev) := by
  have hperm := set_all_perm hg
  have hevall : ev ∈ s.grp.all := hperm.mem_iff.2 (by simp)
  obtain ⟨ev0, now0, d0, k0, hs0, hk0, rfl⟩ := h.pending_eq (List.mem_append_right _ hevall)
  -- status of the popped event
  have hst : sel ev0.id s.queue = [] ∧ sel ev0.id s.grp.all = [nth e ev0 k0] ∧ (ev0.interval = none → k0 = 0) ∧
      occ e ev0 k0 = s.tick := by
    cases hk0.status with
    | queued _ h2 =>
      have : nth e ev0 k0 ∈ sel ev0.id s.grp.all := mem_sel.2 ⟨hevall, rfl⟩
      rw [h2] at this; simp at this
    | grouped h1 h2 h3 h4 _ => exact ⟨h1, h2, h3, h4⟩
    | flying j _ h2 =>
      have : nth e ev0 k0 ∈ sel ev0.id s.grp.all := mem_sel.2 ⟨hevall, rfl⟩
      rw [h2] at this; simp at this
    | gone _ h2 =>
      have : nth e ev0 k0 ∈ sel ev0.id s.grp.all := mem_sel.2 ⟨hevall, rfl⟩
      rw [h2] at this; simp at this
  obtain ⟨hq0, hg0, hk00, hocc⟩ := hst
  have hg0' : sel ev0.id (s.grp.set rest w).all = [] := by
    have := sel_perm (x := ev0.id) hperm
    rw [hg0, sel_cons_eq (by rfl)] at this
    have := this.symm
    have hl := this.length_eq
    simp at hl
    exact List.eq_nil_of_length_eq_zero (by simpa using hl)
  have hsel' : ∀ x, x ≠ ev0.id → (sel x (s.grp.set rest w).all).Perm (sel x s.grp.all) := by
    intro x hne
    have := sel_perm (x := x) hperm
    rw [sel_cons_ne (ev := nth e ev0 k0) (fun hh => hne hh.symm)] at this
    exact this.symm
  -- the state after popping and (if not voided) recording the run, before the callback's calls
  have popped : ∀ (u : St) (fl : Option Ev), u.queue = s.queue → u.grp.all = (s.grp.set rest w).all → u.tick = s.tick →
      u.counter = s.counter → u.nextId = s.nextId → u.voided = s.voided → u.phase = s.phase →
      ((u.trace = s.trace ∧ fl = none ∧ ev0.id ∈ s.voided) ∨ (u.trace = s.trace ++ [.ran (nth e ev0 k0) s.tick] ∧ fl = some (nth e ev0 k0))) →
      Inv e fl u := by
    intro u fl hq hgr ht hc hn hv hph hcase
    have hmem : ∀ {a n d}, Obs.sched a n d ∈ u.trace ↔ Obs.sched a n d ∈ s.trace := by
      intro a n d
      rcases hcase with ⟨htr, -, -⟩ | ⟨htr, -⟩ <;> rw [htr] <;> simp
    refine ⟨?_, ?_, ?_, ?_, ?_, ?_, fun a n d ha => h.nowLe a n d (hmem.1 ha), fun f hf => ?_⟩
    · intro a n d ha
      have := h.bound _ _ _ (hmem.1 ha)
      omega
    · have : scheds u.trace = scheds s.trace := by
        rcases hcase with ⟨htr, -, -⟩ | ⟨htr, -⟩ <;> rw [htr]
        rw [scheds_append]; simp [scheds]
      rw [this]; exact h.uniq
    · intro x hx
      rw [hq, hgr] at hx
      have : x ∈ s.queue ++ s.grp.all := by
        rcases List.mem_append.1 hx with hx | hx
        · exact List.mem_append_left _ hx
        · exact List.mem_append_right _ (hperm.mem_iff.2 (List.mem_cons_of_mem _ hx))
      obtain ⟨a, n, d, h1, h2⟩ := h.src x this
      exact ⟨a, n, d, hmem.2 h1, h2⟩
    · intro a n d ha
      have ha := hmem.1 ha
      by_cases hid : a.id = ev0.id
      · have : a = ev0 := h.sched_id_inj ha hs0 hid
        subst this
        rcases hcase with ⟨htr, hfl, hvd⟩ | ⟨htr, hfl⟩
        · refine ⟨k0, by rw [htr]; exact hk0.runs, ?_⟩
          exact .gone (by rw [hq]; exact hq0) (by rw [hgr]; exact hg0') (Or.inl ⟨by rw [hv]; exact hvd, fun hn => by have := hk00 hn; omega⟩)
        · refine ⟨k0 + 1, ?_, ?_⟩
          · rw [htr, runsOf_append, hk0.runs, List.range_succ, List.map_append]
            simp [runsOf, hocc]
          · exact .flying k0 (by rw [hq]; exact hq0) (by rw [hgr]; exact hg0') rfl hfl hk00
      · obtain ⟨k, hk⟩ := h.track a n d ha
        refine ⟨k, ?_, ?_⟩
        · rcases hcase with ⟨htr, -, -⟩ | ⟨htr, -⟩
          · rw [htr]; exact hk.runs
          · rw [htr, runsOf_append, hk.runs]
            have : runsOf a.id [Obs.ran (nth e ev0 k0) s.tick] = [] := by
              simp [runsOf, Ne.symm hid]
            simp [this]
        · have hs' := hsel' a.id hid
          rw [← hgr] at hs'
          cases hk.status with
          | queued h1 h2 h3 h4 =>
            exact .queued (by rw [hq]; exact h1) (by rw [h2] at hs'; exact List.perm_nil.1 hs') h3 (by rw [ht]; exact h4)
          | grouped h1 h2 h3 h4 h5 =>
            exact .grouped (by rw [hq]; exact h1) (by rw [h2] at hs'; exact List.perm_singleton.1 hs') h3 (by rw [ht]; exact h4)
              (by rw [hph]; exact h5)
          | flying j h1 h2 h3 h4 h5 => simp at h4
          | gone h1 h2 h3 =>
            exact .gone (by rw [hq]; exact h1) (by rw [h2] at hs'; exact List.perm_nil.1 hs') (by rw [hv]; exact h3)
    · rw [hq]; exact h.sorted
    · intro x n hxm
      rcases hcase with ⟨htr, -, -⟩ | ⟨htr, -⟩
      · rw [htr] at hxm
        obtain ⟨a, n, d, h1, h2⟩ := h.ranSrc x n hxm
        exact ⟨a, n, d, hmem.2 h1, h2⟩
      · rw [htr, List.mem_append] at hxm
        rcases hxm with hxm | hxm
        · obtain ⟨a, n, d, h1, h2⟩ := h.ranSrc x n hxm
          exact ⟨a, n, d, hmem.2 h1, h2⟩
        · simp only [List.mem_singleton, Obs.ran.injEq] at hxm
          rw [hxm.1]
          exact ⟨ev0, now0, d0, hmem.2 hs0, rfl⟩
    · rcases hcase with ⟨-, rfl, -⟩ | ⟨-, rfl⟩
      · simp at hf
      · simp only [Option.some.injEq] at hf
        subst hf
        refine ⟨by rw [hq]; exact hq0, by rw [hgr]; exact hg0', ?_⟩
        have := h.bound _ _ _ hs0
        simp; omega
  -- the callback
  obtain ⟨s1, hs1⟩ : ∃ u : St, u = { s with grp := { s.grp.set rest w with size := (s.grp.set rest w).size - 1 } } := ⟨_, rfl⟩
  have hrun : Repast.Schedule.runEv e { s with grp := s.grp.set rest w } (nth e ev0 k0) =
      rescheduleEv e (callEv e s1 (nth e ev0 k0)) (nth e ev0 k0) := by rw [hs1]; rfl
  rw [hrun]
  have e1 : s1.queue = s.queue := by rw [hs1]
  have e2 : s1.grp.all = (s.grp.set rest w).all := by rw [hs1]; rfl
  have e3 : s1.tick = s.tick := by rw [hs1]
  have e4 : s1.counter = s.counter := by rw [hs1]
  have e5 : s1.nextId = s.nextId := by rw [hs1]
  have e6 : s1.voided = s.voided := by rw [hs1]
  have e7 : s1.phase = s.phase := by rw [hs1]
  have e8 : s1.trace = s.trace := by rw [hs1]
  have e9 : s1.grp.executing = true := by rw [hs1]; simp [set_executing, hx]
  clear hs1 hrun
  by_cases hvd : ev0.id ∈ s.voided
  · have hvd' : (nth e ev0 k0).id ∈ s1.voided := by rw [e6]; exact hvd
    have hu := popped s1 none e1 e2 e3 e4 e5 e6 e7 (Or.inl ⟨e8, rfl, hvd⟩)
    rw [callEv, if_pos hvd']
    unfold rescheduleEv
    split
    · exact hu
    · rw [if_pos hvd']; exact hu
  · have hvd' : (nth e ev0 k0).id ∉ s1.voided := by rw [e6]; exact hvd
    obtain ⟨l, hl⟩ := callEv_eq e s1 (nth e ev0 k0) hvd'
    rw [hl]; clear hl
    obtain ⟨s2, hs2⟩ : ∃ u : St, u = { s1 with trace := s1.trace ++ [.ran (nth e ev0 k0) s1.tick] } := ⟨_, rfl⟩
    rw [← hs2]
    have hu := popped s2 (some (nth e ev0 k0)) (by rw [hs2]; exact e1) (by rw [hs2]; exact e2) (by rw [hs2]; exact e3)
      (by rw [hs2]; exact e4) (by rw [hs2]; exact e5) (by rw [hs2]; exact e6) (by rw [hs2]; exact e7)
      (Or.inr ⟨by rw [hs2, e8, e3], rfl⟩)
    have hxp : s2.grp.executing = true ↔ s2.phase = .running := by
      rw [hs2]; simp [e9, e7, hp]
    have htr2 : s2.trace = s.trace ++ [.ran (nth e ev0 k0) s.tick] := by rw [hs2, e8, e3]
    have htk2 : s2.tick = s.tick := by rw [hs2]; exact e3
    clear popped hs2
    have hi := hu.acts l hxp
    have hruns : runsOf ev0.id (l.foldl applyAct s2).trace = runsOf ev0.id s2.trace := foldl_applyAct_runs _ _ _
    have hsch : Obs.sched ev0 now0 d0 ∈ (l.foldl applyAct s2).trace := foldl_applyAct_trace _ _ (by rw [htr2]; simp [hs0])
    rw [htr2, runsOf_append, hk0.runs] at hruns
    have hruns' : runsOf ev0.id (l.foldl applyAct s2).trace = (List.range (k0+1)).map (fun i => (nth e ev0 i, occ e ev0 i)) := by
      rw [hruns, List.range_succ, List.map_append]
      simp [runsOf, hocc]
    have htick : (l.foldl applyAct s2).tick = s.tick := by rw [foldl_applyAct_tick]; exact htk2
    generalize l.foldl applyAct s2 = v at *
    obtain ⟨f1, f2, f3⟩ := hi.fly _ rfl
    have others : ∀ a n d, Obs.sched a n d ∈ v.trace → a.id ≠ ev0.id → ∃ k, Track e none v a n d k := by
      intro a n d ha hne
      obtain ⟨k, hk⟩ := hi.track a n d ha
      refine ⟨k, hk.runs, ?_⟩
      cases hk.status with
      | queued h1 h2 h3 h4 => exact .queued h1 h2 h3 h4
      | grouped h1 h2 h3 h4 h5 => exact .grouped h1 h2 h3 h4 h5
      | flying j h1 h2 h3 h4 h5 =>
        simp only [Option.some.injEq] at h4
        have : (nth e a j).id = ev0.id := by rw [← h4]; rfl
        exact absurd this hne
      | gone h1 h2 h3 => exact .gone h1 h2 h3
    -- rescheduling
    have settle : (ev0.id ∈ v.voided ∨ (ev0.interval = none ∧ k0 + 1 = 1)) → Inv e none v := by
      intro hc
      refine ⟨hi.bound, hi.uniq, hi.src, ?_, hi.sorted, hi.ranSrc, hi.nowLe, by simp⟩
      intro a n d ha
      by_cases hid : a.id = ev0.id
      · have : a = ev0 := hi.sched_id_inj ha hsch hid
        subst this
        refine ⟨k0+1, hruns', .gone f1 f2 ?_⟩
        rcases hc with hc | hc
        · exact Or.inl ⟨hc, fun hn => by have := hk00 hn; omega⟩
        · exact Or.inr (Or.inl hc)
      · exact others a n d ha hid
    cases hint : ev0.interval with
    | none =>
      have : rescheduleEv e v (nth e ev0 k0) = v := by simp [rescheduleEv, hint]
      rw [this]
      exact settle (Or.inr ⟨hint, by rw [hk00 hint]⟩)
    | some i =>
      by_cases hv2 : ev0.id ∈ v.voided
      · have : rescheduleEv e v (nth e ev0 k0) = v := by simp [rescheduleEv, hint, hv2]
        rw [this]
        exact settle (Or.inl hv2)
      · have hnx : rescheduleEv e v (nth e ev0 k0) = { v with queue := qinsert (nth e ev0 (k0+1)) v.queue } := by
          simp [rescheduleEv, nth, occ, hint, hv2]
        rw [hnx]
        have hqp := qinsert_perm (nth e ev0 (k0+1)) v.queue
        refine ⟨hi.bound, hi.uniq, ?_, ?_, ?_, hi.ranSrc, hi.nowLe, by simp⟩
        · intro x hx
          rcases List.mem_append.1 hx with hx | hx
          · rcases List.mem_cons.1 (hqp.mem_iff.1 hx) with rfl | hx
            · exact ⟨ev0, now0, d0, hsch, rfl⟩
            · exact hi.src x (List.mem_append_left _ hx)
          · exact hi.src x (List.mem_append_right _ hx)
        · intro a n d ha
          by_cases hid : a.id = ev0.id
          · have : a = ev0 := hi.sched_id_inj ha hsch hid
            subst this
            refine ⟨k0+1, hruns', .queued ?_ f2 (by simp [hint]) ⟨by simp, fun hc => ?_⟩⟩
            rotate_left
            · simp only [Nat.add_one_ne_zero, false_or, Nat.add_sub_cancel] at hc
              show v.tick < _
              omega
            apply sel_eq_of_perm_singleton hqp
            rw [sel_cons_eq (x := a.id) (ev := nth e a (k0+1)) rfl]
            simp only [nth_id] at f1
            rw [f1]
          · obtain ⟨k, hk⟩ := others a n d ha hid
            refine ⟨k, hk.runs, ?_⟩
            have hsel : (sel a.id (qinsert (nth e ev0 (k0+1)) v.queue)).Perm (sel a.id v.queue) := by
              have := sel_perm (x := a.id) hqp
              rwa [sel_cons_ne (ev := nth e ev0 (k0+1)) (fun hh => hid hh.symm)] at this
            cases hk.status with
            | queued h1 h2 h3 h4 => exact .queued (by rw [h1] at hsel; exact List.perm_singleton.1 hsel) h2 h3 h4
            | grouped h1 h2 h3 h4 h5 => exact .grouped (by rw [h1] at hsel; exact List.perm_nil.1 hsel) h2 h3 h4 h5
            | flying j h1 h2 h3 h4 h5 => simp at h4
            | gone h1 h2 h3 => exact .gone (by rw [h1] at hsel; exact List.perm_nil.1 hsel) h2 h3
        · apply qinsert_sorted _ _ hi.sorted
          intro x hx heq
          obtain ⟨a, n, d, k, h1, -, rfl⟩ := hi.pending_eq (List.mem_append_left _ hx)
          have : ev0 = a := hi.sched_ord_inj hsch h1 heq
          subst this
          have : nth e ev0 k ∈ sel ev0.id v.queue := mem_sel.2 ⟨hx, rfl⟩
          simp only [nth_id] at f1
          rw [f1] at this
          simp at this

/-- Entering a tick preserves the invariant. -/
theorem Inv.start {e s} (h : Inv e none s) (hp : s.phase ≠ .running) (_hx : s.grp.executing = false) :
    Inv e none (startExecute e s) := by
  unfold startExecute
  split
  · exact h.of_eq rfl (List.Perm.refl _) rfl (Nat.le_refl _) (Nat.le_refl _) (fun _ h => h) (fun h => Or.inl h)
      [] (by simp) (by simp) (by simp)
  · rename_i ev l hq
    simp only []
    generalize hnow : s.queue.takeWhile (fun x => decide (x.at_ = ev.at_)) = nowL
    generalize hlater : s.queue.dropWhile (fun x => decide (x.at_ = ev.at_)) = later
    have hsplit : s.queue = nowL ++ later := by rw [← hnow, ← hlater, List.takeWhile_append_dropWhile]
    have hnowat : ∀ x ∈ nowL, x.at_ = ev.at_ := by rw [← hnow]; exact mem_takeWhile_eq
    have hle : ∀ x ∈ s.queue, ev.at_ ≤ x.at_ := by
      intro x hx
      have hs := h.sorted
      rw [hq] at hx hs
      rcases List.mem_cons.1 hx with rfl | hx
      · exact Int.le_refl _
      · exact sorted_head_le hs x hx
    have hlaterat : ∀ x ∈ later, ev.at_ < x.at_ := by rw [← hlater]; exact mem_dropWhile_gt h.sorted hle
    have hgrp : ((List.foldl Group.addEvt s.grp.reset nowL).sort e s.rnd).1.all.Perm nowL := by
      refine (sort_all _ _ _).trans ((foldl_addEvt_all _ _).trans ?_)
      rw [reset_all]; simp
    generalize List.foldl Group.addEvt s.grp.reset nowL = g0 at hgrp ⊢
    generalize g0.sort e s.rnd = r at hgrp ⊢
    refine ⟨?_, ?_, ?_, ?_, ?_, ?_, ?_, by simp⟩
    · intro a n d ha
      exact h.bound a n d (by simpa using ha)
    · simp only [scheds_append]; simpa [scheds] using h.uniq
    · intro x hx
      have hx' : x ∈ s.queue := by
        rw [hsplit]
        rcases List.mem_append.1 hx with hx | hx
        · exact List.mem_append_right _ hx
        · exact List.mem_append_left _ (hgrp.mem_iff.1 hx)
      obtain ⟨a, n, d, h1, h2⟩ := h.src x (List.mem_append_left _ hx')
      exact ⟨a, n, d, by simp [h1], h2⟩
    · intro a n d ha
      have ha : Obs.sched a n d ∈ s.trace := by simpa using ha
      obtain ⟨k, hk⟩ := h.track a n d ha
      refine ⟨k, ?_, ?_⟩
      · simp only [runsOf_append, hk.runs]
        simp [runsOf]
      · have hgp : ∀ {b}, sel a.id nowL = [b] → sel a.id r.1.all = [b] := fun h => sel_eq_of_perm_singleton hgrp h
        have hgn : sel a.id nowL = [] → sel a.id r.1.all = [] := fun h => sel_eq_of_perm_nil hgrp h
        have hqs : sel a.id s.queue = sel a.id nowL ++ sel a.id later := by rw [hsplit, sel_append]
        cases hk.status with
        | queued h1 h2 h3 h4 =>
          rw [h1] at hqs
          have hqs := hqs.symm
          rcases List.append_eq_singleton_iff.1 hqs with ⟨q1, q2⟩ | ⟨q1, q2⟩
          · refine .queued q2 (hgn q1) h3 ?_
            have hm : nth e a k ∈ later := (mem_sel.1 (by rw [q2]; simp : nth e a k ∈ sel a.id later)).1
            exact ⟨h4.1, fun _ => hlaterat _ hm⟩
          · refine .grouped q2 (hgp q1) h3 ?_ ?_
            · have hm : nth e a k ∈ nowL := (mem_sel.1 (by rw [q1]; simp : nth e a k ∈ sel a.id nowL)).1
              exact hnowat _ hm
            · intro hc; simp at hc
        | grouped h1 h2 h3 h4 h5 =>
          obtain ⟨p1, p2, p3⟩ := h5 hp
          rw [h1] at hqs
          have hqs := List.append_eq_nil_iff.1 hqs.symm
          exact .gone hqs.2 (hgn hqs.1) (Or.inr (Or.inr ⟨p1, p2, p3⟩))
        | flying j h1 h2 h3 h4 => simp at h4
        | gone h1 h2 h3 =>
          rw [h1] at hqs
          have hqs := List.append_eq_nil_iff.1 hqs.symm
          exact .gone hqs.2 (hgn hqs.1) h3
    · have := h.sorted
      rw [hsplit] at this
      exact (List.pairwise_append.1 this).2.1
    · intro x n hm
      have hm : Obs.ran x n ∈ s.trace := by simpa using hm
      obtain ⟨a, n, d, h1, h2⟩ := h.ranSrc x n hm
      exact ⟨a, n, d, by simp [h1], h2⟩
    · intro a n d ha
      exact h.nowLe a n d (by simpa using ha)

theorem Inv.init (e : Env) : Inv e none St.init := by
  constructor <;> simp [St.init, Group.all, scheds]

theorem Inv.post {e fl s} (h : Inv e fl s) : Inv e fl (post e s) := by
  unfold Repast.Schedule.post
  split
  · exact h.of_eq rfl (addDuring_all e s) rfl (Nat.le_refl _) (Nat.le_refl _) (fun _ h => h) (fun h => Or.inl h)
      [] (by simp [addDuring]) (by simp) (by simp)
  · exact h

theorem Inv.step {e s t} (hg : GInv s) (h : Inv e none s) (hm : MStep e s t) : Inv e none t := by
  have idle : s.phase ≠ .running → (s.grp.executing = true ↔ s.phase = .running) := by
    intro hp; simp [hp, hg.idle hp]
  cases hm with
  | act a hp => exact h.act a (idle (by simp [hp]))
  | enter hp => exact h.start (by simp [hp]) (hg.idle (by simp [hp]))
  | skip hp =>
    exact h.of_eq rfl (List.Perm.refl _) rfl (Nat.le_refl _) (Nat.le_refl _) (fun _ h => h) (fun h => Or.inl h)
      [] (by simp) (by simp) (by simp)
  | exec hp =>
    exact h.of_eq rfl (List.Perm.refl _) rfl (Nat.le_refl _) (Nat.le_refl _) (fun _ h => h) (fun h => Or.inl h)
      [] (by simp) (by simp) (by simp)
  | event w ev rest hp hx hn => exact (h.runEv hp hx hn.1).post
  | unexec hp =>
    exact h.of_eq rfl (List.Perm.refl _) rfl (Nat.le_refl _) (Nat.le_refl _) (fun _ h => h) (fun h => Or.inl h)
      [] (by simp) (by simp) (by simp)
  | finish hp hsz hx =>
    refine h.of_eq rfl (List.Perm.refl _) rfl (Nat.le_refl _) (Nat.le_refl _) (fun _ h => h) (fun _ => Or.inr ?_)
      [] (by simp) (by simp) (by simp)
    obtain ⟨r1, r2, -, r4⟩ := hg.run hp
    have := size_of_all r1 r2
    exact List.eq_nil_of_length_eq_zero (by simp only; omega)
  | leave hp =>
    exact h.of_eq rfl (List.Perm.refl _) rfl (Nat.le_refl _) (Nat.le_refl _) (fun _ h => h) (fun _ => Or.inl (by simp [hp]))
      [] (by simp) (by simp) (by simp)
  | endDone i hp =>
    exact h.of_eq rfl (List.Perm.refl _) rfl (Nat.le_refl _) (Nat.le_refl _) (fun _ h => h) (fun _ => Or.inl (by simp [hp]))
      [] (by simp) (by simp) (by simp)
  | endSkip i id l hp =>
    exact h.of_eq rfl (List.Perm.refl _) rfl (Nat.le_refl _) (Nat.le_refl _) (fun _ h => h) (fun _ => Or.inl (by simp [hp]))
      [] (by simp) (by simp) (by simp)
  | endRun i id l hp =>
    apply Inv.acts
    · exact h.of_eq rfl (List.Perm.refl _) rfl (Nat.le_refl _) (Nat.le_refl _) (fun _ h => h) (fun _ => Or.inl (by simp [hp]))
        [.ranEnd id l] (by simp) (by simp) (by simp)
    · have := hg.idle (by simp [hp])
      simp [this]

theorem run_inv (e : Env) (ops : List Op) : Inv e none (run e ops) :=
  run_induction e (Inv e none) (Inv.init e) (fun _ _ hg h hm => h.step hg hm) ops

end Repast.Schedule
