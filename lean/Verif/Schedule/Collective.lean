import Verif.Schedule.Tick
import Verif.Schedule.Random

/-! One tick of a rank whose callables schedule nothing collective: which collective callables it calls, in which order, and what is left. -/
namespace Repast.Schedule

/-! ### Specification -/

/-- The callables that all ranks call together (`coll`), and the stop of the runner. -/
def isC (coll : Nat → Bool) (ev : Ev) : Bool := match ev.cb with
  | .user l => coll l
  | .stop => true

/-- The events whose callables all ranks call together. -/
def isU (coll : Nat → Bool) (ev : Ev) : Bool := match ev.cb with
  | .user l => coll l
  | .stop => false

/-- The events that stop the runner: its own, and those of the collective callables that call `stop` at that tick (`halt`). -/
def isStop (coll : Nat → Bool) (halt : Nat → Int → Bool) (ev : Ev) : Bool := match ev.cb with
  | .user l => coll l && halt l ev.at_
  | .stop => true

/-- A call that schedules an event or an end event that is not collective. -/
def LocalAct (coll : Nat → Bool) : Act → Prop
  | .sched _ _ _ _ l _ => coll l = false
  | .schedEnd l => coll l = false
  | _ => False

/-- What events and end events schedule is not collective. An event calls `stop` if its callable is collective and `halt` says so for its tick. -/
structure Quiet (coll : Nat → Bool) (halt : Nat → Int → Bool) (e : Env) : Prop where
  prog : ∀ tr ev, ∀ a ∈ e.prog tr ev, LocalAct coll a ∨ (a = .stop ∧ isStop coll halt ev = true)
  stops : ∀ tr ev, isStop coll halt ev = true → .stop ∈ e.prog tr ev ∨ ev.cb = .stop
  endProg : ∀ tr l, ∀ a ∈ e.endProg tr l, LocalAct coll a

/-- The next occurrence of a repeating event. -/
def nextOf (e : Env) (ev : Ev) : Option Ev := ev.interval.map fun i => { ev with at_ := e.adv ev.at_ i }

/-- Neither FIRST nor LAST. -/
def Middle (ev : Ev) : Prop := ev.ptype ≠ .first ∧ ev.ptype ≠ .last

/-- A BY_PRIORITY event with a priority. -/
def HasPrio (ev : Ev) : Prop := ev.ptype = .byPriority ∧ ev.prio.isSome

/-- Among the events there is at most one that is neither FIRST nor LAST; or, if `ok`, all of those have a priority. -/
def OneMiddle (ok : Prop) (l : List Ev) : Prop := ∀ a ∈ l, ∀ b ∈ l, Middle a → Middle b → a = b ∨ (ok ∧ HasPrio a ∧ HasPrio b)

/-- A call that gives each BY_PRIORITY event a priority. -/
def PrioAct : Act → Prop
  | .sched _ p q _ _ _ => p = .byPriority → q.isSome
  | _ => True

/-- A call that schedules nothing for the tick `now`. -/
def LaterAct (now : Int) : Act → Prop
  | .sched t _ _ _ _ _ => t ≠ some now
  | .schedStop t => t ≠ some now
  | _ => True

/-- No event schedules anything for the tick at which it runs, and each BY_PRIORITY event has a priority. -/
def Disciplined (e : Env) : Prop := ∀ tr ev now, ∀ a ∈ e.prog (tr ++ [.ran ev now]) ev, PrioAct a ∧ LaterAct now a

/-- The collective events that run in a piece of history. -/
def ranU (coll : Nat → Bool) (tr : List Obs) : List Ev := tr.filterMap fun o => match o with
  | .ran ev _ => if isU coll ev then some ev else none
  | _ => none

/-! ### Lemmas -/

variable {coll : Nat → Bool} {halt : Nat → Int → Bool}

theorem isC_eq (ev : Ev) : isC coll ev = (isU coll ev || isStop coll halt ev) := by
  unfold isC isU isStop; split
  · rename_i l _; cases coll l <;> simp
  · simp

theorem ranU_append (a b : List Obs) : ranU coll (a ++ b) = ranU coll a ++ ranU coll b := by simp [ranU, List.filterMap_append]

theorem ranU_nil {tl : List Obs} (h : ∀ o ∈ tl, ∀ ev now, o ≠ .ran ev now) : ranU coll tl = [] := by
  unfold ranU
  rw [List.filterMap_eq_nil_iff]
  intro o ho
  split
  · exact absurd rfl (h _ ho _ _)
  · rfl

/-- The order of the events of a tick. -/
def TickOrder (ok : Prop) (a b : Ev) : Prop := ClassOrder a b ∧ (ok → PrioOrder a b)

theorem tickOrder_eq {ok : Prop} {l l' : List Ev} (hp : l.Perm l') (h : l.Pairwise (TickOrder ok)) (h' : l'.Pairwise (TickOrder ok)) (hm : OneMiddle ok l) : l = l' := by
  refine hp.eq_of_pairwise ?_ h h'
  intro a b ha hb hab hba
  have hb' : b ∈ l := hp.mem_iff.2 hb
  obtain ⟨hab, pab⟩ := hab
  obtain ⟨hba, pba⟩ := hba
  by_cases h1 : a.ptype = .first
  · have h2 := hba.1 h1
    have := hab.2.2.1 h1 h2; have := hba.2.2.1 h2 h1; omega
  · by_cases h2 : a.ptype = .last
    · have h3 := hab.2.1 h2
      have := hab.2.2.2 h2 h3; have := hba.2.2.2 h3 h2; omega
    · rcases hm a ha b hb' ⟨h1, h2⟩ ⟨fun h => h1 (hab.1 h), fun h => h2 (hba.2.1 h)⟩ with h | ⟨hok, ⟨a1, a2⟩, b1, b2⟩
      · exact h
      · obtain ⟨p, hp⟩ := Option.isSome_iff_exists.1 a2
        obtain ⟨q, hq⟩ := Option.isSome_iff_exists.1 b2
        have := pab hok a1 b1 p q hp hq
        have := pba hok b1 a1 q p hq hp
        omega

/-! ### Histories in which priorities are well-defined -/

/-- Each BY_PRIORITY event has a priority, and no event has scheduled anything for its own tick. -/
def TOk (tr : List Obs) : Prop := ∀ ev now d, Obs.sched ev now d ∈ tr → (ev.ptype = .byPriority → ev.prio.isSome) ∧ (d = true → ev.at_ ≠ now)

theorem TOk.prioOK {tr : List Obs} (h : TOk tr) : PrioOK tr :=
  ⟨fun ev now d hm => (h ev now d hm).1, .inl fun _ ev now hi ha => absurd ha ((h ev now true (List.mem_of_getElem? hi)).2 rfl)⟩

theorem TOk.append {tr tl : List Obs} (h : TOk tr) (hl : ∀ o ∈ tl, ∀ ev now d, o ≠ .sched ev now d) : TOk (tr ++ tl) := by
  intro ev now d hm
  rcases List.mem_append.1 hm with hm | hm
  · exact h ev now d hm
  · exact absurd rfl (hl _ hm ev now d)

theorem TOk.push {s : St} (h : TOk s.trace) (t p q i c g) (hp : p = .byPriority → q.isSome) (ht : s.grp.executing = true → t ≠ some s.tick) :
    TOk (pushEvent s t p q i c g).trace ∧ (pushEvent s t p q i c g).tick = s.tick ∧ (pushEvent s t p q i c g).grp.executing = s.grp.executing := by
  have hx : ∀ (G : Group) ev, (G.addEvt ev).executing = G.executing := by
    intro G ev
    unfold Group.addEvt
    split
    · rfl
    · unfold Group.addEvt'; split <;> rfl
  unfold pushEvent
  simp only []
  split
  · exact ⟨h.append (by simp), rfl, rfl⟩
  · rename_i u
    split
    · have key : TOk (s.trace ++ [Obs.sched { id := s.nextId, at_ := u, ord := s.counter, ptype := p, prio := q, interval := i, cb := c, tag := g } s.tick s.grp.executing]) := by
        intro ev now d hm
        rcases List.mem_append.1 hm with hm | hm
        · exact h ev now d hm
        · simp only [List.mem_singleton, Obs.sched.injEq] at hm
          obtain ⟨rfl, rfl, rfl⟩ := hm
          exact ⟨hp, fun hd he => ht hd (by rw [← he])⟩
      split
      · exact ⟨key, rfl, hx _ _⟩
      · exact ⟨key, rfl, rfl⟩
    · exact ⟨h.append (by simp), rfl, rfl⟩

theorem TOk.act {s : St} (h : TOk s.trace) (a : Act) (hp : PrioAct a) (ht : s.grp.executing = true → LaterAct s.tick a) :
    TOk (applyAct s a).trace ∧ (applyAct s a).tick = s.tick ∧ (applyAct s a).grp.executing = s.grp.executing := by
  cases a with
  | sched t p q i l g => exact h.push t p q i (.user l) g hp ht
  | schedStop t => exact h.push t .random none none .stop none (by simp) ht
  | schedEnd l => exact ⟨h.append (by simp), rfl, rfl⟩
  | void => exact ⟨h.append (by simp), rfl, rfl⟩
  | stop => exact ⟨by simp only [applyAct]; first | exact h | exact h.append (by simp), rfl, rfl⟩

theorem TOk.acts : ∀ (l : List Act) {s : St}, TOk s.trace → (∀ a ∈ l, PrioAct a) → (s.grp.executing = true → ∀ a ∈ l, LaterAct s.tick a) → TOk (l.foldl applyAct s).trace
  | [], _, h, _, _ => h
  | a :: l, s, h, hp, ht => by
    obtain ⟨h1, h2, h3⟩ := h.act a (hp a (by simp)) fun hx => ht hx a (by simp)
    exact TOk.acts l h1 (fun b hb => hp b (List.mem_cons_of_mem _ hb)) (fun hx b hb => by rw [h2]; exact ht (h3 ▸ hx) b (List.mem_cons_of_mem _ hb))

theorem TOk.call {e : Env} (ho : Disciplined e) {s : St} (h : TOk s.trace) (ev : Ev) : TOk (callEv e s ev).trace := by
  unfold callEv
  split
  · exact h
  · simp only []
    have h1 : TOk (s.trace ++ [.ran ev s.tick]) := h.append (by simp)
    split
    · exact (TOk.act (s := { s with trace := s.trace ++ [.ran ev s.tick] }) h1 .stop trivial fun _ => trivial).1
    · exact TOk.acts _ (s := { s with trace := s.trace ++ [.ran ev s.tick] }) h1 (fun a ha => (ho _ _ _ a ha).1) fun _ a ha => (ho _ _ _ a ha).2

theorem TOk.run {e : Env} (ho : Disciplined e) {s : St} (h : TOk s.trace) (ev : Ev) : TOk (runEv e s ev).trace := by
  unfold runEv
  simp only []
  have := TOk.call ho (s := { s with grp := { s.grp with size := s.grp.size - 1 } }) h ev
  unfold rescheduleEv
  split
  · exact this
  · split <;> exact this

theorem plan_tick {e : Env} {ok : Prop} {s : St} (h : Inv e none s) (hp : PInv s) (hpr : PrioInv s) (ht : ok → TOk s.trace) (hr : s.phase = .running) : s.grp.plan.Pairwise (TickOrder ok) :=
  (plan_class h hp hr).and (show s.grp.plan.Pairwise fun a b => ok → PrioOrder a b by
    by_cases hk : ok
    · exact (plan_prio h hp hpr hr (ht hk).prioOK).imp fun h _ => h
    · exact List.pairwise_of_forall_mem_list fun _ _ _ _ h => absurd h hk)

theorem qinsert_filter (p : Ev → Bool) (ev : Ev) (l : List Ev) (h : p ev = false) : (qinsert ev l).filter p = l.filter p := by
  induction l with
  | nil => simp [qinsert, h]
  | cons x xs ih =>
    simp only [qinsert]
    split
    · rw [List.filter_cons_of_neg (by simp [h])]
    · simp only [List.filter_cons, ih]

/-- What calls that schedule nothing collective leave alone. -/
structure Kept (coll : Nat → Bool) (s t : St) : Prop where
  queue : t.queue.filter (isC coll) = s.queue.filter (isC coll)
  voided : t.voided = s.voided
  ends : t.endEvts.filter (fun p => coll p.2) = s.endEvts.filter (fun p => coll p.2)
  endsPre : ∃ l, t.endEvts = s.endEvts ++ l
  tick : t.tick = s.tick
  phase : t.phase = s.phase
  tr : ∃ tl, t.trace = s.trace ++ tl ∧ ∀ o ∈ tl, (∀ ev now, o ≠ .ran ev now) ∧ ∀ i l, o ≠ .ranEnd i l
  added : s.grp.executing = true → t.grp.executing = true ∧ t.grp.added.filter (isC coll) = s.grp.added.filter (isC coll)

theorem Kept.refl (s : St) : Kept coll s s := ⟨rfl, rfl, rfl, ⟨[], by simp⟩, rfl, rfl, ⟨[], by simp, by simp⟩, fun h => ⟨h, rfl⟩⟩

theorem Kept.trans {a b c : St} (h1 : Kept coll a b) (h2 : Kept coll b c) : Kept coll a c := by
  obtain ⟨t1, e1, q1⟩ := h1.tr
  obtain ⟨t2, e2, q2⟩ := h2.tr
  obtain ⟨l1, f1⟩ := h1.endsPre
  obtain ⟨l2, f2⟩ := h2.endsPre
  refine ⟨h2.queue.trans h1.queue, h2.voided.trans h1.voided, h2.ends.trans h1.ends, ⟨l1 ++ l2, by rw [f2, f1, List.append_assoc]⟩, h2.tick.trans h1.tick, h2.phase.trans h1.phase,
    ⟨t1 ++ t2, by rw [e2, e1, List.append_assoc], ?_⟩, fun hx => ?_⟩
  · intro o ho
    rcases List.mem_append.1 ho with ho | ho
    · exact q1 o ho
    · exact q2 o ho
  · obtain ⟨x1, a1⟩ := h1.added hx
    obtain ⟨x2, a2⟩ := h2.added x1
    exact ⟨x2, a2.trans a1⟩

theorem kept_push (s : St) (a p q i l g) (hl : coll l = false) : Kept coll s (pushEvent s a p q i (.user l) g) := by
  unfold pushEvent
  simp only []
  split
  · exact ⟨rfl, rfl, rfl, ⟨[], by simp⟩, rfl, rfl, ⟨_, rfl, by simp⟩, fun h => ⟨h, rfl⟩⟩
  · rename_i t
    split
    · split
      · refine ⟨rfl, rfl, rfl, ⟨[], by simp⟩, rfl, rfl, ⟨_, rfl, by simp⟩, fun h => ?_⟩
        simp only [addEvt_executing _ _ h]
        exact ⟨h, by simp [List.filter_append, isC, hl]⟩
      · refine ⟨?_, rfl, rfl, ⟨[], by simp⟩, rfl, rfl, ⟨_, rfl, by simp⟩, fun h => ⟨h, rfl⟩⟩
        exact qinsert_filter _ _ _ (by simp [isC, hl])
    · exact ⟨rfl, rfl, rfl, ⟨[], by simp⟩, rfl, rfl, ⟨_, rfl, by simp⟩, fun h => ⟨h, rfl⟩⟩

theorem kept_act (s : St) (a : Act) (h : LocalAct coll a) : Kept coll s (applyAct s a) := by
  cases a with
  | sched a p q i l g =>
    have := kept_push (coll := coll) s a p q i l g h
    exact ⟨this.queue, this.voided, this.ends, this.endsPre, this.tick, this.phase, this.tr, this.added⟩
  | schedEnd l =>
    have h : coll l = false := h
    exact ⟨rfl, rfl, by simp [applyAct, List.filter_append, h], ⟨_, rfl⟩, rfl, rfl, ⟨_, rfl, by simp⟩, fun h => ⟨h, rfl⟩⟩
  | schedStop => exact absurd h id
  | void => exact absurd h id
  | stop => exact absurd h id

theorem kept_acts (l : List Act) (s : St) (h : ∀ a ∈ l, LocalAct coll a) : Kept coll s (l.foldl applyAct s) := by
  induction l generalizing s with
  | nil => exact .refl s
  | cons a l ih => exact (kept_act s a (h a (by simp))).trans (ih _ fun b hb => h b (List.mem_cons_of_mem _ hb))

theorem kept_stop (s : St) : Kept coll s (applyAct s .stop) := ⟨rfl, rfl, rfl, ⟨[], by simp [applyAct]⟩, rfl, rfl, ⟨_, rfl, by simp⟩, fun h => ⟨h, rfl⟩⟩

theorem kept_prog (l : List Act) (s : St) (h : ∀ a ∈ l, LocalAct coll a ∨ a = .stop) : Kept coll s (l.foldl applyAct s) := by
  induction l generalizing s with
  | nil => exact .refl s
  | cons a l ih =>
    refine Kept.trans ?_ (ih _ fun b hb => h b (List.mem_cons_of_mem _ hb))
    rcases h a (by simp) with h | rfl
    · exact kept_act s a h
    · exact kept_stop s

theorem push_go (s : St) (a p q i c g) : (pushEvent s a p q i c g).go = s.go := by
  unfold pushEvent
  simp only []
  split
  · rfl
  · split
    · split <;> rfl
    · rfl

theorem act_go (s : St) (a : Act) (h : LocalAct coll a) : (applyAct s a).go = s.go := by
  cases a with
  | sched a p q i l g => exact push_go s a p q i (.user l) g
  | schedEnd l => rfl
  | schedStop => exact absurd h id
  | void => exact absurd h id
  | stop => exact absurd h id

theorem acts_go (l : List Act) (s : St) (h : ∀ a ∈ l, LocalAct coll a) : (l.foldl applyAct s).go = s.go := by
  induction l generalizing s with
  | nil => rfl
  | cons a l ih => exact (ih _ fun b hb => h b (List.mem_cons_of_mem _ hb)).trans (act_go s a (h a (by simp)))

theorem prog_go (l : List Act) (s : St) (h : ∀ a ∈ l, LocalAct coll a ∨ a = .stop) (hs : .stop ∈ l ∨ s.go = false) : (l.foldl applyAct s).go = false := by
  induction l generalizing s with
  | nil =>
    rcases hs with hs | hs
    · cases hs
    · exact hs
  | cons a l ih =>
    refine ih _ (fun b hb => h b (List.mem_cons_of_mem _ hb)) ?_
    rcases h a (by simp) with ha | rfl
    · rcases hs with hs | hs
      · rcases List.mem_cons.1 hs with rfl | hs
        · exact absurd ha id
        · exact .inl hs
      · exact .inr ((act_go s a ha).trans hs)
    · exact .inr rfl

/-! ### During a tick -/

/-- What is left to do in the tick. -/
def St.left (s : St) : List Ev := if s.phase = .running then s.grp.plan else []

/-- `tr0` is the history before the tick, `P0` what the tick runs, `Q0` what is pending after it, `b0` whether it stops the runner. -/
structure InTick (coll : Nat → Bool) (halt : Nat → Int → Bool) (ok : Prop) (e : Env) (tr0 : List Obs) (P0 Q0 : List Ev) (b0 : Bool) (E0 : List (Nat × Nat)) (t : St) : Prop where
  ph : t.phase = .running ∨ t.phase = .idle
  ginv : GInv t
  inv : Inv e none t
  pinv : PInv t
  prio : PrioInv t
  tok : ok → TOk t.trace
  voided : t.voided = []
  tr : ∃ tl, t.trace = tr0 ++ tl ∧ ranU coll tl ++ t.left.filter (isU coll) = P0 ∧ ∀ o ∈ tl, ∀ i l, o ≠ .ranEnd i l
  queue : (t.queue.filter (isC coll) ++ (t.left.filter (isC coll)).filterMap (nextOf e)).Perm Q0
  go : (t.go = true ∧ t.left.any (isStop coll halt) = b0) ∨ (t.go = false ∧ b0 = true)
  ends : t.endEvts.filter (fun p => coll p.2) = E0
  sync : t.phase = .idle → Synced t

theorem all_plan (g : Group) (h : g.random = []) : g.all.Perm (g.plan ++ g.added) := by
  unfold Group.all Group.plan
  rw [h]
  rw [List.perm_iff_count]
  intro a
  simp only [List.count_append, List.count_nil]
  omega

/-- Adding events that are not collective leaves the collective ones in the plan. -/
theorem post_plan (e : Env) (s : St) (hr : s.grp.random = []) (ha : s.grp.added.filter (isC coll) = []) (hi : s.grp.interrupted = false → s.grp.added = []) :
    ((post e s).grp.plan.filter (isC coll)).Perm (s.grp.plan.filter (isC coll)) := by
  unfold post
  split
  · have h1 := (addDuring_all e s).filter (isC coll)
    have h2 := (all_plan s.grp hr).filter (isC coll)
    have hr' : (addDuring e s).grp.random = [] := by
      unfold addDuring; simp only []; rw [sort_random]
    have ha' : (addDuring e s).grp.added = [] := rfl
    have h3 := (all_plan (addDuring e s).grp hr').filter (isC coll)
    rw [ha', List.append_nil] at h3
    rw [List.filter_append, ha, List.append_nil] at h2
    exact h3.symm.trans (h1.trans h2)
  · exact List.Perm.refl _

theorem filter_U (l : List Ev) : (l.filter (isC coll)).filter (isU coll) = l.filter (isU coll) := by
  rw [List.filter_filter]
  congr 1
  funext x
  rw [isC_eq (halt := fun _ _ => false)]
  cases isU coll x <;> simp

theorem any_stop {l l' : List Ev} (h : (l.filter (isC coll)).Perm (l'.filter (isC coll))) : l.any (isStop coll halt) = l'.any (isStop coll halt) := by
  have : ∀ l : List Ev, l.any (isStop coll halt) = (l.filter (isC coll)).any (isStop coll halt) := by
    intro l
    rw [List.any_filter]
    congr 1
    funext x
    rw [isC_eq (halt := halt)]
    cases isStop coll halt x <;> simp
  rw [this l, this l', Bool.eq_iff_iff, List.any_eq_true, List.any_eq_true]
  exact ⟨fun ⟨x, hx, hs⟩ => ⟨x, h.mem_iff.1 hx, hs⟩, fun ⟨x, hx, hs⟩ => ⟨x, h.mem_iff.2 hx, hs⟩⟩

structure RunOne (coll : Nat → Bool) (halt : Nat → Int → Bool) (e : Env) (s : St) (ev : Ev) (r : St) : Prop where
  queue : (r.queue.filter (isC coll)).Perm (s.queue.filter (isC coll) ++ ([ev].filter (isC coll)).filterMap (nextOf e))
  voided : r.voided = []
  go : r.go = (s.go && !isStop coll halt ev)
  ends : r.endEvts.filter (fun p => coll p.2) = s.endEvts.filter (fun p => coll p.2)
  phase : r.phase = s.phase
  tr : ∃ tl, r.trace = (s.trace ++ [.ran ev s.tick]) ++ tl ∧ ∀ o ∈ tl, (∀ ev now, o ≠ .ran ev now) ∧ ∀ i l, o ≠ .ranEnd i l
  added : r.grp.added.filter (isC coll) = []

theorem callEv_quiet (e : Env) (hq : Quiet coll halt e) (s : St) (ev : Ev) (hv : s.voided = []) (hx : s.grp.executing = true) (ha : s.grp.added = []) :
    (callEv e s ev).queue.filter (isC coll) = s.queue.filter (isC coll) ∧ (callEv e s ev).voided = [] ∧ (callEv e s ev).go = (s.go && !isStop coll halt ev) ∧
    (callEv e s ev).endEvts.filter (fun p => coll p.2) = s.endEvts.filter (fun p => coll p.2) ∧ (callEv e s ev).phase = s.phase ∧
    (∃ tl, (callEv e s ev).trace = (s.trace ++ [.ran ev s.tick]) ++ tl ∧ ∀ o ∈ tl, (∀ ev now, o ≠ .ran ev now) ∧ ∀ i l, o ≠ .ranEnd i l) ∧
    (callEv e s ev).grp.added.filter (isC coll) = [] := by
  unfold callEv
  rw [if_neg (by simp [hv])]
  simp only []
  split
  · rename_i hc
    have : isStop coll halt ev = true := by unfold isStop; rw [hc]
    exact ⟨rfl, hv, by simp [applyAct, this], rfl, rfl, ⟨_, rfl, by simp⟩, by simp [applyAct, ha]⟩
  · rename_i l hc
    have hp := hq.prog (s.trace ++ [.ran ev s.tick]) ev
    have k := kept_prog (coll := coll) (e.prog (s.trace ++ [.ran ev s.tick]) ev) { s with trace := s.trace ++ [.ran ev s.tick] } (fun a ha => (hp a ha).imp_right And.left)
    have hgo : ((e.prog (s.trace ++ [.ran ev s.tick]) ev).foldl applyAct { s with trace := s.trace ++ [.ran ev s.tick] }).go = (s.go && !isStop coll halt ev) := by
      cases hs : isStop coll halt ev with
      | false =>
        rw [acts_go (coll := coll) _ _ fun a ha => (hp a ha).resolve_right fun h => by rw [hs] at h; exact absurd h.2 (by simp)]
        simp
      | true =>
        rw [prog_go (coll := coll) _ _ (fun a ha => (hp a ha).imp_right And.left) (.inl ((hq.stops _ ev hs).resolve_right fun h => by rw [hc] at h; cases h))]
        simp
    refine ⟨k.queue, k.voided.trans hv, hgo, k.ends, k.phase, k.tr, ?_⟩
    rw [(k.added hx).2, ha]; rfl

theorem runEv_quiet (e : Env) (hq : Quiet coll halt e) (s : St) (ev : Ev) (hv : s.voided = []) (hx : s.grp.executing = true) (ha : s.grp.added = []) :
    RunOne coll halt e s ev (runEv e s ev) := by
  obtain ⟨h1, h2, h3, h4, h5, h6, h7⟩ := callEv_quiet e hq { s with grp := { s.grp with size := s.grp.size - 1 } } ev hv hx ha
  unfold runEv
  simp only []
  generalize callEv e { s with grp := { s.grp with size := s.grp.size - 1 } } ev = c at *
  unfold rescheduleEv
  split
  · rename_i hi
    refine ⟨?_, h2, h3, h4, h5, h6, h7⟩
    have : ([ev].filter (isC coll)).filterMap (nextOf e) = [] := by
      rw [List.filterMap_eq_nil_iff]
      intro x hx
      have := List.mem_singleton.1 (List.mem_filter.1 hx).1
      rw [this, nextOf, hi]; rfl
    rw [this, List.append_nil, h1]
  · rename_i i hi
    rw [if_neg (by simp [h2])]
    refine ⟨?_, h2, h3, h4, h5, h6, h7⟩
    have h1 : c.queue.filter (isC coll) = s.queue.filter (isC coll) := h1
    cases hc : isC coll ev with
    | false =>
      rw [List.filter_cons_of_neg (by simp [hc])]
      show ((qinsert _ c.queue).filter _).Perm _
      rw [qinsert_filter _ _ _ (by exact hc), h1]
      simp
    | true =>
      rw [List.filter_cons_of_pos hc]
      have h := (qinsert_perm { ev with at_ := e.adv ev.at_ i } c.queue).filter (isC coll)
      rw [List.filter_cons_of_pos (by exact hc), h1] at h
      refine h.trans ?_
      simp only [List.filter_nil, List.filterMap_cons, List.filterMap_nil, nextOf, hi, Option.map_some]
      exact List.perm_append_comm (l₁ := [_])

theorem post_voided (e : Env) (s : St) : (post e s).voided = s.voided := by unfold post; split <;> rfl
theorem post_go (e : Env) (s : St) : (post e s).go = s.go := by unfold post; split <;> rfl
theorem post_ends (e : Env) (s : St) : (post e s).endEvts = s.endEvts := by unfold post; split <;> rfl
theorem post_phase (e : Env) (s : St) : (post e s).phase = s.phase := by unfold post; split <;> rfl
theorem post_tr (e : Env) (s : St) : (post e s).trace = s.trace := by unfold post; split <;> rfl

theorem InTick.step {e : Env} {tr0 : List Obs} {P0 Q0 : List Ev} {b0 : Bool} {E0 : List (Nat × Nat)} {ok : Prop} (hq : Quiet coll halt e) (ho : ok → Disciplined e) (hone : OneMiddle ok P0) {s t : St} (hr : s.phase = .running) (hm : MStep e s t)
    (h : InTick coll halt ok e tr0 P0 Q0 b0 E0 s) : InTick coll halt ok e tr0 P0 Q0 b0 E0 t := by
  have hg' := h.ginv.step hm
  have hi' := h.inv.step h.ginv hm
  have hp' := h.pinv.step h.ginv hm
  have hpr' := h.prio.step h.ginv h.inv hi' h.pinv hm
  cases hm with
  | act a hp => rw [hr] at hp; cases hp
  | enter hp => rw [hr] at hp; cases hp
  | skip hp => rw [hr] at hp; cases hp
  | leave hp => rw [hr] at hp; cases hp
  | endDone i hp => rw [hr] at hp; cases hp
  | endSkip i id l hp => rw [hr] at hp; cases hp
  | endRun i id l hp => rw [hr] at hp; cases hp
  | exec hp => exact ⟨h.ph, hg', hi', hp', hpr', h.tok, h.voided, h.tr, h.queue, h.go, h.ends, fun hc => by rw [hr] at hc; cases hc⟩
  | unexec hp => exact ⟨h.ph, hg', hi', hp', hpr', h.tok, h.voided, h.tr, h.queue, h.go, h.ends, fun hc => by rw [hr] at hc; cases hc⟩
  | finish _ hz hx =>
    obtain ⟨r1, r2, r3, r4⟩ := h.ginv.run hr
    have hl : s.left = [] := by
      unfold St.left
      rw [if_pos hr]
      unfold Group.plan
      have h1 : s.grp.first.length = 0 := by omega
      have h2 : s.grp.prioritized.length = 0 := by omega
      have h3 : s.grp.last.length = 0 := by omega
      rw [List.length_eq_zero_iff] at h1 h2 h3
      rw [h1, h2, h3]; rfl
    have hl' : St.left { s with phase := .idle, nextTick := schedNextTick s } = [] := by simp [St.left]
    exact ⟨.inr rfl, hg', hi', hp', hpr', h.tok, h.voided, by rw [hl', ← hl]; exact h.tr, by rw [hl', ← hl]; exact h.queue, by rw [hl', ← hl]; exact h.go, h.ends, fun _ => rfl⟩
  | event w ev rest hp hx hn =>
    obtain ⟨r1, r2, r3, r4⟩ := h.ginv.run hr
    have hplan := hn.plan
    have one := runEv_quiet e hq { s with grp := s.grp.set rest w } ev h.voided (by simp [set_executing, hx]) (by simp [set_added, r2])
    have same := runEv_same e { s with grp := s.grp.set rest w } ev (by simp [set_executing, hx])
    generalize hr1 : runEv e { s with grp := s.grp.set rest w } ev = r at *
    have hrp : r.grp.plan = (s.grp.set rest w).plan := by
      unfold Group.plan
      rw [same.first, same.prioritized, same.last]
    have hperm := post_plan (coll := coll) e r (by rw [same.random]; simp [set_random, r1]) one.added (fun hi => same.added (by simp [set_added, r2]) hi)
    rw [hrp] at hperm
    have hph : (post e r).phase = .running := by rw [post_phase, one.phase]; exact hr
    have hleft : s.left = ev :: (s.grp.set rest w).plan := by rw [St.left, if_pos hr, hplan]
    have hleft' : (post e r).left = (post e r).grp.plan := by rw [St.left, if_pos hph]
    obtain ⟨tl, t1, t2, t3⟩ := h.tr
    obtain ⟨tl', u1, u2⟩ := one.tr
    have htok : ok → TOk (post e r).trace := fun hk => by
      rw [post_tr, ← hr1]
      exact TOk.run (ho hk) (s := { s with grp := s.grp.set rest w }) (h.tok hk) ev
    have hU : ((post e r).grp.plan.filter (isU coll)) = (s.grp.set rest w).plan.filter (isU coll) := by
      have hcls := plan_tick h.inv h.pinv h.prio h.tok hr
      rw [hplan, List.pairwise_cons] at hcls
      symm
      refine tickOrder_eq ?_ (hcls.2.filter _) ((plan_tick hi' hp' hpr' htok hph).filter _) ?_
      · have := hperm.symm.filter (isU coll)
        rwa [filter_U, filter_U] at this
      · have hsub : ∀ x ∈ (s.grp.set rest w).plan.filter (isU coll), x ∈ P0 := by
          intro x hx
          rw [← t2, hleft]
          refine List.mem_append_right _ ?_
          rw [List.mem_filter] at hx ⊢
          exact ⟨List.mem_cons_of_mem _ hx.1, hx.2⟩
        exact fun a ha b hb => hone a (hsub a ha) b (hsub b hb)
    refine ⟨.inl hph, hg', hi', hp', hpr', htok, by rw [post_voided]; exact one.voided, ?_, ?_, ?_, ?_, fun hc => by rw [hph] at hc; cases hc⟩
    · refine ⟨tl ++ ([.ran ev s.tick] ++ tl'), ?_, ?_, ?_⟩
      · rw [post_tr, u1]; show (s.trace ++ _) ++ _ = _; rw [t1]; simp
      · rw [ranU_append, ranU_append, ranU_nil (fun o ho => (u2 o ho).1), List.append_nil, hleft', hU, ← t2, hleft, List.append_assoc]
        congr 1
        simp only [ranU, List.filterMap_cons, List.filterMap_nil, List.filter_cons]
        split
        · rename_i hc; rw [if_neg (by intro h; rw [h] at hc; simp at hc)]; rfl
        · rename_i b hc
          split at hc
          · rename_i hu; rw [if_pos hu]; cases hc; rfl
          · cases hc
      · intro o ho
        rcases List.mem_append.1 ho with ho | ho
        · exact t3 o ho
        · rcases List.mem_append.1 ho with ho | ho
          · rw [List.mem_singleton.1 ho]; intro i l h; cases h
          · exact (u2 o ho).2
    · rw [post_queue, hleft']
      refine List.Perm.trans ?_ h.queue
      rw [hleft]
      have e1 : ((ev :: (s.grp.set rest w).plan).filter (isC coll)).filterMap (nextOf e) = ([ev].filter (isC coll)).filterMap (nextOf e) ++ ((s.grp.set rest w).plan.filter (isC coll)).filterMap (nextOf e) := by
        rw [← List.filterMap_append, ← List.filter_append]; rfl
      rw [e1, ← List.append_assoc]
      exact one.queue.append (hperm.filterMap _)
    · rw [post_go, one.go, hleft', any_stop hperm]
      show ((s.go && _) = true ∧ _) ∨ _
      have := h.go
      rw [hleft, List.any_cons] at this
      cases hst : isStop coll halt ev <;> rw [hst] at this <;> rcases this with ⟨h1, h2⟩ | ⟨h1, h2⟩ <;> simp_all
    · rw [post_ends, one.ends]; exact h.ends

/-! ### A whole tick -/

/-- A rank between two ticks. -/
structure Idle (ok : Prop) (e : Env) (s : St) : Prop where
  ph : s.phase = .idle
  ginv : GInv s
  inv : Inv e none s
  pinv : PInv s
  prio : PrioInv s
  tok : ok → TOk s.trace
  voided : s.voided = []
  sync : Synced s

/-- The events that are due at tick `m`. -/
def due (m : Int) (l : List Ev) : List Ev := l.filter fun x => decide (x.at_ = m)

/-- The events that are not due at tick `m`. -/
def later (m : Int) (l : List Ev) : List Ev := l.filter fun x => !decide (x.at_ = m)

/-- What a round of the loop of `execute` with the result `m` of the reduction does to the collective part of a rank. -/
structure Ticked (coll : Nat → Bool) (halt : Nat → Int → Bool) (ok : Prop) (e : Env) (m : Int) (s s' : St) : Prop where
  idle : Idle ok e s'
  order : (ranU coll (s'.trace.drop s.trace.length)).Pairwise (TickOrder ok)
  ran : (ranU coll (s'.trace.drop s.trace.length)).Perm ((due m s.queue).filter (isU coll))
  noEnd : ∀ o ∈ s'.trace.drop s.trace.length, ∀ i l, o ≠ .ranEnd i l
  queue : (s'.queue.filter (isC coll)).Perm ((later m s.queue).filter (isC coll) ++ ((due m s.queue).filter (isC coll)).filterMap (nextOf e))
  go : s'.go = !(due m s.queue).any (isStop coll halt)
  ends : s'.endEvts.filter (fun p => coll p.2) = s.endEvts.filter (fun p => coll p.2)

theorem takeWhile_due {m : Int} {l : List Ev} (hs : Sorted l) (hle : ∀ x ∈ l, m ≤ x.at_) : l.takeWhile (fun x => decide (x.at_ = m)) = due m l ∧ l.dropWhile (fun x => decide (x.at_ = m)) = later m l := by
  induction l with
  | nil => exact ⟨rfl, rfl⟩
  | cons a l ih =>
    have ih := ih (List.pairwise_cons.1 hs).2 fun x hx => hle x (List.mem_cons_of_mem _ hx)
    by_cases ha : a.at_ = m
    · rw [due, later, List.takeWhile_cons_of_pos (by simp [ha]), List.dropWhile_cons_of_pos (by simp [ha]), List.filter_cons_of_pos (by simp [ha]), List.filter_cons_of_neg (by simp [ha])]
      exact ⟨congrArg _ ih.1, ih.2⟩
    · have hlt : ∀ x ∈ a :: l, x.at_ ≠ m := by
        intro x hx
        have h1 := hle a (by simp)
        rcases List.mem_cons.1 hx with rfl | hx
        · exact ha
        · have := sorted_head_le hs x hx
          omega
      rw [List.takeWhile_cons_of_neg (by simp [ha]), List.dropWhile_cons_of_neg (by simp [ha])]
      refine ⟨(List.filter_eq_nil_iff.2 ?_).symm, (List.filter_eq_self.2 ?_).symm⟩
      · intro x hx; simpa using hlt x hx
      · intro x hx; simpa using hlt x hx

theorem finishTick_ind {finish : Nat → St → Option St} {e : Env} (hz : ∀ s, finish 0 s = none)
    (hsucc : ∀ f s, finish (f + 1) s = if s.phase = .running then finish f (step e s .loop) else some s) (P : St → Prop) (hg : ∀ s, P s → GInv s) (hP : ∀ s t, s.phase = .running → MStep e s t → P s → P t) :
    ∀ (f : Nat) (s s' : St), finish f s = some s' → OpInv s → P s → P s' ∧ s'.phase ≠ .running := by
  intro f
  induction f with
  | zero => intro s s' h; rw [hz] at h; cases h
  | succ f ih =>
    intro s s' h ho hs
    rw [hsucc] at h
    split at h
    · rename_i hr
      exact ih _ _ h (step_reach e s .loop (hg s hs) ho).2 (loop_ind e P hP s (hg s hs) ho hr hs)
    · rename_i hr
      cases h
      exact ⟨hs, hr⟩

end Repast.Schedule
