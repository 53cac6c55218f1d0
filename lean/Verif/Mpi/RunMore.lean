import Verif.Mpi.RunSetup

/-! C74: ranks whose collective events schedule more collective events, alike on all ranks. One rank. -/
namespace Repast.Mpi.Run
open Repast.Schedule

variable {coll : Nat → Bool} {ok : Prop}

/-! ### Specification -/

def isStopAct : Act → Bool
  | .stop => true
  | _ => false

/-- A call that all ranks make together: it schedules a collective event, a collective end event or a stop, or it stops the runner. -/
def isJoint (coll : Nat → Bool) (a : Act) : Bool := isCollAct coll a || isStopAct a

/-- What is scheduled is for later than the tick `now`. -/
def Future (now : Int) : Act → Prop
  | .sched t _ _ _ _ _ => ∃ u, t = some u ∧ now < u
  | .schedStop t => ∃ u, t = some u ∧ now < u
  | _ => True

/-- What is scheduled is FIRST, LAST, or has a priority. -/
def Placed : Act → Prop
  | .sched _ p q _ _ _ => p = .first ∨ p = .last ∨ (p = .byPriority ∧ q.isSome)
  | _ => True

/-- The collective callable `l` makes the calls `more l now` at the tick `now`, and others of its rank; the other callables only make calls of their rank. Nothing is voided. -/
structure Joint (coll : Nat → Bool) (more : Nat → Int → List Act) (e : Env) : Prop where
  prog : ∀ tr ev now l, ev.cb = .user l → (e.prog (tr ++ [.ran ev now]) ev).filter (isJoint coll) = if coll l then more l now else []
  void : ∀ tr ev i, .void i ∉ e.prog tr ev
  later : ∀ l now, ∀ a ∈ more l now, Future now a
  endProg : ∀ tr l, ∀ a ∈ e.endProg tr l, LocalAct coll a

/-! ### What all ranks have in common -/

/-- The pending collective events, the next order index among them, and the collective end events. -/
structure Board where
  K : List Ev
  c : Nat
  E : List Nat

def Board.act (b : Board) : Act → Board
  | .sched (some t) p q i l _ => { b with K := { id := 0, at_ := t, ord := b.c, ptype := p, prio := q, interval := i, cb := .user l, tag := none } :: b.K, c := b.c + 1 }
  | .schedStop (some t) => { b with K := { id := 0, at_ := t, ord := b.c, ptype := .random, prio := none, interval := none, cb := .stop, tag := none } :: b.K, c := b.c + 1 }
  | .schedEnd l => { b with E := b.E ++ [l] }
  | _ => b

def callsOf (more : Nat → Int → List Act) (x : Ev) : List Act := match x.cb with
  | .user l => more l x.at_
  | .stop => []

/-- A collective event runs. -/
def Board.run (e : Env) (more : Nat → Int → List Act) (b : Board) (x : Ev) : Board :=
  let b := (callsOf more x).foldl Board.act b
  { b with K := (nextOf e x).toList ++ b.K }

/-- The rank `s` has the events of the board in its queue; `L` are those that are left of its tick. -/
structure DR (coll : Nat → Bool) (ix : Nat → Nat) (b : Board) (L : List Ev) (s : St) : Prop where
  perm : ((s.queue.filter (isC coll)).map (norm ix)).Perm b.K
  bound : ∀ x ∈ s.queue.filter (isC coll) ++ L, x.ord < s.counter ∧ ix x.ord < b.c
  mono : ∀ x ∈ s.queue.filter (isC coll) ++ L, ∀ y ∈ s.queue.filter (isC coll) ++ L, x.ord < y.ord → ix x.ord < ix y.ord
  once : ∀ x ∈ s.queue.filter (isC coll) ++ L, x.cb = .stop → x.interval = none
  ends : endsOf coll s = b.E

/-- What calls of events leave alone. -/
structure Stays (coll : Nat → Bool) (s t : St) : Prop where
  voided : t.voided = s.voided
  tick : t.tick = s.tick
  phase : t.phase = s.phase
  counter : s.counter ≤ t.counter
  tr : ∃ tl, t.trace = s.trace ++ tl ∧ ∀ o ∈ tl, (∀ ev now, o ≠ .ran ev now) ∧ ∀ i l, o ≠ .ranEnd i l
  added : s.grp.executing = true → t.grp.executing = true ∧ t.grp.added.filter (isC coll) = s.grp.added.filter (isC coll)

theorem Stays.refl (s : St) : Stays coll s s := ⟨rfl, rfl, rfl, Nat.le_refl _, ⟨[], by simp, by simp⟩, fun h => ⟨h, rfl⟩⟩

theorem Stays.trans {a b c : St} (h1 : Stays coll a b) (h2 : Stays coll b c) : Stays coll a c := by
  obtain ⟨t1, e1, q1⟩ := h1.tr
  obtain ⟨t2, e2, q2⟩ := h2.tr
  refine ⟨h2.voided.trans h1.voided, h2.tick.trans h1.tick, h2.phase.trans h1.phase, Nat.le_trans h1.counter h2.counter, ⟨t1 ++ t2, by rw [e2, e1, List.append_assoc], ?_⟩, fun hx => ?_⟩
  · intro o ho
    rcases List.mem_append.1 ho with ho | ho
    · exact q1 o ho
    · exact q2 o ho
  · obtain ⟨x1, a1⟩ := h1.added hx
    obtain ⟨x2, a2⟩ := h2.added x1
    exact ⟨x2, a2.trans a1⟩

theorem DR.local {ix : Nat → Nat} {b : Board} {L : List Ev} {s : St} (h : DR coll ix b L s) {a : Act} (ha : LocalAct coll a) : DR coll ix b L (applyAct s a) ∧ Stays coll s (applyAct s a) := by
  have k := kept_act (coll := coll) s a ha
  refine ⟨⟨by rw [k.queue]; exact h.perm, ?_, by rw [k.queue]; exact h.mono, by rw [k.queue]; exact h.once, by rw [endsOf, k.ends]; exact h.ends⟩, k.voided, k.tick, k.phase, act_counter s a, k.tr, k.added⟩
  rw [k.queue]
  intro x hx
  have := h.bound x hx
  have := act_counter s a
  omega

theorem DR.push {ix : Nat → Nat} {b : Board} {L : List Ev} {s : St} (h : DR coll ix b L s) (t : Int) (ht : s.tick < t) (p q i) (c : Cb) (g) (hc : (match c with | .user l => coll l | .stop => true) = true)
    (ho : c = .stop → i = none) :
    (∃ ix', (∀ o < s.counter, ix' o = ix o) ∧ DR coll ix' { b with K := { id := 0, at_ := t, ord := b.c, ptype := p, prio := q, interval := i, cb := c, tag := none } :: b.K, c := b.c + 1 } L (pushEvent s (some t) p q i c g)) ∧
    Stays coll s (pushEvent s (some t) p q i c g) := by
  have hpush : pushEvent s (some t) p q i c g = { s with counter := s.counter + 1, lastCount := s.counter, nextId := s.nextId + 1, queue := qinsert { id := s.nextId, at_ := t, ord := s.counter, ptype := p, prio := q, interval := i, cb := c, tag := g } s.queue, trace := s.trace ++ [Obs.sched { id := s.nextId, at_ := t, ord := s.counter, ptype := p, prio := q, interval := i, cb := c, tag := g } s.tick s.grp.executing] } := by
    unfold pushEvent
    simp only []
    rw [if_pos (by omega), if_neg (by omega)]
  rw [hpush]
  refine ⟨?_, rfl, rfl, rfl, Nat.le_succ _, ⟨_, rfl, by simp⟩, fun h => ⟨h, rfl⟩⟩
  generalize hev : ({ id := s.nextId, at_ := t, ord := s.counter, ptype := p, prio := q, interval := i, cb := c, tag := g } : Ev) = ev
  have hord : ev.ord = s.counter := by rw [← hev]
  have hec : isC coll ev = true := by rw [← hev]; exact hc
  let ix' : Nat → Nat := fun o => if o = s.counter then b.c else ix o
  have hold : ∀ o < s.counter, ix' o = ix o := fun o ho => by simp only [ix']; rw [if_neg (by omega)]
  have hnew : ix' ev.ord = b.c := by simp only [ix']; rw [if_pos hord]
  have hp1 := (qinsert_perm ev s.queue).filter (isC coll)
  rw [List.filter_cons_of_pos hec] at hp1
  have hmem : ∀ x, x ∈ (qinsert ev s.queue).filter (isC coll) ++ L ↔ x = ev ∨ x ∈ s.queue.filter (isC coll) ++ L := by
    intro x
    rw [List.mem_append, List.mem_append, hp1.mem_iff, List.mem_cons, or_assoc]
  refine ⟨ix', hold, ⟨?_, ?_, ?_, ?_, h.ends⟩⟩
  · refine (hp1.map _).trans ?_
    rw [List.map_cons]
    have e1 : norm ix' ev = { id := 0, at_ := t, ord := b.c, ptype := p, prio := q, interval := i, cb := c, tag := none } := by
      unfold norm
      rw [hnew, ← hev]
    have e2 : (s.queue.filter (isC coll)).map (norm ix') = (s.queue.filter (isC coll)).map (norm ix) :=
      List.map_congr_left fun x hx => by simp only [norm]; rw [hold _ (h.bound x (List.mem_append_left _ hx)).1]
    rw [e1, e2]
    exact h.perm.cons _
  · intro x hx
    show x.ord < s.counter + 1 ∧ ix' x.ord < b.c + 1
    rcases (hmem x).1 hx with rfl | hx
    · rw [hnew, hord]; omega
    · have := h.bound x hx
      rw [hold _ this.1]; omega
  · intro x hx y hy hxy
    rcases (hmem x).1 hx with hx' | hx' <;> rcases (hmem y).1 hy with hy' | hy'
    · rw [hx', hy'] at hxy; omega
    · have := (h.bound y hy').1
      rw [hx'] at hxy
      omega
    · rw [hold _ (h.bound x hx').1, hy', hnew]
      exact (h.bound x hx').2
    · rw [hold _ (h.bound x hx').1, hold _ (h.bound y hy').1]; exact h.mono x hx' y hy' hxy
  · intro x hx hs
    rcases (hmem x).1 hx with rfl | hx
    · rw [← hev] at hs ⊢; exact ho hs
    · exact h.once x hx hs

theorem DR.joint {ix : Nat → Nat} {b : Board} {L : List Ev} {s : St} (h : DR coll ix b L s) {a : Act} (ha : isJoint coll a = true) (hf : Future s.tick a) :
    (∃ ix', (∀ o < s.counter, ix' o = ix o) ∧ DR coll ix' (b.act a) L (applyAct s a)) ∧ Stays coll s (applyAct s a) := by
  cases a with
  | sched t p q i l g =>
    obtain ⟨u, rfl, hu⟩ := hf
    obtain ⟨⟨ix', h1, h2⟩, h3⟩ := h.push u hu p q i (.user l) g (by simpa [isJoint, isCollAct, isStopAct] using ha) (by intro h; cases h)
    exact ⟨⟨ix', h1, h2.perm, h2.bound, h2.mono, h2.once, h2.ends⟩, h3.voided, h3.tick, h3.phase, h3.counter, h3.tr, h3.added⟩
  | schedStop t =>
    obtain ⟨u, rfl, hu⟩ := hf
    exact h.push u hu .random none none .stop none rfl (fun _ => rfl)
  | schedEnd l =>
    have hl : coll l = true := by simpa [isJoint, isCollAct, isStopAct] using ha
    refine ⟨⟨ix, fun _ _ => rfl, h.perm, h.bound, h.mono, h.once, ?_⟩, rfl, rfl, rfl, Nat.le_refl _, ⟨_, rfl, by simp⟩, fun h => ⟨h, rfl⟩⟩
    have := h.ends
    simp only [endsOf, applyAct, List.filter_append, List.map_append, Board.act] at this ⊢
    rw [this]
    simp [hl]
  | void => cases ha
  | stop => exact ⟨⟨ix, fun _ _ => rfl, h.perm, h.bound, h.mono, h.once, h.ends⟩, rfl, rfl, rfl, Nat.le_refl _, ⟨_, rfl, by simp⟩, fun h => ⟨h, rfl⟩⟩

theorem local_of {a : Act} (h : isJoint coll a = false) (hv : ∀ i, a ≠ .void i) : LocalAct coll a := by
  cases a with
  | sched => simpa [isJoint, isCollAct, isStopAct, LocalAct] using h
  | schedEnd => simpa [isJoint, isCollAct, isStopAct, LocalAct] using h
  | schedStop => simp [isJoint, isCollAct] at h
  | void i => exact absurd rfl (hv i)
  | stop => simp [isJoint, isStopAct] at h

theorem DR.acts {L : List Ev} : ∀ (l : List Act) (ix : Nat → Nat) (b : Board) (s : St), DR coll ix b L s → (∀ i, .void i ∉ l) → (∀ a ∈ l.filter (isJoint coll), Future s.tick a) →
    (∃ ix', (∀ o < s.counter, ix' o = ix o) ∧ DR coll ix' ((l.filter (isJoint coll)).foldl Board.act b) L (l.foldl applyAct s)) ∧ Stays coll s (l.foldl applyAct s) := by
  intro l
  induction l with
  | nil => intro ix b s h _ _; exact ⟨⟨ix, fun _ _ => rfl, h⟩, .refl s⟩
  | cons a l ih =>
    intro ix b s h hv hf
    have hv' : ∀ i, .void i ∉ l := fun i hi => hv i (List.mem_cons_of_mem _ hi)
    cases hj : isJoint coll a with
    | true =>
      rw [List.filter_cons_of_pos hj] at hf ⊢
      obtain ⟨⟨ix1, e1, h1⟩, k1⟩ := h.joint hj (hf a (by simp))
      obtain ⟨⟨ix2, e2, h2⟩, k2⟩ := ih ix1 _ _ h1 hv' (by rw [k1.tick]; exact fun x hx => hf x (List.mem_cons_of_mem _ hx))
      exact ⟨⟨ix2, fun o ho => (e2 o (Nat.lt_of_lt_of_le ho k1.counter)).trans (e1 o ho), h2⟩, k1.trans k2⟩
    | false =>
      rw [List.filter_cons_of_neg (by simp [hj])] at hf ⊢
      obtain ⟨h1, k1⟩ := h.local (local_of hj fun i hi => hv i (by simp [hi]))
      obtain ⟨⟨ix2, e2, h2⟩, k2⟩ := ih ix _ _ h1 hv' (by rw [k1.tick]; exact hf)
      exact ⟨⟨ix2, fun o ho => e2 o (Nat.lt_of_lt_of_le ho k1.counter), h2⟩, k1.trans k2⟩

theorem go_act (s : St) (a : Act) : (applyAct s a).go = (s.go && !isStopAct a) := by
  cases a with
  | sched a p q i l g => simpa [isStopAct, applyAct] using push_go s a p q i (.user l) g
  | schedStop a => simpa [isStopAct, applyAct] using push_go s a .random none none .stop none
  | schedEnd l => simp [applyAct, isStopAct]
  | void => simp [applyAct, isStopAct]
  | stop => simp [applyAct, isStopAct]

theorem go_acts (l : List Act) (s : St) : (l.foldl applyAct s).go = (s.go && !l.any isStopAct) := by
  induction l generalizing s with
  | nil => simp
  | cons a l ih => rw [List.foldl_cons, ih, go_act, List.any_cons, Bool.not_or, Bool.and_assoc]

theorem any_joint (l : List Act) : l.any isStopAct = (l.filter (isJoint coll)).any isStopAct := by
  rw [List.any_filter]
  congr 1
  funext a
  unfold isJoint
  cases isStopAct a <;> simp

/-! ### One event -/

/-- The collective callables that stop the runner. -/
def haltOf (more : Nat → Int → List Act) (l : Nat) (t : Int) : Bool := (more l t).any isStopAct

theorem DR.same {ix : Nat → Nat} {b : Board} {L L' : List Ev} {s t : St} (h : DR coll ix b L s) (hq : t.queue = s.queue) (hc : s.counter ≤ t.counter) (he : t.endEvts = s.endEvts) (hL : ∀ x ∈ L', x ∈ L) :
    DR coll ix b L' t := by
  have hm : ∀ x ∈ t.queue.filter (isC coll) ++ L', x ∈ s.queue.filter (isC coll) ++ L := by
    intro x hx
    rw [hq] at hx
    rcases List.mem_append.1 hx with hx | hx
    · exact List.mem_append_left _ hx
    · exact List.mem_append_right _ (hL x hx)
  refine ⟨by rw [hq]; exact h.perm, fun x hx => ?_, fun x hx y hy => h.mono x (hm x hx) y (hm y hy), fun x hx => h.once x (hm x hx), by rw [endsOf, he]; exact h.ends⟩
  have := h.bound x (hm x hx)
  omega

theorem callEv_joint {more : Nat → Int → List Act} {e : Env} (hj : Joint coll more e) (s : St) (ev : Ev) (hv : s.voided = []) (hat : isU coll ev = true → ev.at_ = s.tick) {ix : Nat → Nat} {b : Board} {L : List Ev}
    (h : DR coll ix b L s) :
    (∃ ix', (∀ o < s.counter, ix' o = ix o) ∧ DR coll ix' (if isU coll ev then (callsOf more ev).foldl Board.act b else b) L (callEv e s ev)) ∧
    Stays coll { s with trace := s.trace ++ [.ran ev s.tick] } (callEv e s ev) ∧ (callEv e s ev).go = (s.go && !isStop coll (haltOf more) ev) := by
  cases hc : ev.cb with
  | stop =>
    have hcall : callEv e s ev = applyAct { s with trace := s.trace ++ [.ran ev s.tick] } .stop := by unfold callEv; rw [if_neg (by simp [hv])]; simp only [hc]
    rw [hcall]
    have h1 : isU coll ev = false := by unfold isU; rw [hc]
    have h2 : isStop coll (haltOf more) ev = true := by unfold isStop; rw [hc]
    rw [h1, h2]
    exact ⟨⟨ix, fun _ _ => rfl, h.same rfl (Nat.le_refl _) rfl fun _ hx => hx⟩, ⟨rfl, rfl, rfl, Nat.le_refl _, ⟨_, rfl, by simp⟩, fun h => ⟨h, rfl⟩⟩, by simp [applyAct]⟩
  | user l =>
    have hcall : callEv e s ev = (e.prog (s.trace ++ [.ran ev s.tick]) ev).foldl applyAct { s with trace := s.trace ++ [.ran ev s.tick] } := by unfold callEv; rw [if_neg (by simp [hv])]; simp only [hc]
    rw [hcall]
    have h1 : isU coll ev = coll l := by unfold isU; rw [hc]
    have hp := hj.prog s.trace ev s.tick l hc
    have h0 : DR coll ix b L { s with trace := s.trace ++ [.ran ev s.tick] } := h.same rfl (Nat.le_refl _) rfl fun _ hx => hx
    obtain ⟨⟨ix', e1, d1⟩, k1⟩ := DR.acts (coll := coll) (e.prog (s.trace ++ [.ran ev s.tick]) ev) ix b _ h0 (hj.void _ _) (by
      rw [hp]
      intro a ha
      split at ha
      · exact hj.later l s.tick a ha
      · cases ha)
    rw [hp] at d1
    have hgo := go_acts (e.prog (s.trace ++ [.ran ev s.tick]) ev) { s with trace := s.trace ++ [.ran ev s.tick] }
    rw [any_joint (coll := coll), hp] at hgo
    refine ⟨⟨ix', e1, ?_⟩, k1, ?_⟩
    · cases hcl : coll l with
      | true =>
        rw [hcl] at h1 d1
        rw [h1, if_pos rfl, callsOf, hc, hat h1]
        exact d1
      | false =>
        rw [hcl] at h1 d1
        rw [h1]
        exact d1
    · rw [hgo]
      congr 2
      unfold isStop
      rw [hc]
      cases hcl : coll l with
      | true => rw [hcl] at h1; simp [haltOf, hat h1, hcl]
      | false => simp [hcl]

structure RunTwo (coll : Nat → Bool) (more : Nat → Int → List Act) (e : Env) (ix : Nat → Nat) (b : Board) (L : List Ev) (s : St) (ev : Ev) (r : St) : Prop where
  rel : ∃ ix', (∀ o < s.counter, ix' o = ix o) ∧ DR coll ix' (if isU coll ev then b.run e more (norm ix ev) else b) L r
  voided : r.voided = []
  go : r.go = (s.go && !isStop coll (haltOf more) ev)
  phase : r.phase = s.phase
  tick : r.tick = s.tick
  counter : s.counter ≤ r.counter
  tr : ∃ tl, r.trace = (s.trace ++ [.ran ev s.tick]) ++ tl ∧ ∀ o ∈ tl, (∀ ev now, o ≠ .ran ev now) ∧ ∀ i l, o ≠ .ranEnd i l
  added : r.grp.added.filter (isC coll) = []

theorem runEv_joint {more : Nat → Int → List Act} {e : Env} (hj : Joint coll more e) (s : St) (ev : Ev) (hv : s.voided = []) (hx : s.grp.executing = true) (ha : s.grp.added = [])
    (hat : isU coll ev = true → ev.at_ = s.tick) {ix : Nat → Nat} {b : Board} {L : List Ev} (h' : DR coll ix b ([ev].filter (isC coll) ++ L) s) : RunTwo coll more e ix b L s ev (runEv e s ev) := by
  obtain ⟨⟨ix', e1, d1⟩, k1, g1⟩ := callEv_joint (L := [ev].filter (isC coll) ++ L) hj { s with grp := { s.grp with size := s.grp.size - 1 } } ev hv hat (h'.same rfl (Nat.le_refl _) rfl fun _ hx => hx)
  have hadd := (k1.added hx).2
  have hadd : (callEv e { s with grp := { s.grp with size := s.grp.size - 1 } } ev).grp.added.filter (isC coll) = [] := by rw [hadd]; show s.grp.added.filter _ = []; rw [ha]; rfl
  unfold runEv
  simp only []
  generalize callEv e { s with grp := { s.grp with size := s.grp.size - 1 } } ev = c at *
  have hvd : c.voided = [] := k1.voided.trans hv
  unfold rescheduleEv
  split
  · rename_i hi
    refine ⟨⟨ix', e1, ?_⟩, hvd, g1, k1.phase, k1.tick, k1.counter, k1.tr, hadd⟩
    have hb : (if isU coll ev then b.run e more (norm ix ev) else b) = if isU coll ev then (callsOf more ev).foldl Board.act b else b := by
      split
      · show Board.mk ((nextOf e (norm ix ev)).toList ++ _) _ _ = _
        have : nextOf e (norm ix ev) = none := by unfold nextOf norm; rw [hi]; rfl
        rw [this]
        rfl
      · rfl
    rw [hb]
    exact d1.same rfl (Nat.le_refl _) rfl fun x hx => List.mem_append_right _ hx
  · rename_i i hi
    rw [if_neg (by simp [hvd])]
    refine ⟨⟨ix', e1, ?_⟩, hvd, g1, k1.phase, k1.tick, k1.counter, k1.tr, hadd⟩
    cases hc : isC coll ev with
    | false =>
      have hu : isU coll ev = false := by
        have := isC_eq (coll := coll) (halt := fun _ _ => false) ev
        rw [hc] at this
        cases hu : isU coll ev with
        | false => rfl
        | true => rw [hu] at this; cases this
      rw [hu] at d1 ⊢
      have hq : (qinsert { ev with at_ := e.adv ev.at_ i } c.queue).filter (isC coll) = c.queue.filter (isC coll) := qinsert_filter _ _ _ hc
      have d2 := d1.same (t := c) (L' := L) rfl (Nat.le_refl _) rfl fun x hx => List.mem_append_right _ hx
      exact ⟨by rw [hq]; exact d2.perm, by rw [hq]; exact d2.bound, by rw [hq]; exact d2.mono, by rw [hq]; exact d2.once, d2.ends⟩
    | true =>
      have hmem0 : ev ∈ s.queue.filter (isC coll) ++ ([ev].filter (isC coll) ++ L) := List.mem_append_right _ (List.mem_append_left _ (by simp [hc]))
      have hmem1 : ev ∈ c.queue.filter (isC coll) ++ ([ev].filter (isC coll) ++ L) := List.mem_append_right _ (List.mem_append_left _ (by simp [hc]))
      have hu : isU coll ev = true := by
        unfold isU
        unfold isC at hc
        split
        · rename_i l h; rw [h] at hc; exact hc
        · rename_i h; have := h'.once ev hmem0 h; rw [hi] at this; cases this
      rw [if_pos hu] at d1 ⊢
      have hb := h'.bound ev hmem0
      have hixe : ix' ev.ord = ix ev.ord := e1 _ hb.1
      have hb1 := d1.bound ev hmem1
      have hnx : (nextOf e (norm ix ev)).toList = [norm ix' { ev with at_ := e.adv ev.at_ i }] := by
        simp [nextOf, norm, hi, hixe]
      have hp1 := (qinsert_perm { ev with at_ := e.adv ev.at_ i } c.queue).filter (isC coll)
      rw [List.filter_cons_of_pos (by exact hc)] at hp1
      have hmem : ∀ x, x ∈ (qinsert { ev with at_ := e.adv ev.at_ i } c.queue).filter (isC coll) ++ L → ∃ y ∈ c.queue.filter (isC coll) ++ ([ev].filter (isC coll) ++ L), y.ord = x.ord ∧ y.cb = x.cb ∧ y.interval = x.interval := by
        intro x hx
        rw [List.mem_append, hp1.mem_iff, List.mem_cons] at hx
        rcases hx with (rfl | hx) | hx
        · exact ⟨ev, hmem1, rfl, rfl, rfl⟩
        · exact ⟨x, List.mem_append_left _ hx, rfl, rfl, rfl⟩
        · exact ⟨x, List.mem_append_right _ (List.mem_append_right _ hx), rfl, rfl, rfl⟩
      refine ⟨?_, ?_, ?_, ?_, d1.ends⟩
      · show (((qinsert { ev with at_ := e.adv ev.at_ i } c.queue).filter (isC coll)).map (norm ix')).Perm ((nextOf e (norm ix ev)).toList ++ ((callsOf more ev).foldl Board.act b).K)
        rw [hnx]
        exact (hp1.map _).trans (d1.perm.cons _)
      · intro x hx
        obtain ⟨y, hy, ho, _⟩ := hmem x hx
        rw [← ho]
        exact d1.bound y hy
      · intro x hx x2 hx2
        obtain ⟨y, hy, ho, _⟩ := hmem x hx
        obtain ⟨y2, hy2, ho2, _⟩ := hmem x2 hx2
        rw [← ho, ← ho2]
        exact d1.mono y hy y2 hy2
      · intro x hx
        obtain ⟨y, hy, _, hcb, hin⟩ := hmem x hx
        rw [← hcb, ← hin]
        exact d1.once y hy

end Repast.Mpi.Run
