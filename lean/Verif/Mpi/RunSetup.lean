import Verif.Mpi.RunRanks

/-! C74: ranks that make the same collective calls before `execute`, and any others. -/
namespace Repast.Mpi.Run
open Repast.Schedule

variable {coll : Nat → Bool} {halt : Nat → Int → Bool} {ok : Prop}

/-! ### Specification -/

/-- A call whose event all ranks take part in: that of a collective callable, or a stop. -/
def isCollAct (coll : Nat → Bool) : Act → Bool
  | .sched _ _ _ _ l _ => coll l
  | .schedEnd l => coll l
  | .schedStop _ => true
  | _ => false

/-- A call that schedules something. -/
def Schedules : Act → Prop
  | .void _ => False
  | .stop => False
  | _ => True

/-- The tick of the `k`-th occurrence of the event of a call, if it has one. -/
def actOcc (adv : Int → Int → Int) : Act → Nat → Option Int
  | .sched (some t) _ _ _ _ _, 0 => some t
  | .sched (some t) p q (some i) l g, k + 1 => (actOcc adv (.sched (some t) p q (some i) l g) k).map fun u => adv u i
  | _, _ => none

/-- A call that schedules a collective event that is neither FIRST nor LAST. -/
def MiddleAct (coll : Nat → Bool) : Act → Prop
  | .sched _ p _ _ l _ => coll l = true ∧ p ≠ .first ∧ p ≠ .last
  | _ => False

/-- A call that schedules a BY_PRIORITY event with a priority. -/
def HasPrioAct : Act → Prop
  | .sched _ p q _ _ _ => p = .byPriority ∧ q.isSome
  | _ => False

/-- No two collective events that are neither FIRST nor LAST are ever due at the same tick; or, if `ok`, both have a priority. -/
def Apart (coll : Nat → Bool) (ok : Prop) (adv : Int → Int → Int) (A : List Act) : Prop :=
  A.Pairwise fun a b => MiddleAct coll a → MiddleAct coll b → (ok ∧ HasPrioAct a ∧ HasPrioAct b) ∨ ∀ j k t, actOcc adv a j = some t → actOcc adv b k ≠ some t

/-- The schedule of a rank when it calls `execute`, after the calls `l`. -/
def built (l : List Act) : St := l.foldl applyAct St.init

/-! ### The calls of one rank -/

/-- `s` has been built with the collective calls that have built `s0`, and others. -/
structure SRel (coll : Nat → Bool) (ix : Nat → Nat) (s s0 : St) : Prop where
  perm : ((s.queue.filter (isC coll)).map (norm ix)).Perm ((s0.queue.filter (isC coll)).map (norm id))
  bound : ∀ x ∈ s.queue.filter (isC coll), x.ord < s.counter ∧ ix x.ord < s0.counter
  mono : ∀ a ∈ s.queue.filter (isC coll), ∀ b ∈ s.queue.filter (isC coll), a.ord < b.ord → ix a.ord < ix b.ord
  tick : s.tick = startTick ∧ s0.tick = startTick
  ends : endsOf coll s = endsOf coll s0
  rest : s.voided = [] ∧ s.go = true ∧ s.phase = .idle

theorem push_counter (s : St) (a p q i c g) : s.counter ≤ (pushEvent s a p q i c g).counter := by
  unfold pushEvent; simp only []; split
  · exact Nat.le_refl _
  · split
    · split <;> exact Nat.le_succ _
    · exact Nat.le_refl _

theorem act_counter (s : St) (a : Act) : s.counter ≤ (applyAct s a).counter := by
  cases a <;> simp only [applyAct]
  · exact push_counter _ _ _ _ _ _ _
  · exact push_counter _ _ _ _ _ _ _
  all_goals exact Nat.le_refl _

theorem SRel.local {ix : Nat → Nat} {s s0 : St} (h : SRel coll ix s s0) {a : Act} (ha : LocalAct coll a) : SRel coll ix (applyAct s a) s0 := by
  have k := kept_act (coll := coll) s a ha
  refine ⟨by rw [k.queue]; exact h.perm, ?_, by rw [k.queue]; exact h.mono, ⟨k.tick.trans h.tick.1, h.tick.2⟩, by rw [endsOf, k.ends]; exact h.ends, k.voided.trans h.rest.1, (act_go s a ha).trans h.rest.2.1, k.phase.trans h.rest.2.2⟩
  rw [k.queue]
  intro x hx
  have := h.bound x hx
  have := act_counter s a
  omega

theorem SRel.push {ix : Nat → Nat} {s s0 : St} (h : SRel coll ix s s0) (a p q i) (c : Cb) (g) (hc : (match c with | .user l => coll l | .stop => true) = true) :
    ∃ ix', SRel coll ix' (pushEvent s a p q i c g) (pushEvent s0 a p q i c g) := by
  unfold pushEvent
  simp only []
  cases a with
  | none => exact ⟨ix, h.perm, h.bound, h.mono, h.tick, h.ends, h.rest⟩
  | some t =>
    simp only [h.tick.1, h.tick.2]
    by_cases h1 : startTick ≤ t
    · rw [if_pos h1, if_pos h1]
      by_cases h2 : t = startTick
      · rw [if_pos h2, if_pos h2]
        refine ⟨ix, h.perm, ?_, h.mono, ⟨rfl, rfl⟩, h.ends, h.rest⟩
        intro x hx
        have := h.bound x hx
        exact ⟨Nat.lt_succ_of_lt this.1, Nat.lt_succ_of_lt this.2⟩
      · rw [if_neg h2, if_neg h2]
        let ev : Ev := { id := s.nextId, at_ := t, ord := s.counter, ptype := p, prio := q, interval := i, cb := c, tag := g }
        let ev0 : Ev := { id := s0.nextId, at_ := t, ord := s0.counter, ptype := p, prio := q, interval := i, cb := c, tag := g }
        have hev : isC coll ev = true := hc
        have hev0 : isC coll ev0 = true := hc
        let ix' : Nat → Nat := fun o => if o = s.counter then s0.counter else ix o
        have hix : ∀ x ∈ s.queue.filter (isC coll), ix' x.ord = ix x.ord := by
          intro x hx
          have := (h.bound x hx).1
          simp only [ix']
          rw [if_neg (by omega)]
        have hp1 := (qinsert_perm ev s.queue).filter (isC coll)
        have hp0 := (qinsert_perm ev0 s0.queue).filter (isC coll)
        rw [List.filter_cons_of_pos hev] at hp1
        rw [List.filter_cons_of_pos hev0] at hp0
        refine ⟨ix', ?_, ?_, ?_, ⟨rfl, rfl⟩, h.ends, h.rest⟩
        · refine (hp1.map _).trans (List.Perm.trans ?_ (hp0.map _).symm)
          rw [List.map_cons, List.map_cons]
          have e1 : norm ix' ev = norm id ev0 := by simp [norm, ix', ev, ev0]
          have e2 : (s.queue.filter (isC coll)).map (norm ix') = (s.queue.filter (isC coll)).map (norm ix) := List.map_congr_left fun x hx => by simp [norm, hix x hx]
          rw [e1, e2]
          exact h.perm.cons _
        · intro x hx
          show x.ord < s.counter + 1 ∧ ix' x.ord < s0.counter + 1
          rcases List.mem_cons.1 (hp1.mem_iff.1 hx) with rfl | hx
          · simp [ix', ev]
          · have := h.bound x hx
            rw [hix x hx]; omega
        · intro x hx y hy hxy
          rcases List.mem_cons.1 (hp1.mem_iff.1 hx) with rfl | hx <;> rcases List.mem_cons.1 (hp1.mem_iff.1 hy) with rfl | hy
          · omega
          · have := (h.bound y hy).1
            simp only [ev] at hxy; omega
          · rw [hix x hx]
            have := (h.bound x hx).2
            simp only [ix', ev, if_true]; exact this
          · rw [hix x hx, hix y hy]; exact h.mono x hx y hy hxy
    · rw [if_neg h1, if_neg h1]
      exact ⟨ix, h.perm, h.bound, h.mono, ⟨rfl, rfl⟩, h.ends, h.rest⟩

theorem SRel.collective {ix : Nat → Nat} {s s0 : St} (h : SRel coll ix s s0) {a : Act} (ha : isCollAct coll a = true) : ∃ ix', SRel coll ix' (applyAct s a) (applyAct s0 a) := by
  cases a with
  | sched a p q i l g =>
    obtain ⟨ix', h'⟩ := h.push a p q i (.user l) g ha
    exact ⟨ix', h'.perm, h'.bound, h'.mono, h'.tick, h'.ends, h'.rest⟩
  | schedStop a => exact h.push a .random none none .stop none rfl
  | schedEnd l =>
    have hl : coll l = true := ha
    refine ⟨ix, h.perm, h.bound, h.mono, h.tick, ?_, h.rest⟩
    have := h.ends
    simp only [endsOf, applyAct, List.filter_append, List.map_append] at this ⊢
    rw [this]
    simp [hl]
  | void => cases ha
  | stop => cases ha

theorem SRel.all : ∀ (l : List Act) (ix : Nat → Nat) (s s0 : St), (∀ a ∈ l, Schedules a) → SRel coll ix s s0 → ∃ ix', SRel coll ix' (l.foldl applyAct s) ((l.filter (isCollAct coll)).foldl applyAct s0) := by
  intro l
  induction l with
  | nil => intro ix s s0 _ h; exact ⟨ix, h⟩
  | cons a l ih =>
    intro ix s s0 hl h
    have hl' : ∀ b ∈ l, Schedules b := fun b hb => hl b (List.mem_cons_of_mem _ hb)
    cases hc : isCollAct coll a with
    | true =>
      obtain ⟨ix1, h1⟩ := h.collective hc
      rw [List.filter_cons_of_pos hc]
      exact ih ix1 _ _ hl' h1
    | false =>
      rw [List.filter_cons_of_neg (by simp [hc])]
      refine ih ix _ _ hl' (h.local ?_)
      have := hl a (by simp)
      cases a with
      | sched => exact hc
      | schedEnd => exact hc
      | schedStop => cases hc
      | void => exact this
      | stop => exact this

theorem SRel.init : SRel coll id St.init St.init :=
  ⟨List.Perm.refl _, by simp [St.init], by simp [St.init], ⟨rfl, rfl⟩, rfl, rfl, rfl, rfl⟩

/-! ### The collective calls -/

structure Src (coll : Nat → Bool) (ok : Prop) (e : Env) (dn : List Act) (s : St) : Prop where
  src : ∀ x ∈ s.queue, isU coll x = true → Middle x → ∃ a ∈ dn, MiddleAct coll a ∧ (HasPrioAct a → HasPrio x) ∧ ∀ k, ∃ k', actOcc e.adv a k' = some (occ e x k)
  apart : ∀ x ∈ s.queue, ∀ y ∈ s.queue, isU coll x = true → isU coll y = true → Middle x → Middle y → x ≠ y → (ok ∧ HasPrio x ∧ HasPrio y) ∨ ∀ j k, occ e x j ≠ occ e y k

theorem act_occ (e : Env) (t : Int) (p q i l g) (x : Ev) (h1 : x.at_ = t) (h2 : x.interval = i) : ∀ k, ∃ k', actOcc e.adv (.sched (some t) p q i l g) k' = some (occ e x k) := by
  cases i with
  | none =>
    intro k
    refine ⟨0, ?_⟩
    cases k with
    | zero => rw [actOcc, occ, h1]
    | succ k => rw [actOcc, occ, h2, h1]
  | some i =>
    intro k
    refine ⟨k, ?_⟩
    induction k with
    | zero => rw [actOcc, occ, h1]
    | succ k ih => rw [actOcc, ih, occ, h2]; rfl

theorem Src.weaken {e : Env} {dn : List Act} {s t : St} (h : Src coll ok e dn s) (hq : t.queue = s.queue) (a : Act) : Src coll ok e (dn ++ [a]) t := by
  refine ⟨?_, by rw [hq]; exact h.apart⟩
  rw [hq]
  intro x hx hu hm
  obtain ⟨b, hb, h2⟩ := h.src x hx hu hm
  exact ⟨b, List.mem_append_left _ hb, h2⟩

theorem Src.push {e : Env} {dn : List Act} {s t : St} (h : Src coll ok e dn s) {b : Act} {ev : Ev} (hq : t.queue = qinsert ev s.queue)
    (hev : isU coll ev = true → Middle ev → MiddleAct coll b ∧ (HasPrioAct b → HasPrio ev) ∧ ∀ k, ∃ k', actOcc e.adv b k' = some (occ e ev k))
    (hap : ∀ a ∈ dn, MiddleAct coll a → MiddleAct coll b → (ok ∧ HasPrioAct a ∧ HasPrioAct b) ∨ ∀ j k t, actOcc e.adv a j = some t → actOcc e.adv b k ≠ some t) : Src coll ok e (dn ++ [b]) t := by
  have hmem : ∀ x, x ∈ t.queue ↔ x = ev ∨ x ∈ s.queue := by
    intro x
    rw [hq, (qinsert_perm ev s.queue).mem_iff, List.mem_cons]
  have key : ∀ y ∈ s.queue, isU coll y = true → isU coll ev = true → Middle y → Middle ev → (ok ∧ HasPrio y ∧ HasPrio ev) ∨ ∀ j k, occ e y j ≠ occ e ev k := by
    intro y hy hu hu' hm hm'
    obtain ⟨a, ha, hma, hpa, hao⟩ := h.src y hy hu hm
    obtain ⟨hmb, hpb, hbo⟩ := hev hu' hm'
    rcases hap a ha hma hmb with ⟨hk, h1, h2⟩ | hap
    · exact .inl ⟨hk, hpa h1, hpb h2⟩
    right
    intro j k heq
    obtain ⟨j', hj⟩ := hao j
    obtain ⟨k', hk⟩ := hbo k
    exact hap j' k' _ hj (by rw [heq]; exact hk)
  refine ⟨?_, ?_⟩
  · intro x hx hu hm
    rcases (hmem x).1 hx with rfl | hx
    · exact ⟨b, List.mem_append_right _ (by simp), hev hu hm⟩
    · obtain ⟨a, ha, h2⟩ := h.src x hx hu hm
      exact ⟨a, List.mem_append_left _ ha, h2⟩
  · intro x hx y hy hux huy hmx hmy hne
    rcases (hmem x).1 hx with rfl | hx <;> rcases (hmem y).1 hy with rfl | hy
    · exact absurd rfl hne
    · rcases key y hy huy hux hmy hmx with ⟨hk, h1, h2⟩ | h
      · exact .inl ⟨hk, h2, h1⟩
      · exact .inr fun j k => (h k j).symm
    · exact key x hx hux huy hmx hmy
    · exact h.apart x hx y hy hux huy hmx hmy hne

theorem Src.step {e : Env} {dn : List Act} {s : St} (h : Src coll ok e dn s) (b : Act)
    (hap : ∀ a ∈ dn, MiddleAct coll a → MiddleAct coll b → (ok ∧ HasPrioAct a ∧ HasPrioAct b) ∨ ∀ j k t, actOcc e.adv a j = some t → actOcc e.adv b k ≠ some t) : Src coll ok e (dn ++ [b]) (applyAct s b) := by
  cases b with
  | sched a p q i l g =>
    simp only [applyAct]
    unfold pushEvent
    simp only []
    cases a with
    | none => exact h.weaken (by rfl) _
    | some t =>
      simp only []
      split
      · split
        · exact h.weaken (by rfl) _
        · refine h.push (by rfl) ?_ hap
          intro hu hm
          exact ⟨⟨hu, hm.1, hm.2⟩, fun h => h, act_occ e t p q i l g _ rfl rfl⟩
      · exact h.weaken (by rfl) _
  | schedStop a =>
    simp only [applyAct]
    unfold pushEvent
    simp only []
    cases a with
    | none => exact h.weaken (by rfl) _
    | some t =>
      simp only []
      split
      · split
        · exact h.weaken (by rfl) _
        · refine h.push (by rfl) ?_ hap
          intro hu hm
          cases hu
      · exact h.weaken (by rfl) _
  | schedEnd l => exact h.weaken (by rfl) _
  | void => exact h.weaken (by rfl) _
  | stop => exact h.weaken (by rfl) _

theorem Src.all {e : Env} : ∀ (rest dn : List Act) (s : St), Apart coll ok e.adv (dn ++ rest) → Src coll ok e dn s → Src coll ok e (dn ++ rest) (rest.foldl applyAct s) := by
  intro rest
  induction rest with
  | nil => intro dn s _ h; rw [List.append_nil]; exact h
  | cons b rest ih =>
    intro dn s hA h
    have hA' : Apart coll ok e.adv ((dn ++ [b]) ++ rest) := by rw [List.append_assoc]; exact hA
    have := ih (dn ++ [b]) _ hA' (h.step b fun a ha => (List.pairwise_append.1 hA).2.2 a ha b (by simp))
    rw [List.append_assoc] at this
    exact this

/-- The collective events of the ranks. -/
def commonOf (coll : Nat → Bool) (A : List Act) : List Ev := ((built A).queue.filter (isC coll)).map (norm id)

theorem occ_norm (e : Env) (ix : Nat → Nat) (x : Ev) : ∀ k, occ e (norm ix x) k = occ e x k := by
  intro k
  induction k with
  | zero => rfl
  | succ k ih =>
    rw [occ, occ, ih]
    rfl

theorem apart_common {e : Env} {A : List Act} (h : Apart coll ok e.adv A) : EvApart coll ok e (commonOf coll A) := by
  have hs := Src.all (e := e) (coll := coll) A [] St.init h ⟨by simp [St.init], by simp [St.init]⟩
  intro a ha b hb hua hub hma hmb hne
  obtain ⟨x, hx, rfl⟩ := List.mem_map.1 ha
  obtain ⟨y, hy, rfl⟩ := List.mem_map.1 hb
  simp only [occ_norm]
  exact hs.apart x (List.mem_filter.1 hx).1 y (List.mem_filter.1 hy).1 hua hub hma hmb (fun h => hne (by rw [h]))

/-! ### The ranks when they call `execute` -/

theorem built_run (e : Env) (l : List Act) : built l = run e (l.map .act) := by
  have : ∀ (l : List Act) (s : St), s.phase = .idle → l.foldl applyAct s = (l.map Op.act).foldl (Schedule.step e) s := by
    intro l
    induction l with
    | nil => intro s _; rfl
    | cons a l ih =>
      intro s hs
      simp only [List.foldl_cons, List.map_cons]
      rw [show Schedule.step e s (.act a) = applyAct s a by simp only [Schedule.step, if_pos hs]]
      exact ih _ (by rw [applyAct_phase]; exact hs)
  exact this l St.init rfl

theorem common_start {n : Nat} {e : Nat → Env} {setup : Nat → List Act} {A : List Act} (hs : ∀ i < n, ∀ a ∈ setup i, Schedules a) (hA : ∀ i < n, (setup i).filter (isCollAct coll) = A)
    (hsync : ∀ i < n, Synced (built (setup i))) (hpr : ok → ∀ i < n, ∀ a ∈ setup i, PrioAct a) : ∃ ix, Common coll ok n e ix (commonOf coll A) (commonOf coll A) (endsOf coll (built A)) true (fun i => built (setup i)) := by
  have hx : ∀ i, ∃ ix, i < n → SRel coll ix (built (setup i)) (built A) := by
    intro i
    by_cases hi : i < n
    · obtain ⟨ix, h⟩ := SRel.all (coll := coll) (setup i) id St.init St.init (hs i hi) SRel.init
      rw [hA i hi] at h
      exact ⟨ix, fun _ => h⟩
    · exact ⟨id, fun h => absurd h hi⟩
  refine ⟨fun i => Classical.choose (hx i), ?_⟩
  have hr : ∀ i < n, SRel coll (Classical.choose (hx i)) (built (setup i)) (built A) := fun i hi => Classical.choose_spec (hx i) hi
  refine ⟨fun i hi => ?_, fun i hi => ⟨(hr i hi).perm, (hr i hi).mono⟩, fun i hi => (hr i hi).rest.2.1, fun i hi => (hr i hi).ends, fun x hx => ⟨x, hx, 0, rfl⟩⟩
  have hrun := built_run (e i) (setup i)
  refine ⟨(hr i hi).rest.2.2, ?_, ?_, ?_, .other (by rw [(hr i hi).rest.2.2]; simp), fun hk => TOk.acts (setup i) (s := St.init) (by intro _ _ _ h; cases h) (hpr hk i hi) (fun h => by cases h), (hr i hi).rest.1,
    hsync i hi⟩ <;> rw [hrun]
  · exact run_ginv _ _
  · exact run_inv _ _
  · exact (run_full _ _).pinv

/-- Ranks that make the same collective calls, and any others of their own, take part in the same collective operations. -/
theorem aligned_setup {n : Nat} (hn : 0 < n) {e : Nat → Env} {setup : Nat → List Act} {A : List Act} (hadv : ∀ i < n, (e i).adv = (e 0).adv) (hq : ∀ i < n, Quiet coll halt (e i))
    (hs : ∀ i < n, ∀ a ∈ setup i, Schedules a) (hA : ∀ i < n, (setup i).filter (isCollAct coll) = A) (hsync : ∀ i < n, Synced (built (setup i))) (hd : ok → ∀ i < n, Disciplined (e i) ∧ ∀ a ∈ setup i, PrioAct a)
    (hap : Apart coll ok (e 0).adv A) (fuel N : Nat) :
    Aligned e fuel n coll N (fun i => built (setup i)) := by
  obtain ⟨ix, h⟩ := common_start (ok := ok) (e := e) hs hA hsync fun hk i hi => (hd hk i hi).2
  exact aligned_common hn hadv hq (fun i hi hk => (hd hk i hi).1) (apart_common hap) fuel N _ _ _ h

end Repast.Mpi.Run
