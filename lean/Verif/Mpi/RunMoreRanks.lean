import Verif.Mpi.RunMoreTick

/-! C74: all ranks, if collective events schedule more collective events, alike on all ranks. -/
namespace Repast.Mpi.Run
open Repast.Schedule

variable {coll : Nat → Bool} {ok : Prop} {more : Nat → Int → List Act}

/-- What a rank runs in a tick is what is due in `K`, in the order of `K`. -/
theorem more_ran {e : Env} {ix : Nat → Nat} {b : Board} {m : Int} {s s' : St} (h : DR coll ix b [] s) (ht : TickedMore coll more ok e m ix b s s') :
    ((ranU coll (s'.trace.drop s.trace.length)).map (norm ix)).Pairwise (TickOrder ok) ∧ ((ranU coll (s'.trace.drop s.trace.length)).map (norm ix)).Perm ((due m b.K).filter (isU coll)) := by
  have hmono := h.mono
  simp only [List.append_nil] at hmono
  constructor
  · rw [List.pairwise_map]
    refine ht.order.imp_of_mem ?_
    intro x y hx hy hab
    have hcol : ∀ x ∈ ranU coll (s'.trace.drop s.trace.length), x ∈ s.queue.filter (isC coll) := by
      intro x hx
      obtain ⟨hx, hu⟩ := List.mem_filter.1 (ht.ran.mem_iff.1 hx)
      exact List.mem_filter.2 ⟨(List.mem_filter.1 hx).1, by rw [isC_eq (halt := fun _ _ => false), hu]; rfl⟩
    obtain ⟨hab, hpr⟩ := hab
    refine ⟨⟨hab.1, hab.2.1, fun h1 h2 => hmono x (hcol x hx) y (hcol y hy) (hab.2.2.1 h1 h2), fun h1 h2 => hmono x (hcol x hx) y (hcol y hy) (hab.2.2.2 h1 h2)⟩, fun hk h1 h2 p q hp hq => ?_⟩
    rcases hpr hk h1 h2 p q hp hq with h3 | ⟨h3, h4⟩
    · exact .inl h3
    · exact .inr ⟨h3, hmono x (hcol x hx) y (hcol y hy) h4⟩
  · refine (ht.ran.map _).trans ?_
    have h1 := (h.perm.filter (fun x => decide (x.at_ = m))).filter (isU coll)
    refine List.Perm.trans ?_ h1
    show List.Perm _ ((due m ((s.queue.filter (isC coll)).map (norm ix))).filter (isU coll))
    rw [due_map, ← filter_due]
    rw [show (((due m s.queue).filter (isC coll)).map (norm ix)).filter (isU coll) = (((due m s.queue).filter (isC coll)).filter (isU coll)).map (norm ix) by rw [List.filter_map]; rfl, filter_U]

/-- The collective events that are neither FIRST nor LAST have priorities. -/
def Good (coll : Nat → Bool) (K : List Ev) : Prop := ∀ x ∈ K, isU coll x = true → Middle x → HasPrio x

theorem good_act {b : Board} (h : Good coll b.K) {a : Act} (ha : Placed a) : Good coll (b.act a).K := by
  cases a with
  | sched t p q i l g =>
    cases t with
    | none => exact h
    | some t =>
      intro x hx hu hm
      rcases List.mem_cons.1 hx with rfl | hx
      · rcases ha with ha | ha | ha
        · exact absurd ha hm.1
        · exact absurd ha hm.2
        · exact ha
      · exact h x hx hu hm
  | schedStop t =>
    cases t with
    | none => exact h
    | some t =>
      intro x hx hu hm
      rcases List.mem_cons.1 hx with rfl | hx
      · cases hu
      · exact h x hx hu hm
  | schedEnd => exact h
  | void => exact h
  | stop => exact h

theorem good_acts (l : List Act) {b : Board} (h : Good coll b.K) (hl : ∀ a ∈ l, Placed a) : Good coll (l.foldl Board.act b).K := by
  induction l generalizing b with
  | nil => exact h
  | cons a l ih => exact ih (good_act h (hl a (by simp))) fun x hx => hl x (List.mem_cons_of_mem _ hx)

theorem good_run {e : Env} (hp : ∀ l t, ∀ a ∈ more l t, Placed a) {b : Board} (h : Good coll b.K) {x : Ev} (hx : isU coll x = true → Middle x → HasPrio x) : Good coll (b.run e more x).K := by
  have h1 : Good coll ((callsOf more x).foldl Board.act b).K := by
    refine good_acts _ h ?_
    unfold callsOf
    split
    · exact hp _ _
    · intro a ha; cases ha
  intro y hy hu hm
  rcases List.mem_append.1 hy with hy | hy
  · unfold nextOf at hy
    cases hi : x.interval with
    | none => rw [hi] at hy; cases hy
    | some i =>
      rw [hi] at hy
      have : y = { x with at_ := e.adv x.at_ i } := by simpa [hi] using hy
      subst this
      exact hx hu hm
  · exact h1 y hy hu hm

theorem good_runs {e : Env} (hp : ∀ l t, ∀ a ∈ more l t, Placed a) (P : List Ev) {b : Board} (h : Good coll b.K) (hP : Good coll P) : Good coll (P.foldl (Board.run e more) b).K := by
  induction P generalizing b with
  | nil => exact h
  | cons x P ih => exact ih (good_run hp h (hP x (by simp))) fun y hy => hP y (List.mem_cons_of_mem _ hy)

theorem run_adv {e e' : Env} (h : e'.adv = e.adv) : Board.run e' more = Board.run e more := by
  funext b x
  unfold Board.run nextOf
  rw [h]

/-- All ranks have the same collective events pending. -/
structure CommonMore (coll : Nat → Bool) (n : Nat) (e : Nat → Env) (b : Board) (g : Bool) (S : Nat → St) : Prop where
  idle : ∀ i < n, Idle True (e i) (S i)
  rel : ∀ i < n, ∃ ix, DR coll ix b [] (S i)
  go : ∀ i < n, (S i).go = g
  good : Good coll b.K

theorem aligned_more {n : Nat} (hn : 0 < n) {e : Nat → Env} (hadv : ∀ i < n, (e i).adv = (e 0).adv) (hp : ∀ l t, ∀ a ∈ more l t, Placed a) (hj : ∀ i < n, Joint coll more (e i)) (hd : ∀ i < n, Disciplined (e i))
    (fuel : Nat) : ∀ (N : Nat) (b : Board) (g : Bool) (S : Nat → St), CommonMore coll n e b g S → Aligned e fuel n coll N S := by
  intro N
  induction N with
  | zero => intros; trivial
  | succ N ih =>
    intro b g S h
    cases g with
    | false =>
      refine .inr ⟨h.go, fun S' hS' => ⟨b.E, fun i hi => ?_⟩⟩
      have hid := h.idle i hi
      have hl : Schedule.step (e i) (S i) .leave = { S i with phase := .ending 0 } := by simp only [Schedule.step, if_pos (And.intro hid.ph (h.go i hi))]
      have hf := hS' i hi
      rw [hl] at hf
      obtain ⟨tl, h1, h2⟩ := finishEnd_calls (hj i hi).endProg fuel { S i with phase := .ending 0 } (S' i) 0 hid.voided rfl hf
      have h1 : (S' i).trace = (S i).trace ++ tl := h1
      obtain ⟨ix, hr⟩ := h.rel i hi
      rw [fresh, h1, List.drop_left, h2, ← hr.ends]; rfl
    | true =>
      obtain ⟨m, hm⟩ : ∃ m, ((List.range n).map fun j => (S j).nextTick).min? = some m := by
        cases hc : ((List.range n).map fun j => (S j).nextTick).min? with
        | some m => exact ⟨m, rfl⟩
        | none =>
          rw [List.min?_eq_none_iff, List.map_eq_nil_iff, List.range_eq_nil] at hc
          omega
      have hmle : ∀ i < n, m ≤ (S i).nextTick := fun i hi => (List.min?_eq_some_iff.1 hm).2 _ (List.mem_map.2 ⟨i, List.mem_range.2 hi, rfl⟩)
      refine .inl ⟨h.go, fun S' hS' => ?_⟩
      rw [hm] at hS'
      have hone : OneMiddle True ((due m b.K).filter (isU coll)) := by
        intro x hx y hy hmx hmy
        obtain ⟨hx, hux⟩ := List.mem_filter.1 hx
        obtain ⟨hy, huy⟩ := List.mem_filter.1 hy
        exact .inr ⟨trivial, h.good x (List.mem_filter.1 hx).1 hux hmx, h.good y (List.mem_filter.1 hy).1 huy hmy⟩
      have ht : ∀ i < n, ∃ ix, DR coll ix b [] (S i) ∧ TickedMore coll more True (e i) m ix b (S i) (S' i) := by
        intro i hi
        obtain ⟨ix, hr⟩ := h.rel i hi
        have ha : Abs coll ix b.K (S i) := ⟨hr.perm, by have := hr.mono; simp only [List.append_nil] at this; exact this⟩
        exact ⟨ix, hr, more_round (hj i hi) (fun _ => hd i hi) (h.idle i hi) hr (h.go i hi) (hmle i hi) (ha.oneMiddle (h.idle i hi) m hone) (hS' i hi)⟩
      obtain ⟨ix0, hr0, ht0⟩ := ht 0 hn
      obtain ⟨o2, p2⟩ := more_ran hr0 ht0
      have hsame : ∀ i < n, ∃ ix, DR coll ix b [] (S i) ∧ TickedMore coll more True (e i) m ix b (S i) (S' i) ∧
          (ranU coll ((S' i).trace.drop (S i).trace.length)).map (norm ix) = (ranU coll ((S' 0).trace.drop (S 0).trace.length)).map (norm ix0) := by
        intro i hi
        obtain ⟨ix, hr, hti⟩ := ht i hi
        obtain ⟨o1, p1⟩ := more_ran hr hti
        exact ⟨ix, hr, hti, tickOrder_eq (p1.trans p2.symm) o1 o2 fun a ha b hb => hone a (p1.mem_iff.1 ha) b (p1.mem_iff.1 hb)⟩
      generalize hP : (ranU coll ((S' 0).trace.drop (S 0).trace.length)).map (norm ix0) = P at *
      refine ⟨⟨P.filterMap labelOf, fun i hi => ?_⟩, ih (P.foldl (Board.run (e 0) more) { b with K := later m b.K }) (!(due m b.K).any (isStop coll (haltOf more))) S' ⟨fun i hi => ?_, fun i hi => ?_, fun i hi => ?_, ?_⟩⟩
      · obtain ⟨ix, hr, hti, he⟩ := hsame i hi
        rw [fresh, calls_filter hti.noEnd, ← labels_norm ix, he]
      · obtain ⟨ix, hr, hti, he⟩ := hsame i hi
        exact hti.idle
      · obtain ⟨ix, hr, hti, he⟩ := hsame i hi
        obtain ⟨ix', hx⟩ := hti.rel
        rw [he, run_adv (hadv i hi)] at hx
        exact ⟨ix', hx⟩
      · obtain ⟨ix, hr, hti, he⟩ := hsame i hi
        rw [hti.go]
        congr 1
        have hp := hr.perm.filter (fun x => decide (x.at_ = m))
        have hp : (due m ((S i).queue.filter (isC coll) |>.map (norm ix))).Perm (due m b.K) := hp
        rw [due_map, ← filter_due] at hp
        have h1 : (due m (S i).queue).any (isStop coll (haltOf more)) = ((due m (S i).queue).filter (isC coll)).any (isStop coll (haltOf more)) := by
          refine any_stop (coll := coll) ?_
          rw [List.filter_filter]; simp
        rw [h1, Bool.eq_iff_iff, List.any_eq_true, List.any_eq_true]
        constructor
        · rintro ⟨x, hx, hs⟩; exact ⟨norm ix x, hp.mem_iff.1 (List.mem_map_of_mem hx), hs⟩
        · rintro ⟨x, hx, hs⟩
          obtain ⟨y, hy, rfl⟩ := List.mem_map.1 (hp.mem_iff.2 hx)
          exact ⟨y, hy, hs⟩
      · refine good_runs hp P ?_ ?_
        · exact fun x hx => h.good x (List.mem_filter.1 hx).1
        · exact fun x hx => h.good x (List.mem_filter.1 (List.mem_filter.1 (p2.mem_iff.1 hx)).1).1

/-! ### The ranks when they call `execute` -/

theorem push_once {s : St} (h : ∀ x ∈ s.queue, x.cb = .stop → x.interval = none) (a p q i) (c : Cb) (g) (hc : c = .stop → i = none) : ∀ x ∈ (pushEvent s a p q i c g).queue, x.cb = .stop → x.interval = none := by
  unfold pushEvent
  simp only []
  split
  · exact h
  · split
    · split
      · exact h
      · intro x hx
        rcases List.mem_cons.1 ((qinsert_perm _ _).mem_iff.1 hx) with rfl | hx
        · exact hc
        · exact h x hx
    · exact h

theorem acts_once (l : List Act) (s : St) (h : ∀ x ∈ s.queue, x.cb = .stop → x.interval = none) : ∀ x ∈ (l.foldl applyAct s).queue, x.cb = .stop → x.interval = none := by
  induction l generalizing s with
  | nil => exact h
  | cons a l ih =>
    refine ih _ ?_
    cases a with
    | sched a p q i l g => exact push_once h a p q i (.user l) g (by intro h; cases h)
    | schedStop a => exact push_once h a .random none none .stop none (fun _ => rfl)
    | schedEnd => exact h
    | void => exact h
    | stop => exact h

theorem placed_apart {adv : Int → Int → Int} {A : List Act} (h : ∀ a ∈ A, Placed a) : Apart coll True adv A := by
  have key : ∀ a, Placed a → MiddleAct coll a → HasPrioAct a := by
    intro a ha hm
    cases a with
    | sched t p q i l g =>
      rcases ha with ha | ha | ha
      · exact absurd ha hm.2.1
      · exact absurd ha hm.2.2
      · exact ha
    | _ => exact hm.elim
  exact List.pairwise_of_forall_mem_list fun a ha b hb h1 h2 => .inl ⟨trivial, key a (h a ha) h1, key b (h b hb) h2⟩

theorem good_common {A : List Act} (e : Env) (h : ∀ a ∈ A, Placed a) : Good coll (commonOf coll A) := by
  have hs := Src.all (e := e) (coll := coll) (ok := True) A [] St.init (placed_apart h) ⟨by simp [St.init], by simp [St.init]⟩
  intro x hx hu hm
  obtain ⟨y, hy, rfl⟩ := List.mem_map.1 hx
  obtain ⟨a, ha, hma, hpa, _⟩ := hs.src y (List.mem_filter.1 hy).1 hu hm
  refine hpa ?_
  have hpl := h a ha
  cases a with
  | sched t p q i l g =>
    rcases hpl with hpl | hpl | hpl
    · exact absurd hpl hma.2.1
    · exact absurd hpl hma.2.2
    · exact hpl
  | _ => exact hma.elim

/-- Ranks that make the same collective calls, before `execute` and in collective events, and any others of their own, take part in the same collective operations. -/
theorem aligned_setup_more {n : Nat} (hn : 0 < n) {e : Nat → Env} {setup : Nat → List Act} {A : List Act} (hadv : ∀ i < n, (e i).adv = (e 0).adv) (hp : ∀ l t, ∀ a ∈ more l t, Placed a)
    (hj : ∀ i < n, Joint coll more (e i)) (hs : ∀ i < n, ∀ a ∈ setup i, Schedules a) (hA : ∀ i < n, (setup i).filter (isCollAct coll) = A) (hsync : ∀ i < n, Synced (built (setup i)))
    (hd : ∀ i < n, Disciplined (e i) ∧ ∀ a ∈ setup i, PrioAct a) (hpl : ∀ a ∈ A, Placed a) (fuel N : Nat) : Aligned e fuel n coll N (fun i => built (setup i)) := by
  obtain ⟨ix, h⟩ := common_start (ok := True) (e := e) hs hA hsync fun _ i hi => (hd i hi).2
  refine aligned_more hn hadv hp hj (fun i hi => (hd i hi).1) fuel N ⟨commonOf coll A, (built A).counter, endsOf coll (built A)⟩ true _ ⟨h.idle, fun i hi => ?_, h.go, good_common (e 0) hpl⟩
  obtain ⟨ix, hr⟩ := SRel.all (coll := coll) (setup i) id St.init St.init (hs i hi) SRel.init
  rw [hA i hi] at hr
  refine ⟨ix, hr.perm, ?_, ?_, ?_, hr.ends⟩
  · rw [List.append_nil]; exact hr.bound
  · rw [List.append_nil]; exact hr.mono
  · rw [List.append_nil]
    exact fun x hx => acts_once (setup i) St.init (by simp [St.init]) x (List.mem_filter.1 hx).1

end Repast.Mpi.Run
