import Verif.Mpi.RunRank

/-! C74: ranks whose collective events are the same. -/
namespace Repast.Mpi.Run
open Repast.Schedule

variable {coll : Nat → Bool} {halt : Nat → Int → Bool} {ok : Prop}

/-- An event without what differs between ranks: its identity and its tag; its order index is replaced by that among the collective events. -/
def norm (ix : Nat → Nat) (ev : Ev) : Ev := { ev with id := 0, ord := ix ev.ord, tag := none }

/-- The collective events that are pending on a rank are those of `K`. -/
structure Abs (coll : Nat → Bool) (ix : Nat → Nat) (K : List Ev) (s : St) : Prop where
  perm : ((s.queue.filter (isC coll)).map (norm ix)).Perm K
  mono : ∀ a ∈ s.queue.filter (isC coll), ∀ b ∈ s.queue.filter (isC coll), a.ord < b.ord → ix a.ord < ix b.ord

/-- What is pending after a tick. -/
def advance (e : Env) (m : Int) (K : List Ev) : List Ev := later m K ++ (due m K).filterMap (nextOf e)

theorem isC_norm (ix : Nat → Nat) (x : Ev) : isC coll (norm ix x) = isC coll x := rfl
theorem isU_norm (ix : Nat → Nat) (x : Ev) : isU coll (norm ix x) = isU coll x := rfl

theorem due_map (ix : Nat → Nat) (m : Int) (l : List Ev) : due m (l.map (norm ix)) = (due m l).map (norm ix) := by
  unfold due; rw [List.filter_map]; rfl

theorem later_map (ix : Nat → Nat) (m : Int) (l : List Ev) : later m (l.map (norm ix)) = (later m l).map (norm ix) := by
  unfold later; rw [List.filter_map]; rfl

theorem nextOf_map (e e' : Env) (h : e'.adv = e.adv) (ix : Nat → Nat) (l : List Ev) : (l.map (norm ix)).filterMap (nextOf e) = (l.filterMap (nextOf e')).map (norm ix) := by
  rw [List.filterMap_map, List.map_filterMap]
  congr 1
  funext x
  simp only [Function.comp, nextOf, norm]
  cases x.interval with
  | none => rfl
  | some i => simp [h, norm]

theorem filter_due (m : Int) (p : Ev → Bool) (l : List Ev) : (due m l).filter p = due m (l.filter p) := by
  unfold due; rw [List.filter_filter, List.filter_filter]; congr 1; funext x; exact Bool.and_comm _ _

theorem filter_later (m : Int) (p : Ev → Bool) (l : List Ev) : (later m l).filter p = later m (l.filter p) := by
  unfold later; rw [List.filter_filter, List.filter_filter]; congr 1; funext x; exact Bool.and_comm _ _

theorem Abs.tick {e e' : Env} {ix : Nat → Nat} {K : List Ev} {m : Int} {s s' : St} (hadv : e'.adv = e.adv) (h : Abs coll ix K s) (ht : Ticked coll halt ok e' m s s') : Abs coll ix (advance e m K) s' := by
  have hq := ht.queue
  rw [filter_due, filter_later] at hq
  refine ⟨?_, ?_⟩
  · refine (hq.map (norm ix)).trans ?_
    unfold advance
    rw [List.map_append]
    have h1 := h.perm.filter (fun x => !decide (x.at_ = m))
    have h2 := (h.perm.filter (fun x => decide (x.at_ = m))).filterMap (nextOf e)
    refine List.Perm.append ?_ ?_
    · have := later_map ix m (s.queue.filter (isC coll))
      rw [← this]; exact h1
    · rw [← nextOf_map e e' hadv, ← due_map]; exact h2
  · have hmem : ∀ a ∈ s'.queue.filter (isC coll), ∃ a' ∈ s.queue.filter (isC coll), a'.ord = a.ord := by
      intro a ha
      rcases List.mem_append.1 (hq.mem_iff.1 ha) with ha | ha
      · exact ⟨a, (List.mem_filter.1 ha).1, rfl⟩
      · obtain ⟨b, hb, hab⟩ := List.mem_filterMap.1 ha
        refine ⟨b, (List.mem_filter.1 hb).1, ?_⟩
        unfold nextOf at hab
        cases hi : b.interval with
        | none => rw [hi] at hab; cases hab
        | some i => rw [hi] at hab; cases hab; rfl
    intro a ha b hb
    obtain ⟨a', ha', hao⟩ := hmem a ha
    obtain ⟨b', hb', hbo⟩ := hmem b hb
    rw [← hao, ← hbo]
    exact h.mono a' ha' b' hb'

/-- At most one collective event of a tick is neither FIRST nor LAST, now and later: the occurrences of two of them are never at the same tick; or, if `ok`, they have priorities. -/
def EvApart (coll : Nat → Bool) (ok : Prop) (e : Env) (K : List Ev) : Prop :=
  ∀ a ∈ K, ∀ b ∈ K, isU coll a = true → isU coll b = true → Middle a → Middle b → a ≠ b → (ok ∧ HasPrio a ∧ HasPrio b) ∨ ∀ j k, occ e a j ≠ occ e b k

/-- All pending collective events are occurrences of those of `K0`. -/
def From (e : Env) (K0 K : List Ev) : Prop := ∀ x ∈ K, ∃ a ∈ K0, ∃ k, x = nth e a k

theorem From.advance {e : Env} {K0 K : List Ev} (h : From e K0 K) (m : Int) : From e K0 (advance e m K) := by
  intro x hx
  rcases List.mem_append.1 hx with hx | hx
  · exact h x (List.mem_filter.1 hx).1
  · obtain ⟨y, hy, hxy⟩ := List.mem_filterMap.1 hx
    obtain ⟨a, ha, k, rfl⟩ := h y (List.mem_filter.1 hy).1
    refine ⟨a, ha, k + 1, ?_⟩
    unfold nextOf at hxy
    rw [nth_interval] at hxy
    cases hi : a.interval with
    | none => rw [hi] at hxy; cases hxy
    | some i =>
      rw [hi] at hxy
      cases hxy
      simp only [nth, occ, hi]

theorem From.oneMiddle {e : Env} {K0 K : List Ev} (h : From e K0 K) (ha : EvApart coll ok e K0) (m : Int) : OneMiddle ok ((due m K).filter (isU coll)) := by
  intro x hx y hy hmx hmy
  obtain ⟨hx, hux⟩ := List.mem_filter.1 hx
  obtain ⟨hy, huy⟩ := List.mem_filter.1 hy
  obtain ⟨hx, hax⟩ := List.mem_filter.1 hx
  obtain ⟨hy, hay⟩ := List.mem_filter.1 hy
  obtain ⟨a, h1, j, rfl⟩ := h x hx
  obtain ⟨b, h2, k, rfl⟩ := h y hy
  have hax : occ e a j = m := of_decide_eq_true hax
  have hay : occ e b k = m := of_decide_eq_true hay
  by_cases hab : a = b
  · subst hab
    left
    unfold nth
    rw [hax, hay]
  · rcases ha a h1 b h2 hux huy hmx hmy hab with h | h
    · exact .inr h
    · exact absurd (hax.trans hay.symm) (h j k)

theorem sorted_ord {l : List Ev} {m : Int} (hs : Sorted l) : ∀ a ∈ due m l, ∀ b ∈ due m l, a.ord = b.ord → a = b := by
  have hs' : (due m l).Pairwise (fun a b => qlt a b = true) := List.Pairwise.sublist List.filter_sublist hs
  have hat : ∀ a ∈ due m l, a.at_ = m := fun a ha => by simpa using (List.mem_filter.1 ha).2
  generalize due m l = d at *
  clear hs
  induction d with
  | nil => intro a ha; cases ha
  | cons x d ih =>
    have ih := ih (List.pairwise_cons.1 hs').2 fun a ha => hat a (List.mem_cons_of_mem _ ha)
    have hx := (List.pairwise_cons.1 hs').1
    have key : ∀ b ∈ d, x.ord ≠ b.ord := by
      intro b hb he
      have := hx b hb
      simp only [qlt, Bool.or_eq_true, Bool.and_eq_true, decide_eq_true_eq] at this
      have := hat x (by simp)
      have := hat b (List.mem_cons_of_mem _ hb)
      omega
    intro a ha b hb he
    rcases List.mem_cons.1 ha with h1 | h1 <;> rcases List.mem_cons.1 hb with h2 | h2
    · rw [h1, h2]
    · rw [h1] at he; exact absurd he (key b h2)
    · rw [h2] at he; exact absurd he.symm (key a h1)
    · exact ih a h1 b h2 he

theorem Abs.oneMiddle {e : Env} {ix : Nat → Nat} {K : List Ev} {s : St} (h : Abs coll ix K s) (hi : Idle ok e s) (m : Int) (hone : OneMiddle ok ((due m K).filter (isU coll))) :
    OneMiddle ok ((due m s.queue).filter (isU coll)) := by
  intro a ha b hb hma hmb
  obtain ⟨ha, hua⟩ := List.mem_filter.1 ha
  obtain ⟨hb, hub⟩ := List.mem_filter.1 hb
  have hcol : ∀ x ∈ due m s.queue, isU coll x = true → x ∈ s.queue.filter (isC coll) := fun x hx hu => List.mem_filter.2 ⟨(List.mem_filter.1 hx).1, by rw [isC_eq (halt := fun _ _ => false), hu]; rfl⟩
  have hK : ∀ x ∈ due m s.queue, isU coll x = true → norm ix x ∈ (due m K).filter (isU coll) := by
    intro x hx hu
    refine List.mem_filter.2 ⟨List.mem_filter.2 ⟨h.perm.mem_iff.1 (List.mem_map_of_mem (hcol x hx hu)), ?_⟩, hu⟩
    exact (List.mem_filter.1 hx).2
  rcases hone _ (hK a ha hua) _ (hK b hb hub) hma hmb with hn | hn
  case inr => exact .inr hn
  left
  refine sorted_ord hi.inv.sorted a ha b hb ?_
  have ho : ix a.ord = ix b.ord := congrArg Ev.ord hn
  rcases Nat.lt_trichotomy a.ord b.ord with hlt | heq | hgt
  · have := h.mono a (hcol a ha hua) b (hcol b hb hub) hlt; omega
  · exact heq
  · have := h.mono b (hcol b hb hub) a (hcol a ha hua) hgt; omega

/-- What a rank runs in a tick is what is due in `K`, in the order of `K`. -/
theorem Abs.ran {e : Env} {ix : Nat → Nat} {K : List Ev} {m : Int} {s s' : St} (h : Abs coll ix K s) (ht : Ticked coll halt ok e m s s') :
    ((ranU coll (s'.trace.drop s.trace.length)).map (norm ix)).Pairwise (TickOrder ok) ∧ ((ranU coll (s'.trace.drop s.trace.length)).map (norm ix)).Perm ((due m K).filter (isU coll)) := by
  constructor
  · rw [List.pairwise_map]
    refine ht.order.imp_of_mem ?_
    intro a b ha hb hab
    have hcol : ∀ x ∈ ranU coll (s'.trace.drop s.trace.length), x ∈ s.queue.filter (isC coll) := by
      intro x hx
      obtain ⟨hx, hu⟩ := List.mem_filter.1 (ht.ran.mem_iff.1 hx)
      exact List.mem_filter.2 ⟨(List.mem_filter.1 hx).1, by rw [isC_eq (halt := fun _ _ => false), hu]; rfl⟩
    obtain ⟨hab, hpr⟩ := hab
    refine ⟨⟨hab.1, hab.2.1, fun h1 h2 => h.mono a (hcol a ha) b (hcol b hb) (hab.2.2.1 h1 h2), fun h1 h2 => h.mono a (hcol a ha) b (hcol b hb) (hab.2.2.2 h1 h2)⟩, fun hk h1 h2 p q hp hq => ?_⟩
    rcases hpr hk h1 h2 p q hp hq with h3 | ⟨h3, h4⟩
    · exact .inl h3
    · exact .inr ⟨h3, h.mono a (hcol a ha) b (hcol b hb) h4⟩
  · refine (ht.ran.map _).trans ?_
    have h1 := (h.perm.filter (fun x => decide (x.at_ = m))).filter (isU coll)
    refine List.Perm.trans ?_ h1
    show List.Perm _ ((due m ((s.queue.filter (isC coll)).map (norm ix))).filter (isU coll))
    rw [due_map, ← filter_due]
    rw [show (((due m s.queue).filter (isC coll)).map (norm ix)).filter (isU coll) = (((due m s.queue).filter (isC coll)).filter (isU coll)).map (norm ix) by rw [List.filter_map]; rfl, filter_U]

def labelOf (ev : Ev) : Option Nat := match ev.cb with
  | .user l => some l
  | .stop => none

theorem calls_append (a b : List Obs) : calls (a ++ b) = calls a ++ calls b := by simp [calls, List.filterMap_append]

theorem calls_filter {tl : List Obs} (h : ∀ o ∈ tl, ∀ i l, o ≠ .ranEnd i l) : (calls tl).filter coll = (ranU coll tl).filterMap labelOf := by
  induction tl with
  | nil => rfl
  | cons o tl ih =>
    have ih := ih fun o ho => h o (List.mem_cons_of_mem _ ho)
    have h0 := h o (by simp)
    have h1 : (calls [o]).filter coll = (ranU coll [o]).filterMap labelOf := by
      cases o with
      | ran ev now =>
        cases hc : ev.cb with
        | stop => simp [calls, ranU, isU, hc]
        | user l => cases hl : coll l <;> simp [calls, ranU, isU, hc, hl, labelOf]
      | ranEnd i l => exact absurd rfl (h0 i l)
      | _ => rfl
    rw [show o :: tl = [o] ++ tl from rfl, calls_append, ranU_append, List.filter_append, List.filterMap_append, h1, ih]

theorem labels_norm (ix : Nat → Nat) (l : List Ev) : (l.map (norm ix)).filterMap labelOf = l.filterMap labelOf := by
  rw [List.filterMap_map]; rfl

/-! ### End events -/

/-- The collective end events of a rank. -/
def endsOf (coll : Nat → Bool) (s : St) : List Nat := (s.endEvts.filter fun p => coll p.2).map (·.2)

theorem endStep {e : Env} (hq : ∀ tr l, ∀ a ∈ e.endProg tr l, LocalAct coll a) {s : St} (hv : s.voided = []) {i : Nat} (hp : s.phase = .ending i) {id l : Nat} (hi : s.endEvts[i]? = some (id, l)) :
    (Schedule.step e s .endEvt).voided = [] ∧ (Schedule.step e s .endEvt).phase = .ending (i + 1) ∧
    (∃ x, (Schedule.step e s .endEvt).endEvts = s.endEvts ++ x ∧ x.filter (fun p => coll p.2) = []) ∧
    ∃ tl, (Schedule.step e s .endEvt).trace = s.trace ++ tl ∧ calls tl = [l] := by
  have hs : Schedule.step e s .endEvt = (e.endProg (s.trace ++ [.ranEnd id l]) l).foldl applyAct { s with phase := .ending (i+1), trace := s.trace ++ [.ranEnd id l] } := by
    simp only [Schedule.step, hp, hi, hv, List.not_mem_nil, if_false]
  have k := kept_acts (coll := coll) (e.endProg (s.trace ++ [.ranEnd id l]) l) { s with phase := .ending (i+1), trace := s.trace ++ [.ranEnd id l] } (hq _ _)
  rw [← hs] at k
  obtain ⟨x, hx⟩ := k.endsPre
  obtain ⟨tl, ht, hn⟩ := k.tr
  refine ⟨k.voided.trans hv, k.phase, ⟨x, hx, ?_⟩, [.ranEnd id l] ++ tl, by rw [ht, List.append_assoc], ?_⟩
  · have := k.ends
    rw [hx, List.filter_append] at this
    exact List.append_right_eq_self.1 this
  · rw [calls_append]
    have : calls tl = [] := by
      unfold calls
      rw [List.filterMap_eq_nil_iff]
      intro o ho
      have := hn o ho
      cases o <;> first | rfl | exact absurd rfl (this.1 _ _) | exact absurd rfl (this.2 _ _)
    rw [this]; rfl

theorem finishEnd_calls {e : Env} (hq : ∀ tr l, ∀ a ∈ e.endProg tr l, LocalAct coll a) : ∀ (f : Nat) (s s' : St) (i : Nat), s.voided = [] → s.phase = .ending i → finishEnd e f s = some s' →
    ∃ tl, s'.trace = s.trace ++ tl ∧ (calls tl).filter coll = ((s.endEvts.drop i).filter fun p => coll p.2).map (·.2) := by
  intro f
  induction f with
  | zero => intro s s' i _ _ h; cases h
  | succ f ih =>
    intro s s' i hv hp h
    rw [finishEnd, if_neg (by rw [hp]; simp)] at h
    cases hi : s.endEvts[i]? with
    | none =>
      have hs : Schedule.step e s .endEvt = { s with phase := .finished } := by simp only [Schedule.step, hp, hi]
      rw [hs] at h
      cases f with
      | zero => cases h
      | succ f =>
        rw [finishEnd, if_pos rfl] at h
        cases h
        refine ⟨[], by simp, ?_⟩
        rw [List.drop_eq_nil_of_le (by simpa using hi)]; rfl
    | some p =>
      obtain ⟨id, l⟩ := p
      obtain ⟨h1, h2, ⟨x, h3, h3'⟩, tl, h4, h5⟩ := endStep hq hv hp hi
      obtain ⟨tl', h6, h7⟩ := ih _ _ _ h1 h2 h
      refine ⟨tl ++ tl', by rw [h6, h4, List.append_assoc], ?_⟩
      obtain ⟨hlt, hget⟩ := List.getElem?_eq_some_iff.1 hi
      rw [calls_append, List.filter_append, h5, h7, h3, List.drop_append_of_le_length (by omega), List.filter_append, h3', List.append_nil, List.drop_eq_getElem_cons hlt, hget]
      cases hc : coll l <;> simp [hc]

/-! ### All ranks -/

/-- All ranks have the same collective events pending. -/
structure Common (coll : Nat → Bool) (ok : Prop) (n : Nat) (e : Nat → Env) (ix : Nat → Nat → Nat) (K0 K : List Ev) (E : List Nat) (b : Bool) (S : Nat → St) : Prop where
  idle : ∀ i < n, Idle ok (e i) (S i)
  abs : ∀ i < n, Abs coll (ix i) K (S i)
  go : ∀ i < n, (S i).go = b
  ends : ∀ i < n, endsOf coll (S i) = E
  src : From (e 0) K0 K

theorem aligned_common {n : Nat} (hn : 0 < n) {e : Nat → Env} {ix : Nat → Nat → Nat} {K0 : List Ev} {E : List Nat} (hadv : ∀ i < n, (e i).adv = (e 0).adv) (hq : ∀ i < n, Quiet coll halt (e i)) (hd : ∀ i < n, ok → Disciplined (e i)) (ha : EvApart coll ok (e 0) K0)
    (fuel : Nat) : ∀ (N : Nat) (K : List Ev) (b : Bool) (S : Nat → St), Common coll ok n e ix K0 K E b S → Aligned e fuel n coll N S := by
  intro N
  induction N with
  | zero => intros; trivial
  | succ N ih =>
    intro K b S h
    cases b with
    | false =>
      refine .inr ⟨h.go, fun S' hS' => ⟨E, fun i hi => ?_⟩⟩
      have hid := h.idle i hi
      have hl : Schedule.step (e i) (S i) .leave = { S i with phase := .ending 0 } := by simp only [Schedule.step, if_pos (And.intro hid.ph (h.go i hi))]
      have hf := hS' i hi
      rw [hl] at hf
      obtain ⟨tl, h1, h2⟩ := finishEnd_calls (hq i hi).endProg fuel { S i with phase := .ending 0 } (S' i) 0 hid.voided rfl hf
      have h1 : (S' i).trace = (S i).trace ++ tl := h1
      rw [fresh, h1, List.drop_left, h2, ← h.ends i hi]; rfl
    | true =>
      obtain ⟨m, hm⟩ : ∃ m, ((List.range n).map fun j => (S j).nextTick).min? = some m := by
        cases hc : ((List.range n).map fun j => (S j).nextTick).min? with
        | some m => exact ⟨m, rfl⟩
        | none =>
          rw [List.min?_eq_none_iff, List.map_eq_nil_iff, List.range_eq_nil] at hc
          omega
      have hmle : ∀ i < n, m ≤ (S i).nextTick := fun i hi => (List.min?_eq_some_iff.1 hm).2 _ (List.mem_map.2 ⟨i, List.mem_range.2 hi, rfl⟩)
      refine .inl ⟨h.go, fun S' hS' => ?_⟩
      rw [hm] at hS'
      have hone := h.src.oneMiddle ha m
      have ht : ∀ i < n, Ticked coll halt ok (e i) m (S i) (S' i) := fun i hi => ticked_round (hq i hi) (hd i hi) (h.idle i hi) (h.go i hi) (hmle i hi) ((h.abs i hi).oneMiddle (h.idle i hi) m hone) (hS' i hi)
      refine ⟨⟨((ranU coll ((S' 0).trace.drop (S 0).trace.length)).map (norm (ix 0))).filterMap labelOf, fun i hi => ?_⟩, ih (advance (e 0) m K) (!(due m K).any (isStop coll halt)) S' ?_⟩
      · rw [fresh, calls_filter (ht i hi).noEnd, ← labels_norm (ix i)]
        obtain ⟨o1, p1⟩ := (h.abs i hi).ran (ht i hi)
        obtain ⟨o2, p2⟩ := (h.abs 0 hn).ran (ht 0 hn)
        congr 1
        refine tickOrder_eq (p1.trans p2.symm) o1 o2 ?_
        exact fun a ha b hb => hone a (p1.mem_iff.1 ha) b (p1.mem_iff.1 hb)
      · refine ⟨fun i hi => (ht i hi).idle, fun i hi => (h.abs i hi).tick (hadv i hi) (ht i hi), fun i hi => ?_, fun i hi => ?_, h.src.advance m⟩
        · rw [(ht i hi).go]
          congr 1
          have hp := (h.abs i hi).perm.filter (fun x => decide (x.at_ = m))
          have hp : (due m ((S i).queue.filter (isC coll) |>.map (norm (ix i)))).Perm (due m K) := hp
          rw [due_map, ← filter_due] at hp
          have h1 : (due m (S i).queue).any (isStop coll halt) = ((due m (S i).queue).filter (isC coll)).any (isStop coll halt) := by
            refine any_stop (coll := coll) (halt := halt) ?_
            rw [List.filter_filter]; simp
          rw [h1, Bool.eq_iff_iff, List.any_eq_true, List.any_eq_true]
          constructor
          · rintro ⟨x, hx, hs⟩; exact ⟨norm (ix i) x, hp.mem_iff.1 (List.mem_map_of_mem hx), hs⟩
          · rintro ⟨x, hx, hs⟩
            obtain ⟨y, hy, rfl⟩ := List.mem_map.1 (hp.mem_iff.2 hx)
            exact ⟨y, hy, hs⟩
        · rw [endsOf, (ht i hi).ends]; exact h.ends i hi

end Repast.Mpi.Run
