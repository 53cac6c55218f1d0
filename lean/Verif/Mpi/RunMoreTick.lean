import Verif.Mpi.RunMore

/-! C74: one tick of a rank whose collective events schedule more collective events, alike on all ranks. -/
namespace Repast.Mpi.Run
open Repast.Schedule

variable {coll : Nat → Bool} {ok : Prop} {more : Nat → Int → List Act}

/-- `tr0` is the history before the tick `m`, `P0` the collective events that the tick runs, `b0` what the ranks had in common before it, `g0` whether it stops the runner. -/
structure InMore (coll : Nat → Bool) (more : Nat → Int → List Act) (ok : Prop) (e : Env) (m : Int) (tr0 : List Obs) (ix0 : Nat → Nat) (c0 : Nat) (P0 : List Ev) (b0 : Board) (g0 : Bool) (t : St) : Prop where
  ph : t.phase = .running ∨ t.phase = .idle
  ginv : GInv t
  inv : Schedule.Inv e none t
  pinv : PInv t
  prio : PrioInv t
  tok : ok → TOk t.trace
  voided : t.voided = []
  tick : t.tick = m
  lat : ∀ x ∈ t.left.filter (isC coll), x.at_ = m
  counter : c0 ≤ t.counter
  tr : ∃ tl, t.trace = tr0 ++ tl ∧ ranU coll tl ++ t.left.filter (isU coll) = P0 ∧ (∀ o ∈ tl, ∀ i l, o ≠ .ranEnd i l) ∧
    ∃ ix, (∀ o < c0, ix o = ix0 o) ∧ DR coll ix (((ranU coll tl).map (norm ix0)).foldl (Board.run e more) b0) (t.left.filter (isC coll)) t
  go : (t.go = true ∧ t.left.any (isStop coll (haltOf more)) = g0) ∨ (t.go = false ∧ g0 = true)
  sync : t.phase = .idle → Synced t

theorem post_tick (e : Env) (s : St) : (post e s).tick = s.tick := by unfold post; split <;> rfl
theorem post_counter (e : Env) (s : St) : (post e s).counter = s.counter := by unfold post; split <;> rfl

theorem InMore.step {e : Env} {m : Int} {tr0 : List Obs} {ix0 : Nat → Nat} {c0 : Nat} {P0 : List Ev} {b0 : Board} {g0 : Bool} (hj : Joint coll more e) (ho : ok → Disciplined e) (hone : OneMiddle ok P0)
    (hP : ∀ x ∈ P0, x.ord < c0) {s t : St} (hr : s.phase = .running) (hm : MStep e s t)
    (h : InMore coll more ok e m tr0 ix0 c0 P0 b0 g0 s) : InMore coll more ok e m tr0 ix0 c0 P0 b0 g0 t := by
  have hg' := h.ginv.step hm
  have hi' := h.inv.step h.ginv hm
  have hp' := h.pinv.step h.ginv hm
  have hpr' := h.prio.step h.ginv h.inv hi' h.pinv hm
  obtain ⟨tl, t1, t2, t3, ix, hix, hdr⟩ := h.tr
  cases hm with
  | act a hp => rw [hr] at hp; cases hp
  | enter hp => rw [hr] at hp; cases hp
  | skip hp => rw [hr] at hp; cases hp
  | leave hp => rw [hr] at hp; cases hp
  | endDone i hp => rw [hr] at hp; cases hp
  | endSkip i id l hp => rw [hr] at hp; cases hp
  | endRun i id l hp => rw [hr] at hp; cases hp
  | exec hp =>
    exact ⟨h.ph, hg', hi', hp', hpr', h.tok, h.voided, h.tick, h.lat, h.counter, ⟨tl, t1, t2, t3, ix, hix, hdr.same rfl (Nat.le_refl _) rfl fun _ hx => hx⟩, h.go, fun hc => by rw [hr] at hc; cases hc⟩
  | unexec hp =>
    exact ⟨h.ph, hg', hi', hp', hpr', h.tok, h.voided, h.tick, h.lat, h.counter, ⟨tl, t1, t2, t3, ix, hix, hdr.same rfl (Nat.le_refl _) rfl fun _ hx => hx⟩, h.go, fun hc => by rw [hr] at hc; cases hc⟩
  | finish _ hz hx =>
    obtain ⟨r1, r2, r3, r4⟩ := h.ginv.run hr
    have hl : s.left = [] := by
      unfold St.left
      rw [if_pos hr]
      unfold Group.plan
      have h1 : s.grp.first.length = 0 := by omega
      have h2 : s.grp.prioritized.length = 0 := by omega
      have h3 : s.grp.last.length = 0 := by omega
      rw [List.length_eq_zero_iff] at h1 h2 h3
      rw [h1, h2, h3]; rfl
    have hl' : St.left { s with phase := .idle, nextTick := schedNextTick s } = [] := by simp [St.left]
    refine ⟨.inr rfl, hg', hi', hp', hpr', h.tok, h.voided, h.tick, by rw [hl']; simp, h.counter, ⟨tl, t1, by rw [hl', ← hl]; exact t2, t3, ix, hix, ?_⟩, by rw [hl', ← hl]; exact h.go, fun _ => rfl⟩
    rw [hl']
    exact hdr.same rfl (Nat.le_refl _) rfl fun x hx => by cases hx
  | event w ev rest hp hx hn =>
    obtain ⟨r1, r2, r3, r4⟩ := h.ginv.run hr
    have hplan := hn.plan
    have hleft : s.left = ev :: (s.grp.set rest w).plan := by rw [St.left, if_pos hr, hplan]
    have hUC : isU coll ev = true → isC coll ev = true := fun hu => by rw [isC_eq (halt := fun _ _ => false), hu]; rfl
    have one := runEv_joint hj { s with grp := s.grp.set rest w } ev h.voided (by simp [set_executing, hx]) (by simp [set_added, r2])
      (fun hu => by rw [h.lat ev (by rw [hleft]; simp [hUC hu])]; exact h.tick.symm) (ix := ix) (b := ((ranU coll tl).map (norm ix0)).foldl (Board.run e more) b0) (L := (s.grp.set rest w).plan.filter (isC coll))
      (by
        have : [ev].filter (isC coll) ++ (s.grp.set rest w).plan.filter (isC coll) = s.left.filter (isC coll) := by rw [hleft, ← List.filter_append]; rfl
        rw [this]
        exact hdr.same rfl (Nat.le_refl _) rfl fun _ hx => hx)
    have same := runEv_same e { s with grp := s.grp.set rest w } ev (by simp [set_executing, hx])
    generalize hr1 : runEv e { s with grp := s.grp.set rest w } ev = r at *
    have hrp : r.grp.plan = (s.grp.set rest w).plan := by
      unfold Group.plan
      rw [same.first, same.prioritized, same.last]
    have hperm := post_plan (coll := coll) e r (by rw [same.random]; simp [set_random, r1]) one.added (fun hi => same.added (by simp [set_added, r2]) hi)
    rw [hrp] at hperm
    have hph : (post e r).phase = .running := by rw [post_phase, one.phase]; exact hr
    have hleft' : (post e r).left = (post e r).grp.plan := by rw [St.left, if_pos hph]
    obtain ⟨tl', u1, u2⟩ := one.tr
    have htok : ok → TOk (post e r).trace := fun hk => by
      rw [post_tr, ← hr1]
      exact TOk.run (ho hk) (s := { s with grp := s.grp.set rest w }) (h.tok hk) ev
    have hU : ((post e r).grp.plan.filter (isU coll)) = (s.grp.set rest w).plan.filter (isU coll) := by
      have hcls := plan_tick h.inv h.pinv h.prio h.tok hr
      rw [hplan, List.pairwise_cons] at hcls
      symm
      refine tickOrder_eq ?_ (hcls.2.filter _) ((plan_tick hi' hp' hpr' htok hph).filter _) ?_
      · have := hperm.symm.filter (isU coll)
        rwa [filter_U, filter_U] at this
      · have hsub : ∀ x ∈ (s.grp.set rest w).plan.filter (isU coll), x ∈ P0 := by
          intro x hx
          rw [← t2, hleft]
          refine List.mem_append_right _ ?_
          rw [List.mem_filter] at hx ⊢
          exact ⟨List.mem_cons_of_mem _ hx.1, hx.2⟩
        exact fun a ha b hb => hone a (hsub a ha) b (hsub b hb)
    have hran : ranU coll (tl ++ ([.ran ev s.tick] ++ tl')) = ranU coll tl ++ [ev].filter (isU coll) := by
      rw [ranU_append, ranU_append, ranU_nil (fun o ho => (u2 o ho).1), List.append_nil]
      congr 1
      cases hu : isU coll ev <;> simp [ranU, hu]
    have hc0 : c0 ≤ s.counter := h.counter
    refine ⟨.inl hph, hg', hi', hp', hpr', htok, by rw [post_voided]; exact one.voided, by rw [post_tick, one.tick]; exact h.tick, ?_, by rw [post_counter]; exact Nat.le_trans hc0 one.counter, ?_, ?_,
      fun hc => by rw [hph] at hc; cases hc⟩
    · intro x hx
      rw [hleft'] at hx
      have := hperm.mem_iff.1 hx
      refine h.lat x ?_
      rw [hleft]
      exact List.mem_filter.2 ⟨List.mem_cons_of_mem _ (List.mem_filter.1 this).1, (List.mem_filter.1 this).2⟩
    · obtain ⟨ix', e1, d1⟩ := one.rel
      refine ⟨tl ++ ([.ran ev s.tick] ++ tl'), ?_, ?_, ?_, ix', fun o ho => (e1 o (Nat.lt_of_lt_of_le ho hc0)).trans (hix o ho), ?_⟩
      · rw [post_tr, u1]; show (s.trace ++ _) ++ _ = _; rw [t1]; simp
      · rw [hran, hleft', hU, ← t2, hleft, List.append_assoc, ← List.filter_append]; rfl
      · intro o ho
        rcases List.mem_append.1 ho with ho | ho
        · exact t3 o ho
        · rcases List.mem_append.1 ho with ho | ho
          · rw [List.mem_singleton.1 ho]; intro i l h; cases h
          · exact (u2 o ho).2
      · have hb : ((ranU coll (tl ++ ([.ran ev s.tick] ++ tl'))).map (norm ix0)).foldl (Board.run e more) b0 =
            if isU coll ev then (((ranU coll tl).map (norm ix0)).foldl (Board.run e more) b0).run e more (norm ix ev) else ((ranU coll tl).map (norm ix0)).foldl (Board.run e more) b0 := by
          rw [hran, List.map_append, List.foldl_append]
          cases hu : isU coll ev with
          | false => simp [hu]
          | true =>
            have hev : ev ∈ P0 := by rw [← t2, hleft]; exact List.mem_append_right _ (by simp [hu])
            have : norm ix0 ev = norm ix ev := by unfold norm; rw [hix _ (hP ev hev)]
            simp [hu, this]
        rw [hb, hleft']
        refine d1.same (post_queue e r) (by rw [post_counter]; exact Nat.le_refl _) (post_ends e r) fun x hx => hperm.mem_iff.1 hx
    · rw [post_go, one.go, hleft', any_stop hperm]
      show ((s.go && _) = true ∧ _) ∨ _
      have := h.go
      rw [hleft, List.any_cons] at this
      cases hst : isStop coll (haltOf more) ev <;> rw [hst] at this <;> rcases this with ⟨h1, h2⟩ | ⟨h1, h2⟩ <;> simp_all

/-! ### A whole tick -/

/-- What a round of the loop of `execute` with the result `m` of the reduction does to the collective part of a rank. -/
structure TickedMore (coll : Nat → Bool) (more : Nat → Int → List Act) (ok : Prop) (e : Env) (m : Int) (ix : Nat → Nat) (b : Board) (s s' : St) : Prop where
  idle : Idle ok e s'
  order : (ranU coll (s'.trace.drop s.trace.length)).Pairwise (TickOrder ok)
  ran : (ranU coll (s'.trace.drop s.trace.length)).Perm ((due m s.queue).filter (isU coll))
  noEnd : ∀ o ∈ s'.trace.drop s.trace.length, ∀ i l, o ≠ .ranEnd i l
  rel : ∃ ix', DR coll ix' (((ranU coll (s'.trace.drop s.trace.length)).map (norm ix)).foldl (Board.run e more) { b with K := later m b.K }) [] s'
  go : s'.go = !(due m s.queue).any (isStop coll (haltOf more))

/-- What is due is taken from the queue. -/
theorem DR.take {ix : Nat → Nat} {b : Board} {m : Int} {L : List Ev} {s t : St} (h : DR coll ix b [] s) (hq : t.queue = later m s.queue) (hc : s.counter ≤ t.counter) (he : t.endEvts = s.endEvts)
    (hL : ∀ x ∈ L, x ∈ s.queue.filter (isC coll)) : DR coll ix { b with K := later m b.K } L t := by
  have hm : ∀ x ∈ t.queue.filter (isC coll) ++ L, x ∈ s.queue.filter (isC coll) ++ [] := by
    intro x hx
    rw [hq, filter_later] at hx
    rw [List.append_nil]
    rcases List.mem_append.1 hx with hx | hx
    · exact (List.mem_filter.1 hx).1
    · exact hL x hx
  refine ⟨?_, fun x hx => ?_, fun x hx y hy => h.mono x (hm x hx) y (hm y hy), fun x hx => h.once x (hm x hx), by rw [endsOf, he]; exact h.ends⟩
  · rw [hq, filter_later, ← later_map]
    exact h.perm.filter _
  · have := h.bound x (hm x hx)
    exact ⟨by omega, this.2⟩

theorem more_nothing {e : Env} {m : Int} {s : St} {ix : Nat → Nat} {b : Board} (h : Idle ok e s) (hb : DR coll ix b [] s) (hg : s.go = true) (hd : due m s.queue = []) (hl : later m s.queue = s.queue) {k : Int}
    (hk : k = schedNextTick s) : TickedMore coll more ok e m ix b s { s with nextTick := k } := by
  subst hk
  have hm := MStep.skip (e := e) s h.ph hg
  refine ⟨⟨h.ph, h.ginv.step hm, h.inv.step h.ginv hm, h.pinv.step h.ginv hm, .other (by rw [h.ph]; simp), h.tok, h.voided, rfl⟩, ?_, ?_, ?_, ?_, ?_⟩
  · show (ranU coll (s.trace.drop s.trace.length)).Pairwise _
    rw [List.drop_length]; exact List.Pairwise.nil
  · show (ranU coll (s.trace.drop s.trace.length)).Perm _
    rw [List.drop_length, hd]; exact List.Perm.refl _
  · show ∀ o ∈ s.trace.drop s.trace.length, _
    rw [List.drop_length]; intro o ho; cases ho
  · refine ⟨ix, ?_⟩
    show DR coll ix (((ranU coll (s.trace.drop s.trace.length)).map (norm ix)).foldl (Board.run e more) _) _ _
    rw [List.drop_length]
    exact hb.take hl.symm (Nat.le_refl _) rfl fun x hx => by cases hx
  · rw [hd]; exact hg

theorem more_enter {e : Env} {fuel : Nat} {s s' : St} {ix : Nat → Nat} {b : Board} (hj : Joint coll more e) (hd : ok → Disciplined e) (h : Idle ok e s) (hb : DR coll ix b [] s) (hg : s.go = true)
    (hone : OneMiddle ok ((due s.nextTick s.queue).filter (isU coll))) (hf : finishTick e fuel (Schedule.step e s .enter) = some s') : TickedMore coll more ok e s.nextTick ix b s s' := by
  rcases h.sync.head with ⟨hqu, hn⟩ | ⟨ev, l, hqu, hn⟩
  · have hs : Schedule.step e s .enter = { s with nextTick := schedNextTick s } := by
      simp only [Schedule.step, if_pos (And.intro h.ph hg), startExecute, hqu]
    rw [hs] at hf
    cases fuel with
    | zero => cases hf
    | succ f =>
      rw [finishTick, if_neg (by simp [h.ph])] at hf
      cases hf
      exact more_nothing h hb hg (by rw [hqu]; rfl) (by rw [hqu]; rfl) rfl
  · have hm := MStep.enter (e := e) s h.ph hg
    have hse : Schedule.step e s .enter = startExecute e s := by simp only [Schedule.step, if_pos (And.intro h.ph hg)]
    rw [hse] at hf
    have hstart : startExecute e s = { s with tick := ev.at_, queue := s.queue.dropWhile (fun x => decide (x.at_ = ev.at_)), grp := (((s.queue.takeWhile (fun x => decide (x.at_ = ev.at_))).foldl Group.addEvt s.grp.reset).sort e s.rnd).1, rnd := (((s.queue.takeWhile (fun x => decide (x.at_ = ev.at_))).foldl Group.addEvt s.grp.reset).sort e s.rnd).2, phase := .running, trace := s.trace ++ [.start ev.at_] } := by
      unfold startExecute; rw [hqu]
    have hle : ∀ x ∈ s.queue, ev.at_ ≤ x.at_ := by rw [← hn]; exact Idle.head_le h
    obtain ⟨htw, hdw⟩ := takeWhile_due h.inv.sorted hle
    rw [htw, hdw, ← hn] at hstart
    have hg1 := h.ginv.step hm
    have hi1 := h.inv.step h.ginv hm
    have hp1 := h.pinv.step h.ginv hm
    have hpr1 := h.prio.step h.ginv h.inv hi1 h.pinv hm
    generalize hs1 : startExecute e s = s1 at *
    have hr1 : s1.phase = .running := by rw [hstart]
    obtain ⟨r1, r2, r3, r4⟩ := hg1.run hr1
    have hplan : s1.left.Perm (due s.nextTick s.queue) := by
      rw [St.left, if_pos hr1]
      have h1 := all_plan s1.grp r1
      rw [r2, List.append_nil] at h1
      refine h1.symm.trans ?_
      rw [hstart]
      refine (sort_all _ _ _).trans ((foldl_addEvt_all _ _).trans ?_)
      rw [reset_all]; simp
    have htok : ok → TOk s1.trace := fun hk => by
      rw [hstart]
      exact (h.tok hk).append (by simp)
    have hUp : (s1.left.filter (isU coll)).Perm ((due s.nextTick s.queue).filter (isU coll)) := hplan.filter _
    have hone' : OneMiddle ok (s1.left.filter (isU coll)) := fun a ha b hb => hone a (hUp.mem_iff.1 ha) b (hUp.mem_iff.1 hb)
    have hLq : ∀ x ∈ s1.left.filter (isC coll), x ∈ s.queue.filter (isC coll) := fun x hx => by
      obtain ⟨h1, h2⟩ := List.mem_filter.1 hx
      exact List.mem_filter.2 ⟨(List.mem_filter.1 (hplan.mem_iff.1 h1)).1, h2⟩
    have hP : ∀ x ∈ s1.left.filter (isU coll), x.ord < s.counter := fun x hx => by
      obtain ⟨h1, h2⟩ := List.mem_filter.1 hx
      exact (hb.bound x (List.mem_append_left _ (hLq x (List.mem_filter.2 ⟨h1, by rw [isC_eq (halt := fun _ _ => false), h2]; rfl⟩)))).1
    have h0 : InMore coll more ok e s.nextTick s.trace ix s.counter (s1.left.filter (isU coll)) { b with K := later s.nextTick b.K } (s1.left.any (isStop coll (haltOf more))) s1 := by
      refine ⟨.inl hr1, hg1, hi1, hp1, hpr1, htok, by rw [hstart]; exact h.voided, by rw [hstart], fun x hx => ?_, by rw [hstart]; exact Nat.le_refl _, ⟨[.start s.nextTick], by rw [hstart], ?_, by simp, ix, fun _ _ => rfl, ?_⟩,
        .inl ⟨by rw [hstart]; exact hg, rfl⟩, fun hc => by rw [hr1] at hc; cases hc⟩
      · simpa using (List.mem_filter.1 (hplan.mem_iff.1 (List.mem_filter.1 hx).1)).2
      · simp [ranU]
      · show DR coll ix { b with K := later s.nextTick b.K } _ _
        exact hb.take (by rw [hstart]) (by rw [hstart]; exact Nat.le_refl _) (by rw [hstart]) hLq
    have ho : OpInv s1 := by
      intro _ hx
      have := startExecute_executing e s
      rw [hs1, h.ginv.idle (by rw [h.ph]; simp)] at this
      rw [this] at hx; cases hx
    obtain ⟨hin, hnr⟩ := finishTick_ind (finish := finishTick e) (e := e) (fun _ => rfl) (fun _ _ => rfl) _ (fun s hs => hs.ginv) (fun a b hr hm ha => InMore.step hj hd hone' hP hr hm ha) fuel s1 s' hf ho h0
    have hid : s'.phase = .idle := by rcases hin.ph with h | h; exact absurd h hnr; exact h
    have hleft : s'.left = [] := by rw [St.left, if_neg hnr]
    obtain ⟨tl, t1, t2, t3, ix', hix, hdr⟩ := hin.tr
    have hdrop : s'.trace.drop s.trace.length = tl := by rw [t1]; simp
    rw [hleft] at t2 hdr
    simp only [List.filter_nil, List.append_nil] at t2 hdr
    refine ⟨⟨hid, hin.ginv, hin.inv, hin.pinv, hin.prio, hin.tok, hin.voided, hin.sync hid⟩, ?_, ?_, ?_, ?_, ?_⟩
    · rw [hdrop, t2, St.left, if_pos hr1]
      exact (plan_tick hi1 hp1 hpr1 htok hr1).filter _
    · rw [hdrop, t2]; exact hUp
    · rw [hdrop]; exact t3
    · rw [hdrop]; exact ⟨ix', hdr⟩
    · have := hin.go
      rw [hleft] at this
      have hany : s1.left.any (isStop coll (haltOf more)) = (due s.nextTick s.queue).any (isStop coll (haltOf more)) := any_stop (coll := coll) (halt := haltOf more) (hplan.filter _)
      rw [hany] at this
      rcases this with ⟨h1, h2⟩ | ⟨h1, h2⟩
      · rw [h1, ← h2]; rfl
      · rw [h1, h2]; rfl

theorem more_round {e : Env} {fuel : Nat} {m : Int} {s s' : St} {ix : Nat → Nat} {b : Board} (hj : Joint coll more e) (hd : ok → Disciplined e) (h : Idle ok e s) (hb : DR coll ix b [] s) (hg : s.go = true)
    (hm : m ≤ s.nextTick) (hone : OneMiddle ok ((due m s.queue).filter (isU coll))) (hf : round e fuel (some m) s = some s') : TickedMore coll more ok e m ix b s s' := by
  unfold round at hf
  split at hf
  · rename_i hc
    cases hc
    exact more_enter hj hd h hb hg hone hf
  · rename_i hc
    cases hf
    have hlt : m < s.nextTick := by
      have : s.nextTick ≠ m := fun h => hc (by rw [h])
      omega
    obtain ⟨h1, h2⟩ := due_nil fun x hx => Int.lt_of_lt_of_le hlt (Idle.head_le h x hx)
    have hs : Schedule.step e s .skip = { s with nextTick := schedNextTick s } := by simp only [Schedule.step, if_pos (And.intro h.ph hg)]
    rw [hs]
    exact more_nothing h hb hg h1 h2 rfl

end Repast.Mpi.Run
