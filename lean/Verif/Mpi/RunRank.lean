import Verif.Mpi.Runner
import Verif.Schedule.Collective
import Verif.Schedule.Stop

/-! C74: one rank in the loop of `SharedScheduleRunner.execute`: which of its callables that all ranks call together it calls, and when. -/
namespace Repast.Mpi.Run
open Repast.Schedule

variable {coll : Nat → Bool} {halt : Nat → Int → Bool} {ok : Prop}

theorem Idle.head_le {e : Env} {s : St} (h : Idle ok e s) : ∀ x ∈ s.queue, s.nextTick ≤ x.at_ := by
  intro x hx
  rcases h.sync.head with ⟨hq, _⟩ | ⟨ev, l, hq, hn⟩
  · rw [hq] at hx; cases hx
  · have hs := h.inv.sorted
    rw [hq] at hx hs
    rw [hn]
    rcases List.mem_cons.1 hx with rfl | hx
    · exact Int.le_refl _
    · exact sorted_head_le hs x hx

theorem due_nil {m : Int} {l : List Ev} (h : ∀ x ∈ l, m < x.at_) : due m l = [] ∧ later m l = l := by
  refine ⟨List.filter_eq_nil_iff.2 ?_, List.filter_eq_self.2 ?_⟩
  · intro x hx; have := h x hx; simp only [decide_eq_true_eq]; omega
  · intro x hx; have := h x hx; simp only [Bool.not_eq_true', decide_eq_false_iff_not]; omega

/-- Nothing is due: nothing changes but the next tick. -/
theorem ticked_nothing {e : Env} {m : Int} {s : St} (h : Idle ok e s) (hg : s.go = true) (hd : due m s.queue = []) (hl : later m s.queue = s.queue) {k : Int} (hk : k = schedNextTick s) :
    Ticked coll halt ok e m s { s with nextTick := k } := by
  subst hk
  have hm := MStep.skip (e := e) s h.ph hg
  refine ⟨⟨h.ph, h.ginv.step hm, h.inv.step h.ginv hm, h.pinv.step h.ginv hm, .other (by rw [h.ph]; simp), h.tok, h.voided, rfl⟩, ?_, ?_, ?_, ?_, ?_, rfl⟩
  · show (ranU coll (s.trace.drop s.trace.length)).Pairwise _
    rw [List.drop_length]; exact List.Pairwise.nil
  · show (ranU coll (s.trace.drop s.trace.length)).Perm _
    rw [List.drop_length, hd]; exact List.Perm.refl _
  · show ∀ o ∈ s.trace.drop s.trace.length, _
    rw [List.drop_length]; intro o ho; cases ho
  · rw [hd, hl]; simp
  · rw [hd]; exact hg

theorem ticked_enter {e : Env} {fuel : Nat} {s s' : St} (hq : Quiet coll halt e) (hd : ok → Disciplined e) (h : Idle ok e s) (hg : s.go = true) (hone : OneMiddle ok ((due s.nextTick s.queue).filter (isU coll)))
    (hf : finishTick e fuel (Schedule.step e s .enter) = some s') : Ticked coll halt ok e s.nextTick s s' := by
  rcases h.sync.head with ⟨hqu, hn⟩ | ⟨ev, l, hqu, hn⟩
  · have hs : Schedule.step e s .enter = { s with nextTick := schedNextTick s } := by
      simp only [Schedule.step, if_pos (And.intro h.ph hg), startExecute, hqu]
    rw [hs] at hf
    cases fuel with
    | zero => cases hf
    | succ f =>
      rw [finishTick, if_neg (by simp [h.ph])] at hf
      cases hf
      exact ticked_nothing h hg (by rw [hqu]; rfl) (by rw [hqu]; rfl) rfl
  · have hm := MStep.enter (e := e) s h.ph hg
    have hse : Schedule.step e s .enter = startExecute e s := by simp only [Schedule.step, if_pos (And.intro h.ph hg)]
    rw [hse] at hf
    have hstart : startExecute e s = { s with tick := ev.at_, queue := s.queue.dropWhile (fun x => decide (x.at_ = ev.at_)), grp := (((s.queue.takeWhile (fun x => decide (x.at_ = ev.at_))).foldl Group.addEvt s.grp.reset).sort e s.rnd).1, rnd := (((s.queue.takeWhile (fun x => decide (x.at_ = ev.at_))).foldl Group.addEvt s.grp.reset).sort e s.rnd).2, phase := .running, trace := s.trace ++ [.start ev.at_] } := by
      unfold startExecute; rw [hqu]
    have hle : ∀ x ∈ s.queue, ev.at_ ≤ x.at_ := by rw [← hn]; exact Idle.head_le h
    obtain ⟨htw, hdw⟩ := takeWhile_due h.inv.sorted hle
    rw [htw, hdw, ← hn] at hstart
    have hg1 := h.ginv.step hm
    have hi1 := h.inv.step h.ginv hm
    have hp1 := h.pinv.step h.ginv hm
    have hpr1 := h.prio.step h.ginv h.inv hi1 h.pinv hm
    generalize hs1 : startExecute e s = s1 at *
    have hr1 : s1.phase = .running := by rw [hstart]
    obtain ⟨r1, r2, r3, r4⟩ := hg1.run hr1
    have hplan : s1.left.Perm (due s.nextTick s.queue) := by
      rw [St.left, if_pos hr1]
      have h1 := all_plan s1.grp r1
      rw [r2, List.append_nil] at h1
      refine h1.symm.trans ?_
      rw [hstart]
      refine (sort_all _ _ _).trans ((foldl_addEvt_all _ _).trans ?_)
      rw [reset_all]; simp
    have htok : ok → TOk s1.trace := fun hk => by
      rw [hstart]
      exact (h.tok hk).append (by simp)
    have hUp : (s1.left.filter (isU coll)).Perm ((due s.nextTick s.queue).filter (isU coll)) := hplan.filter _
    have hone' : OneMiddle ok (s1.left.filter (isU coll)) := fun a ha b hb => hone a (hUp.mem_iff.1 ha) b (hUp.mem_iff.1 hb)
    have h0 : InTick coll halt ok e s.trace (s1.left.filter (isU coll)) (s1.queue.filter (isC coll) ++ (s1.left.filter (isC coll)).filterMap (nextOf e)) (s1.left.any (isStop coll halt)) (s.endEvts.filter fun p => coll p.2) s1 := by
      refine ⟨.inl hr1, hg1, hi1, hp1, hpr1, htok, by rw [hstart]; exact h.voided, ⟨[.start s.nextTick], by rw [hstart], ?_, by simp⟩, List.Perm.refl _, .inl ⟨by rw [hstart]; exact hg, rfl⟩, by rw [hstart],
        fun hc => by rw [hr1] at hc; cases hc⟩
      simp [ranU]
    have ho : OpInv s1 := by
      intro _ hx
      have := startExecute_executing e s
      rw [hs1, h.ginv.idle (by rw [h.ph]; simp)] at this
      rw [this] at hx; cases hx
    obtain ⟨hin, hnr⟩ := finishTick_ind (finish := finishTick e) (e := e) (fun _ => rfl) (fun _ _ => rfl) _ (fun s hs => hs.ginv) (fun a b hr hm ha => InTick.step hq hd hone' hr hm ha) fuel s1 s' hf ho h0
    have hid : s'.phase = .idle := by rcases hin.ph with h | h; exact absurd h hnr; exact h
    have hleft : s'.left = [] := by rw [St.left, if_neg hnr]
    obtain ⟨tl, t1, t2, t3⟩ := hin.tr
    have hdrop : s'.trace.drop s.trace.length = tl := by rw [t1]; simp
    rw [hleft] at t2
    simp only [List.filter_nil, List.append_nil] at t2
    refine ⟨⟨hid, hin.ginv, hin.inv, hin.pinv, hin.prio, hin.tok, hin.voided, hin.sync hid⟩, ?_, ?_, ?_, ?_, ?_, hin.ends⟩
    · rw [hdrop, t2, St.left, if_pos hr1]
      exact (plan_tick hi1 hp1 hpr1 htok hr1).filter _
    · rw [hdrop, t2]; exact hUp
    · rw [hdrop]; exact t3
    · have := hin.queue
      rw [hleft] at this
      simp only [List.filter_nil, List.filterMap_nil, List.append_nil] at this
      refine this.trans ?_
      refine List.Perm.append ?_ ((hplan.filter _).filterMap _)
      rw [hstart]
    · have := hin.go
      rw [hleft] at this
      have hany : s1.left.any (isStop coll halt) = (due s.nextTick s.queue).any (isStop coll halt) := any_stop (coll := coll) (halt := halt) (hplan.filter _)
      rw [hany] at this
      rcases this with ⟨h1, h2⟩ | ⟨h1, h2⟩
      · rw [h1, ← h2]; rfl
      · rw [h1, h2]; rfl

theorem ticked_round {e : Env} {fuel : Nat} {m : Int} {s s' : St} (hq : Quiet coll halt e) (hd : ok → Disciplined e) (h : Idle ok e s) (hg : s.go = true) (hm : m ≤ s.nextTick) (hone : OneMiddle ok ((due m s.queue).filter (isU coll)))
    (hf : round e fuel (some m) s = some s') : Ticked coll halt ok e m s s' := by
  unfold round at hf
  split at hf
  · rename_i hc
    cases hc
    exact ticked_enter hq hd h hg hone hf
  · rename_i hc
    cases hf
    have hlt : m < s.nextTick := by
      have : s.nextTick ≠ m := fun h => hc (by rw [h])
      omega
    obtain ⟨h1, h2⟩ := due_nil fun x hx => Int.lt_of_lt_of_le hlt (Idle.head_le h x hx)
    have hs : Schedule.step e s .skip = { s with nextTick := schedNextTick s } := by simp only [Schedule.step, if_pos (And.intro h.ph hg)]
    rw [hs]
    exact ticked_nothing h hg h1 h2 rfl

end Repast.Mpi.Run
