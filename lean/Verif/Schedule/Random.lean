import Verif.Schedule.Props

/-! C07: the order of RANDOM events. That each RANDOM event of a tick runs exactly once whatever the generator returns is
part of C02, C03 and C10, which quantify over the generator. Here: every order can be produced. -/
namespace Repast.Schedule

/-- RANDOM and BY_PRIORITY events. -/
def isMiddle (x : Ev) : Bool := decide (x.ptype = .random) || decide (x.ptype = .byPriority)

def isRandom (x : Ev) : Bool := decide (x.ptype = .random)
def isFirst (x : Ev) : Bool := decide (x.ptype = .first)
def isLast (x : Ev) : Bool := decide (x.ptype = .last)

theorem insertIdx_length (u v : List Ev) (ev : Ev) : (u ++ v).insertIdx u.length ev = u ++ ev :: v := by
  induction u with
  | nil => rfl
  | cons x u ih => simp [List.insertIdx_succ_cons, ih]

/-- Every interleaving can be produced by choosing the insertion indices. -/
theorem exists_picks (l : List Ev) : ∀ (p : Ev → Bool) (acc σ : List Ev), l.Nodup → (∀ x ∈ l, p x = false) →
    σ.filter p = acc → (σ.filter (fun x => !p x)).Perm l →
    ∃ ps : List Nat, ∀ (e : Env) (k : Nat), (∀ j n, e.pick (k+j) n = min n (ps.getD j 0)) → insertRandom e k acc l = σ := by
  induction l with
  | nil =>
    intro p acc σ _ _ hf hl
    refine ⟨[], fun e k _ => ?_⟩
    have : σ.filter p = σ := by
      rw [List.filter_eq_self]
      have := List.perm_nil.1 hl
      rw [List.filter_eq_nil_iff] at this
      simpa using this
    rw [insertRandom, ← hf, this]
  | cons ev rest ih =>
    intro p acc σ hnd hp hf hl
    rw [List.nodup_cons] at hnd
    let p' : Ev → Bool := fun x => p x || x == ev
    have hpev : p ev = false := hp ev (by simp)
    have hevσ : ev ∈ σ.filter p' := by
      have : ev ∈ σ.filter (fun x => !p x) := hl.mem_iff.2 (by simp)
      rw [List.mem_filter] at this ⊢
      exact ⟨this.1, by simp [p']⟩
    have hcount : (σ.filter p').count ev = 1 := by
      rw [List.count_filter (by simp [p'])]
      have h1 : (σ.filter (fun x => !p x)).count ev = σ.count ev := List.count_filter (by simp [hpev])
      rw [← h1, hl.count_eq, List.count_cons_self, List.count_eq_zero.2 hnd.1]
    obtain ⟨u, v, huv⟩ := List.append_of_mem hevσ
    have hnu : ev ∉ u ∧ ev ∉ v := by
      rw [huv, List.count_append, List.count_cons_self] at hcount
      exact ⟨List.count_eq_zero.1 (by omega), List.count_eq_zero.1 (by omega)⟩
    have hpu : ∀ x ∈ u ++ v, p x = true := by
      intro x hx
      have hxm : x ∈ σ.filter p' := by
        rw [huv]; rcases List.mem_append.1 hx with h | h
        · exact List.mem_append_left _ h
        · exact List.mem_append_right _ (List.mem_cons_of_mem _ h)
      have := (List.mem_filter.1 hxm).2
      simp only [p', Bool.or_eq_true, beq_iff_eq] at this
      rcases this with h | h
      · exact h
      · subst h
        rcases List.mem_append.1 hx with h | h
        · exact absurd h hnu.1
        · exact absurd h hnu.2
    have hacc : acc = u ++ v := by
      have h1 : (σ.filter p').filter p = σ.filter p := by
        rw [List.filter_filter]
        congr 1
        funext x
        simp only [p']
        cases p x <;> simp
      rw [huv, hf] at h1
      rw [← h1, List.filter_append, List.filter_cons_of_neg (by simp [hpev]), ← List.filter_append]
      exact List.filter_eq_self.2 hpu
    obtain ⟨ps, hps⟩ := ih p' (σ.filter p') σ hnd.2 (by
        intro x hx
        simp only [p', hp x (List.mem_cons_of_mem _ hx), Bool.false_or, beq_eq_false_iff_ne]
        rintro rfl; exact hnd.1 hx) rfl (by
        have h1 : (σ.filter (fun x => !p x)).filter (fun x => !(x == ev)) = σ.filter (fun x => !p' x) := by
          rw [List.filter_filter]
          congr 1
          funext x
          simp [p', Bool.and_comm]
        rw [← h1]
        have h2 := hl.filter (fun x => !(x == ev))
        rw [List.filter_cons_of_neg (by simp)] at h2
        have h3 : rest.filter (fun x => !(x == ev)) = rest := by
          rw [List.filter_eq_self]
          intro x hx
          simp only [Bool.not_eq_true', beq_eq_false_iff_ne]
          rintro rfl; exact hnd.1 hx
        rwa [h3] at h2)
    refine ⟨u.length :: ps, fun e k hk => ?_⟩
    rw [insertRandom]
    have hins : acc.insertIdx (e.pick k acc.length) ev = σ.filter p' := by
      have h0 := hk 0 acc.length
      simp only [Nat.add_zero, List.getD_cons_zero] at h0
      rw [h0, huv, hacc, Nat.min_eq_right (by simp)]
      exact insertIdx_length u v ev
    rw [hins]
    apply hps
    intro j n
    have := hk (j+1) n
    simpa [Nat.add_assoc, Nat.add_comm 1 j] using this

theorem runs_append (a b : List Obs) : runs (a ++ b) = runs a ++ runs b := by simp [runs, List.filterMap_append]

/-- Executing events whose callables make no calls. -/
theorem executeEvts_quiet (e : Env) (hprog : ∀ tr ev, e.prog tr ev = []) (w : Which) (l : List Ev) (s : St)
    (hint : s.grp.interrupted = false) (hv : ∀ x ∈ l, x.id ∉ s.voided) :
    (executeEvts e w l s).2 = false ∧
    runs (executeEvts e w l s).1.trace = runs s.trace ++ l.map (fun x => (x.id, s.tick)) ∧
    (executeEvts e w l s).1.grp.interrupted = false ∧ (executeEvts e w l s).1.voided = s.voided ∧
    (executeEvts e w l s).1.tick = s.tick ∧ (∀ w', w' ≠ w → (executeEvts e w l s).1.grp.get w' = s.grp.get w') := by
  induction l generalizing s with
  | nil => simp [executeEvts, hint]
  | cons ev rest ih =>
    have hev : ev.id ∉ s.voided := hv ev (by simp)
    generalize hs1 : runEv e { s with grp := s.grp.set rest w } ev = s1
    have f1 : s1.grp = { s.grp.set rest w with size := (s.grp.set rest w).size - 1 } ∧ s1.voided = s.voided ∧ s1.tick = s.tick ∧
        runs s1.trace = runs s.trace ++ [(ev.id, s.tick)] := by
      have hr : ∀ v : St, (rescheduleEv e v ev).grp = v.grp ∧ (rescheduleEv e v ev).voided = v.voided ∧
          (rescheduleEv e v ev).tick = v.tick ∧ (rescheduleEv e v ev).trace = v.trace := by
        intro v; unfold rescheduleEv; split
        · simp
        · split <;> simp
      rw [← hs1]
      simp only [runEv, hr, callEv, hev, if_false]
      split
      · refine ⟨rfl, rfl, rfl, ?_⟩
        simp only [applyAct, runs_append]
        simp [runs]
      · simp only [hprog, List.foldl_nil]
        refine ⟨trivial, trivial, trivial, ?_⟩
        simp only [runs_append]
        simp [runs]
    obtain ⟨g1, g2, g3, g4⟩ := f1
    have hint1 : s1.grp.interrupted = false := by rw [g1]; simp [set_interrupted, hint]
    obtain ⟨i1, i2, i3, i4, i5, i6⟩ := ih s1 hint1 (fun x hx => by rw [g2]; exact hv x (List.mem_cons_of_mem _ hx))
    simp only [executeEvts, hs1, hint1, Bool.false_eq_true, if_false]
    refine ⟨i1, ?_, i3, by rw [i4, g2], by rw [i5, g3], ?_⟩
    · rw [i2, g4, g3]; simp
    · intro w' hw'
      rw [i6 w' hw', g1]
      cases w <;> cases w' <;> first | rfl | exact absurd rfl hw'

/-- What a tick's group looks like when it is built. -/
theorem foldl_addEvt_lists (l : List Ev) (g : Group) (h : g.executing = false) :
    (l.foldl Group.addEvt g).first = g.first ++ l.filter isFirst ∧ (l.foldl Group.addEvt g).last = g.last ++ l.filter isLast ∧
    (l.foldl Group.addEvt g).random = g.random ++ l.filter isRandom ∧
    (l.foldl Group.addEvt g).prioritized = g.prioritized ++ l.filter isBP ∧ (l.foldl Group.addEvt g).interrupted = g.interrupted ∧
    (l.foldl Group.addEvt g).size = g.size + l.length := by
  induction l generalizing g with
  | nil => simp
  | cons ev l ih =>
    have hadd : g.addEvt ev = g.addEvt' ev := by simp [Group.addEvt, h]
    have hx : (g.addEvt ev).executing = false := by
      rw [hadd]; unfold Group.addEvt'; split <;> exact h
    obtain ⟨h1, h2, h3, h4, h5, h6⟩ := ih (g.addEvt ev) hx
    rw [List.foldl_cons, h1, h2, h3, h4, h5, h6, hadd]
    unfold Group.addEvt'
    cases hp : ev.ptype <;> simp [isFirst, isLast, isRandom, isBP, hp] <;> omega

theorem ordSort_eq {l : List Ev} (h : l.Pairwise (fun a b => a.ord < b.ord)) : ordSort l = l :=
  stableSort_of_pairwise (h.imp (fun h => by simp; omega))

/-- `e` with another random generator. -/
def withRng (e : Env) (pick : Nat → Nat → Nat) (pick_le : ∀ k n, pick k n ≤ n) (shuf : Nat → List Ev → List Ev)
    (shuf_perm : ∀ k l, (shuf k l).Perm l) : Env :=
  { e with pick := pick, pick_le := pick_le, shuf := shuf, shuf_perm := shuf_perm }

/-- Every order can be produced. In any reachable state, with `due` the events pending for the next tick `t`: let `σ` be any
arrangement of the RANDOM and BY_PRIORITY events of `due` in which the BY_PRIORITY ones are in their sorted order. Then for some
outcome of the random generator the tick runs the FIRST events, then exactly `σ`, then the LAST events. (The callables make no
API calls here.) -/
theorem C07_every_order (e : Env) (ops : List Op) (t : Int) (hprog : ∀ tr ev, e.prog tr ev = [])
    (hidle : (run e ops).phase = .idle) (hgo : (run e ops).go = true) (ht : headTick (run e ops) = some t)
    (due : List Ev) (hdue : due = (run e ops).queue.filter (fun x => decide (x.at_ = t)))
    (hv : ∀ x ∈ due, ¬ IsVoided x.id (run e ops).trace)
    (σ : List Ev) (hσ : σ.Perm (due.filter isMiddle)) (hbp : σ.filter isBP = e.psort (due.filter isBP)) :
    ∃ pick pick_le shuf shuf_perm,
      let e' := withRng e pick pick_le shuf shuf_perm
      runs (step e' (step e' (run e ops) .enter) .loop).trace =
        runs (run e ops).trace ++ (due.filter isFirst ++ σ ++ due.filter isLast).map (fun x => (x.id, t)) := by
  have hi := run_inv e ops
  have hg := run_ginv e ops
  have hf := run_facts e ops
  have hvv : ∀ x ∈ due, x.id ∉ (run e ops).voided := fun x hx h => hv x hx ((hf.voided _).1 h)
  generalize run e ops = s at *
  have hx : s.grp.executing = false := hg.idle (by simp [hidle])
  obtain ⟨q0, qs, hq⟩ : ∃ q0 qs, s.queue = q0 :: qs := by
    unfold headTick at ht
    cases hq : s.queue with
    | nil => rw [hq] at ht; simp at ht
    | cons a b => exact ⟨a, b, rfl⟩
  have hq0 : q0.at_ = t := by unfold headTick at ht; rw [hq] at ht; simpa using ht
  have hle : ∀ x ∈ s.queue, t ≤ x.at_ := by
    intro x hx
    obtain ⟨t', h1, h2⟩ := headTick_le hi hx
    rw [ht] at h1; simp at h1; omega
  have htake : s.queue.takeWhile (fun x => decide (x.at_ = t)) = due := by
    rw [hdue]
    have hsplit := List.takeWhile_append_dropWhile (p := fun x : Ev => decide (x.at_ = t)) (l := s.queue)
    have h2 : (s.queue.dropWhile (fun x => decide (x.at_ = t))).filter (fun x => decide (x.at_ = t)) = [] := by
      rw [List.filter_eq_nil_iff]
      intro x hx
      have := mem_dropWhile_gt hi.sorted hle x hx
      simp; omega
    have h1 : (s.queue.takeWhile (fun x => decide (x.at_ = t))).filter (fun x => decide (x.at_ = t)) =
        s.queue.takeWhile (fun x => decide (x.at_ = t)) := by
      rw [List.filter_eq_self]
      intro x hx
      simpa using mem_takeWhile_eq x hx
    conv => rhs; rw [← hsplit, List.filter_append, h1, h2, List.append_nil]
  have hord : due.Pairwise (fun a b => a.ord < b.ord) := by
    have h1 : due.Pairwise (fun a b => qlt a b = true) := by rw [hdue]; exact hi.sorted.filter _
    refine List.Pairwise.imp_of_mem ?_ h1
    intro a b ha hb hab
    rw [hdue, List.mem_filter] at ha hb
    simp only [qlt, Bool.or_eq_true, decide_eq_true_eq, Bool.and_eq_true] at hab ha hb
    omega
  have hnd : due.Nodup := hord.imp (fun {a b} h (heq : a = b) => by subst heq; omega)
  have hrb : ∀ x ∈ due.filter isRandom, isBP x = false := by
    intro x hx
    have := (List.mem_filter.1 hx).2
    simp only [isRandom, decide_eq_true_eq] at this
    simp [isBP, this]
  -- the RANDOM part of σ
  have hσr : (σ.filter (fun x => !isBP x)).Perm (due.filter isRandom) := by
    have := hσ.filter (fun x => !isBP x)
    rw [List.filter_filter] at this
    have heq : due.filter (fun x => !isBP x && isMiddle x) = due.filter isRandom := by
      congr 1
      funext x
      cases hp : x.ptype <;> simp [isBP, isMiddle, isRandom, hp]
    rwa [heq] at this
  obtain ⟨ps, hps⟩ := exists_picks (due.filter isRandom) isBP (σ.filter isBP) σ (hnd.filter _) hrb rfl hσr
  have hbpe : ∀ x, isBP x = true → isMiddle x = true := by
    intro x; simp only [isBP, isMiddle]; cases x.ptype <;> simp
  refine ⟨fun k n => min n (ps.getD (k - s.rnd) 0), fun k n => Nat.min_le_left _ _,
    fun k l => if h : σ.Perm l then σ else l, fun k l => by simp only []; split <;> simp_all, ?_⟩
  intro e'
  have hprog' : ∀ tr ev, e'.prog tr ev = [] := hprog
  -- the group built for the tick
  have hgrp : ∀ g : Group, g = (due.foldl Group.addEvt s.grp.reset) →
      (g.sort e' s.rnd).1.first = due.filter isFirst ∧ (g.sort e' s.rnd).1.prioritized = σ ∧
      (g.sort e' s.rnd).1.last = due.filter isLast ∧ (g.sort e' s.rnd).1.interrupted = false ∧ (g.sort e' s.rnd).1.size = due.length := by
    intro g hge
    obtain ⟨l1, l2, l3, l4, l5, l6⟩ := foldl_addEvt_lists due s.grp.reset hx
    rw [← hge] at l1 l2 l3 l4 l5 l6
    simp only [Group.reset, List.nil_append, Int.zero_add] at l1 l2 l3 l4 l5 l6
    have o1 : ordSort (due.filter isFirst) = due.filter isFirst := ordSort_eq (hord.filter _)
    have o2 : ordSort (due.filter isLast) = due.filter isLast := ordSort_eq (hord.filter _)
    have o3 : ordSort (due.filter isRandom) = due.filter isRandom := ordSort_eq (hord.filter _)
    have o4 : ordSort (due.filter isBP) = due.filter isBP := ordSort_eq (hord.filter _)
    unfold Group.sort
    simp only [l1, l2, l3, l4, l5, l6, o1, o2, o3, o4]
    split
    · rename_i hem
      rw [List.isEmpty_iff] at hem
      refine ⟨rfl, ?_, rfl, rfl, rfl⟩
      have h0 : σ.filter isBP = [] := by
        have h1 := e.psort_perm (due.filter isBP)
        rw [hem] at h1 hbp
        rw [hbp]
        exact List.perm_nil.1 h1
      have h1 : σ.filter (fun x => !isBP x) = σ := by
        rw [List.filter_eq_self]
        rw [List.filter_eq_nil_iff] at h0
        simpa using h0
      rw [h1] at hσr
      simp only [hem, List.nil_append]
      show (if h : σ.Perm (due.filter isRandom) then σ else _) = σ
      rw [dif_pos hσr]
    · refine ⟨rfl, ?_, rfl, rfl, rfl⟩
      show insertRandom e' s.rnd (e.psort (due.filter isBP)) (due.filter isRandom) = σ
      rw [← hbp]
      apply hps
      intro j n
      show min n (ps.getD (s.rnd + j - s.rnd) 0) = _
      rw [Nat.add_sub_cancel_left]
  obtain ⟨s1, hs1⟩ : ∃ s1, s1 = step e' s .enter := ⟨_, rfl⟩
  have hs1' : s1 = { s with
      tick := t, queue := s.queue.dropWhile (fun x => decide (x.at_ = t)),
      grp := ((due.foldl Group.addEvt s.grp.reset).sort e' s.rnd).1,
      rnd := ((due.foldl Group.addEvt s.grp.reset).sort e' s.rnd).2, phase := .running, trace := s.trace ++ [.start t] } := by
    rw [hs1, step, if_pos ⟨hidle, hgo⟩]
    unfold startExecute
    split
    · rename_i h; rw [hq] at h; simp at h
    · rename_i x l h
      have : x.at_ = t := by rw [hq] at h; simp at h; rw [← h.1]; exact hq0
      simp only [this, htake]
  obtain ⟨k1, k2, k3, k4, k5⟩ := hgrp _ rfl
  have a1 : s1.grp.first = due.filter isFirst := by rw [hs1']; exact k1
  have a2 : s1.grp.prioritized = σ := by rw [hs1']; exact k2
  have a3 : s1.grp.last = due.filter isLast := by rw [hs1']; exact k3
  have a4 : s1.grp.interrupted = false := by rw [hs1']; exact k4
  have a5 : s1.grp.size = due.length := by rw [hs1']; exact k5
  have a6 : s1.tick = t := by rw [hs1']
  have a7 : s1.voided = s.voided := by rw [hs1']
  have a8 : runs s1.trace = runs s.trace := by rw [hs1', runs_append]; simp [runs]
  have a9 : s1.phase = .running := by rw [hs1']
  rw [← hs1]
  have hpos : 0 < s1.grp.size := by
    rw [a5]
    have : q0 ∈ due := by rw [hdue, hq, List.mem_filter]; simp [hq0]
    have := List.length_pos_of_mem this
    omega
  have hsub : ∀ x ∈ σ, x ∈ due := fun x hx => (List.mem_filter.1 (hσ.mem_iff.1 hx)).1
  have hloop : step e' s1 .loop = groupExecute e' s1 := by rw [step, if_pos a9, if_pos hpos]
  rw [hloop, groupExecute]
  clear hs1 hs1' hgrp
  obtain ⟨b1, b2, b3, b4, b5, b6⟩ := executeEvts_quiet e' hprog' .first s1.grp.first
    { s1 with grp := { s1.grp with executing := true } } a4
    (by intro x hx; rw [a1] at hx; simp only [a7]; exact hvv x (List.mem_filter.1 hx).1)
  generalize executeEvts e' .first s1.grp.first
    { s1 with grp := { s1.grp with executing := true } } = r1 at *
  simp only [b1, Bool.false_eq_true, if_false]
  have b6p : r1.1.grp.prioritized = σ := (b6 .prioritized (by simp)).trans a2
  have b6l : r1.1.grp.last = due.filter isLast := (b6 .last (by simp)).trans a3
  obtain ⟨c1, c2, c3, c4, c5, c6⟩ := executeEvts_quiet e' hprog' .prioritized r1.1.grp.prioritized r1.1 b3
    (by intro x hx; rw [b6p] at hx; rw [b4]; simp only [a7]; exact hvv x (hsub x hx))
  generalize executeEvts e' .prioritized r1.1.grp.prioritized r1.1 = r2 at *
  simp only [c1, Bool.false_eq_true, if_false]
  have c6l : r2.1.grp.last = due.filter isLast := (c6 .last (by simp)).trans b6l
  obtain ⟨d1, d2, d3, d4, d5, d6⟩ := executeEvts_quiet e' hprog' .last r2.1.grp.last r2.1 c3
    (by intro x hx; rw [c6l] at hx; rw [c4, b4]; simp only [a7]; exact hvv x (List.mem_filter.1 hx).1)
  simp only [d1, Bool.false_eq_true, if_false]
  rw [d2, c2, b2, c5, b5]
  simp only [a8, a6, a1, b6p, c6l, List.map_append, List.append_assoc]

/-- Three RANDOM events, two BY_PRIORITY events, a FIRST and a LAST event. -/
example : let s := run (exEnv fun _ _ => []) [.act (one 5 .random none 1), .act (one 5 .byPriority (some 2) 2), .act (one 5 .random none 3),
      .act (one 5 .byPriority (some 1) 4), .act (one 5 .random none 5), .act (one 5 .first none 6), .act (one 5 .last none 7)]
    s.phase = .idle ∧ s.go = true ∧ headTick s = some 5 ∧ ((s.queue.filter (fun x => decide (x.at_ = 5))).filter isRandom).length = 3 ∧
    (exEnv fun _ _ => []).psort ((s.queue.filter (fun x => decide (x.at_ = 5))).filter isBP) =
      [⟨3, 5, 3, .byPriority, some 1, none, .user 4, none⟩, ⟨1, 5, 1, .byPriority, some 2, none, .user 2, none⟩] := by decide +kernel

end Repast.Schedule
