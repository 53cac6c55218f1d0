import Verif.Checkpoint.Props

/-! C15 for checkpoints whose events have tags: the schedule is restored by one call of `restore_schedule` for each tag, and for
voided events. -/
namespace Repast.Checkpoint
open Repast.Schedule

/-- One call of `restore_schedule` (checkpoint.py:192-262) for each tag, as the documentation asks for: the first call with `initialize=True`, the others
with `initialize=False`; every event is recreated. -/
def restoreTags (sv : Saved) : List (Option Nat) → St → St
  | [], s => s
  | t :: ts, s => ts.foldl (fun r t => restore sv some t false true r) (restore sv some t true true s)

/-- What is restored after the calls for the tags `ts`. -/
structure Restored (s : St) (ts : List (Option Nat)) (r : St) : Prop where
  queue : r.queue.Perm (s.queue.filter (fun ev => !(s.voided.contains ev.id) && ts.contains ev.tag))
  sorted : Sorted r.queue
  ends : r.endEvts = if none ∈ ts then s.endEvts.filter (fun p => !(s.voided.contains p.1)) else []
  tick : r.tick = s.tick
  grp : r.grp = {}
  voided : r.voided = s.voided
  rnd : r.rnd = s.rnd
  go : r.go = true
  phase : r.phase = .idle
  lastCount : r.lastCount = s.lastCount
  counter : r.counter = s.lastCount + 1
  nextId : r.nextId = s.nextId

theorem recreatedEnd_tagged {s : St} {arr : List Ev} {t : Option Nat} (h : t ≠ none) : (save s arr).evts.filterMap (recreatedEnd some t) = [] := by
  rw [List.filterMap_eq_nil_iff]
  intro d hd
  simp only [save] at hd
  rcases List.mem_append.1 hd with hd | hd
  · obtain ⟨p, -, rfl⟩ := List.mem_map.1 hd
    simp [recreatedEnd, endData, Ne.symm h]
  · obtain ⟨ev, -, rfl⟩ := List.mem_map.1 hd
    obtain ⟨id, at_, ord, ptype, prio, interval, cb, tag⟩ := ev
    by_cases ht : tag = t
    · cases cb
      · cases interval <;> simp [recreatedEnd, toData, ht]
      · simp [recreatedEnd, toData, ht]
    · simp [recreatedEnd, toData, ht]

theorem filter_or_perm {α : Type} (p q : α → Bool) (l : List α) (h : ∀ x ∈ l, ¬(p x = true ∧ q x = true)) :
    (l.filter p ++ l.filter q).Perm (l.filter (fun x => p x || q x)) := by
  induction l with
  | nil => simp
  | cons x l ih =>
    have ih := ih (fun y hy => h y (List.mem_cons_of_mem _ hy))
    have hx := h x (by simp)
    cases hp : p x <;> cases hq : q x <;> simp only [List.filter_cons, hp, hq, Bool.or_self, Bool.or_true, Bool.true_or, Bool.false_eq_true, if_true, if_false, List.cons_append]
    · exact ih
    · exact List.perm_middle.trans (ih.cons x)
    · exact ih.cons x
    · exact absurd ⟨hp, hq⟩ hx

section
variable {e : Env} {ops : List Op} {arr : List Ev}

theorem tag_fold (harr : arr.Perm (run e ops).queue) (hlater : ∀ ev ∈ (run e ops).queue, (run e ops).tick < ev.at_) (t : Option Nat) (base : St)
    (hb : base.tick = (run e ops).tick) (hs : Sorted base.queue)
    (hn : ((base.queue ++ arr.filter (fun ev => !((run e ops).voided.contains ev.id) && decide (ev.tag = t))).map (·.ord)).Nodup) :
    let r := (save (run e ops) arr).evts.foldl (restoreEvt some t true) base
    r.queue.Perm (base.queue ++ (run e ops).queue.filter (fun ev => !((run e ops).voided.contains ev.id) && decide (ev.tag = t))) ∧ Sorted r.queue ∧
    r.endEvts = base.endEvts ++ (if t = none then (run e ops).endEvts.filter (fun p => !((run e ops).voided.contains p.1)) else []) ∧
    r.tick = base.tick ∧ r.grp = base.grp ∧ r.voided = base.voided ∧ r.rnd = base.rnd ∧ r.go = base.go ∧ r.phase = base.phase := by
  have hstd : ∀ ev ∈ arr, ev.cb = .stop → ev.ptype = .random ∧ ev.prio = none ∧ ev.interval = none ∧ ev.tag = none :=
    fun ev hev => run_queue_std e ops ev (harr.mem_iff.1 hev)
  have hl : ∀ d ∈ (save (run e ops) arr).evts, ∀ ev, recreated some t d = some ev → base.tick < d.at_ := by
    intro d hd ev hev
    have hk : d.kind ≠ .end_ := by
      intro hk
      simp [recreated, hk] at hev
    simp only [save] at hd
    rcases List.mem_append.1 hd with hd | hd
    · obtain ⟨p, -, rfl⟩ := List.mem_map.1 hd
      exact absurd rfl hk
    · obtain ⟨ev1, hev1, rfl⟩ := List.mem_map.1 hd
      rw [hb]
      exact hlater ev1 (harr.mem_iff.1 (List.mem_filter.1 hev1).1)
  obtain ⟨f1, f2, f3, f4, f5, f6, f7, f8⟩ := fold_facts (creator := some) (tag := t) (b := true) (save (run e ops) arr).evts base hl
  rw [recreated_saved hstd] at f1
  refine ⟨?_, ?_, ?_, f3, f4, f5, f6, f7, f8⟩
  · rw [f1]
    exact (foldl_qinsert_perm _ _).trans ((harr.filter _).append_left _)
  · rw [f1]
    exact foldl_qinsert_sorted _ _ hs hn
  · rw [f2]
    by_cases ht : t = none
    · subst ht
      rw [if_pos rfl, recreatedEnd_saved]
    · rw [if_neg ht, recreatedEnd_tagged ht]

theorem Restored.first (harr : arr.Perm (run e ops).queue) (hlater : ∀ ev ∈ (run e ops).queue, (run e ops).tick < ev.at_) (t : Option Nat) (s0 : St) :
    Restored (run e ops) [t] (restore (save (run e ops) arr) some t true true s0) := by
  obtain ⟨f1, f2, f3, f4, f5, f6, f7, f8, f9⟩ := tag_fold harr hlater t
    { St.init with tick := (run e ops).tick, voided := (run e ops).voided, rnd := (run e ops).rnd } rfl List.Pairwise.nil (by
      show ((([] : List Ev) ++ _).map _).Nodup
      rw [List.nil_append]
      refine (List.Sublist.map _ List.filter_sublist).nodup ?_
      rw [(harr.map _).nodup_iff]
      exact run_queue_ords e ops)
  refine ⟨?_, f2, ?_, f4, f5, f6, f7, f8, f9, rfl, rfl, ?_⟩
  · refine f1.trans ?_
    rw [show (({ St.init with tick := (run e ops).tick, voided := (run e ops).voided, rnd := (run e ops).rnd } : St).queue) = [] from rfl, List.nil_append]
    refine .of_eq (List.filter_congr fun ev _ => ?_)
    simp
  · refine f3.trans ?_
    rw [show (({ St.init with tick := (run e ops).tick, voided := (run e ops).voided, rnd := (run e ops).rnd } : St).endEvts) = [] from rfl, List.nil_append]
    by_cases ht : t = none
    · simp [ht]
    · simp [ht, Ne.symm ht]
  · show max 0 (run e ops).nextId = _
    simp

theorem Restored.next (harr : arr.Perm (run e ops).queue) (hlater : ∀ ev ∈ (run e ops).queue, (run e ops).tick < ev.at_) {ts : List (Option Nat)} {t : Option Nat}
    {r : St} (h : Restored (run e ops) ts r) (ht : t ∉ ts) : Restored (run e ops) (ts ++ [t]) (restore (save (run e ops) arr) some t false true r) := by
  have hsplit : (r.queue ++ (run e ops).queue.filter (fun ev => !((run e ops).voided.contains ev.id) && decide (ev.tag = t))).Perm
      ((run e ops).queue.filter (fun ev => !((run e ops).voided.contains ev.id) && (ts ++ [t]).contains ev.tag)) := by
    refine (h.queue.append_right _).trans ((filter_or_perm _ _ _ ?_).trans (.of_eq (List.filter_congr fun ev _ => ?_)))
    · rintro x - ⟨h1, h2⟩
      simp only [Bool.and_eq_true, decide_eq_true_eq, List.contains_iff_mem] at h1 h2
      exact ht (h2.2 ▸ h1.2)
    · rw [← Bool.and_or_distrib_left]
      congr 1
      rw [Bool.eq_iff_iff]
      simp
  obtain ⟨f1, f2, f3, f4, f5, f6, f7, f8, f9⟩ := tag_fold harr hlater t r h.tick h.sorted (by
      have : (r.queue ++ arr.filter (fun ev => !((run e ops).voided.contains ev.id) && decide (ev.tag = t))).Perm
          ((run e ops).queue.filter (fun ev => !((run e ops).voided.contains ev.id) && (ts ++ [t]).contains ev.tag)) :=
        ((harr.filter _).append_left _).trans hsplit
      rw [(this.map _).nodup_iff]
      exact (List.Sublist.map _ List.filter_sublist).nodup (run_queue_ords e ops))
  refine ⟨f1.trans hsplit, f2, ?_, f4.trans h.tick, f5.trans h.grp, f6.trans h.voided, f7.trans h.rnd, f8.trans h.go, f9.trans h.phase, rfl, rfl, ?_⟩
  · refine f3.trans ?_
    rw [h.ends]
    by_cases h0 : t = none
    · subst h0; simp [ht]
    · simp [h0, Ne.symm h0]
  · show max r.nextId (run e ops).nextId = _
    rw [h.nextId]; simp

theorem Restored.all (harr : arr.Perm (run e ops).queue) (hlater : ∀ ev ∈ (run e ops).queue, (run e ops).tick < ev.at_) (ts : List (Option Nat))
    (hts : ts ≠ []) (hn : ts.Nodup) (s0 : St) : Restored (run e ops) ts (restoreTags (save (run e ops) arr) ts s0) := by
  cases ts with
  | nil => exact absurd rfl hts
  | cons t ts =>
    have hgo : ∀ (ts done : List (Option Nat)) (r : St), (done ++ ts).Nodup → Restored (run e ops) done r →
        Restored (run e ops) (done ++ ts) (ts.foldl (fun r t => restore (save (run e ops) arr) some t false true r) r) := by
      intro ts
      induction ts with
      | nil => intro done r _ h; simpa using h
      | cons t ts ih =>
        intro done r hn h
        have h1 := ih (done ++ [t]) _ (by simpa using hn) (h.next harr hlater (t := t) (by
          intro hm
          exact (List.nodup_append.1 hn).2.2 t hm t (by simp) rfl))
        simpa using h1
    exact hgo ts [t] _ (by simpa using hn) (Restored.first harr hlater t s0)

end

/-- C15 with tags: restoring with one call for each tag, in any order, every tag of a pending event being among them (and the default tag, for the end
events), the execution after the checkpoint is the same as without it: for every later sequence of steps, the observations made after restoring (`tl`) are those made
on the original runner; callbacks recreated behave as the original ones. The schedule is between two ticks, something has been scheduled, no pending event is
voided or for the current tick. -/
theorem C15_tags_partial (e e' : Env) (ops : List Op) (arr : List Ev) (harr : arr.Perm (run e ops).queue) (tags : List (Option Nat)) (s0 : St)
    (hn : tags.Nodup) (hdef : none ∈ tags) (htag : ∀ ev ∈ (run e ops).queue, ev.tag ∈ tags)
    (hlater : ∀ ev ∈ (run e ops).queue, (run e ops).tick < ev.at_)
    (hidle : (run e ops).phase = .idle) (hgo : (run e ops).go = true) (hsome : (run e ops).counter ≠ 0)
    (hq : ∀ ev ∈ (run e ops).queue, ev.id ∉ (run e ops).voided) (hend : ∀ p ∈ (run e ops).endEvts, p.1 ∉ (run e ops).voided)
    (he : SameCallbacks e e' (run e ops).trace (restoreTags (save (run e ops) arr) tags s0).trace)
    (later : List Op) :
    ∃ tl, (later.foldl (step e) (run e ops)).trace = (run e ops).trace ++ tl ∧
      (later.foldl (step e') (restoreTags (save (run e ops) arr) tags s0)).trace = (restoreTags (save (run e ops) arr) tags s0).trace ++ tl := by
  have hR := Restored.all harr hlater tags (fun h => by rw [h] at hdef; simp at hdef) hn s0
  have hx := (run_ginv e ops).idle (by simp [hidle])
  have hc := (run_std e ops).count
  have hall : ∀ (l : List Op) (s r : St), Sim (run e ops).trace (restoreTags (save (run e ops) arr) tags s0).trace s r →
      Sim (run e ops).trace (restoreTags (save (run e ops) arr) tags s0).trace (l.foldl (step e) s) (l.foldl (step e') r) := by
    intro l
    induction l with
    | nil => exact fun s r h => h
    | cons o l ih => exact fun s r h => ih _ _ (h.step he o)
  refine (hall later _ _ ?_).hist
  generalize restoreTags (save (run e ops) arr) tags s0 = r at *
  have hq' : r.queue = (run e ops).queue := by
    refine sorted_perm_eq hR.sorted (run_inv e ops).sorted (hR.queue.trans (.of_eq (List.filter_eq_self.2 ?_)))
    intro ev hev
    have h1 := hq ev hev
    have h2 := htag ev hev
    simp [h1, h2]
  have hend' : r.endEvts = (run e ops).endEvts := by
    rw [hR.ends, if_pos hdef, List.filter_eq_self]
    intro p hp
    simpa using hend p hp
  have hcnt : r.counter = (run e ops).counter := by rw [hR.counter]; omega
  refine .of r.nextTick r.grp [] (by simp) ?_ (by simp [hidle]) ?_
  · rw [hx, hR.grp]
  · obtain ⟨-, -, -, h1, h2, h3, h4, h5, h6, h7, -, h8⟩ := hR
    rw [← hgo] at h5
    rw [← hidle] at h6
    cases r
    simp only [List.append_nil] at *
    subst h1 h3 h4 h5 h6 h7 h8 hq' hend' hcnt
    rfl

/-- The hypotheses are met by a run with events of two tags and of none, a stop and an end event. -/
example : let s := run (exEnv fun _ _ => []) [.act (.sched (some 1) .first none (some 2) 7 (some 3)), .act (one 5), .act (.sched (some 5) .random none none 8 (some 4)),
      .act (.schedStop (some 9)), .act (.schedEnd 4), .enter, .loop, .loop]
    [some 4, none, some 3].Nodup ∧ none ∈ [some 4, none, some 3] ∧ (∀ ev ∈ s.queue, ev.tag ∈ [some 4, none, some 3]) ∧ (∀ ev ∈ s.queue, s.tick < ev.at_) ∧
    s.phase = .idle ∧ s.go = true ∧ s.counter ≠ 0 ∧ (∀ ev ∈ s.queue, ev.id ∉ s.voided) ∧ (∀ p ∈ s.endEvts, p.1 ∉ s.voided) ∧
    (restoreTags (save s s.queue) [some 4, none, some 3] St.init).queue.map (·.id) = [0, 1, 2, 3] ∧
    SameCallbacks (exEnv fun _ _ => []) (exEnv fun _ _ => []) s.trace (restoreTags (save s s.queue) [some 4, none, some 3] St.init).trace := by
  refine ⟨by decide +kernel, by decide +kernel, by decide +kernel, by decide +kernel, by decide +kernel, by decide +kernel, by decide +kernel, by decide +kernel,
    by decide +kernel, by decide +kernel, ?_⟩
  constructor <;> first | rfl | (intros; rfl)

/-- C15 fails for voided RANDOM events: a pending voided event still takes part in the shuffle of its tick, but is not saved, so that the same random
generator orders the other events differently after restoring. -/
theorem C15_violation_voided : ∃ (e : Env) (ops later : List Op),
    let s := run e ops
    let r := restore (save s s.queue) some none true true St.init
    s.phase = .idle ∧ s.go = true ∧ (∀ ev ∈ s.queue, s.tick < ev.at_ ∧ ev.tag = none) ∧ SameCallbacks e e s.trace r.trace ∧
    runs (later.foldl (step e) s).trace = [(2, 5), (0, 5)] ∧ runs (later.foldl (step e) r).trace = [(0, 5), (2, 5)] := by
  refine ⟨{ exEnv fun _ _ => [] with
      shuf := fun _ l => if l.length = 3 then l.reverse else l
      shuf_perm := fun _ l => by split <;> simp [List.reverse_perm] },
    [.act (one 5), .act (one 5), .act (one 5), .act (.void 1)], [.enter, .loop, .loop], by decide +kernel, by decide +kernel, by decide +kernel, ?_,
    by decide +kernel, by decide +kernel⟩
  constructor <;> first | rfl | (intros; rfl)

end Repast.Checkpoint
