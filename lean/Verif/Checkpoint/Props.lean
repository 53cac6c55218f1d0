import Verif.Checkpoint.Lemmas
import Verif.Schedule.Examples

/-! C15-C17: checkpointing the schedule. -/
namespace Repast.Checkpoint
open Repast.Schedule

/-! ### What is to be restored -/

/-- The event a saved entry stands for, once its callable is recreated: same tick, order index, priority, interval and tag.
`none` for entries with another tag, ignored ones and end events. -/
def recreated (creator : Nat → Option Nat) (tag : Option Nat) (d : EvtData) : Option Ev :=
  if d.tag = tag then
    match d.kind with
    | .end_ => none
    | .stop => some { id := d.id, at_ := d.at_, ord := d.ord, ptype := .random, prio := none, interval := none, cb := .stop, tag := none }
    | .oneTime => (creator d.label).map fun l =>
      { id := d.id, at_ := d.at_, ord := d.ord, ptype := d.ptype, prio := d.prio, interval := none, cb := .user l, tag := d.tag }
    | .repeating i => (creator d.label).map fun l =>
      { id := d.id, at_ := d.at_, ord := d.ord, ptype := d.ptype, prio := d.prio, interval := some i, cb := .user l, tag := d.tag }
  else none

/-- The end event a saved entry stands for. -/
def recreatedEnd (creator : Nat → Option Nat) (tag : Option Nat) (d : EvtData) : Option (Nat × Nat) :=
  if d.tag = tag then
    match d.kind with
    | .end_ => (creator d.label).map fun l => (d.id, l)
    | _ => none
  else none

/-! ### Lemmas -/

theorem scheduleEvt_future {s : St} {d : EvtData} {l : Nat} (hk : d.kind ≠ .end_) (ht : s.tick < d.at_) (ev : Ev)
    (hev : (d.kind = .stop ∧ ev = { id := d.id, at_ := d.at_, ord := d.ord, ptype := .random, prio := none, interval := none, cb := .stop, tag := none }) ∨
      (d.kind = .oneTime ∧ ev = { id := d.id, at_ := d.at_, ord := d.ord, ptype := d.ptype, prio := d.prio, interval := none, cb := .user l, tag := d.tag }) ∨
      (∃ i, d.kind = .repeating i ∧ ev = { id := d.id, at_ := d.at_, ord := d.ord, ptype := d.ptype, prio := d.prio, interval := some i, cb := .user l, tag := d.tag })) :
    (scheduleEvt s d l).queue = qinsert ev s.queue ∧ (scheduleEvt s d l).endEvts = s.endEvts ∧ (scheduleEvt s d l).tick = s.tick ∧
    (scheduleEvt s d l).grp = s.grp ∧ (scheduleEvt s d l).voided = s.voided ∧ (scheduleEvt s d l).rnd = s.rnd ∧
    (scheduleEvt s d l).go = s.go ∧ (scheduleEvt s d l).phase = s.phase := by
  have h1 : s.tick ≤ d.at_ := by omega
  have h2 : ¬ d.at_ = s.tick := by omega
  rcases hev with ⟨hk, rfl⟩ | ⟨hk, rfl⟩ | ⟨i, hk, rfl⟩ <;>
    simp [scheduleEvt, hk, applyAct, pushEvent, h1, h2]

theorem restoreEvt_facts {creator : Nat → Option Nat} {tag : Option Nat} {b : Bool} {s : St} {d : EvtData}
    (ht : ∀ ev, recreated creator tag d = some ev → s.tick < d.at_) :
    (restoreEvt creator tag b s d).queue = (match recreated creator tag d with | some ev => qinsert ev s.queue | none => s.queue) ∧
    (restoreEvt creator tag b s d).endEvts = s.endEvts ++ (recreatedEnd creator tag d).toList ∧
    (restoreEvt creator tag b s d).tick = s.tick ∧ (restoreEvt creator tag b s d).grp = s.grp ∧
    (restoreEvt creator tag b s d).voided = s.voided ∧ (restoreEvt creator tag b s d).rnd = s.rnd ∧
    (restoreEvt creator tag b s d).go = s.go ∧ (restoreEvt creator tag b s d).phase = s.phase := by
  by_cases htag : d.tag = tag
  · cases hk : d.kind with
    | stop =>
      have hr : recreated creator tag d = some { id := d.id, at_ := d.at_, ord := d.ord, ptype := .random, prio := none, interval := none, cb := .stop, tag := none } := by
        simp [recreated, htag, hk]
      have hre : restoreEvt creator tag b s d = scheduleEvt s d 0 := by
        simp only [restoreEvt, htag, hk, if_true]
        cases b <;> simp
      have := scheduleEvt_future (s := s) (d := d) (l := 0) (by simp [hk]) (ht _ hr) _ (Or.inl ⟨hk, rfl⟩)
      rw [hre, hr]
      simpa [recreatedEnd, hk] using this
    | end_ =>
      have hr : recreated creator tag d = none := by simp [recreated, hk]
      rw [hr]
      cases hc : creator d.label with
      | none => simp [restoreEvt, recreatedEnd, htag, hk, hc]
      | some l => simp [restoreEvt, recreatedEnd, htag, hk, hc, scheduleEvt, applyAct]
    | oneTime =>
      cases hc : creator d.label with
      | none => simp [restoreEvt, recreated, recreatedEnd, htag, hk, hc]
      | some l =>
        have hr : recreated creator tag d = some { id := d.id, at_ := d.at_, ord := d.ord, ptype := d.ptype, prio := d.prio, interval := none, cb := .user l, tag := d.tag } := by
          simp [recreated, htag, hk, hc]
        have hre : restoreEvt creator tag b s d = scheduleEvt s d l := by
          simp [restoreEvt, htag, hk, hc]
        have := scheduleEvt_future (s := s) (d := d) (l := l) (by simp [hk]) (ht _ hr) _ (Or.inr (Or.inl ⟨hk, rfl⟩))
        rw [hre, hr]
        simpa [recreatedEnd, hk] using this
    | repeating i =>
      cases hc : creator d.label with
      | none => simp [restoreEvt, recreated, recreatedEnd, htag, hk, hc]
      | some l =>
        have hr : recreated creator tag d = some { id := d.id, at_ := d.at_, ord := d.ord, ptype := d.ptype, prio := d.prio, interval := some i, cb := .user l, tag := d.tag } := by
          simp [recreated, htag, hk, hc]
        have hre : restoreEvt creator tag b s d = scheduleEvt s d l := by
          simp [restoreEvt, htag, hk, hc]
        have := scheduleEvt_future (s := s) (d := d) (l := l) (by simp [hk]) (ht _ hr) _ (Or.inr (Or.inr ⟨i, hk, rfl⟩))
        rw [hre, hr]
        simpa [recreatedEnd, hk] using this
  · simp [restoreEvt, recreated, recreatedEnd, htag]

theorem fold_facts {creator : Nat → Option Nat} {tag : Option Nat} {b : Bool} (evts : List EvtData) (s : St)
    (ht : ∀ d ∈ evts, ∀ ev, recreated creator tag d = some ev → s.tick < d.at_) :
    let r := evts.foldl (restoreEvt creator tag b) s
    r.queue = (evts.filterMap (recreated creator tag)).foldl (fun q ev => qinsert ev q) s.queue ∧
    r.endEvts = s.endEvts ++ evts.filterMap (recreatedEnd creator tag) ∧
    r.tick = s.tick ∧ r.grp = s.grp ∧ r.voided = s.voided ∧ r.rnd = s.rnd ∧ r.go = s.go ∧ r.phase = s.phase := by
  induction evts generalizing s with
  | nil => simp
  | cons d evts ih =>
    obtain ⟨f1, f2, f3, f4, f5, f6, f7, f8⟩ := restoreEvt_facts (creator := creator) (tag := tag) (b := b) (s := s) (d := d) (ht d (by simp))
    obtain ⟨g1, g2, g3, g4, g5, g6, g7, g8⟩ := ih (restoreEvt creator tag b s d) (fun d' hd => by rw [f3]; exact ht d' (List.mem_cons_of_mem _ hd))
    simp only [List.foldl_cons]
    refine ⟨?_, ?_, g3.trans f3, g4.trans f4, g5.trans f5, g6.trans f6, g7.trans f7, g8.trans f8⟩
    · rw [g1, f1, List.filterMap_cons]
      cases recreated creator tag d <;> rfl
    · rw [g2, f2, List.filterMap_cons]
      cases recreatedEnd creator tag d <;> simp

theorem foldl_qinsert_perm (l q : List Ev) : (l.foldl (fun q ev => qinsert ev q) q).Perm (q ++ l) := by
  induction l generalizing q with
  | nil => simp
  | cons a l ih =>
    refine (ih _).trans ?_
    refine ((qinsert_perm a q).append_right l).trans ?_
    exact List.perm_middle.symm

theorem foldl_qinsert_sorted (l q : List Ev) (hq : Sorted q) (hn : ((q ++ l).map (·.ord)).Nodup) :
    Sorted (l.foldl (fun q ev => qinsert ev q) q) := by
  induction l generalizing q with
  | nil => exact hq
  | cons a l ih =>
    refine ih _ (qinsert_sorted a q hq ?_) ?_
    · intro x hx he
      rw [List.map_append, List.nodup_append] at hn
      exact hn.2.2 x.ord (List.mem_map_of_mem hx) a.ord (by simp) he.symm
    · have : (qinsert a q ++ l).Perm (q ++ a :: l) := ((qinsert_perm a q).append_right l).trans List.perm_middle.symm
      exact (this.map _).nodup_iff.2 hn

/-! ### C16 -/

/-- C16: restoring with a tag makes pending, beside what the runner `s` had, precisely the saved events carrying that tag (which
`evt_creator` does not ignore), with their saved tick, order index, priority and interval; and the same for end events. `base` is the runner the
events are restored into: `s`, or a fresh one. Saved events are later than its tick (see `C15_zero_interval_lost` for the others). -/
theorem C16_tagged (sv : Saved) (creator : Nat → Option Nat) (tag : Option Nat) (init stop : Bool) (s : St)
    (hlater : ∀ d ∈ sv.evts, d.kind ≠ .end_ → (if init then sv.tick else s.tick) < d.at_) :
    let r := restore sv creator tag init stop s
    r.queue.Perm ((if init then [] else s.queue) ++ sv.evts.filterMap (recreated creator tag)) ∧
    r.endEvts = (if init then [] else s.endEvts) ++ sv.evts.filterMap (recreatedEnd creator tag) ∧
    r.tick = (if init then sv.tick else s.tick) := by
  have hgen : ∀ s0 : St, s0.tick = (if init then sv.tick else s.tick) → ∀ d ∈ sv.evts, ∀ ev, recreated creator tag d = some ev → s0.tick < d.at_ := by
    intro s0 h0 d hd ev hev
    rw [h0]
    refine hlater d hd ?_
    intro hk
    simp [recreated, hk] at hev
  unfold restore
  cases init with
  | true =>
    obtain ⟨f1, f2, f3, -⟩ := fold_facts (creator := creator) (tag := tag) (b := stop) sv.evts { St.init with tick := sv.tick, voided := sv.voided, rnd := sv.rnd } (hgen _ rfl)
    simp only [if_true]
    refine ⟨?_, f2, f3⟩
    rw [f1]
    exact foldl_qinsert_perm _ _
  | false =>
    obtain ⟨f1, f2, f3, -⟩ := fold_facts (creator := creator) (tag := tag) (b := stop) sv.evts s (hgen _ rfl)
    simp only [Bool.false_eq_true, if_false]
    refine ⟨?_, f2, f3⟩
    rw [f1]
    exact foldl_qinsert_perm _ _

/-- Two saved entries with different tags, one ignored entry, one end event. -/
def exSaved : Saved :=
  { lastCount := 7, tick := 3, nextId := 9, voided := [], rnd := 0,
    evts := [{ id := 8, kind := .end_, at_ := 0, ord := 0, ptype := .random, prio := none, label := 5, tag := none },
      { id := 1, kind := .oneTime, at_ := 6, ord := 2, ptype := .random, prio := none, label := 1, tag := none },
      { id := 2, kind := .repeating 2, at_ := 5, ord := 3, ptype := .first, prio := none, label := 2, tag := none },
      { id := 3, kind := .stop, at_ := 6, ord := 4, ptype := .random, prio := none, label := 0, tag := none },
      { id := 4, kind := .oneTime, at_ := 6, ord := 7, ptype := .random, prio := none, label := 9, tag := none },
      { id := 7, kind := .oneTime, at_ := 4, ord := 5, ptype := .random, prio := none, label := 3, tag := some 1 }] }

example : let r := restore exSaved (fun l => if l = 9 then none else some l) none true true St.init
    (r.queue.map (fun ev => (ev.id, ev.at_, ev.ord)), r.endEvts, r.counter) = ([(2,5,3), (1,6,2), (3,6,4)], [(8,5)], 8) ∧
    (restore exSaved some (some 1) false true r).queue.map (·.id) = [7, 2, 1, 3] := by
  decide +kernel

/-- C16: two calls with different tags restore every event once: none is restored by both. -/
theorem C16_disjoint (creator : Nat → Option Nat) (t1 t2 : Option Nat) (hne : t1 ≠ t2) (d : EvtData) :
    ¬ ((recreated creator t1 d).isSome ∧ (recreated creator t2 d).isSome) := by
  rintro ⟨h1, h2⟩
  unfold recreated at h1 h2
  split at h1
  · rename_i e1
    split at h2
    · rename_i e2
      exact hne (e1.symm.trans e2)
    · simp at h2
  · simp at h1

/-! ### The pending events after a round trip -/

theorem recreated_toData {ev : Ev} (h : ev.cb = .stop → ev.ptype = .random ∧ ev.prio = none ∧ ev.interval = none ∧ ev.tag = none) :
    recreated some ev.tag (toData ev) = some ev := by
  obtain ⟨id, at_, ord, ptype, prio, interval, cb, tag⟩ := ev
  cases cb with
  | stop =>
    obtain ⟨h1, h2, h3, h4⟩ := h rfl
    simp only at h1 h2 h3 h4
    subst h1 h2 h3 h4
    simp [recreated, toData]
  | user l =>
    cases interval <;> simp [recreated, toData]

theorem recreated_toData_ne {ev : Ev} {tag : Option Nat} (h : ev.tag ≠ tag) : recreated some tag (toData ev) = none := by
  simp [recreated, toData, h]

theorem recreated_saved {s : St} {arr : List Ev} {tag : Option Nat}
    (h : ∀ ev ∈ arr, ev.cb = .stop → ev.ptype = .random ∧ ev.prio = none ∧ ev.interval = none ∧ ev.tag = none) :
    (save s arr).evts.filterMap (recreated some tag) =
      arr.filter (fun ev => !(s.voided.contains ev.id) && decide (ev.tag = tag)) := by
  simp only [save, List.filterMap_append]
  have h1 : (List.map endData (s.endEvts.filter fun p => !(s.voided.contains p.1))).filterMap (recreated some tag) = [] := by
    rw [List.filterMap_eq_nil_iff]
    intro d hd
    obtain ⟨p, -, rfl⟩ := List.mem_map.1 hd
    by_cases ht : none = tag <;> simp [recreated, endData, ht]
  rw [h1, List.nil_append]
  clear h1
  induction arr with
  | nil => rfl
  | cons ev arr ih =>
    have ih := ih (fun ev hev => h ev (List.mem_cons_of_mem _ hev))
    by_cases hv : s.voided.contains ev.id
    · simp only [List.filter_cons, hv, Bool.not_true, Bool.false_eq_true, if_false, Bool.false_and]
      exact ih
    · by_cases ht : ev.tag = tag
      · subst ht
        simp only [List.filter_cons, hv, Bool.not_false, if_true, decide_true, Bool.and_true, List.map_cons, List.filterMap_cons,
          recreated_toData (h ev (by simp))]
        rw [ih]
      · simp only [List.filter_cons, hv, Bool.not_false, if_true, ht, decide_false, Bool.and_false, List.map_cons, List.filterMap_cons,
          recreated_toData_ne ht, Bool.false_eq_true, if_false]
        exact ih

theorem recreatedEnd_saved {s : St} {arr : List Ev} :
    (save s arr).evts.filterMap (recreatedEnd some none) = s.endEvts.filter (fun p => !(s.voided.contains p.1)) := by
  simp only [save, List.filterMap_append]
  have h1 : (List.map toData (arr.filter fun ev => !(s.voided.contains ev.id))).filterMap (recreatedEnd some none) = [] := by
    rw [List.filterMap_eq_nil_iff]
    intro d hd
    obtain ⟨ev, -, rfl⟩ := List.mem_map.1 hd
    obtain ⟨id, at_, ord, ptype, prio, interval, cb, tag⟩ := ev
    by_cases ht : tag = none
    · cases cb
      · cases interval <;> simp [recreatedEnd, toData, ht]
      · simp [recreatedEnd, toData, ht]
    · simp [recreatedEnd, toData, ht]
  rw [h1, List.append_nil, List.filterMap_map]
  generalize s.endEvts.filter _ = l
  induction l with
  | nil => rfl
  | cons p l ih => rw [List.filterMap_cons]; simp [recreatedEnd, endData]; exact ih

theorem run_queue_std (e : Env) (ops : List Op) : ∀ ev ∈ (run e ops).queue,
    ev.cb = .stop → ev.ptype = .random ∧ ev.prio = none ∧ ev.interval = none ∧ ev.tag = none := by
  intro ev hev hc
  obtain ⟨ev0, now, d, k, hs, -, rfl⟩ := (run_inv e ops).pending_eq (List.mem_append_left _ hev)
  exact (run_std e ops).stop ev0 now d hs hc

theorem run_queue_ords (e : Env) (ops : List Op) : ((run e ops).queue.map (·.ord)).Nodup := by
  have hi := run_inv e ops
  have hids : ∀ ev ∈ (run e ops).queue, ∃ ev0 now d k, Obs.sched ev0 now d ∈ (run e ops).trace ∧ ev = nth e ev0 k ∧
      sel ev0.id (run e ops).queue = [nth e ev0 k] := by
    intro ev hev
    obtain ⟨ev0, now, d, k, hs, ht, rfl⟩ := hi.pending_eq (List.mem_append_left _ hev)
    refine ⟨ev0, now, d, k, hs, rfl, ?_⟩
    have hm : nth e ev0 k ∈ sel ev0.id (run e ops).queue := mem_sel.2 ⟨hev, rfl⟩
    cases ht.status with
    | queued h1 => exact h1
    | grouped h1 => rw [h1] at hm; simp at hm
    | flying j h1 => rw [h1] at hm; simp at hm
    | gone h1 => rw [h1] at hm; simp at hm
  have hsorted := hi.sorted
  -- two entries with the same order index are the same entry, and entries are pairwise different
  rw [List.nodup_iff_pairwise_ne, List.pairwise_map]
  refine List.Pairwise.imp_of_mem ?_ hsorted
  intro a b ha hb hab hord
  obtain ⟨a0, n1, d1, k1, hs1, rfl, hsel1⟩ := hids a ha
  obtain ⟨b0, n2, d2, k2, hs2, rfl, hsel2⟩ := hids b hb
  have h0 := hi.sched_ord_inj hs1 hs2 hord
  subst h0
  rw [hsel1] at hsel2
  simp only [List.cons.injEq, and_true] at hsel2
  rw [hsel2] at hab
  simp only [qlt, Bool.or_eq_true, Bool.and_eq_true, decide_eq_true_eq] at hab
  omega

/-- C16, order indices: after restoring from a checkpoint of a reachable schedule into a fresh runner, all pending events have different
order indices, all smaller than the ones later events will get. -/
theorem C16_no_collision_partial (e : Env) (ops : List Op) (arr : List Ev) (harr : arr.Perm (run e ops).queue) (tag : Option Nat) (stop : Bool) (s : St)
    (hlater : ∀ ev ∈ (run e ops).queue, (run e ops).tick < ev.at_) :
    let r := restore (save (run e ops) arr) some tag true stop s
    (r.queue.map (·.ord)).Nodup ∧ ∀ ev ∈ r.queue, ev.ord < r.counter := by
  have hstd : ∀ ev ∈ arr, ev.cb = .stop → ev.ptype = .random ∧ ev.prio = none ∧ ev.interval = none ∧ ev.tag = none :=
    fun ev hev => run_queue_std e ops ev (harr.mem_iff.1 hev)
  obtain ⟨h1, -, -⟩ := C16_tagged (save (run e ops) arr) some tag true stop s (by
    intro d hd hk
    simp only [save] at hd
    rcases List.mem_append.1 hd with hd | hd
    · obtain ⟨p, -, rfl⟩ := List.mem_map.1 hd
      exact absurd rfl hk
    · obtain ⟨ev, hev, rfl⟩ := List.mem_map.1 hd
      exact hlater ev (harr.mem_iff.1 ((List.mem_filter.1 hev).1)))
  rw [recreated_saved hstd] at h1
  simp only [if_true, List.nil_append] at h1
  intro r
  have hp : r.queue.Perm ((run e ops).queue.filter (fun ev => !((run e ops).voided.contains ev.id) && decide (ev.tag = tag))) :=
    h1.trans (harr.filter _)
  refine ⟨?_, ?_⟩
  · rw [(hp.map _).nodup_iff]
    exact (List.Sublist.map _ List.filter_sublist).nodup (run_queue_ords e ops)
  · intro ev hev
    have hq : ev ∈ (run e ops).queue := (List.mem_filter.1 (hp.mem_iff.1 hev)).1
    have hlt := (run_inv e ops).pending_ord (List.mem_append_left _ hq)
    have hc := (run_std e ops).count
    show ev.ord < (run e ops).lastCount + 1
    omega

/-- C16 fails when events are scheduled between two restore calls: the second call sets the counter back, and two pending events get
the same tick and the same order index (the heap then compares the event objects, a `TypeError`). -/
theorem C16_collision : ∃ (sv : Saved) (acts : List Act),
    let r := acts.foldl applyAct (restore sv some (some 1) false true ((one 10 :: []).foldl applyAct (restore sv some none true true St.init)))
    ∃ a ∈ r.queue, ∃ b ∈ r.queue, a.id ≠ b.id ∧ a.at_ = b.at_ ∧ a.ord = b.ord :=
  ⟨exSaved, [one 10], by decide +kernel⟩

/-! ### C15 -/

/-- C15: saving a reachable schedule and restoring it into a fresh runner yields precisely the pending events that are not voided, in the
same order, the same end events, and the same tick and counters. Events have no tag here (`C16_tagged` is about tags). -/
theorem C15_pending_partial (e : Env) (ops : List Op) (arr : List Ev) (harr : arr.Perm (run e ops).queue) (s0 : St)
    (htag : ∀ ev ∈ (run e ops).queue, ev.tag = none)
    (hlater : ∀ ev ∈ (run e ops).queue, (run e ops).tick < ev.at_) :
    let s := run e ops
    let r := restore (save s arr) some none true true s0
    r.queue = s.queue.filter (fun ev => !(s.voided.contains ev.id)) ∧
    r.endEvts = s.endEvts.filter (fun p => !(s.voided.contains p.1)) ∧
    r.tick = s.tick ∧ r.lastCount = s.lastCount ∧ (s.counter ≠ 0 → r.counter = s.counter) := by
  have hstd : ∀ ev ∈ arr, ev.cb = .stop → ev.ptype = .random ∧ ev.prio = none ∧ ev.interval = none ∧ ev.tag = none :=
    fun ev hev => run_queue_std e ops ev (harr.mem_iff.1 hev)
  have hl : ∀ d ∈ (save (run e ops) arr).evts, d.kind ≠ .end_ → (run e ops).tick < d.at_ := by
    intro d hd hk
    simp only [save] at hd
    rcases List.mem_append.1 hd with hd | hd
    · obtain ⟨p, -, rfl⟩ := List.mem_map.1 hd
      exact absurd rfl hk
    · obtain ⟨ev, hev, rfl⟩ := List.mem_map.1 hd
      exact hlater ev (harr.mem_iff.1 (List.mem_filter.1 hev).1)
  obtain ⟨h1, h2, h3⟩ := C16_tagged (save (run e ops) arr) some none true true s0 hl
  intro s r
  rw [recreated_saved hstd] at h1
  simp only [if_true, List.nil_append] at h1
  have hfilt : arr.filter (fun ev => !(s.voided.contains ev.id) && decide (ev.tag = none)) = arr.filter (fun ev => !(s.voided.contains ev.id)) := by
    refine List.filter_congr ?_
    intro ev hev
    simp [htag ev (harr.mem_iff.1 hev)]
  have hp : r.queue.Perm (s.queue.filter (fun ev => !(s.voided.contains ev.id))) := by
    refine List.Perm.trans (h1.trans ?_) (harr.filter _)
    rw [hfilt]
  refine ⟨?_, ?_, h3, rfl, ?_⟩
  · refine sorted_perm_eq ?_ ?_ hp
    · obtain ⟨f1, -⟩ := fold_facts (creator := some) (tag := none) (b := true) (save s arr).evts
        { St.init with tick := (save s arr).tick, voided := (save s arr).voided, rnd := (save s arr).rnd } (by
          intro d hd ev hev
          refine hl d hd ?_
          intro hk
          simp [recreated, hk] at hev)
      have : r.queue = _ := f1
      rw [this]
      refine foldl_qinsert_sorted _ _ List.Pairwise.nil ?_
      rw [recreated_saved hstd]
      refine (List.Sublist.map _ List.filter_sublist).nodup ?_
      rw [(harr.map _).nodup_iff]
      exact run_queue_ords e ops
    · exact List.Pairwise.filter _ (run_inv e ops).sorted
  · refine h2.trans ?_
    simp only [if_true, List.nil_append]
    exact recreatedEnd_saved
  · intro hc
    have := (run_std e ops).count
    show s.lastCount + 1 = s.counter
    simp only [s] at hc ⊢
    omega

/-- A checkpoint after two ticks, with a repeating event, a future one, a voided one, the stop and an end event. -/
def exCk : List Op := [.act (rep 1 2 .first none 7), .act (one 5), .act (one 6), .act (.void 2), .act (.schedStop (some 9)), .act (.schedEnd 4),
  .act (rep 1 3), .enter, .loop, .loop, .enter, .loop, .loop]

example : let s := run (exEnv fun _ _ => []) exCk
    (∀ ev ∈ s.queue, ev.tag = none) ∧ (∀ ev ∈ s.queue, s.tick < ev.at_) ∧ s.tick = 3 ∧ s.counter = 5 ∧
    s.queue.map (·.id) = [5, 0, 1, 2, 3].drop 0 ∧
    (restore (save s s.queue.reverse) some none true true St.init).queue.map (·.id) = [5, 0, 1, 3] := by decide +kernel

/-- C15 does not cover a repeating event with interval 0 that is pending for the current tick: it is put in the group of the current tick
when restored and dropped when the first tick starts; it would have run without the checkpoint. -/
theorem C15_zero_interval_lost : ∃ (e : Env) (ops later : List Op),
    let s := run e ops
    let r := restore (save s s.queue) some none true true St.init
    s.phase = .idle ∧ runs (later.foldl (step e) s).trace = runs s.trace ++ [(0, 1), (1, 4)] ∧
    runs (later.foldl (step e) r).trace = [(1, 4)] :=
  ⟨exEnv fun tr ev => if ev.id = 0 ∧ 1 < (runsOf 0 tr).length then [.void 0] else [], [.act (rep 1 0), .act (one 4), .enter, .loop, .loop],
    [.enter, .loop, .loop, .enter, .loop, .loop, .enter, .loop, .loop], by decide +kernel⟩

/-! ### The same future -/

/-- The two environments agree, callbacks recreated after the checkpoint (`e'`) doing on the same later history what the original ones
(`e`) do. `b` and `b'` are the histories up to the checkpoint. -/
structure SameCallbacks (e e' : Env) (b b' : List Obs) : Prop where
  adv : e'.adv = e.adv
  pick : e'.pick = e.pick
  shuf : e'.shuf = e.shuf
  psort : e'.psort = e.psort
  prog : ∀ tl ev, e'.prog (b' ++ tl) ev = e.prog (b ++ tl) ev
  endProg : ∀ tl l, e'.endProg (b' ++ tl) l = e.endProg (b ++ tl) l

/-- The states of the two runs, after the same later history `tl`: they differ by the history before the checkpoint, by the runner's
cached `next_tick`, and, outside a tick, by the content of the group of the past tick. -/
inductive Sim (b b' : List Obs) (s : St) : St → Prop where
  | mk (n : Int) (g : Group) (tl : List Obs) : s.trace = b ++ tl → g.executing = s.grp.executing → (s.phase = .running → g = s.grp) →
    Sim b b' s { s with nextTick := n, grp := g, trace := b' ++ tl }

section
variable {e e' : Env} {b b' : List Obs} {s r : St}

theorem addEvt'_executing (g : Group) (ev : Ev) : (g.addEvt' ev).executing = g.executing := by
  unfold Group.addEvt'; split <;> rfl

theorem addEvt_executing (g : Group) (ev : Ev) : (g.addEvt ev).executing = g.executing := by
  unfold Group.addEvt; split
  · rfl
  · exact addEvt'_executing g ev

theorem Sim.of {s r : St} (n : Int) (g : Group) (tl : List Obs) (h1 : s.trace = b ++ tl) (h2 : g.executing = s.grp.executing)
    (h3 : s.phase = .running → g = s.grp) (h : r = { s with nextTick := n, grp := g, trace := b' ++ tl }) : Sim b b' s r := by
  rw [h]; exact .mk n g tl h1 h2 h3

theorem Sim.push (h : Sim b b' s r) (a p q i c g) : Sim b b' (pushEvent s a p q i c g) (pushEvent r a p q i c g) := by
  obtain ⟨n, g0, tl, h1, h2, h3⟩ := h
  unfold pushEvent
  simp only []
  cases a with
  | none => exact .of n g0 (tl ++ [_]) (by rw [h1, List.append_assoc]) h2 h3 (by simp)
  | some t =>
    simp only [h2]
    split
    · split
      · refine .of n (g0.addEvt _) (tl ++ [_]) (by rw [h1, List.append_assoc]) ?_ ?_ (by rw [List.append_assoc])
        · simp only [addEvt_executing, h2]
        · intro hp; rw [h3 hp]
      · exact .of n g0 (tl ++ [_]) (by rw [h1, List.append_assoc]) h2 h3 (by rw [List.append_assoc])
    · exact .of n g0 (tl ++ [_]) (by rw [h1, List.append_assoc]) h2 h3 (by simp)

theorem Sim.setNext (h : Sim b b' s r) (n n' : Int) : Sim b b' { s with nextTick := n } { r with nextTick := n' } := by
  obtain ⟨_, g0, tl, h1, h2, h3⟩ := h
  exact .of n' g0 tl h1 h2 h3 rfl

theorem Sim.act (h : Sim b b' s r) (a : Act) : Sim b b' (applyAct s a) (applyAct r a) := by
  cases a with
  | sched a p q i l g => exact (h.push a p q i (.user l) g).setNext _ _
  | schedStop a => exact h.push a _ _ _ _ _
  | schedEnd l =>
    obtain ⟨n, g0, tl, h1, h2, h3⟩ := h
    exact .of n g0 (tl ++ [_]) (by simp only [applyAct]; rw [h1, List.append_assoc]) h2 h3 (by simp [applyAct])
  | void x =>
    obtain ⟨n, g0, tl, h1, h2, h3⟩ := h
    exact .of n g0 (tl ++ [_]) (by simp only [applyAct]; rw [h1, List.append_assoc]) h2 h3 (by simp [applyAct])
  | stop =>
    obtain ⟨n, g0, tl, h1, h2, h3⟩ := h
    exact .of n g0 (tl ++ [_]) (by simp only [applyAct]; rw [h1, List.append_assoc]) h2 h3 (by simp [applyAct])

theorem Sim.acts (l : List Act) (h : Sim b b' s r) : Sim b b' (l.foldl applyAct s) (l.foldl applyAct r) := by
  induction l generalizing s r with
  | nil => exact h
  | cons a l ih => exact ih (h.act a)

theorem Sim.obs (h : Sim b b' s r) (o : Obs) : Sim b b' { s with trace := s.trace ++ [o] } { r with trace := r.trace ++ [o] } := by
  obtain ⟨n, g0, tl, h1, h2, h3⟩ := h
  exact .of n g0 (tl ++ [o]) (by simp only [h1, List.append_assoc]) h2 h3 (by simp)

theorem Sim.hist (h : Sim b b' s r) : ∃ tl, s.trace = b ++ tl ∧ r.trace = b' ++ tl := by
  obtain ⟨n, g0, tl, h1, h2, h3⟩ := h
  exact ⟨tl, h1, rfl⟩

theorem Sim.voided (h : Sim b b' s r) : r.voided = s.voided := by obtain ⟨n, g0, tl, h1, h2, h3⟩ := h; rfl
theorem Sim.tick (h : Sim b b' s r) : r.tick = s.tick := by obtain ⟨n, g0, tl, h1, h2, h3⟩ := h; rfl
theorem Sim.phase (h : Sim b b' s r) : r.phase = s.phase := by obtain ⟨n, g0, tl, h1, h2, h3⟩ := h; rfl
theorem Sim.grp (h : Sim b b' s r) (hp : s.phase = .running) : r.grp = s.grp := by obtain ⟨n, g0, tl, h1, h2, h3⟩ := h; exact h3 hp

theorem Sim.call (he : SameCallbacks e e' b b') (h : Sim b b' s r) (ev : Ev) : Sim b b' (callEv e s ev) (callEv e' r ev) := by
  have h1 := h.obs (.ran ev s.tick)
  have e1 : { r with trace := r.trace ++ [Obs.ran ev s.tick] } = { r with trace := r.trace ++ [Obs.ran ev r.tick] } := by rw [h.tick]
  rw [e1] at h1
  unfold callEv
  by_cases hv : ev.id ∈ s.voided
  · rw [if_pos hv, if_pos (by rw [h.voided]; exact hv)]
    exact h
  · rw [if_neg hv, if_neg (by rw [h.voided]; exact hv)]
    simp only []
    obtain ⟨tl, t1, t2⟩ := h1.hist
    split
    · exact h1.act _
    · have hprog : e'.prog (r.trace ++ [.ran ev r.tick]) ev = e.prog (s.trace ++ [.ran ev s.tick]) ev := by
        simp only [] at t1 t2
        rw [t1, t2, he.prog]
      rw [hprog]
      exact h1.acts (e.prog (s.trace ++ [.ran ev s.tick]) ev)

theorem Sim.resched (he : SameCallbacks e e' b b') (h : Sim b b' s r) (ev : Ev) : Sim b b' (rescheduleEv e s ev) (rescheduleEv e' r ev) := by
  obtain ⟨n, g0, tl, h1, h2, h3⟩ := h
  unfold rescheduleEv
  split
  · exact .mk n g0 tl h1 h2 h3
  · rw [he.adv]
    simp only []
    split
    · exact .mk n g0 tl h1 h2 h3
    · exact .of n g0 tl h1 h2 h3 rfl

theorem Sim.setGrp (h : Sim b b' s r) (hp : s.phase = .running) (f : Group → Group) :
    Sim b b' { s with grp := f s.grp } { r with grp := f r.grp } := by
  obtain ⟨n, g0, tl, h1, h2, h3⟩ := h
  exact .of n (f g0) tl h1 (by simp only [h3 hp]) (fun _ => by simp only [h3 hp]) rfl

theorem Sim.run (he : SameCallbacks e e' b b') (h : Sim b b' s r) (hp : s.phase = .running) (ev : Ev) : Sim b b' (runEv e s ev) (runEv e' r ev) := by
  unfold runEv
  simp only []
  exact ((h.setGrp hp (fun g => { g with size := g.size - 1 })).call he ev).resched he ev

theorem sort_same (he : SameCallbacks e e' b b') (k : Nat) (g : Group) : g.sort e' k = g.sort e k := by
  have hi : ∀ (l : List Ev) k acc, insertRandom e' k acc l = insertRandom e k acc l := by
    intro l
    induction l with
    | nil => intros; rfl
    | cons a l ih => intro k acc; simp only [insertRandom, he.pick, ih]
  simp only [Group.sort, he.shuf, he.psort, hi]

theorem Sim.during (he : SameCallbacks e e' b b') (h : Sim b b' s r) (hp : s.phase = .running) : Sim b b' (addDuring e s) (addDuring e' r) := by
  obtain ⟨n, g0, tl, h1, h2, h3⟩ := h
  obtain rfl := h3 hp
  unfold addDuring
  simp only [sort_same he]
  exact .of n _ tl h1 rfl (fun _ => rfl) rfl

theorem Sim.execute (he : SameCallbacks e e' b b') (w : Which) (l : List Ev) (h : Sim b b' s r) (hp : s.phase = .running) :
    Sim b b' (executeEvts e w l s).1 (executeEvts e' w l r).1 ∧ (executeEvts e' w l r).2 = (executeEvts e w l s).2 ∧
    (executeEvts e w l s).1.phase = .running := by
  induction l generalizing s r with
  | nil => exact ⟨h, rfl, hp⟩
  | cons ev l ih =>
    have h1 := (h.setGrp hp (fun g => g.set l w)).run he hp ev
    have hp1 : (runEv e { s with grp := s.grp.set l w } ev).phase = .running := by rw [runEv_phase]; exact hp
    simp only [executeEvts]
    rw [show (runEv e' { r with grp := r.grp.set l w } ev).grp.interrupted = (runEv e { s with grp := s.grp.set l w } ev).grp.interrupted by
      rw [h1.grp hp1]]
    split
    · exact ⟨h1.during he hp1, rfl, by rw [addDuring_phase]; exact hp1⟩
    · exact ih h1 hp1

/-- One list of `groupExecute`, then the rest unless it was interrupted. -/
theorem Sim.seq (he : SameCallbacks e e' b b') (w : Which) (f : Group → List Ev) (k k' : St → St) (h : Sim b b' s r) (hp : s.phase = .running)
    (hk : ∀ s1 r1, Sim b b' s1 r1 → s1.phase = .running → Sim b b' (k s1) (k' r1)) :
    Sim b b' (if (executeEvts e w (f s.grp) s).2 then (executeEvts e w (f s.grp) s).1 else k (executeEvts e w (f s.grp) s).1)
      (if (executeEvts e' w (f r.grp) r).2 then (executeEvts e' w (f r.grp) r).1 else k' (executeEvts e' w (f r.grp) r).1) := by
  obtain ⟨h1, b1, hp1⟩ := h.execute he w (f s.grp) hp
  rw [h.grp hp, b1]
  split
  · exact h1
  · exact hk _ _ h1 hp1

theorem Sim.group (he : SameCallbacks e e' b b') (h : Sim b b' s r) (hp : s.phase = .running) : Sim b b' (groupExecute e s) (groupExecute e' r) := by
  have h0 := h.setGrp hp (fun g => { g with executing := true })
  refine h0.seq he .first Group.first (fun s1 => if (executeEvts e .prioritized s1.grp.prioritized s1).2 then (executeEvts e .prioritized s1.grp.prioritized s1).1 else
    if (executeEvts e .last (executeEvts e .prioritized s1.grp.prioritized s1).1.grp.last (executeEvts e .prioritized s1.grp.prioritized s1).1).2 then (executeEvts e .last (executeEvts e .prioritized s1.grp.prioritized s1).1.grp.last (executeEvts e .prioritized s1.grp.prioritized s1).1).1 else
    { (executeEvts e .last (executeEvts e .prioritized s1.grp.prioritized s1).1.grp.last (executeEvts e .prioritized s1.grp.prioritized s1).1).1 with
      grp := { (executeEvts e .last (executeEvts e .prioritized s1.grp.prioritized s1).1.grp.last (executeEvts e .prioritized s1.grp.prioritized s1).1).1.grp with executing := false } })
    (fun s1 => if (executeEvts e' .prioritized s1.grp.prioritized s1).2 then (executeEvts e' .prioritized s1.grp.prioritized s1).1 else
    if (executeEvts e' .last (executeEvts e' .prioritized s1.grp.prioritized s1).1.grp.last (executeEvts e' .prioritized s1.grp.prioritized s1).1).2 then (executeEvts e' .last (executeEvts e' .prioritized s1.grp.prioritized s1).1.grp.last (executeEvts e' .prioritized s1.grp.prioritized s1).1).1 else
    { (executeEvts e' .last (executeEvts e' .prioritized s1.grp.prioritized s1).1.grp.last (executeEvts e' .prioritized s1.grp.prioritized s1).1).1 with
      grp := { (executeEvts e' .last (executeEvts e' .prioritized s1.grp.prioritized s1).1.grp.last (executeEvts e' .prioritized s1.grp.prioritized s1).1).1.grp with executing := false } })
    hp ?_
  intro s1 r1 h1 hp1
  refine h1.seq he .prioritized Group.prioritized (fun s2 => if (executeEvts e .last s2.grp.last s2).2 then (executeEvts e .last s2.grp.last s2).1 else
      { (executeEvts e .last s2.grp.last s2).1 with grp := { (executeEvts e .last s2.grp.last s2).1.grp with executing := false } })
    (fun s2 => if (executeEvts e' .last s2.grp.last s2).2 then (executeEvts e' .last s2.grp.last s2).1 else
      { (executeEvts e' .last s2.grp.last s2).1 with grp := { (executeEvts e' .last s2.grp.last s2).1.grp with executing := false } }) hp1 ?_
  intro s2 r2 h2 hp2
  refine h2.seq he .last Group.last (fun s3 => { s3 with grp := { s3.grp with executing := false } })
    (fun s3 => { s3 with grp := { s3.grp with executing := false } }) hp2 ?_
  intro s3 r3 h3 hp3
  exact h3.setGrp hp3 (fun g => { g with executing := false })

theorem Sim.start (he : SameCallbacks e e' b b') (h : Sim b b' s r) : Sim b b' (startExecute e s) (startExecute e' r) := by
  obtain ⟨n, g0, tl, h1, h2, h3⟩ := h
  have hg : g0.reset = s.grp.reset := by simp only [Group.reset, h2]
  unfold startExecute
  simp only []
  split
  · exact .of _ g0 tl h1 h2 h3 rfl
  · rename_i ev l hq
    simp only [hg, sort_same he]
    exact .of n _ (tl ++ [Obs.start ev.at_]) (by simp only [h1, List.append_assoc]) rfl (fun _ => rfl) (by simp)

theorem Sim.setPhase (h : Sim b b' s r) (p : Phase) (hp : p ≠ .running) :
    Sim b b' { s with phase := p } { r with phase := p } := by
  obtain ⟨n, g0, tl, h1, h2, h3⟩ := h
  exact .of n g0 tl h1 h2 (fun h' => absurd h' hp) rfl

theorem Sim.step (he : SameCallbacks e e' b b') (h : Sim b b' s r) (o : Op) : Sim b b' (step e s o) (step e' r o) := by
  have hgo : r.go = s.go := by obtain ⟨n, g0, tl, h1, h2, h3⟩ := h; rfl
  have hph := h.phase
  cases o with
  | act a =>
    unfold Schedule.step
    simp only []
    rw [hph]
    split
    · exact h.act a
    · exact h
  | enter =>
    unfold Schedule.step
    simp only []
    rw [hph, hgo]
    split
    · exact h.start he
    · exact h
  | skip =>
    unfold Schedule.step
    simp only []
    by_cases hc : s.phase = .idle ∧ s.go = true
    · rw [if_pos hc, if_pos (by rw [hph, hgo]; exact hc)]
      exact h.setNext _ _
    · rw [if_neg hc, if_neg (by rw [hph, hgo]; exact hc)]
      exact h
  | loop =>
    unfold Schedule.step
    simp only []
    by_cases hp : s.phase = .running
    · rw [if_pos hp, if_pos (hph.trans hp)]
      by_cases hs : 0 < s.grp.size
      · rw [if_pos hs, if_pos (by rw [h.grp hp]; exact hs)]
        exact h.group he hp
      · rw [if_neg hs, if_neg (by rw [h.grp hp]; exact hs)]
        exact (h.setPhase .idle (by simp)).setNext _ _
    · rw [if_neg hp, if_neg (by rw [hph]; exact hp)]
      exact h
  | leave =>
    unfold Schedule.step
    simp only []
    by_cases hc : s.phase = .idle ∧ s.go = false
    · rw [if_pos hc, if_pos (by rw [hph, hgo]; exact hc)]
      exact h.setPhase (.ending 0) (by simp)
    · rw [if_neg hc, if_neg (by rw [hph, hgo]; exact hc)]
      exact h
  | endEvt =>
    have hen : r.endEvts = s.endEvts := by obtain ⟨n, g0, tl, h1, h2, h3⟩ := h; rfl
    cases hp : s.phase with
    | ending i =>
      have hpr := hph.trans hp
      cases hi : s.endEvts[i]? with
      | none =>
        have e1 : Schedule.step e s .endEvt = { s with phase := .finished } := by
          unfold Schedule.step; simp only [hp, hi]
        have e2 : Schedule.step e' r .endEvt = { r with phase := .finished } := by
          unfold Schedule.step; simp only [hpr, hen, hi]
        rw [e1, e2]
        exact h.setPhase .finished (by simp)
      | some p =>
        obtain ⟨id, l⟩ := p
        have h0 := h.setPhase (.ending (i+1)) (by simp)
        by_cases hv : id ∈ s.voided
        · have e1 : Schedule.step e s .endEvt = { s with phase := .ending (i+1) } := by
            unfold Schedule.step; simp only [hp, hi, hv, if_true]
          have e2 : Schedule.step e' r .endEvt = { r with phase := .ending (i+1) } := by
            unfold Schedule.step; simp only [hpr, hen, hi, h.voided, hv, if_true]
          rw [e1, e2]
          exact h0
        · have h1 := h0.obs (.ranEnd id l)
          obtain ⟨tl, t1, t2⟩ := h1.hist
          simp only [] at t1 t2
          have e1 : Schedule.step e s .endEvt = (e.endProg (s.trace ++ [.ranEnd id l]) l).foldl applyAct { s with phase := .ending (i+1), trace := s.trace ++ [.ranEnd id l] } := by
            unfold Schedule.step; simp only [hp, hi, hv, if_false]
          have e2 : Schedule.step e' r .endEvt = (e'.endProg (r.trace ++ [.ranEnd id l]) l).foldl applyAct { r with phase := .ending (i+1), trace := r.trace ++ [.ranEnd id l] } := by
            unfold Schedule.step; simp only [hpr, hen, hi, h.voided, hv, if_false]
          have hprog : e'.endProg (r.trace ++ [.ranEnd id l]) l = e.endProg (s.trace ++ [.ranEnd id l]) l := by
            rw [t1, t2, he.endProg]
          rw [e1, e2, hprog]
          exact h1.acts _
    | _ =>
      have hpr := hph.trans hp
      have e1 : Schedule.step e s .endEvt = s := by
        unfold Schedule.step; simp only [hp]
      have e2 : Schedule.step e' r .endEvt = r := by
        unfold Schedule.step; simp only [hpr]
      rw [e1, e2]; exact h

end

/-- C15: the execution after the checkpoint is the same as without it: for every later sequence of steps, the observations made
after restoring (`tl`) are those made on the original runner; callbacks recreated behave as the original ones. The schedule is between two ticks,
something has been scheduled, no pending event is voided, has a tag or is for the current tick. -/
theorem C15_same_future_partial (e e' : Env) (ops : List Op) (arr : List Ev) (harr : arr.Perm (run e ops).queue) (s0 : St)
    (htag : ∀ ev ∈ (run e ops).queue, ev.tag = none)
    (hlater : ∀ ev ∈ (run e ops).queue, (run e ops).tick < ev.at_)
    (hidle : (run e ops).phase = .idle) (hgo : (run e ops).go = true) (hsome : (run e ops).counter ≠ 0)
    (hq : ∀ ev ∈ (run e ops).queue, ev.id ∉ (run e ops).voided) (hend : ∀ p ∈ (run e ops).endEvts, p.1 ∉ (run e ops).voided)
    (he : SameCallbacks e e' (run e ops).trace (restore (save (run e ops) arr) some none true true s0).trace)
    (later : List Op) :
    ∃ tl, (later.foldl (step e) (run e ops)).trace = (run e ops).trace ++ tl ∧
      (later.foldl (step e') (restore (save (run e ops) arr) some none true true s0)).trace =
        (restore (save (run e ops) arr) some none true true s0).trace ++ tl := by
  obtain ⟨h1, h2, h3, h4, h5⟩ := C15_pending_partial e ops arr harr s0 htag hlater
  have hx := (run_ginv e ops).idle (by simp [hidle])
  have hsim : Sim (run e ops).trace (restore (save (run e ops) arr) some none true true s0).trace (run e ops)
      (restore (save (run e ops) arr) some none true true s0) := by
    have hl : ∀ d ∈ (save (run e ops) arr).evts, ∀ ev, recreated some none d = some ev → (run e ops).tick < d.at_ := by
      intro d hd ev hev
      have hk : d.kind ≠ .end_ := by
        intro hk
        simp [recreated, hk] at hev
      simp only [save] at hd
      rcases List.mem_append.1 hd with hd | hd
      · obtain ⟨p, -, rfl⟩ := List.mem_map.1 hd
        exact absurd rfl hk
      · obtain ⟨ev1, hev1, rfl⟩ := List.mem_map.1 hd
        exact hlater ev1 (harr.mem_iff.1 (List.mem_filter.1 hev1).1)
    obtain ⟨-, -, -, g4, g5, g6, g7, g8⟩ := fold_facts (creator := some) (tag := none) (b := true) (save (run e ops) arr).evts
      { St.init with tick := (save (run e ops) arr).tick, voided := (save (run e ops) arr).voided, rnd := (save (run e ops) arr).rnd } hl
    have hq' : (restore (save (run e ops) arr) some none true true s0).queue = (run e ops).queue := by
      rw [h1, List.filter_eq_self]
      intro ev hev
      simpa using hq ev hev
    have hend' : (restore (save (run e ops) arr) some none true true s0).endEvts = (run e ops).endEvts := by
      rw [h2, List.filter_eq_self]
      intro p hp
      simpa using hend p hp
    have hid : (restore (save (run e ops) arr) some none true true s0).nextId = (run e ops).nextId := by
      show max St.init.nextId (run e ops).nextId = (run e ops).nextId
      simp [St.init]
    have hv' : (restore (save (run e ops) arr) some none true true s0).voided = (run e ops).voided := g5
    have hr' : (restore (save (run e ops) arr) some none true true s0).rnd = (run e ops).rnd := g6
    have hg' : (restore (save (run e ops) arr) some none true true s0).go = (run e ops).go := g7.trans hgo.symm
    have hp' : (restore (save (run e ops) arr) some none true true s0).phase = (run e ops).phase := g8.trans hidle.symm
    have hgrp : (restore (save (run e ops) arr) some none true true s0).grp = {} := g4
    have hc' := h5 hsome
    generalize restore (save (run e ops) arr) some none true true s0 = r at *
    refine .of r.nextTick r.grp [] (by simp) ?_ (by simp [hidle]) ?_
    · rw [hx, hgrp]
    · cases r
      simp only [List.append_nil] at *
      subst h3 hc' h4 hv' hr' hg' hp' hid hq' hend'
      rfl
  have hall : ∀ (l : List Op) (s r : St), Sim (run e ops).trace (restore (save (run e ops) arr) some none true true s0).trace s r →
      Sim (run e ops).trace (restore (save (run e ops) arr) some none true true s0).trace (l.foldl (step e) s) (l.foldl (step e') r) := by
    intro l
    induction l with
    | nil => exact fun s r h => h
    | cons o l ih => exact fun s r h => ih _ _ (h.step he o)
  exact (hall later _ _ hsim).hist

/-- The hypotheses are met after two ticks of a run with a repeating event, a future one, the stop and an end event, and callbacks that do
nothing. -/
example : let s := run (exEnv fun _ _ => []) [.act (rep 1 2 .first none 7), .act (one 5), .act (.schedStop (some 9)), .act (.schedEnd 4), .enter, .loop, .loop]
    (∀ ev ∈ s.queue, ev.tag = none) ∧ (∀ ev ∈ s.queue, s.tick < ev.at_) ∧ s.phase = .idle ∧ s.go = true ∧ s.counter ≠ 0 ∧
    (∀ ev ∈ s.queue, ev.id ∉ s.voided) ∧ (∀ p ∈ s.endEvts, p.1 ∉ s.voided) ∧
    SameCallbacks (exEnv fun _ _ => []) (exEnv fun _ _ => []) s.trace (restore (save s s.queue) some none true true St.init).trace := by
  refine ⟨by decide +kernel, by decide +kernel, by decide +kernel, by decide +kernel, by decide +kernel, by decide +kernel, by decide +kernel, ?_⟩
  constructor <;> first | rfl | (intros; rfl)

/-! ### C17 -/

/-- C17 is false: `restore_stop_at` makes no difference. Whatever is saved, restoring with `restore_stop_at=False` gives the runner that
`restore_stop_at=True` gives. -/
theorem C17_flag_ignored (sv : Saved) (creator : Nat → Option Nat) (tag : Option Nat) (init : Bool) (s : St) :
    restore sv creator tag init false s = restore sv creator tag init true s := by
  have : restoreEvt creator tag false = restoreEvt creator tag true := by
    funext s d
    unfold restoreEvt
    split
    · split
      · simp
      · rfl
    · rfl
  simp only [restore, this]

/-- C17, violation: a saved stop event (stop events have no tag) is restored although `restore_stop_at` is false, and the restored simulation stops
at its tick. -/
theorem C17_violation (sv : Saved) (creator : Nat → Option Nat) (d : EvtData) (hd : d ∈ sv.evts) (hk : d.kind = .stop) (ht : d.tag = none)
    (hlater : ∀ d ∈ sv.evts, d.kind ≠ .end_ → sv.tick < d.at_) (s : St) :
    ∃ ev ∈ (restore sv creator none true false s).queue, ev.cb = .stop ∧ ev.at_ = d.at_ := by
  obtain ⟨h1, -, -⟩ := C16_tagged sv creator none true false s (by simpa using hlater)
  refine ⟨{ id := d.id, at_ := d.at_, ord := d.ord, ptype := .random, prio := none, interval := none, cb := .stop, tag := none }, ?_, rfl, rfl⟩
  rw [h1.mem_iff]
  refine List.mem_append_right _ ?_
  exact List.mem_filterMap.2 ⟨d, hd, by simp [recreated, hk, ht]⟩

example : ∃ d ∈ exSaved.evts, d.kind = .stop ∧ d.tag = none ∧ (∀ d ∈ exSaved.evts, d.kind ≠ .end_ → exSaved.tick < d.at_) := by decide +kernel

/-- C17, what holds: with `restore_stop_at=True` every saved stop event is restored, and a restored stop event comes from a saved one. -/
theorem C17_restored_partial (sv : Saved) (creator : Nat → Option Nat) (s : St)
    (hlater : ∀ d ∈ sv.evts, d.kind ≠ .end_ → sv.tick < d.at_) (t : Int) :
    (∃ ev ∈ (restore sv creator none true true s).queue, ev.cb = .stop ∧ ev.at_ = t) ↔
    ∃ d ∈ sv.evts, d.kind = .stop ∧ d.tag = none ∧ d.at_ = t := by
  constructor
  · rintro ⟨ev, hev, hc, rfl⟩
    obtain ⟨h1, -, -⟩ := C16_tagged sv creator none true true s (by simpa using hlater)
    rw [h1.mem_iff] at hev
    simp only [if_true, List.nil_append, List.mem_filterMap] at hev
    obtain ⟨d, hd, hr⟩ := hev
    unfold recreated at hr
    split at hr
    · rename_i htag
      refine ⟨d, hd, ?_⟩
      cases hk : d.kind with
      | stop =>
        rw [hk] at hr
        simp only [Option.some.injEq] at hr
        subst hr
        exact ⟨rfl, htag, rfl⟩
      | end_ => rw [hk] at hr; simp at hr
      | oneTime =>
        rw [hk] at hr
        simp only [Option.map_eq_some_iff] at hr
        obtain ⟨l, -, rfl⟩ := hr
        simp at hc
      | repeating i =>
        rw [hk] at hr
        simp only [Option.map_eq_some_iff] at hr
        obtain ⟨l, -, rfl⟩ := hr
        simp at hc
    · cases hr
  · rintro ⟨d, hd, hk, ht, rfl⟩
    have := C17_violation sv creator d hd hk ht hlater s
    rwa [C17_flag_ignored] at this

end Repast.Checkpoint
