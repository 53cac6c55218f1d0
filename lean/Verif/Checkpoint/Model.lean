import Verif.Schedule.Model

/-
Model of the schedule part of `/repo/src/repast4py/checkpoint.py` (lines 92-110, 151-262).

Simplifications: an event's metadata is its `'tag'` entry and what the `evt_creator` needs to recreate the callable (the
callable's label); `warnings` and `evt_processor` are left out; `evt_creator` returns a callable or `IGNORE_EVT`. A restored event object is
given the identity of the saved one (identities are not part of the code: this only says which restored event stands for which saved
event); `voided` likewise keeps the identities voided before, which no restored event has. End events carry no tag when saved
from a model state.
-/
namespace Repast.Checkpoint
open Repast.Schedule

/-- `metadata['__type']` (schedule.py:38-43) of a saved event; VOID events are not saved. -/
inductive Kind where
  | oneTime
  | repeating (interval : Int)
  | stop
  | end_
  deriving DecidableEq, Repr

/-- checkpoint.py:36-43 `EvtData`. -/
structure EvtData where
  id : Nat
  kind : Kind
  at_ : Int
  ord : Nat
  ptype : PType
  prio : Option Int
  label : Nat
  tag : Option Nat
  deriving DecidableEq, Repr

/-- checkpoint.py:151-169: the saved `schedule_state`. `nextId`, `voided` and `rnd` are not part of it: the first two are
identities (see above), the third stands for `save_random`/`restore_random` (checkpoint.py:65-78). -/
structure Saved where
  lastCount : Nat
  tick : Int
  evts : List EvtData
  nextId : Nat
  voided : List Nat
  rnd : Nat

/-- checkpoint.py:92-110 `_to_evt_data` on an event of the queue. -/
def toData (ev : Ev) : EvtData :=
  { id := ev.id, at_ := ev.at_, ord := ev.ord, ptype := ev.ptype, prio := ev.prio, tag := ev.tag,
    kind := match ev.cb, ev.interval with
      | .stop, _ => .stop
      | .user _, some i => .repeating i
      | .user _, none => .oneTime
    label := match ev.cb with
      | .user l => l
      | .stop => 0 }

/-- checkpoint.py:92-110 `_to_evt_data` on an end event (schedule.py:584: at infinity, order index 0, RANDOM, NaN). -/
def endData (p : Nat × Nat) : EvtData :=
  { id := p.1, kind := .end_, at_ := 0, ord := 0, ptype := .random, prio := none, label := p.2, tag := none }

/-- checkpoint.py:151-169 `save_schedule`; `arr` is the heap array `runner.schedule.queue`, some permutation of the pending
entries. -/
def save (s : St) (arr : List Ev) : Saved :=
  { lastCount := s.lastCount, tick := s.tick, nextId := s.nextId, voided := s.voided, rnd := s.rnd,
    evts := (s.endEvts.filter (fun p => !(s.voided.contains p.1))).map endData ++
      (arr.filter (fun ev => !(s.voided.contains ev.id))).map toData }

/-- checkpoint.py:171-190 `_schedule_evt`: the counter is replaced by one that yields the saved order index. -/
def scheduleEvt (s : St) (d : EvtData) (label : Nat) : St :=
  let s := { s with counter := d.ord, nextId := d.id }
  match d.kind with
  | .oneTime => applyAct s (.sched (some d.at_) d.ptype d.prio none label d.tag)
  | .repeating i => applyAct s (.sched (some d.at_) d.ptype d.prio (some i) label d.tag)
  | .stop => applyAct s (.schedStop (some d.at_))
  | .end_ => applyAct s (.schedEnd label)

/-- checkpoint.py:238-256: one iteration of the loop of `restore_schedule`. `creator` is `evt_creator` (`none`: `IGNORE_EVT`). With
`restore_stop_at` false the local variable `evt` is `None`, which differs from `IGNORE_EVT` (0), so the stop event is scheduled as
well. -/
def restoreEvt (creator : Nat → Option Nat) (tag : Option Nat) (restoreStop : Bool) (s : St) (d : EvtData) : St :=
  if d.tag = tag then
    match d.kind with
    | .stop =>
      let evt : Option Nat := if restoreStop then some 1 else none
      if evt ≠ some 0 then scheduleEvt s d 0 else s
    | _ => match creator d.label with
      | none => s
      | some l => scheduleEvt s d l
  else s

/-- checkpoint.py:192-262 `restore_schedule` into runner `s` (`init_`, the argument `initialize`: into a fresh one). -/
def restore (sv : Saved) (creator : Nat → Option Nat) (tag : Option Nat) (init_ restoreStop : Bool) (s : St) : St :=
  let s := if init_ then { St.init with tick := sv.tick, voided := sv.voided, rnd := sv.rnd } else s
  let n := s.nextId
  let s := sv.evts.foldl (restoreEvt creator tag restoreStop) s
  { s with counter := sv.lastCount + 1, lastCount := sv.lastCount, nextId := max n sv.nextId }

end Repast.Checkpoint
