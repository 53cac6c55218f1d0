import Verif.Util.Sort

/-
Model of `/repo/src/repast4py/schedule.py`.

One `St` is the state of one process' `SharedScheduleRunner` together with its `Schedule` and `ScheduleGroup`,
plus the observable history (`trace`) of API calls and callback invocations.

Global simplifications (see DESIGN.md):
* Ticks are `Int` (the non-NaN doubles embed in the integers by their sign-magnitude bit pattern, preserving order); the rounding addition
  `at += interval` is the arbitrary function `Env.adv`; a NaN tick or priority is `none`.
* Callbacks do not raise, and do not call `Schedule.execute` re-entrantly.
* The heap `queue` is represented by the sorted list of its entries; `Verif/Heapq` proves that `heapq`'s array
  operations refine this representation.
* An event object is identified by `id`; the mutable parts of an event object are `at` (changed only by
  `reschedule`, when no other reference to the entry is pending) and the voided flag (`St.voided`).
-/
namespace Repast.Schedule

/-- schedule.py:30-35 `PriorityType`. -/
inductive PType where
  | first | last | random | byPriority
  deriving DecidableEq, Repr

/-- What an event's callable is: arbitrary user code (identified by a label) or the bound method
`SharedScheduleRunner.stop` (schedule.py:588-603). -/
inductive Cb where
  | user (label : Nat)
  | stop
  deriving DecidableEq, Repr

/-- schedule.py:46-69, 85-106, 130-150: `ScheduledEvent`, `RepeatingEvent` (`interval = some _`),
`OneTimeEvent` (`interval = none`). `tag` is the metadata's `'tag'` entry (used by checkpoint.py:241); the rest of the
metadata is not modelled here. -/
structure Ev where
  id : Nat
  at_ : Int
  ord : Nat
  ptype : PType
  prio : Option Int
  interval : Option Int
  cb : Cb
  tag : Option Nat
  deriving DecidableEq, Repr

/-- The observable history: calls made on the API and callbacks invoked. -/
inductive Obs where
  /-- a `schedule_*` call returned the event `ev`, accepted; `now` is the tick at the call, `during` tells whether
  the call was made while events of a tick were being executed. -/
  | sched (ev : Ev) (now : Int) (during : Bool)
  /-- a `schedule_*` call whose event was ignored. -/
  | ignored (id : Nat)
  /-- `Schedule.execute` advanced to tick `t`. -/
  | start (t : Int)
  /-- the callable of `ev` was invoked; `now` is `tick()` at that time. -/
  | ran (ev : Ev) (now : Int)
  /-- `void()` was called on event `id`. -/
  | voided (id : Nat)
  /-- `stop()` was called. -/
  | stopped
  /-- `schedule_end_event` returned event `id` with callable label `cb`. -/
  | schedEnd (id : Nat) (cb : Nat)
  /-- the callable of end event `id` was invoked. -/
  | ranEnd (id : Nat) (cb : Nat)
  deriving DecidableEq, Repr

/-- API calls user code can make on the runner. -/
inductive Act where
  /-- `schedule_event` / `schedule_repeating_event` (schedule.py:479-569); `at = none` is NaN. -/
  | sched (at_ : Option Int) (ptype : PType) (prio : Option Int) (interval : Option Int) (label : Nat) (tag : Option Nat)
  /-- `schedule_stop` (schedule.py:588-597). -/
  | schedStop (at_ : Option Int)
  /-- `schedule_end_event` (schedule.py:571-586). -/
  | schedEnd (label : Nat)
  /-- `ScheduledEvent.void` (schedule.py:121-127, 157-160). -/
  | void (id : Nat)
  /-- `SharedScheduleRunner.stop` (schedule.py:599-603). -/
  | stop
  deriving DecidableEq, Repr

/-- schedule.py:163-189 `ScheduleGroup` (the unused `evts_to_execute` is left out). -/
structure Group where
  first : List Ev := []
  last : List Ev := []
  random : List Ev := []
  prioritized : List Ev := []
  added : List Ev := []
  executing : Bool := false
  interrupted : Bool := false
  size : Int := 0
  deriving Repr

/-- Where the process is in its main loop. `idle`: between two `Schedule.execute` calls; `running`: inside
`Schedule.execute` (the `while size > 0` loop, schedule.py:431); `ending i`: in the loop over `end_evts`
(schedule.py:623), about to look at index `i`; `finished`: `SharedScheduleRunner.execute` returned. -/
inductive Phase where
  | idle | running | ending (i : Nat) | finished
  deriving DecidableEq, Repr

/-- schedule.py:287-293 `Schedule.__init__` and 472-477 `SharedScheduleRunner.__init__`.
`counter` is the next value of `itertools.count()`; `nextId` allocates event identities; `rnd` counts draws from the
random generator; `trace` is the observable history. -/
structure St where
  queue : List Ev := []
  tick : Int
  counter : Nat := 0
  lastCount : Nat := 0
  grp : Group := {}
  voided : List Nat := []
  nextId : Nat := 0
  go : Bool := true
  nextTick : Int
  endEvts : List (Nat × Nat) := []
  rnd : Nat := 0
  phase : Phase := .idle
  trace : List Obs := []
  deriving Repr

/-- Everything outside the module: user callbacks, the random generator, float addition and Python's sort on
keys that may be NaN. All theorems quantify over `Env`. -/
structure Env where
  /-- `at + interval` on doubles. -/
  adv : Int → Int → Int
  /-- the API calls made by an event's callable, as an arbitrary function of the history so far. -/
  prog : List Obs → Ev → List Act
  /-- the API calls made by an end event's callable. -/
  endProg : List Obs → Nat → List Act
  /-- `rng.integers(0, n, endpoint=True)` for the `k`-th draw. -/
  pick : Nat → Nat → Nat
  pick_le : ∀ k n, pick k n ≤ n
  /-- `rng.shuffle` for the `k`-th draw. -/
  shuf : Nat → List Ev → List Ev
  shuf_perm : ∀ k l, (shuf k l).Perm l
  /-- `list.sort(key=lambda evt: evt.priority)`. -/
  psort : List Ev → List Ev
  /-- a sort permutes. -/
  psort_perm : ∀ l, (psort l).Perm l
  /-- without NaN keys the sort is the stable sort. -/
  psort_total : ∀ l, (∀ ev ∈ l, ev.prio.isSome) →
    psort l = stableSort (fun a b => decide (a.prio.getD 0 ≤ b.prio.getD 0)) l
  /-- a list in which no element is smaller than its predecessor is returned unchanged (it is one run for
  CPython's `count_run`); a comparison with NaN is false. -/
  psort_run : ∀ l : List Ev,
    (∀ i, ∀ a b p q, l[i]? = some a → l[i+1]? = some b → a.prio = some p → b.prio = some q → ¬ q < p) → psort l = l

/-- The order of heap entries `(at, order_idx, evt)` (schedule.py:309, 119): tuple comparison; `order_idx`s of
pending entries differ, so events themselves are never compared. -/
def qlt (a b : Ev) : Bool := decide (a.at_ < b.at_) || (decide (a.at_ = b.at_) && decide (a.ord < b.ord))

/-- `heapq.heappush` (schedule.py:119, 309) on the sorted representation of the heap. -/
def qinsert (ev : Ev) : List Ev → List Ev
  | [] => [ev]
  | x :: xs => if qlt ev x then ev :: x :: xs else x :: qinsert ev xs

/-- schedule.py:198-208 `ScheduleGroup._add_evt`. -/
def Group.addEvt' (g : Group) (ev : Ev) : Group :=
  match ev.ptype with
  | .random => { g with random := g.random ++ [ev], size := g.size + 1 }
  | .first => { g with first := g.first ++ [ev], size := g.size + 1 }
  | .last => { g with last := g.last ++ [ev], size := g.size + 1 }
  | .byPriority => { g with prioritized := g.prioritized ++ [ev], size := g.size + 1 }

/-- schedule.py:191-196 `ScheduleGroup.add_evt`. -/
def Group.addEvt (g : Group) (ev : Ev) : Group :=
  if g.executing then { g with added := g.added ++ [ev], interrupted := true }
  else g.addEvt' ev

/-- schedule.py:178-185 `ScheduleGroup.reset`. -/
def Group.reset (g : Group) : Group :=
  { g with first := [], last := [], random := [], prioritized := [], added := [], size := 0, interrupted := false }

/-- `list.sort(key=lambda evt: evt.order_idx)` (schedule.py:213-217). -/
def ordSort (l : List Ev) : List Ev := stableSort (fun a b => decide (a.ord ≤ b.ord)) l

/-- schedule.py:223-225: each RANDOM event is inserted at a random index of the prioritized list. -/
def insertRandom (e : Env) : Nat → List Ev → List Ev → List Ev
  | _, acc, [] => acc
  | k, acc, ev :: rest => insertRandom e (k+1) (acc.insertIdx (e.pick k acc.length) ev) rest

/-- schedule.py:210-231 `ScheduleGroup.sort`. The second component is the number of draws used so far. -/
def Group.sort (e : Env) (k : Nat) (g : Group) : Group × Nat :=
  let random := ordSort g.random
  let prioritized := ordSort g.prioritized
  let first := ordSort g.first
  let last := ordSort g.last
  if prioritized.isEmpty then
    ({ g with first := first, last := last, prioritized := prioritized ++ e.shuf k random, random := [] }, k + 1)
  else
    ({ g with first := first, last := last, random := [],
              prioritized := insertRandom e k (e.psort prioritized) random }, k + random.length)

/-- schedule.py:295-309 `Schedule._push_event`, with the construction of the event (schedule.py:350, 396, 596). -/
def pushEvent (s : St) (at_ : Option Int) (ptype : PType) (prio interval : Option Int) (cb : Cb) (tag : Option Nat) : St :=
  let id := s.nextId
  match at_ with
  | none => { s with nextId := id + 1, trace := s.trace ++ [.ignored id] }
  | some t =>
    if s.tick ≤ t then
      let ev : Ev := { id := id, at_ := t, ord := s.counter, ptype := ptype, prio := prio, interval := interval, cb := cb, tag := tag }
      let s := { s with counter := s.counter + 1, lastCount := s.counter, nextId := id + 1,
                        trace := s.trace ++ [Obs.sched ev s.tick s.grp.executing] }
      if t = s.tick then { s with grp := s.grp.addEvt ev }
      else { s with queue := qinsert ev s.queue }
    else { s with nextId := id + 1, trace := s.trace ++ [.ignored id] }

/-- schedule.py:400-409 `Schedule.next_tick`; `none` stands for the value -1 returned for an empty queue. -/
def headTick (s : St) : Option Int := s.queue.head?.map (·.at_)

/-- The tick -1 (schedule.py:407, 475). Doubles are embedded in `Int` by their bit pattern (sign-magnitude), which is
an order embedding mapping 0 to 0. -/
def noTick : Int := -4607182418800017408

/-- The initial tick -1e-39 (schedule.py:290) under the same embedding. -/
def startTick : Int := -4023340849777945987

/-- schedule.py:400-409 `Schedule.next_tick`. -/
def schedNextTick (s : St) : Int := (headTick s).getD noTick

/-- A fresh runner: schedule.py:287-293, 472-477. -/
def St.init : St := { tick := startTick, nextTick := noTick }

/-- One API call of user code.
`sched`: schedule.py:520-522, 566-569 (then `next_tick` is refreshed); `schedStop`: 596 (it is not);
`schedEnd`: 582-586; `void`: 121-127, 157-160; `stop`: 603. -/
def applyAct (s : St) : Act → St
  | .sched at_ ptype prio interval label tag =>
    let s := pushEvent s at_ ptype prio interval (.user label) tag
    { s with nextTick := schedNextTick s }
  | .schedStop at_ => pushEvent s at_ .random none none .stop none
  | .schedEnd label =>
    { s with nextId := s.nextId + 1, endEvts := s.endEvts ++ [(s.nextId, label)],
             trace := s.trace ++ [.schedEnd s.nextId label] }
  | .void id => { s with voided := id :: s.voided, trace := s.trace ++ [.voided id] }
  | .stop => { s with go := false, trace := s.trace ++ [.stopped] }

/-- `evt()` (schedule.py:71-72, 245): a voided event's callable has been replaced by a no-op (schedule.py:123, 159). -/
def callEv (e : Env) (s : St) (ev : Ev) : St :=
  if ev.id ∈ s.voided then s
  else
    let s := { s with trace := s.trace ++ [.ran ev s.tick] }
    match ev.cb with
    | .stop => applyAct s .stop
    | .user _ => (e.prog s.trace ev).foldl applyAct s

/-- `evt.reschedule(queue)` (schedule.py:108-119, 152-155, 246); replaced by a no-op once voided (schedule.py:126). -/
def rescheduleEv (e : Env) (s : St) (ev : Ev) : St :=
  match ev.interval with
  | none => s
  | some i =>
    if ev.id ∈ s.voided then s
    else { s with queue := qinsert { ev with at_ := e.adv ev.at_ i } s.queue }

/-- schedule.py:244-246: body of the loop over the events. -/
def runEv (e : Env) (s : St) (ev : Ev) : St :=
  let s := { s with grp := { s.grp with size := s.grp.size - 1 } }
  let s := callEv e s ev
  rescheduleEv e s ev

/-- schedule.py:233-237 `ScheduleGroup._add_during_ex_evts`, and 256. -/
def addDuring (e : Env) (s : St) : St :=
  let g := s.grp.added.foldl Group.addEvt' s.grp
  let r := g.sort e s.rnd
  { s with grp := { r.1 with added := [], interrupted := false }, rnd := r.2 }

/-- The three lists `ScheduleGroup.execute` goes through. -/
inductive Which where
  | first | prioritized | last
  deriving DecidableEq, Repr

def Group.get (g : Group) : Which → List Ev
  | .first => g.first
  | .prioritized => g.prioritized
  | .last => g.last

def Group.set (g : Group) (l : List Ev) : Which → Group
  | .first => { g with first := l }
  | .prioritized => { g with prioritized := l }
  | .last => { g with last := l }

/-- schedule.py:239-258 `ScheduleGroup.execute_evts`; the result tells whether it was interrupted.
Simplified: executed entries are removed from the list one at a time instead of by `del evts[:next_idx]` after the
loop; nothing reads these lists while a callback runs. -/
def executeEvts (e : Env) (w : Which) : List Ev → St → St × Bool
  | [], s => (s, false)
  | ev :: rest, s =>
    let s := runEv e { s with grp := s.grp.set rest w } ev
    if s.grp.interrupted then (addDuring e s, true)
    else executeEvts e w rest s

/-- schedule.py:260-271 `ScheduleGroup.execute`. -/
def groupExecute (e : Env) (s : St) : St :=
  let s := { s with grp := { s.grp with executing := true } }
  let r := executeEvts e .first s.grp.first s
  if r.2 then r.1 else
  let r := executeEvts e .prioritized r.1.grp.prioritized r.1
  if r.2 then r.1 else
  let r := executeEvts e .last r.1.grp.last r.1
  if r.2 then r.1 else
  { r.1 with grp := { r.1.grp with executing := false } }

/-- schedule.py:415-430: the part of `Schedule.execute` before the `while` loop. Popping from the heap while the
head's tick is the tick of the first entry is `takeWhile` on the sorted list. With an empty queue nothing happens and the
runner refreshes `next_tick` (schedule.py:621). -/
def startExecute (e : Env) (s : St) : St :=
  match s.queue with
  | [] => { s with nextTick := schedNextTick s }
  | ev :: _ =>
    let t := ev.at_
    let now := s.queue.takeWhile (fun x => decide (x.at_ = t))
    let g := now.foldl Group.addEvt s.grp.reset
    let r := g.sort e s.rnd
    { s with tick := t, queue := s.queue.dropWhile (fun x => decide (x.at_ = t)), grp := r.1, rnd := r.2,
             phase := .running, trace := s.trace ++ [.start t] }

/-- Steps of one process: an API call between two ticks, entering `Schedule.execute`, one evaluation of its
`while executing_group.size > 0` loop (schedule.py:431-433), leaving the main loop once `go` is false, and one
iteration of the loop over the end events (schedule.py:623-624; a Python list iterator sees appended elements).
`enter` and `skip` are the two branches of schedule.py:619-621: the process takes part in the tick or only refreshes its
`next_tick` (which of the two happens depends on the other processes, see `Verif/Schedule/World`).
A step that does not apply in the current phase leaves the state unchanged. -/
inductive Op where
  | act (a : Act)
  | enter
  | skip
  | loop
  | leave
  | endEvt
  deriving DecidableEq, Repr

def step (e : Env) (s : St) : Op → St
  | .act a => if s.phase = .idle then applyAct s a else s
  | .enter => if s.phase = .idle ∧ s.go = true then startExecute e s else s
  | .skip => if s.phase = .idle ∧ s.go = true then { s with nextTick := schedNextTick s } else s
  | .loop =>
    if s.phase = .running then
      if 0 < s.grp.size then groupExecute e s
      else { s with phase := .idle, nextTick := schedNextTick s }
    else s
  | .leave => if s.phase = .idle ∧ s.go = false then { s with phase := .ending 0 } else s
  | .endEvt =>
    match s.phase with
    | .ending i =>
      match s.endEvts[i]? with
      | none => { s with phase := .finished }
      | some (id, label) =>
        let s := { s with phase := .ending (i+1) }
        if id ∈ s.voided then s
        else
          let s := { s with trace := s.trace ++ [.ranEnd id label] }
          (e.endProg s.trace label).foldl applyAct s
    | _ => s

/-- The state after a history of steps from a fresh runner. -/
def run (e : Env) (ops : List Op) : St := ops.foldl (step e) St.init

end Repast.Schedule
