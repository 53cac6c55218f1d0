import Verif.Schedule.Model

/-! Vocabulary of the schedule properties: projections of the observable history. -/
namespace Repast.Schedule

/-- The `k`-th occurrence time of an event: a repeating event occurs at its start and then each time its interval is
added; a one-time event has its start only. -/
def occ (e : Env) (ev : Ev) : Nat → Int
  | 0 => ev.at_
  | k+1 => match ev.interval with
    | none => ev.at_
    | some i => e.adv (occ e ev k) i

/-- The invocations of the callable of the event with identity `x`, in order, each with the event object and the
value of `tick()` at that time. -/
def runsOf (x : Nat) (tr : List Obs) : List (Ev × Int) :=
  tr.filterMap fun o => match o with
    | .ran ev now => if ev.id = x then some (ev, now) else none
    | _ => none

/-- All callback invocations in order: (identity, tick). -/
def runs (tr : List Obs) : List (Nat × Int) :=
  tr.filterMap fun o => match o with
    | .ran ev now => some (ev.id, now)
    | _ => none

/-- The accepted `schedule_*` calls, in order. -/
def scheds (tr : List Obs) : List Ev :=
  tr.filterMap fun o => match o with
    | .sched ev _ _ => some ev
    | _ => none

/-- The ticks entered, in order. -/
def starts (tr : List Obs) : List Int :=
  tr.filterMap fun o => match o with
    | .start t => some t
    | _ => none

/-- Every repeating event scheduled so far has a non-negative interval. -/
def NonNegIntervals (tr : List Obs) : Prop :=
  ∀ ev now d i, Obs.sched ev now d ∈ tr → ev.interval = some i → 0 ≤ i

/-- Adding a non-negative interval does not go back in time (true of IEEE addition). -/
def AdvMono (e : Env) : Prop := ∀ t i, 0 ≤ i → t ≤ e.adv t i

/-- `x` has been voided. -/
def IsVoided (x : Nat) (tr : List Obs) : Prop := Obs.voided x ∈ tr

/-- No tick is entered strictly between positions `i` and `j` of the history. -/
def NoStart (tr : List Obs) (i j : Nat) : Prop := ∀ k t, i < k → k < j → tr[k]? ≠ some (.start t)

/-- Event `x` was accepted before position `i` of the history. -/
def SchedBefore (tr : List Obs) (x i : Nat) : Prop :=
  ∃ k ev now d, k < i ∧ tr[k]? = some (.sched ev now d) ∧ ev.id = x

/-- No event was added to the current tick by a callback so far. -/
def Clean (tr : List Obs) : Prop :=
  ∀ (i : Nat) ev now, tr[i]? = some (Obs.sched ev now true) → ev.at_ = now → ∃ (k : Nat) (t : Int), i < k ∧ tr[k]? = some (Obs.start t)

/-- No middle event has a NaN priority. -/
def NoNaN (tr : List Obs) : Prop :=
  ∀ ev now d, Obs.sched ev now d ∈ tr → ev.ptype = .random ∨ ev.ptype = .byPriority → ev.prio.isSome

/-- Every BY_PRIORITY event has a priority. -/
def Prioritized (tr : List Obs) : Prop :=
  ∀ ev now d, Obs.sched ev now d ∈ tr → ev.ptype = .byPriority → ev.prio.isSome

/-- The value of `tick()` at each observation that mentions it. -/
def clock (tr : List Obs) : List Int :=
  tr.filterMap fun o => match o with
    | .start t => some t
    | .ran _ now => some now
    | .sched _ now _ => some now
    | _ => none

/-- The end events scheduled, in order. -/
def schedEnds (tr : List Obs) : List (Nat × Nat) :=
  tr.filterMap fun o => match o with
    | .schedEnd id l => some (id, l)
    | _ => none

/-- The end events run, in order. -/
def ranEnds (tr : List Obs) : List (Nat × Nat) :=
  tr.filterMap fun o => match o with
    | .ranEnd id l => some (id, l)
    | _ => none

/-- Event `x` was scheduled before event `y`. -/
def ScheduledEarlier (tr : List Obs) (x y : Nat) : Prop :=
  ∃ (i j : Nat) (a b : Ev) (na nb : Int) (da db : Bool), i < j ∧ tr[i]? = some (.sched a na da) ∧ tr[j]? = some (.sched b nb db) ∧
    a.id = x ∧ b.id = y

end Repast.Schedule
