import Verif.Schedule.Props

/-
Model of several processes running `SharedScheduleRunner.execute` (schedule.py:612-624): each rank has its own schedule and
blocks in `comm.allreduce(self.next_tick, op=MPI.MIN)` until every rank of the communicator has called it; it then executes its
pending events or not according to the minimum. Ranks are interleaved arbitrarily between these collective calls. MPI
itself is modelled by its specification: the reduction returns the minimum of the values of all ranks.
-/
namespace Repast.Schedule

/-- One process: its runner, the value it contributed to the reduction it is blocked in, and the result of the last
reduction if it has not acted on it. -/
structure Rank where
  st : St
  wait : Option Int := none
  grant : Option Int := none

/-- All processes, and the observations made on all of them, in a global order of occurrence. -/
structure World where
  ranks : Nat → Rank
  log : List (Nat × Obs) := []

/-- Each process builds its schedule (an arbitrary list of API calls), then calls `execute()`. -/
def World.init (setup : Nat → List Act) : World := { ranks := fun i => { st := (setup i).foldl applyAct St.init } }

/-- Process `i` makes a step of its own. -/
def World.localStep (e : Nat → Env) (w : World) (i : Nat) (op : Op) : World :=
  let s := (w.ranks i).st
  let s' := step (e i) s op
  { ranks := fun j => if j = i then { st := s' } else w.ranks j
    log := w.log ++ (s'.trace.drop s.trace.length).map (fun o => (i, o)) }

/-- schedule.py:617-618: the reduction, once all the `n` processes take part. -/
def World.allreduce (n : Nat) (w : World) : Option Int :=
  if (List.range n).all (fun i => (w.ranks i).wait.isSome) then
    ((List.range n).map (fun i => (w.ranks i).wait.getD 0)).min?
  else none

/-- Steps of the system. `arrive i`: process `i` calls `allreduce`; `reduce`: the reduction completes; `resume i`: process `i`
gets the result (schedule.py:619-621); `loop i`, `leave i`, `endEvt i`: see `Op`. A step that does not apply leaves the
system unchanged. -/
inductive WOp where
  | arrive (i : Nat)
  | reduce
  | resume (i : Nat)
  | loop (i : Nat)
  | leave (i : Nat)
  | endEvt (i : Nat)
  deriving DecidableEq, Repr

def wstep (e : Nat → Env) (n : Nat) (w : World) : WOp → World
  | .arrive i =>
    let r := w.ranks i
    if r.st.phase = .idle ∧ r.st.go = true ∧ r.wait = none ∧ r.grant = none then
      { w with ranks := fun j => if j = i then { r with wait := some r.st.nextTick } else w.ranks j }
    else w
  | .reduce => match w.allreduce n with
    | none => w
    | some m => { w with ranks := fun i => { w.ranks i with wait := none, grant := some m } }
  | .resume i => match (w.ranks i).grant with
    | none => w
    | some m => w.localStep e i (if (w.ranks i).st.nextTick = m then .enter else .skip)
  | .loop i => if (w.ranks i).st.phase = .running then w.localStep e i .loop else w
  | .leave i =>
    if (w.ranks i).st.phase = .idle ∧ (w.ranks i).st.go = false then w.localStep e i .leave else w
  | .endEvt i => match (w.ranks i).st.phase with
    | .ending _ => w.localStep e i .endEvt
    | _ => w

/-- The system after a history of steps of `n` processes. Steps of processes beyond `n` are ignored. -/
def wrun (e : Nat → Env) (n : Nat) (setup : Nat → List Act) (ops : List WOp) : World :=
  (ops.filter fun o => match o with
    | .reduce => true
    | .arrive i | .resume i | .loop i | .leave i | .endEvt i => decide (i < n)).foldl (wstep e n) (World.init setup)

/-- The ticks at which callbacks run and ticks are entered, over all ranks in order of occurrence. -/
def World.times (w : World) : List Int :=
  w.log.filterMap fun p => match p.2 with
    | .start t => some t
    | .ran _ now => some now
    | _ => none

/-- No `schedule_stop` call follows the last `schedule_event`/`schedule_repeating_event` call, and there is such a call. -/
def StopsFirst (setup : List Act) : Prop :=
  ∃ pre at_ p q i l g post, setup = pre ++ .sched at_ p q i l g :: post ∧ ∀ t, Act.schedStop t ∉ post

/-- The last call before `execute()` that schedules something is not a `schedule_stop`, or an event is scheduled for a tick that
is not after that of any stop: either way the runner's `next_tick` is right when `execute()` begins. -/
def StopsFresh (setup : List Act) : Prop :=
  StopsFirst setup ∨ ∃ t p q i l g, Act.sched (some t) p q i l g ∈ setup ∧ startTick < t ∧
    ∀ u, Act.schedStop (some u) ∈ setup → t ≤ u

end Repast.Schedule
