import Verif.Checkpoint.Props

/-! C51: a checkpoint of the schedule that is saved while an event is executed. -/
namespace Repast.Checkpoint
open Repast.Schedule

/-- The callables that `executeEvts` calls, each with the state in which it is called (schedule.py:244-245): the state that a `save_schedule` in the callable sees. -/
def callStates (e : Env) (w : Which) : List Ev → St → List (Ev × St)
  | [], _ => []
  | ev :: rest, s =>
    let s0 := { s with grp := { s.grp.set rest w with size := (s.grp.set rest w).size - 1 } }
    (if ev.id ∈ s0.voided then [] else [(ev, { s0 with trace := s0.trace ++ [.ran ev s0.tick] })]) ++
    let s1 := runEv e { s with grp := s.grp.set rest w } ev
    if s1.grp.interrupted then [] else callStates e w rest s1

/-- The same for `groupExecute` (schedule.py:260-271). -/
def groupCalls (e : Env) (s : St) : List (Ev × St) :=
  let s := { s with grp := { s.grp with executing := true } }
  let r := executeEvts e .first s.grp.first s
  callStates e .first s.grp.first s ++
    if r.2 then [] else
      let r2 := executeEvts e .prioritized r.1.grp.prioritized r.1
      callStates e .prioritized r.1.grp.prioritized r.1 ++
        if r2.2 then [] else callStates e .last r2.1.grp.last r2.1

/-- `callStates` are the states from which `executeEvts` runs the callables. -/
theorem callStates_head (e : Env) (w : Which) (ev : Ev) (rest : List Ev) (s : St) (hv : ev.id ∉ s.voided) (l : Nat) (hl : ev.cb = .user l) :
    ∃ t more, callStates e w (ev :: rest) s = (ev, t) :: more ∧ runEv e { s with grp := s.grp.set rest w } ev = rescheduleEv e ((e.prog t.trace ev).foldl applyAct t) ev := by
  simp only [callStates]
  rw [if_neg hv]
  refine ⟨_, _, rfl, ?_⟩
  simp only [runEv, callEv]
  rw [if_neg hv, hl]

/-- C51, for later ticks: a checkpoint that is saved while an event is executed contains each event that is pending for a later tick and is not voided, whatever the state is.
Missing (`_partial`): the events of the tick (`C51_violation`). -/
theorem C51_later_partial (t : St) (arr : List Ev) (harr : arr.Perm t.queue) (ev : Ev) (h : ev ∈ t.queue) (hv : ev.id ∉ t.voided) :
    toData ev ∈ (save t arr).evts := by
  unfold save
  refine List.mem_append_right _ (List.mem_map_of_mem (List.mem_filter.2 ⟨harr.mem_iff.2 h, ?_⟩))
  simpa using hv

/-- C51 is violated: two repeating events, the first of which saves the schedule (for example, to write a checkpoint every day). The checkpoint contains neither of them,
the schedule that is restored from it is empty. Without the checkpoint both events happen at each tick. -/
theorem C51_violation : let e := exEnv fun _ _ => []
    let ops := [Op.act (rep 1 1 .first none 7), .act (rep 1 1 .random none 8), .enter]
    ∃ t more, groupCalls e (run e ops) = t :: more ∧
      t.1.cb = .user 7 ∧
      (save t.2 t.2.queue).evts = [] ∧
      (restore (save t.2 t.2.queue) some none true true St.init).queue = [] ∧
      runs (run e (ops ++ [.loop, .loop, .enter, .loop, .loop])).trace = [(0, 1), (1, 1), (0, 2), (1, 2)] := by
  refine ⟨_, _, rfl, ?_, ?_, ?_, ?_⟩ <;> decide +kernel

/-- In the same history an event that is pending for a later tick is in the checkpoint. -/
example : let e := exEnv fun _ _ => []
    ((groupCalls e (run e [.act (rep 1 1 .first none 7), .act (one 5), .enter])).map fun t => ((save t.2 t.2.queue).evts.map (·.at_))) = [[5]] := by decide +kernel

end Repast.Checkpoint
