import Verif.Mpi.Lib
import Verif.Mpi.CtxShape

/-
C72 for contexts with shared spaces (`Verif/Context/Model.lean`): what each rank does when it calls `synchronize`, `request_agents` and `move_agents` (context.py:263-308, 438-471, 486-549), as a program
that runs at its own speed, and what it amounts to.
-/
namespace Repast.Mpi.Ctx
open Repast.Dict Repast.Context Repast.Mpi
open Repast.Mixed (Kept form)
open Repast.Network (All)

variable {S P Q : Type} [Proj P Q] [Kept P] (ty : Nat → Nat)

/-! ### Model: the calls of one rank -/

/-- context.py:207-224 `_update_removed_ghosts`. A message to a rank that does not exist is an exception. -/
def updateRemoved (n r : Nat) (c : Cx S P) : Prog (Cx S P) :=
  (Prog.lift (if c.removedMsgs.all (fun m => decide (m.1 < n)) then some c.removedMsgs else none)).bind fun out => (Prog.call "context.py:216" out).bind fun l =>
    Prog.lift ((((delivered n r l).map fun m => m.2).foldlM Cx.dropGhost c).map fun c => { c with removed := [] })

/-- context.py:230-239. -/
def updateStates (n r : Nat) (c : Cx S P) : Prog (Cx S P) :=
  (Prog.lift (c.stateMsgs.bind fun l => if l.all (fun m => decide (m.1 < n)) then some l else none)).bind fun out => (Prog.call "context.py:235" out).bind fun l =>
    Prog.lift (((delivered n r l).map (·.2)).foldlM (fun c m => c.updateGhost m.1 m.2) c)

/-- context.py:226-239 `_update_ghosts`. -/
def updateGhosts (n r : Nat) (c : Cx S P) : Prog (Cx S P) := (updateRemoved n r c).bind fun c => updateStates n r c

/-- space.py:199-211, 413-424 `_synch_ghosts` of the space `pid`. The ranks exchange messages if the space has a buffer on this rank. -/
def synchGrid (n r pid : Nat) (c : Cx S P) : Prog (Cx S P) :=
  match c.projs[pid]? with
  | some g =>
    if Proj.bufSize g.sp > 0 then
      (Prog.lift (c.bufferMsgs n pid)).bind fun out => (Prog.call (Kept.site g.sp) out).bind fun l => Prog.lift (((delivered n r l).map (·.2)).foldlM (Cx.bufferOne pid) c)
    else .ret c
  | none => .ret c

/-- context.py:248-261 `_synch_ghosts`. -/
def synchGhosts (n r : Nat) (c : Cx S P) : Prog (Cx S P) := (updateGhosts n r c).bind fun c => Prog.forM (synchGrid n r) (List.range c.projs.length) c

/-- context.py:279-291, in `synchronize`: what is out of bounds is moved, and if an agent has moved, which all ranks know after the allgather, the ghosts are deleted. The destinations are not modelled:
`_agents_moved_rank` of a space does nothing. -/
def moveOob (n r : Nat) (c : Cx S P) : Prog (Cx S P) :=
  (Prog.lift (c.gatherOob ty n)).bind fun x => (Prog.call "context.py:284" x.2.1).bind fun l =>
    (Prog.lift (x.1.processOob ty ((delivered n r l).map (·.2)))).bind fun y => (Prog.call "context.py:475" x.2.2).bind fun l =>
      Prog.lift (if l.any (fun m => !m.isEmpty) then y.1.deleteGhosts y.2 else some y.1)

/-- context.py:541-545, in `move_agents`. -/
def moveOob' (n r : Nat) (c : Cx S P) : Prog (Cx S P) :=
  (Prog.lift (c.gatherOob ty n)).bind fun x => (Prog.call "context.py:543" x.2.1).bind fun l =>
    Prog.lift ((x.1.processOob ty ((delivered n r l).map (·.2))).map fun y => y.1)

/-- context.py:263-308 `synchronize`. -/
def synchronize (n r : Nat) (ghosts : Bool) (c : Cx S P) : Prog (Cx S P) :=
  if ghosts then (Prog.lift c.preSynchAll).bind fun c => (moveOob ty n r c).bind fun c => synchGhosts n r c else moveOob ty n r c

/-- context.py:409-436, 438-471 `request_agents`. -/
def requestAgents (n r : Nat) (rs : List (Nat × Nat)) (c : Cx S P) : Prog (Cx S P) :=
  (Prog.lift (c.sendRequests n rs)).bind fun x => (Prog.call "context.py:435" x.2).bind fun l =>
    (Prog.lift (x.1.answer (delivered n r l))).bind fun y => (Prog.call "context.py:463" y.2).bind fun l =>
      .ret (((delivered n r l).map (·.2)).foldl (fun c m => (c.addGhostAll m.1 m.2).addReq m.1) y.1)

/-- context.py:520-532: the agents arrive; those that were ghosts. -/
def arriving (c : Cx S P) (ms : List (Nat × S × Option (Dict Int))) : Option (Cx S P × List Nat) :=
  ms.foldlM (fun (acc : Cx S P × List Nat) m => (acc.1.arrive ty m.1 m.2.1 m.2.2).map fun x => (x.1, if x.2 then acc.2 ++ [m.1] else acc.2)) (c, ([] : List Nat))

/-- context.py:486-549 `move_agents`. -/
def moveAgents (n r : Nat) (ms : List (Nat × Nat)) (c : Cx S P) : Prog (Cx S P) :=
  (Prog.lift (c.sendAway ty n ms)).bind fun x => (Prog.call "context.py:518" x.2).bind fun l =>
    ((Prog.lift (arriving ty x.1 ((delivered n r l).map (·.2)))).bind fun y => (Prog.call "context.py:475" ms).bind fun _ => Prog.lift (y.1.deleteGhosts y.2)).bind fun c =>
      (Prog.lift c.preSynchAll).bind fun c => (moveOob' ty n r c).bind fun c => synchGhosts n r c

/-- The rank that does an operation by itself. -/
def rankOf : WOp S P Q → Option Nat
  | .add r _ _ | .remove r _ | .setState r _ _ | .gmove r _ _ _ => some r
  | .request _ | .move _ | .synch _ | .addProj _ => none

/-- What rank `r` does of an operation of a history: all of it, its part of a collective function, or nothing. -/
def part (n r : Nat) (o : WOp S P Q) (c : Cx S P) : Prog (Cx S P) :=
  match o with
  | .add q u s => if q = r then .ret (c.add ty u s) else .ret c
  | .remove q u => if q = r then Prog.lift (c.remove ty u) else .ret c
  | .setState q u s => if q = r then Prog.lift (c.setState u s) else .ret c
  | .gmove q pid u pt => if q = r then Prog.lift (c.gmove pid u pt) else .ret c
  | .request rs => requestAgents n r (rs r) c
  | .move ms => moveAgents ty n r (ms r) c
  | .synch g => synchronize ty n r g c
  | .addProj p => .ret (c.addProjection p)

/-- What rank `r` does of a history. -/
def parts (n r : Nat) (ops : List (WOp S P Q)) (c : Cx S P) : Prog (Cx S P) := Prog.forM (part ty n r) ops c

/-! ### Tools -/

variable {ty} {n : Nat} {α β γ T : Type}

/-- Each rank computes something, or raises an exception. -/
theorem lock_value {X : Nat → Option γ} {out : Nat → γ} {K : Nat → γ → Prog α} {o : Option (Nat → α)} (ho : ∀ i < n, ∀ x, X i = some x → out i = x)
    (h : (∀ i < n, X i = some (out i)) → Lock n (fun i => K i (out i)) o) : Lock n (fun i => (Prog.lift (X i)).bind (K i)) (if (List.range n).all (fun r => (X r).isSome) then o else none) := by
  by_cases hx : ∀ i < n, (X i).isSome = true
  · rw [if_pos (List.all_eq_true.2 fun i hi => hx i (List.mem_range.1 hi))]
    have hout : ∀ i < n, X i = some (out i) := fun i hi => by
      obtain ⟨a, e⟩ := Option.isSome_iff_exists.1 (hx i hi)
      rw [e, ho i hi a e]
    exact (h hout).congr fun i hi => by rw [hout i hi]; rfl
  · rw [if_neg fun h => hx fun i hi => List.all_eq_true.1 h i (List.mem_range.2 hi)]
    have : ∃ i < n, X i = none := by
      refine Classical.byContradiction fun hc => hx fun i hi => ?_
      cases e : X i with
      | some a => rfl
      | none => exact absurd ⟨i, hi, e⟩ hc
    obtain ⟨i, hi, e⟩ := this
    exact .raised ⟨i, hi, by rw [e]; rfl⟩

/-- A call in the middle of something, of which only the second part may depend on its result. -/
theorem lock_within {X : Nat → Option γ} {D : Nat → γ → Option α} {site : String} {m : Nat → T} {K : Nat → List T → γ → Option α} (hK : ∀ i < n, ∀ y, K i ((List.range n).map m) y = D i y) (w : Nat → α) :
    Lock n (fun i => (Prog.lift (X i)).bind fun y => (Prog.call site (m i)).bind fun l => Prog.lift (K i l y)) (eachOf n (fun r => (X r).bind (D r)) w) := by
  by_cases hx : ∃ i < n, X i = none
  · obtain ⟨i, hi, e⟩ := hx
    have : eachOf n (fun r => (X r).bind (D r)) w = none := by
      cases e' : eachOf n (fun r => (X r).bind (D r)) w with
      | none => rfl
      | some w' =>
        have := eachOf_some e' i hi
        rw [e] at this
        cases this
    rw [this]
    exact .raised ⟨i, hi, by rw [e]; rfl⟩
  · refine Lock.congr (ps := fun i => (Prog.call site (m i)).bind fun l => Prog.lift ((X i).bind (K i l))) ?_ fun i hi => ?_
    · refine Lock.called ?_
      refine (Lock.each (fun r => (X r).bind (D r)) w).congr fun i hi => ?_
      congr 1
      cases X i with
      | none => rfl
      | some y => exact hK i hi y
    · cases e : X i with
      | some y => rfl
      | none => exact absurd ⟨i, hi, e⟩ hx

/-! ### The projections stay the same -/

/-- The ranks have the same projections. -/
def Same (n : Nat) (bs : List (Nat × String)) (w : Context.World S P) : Prop := ∀ i < n, HasC bs (w i)

variable {bs : List (Nat × String)}

theorem Same.len {w : Context.World S P} (hw : Same n bs w) {i : Nat} (hi : i < n) : (w i).projs.length = bs.length := by
  rw [← hw i hi, List.length_map]

theorem Same.each {f : Nat → Option (Cx S P)} {w : Context.World S P} (h : ∀ i < n, All (HasC bs) (f i)) : All (Same n bs) (eachOf n f w) := fun w' e i hi => h i hi (w' i) (eachOf_some e i hi)

theorem Same.updateGhosts {w : Context.World S P} (hw : Same n bs w) : All (Same n bs) (Context.updateGhosts n w) :=
  (All.ite (Same.each fun i hi => (All.foldlM (fun _ u hc => HasC.dropGhost hc u) _ _ (hw i hi)).map fun _ hc => hc) All.none : All (Same n bs) (Context.updateRemoved n w)).bind fun w hw =>
    (All.ite (Same.each fun i hi => All.foldlM (fun _ m hc => HasC.updateGhost hc _ _) _ _ (hw i hi)) All.none : All (Same n bs) (Context.updateStates n w))

theorem Same.synchGrid {w : Context.World S P} (hw : Same n bs w) (pid : Nat) : All (Same n bs) (Context.synchGrid n pid w) :=
  All.ite (All.ite (Same.each fun i hi => All.foldlM (fun _ m hc => HasC.bufferOne hc pid m) _ _ (hw i hi)) All.none) (All.some hw)

theorem Same.synchGhosts {w : Context.World S P} (hw : Same n bs w) : All (Same n bs) (Context.synchGhosts n w) :=
  hw.updateGhosts.bind fun _ hw => All.foldlM (fun _ pid hw => Same.synchGrid hw pid) _ _ hw

theorem Same.moveOob {w : Context.World S P} (hw : Same n bs w) (b : Bool) : All (Same n bs) (Context.moveOob ty n b w) :=
  (Same.each fun i hi => ((hw i hi).gatherOob n).map fun _ h => h : All (Same n bs) _).bind fun w hw =>
    Same.each fun i hi => ((hw i hi).processOob _).bind fun _ hx => All.ite (HasC.deleteGhosts hx _) (All.some hx)

theorem Same.preSynchAll {w : Context.World S P} (hw : Same n bs w) : All (Same n bs) (Context.each n (fun r => (w r).preSynchAll) w) := Same.each fun i hi => (hw i hi).preSynchAll

theorem Same.synchronize {w : Context.World S P} (hw : Same n bs w) (g : Bool) : All (Same n bs) (Context.synchronize ty n g w) :=
  All.ite (hw.preSynchAll.bind fun _ hw => (hw.moveOob true).bind fun _ hw => hw.synchGhosts) (hw.moveOob true)

theorem Same.requestAgents {w : Context.World S P} (hw : Same n bs w) (rs : Nat → List (Nat × Nat)) : All (Same n bs) (Context.requestAgents n rs w) := by
  refine All.bind (p := Same n bs) (Same.each fun i hi => ((hw i hi).sendRequests n _).map fun _ h => h) fun w hw =>
    All.bind (p := Same n bs) (Same.each fun i hi => ((hw i hi).answer _).map fun _ h => h) fun w hw => Same.each fun i hi => All.some ?_
  have : ∀ (l : List (Nat × S)) (c : Cx S P), HasC bs c → HasC bs (l.foldl (fun c m => (c.addGhostAll m.1 m.2).addReq m.1) c) := by
    intro l
    induction l with
    | nil => intro c hc; exact hc
    | cons m l ih => intro c hc; exact ih _ ((hc.addGhostAll _ _).addReq _)
  exact this _ _ (hw i hi)

theorem Same.moveAgents {w : Context.World S P} (hw : Same n bs w) (ms : Nat → List (Nat × Nat)) : All (Same n bs) (Context.moveAgents ty n ms w) :=
  All.bind (p := Same n bs) (Same.each fun i hi => ((hw i hi).sendAway n _).map fun _ h => h) fun _ hw =>
    All.bind (p := Same n bs) (Same.each fun i hi => (hw i hi).arriveAll _) fun _ hw => hw.preSynchAll.bind fun _ hw => (hw.moveOob false).bind fun _ hw => hw.synchGhosts

/-! ### The calls of all ranks -/

theorem lock_updateGhosts (w : Context.World S P) : Lock n (fun i => updateGhosts n i (w i)) (Context.updateGhosts n w) := by
  refine Lock.bind (o := Context.updateRemoved n w) ?_ fun w _ => ?_
  · have e : Context.updateRemoved n w = if (List.range n).all (fun r => (if (w r).removedMsgs.all (fun m => decide (m.1 < n)) then some (w r).removedMsgs else none).isSome) then
        Context.each n (fun r => (((recv n (fun s => (w s).removedMsgs) r).map fun m => m.2).foldlM Cx.dropGhost (w r)).map fun c => { c with removed := [] }) w else none := by
      unfold Context.updateRemoved
      congr 3
      funext r
      cases (w r).removedMsgs.all (fun m => decide (m.1 < n)) <;> rfl
    rw [e]
    refine lock_value (out := fun r => (w r).removedMsgs) (fun i hi x e => by split at e <;> cases e; rfl) fun _ => ?_
    exact Lock.called ((Lock.each _ w).congr fun i hi => by rw [delivered_map (fun j => (w j).removedMsgs)])
  · have e : Context.updateStates n w = if (List.range n).all (fun r => ((w r).stateMsgs.bind fun l => if l.all (fun m => decide (m.1 < n)) then some l else none).isSome) then
        Context.each n (fun r => ((recv n (fun s => (w s).stateMsgs.getD []) r).map (·.2)).foldlM (fun c m => c.updateGhost m.1 m.2) (w r)) w else none := by
      unfold Context.updateStates
      simp only
      congr 3
      funext r
      cases (w r).stateMsgs with
      | none => rfl
      | some l =>
        show l.all (fun m => decide (m.1 < n)) = Option.isSome (if l.all (fun m => decide (m.1 < n)) = true then some l else none)
        cases l.all (fun m => decide (m.1 < n)) <;> rfl
    rw [e]
    refine lock_value (out := fun r => (w r).stateMsgs.getD []) (fun i hi x e => by
      obtain ⟨l, e1, e2⟩ := Option.bind_eq_some_iff.1 e
      split at e2
      · cases e2; rw [e1]; rfl
      · cases e2) fun _ => ?_
    exact Lock.called ((Lock.each _ w).congr fun i hi => by rw [delivered_map (fun j => (w j).stateMsgs.getD [])])

theorem lock_synchGrid (hn : 0 < n) {w : Context.World S P} (hw : Same n bs w) (pid : Nat) : Lock n (fun i => synchGrid n i pid (w i)) (Context.synchGrid n pid w) := by
  have hb : ∀ i < n, ((w i).projs[pid]?).map (fun g => form g.sp) = bs[pid]? := fun i hi => by rw [← hw i hi, List.getElem?_map]
  unfold Context.synchGrid
  simp only
  cases e : bs[pid]? with
  | none =>
    have hg : ∀ i < n, (w i).projs[pid]? = none := fun i hi => by
      have := hb i hi
      rw [e] at this
      exact Option.map_eq_none_iff.1 this
    rw [if_neg (by
      intro h
      have := List.all_eq_true.1 h 0 (List.mem_range.2 hn)
      rw [hg 0 hn] at this
      cases this)]
    refine .done fun i hi => ?_
    unfold synchGrid
    rw [hg i hi]
  | some q =>
    have hg : ∀ i < n, ∃ g, (w i).projs[pid]? = some g ∧ Proj.bufSize g.sp = q.1 ∧ Kept.site g.sp = q.2 := fun i hi => by
      have := hb i hi
      rw [e] at this
      obtain ⟨g, h1, h2⟩ := Option.map_eq_some_iff.1 this
      exact ⟨g, h1, congrArg Prod.fst h2, congrArg Prod.snd h2⟩
    by_cases hq : q.1 > 0
    · rw [if_pos (by
        refine List.all_eq_true.2 fun i hi => ?_
        obtain ⟨g, h1, h2, -⟩ := hg i (List.mem_range.1 hi)
        rw [h1]
        exact decide_eq_true (by omega))]
      refine Lock.congr (lock_value (X := fun r => (w r).bufferMsgs n pid) (out := fun r => ((w r).bufferMsgs n pid).getD [])
        (K := fun r out => (Prog.call q.2 out).bind fun l => Prog.lift (((delivered n r l).map (·.2)).foldlM (Cx.bufferOne pid) (w r))) (fun i hi x e => by rw [e]; rfl) fun _ =>
          Lock.called ((Lock.each _ w).congr fun i hi => by rw [delivered_map (fun j => ((w j).bufferMsgs n pid).getD [])])) fun i hi => ?_
      obtain ⟨g, h1, h2, h3⟩ := hg i hi
      unfold synchGrid
      rw [h1]
      show (if Proj.bufSize g.sp > 0 then _ else _) = _
      rw [if_pos (by omega), h3]
    · rw [if_neg (by
        intro h
        have := List.all_eq_true.1 h 0 (List.mem_range.2 hn)
        obtain ⟨g, h1, h2, -⟩ := hg 0 hn
        rw [h1] at this
        have := of_decide_eq_true this
        omega)]
      refine .done fun i hi => ?_
      obtain ⟨g, h1, h2, h3⟩ := hg i hi
      unfold synchGrid
      rw [h1]
      show (if Proj.bufSize g.sp > 0 then _ else _) = _
      rw [if_neg (by omega)]

theorem lock_synchGhosts (hn : 0 < n) {w : Context.World S P} (hw : Same n bs w) : Lock n (fun i => synchGhosts n i (w i)) (Context.synchGhosts n w) := by
  refine Lock.bind (lock_updateGhosts w) fun w1 e => ?_
  have hw1 := hw.updateGhosts w1 e
  have := Lock.forM (Same n bs) (body := fun i => synchGrid n i) (fun pid _ hw => lock_synchGrid hn hw pid) (fun pid _ w' hw e => hw.synchGrid pid w' e) (List.range bs.length) w1 hw1
  rw [hw1.len hn]
  exact this.congr fun i hi => by rw [hw1.len hi]

/-- What a rank sends, of what it computes when it looks for the agents that are out of bounds. -/
def gatheredOf {α M : Type} : Option (α × List M × List Nat) → List M × List Nat
  | some x => x.2
  | none => ([], [])

theorem any_leaving {α M : Type} (g : Nat → Option (α × List M × List Nat)) : ((List.range n).map fun r => (gatheredOf (g r)).2).any (fun m => !m.isEmpty) = (List.range n).any fun r => leaving (g r) := by
  rw [List.any_map]
  congr 1
  funext r
  show (!(gatheredOf (g r)).2.isEmpty) = _
  cases g r <;> rfl

theorem gatheredOf_fst {α M : Type} (x : Option (α × List M × List Nat)) : (gatheredOf x).1 = gathered x := by cases x <;> rfl

theorem lock_moveOob (w : Context.World S P) : Lock n (fun i => moveOob ty n i (w i)) (Context.moveOob ty n true w) := by
  unfold Context.moveOob
  simp only [Bool.and_true]
  refine Lock.split (F := fun r => (w r).gatherOob ty n) (out := fun r => gatheredOf ((w r).gatherOob ty n)) (fun i hi x e => by rw [e]; rfl) fun w1 h1 => ?_
  refine Lock.called (m := fun r => (gatheredOf ((w r).gatherOob ty n)).1) ?_
  refine Lock.congr (lock_within (X := fun r => (w1 r).processOob ty ((recv n (fun r => gathered ((w r).gatherOob ty n)) r).map (·.2)))
    (m := fun r => (gatheredOf ((w r).gatherOob ty n)).2) (site := "context.py:475")
    (K := fun _ l y => if l.any (fun m => !m.isEmpty) then y.1.deleteGhosts y.2 else some y.1)
    (fun i hi y => by rw [any_leaving]) w1) fun i hi => ?_
  rw [delivered_map (fun r => (gatheredOf ((w r).gatherOob ty n)).1), show (fun r => (gatheredOf ((w r).gatherOob ty n)).1) = (fun r => gathered ((w r).gatherOob ty n)) from funext fun r => gatheredOf_fst _]

theorem lock_moveOob' (w : Context.World S P) : Lock n (fun i => moveOob' ty n i (w i)) (Context.moveOob ty n false w) := by
  unfold Context.moveOob
  simp only [Bool.and_false]
  refine Lock.split (F := fun r => (w r).gatherOob ty n) (out := fun r => gatheredOf ((w r).gatherOob ty n)) (fun i hi x e => by rw [e]; rfl) fun w1 h1 => ?_
  refine Lock.called (m := fun r => (gatheredOf ((w r).gatherOob ty n)).1) ?_
  refine Lock.congr (Lock.each _ w1) fun i hi => ?_
  rw [delivered_map (fun r => (gatheredOf ((w r).gatherOob ty n)).1), show (fun r => (gatheredOf ((w r).gatherOob ty n)).1) = (fun r => gathered ((w r).gatherOob ty n)) from funext fun r => gatheredOf_fst _]
  congr 1
  cases Cx.processOob ty (w1 i) ((recv n (fun r => gathered ((w r).gatherOob ty n)) i).map (·.2)) <;> rfl

theorem lock_synchronize (hn : 0 < n) {w : Context.World S P} (hw : Same n bs w) (g : Bool) : Lock n (fun i => synchronize ty n i g (w i)) (Context.synchronize ty n g w) := by
  cases g with
  | false => exact lock_moveOob w
  | true =>
    refine Lock.bind (Lock.each (fun r => (w r).preSynchAll) w) fun w1 e1 => ?_
    have hw1 := hw.preSynchAll w1 e1
    exact Lock.bind (lock_moveOob w1) fun w2 e2 => lock_synchGhosts hn (hw1.moveOob true w2 e2)

theorem lock_requestAgents (rs : Nat → List (Nat × Nat)) (w : Context.World S P) : Lock n (fun i => requestAgents n i (rs i) (w i)) (Context.requestAgents n rs w) := by
  unfold Context.requestAgents
  simp only
  refine Lock.split (F := fun r => (w r).sendRequests n (rs r)) (out := fun r => sent ((w r).sendRequests n (rs r))) (fun i hi x e => by rw [e]; rfl) fun w1 h1 => ?_
  refine Lock.called (m := fun r => sent ((w r).sendRequests n (rs r))) ?_
  refine Lock.congr (ps := fun i => (Prog.lift ((w1 i).answer (recv n (fun r => sent ((w r).sendRequests n (rs r))) i))).bind fun y => (Prog.call "context.py:463" y.2).bind fun l =>
      .ret (((delivered n i l).map (·.2)).foldl (fun c m => (c.addGhostAll m.1 m.2).addReq m.1) y.1)) ?_ fun i hi => by rw [delivered_map (fun r => sent ((w r).sendRequests n (rs r)))]
  refine Lock.split (F := fun r => (w1 r).answer (recv n (fun r => sent ((w r).sendRequests n (rs r))) r))
    (out := fun r => sent ((w1 r).answer (recv n (fun r => sent ((w r).sendRequests n (rs r))) r))) (fun i hi x e => by rw [e]; rfl) fun w2 h2 => ?_
  refine Lock.called (m := fun r => sent ((w1 r).answer (recv n (fun r => sent ((w r).sendRequests n (rs r))) r))) ?_
  exact Lock.congr (Lock.each _ w2) fun i hi => by rw [delivered_map (fun r => sent ((w1 r).answer (recv n (fun r => sent ((w r).sendRequests n (rs r))) r)))]; rfl

theorem lock_moveAgents (hn : 0 < n) {w : Context.World S P} (hw : Same n bs w) (ms : Nat → List (Nat × Nat)) : Lock n (fun i => moveAgents ty n i (ms i) (w i)) (Context.moveAgents ty n ms w) := by
  unfold Context.moveAgents
  simp only
  refine Lock.split (F := fun r => (w r).sendAway ty n (ms r)) (out := fun r => sent ((w r).sendAway ty n (ms r))) (fun i hi x e => by rw [e]; rfl) fun w1 h1 => ?_
  have hw1 : Same n bs w1 := fun i hi => (hw i hi).sendAway n (ms i) _ (h1 i hi)
  refine Lock.called (m := fun r => sent ((w r).sendAway ty n (ms r))) ?_
  refine Lock.bind (Lock.congr (lock_within (X := fun r => arriving ty (w1 r) ((recv n (fun r => sent ((w r).sendAway ty n (ms r))) r).map (·.2))) (D := fun _ y => y.1.deleteGhosts y.2)
    (m := ms) (site := "context.py:475") (K := fun _ _ y => y.1.deleteGhosts y.2) (fun i hi y => rfl) w1) fun i hi => by rw [delivered_map (fun r => sent ((w r).sendAway ty n (ms r)))]) fun w2 e2 => ?_
  have hw2 : Same n bs w2 := Same.each (fun i hi => (hw1 i hi).arriveAll _) w2 e2
  refine Lock.bind (Lock.each (fun r => (w2 r).preSynchAll) w2) fun w3 e3 => ?_
  have hw3 := hw2.preSynchAll w3 e3
  exact Lock.bind (lock_moveOob' w3) fun w4 e4 => lock_synchGhosts hn (hw3.moveOob false w4 e4)

theorem lock_at {q : Nat} (hq : q < n) (f : Cx S P → Option (Cx S P)) (w : Context.World S P) : Lock n (fun i => if q = i then Prog.lift (f (w i)) else .ret (w i)) (Context.at_ n q f w) := by
  unfold Context.at_
  rw [if_pos hq]
  cases e : f (w q) with
  | none => exact .raised ⟨q, hq, by rw [if_pos rfl, e]; rfl⟩
  | some c =>
    refine .done fun i _ => ?_
    show _ = Prog.ret (if i = q then c else w i)
    by_cases h : q = i
    · subst h; rw [if_pos rfl, if_pos rfl, e]; rfl
    · rw [if_neg h, if_neg (Ne.symm h)]

theorem lock_part (hn : 0 < n) {w : Context.World S P} (hw : Same n bs w) (o : WOp S P Q) (ho : ∀ q, rankOf o = some q → q < n) : Lock n (fun i => part ty n i o (w i)) (wstep ty n w o) := by
  cases o with
  | add q u s => exact lock_at (ho q rfl) (fun c => some (c.add ty u s)) w
  | remove q u => exact lock_at (ho q rfl) (fun c => c.remove ty u) w
  | setState q u s => exact lock_at (ho q rfl) (fun c => c.setState u s) w
  | gmove q pid u pt => exact lock_at (ho q rfl) (fun c => c.gmove pid u pt) w
  | request rs => exact lock_requestAgents rs w
  | move ms => exact lock_moveAgents hn hw ms
  | synch g => exact lock_synchronize hn hw g
  | addProj p => exact .done fun _ _ => rfl

theorem Same.at_ {w : Context.World S P} (hw : Same n bs w) (q : Nat) {f : Cx S P → Option (Cx S P)} (hf : ∀ c, HasC bs c → All (HasC bs) (f c)) : All (Same n bs) (Context.at_ n q f w) := by
  unfold Context.at_
  by_cases hq : q < n
  · rw [if_pos hq]
    exact (hf _ (hw q hq)).map fun c hc i hi => by
      show HasC bs (if i = q then c else w i)
      split
      · exact hc
      · exact hw i hi
  · rw [if_neg hq]; exact All.none

/-- The projections of the ranks after an operation. -/
def formsAfter (bs : List (Nat × String)) : WOp S P Q → List (Nat × String)
  | .addProj p => bs ++ [form p]
  | _ => bs

theorem Same.wstep {w : Context.World S P} (hw : Same n bs w) (o : WOp S P Q) : All (Same n (formsAfter bs o)) (wstep ty n w o) := by
  cases o with
  | add q u s => exact hw.at_ q fun c hc => All.some (hc.add u s)
  | remove q u => exact hw.at_ q fun c hc => hc.remove u
  | setState q u s => exact hw.at_ q fun c hc => hc.setState u s
  | gmove q pid u pt => exact hw.at_ q fun c hc => hc.gmove pid u pt
  | request rs => exact hw.requestAgents rs
  | move ms => exact hw.moveAgents ms
  | synch g => exact hw.synchronize g
  | addProj p => exact All.some fun i hi => (hw i hi).addProjection p

theorem lock_parts (hn : 0 < n) : ∀ (ops : List (WOp S P Q)) (bs : List (Nat × String)) (w : Context.World S P), Same n bs w → (∀ o ∈ ops, ∀ q, rankOf o = some q → q < n) →
    Lock n (fun i => parts ty n i ops (w i)) (wrun ty n w ops) := by
  intro ops
  induction ops with
  | nil => intro _ w _ _; exact .done fun _ _ => rfl
  | cons o ops ih =>
    intro bs w hw ho
    show Lock n _ ((o :: ops).foldlM (Context.wstep ty n) w)
    rw [List.foldlM_cons, Option.bind_eq_bind]
    exact (lock_part hn hw o (ho o List.mem_cons_self)).bind fun w' e => ih _ w' (hw.wstep o w' e) fun o ho' => ho o (List.mem_cons_of_mem _ ho')

theorem Same.start (ps : List P) : Same n (ps.map form) (Context.World.start ps : Context.World S P) := fun i _ => by
  show (ps.map _).map _ = _; rw [List.map_map]; rfl

end Repast.Mpi.Ctx
