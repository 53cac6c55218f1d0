import Verif.Mpi.Lib
import Verif.Mpi.NetShape

/-
C72 for contexts with networks: what each rank does when it calls `synchronize`, `request_agents` and `move_agents` (context.py:263-308, 438-471, 486-549), as a program that runs at its own
speed, and what it amounts to.
-/
namespace Repast.Mpi.Net
open Repast.Dict Repast.Network Repast.Mpi
open Repast.Context (recv sent)

variable {S A : Type}

/-! ### Model: the calls of one rank -/

/-- network.py:411-421 `_synch_ghosts` of the network `pid`. -/
def synchNet (n r pid : Nat) (c : Cx S A) : Prog (Cx S A) :=
  (Prog.exchange "network.py:305" n r (fun c => c.sendRemoved n pid) (fun c m => c.recvRemoved pid m.2) c).bind fun c =>
    (Prog.lift (c.sendSync n pid)).bind fun x =>
      (Prog.call "network.py:371" x.2.agents).bind fun l =>
        (Prog.lift ((delivered n r l).foldlM (fun c m => c.recvVertex pid m) x.1)).bind fun c =>
          (Prog.call "network.py:395" x.2.edges).bind fun l => Prog.lift ((delivered n r l).foldlM (fun c m => c.recvEdge pid m.2) c)

/-- network.py:423-448 `_pre_synch_ghosts` of the network `pid`. -/
def preSynchNet (n r pid : Nat) (c : Cx S A) : Prog (Cx S A) := Prog.exchange "network.py:445" n r (fun c => c.sendRefs n pid) (fun c m => c.tag m.1 m.2) c

/-- context.py:207-239 `_update_ghosts`. -/
def updateGhosts (n r : Nat) (c : Cx S A) : Prog (Cx S A) :=
  (Prog.exchange "context.py:216" n r (fun c => c.sendRemovedAgents n) (fun c m => c.dropGhost m.2) c).bind fun c =>
    Prog.exchange "context.py:235" n r (fun c => c.sendStates n) (fun c m => c.updateGhost m.2.1 m.2.2) c

/-- `for proj in self.projections.values()` -/
def eachPid (f : Nat → Cx S A → Prog (Cx S A)) (c : Cx S A) : Prog (Cx S A) := Prog.forM f (List.range c.nets.length) c

/-- What the other ranks have contributed. -/
def others {M : Type} (n r : Nat) (l : List (List M)) : List M := ((List.range n).filter (fun s => decide (s ≠ r))).flatMap fun s => l[s]?.getD []

/-- network.py:547-599 `_agents_moved_rank` of the network `pid`; `l` are the agents that moved off the ranks. -/
def agentsMoved (n r : Nat) (l : List (List (Nat × Nat))) (pid : Nat) (c : Cx S A) : Prog (Cx S A) :=
  (Prog.exchange "network.py:561" n r (fun c => c.sendNoLonger n pid) (fun c m => c.untag m.1 m.2) c).bind fun c => Prog.lift ((others n r l).foldlM (Cx.movedOne pid) c)

/-- network.py:450-474 `_post_agents_moved_rank` of the network `pid`. -/
def postMoved (n r pid : Nat) (c : Cx S A) : Prog (Cx S A) := (Prog.lift (c.readdEdges pid)).bind fun c => synchNet n r pid c

/-- context.py:473-484 `_agents_moved`: `any_moved` is the same on all ranks. -/
def anyMoved (l : List (List (Nat × Nat))) : Bool := !l.all (·.isEmpty)

/-- context.py:263-308 `synchronize`. There are no bounded projections: no agent is out of bounds (lines 283-285), and none has moved (lines 287-291 and 296-308). -/
def synchronize (n r : Nat) (ghosts : Bool) (c : Cx S A) : Prog (Cx S A) :=
  (if ghosts then eachPid (preSynchNet n r) c else .ret c).bind fun c =>
    (Prog.call "context.py:284" ([] : List (Nat × Nat))).bind fun _ => (Prog.call "context.py:475" ([] : List (Nat × Nat))).bind fun _ =>
      if ghosts then (updateGhosts n r c).bind fun c => eachPid (synchNet n r) c else .ret c

/-- context.py:409-436, 438-471 `request_agents`. -/
def requestAgents (n r : Nat) (rs : List (Nat × Nat)) (c : Cx S A) : Prog (Cx S A) :=
  (Prog.lift (rs.foldlM (Cx.sendRequest n) (c, ([] : List (Nat × Nat))))).bind fun x => (Prog.call "context.py:435" x.2).bind fun l =>
    (Prog.lift ((delivered n r l).foldlM Cx.answer (x.1, ([] : List (Nat × Nat × S))))).bind fun y => (Prog.call "context.py:463" y.2).bind fun l =>
      .ret ((delivered n r l).foldl Cx.recvRequested y.1)

/-- context.py:486-549 `move_agents`. -/
def moveAgents (n r : Nat) (ms : List (Nat × Nat)) (c : Cx S A) : Prog (Cx S A) :=
  (Prog.lift (ms.foldlM (Cx.sendAway n) (c, ([] : List (Nat × Nat × S × Option (Dict Int)))))).bind fun x => (Prog.call "context.py:518" x.2).bind fun l =>
    (Prog.lift (((delivered n r l).map (·.2)).foldlM Cx.arrive (x.1, ([] : List Nat)))).bind fun y => (Prog.call "context.py:475" ms).bind fun l =>
      (if anyMoved l then eachPid (agentsMoved n r l) y.1 else .ret y.1).bind fun c =>
        (Prog.lift (y.2.foldlM (fun (c : Cx S A) u => c.deleteGhost u) c)).bind fun c =>
          (eachPid (preSynchNet n r) c).bind fun c => (Prog.call "context.py:543" ([] : List (Nat × Nat))).bind fun _ =>
            (updateGhosts n r c).bind fun c => (eachPid (synchNet n r) c).bind fun c => eachPid (postMoved n r) c

/-- What a rank does by itself. -/
inductive Act (S A : Type) where
  | add (u : Nat) (s : S)
  | remove (u : Nat)
  | setState (u : Nat) (s : S)
  | addEdge (pid u v : Nat) (at_ : Attr A)
  | updateEdge (pid u v : Nat) (at_ : Attr A)
  | removeEdge (pid u v : Nat)
  | clearEdges (pid : Nat)

/-- The operation in a history of all ranks. -/
def Act.of (r : Nat) : Act S A → WOp S A
  | .add u s => .add r u s
  | .remove u => .remove r u
  | .setState u s => .setState r u s
  | .addEdge pid u v a => .addEdge r pid u v a
  | .updateEdge pid u v a => .updateEdge r pid u v a
  | .removeEdge pid u v => .removeEdge r pid u v
  | .clearEdges pid => .clearEdges r pid

def Act.run (c : Cx S A) : Act S A → Option (Cx S A)
  | .add u s => some (c.add u s)
  | .remove u => c.remove u
  | .setState u s => c.setState u s
  | .addEdge pid u v a => c.addEdge pid u v a
  | .updateEdge pid u v a => c.updateEdge pid u v a
  | .removeEdge pid u v => c.removeEdge pid u v
  | .clearEdges pid => c.clearEdges pid

/-- What a model does: the ranks do something by themselves, which may depend on the rank and on its context, or all call the same collective function, with arguments that may depend on them. -/
inductive Turn (S A : Type) where
  | own (f : Nat → Cx S A → List (Act S A))
  | request (rs : Nat → Cx S A → List (Nat × Nat))
  | move (ms : Nat → Cx S A → List (Nat × Nat))
  | synch (ghosts : Bool)

/-- A turn of rank `r`. -/
def turn (n r : Nat) (t : Turn S A) (c : Cx S A) : Prog (Cx S A) :=
  match t with
  | .own f => Prog.lift ((f r c).foldlM Act.run c)
  | .request rs => requestAgents n r (rs r c) c
  | .move ms => moveAgents n r (ms r c) c
  | .synch g => synchronize n r g c

/-- The model of rank `r`. -/
def script (n r : Nat) (ts : List (Turn S A)) (c : Cx S A) : Prog (Cx S A) := Prog.forM (turn n r) ts c

/-! ### The number of networks -/

/-- The ranks have `k` networks. -/
def Same (n k : Nat) (w : Network.World S A) : Prop := ∀ i < n, Has k (w i)

variable {n k : Nat}

theorem Same.each {f : Nat → Option (Cx S A)} {w : Network.World S A} (h : ∀ i < n, All (Has k) (f i)) : All (Same n k) (eachOf n f w) := fun w' e i hi => h i hi (w' i) (eachOf_some e i hi)

theorem Same.exchange {M : Type} {send : Cx S A → Option (Cx S A × List (Nat × M))} {recv1 : Cx S A → Nat × M → Option (Cx S A)} {w : Network.World S A} (hw : Same n k w)
    (h1 : ∀ c, Has k c → All (fun x => Has k x.1) (send c)) (h2 : ∀ c m, Has k c → All (Has k) (recv1 c m)) : All (Same n k) (exchangeOf n send recv1 w) := by
  refine All.bind (p := Same n k) (Same.each fun i hi => ?_) fun w' hw' => Same.each fun i hi => All.foldlM (h2 · ·) _ _ (hw' i hi)
  rw [at_range (fun r => send (w r)) hi]
  exact (h1 _ (hw i hi)).map fun _ h => h

theorem Same.eachPid {F : Nat → Network.World S A → Option (Network.World S A)} {w : Network.World S A} (hw : Same n k w) (hF : ∀ pid w, Same n k w → All (Same n k) (F pid w)) :
    All (Same n k) (Network.eachPid F w) := All.foldlM (fun w pid hw => hF pid w hw) _ _ hw

theorem Same.synchNet {w : Network.World S A} (hw : Same n k w) (pid : Nat) : All (Same n k) (Network.synchNet n pid w) := by
  unfold Network.synchNet
  refine All.bind (Same.exchange hw (fun c hc => hc.sendRemoved n pid) fun c m hc => hc.recvRemoved pid m.2) fun w hw => ?_
  refine All.bind (p := Same n k) (Same.each fun i hi => ?_) fun w' hw' => All.bind (p := Same n k) (Same.each fun i hi => All.foldlM (fun c m hc => hc.recvVertex pid m) _ _ (hw' i hi)) fun w' hw' =>
    Same.each fun i hi => All.foldlM (fun c m hc => hc.recvEdge pid m.2) _ _ (hw' i hi)
  show All (Has k) (Option.map _ (((List.range n).map (fun r => (w r).sendSync n pid))[i]?.bind id))
  rw [at_range (fun r => (w r).sendSync n pid) hi]
  exact ((hw i hi).sendSync n pid).map fun _ h => h

theorem Same.preSynchNet {w : Network.World S A} (hw : Same n k w) (pid : Nat) : All (Same n k) (Network.preSynchNet n pid w) :=
  Same.exchange hw (fun c hc => hc.sendRefs n pid) fun c m hc => hc.tag _ _

theorem Same.updateGhosts {w : Network.World S A} (hw : Same n k w) : All (Same n k) (Network.updateGhosts n w) :=
  All.bind (Same.exchange hw (fun c hc => hc.sendRemovedAgents n) fun c m hc => hc.dropGhost _) fun w hw => Same.exchange hw (fun c hc => hc.sendStates n) fun c m hc => hc.updateGhost _ _

theorem Same.agentsMoved {w : Network.World S A} (hw : Same n k w) (ms : Nat → List (Nat × Nat)) (pid : Nat) : All (Same n k) (Network.agentsMoved n ms pid w) :=
  All.bind (Same.exchange hw (fun c hc => hc.sendNoLonger n pid) fun c m hc => hc.untag _ _) fun w hw => Same.each fun i hi => All.foldlM (fun c m hc => hc.movedOne pid m) _ _ (hw i hi)

theorem Same.postMoved {w : Network.World S A} (hw : Same n k w) (pid : Nat) : All (Same n k) (Network.postMoved n pid w) :=
  All.bind (p := Same n k) (Same.each fun i hi => (hw i hi).readdEdges pid) fun w hw => hw.synchNet pid

theorem Same.synchronize {w : Network.World S A} (hw : Same n k w) (g : Bool) : All (Same n k) (Network.synchronize n g w) :=
  All.ite ((hw.eachPid fun pid w hw => hw.preSynchNet pid).bind fun w hw => hw.updateGhosts.bind fun w hw => hw.eachPid fun pid w hw => hw.synchNet pid) (All.some hw)

theorem Same.requestAgents {w : Network.World S A} (hw : Same n k w) (rs : Nat → List (Nat × Nat)) : All (Same n k) (Network.requestAgents n rs w) := by
  unfold Network.requestAgents
  refine All.bind (p := Same n k) (Same.each fun i hi => ?_) fun w hw => All.bind (p := Same n k) (Same.each fun i hi => ?_) fun w hw => Same.each fun i hi => All.some ?_
  · rw [at_range (fun r => (rs r).foldlM (Cx.sendRequest n) (w r, ([] : List (Nat × Nat)))) hi]
    exact (All.foldlM (p := fun x : Cx S A × List (Nat × Nat) => Has k x.1) (fun _ _ ha => Has.sendRequest ha _ _) _ _ (hw i hi)).map fun _ h => h
  · rw [List.getElem?_map, List.getElem?_range hi]
    exact (All.foldlM (p := fun x : Cx S A × List (Nat × Nat × S) => Has k x.1) (fun _ _ ha => Has.answer ha _) _ _ (hw i hi)).map fun _ h => h
  · generalize recv n _ i = l
    have : ∀ (l : List (Nat × Nat × S)) (c : Cx S A), Has k c → Has k (l.foldl Cx.recvRequested c) := by
      intro l
      induction l with
      | nil => intro c hc; exact hc
      | cons m l ih => intro c hc; exact ih _ (hc.recvRequested m)
    exact this l _ (hw i hi)

theorem Same.moveAgents {w : Network.World S A} (hw : Same n k w) (ms : Nat → List (Nat × Nat)) : All (Same n k) (Network.moveAgents n ms w) := by
  unfold Network.moveAgents
  refine All.bind (p := Same n k) (Same.each fun i hi => ?_) fun w hw => All.bind (p := Same n k) (Same.each fun i hi => ?_) fun w hw =>
    All.bind (p := Same n k) (All.ite (All.some hw) (hw.eachPid fun pid w hw => hw.agentsMoved ms pid)) fun w hw =>
      All.bind (p := Same n k) (Same.each fun i hi => All.foldlM (fun c u hc => hc.deleteGhost u) _ _ (hw i hi)) fun w hw =>
        (hw.eachPid fun pid w hw => hw.preSynchNet pid).bind fun w hw => hw.updateGhosts.bind fun w hw => (hw.eachPid fun pid w hw => hw.synchNet pid).bind fun w hw =>
          hw.eachPid fun pid w hw => hw.postMoved pid
  · rw [at_range (fun r => (ms r).foldlM (Cx.sendAway n) (w r, ([] : List (Nat × Nat × S × Option (Dict Int))))) hi]
    exact (All.foldlM (p := fun x : Cx S A × List (Nat × Nat × S × Option (Dict Int)) => Has k x.1) (fun _ _ ha => Has.sendAway ha _ _) _ _ (hw i hi)).map fun _ h => h
  · rw [List.getElem?_map, List.getElem?_range hi]
    exact (All.foldlM (p := fun x : Cx S A × List Nat => Has k x.1) (fun _ _ ha => Has.arrive ha _) _ _ (hw i hi)).map fun _ h => h

/-! ### The calls of all ranks -/

theorem lock_eachPid (hn : 0 < n) {body : Nat → Nat → Cx S A → Prog (Cx S A)} {F : Nat → Network.World S A → Option (Network.World S A)} {w : Network.World S A} (hw : Same n k w)
    (hb : ∀ pid w, Same n k w → Lock n (fun i => body i pid (w i)) (F pid w)) (hz : ∀ pid w, Same n k w → All (Same n k) (F pid w)) :
    Lock n (fun i => eachPid (body i) (w i)) (Network.eachPid F w) := by
  have := Lock.forM (Same n k) (body := body) hb (fun j w w' hw e => hz j w hw w' e) (List.range k) w hw
  have e : Network.eachPid F w = (List.range k).foldlM (fun w j => F j w) w := by
    show (List.range (w 0).nets.length).foldlM _ w = _
    rw [hw 0 hn]
  rw [e]
  refine this.congr fun i hi => ?_
  show Prog.forM (body i) (List.range (w i).nets.length) (w i) = _
  rw [hw i hi]

theorem lock_synchNet (pid : Nat) (w : Network.World S A) : Lock n (fun i => synchNet n i pid (w i)) (Network.synchNet n pid w) := by
  unfold Network.synchNet
  refine Lock.bind (Lock.exchange "network.py:305" _ _ w) fun w _ => ?_
  simp only
  rw [show Network.each n (fun r => (((List.range n).map fun r => (w r).sendSync n pid)[r]?.bind id).map (·.1)) w = eachOf n (fun r => ((w r).sendSync n pid).map (·.1)) w from
    eachOf_congr (fun i hi => by rw [at_range (fun r => (w r).sendSync n pid) hi]) w]
  have ha : ∀ j < n, sentAgents (((List.range n).map fun r => (w r).sendSync n pid)[j]?.bind id) = sentAgents ((w j).sendSync n pid) := fun j hj => by
    rw [at_range (fun r => (w r).sendSync n pid) hj]
  have hb : ∀ j < n, sentEdges (((List.range n).map fun r => (w r).sendSync n pid)[j]?.bind id) = sentEdges ((w j).sendSync n pid) := fun j hj => by
    rw [at_range (fun r => (w r).sendSync n pid) hj]
  refine Lock.split (out := fun r => ⟨sentAgents ((w r).sendSync n pid), sentEdges ((w r).sendSync n pid)⟩) (fun i hi x e => by rw [e]; rfl) fun w' hw' => ?_
  refine Lock.called ?_
  refine Lock.bind ((Lock.each (fun r => (recv n (fun s => sentAgents (((List.range n).map fun r => (w r).sendSync n pid)[s]?.bind id)) r).foldlM (fun c m => c.recvVertex pid m) (w' r)) w').congr
    fun i hi => ?_) fun w'' _ => ?_
  · rw [delivered_map (fun j => sentAgents ((w j).sendSync n pid)), recv_congr ha]
  · refine Lock.called ?_
    refine (Lock.each (fun r => (recv n (fun s => sentEdges (((List.range n).map fun r => (w r).sendSync n pid)[s]?.bind id)) r).foldlM (fun c m => c.recvEdge pid m.2) (w'' r)) w'').congr fun i hi => ?_
    rw [delivered_map (fun j => sentEdges ((w j).sendSync n pid)), recv_congr hb]

theorem lock_preSynchNet (pid : Nat) (w : Network.World S A) : Lock n (fun i => preSynchNet n i pid (w i)) (Network.preSynchNet n pid w) := Lock.exchange "network.py:445" _ _ w

theorem lock_updateGhosts (w : Network.World S A) : Lock n (fun i => updateGhosts n i (w i)) (Network.updateGhosts n w) :=
  Lock.bind (Lock.exchange "context.py:216" _ _ w) fun w _ => Lock.exchange "context.py:235" _ _ w

theorem lock_synchronize (hn : 0 < n) {w : Network.World S A} (hw : Same n k w) (g : Bool) : Lock n (fun i => synchronize n i g (w i)) (Network.synchronize n g w) := by
  cases g with
  | false => exact Lock.called (Lock.called (.done fun _ _ => rfl))
  | true =>
    refine Lock.bind (lock_eachPid hn hw (fun pid w _ => lock_preSynchNet pid w) fun pid w hw => hw.preSynchNet pid) fun w1 e1 => ?_
    have hw1 := (hw.eachPid fun pid w hw => hw.preSynchNet pid) w1 e1
    refine Lock.called (Lock.called ?_)
    exact Lock.bind (lock_updateGhosts w1) fun w2 e2 => lock_eachPid hn (hw1.updateGhosts w2 e2) (fun pid w _ => lock_synchNet pid w) fun pid w hw => hw.synchNet pid

theorem lock_requestAgents (rs : Nat → List (Nat × Nat)) (w : Network.World S A) : Lock n (fun i => requestAgents n i (rs i) (w i)) (Network.requestAgents n rs w) := by
  unfold Network.requestAgents
  simp only
  let F : Nat → Option (Cx S A × List (Nat × Nat)) := fun r => (rs r).foldlM (Cx.sendRequest n) (w r, ([] : List (Nat × Nat)))
  have ha : ∀ j < n, sent (((List.range n).map F)[j]?.bind id) = sent (F j) := fun j hj => by rw [at_range F hj]
  rw [show Network.each n (fun r => (((List.range n).map F)[r]?.bind id).map (·.1)) w = eachOf n (fun r => (F r).map (·.1)) w from eachOf_congr (fun i hi => by rw [at_range F hi]) w]
  refine Lock.split (F := F) (out := fun r => sent (F r)) (fun i hi x e => by rw [e]; rfl) fun w1 _ => ?_
  refine Lock.called ?_
  let G : Nat → Option (Cx S A × List (Nat × Nat × S)) := fun r => (recv n (fun s => sent (((List.range n).map F)[s]?.bind id)) r).foldlM Cx.answer (w1 r, ([] : List (Nat × Nat × S)))
  have hb : ∀ j < n, sent (((List.range n).map G)[j]?.bind id) = sent (G j) := fun j hj => by rw [at_range G hj]
  rw [show Network.each n (fun r => (((List.range n).map G)[r]?.bind id).map (·.1)) w1 = eachOf n (fun r => (G r).map (·.1)) w1 from eachOf_congr (fun i hi => by rw [at_range G hi]) w1]
  refine Lock.congr (Lock.split (F := G) (k := fun i y => (Prog.call "context.py:463" y.2).bind fun l => .ret ((delivered n i l).foldl Cx.recvRequested y.1)) (out := fun r => sent (G r))
    (fun i hi x e => by rw [e]; rfl) fun w2 _ => ?_) fun i hi => ?_
  · refine Lock.called ?_
    refine (Lock.each (fun r => some ((recv n (fun s => sent (((List.range n).map G)[s]?.bind id)) r).foldl Cx.recvRequested (w2 r))) w2).congr fun i hi => ?_
    rw [delivered_map (fun j => sent (G j)), recv_congr hb]; rfl
  · rw [delivered_map (fun j => sent (F j)), ← recv_congr ha]

theorem others_map {M : Type} (m : Nat → List M) (r : Nat) : others n r ((List.range n).map m) = ((List.range n).filter (fun s => decide (s ≠ r))).flatMap m := by
  unfold others
  refine flatMap_congr fun s hs => ?_
  have hs : s < n := List.mem_range.1 (List.mem_filter.1 hs).1
  rw [List.getElem?_map, List.getElem?_range hs]; rfl

theorem lock_agentsMoved (ms : Nat → List (Nat × Nat)) (pid : Nat) (w : Network.World S A) :
    Lock n (fun i => agentsMoved n i ((List.range n).map ms) pid (w i)) (Network.agentsMoved n ms pid w) :=
  Lock.bind (Lock.exchange "network.py:561" _ _ w) fun w _ => (Lock.each _ w).congr fun i hi => by rw [others_map]

theorem lock_postMoved (pid : Nat) (w : Network.World S A) : Lock n (fun i => postMoved n i pid (w i)) (Network.postMoved n pid w) :=
  Lock.bind (Lock.each (fun r => (w r).readdEdges pid) w) fun w _ => lock_synchNet pid w

theorem lock_moveAgents (hn : 0 < n) {w : Network.World S A} (hw : Same n k w) (ms : Nat → List (Nat × Nat)) : Lock n (fun i => moveAgents n i (ms i) (w i)) (Network.moveAgents n ms w) := by
  unfold Network.moveAgents
  simp only
  let F : Nat → Option (Cx S A × List (Nat × Nat × S × Option (Dict Int))) := fun r => (ms r).foldlM (Cx.sendAway n) (w r, ([] : List (Nat × Nat × S × Option (Dict Int))))
  have ha : ∀ j < n, sent (((List.range n).map F)[j]?.bind id) = sent (F j) := fun j hj => by rw [at_range F hj]
  rw [show Network.each n (fun r => (((List.range n).map F)[r]?.bind id).map (·.1)) w = eachOf n (fun r => (F r).map (·.1)) w from eachOf_congr (fun i hi => by rw [at_range F hi]) w]
  refine Lock.split (F := F) (out := fun r => sent (F r)) (fun i hi x e => by rw [e]; rfl) fun w1 h1 => ?_
  have hw1 : Same n k w1 := fun i hi => (All.foldlM (p := fun x : Cx S A × List (Nat × Nat × S × Option (Dict Int)) => Has k x.1) (fun _ _ ha => Has.sendAway ha _ _) _ _ (hw i hi)) _ (h1 i hi)
  refine Lock.called ?_
  let G : Nat → Option (Cx S A × List Nat) := fun r => ((recv n (fun s => sent (((List.range n).map F)[s]?.bind id)) r).map (·.2)).foldlM Cx.arrive (w1 r, ([] : List Nat))
  rw [show Network.each n (fun r => (((List.range n).map G)[r]?.bind id).map (·.1)) w1 = eachOf n (fun r => (G r).map (·.1)) w1 from eachOf_congr (fun i hi => by rw [at_range G hi]) w1]
  refine Lock.congr (Lock.split (F := G) (k := fun r y => (Prog.call "context.py:475" (ms r)).bind fun l =>
      (if anyMoved l then eachPid (agentsMoved n r l) y.1 else .ret y.1).bind fun c =>
        (Prog.lift (y.2.foldlM (fun (c : Cx S A) u => c.deleteGhost u) c)).bind fun c =>
          (eachPid (preSynchNet n r) c).bind fun c => (Prog.call "context.py:543" ([] : List (Nat × Nat))).bind fun _ =>
            (updateGhosts n r c).bind fun c => (eachPid (synchNet n r) c).bind fun c => eachPid (postMoved n r) c) (out := fun r => sent (G r)) (fun i hi x e => by rw [e]; rfl) fun w2 h2 => ?_) fun i hi => ?_
  · have hw2 : Same n k w2 := fun i hi => (All.foldlM (p := fun x : Cx S A × List Nat => Has k x.1) (fun _ _ ha => Has.arrive ha _) _ _ (hw1 i hi)) _ (h2 i hi)
    refine Lock.called ?_
    refine Lock.bind (o := if (List.range n).all (fun r => (ms r).isEmpty) then some w2 else Network.eachPid (Network.agentsMoved n ms) w2) ?_ fun w3 e3 => ?_
    · have e : anyMoved ((List.range n).map ms) = !(List.range n).all (fun r => (ms r).isEmpty) := by
        unfold anyMoved
        rw [List.all_map]; rfl
      rw [e]
      cases (List.range n).all (fun r => (ms r).isEmpty) with
      | true => exact .done fun _ _ => rfl
      | false => exact lock_eachPid hn hw2 (fun pid w _ => lock_agentsMoved ms pid w) fun pid w hw => hw.agentsMoved ms pid
    · have hw3 : Same n k w3 := (All.ite (All.some hw2) (hw2.eachPid fun pid w hw => hw.agentsMoved ms pid) : All (Same n k) _) w3 e3
      refine Lock.bind ((Lock.each (fun r => (sent (((List.range n).map G)[r]?.bind id)).foldlM (fun (c : Cx S A) u => c.deleteGhost u) (w3 r)) w3).congr fun i hi => by rw [at_range G hi]) fun w4 e4 => ?_
      have hw4 : Same n k w4 := (Same.each fun i hi => All.foldlM (fun c u hc => hc.deleteGhost u) _ _ (hw3 i hi)) w4 e4
      refine Lock.bind (lock_eachPid hn hw4 (fun pid w _ => lock_preSynchNet pid w) fun pid w hw => hw.preSynchNet pid) fun w5 e5 => ?_
      have hw5 := (hw4.eachPid fun pid w hw => hw.preSynchNet pid) w5 e5
      refine Lock.called (Lock.bind (lock_updateGhosts w5) fun w6 e6 => ?_)
      have hw6 := hw5.updateGhosts w6 e6
      refine Lock.bind (lock_eachPid hn hw6 (fun pid w _ => lock_synchNet pid w) fun pid w hw => hw.synchNet pid) fun w7 e7 => ?_
      exact lock_eachPid hn ((hw6.eachPid fun pid w hw => hw.synchNet pid) w7 e7) (fun pid w _ => lock_postMoved pid w) fun pid w hw => hw.postMoved pid
  · rw [delivered_map (fun j => sent (F j)), ← recv_congr ha]

/-! ### Models -/

/-- A turn of all ranks, one rank after the other. -/
def wturn (n : Nat) (t : Turn S A) (w : Network.World S A) : Option (Network.World S A) :=
  match t with
  | .own f => eachOf n (fun r => (f r (w r)).foldlM Act.run (w r)) w
  | .request rs => Network.requestAgents n (fun r => rs r (w r)) w
  | .move ms => Network.moveAgents n (fun r => ms r (w r)) w
  | .synch g => Network.synchronize n g w

/-- The same turn as operations of a history. -/
def Turn.ops (n : Nat) (t : Turn S A) (w : Network.World S A) : List (WOp S A) :=
  match t with
  | .own f => (List.range n).flatMap fun r => (f r (w r)).map (Act.of r)
  | .request rs => [.request fun r => rs r (w r)]
  | .move ms => [.move fun r => ms r (w r)]
  | .synch g => [.synch g]

theorem Has.act {c : Cx S A} (h : Has k c) (a : Act S A) : All (Has k) (Act.run c a) := by
  cases a with
  | add u s => exact All.some (h.add u s)
  | remove u => exact h.remove u
  | setState u s => exact h.setState u s
  | addEdge pid u v a => exact h.addEdge pid u v a
  | updateEdge pid u v a => exact h.updateEdge pid u v a
  | removeEdge pid u v => exact h.removeEdge pid u v
  | clearEdges pid => exact h.clearEdges pid

theorem Same.wturn {w : Network.World S A} (hw : Same n k w) (t : Turn S A) : All (Same n k) (wturn n t w) := by
  cases t with
  | own f => exact Same.each fun i hi => All.foldlM (fun c a hc => Has.act hc a) _ _ (hw i hi)
  | request rs => exact hw.requestAgents _
  | move ms => exact hw.moveAgents _
  | synch g => exact hw.synchronize g

theorem lock_turn (hn : 0 < n) {w : Network.World S A} (hw : Same n k w) (t : Turn S A) : Lock n (fun i => turn n i t (w i)) (wturn n t w) := by
  cases t with
  | own f => exact Lock.each _ w
  | request rs => exact lock_requestAgents (fun r => rs r (w r)) w
  | move ms => exact lock_moveAgents hn hw fun r => ms r (w r)
  | synch g => exact lock_synchronize hn hw g

theorem lock_script (hn : 0 < n) {w : Network.World S A} (hw : Same n k w) (ts : List (Turn S A)) : Lock n (fun i => script n i ts (w i)) (ts.foldlM (fun w t => wturn n t w) w) :=
  Lock.forM (Same n k) (fun t w hw => lock_turn hn hw t) (fun t w w' hw e => hw.wturn t w' e) ts w hw

theorem wstep_of (r : Nat) (a : Act S A) (w : Network.World S A) : wstep n w (a.of r) = at_ n r (fun c => Act.run c a) w := by cases a <;> rfl

/-- What one rank does by itself. -/
theorem wrun_rank {r : Nat} (hr : r < n) (as : List (Act S A)) (w : Network.World S A) {c : Cx S A} (h : as.foldlM Act.run (w r) = some c) :
    wrun n w (as.map (Act.of r)) = some (fun i => if i = r then c else w i) := by
  induction as generalizing w with
  | nil =>
    rw [List.foldlM_nil] at h
    cases h
    show some w = _
    congr 1
    funext i
    split <;> simp_all
  | cons a as ih =>
    rw [List.foldlM_cons, Option.bind_eq_bind] at h
    obtain ⟨c', e, h⟩ := Option.bind_eq_some_iff.1 h
    have hs : wstep n w (a.of r) = some (fun i => if i = r then c' else w i) := by
      rw [wstep_of]
      unfold at_
      rw [if_pos hr]
      show (Act.run (w r) a).map _ = _
      rw [e]; rfl
    show ((a.of r) :: as.map (Act.of r)).foldlM (wstep n) w = _
    rw [List.foldlM_cons, Option.bind_eq_bind, hs]
    show wrun n _ (as.map (Act.of r)) = _
    rw [ih (fun i => if i = r then c' else w i) (by simpa using h)]
    congr 1
    funext i
    split <;> simp_all

theorem wrun_own (f : Nat → Cx S A → List (Act S A)) (w w' : Network.World S A) (h : ∀ i < n, (f i (w i)).foldlM Act.run (w i) = some (w' i)) :
    ∀ m, m ≤ n → wrun n w ((List.range m).flatMap fun r => (f r (w r)).map (Act.of r)) = some (fun i => if i < m then w' i else w i) := by
  intro m
  induction m with
  | zero => intro _; rfl
  | succ m ih =>
    intro hm
    rw [List.range_succ, List.flatMap_append]
    show ((_ ++ _ : List (WOp S A)).foldlM (wstep n) w) = _
    rw [List.foldlM_append, Option.bind_eq_bind]
    show (wrun n w _).bind _ = _
    rw [ih (by omega), Option.bind_some, List.flatMap_cons, List.flatMap_nil, List.append_nil]
    show wrun n _ _ = _
    rw [wrun_rank (r := m) (c := w' m) (by omega) (f m (w m)) (fun i => if i < m then w' i else w i) (by simpa using h m (by omega))]
    congr 1
    funext i
    by_cases h1 : i = m
    · subst h1; simp
    · by_cases h2 : i < m
      · simp [h1, h2, show i < m + 1 by omega]
      · simp [h1, h2, show ¬ i < m + 1 by omega]

theorem eachOf_out {α : Type} {f : Nat → Option α} {w w' : Nat → α} (h : eachOf n f w = some w') {i : Nat} (hi : ¬ i < n) : w' i = w i := by
  unfold eachOf at h
  simp only at h
  split at h
  · cases h
    show (((List.range n).map f)[i]?.bind id).getD (w i) = w i
    rw [List.getElem?_eq_none (by simp; omega)]; rfl
  · cases h

theorem wrun_turn (t : Turn S A) {w w' : Network.World S A} (h : wturn n t w = some w') : wrun n w (t.ops n w) = some w' := by
  have one : ∀ o : WOp S A, wstep n w o = some w' → wrun n w [o] = some w' := by
    intro o h
    show [o].foldlM (wstep n) w = _
    rw [List.foldlM_cons, h]; rfl
  cases t with
  | own f =>
    have := wrun_own f w w' (eachOf_some h) n (Nat.le_refl n)
    show wrun n w ((List.range n).flatMap fun r => (f r (w r)).map (Act.of r)) = _
    rw [this]
    congr 1
    funext i
    by_cases hi : i < n
    · rw [if_pos hi]
    · rw [if_neg hi, eachOf_out h hi]
  | request rs => exact one _ h
  | move ms => exact one _ h
  | synch g => exact one _ h

theorem wrun_append (w : Network.World S A) (l l' : List (WOp S A)) : wrun n w (l ++ l') = (wrun n w l).bind fun w => wrun n w l' := by
  show (l ++ l').foldlM (wstep n) w = _
  rw [List.foldlM_append]; rfl

theorem wrun_rank_none {r : Nat} (hr : r < n) (as : List (Act S A)) (w : Network.World S A) (h : as.foldlM Act.run (w r) = none) : wrun n w (as.map (Act.of r)) = none := by
  induction as generalizing w with
  | nil => cases h
  | cons a as ih =>
    rw [List.foldlM_cons, Option.bind_eq_bind] at h
    show ((a.of r) :: as.map (Act.of r)).foldlM (wstep n) w = _
    rw [List.foldlM_cons, Option.bind_eq_bind, wstep_of]
    unfold at_
    rw [if_pos hr]
    show ((Act.run (w r) a).map _).bind _ = none
    cases e : Act.run (w r) a with
    | none => rfl
    | some c =>
      rw [e] at h
      exact ih (fun k => if k = r then c else w k) (by simpa using h)

theorem wrun_own_some (f : Nat → Cx S A → List (Act S A)) (w : Network.World S A) :
    ∀ m, m ≤ n → ∀ u, wrun n w ((List.range m).flatMap fun r => (f r (w r)).map (Act.of r)) = some u → (∀ i < m, (f i (w i)).foldlM Act.run (w i) = some (u i)) ∧ ∀ i, m ≤ i → u i = w i := by
  intro m
  induction m with
  | zero => intro _ u h; cases h; exact ⟨by omega, fun _ _ => rfl⟩
  | succ m ih =>
    intro hm u h
    rw [List.range_succ, List.flatMap_append, wrun_append] at h
    obtain ⟨v, h1, h2⟩ := Option.bind_eq_some_iff.1 h
    obtain ⟨h3, h4⟩ := ih (by omega) v h1
    rw [List.flatMap_cons, List.flatMap_nil, List.append_nil] at h2
    have e : v m = w m := h4 m (Nat.le_refl m)
    cases ec : (f m (w m)).foldlM Act.run (v m) with
    | none => rw [wrun_rank_none (by omega) _ v ec] at h2; cases h2
    | some c =>
      rw [wrun_rank (by omega) _ v ec] at h2
      cases h2
      refine ⟨fun i hi => ?_, fun i hi => ?_⟩
      · by_cases him : i = m
        · subst him; simp only [if_true]; rw [← e]; rw [e] at ec ⊢; exact ec
        · simp only [him, if_false]; exact h3 i (by omega)
      · simp only [show i ≠ m by omega, if_false]; exact h4 i (by omega)

theorem wrun_turn_none (t : Turn S A) {w : Network.World S A} (h : wturn n t w = none) : wrun n w (t.ops n w) = none := by
  have one : ∀ o : WOp S A, wstep n w o = none → wrun n w [o] = none := by
    intro o h
    show [o].foldlM (wstep n) w = _
    rw [List.foldlM_cons, h]; rfl
  cases t with
  | own f =>
    obtain ⟨i, hi, he⟩ := eachOf_none h
    cases e : wrun n w ((Turn.own f).ops n w) with
    | none => rfl
    | some u =>
      have := (wrun_own_some f w n (Nat.le_refl n) u e).1 i hi
      rw [he] at this
      cases this
  | request rs => exact one _ h
  | move ms => exact one _ h
  | synch g => exact one _ h

/-- `ops` are what the ranks do in the turns `ts`, one rank after the other: as far as none of them raises an exception, and then until one does. -/
inductive Follows (n : Nat) : Network.World S A → List (Turn S A) → List (WOp S A) → Prop
  | nil (w : Network.World S A) : Follows n w [] []
  | cons {w w' : Network.World S A} {t : Turn S A} {ts : List (Turn S A)} {ops : List (WOp S A)} : wrun n w (t.ops n w) = some w' → Follows n w' ts ops → Follows n w (t :: ts) (t.ops n w ++ ops)
  | raises {w : Network.World S A} {t : Turn S A} {ts : List (Turn S A)} : wrun n w (t.ops n w) = none → Follows n w (t :: ts) (t.ops n w)

/-- The turns are a history. -/
theorem wrun_turns (ts : List (Turn S A)) : ∀ w : Network.World S A, ∃ ops, Follows n w ts ops ∧ wrun n w ops = ts.foldlM (fun w t => wturn n t w) w := by
  induction ts with
  | nil => intro w; exact ⟨[], .nil w, rfl⟩
  | cons t ts ih =>
    intro w
    rw [List.foldlM_cons, Option.bind_eq_bind]
    cases h : wturn n t w with
    | none => exact ⟨_, .raises (wrun_turn_none t h), wrun_turn_none t h⟩
    | some w1 =>
      obtain ⟨ops, h2, h3⟩ := ih w1
      refine ⟨_, .cons (wrun_turn t h) h2, ?_⟩
      rw [wrun_append, wrun_turn t h]
      exact h3

/-! ### Histories -/

/-- The rank that does an operation by itself. -/
def rankOf : WOp S A → Option Nat
  | .add r _ _ | .remove r _ | .setState r _ _ | .addEdge r _ _ _ _ | .updateEdge r _ _ _ _ | .removeEdge r _ _ _ | .clearEdges r _ => some r
  | .request _ | .move _ | .synch _ => none

/-- What rank `r` does of an operation of a history: all of it, its part of a collective function, or nothing. -/
def part (n r : Nat) (o : WOp S A) (c : Cx S A) : Prog (Cx S A) :=
  match o with
  | .add q u s => if q = r then .ret (c.add u s) else .ret c
  | .remove q u => if q = r then Prog.lift (c.remove u) else .ret c
  | .setState q u s => if q = r then Prog.lift (c.setState u s) else .ret c
  | .addEdge q pid u v a => if q = r then Prog.lift (c.addEdge pid u v a) else .ret c
  | .updateEdge q pid u v a => if q = r then Prog.lift (c.updateEdge pid u v a) else .ret c
  | .removeEdge q pid u v => if q = r then Prog.lift (c.removeEdge pid u v) else .ret c
  | .clearEdges q pid => if q = r then Prog.lift (c.clearEdges pid) else .ret c
  | .request rs => requestAgents n r (rs r) c
  | .move ms => moveAgents n r (ms r) c
  | .synch g => synchronize n r g c

/-- What rank `r` does of a history. -/
def parts (n r : Nat) (ops : List (WOp S A)) (c : Cx S A) : Prog (Cx S A) := Prog.forM (part n r) ops c

theorem lock_at {q : Nat} (hq : q < n) (f : Cx S A → Option (Cx S A)) (w : Network.World S A) : Lock n (fun i => if q = i then Prog.lift (f (w i)) else .ret (w i)) (at_ n q f w) := by
  unfold at_
  rw [if_pos hq]
  cases e : f (w q) with
  | none => exact .raised ⟨q, hq, by rw [if_pos rfl, e]; rfl⟩
  | some c =>
    refine .done fun i _ => ?_
    show _ = Prog.ret (if i = q then c else w i)
    by_cases h : q = i
    · subst h; rw [if_pos rfl, if_pos rfl, e]; rfl
    · rw [if_neg h, if_neg (Ne.symm h)]

theorem lock_part (hn : 0 < n) {w : Network.World S A} (hw : Same n k w) (o : WOp S A) (ho : ∀ q, rankOf o = some q → q < n) : Lock n (fun i => part n i o (w i)) (wstep n w o) := by
  cases o with
  | add q u s => exact lock_at (ho q rfl) (fun c => some (c.add u s)) w
  | remove q u => exact lock_at (ho q rfl) (fun c => c.remove u) w
  | setState q u s => exact lock_at (ho q rfl) (fun c => c.setState u s) w
  | addEdge q pid u v a => exact lock_at (ho q rfl) (fun c => c.addEdge pid u v a) w
  | updateEdge q pid u v a => exact lock_at (ho q rfl) (fun c => c.updateEdge pid u v a) w
  | removeEdge q pid u v => exact lock_at (ho q rfl) (fun c => c.removeEdge pid u v) w
  | clearEdges q pid => exact lock_at (ho q rfl) (fun c => c.clearEdges pid) w
  | request rs => exact lock_requestAgents rs w
  | move ms => exact lock_moveAgents hn hw ms
  | synch g => exact lock_synchronize hn hw g

theorem Same.at_ {w : Network.World S A} (hw : Same n k w) (q : Nat) {f : Cx S A → Option (Cx S A)} (hf : ∀ c, Has k c → All (Has k) (f c)) : All (Same n k) (at_ n q f w) := by
  unfold Network.at_
  by_cases hq : q < n
  · rw [if_pos hq]
    exact (hf _ (hw q hq)).map fun c hc i hi => by
      show Has k (if i = q then c else w i)
      split
      · exact hc
      · exact hw i hi
  · rw [if_neg hq]; exact All.none

theorem Same.wstep {w : Network.World S A} (hw : Same n k w) (o : WOp S A) : All (Same n k) (wstep n w o) := by
  cases o with
  | add q u s => exact hw.at_ q fun c hc => All.some (hc.add u s)
  | remove q u => exact hw.at_ q fun c hc => hc.remove u
  | setState q u s => exact hw.at_ q fun c hc => hc.setState u s
  | addEdge q pid u v a => exact hw.at_ q fun c hc => hc.addEdge pid u v a
  | updateEdge q pid u v a => exact hw.at_ q fun c hc => hc.updateEdge pid u v a
  | removeEdge q pid u v => exact hw.at_ q fun c hc => hc.removeEdge pid u v
  | clearEdges q pid => exact hw.at_ q fun c hc => hc.clearEdges pid
  | request rs => exact hw.requestAgents _
  | move ms => exact hw.moveAgents _
  | synch g => exact hw.synchronize g

theorem lock_parts (hn : 0 < n) : ∀ (ops : List (WOp S A)) (w : Network.World S A), Same n k w → (∀ o ∈ ops, ∀ q, rankOf o = some q → q < n) → Lock n (fun i => parts n i ops (w i)) (wrun n w ops) := by
  intro ops
  induction ops with
  | nil => intro w _ _; exact .done fun _ _ => rfl
  | cons o ops ih =>
    intro w hw ho
    show Lock n _ ((o :: ops).foldlM (wstep n) w)
    rw [List.foldlM_cons, Option.bind_eq_bind]
    exact (lock_part hn hw o (ho o List.mem_cons_self)).bind fun w' e => ih w' (hw.wstep o w' e) fun o ho' => ho o (List.mem_cons_of_mem _ ho')

end Repast.Mpi.Net
