import Verif.Mpi.Network
import Verif.Mpi.MixShape

/-
C72 for contexts with shared spaces and networks: what each rank does when it calls `synchronize` and `request_agents` (context.py:263-308, 438-471), as a program that runs at its own speed, and what
it amounts to.
-/
namespace Repast.Mpi.Mix
open Repast.Dict Repast.Mixed Repast.Mpi
open Repast.Context (recv sent Proj)
open Repast.Network (All Has Attr)

variable {S A P Q : Type} [Proj P Q] [Kept P]

/-! ### Model: the calls of one rank -/

/-- Something that only concerns the agents and the networks. -/
def onNc (p : Network.Cx S A → Prog (Network.Cx S A)) (c : Mx S A P) : Prog (Mx S A P) := (p c.nc).bind fun x => .ret { c with nc := x }

/-- For each network. -/
def eachNet (f : Nat → Mx S A P → Prog (Mx S A P)) (c : Mx S A P) : Prog (Mx S A P) := Prog.forM f (List.range c.nc.nets.length) c

/-- For each space. -/
def eachSpace (f : Nat → Mx S A P → Prog (Mx S A P)) (c : Mx S A P) : Prog (Mx S A P) := Prog.forM f (List.range c.spaces.length) c

/-- For each projection, in the order in which they were added. -/
def eachProj (netsFirst : Bool) (space net : Nat → Mx S A P → Prog (Mx S A P)) (c : Mx S A P) : Prog (Mx S A P) :=
  if netsFirst then (eachNet net c).bind (eachSpace space) else (eachSpace space c).bind (eachNet net)

/-- network.py:423-448 `_pre_synch_ghosts` of the network `pid`. -/
def preNet (n r pid : Nat) (c : Mx S A P) : Prog (Mx S A P) := Prog.exchange "network.py:445" n r (fun c => c.sendRefs n pid) (fun c m => c.onNet fun x => x.tag m.1 m.2) c

/-- context.py:241-246 `_pre_synch_ghosts`. -/
def preSynch (n r : Nat) (netsFirst : Bool) (c : Mx S A P) : Prog (Mx S A P) := eachProj netsFirst (fun pid c => Prog.lift (c.preSpace pid)) (preNet n r) c

/-- context.py:207-239 `_update_ghosts`. -/
def updateGhosts (n r : Nat) (c : Mx S A P) : Prog (Mx S A P) :=
  (Prog.exchange "context.py:216" n r (fun c => (c.nc.sendRemovedAgents n).map fun x => ({ c with nc := x.1 }, x.2)) (fun c m => c.dropGhost m.2) c).bind fun c =>
    Prog.exchange "context.py:235" n r (fun c => (c.nc.sendStates n).map fun x => (c, x.2)) (fun c m => c.onNet fun x => x.updateGhost m.2.1 m.2.2) c

/-- space.py:199-211, 413-424 `_synch_ghosts` of the space `pid`. The ranks exchange messages if the space has a buffer on this rank. -/
def synchSpace (n r pid : Nat) (c : Mx S A P) : Prog (Mx S A P) :=
  match c.spaces[pid]? with
  | some g => if Proj.bufSize g.sp > 0 then Prog.exchange (Kept.site g.sp) n r (fun c => (c.bufferMsgs n pid).map fun l => (c, l)) (fun c m => c.bufferOne pid m) c else .ret c
  | none => .ret c

/-- context.py:248-261 `_synch_ghosts`. -/
def synchGhosts (n r : Nat) (netsFirst : Bool) (c : Mx S A P) : Prog (Mx S A P) :=
  (updateGhosts n r c).bind fun c => eachProj netsFirst (synchSpace n r) (fun pid => onNc (Net.synchNet n r pid)) c

/-- context.py:296-308: after agents have moved out of bounds. -/
def afterMoved (n r : Nat) (c : Mx S A P) : Prog (Mx S A P) :=
  (eachNet (fun pid => onNc (Net.postMoved n r pid)) c).bind fun c =>
    eachNet (fun pid c => (preNet n r pid c).bind fun c => (updateGhosts n r c).bind fun c => eachNet (fun j => onNc (Net.synchNet n r j)) c) c

/-- context.py:279-291: what is out of bounds, and `_agents_moved`, after which all ranks know whether an agent has moved. -/
def moveOob (n r : Nat) (c : Mx S A P) : Prog (Mx S A P × Bool) :=
  (Prog.lift (c.gatherOob n)).bind fun x => (Prog.call "context.py:284" x.2.1).bind fun l =>
    (Prog.lift (((delivered n r l).map (·.2)).foldlM Mx.processOne (x.1, ([] : List Nat)))).bind fun y => (Prog.call "context.py:475" x.2.2).bind fun l =>
      (if Net.anyMoved l then (eachNet (fun pid => onNc (Net.agentsMoved n r l pid)) y.1).bind fun c => Prog.lift (c.deleteGhosts y.2) else .ret y.1).bind fun c => .ret (c, Net.anyMoved l)

/-- context.py:263-308 `synchronize`. -/
def synchronize (n r : Nat) (netsFirst ghosts : Bool) (c : Mx S A P) : Prog (Mx S A P) :=
  (if ghosts then preSynch n r netsFirst c else .ret c).bind fun c => (moveOob n r c).bind fun x =>
    (if ghosts then synchGhosts n r netsFirst x.1 else .ret x.1).bind fun c => if x.2 then afterMoved n r c else .ret c

/-- context.py:409-436, 438-471 `request_agents`. -/
def requestAgents (n r : Nat) (rs : List (Nat × Nat)) (c : Mx S A P) : Prog (Mx S A P) :=
  (Prog.lift (rs.foldlM (Mx.sendRequest n) (c, ([] : List (Nat × Nat))))).bind fun x => (Prog.call "context.py:435" x.2).bind fun l =>
    (Prog.lift ((delivered n r l).foldlM Mx.answer (x.1, ([] : List (Nat × Nat × S))))).bind fun y => (Prog.call "context.py:463" y.2).bind fun l =>
      Prog.lift ((delivered n r l).foldlM Mx.recvRequested y.1)

/-- context.py:486-549 `move_agents`. -/
def moveAgents (n r : Nat) (netsFirst : Bool) (ms : List (Nat × Nat)) (c : Mx S A P) : Prog (Mx S A P) :=
  (Prog.lift (ms.foldlM (Mx.sendAway n) (c, ([] : List (Nat × Nat × S × Option (Dict Int)))))).bind fun x => (Prog.call "context.py:518" x.2).bind fun l =>
    (Prog.lift (((delivered n r l).map (·.2)).foldlM Mx.arriveOne (x.1, ([] : List Nat)))).bind fun y => (Prog.call "context.py:475" ms).bind fun l =>
      (if Net.anyMoved l then eachNet (fun pid => onNc (Net.agentsMoved n r l pid)) y.1 else .ret y.1).bind fun c =>
        (Prog.lift (c.deleteGhosts y.2)).bind fun c => (preSynch n r netsFirst c).bind fun c =>
          (Prog.lift (c.gatherOob n)).bind fun x => (Prog.call "context.py:543" x.2.1).bind fun l =>
            (Prog.lift (((delivered n r l).map (·.2)).foldlM Mx.processOne (x.1, ([] : List Nat)))).bind fun y =>
              (synchGhosts n r netsFirst y.1).bind fun c => eachNet (fun pid => onNc (Net.postMoved n r pid)) c

/-- What a rank does by itself. -/
inductive Act (S A Q : Type) where
  | add (u : Nat) (s : S)
  | remove (u : Nat)
  | setState (u : Nat) (s : S)
  | gmove (pid u : Nat) (pt : Q)
  | addEdge (pid u v : Nat) (at_ : Attr A)
  | updateEdge (pid u v : Nat) (at_ : Attr A)
  | removeEdge (pid u v : Nat)
  | clearEdges (pid : Nat)

/-- The operation in a history of all ranks. -/
def Act.of (r : Nat) : Act S A Q → WOp S A Q
  | .add u s => .add r u s
  | .remove u => .remove r u
  | .setState u s => .setState r u s
  | .gmove pid u pt => .gmove r pid u pt
  | .addEdge pid u v a => .addEdge r pid u v a
  | .updateEdge pid u v a => .updateEdge r pid u v a
  | .removeEdge pid u v => .removeEdge r pid u v
  | .clearEdges pid => .clearEdges r pid

def Act.run (c : Mx S A P) : Act S A Q → Option (Mx S A P)
  | .add u s => some (c.add u s)
  | .remove u => c.remove u
  | .setState u s => c.onNet fun x => x.setState u s
  | .gmove pid u pt => c.gmove pid u pt
  | .addEdge pid u v a => c.onNet fun x => x.addEdge pid u v a
  | .updateEdge pid u v a => c.onNet fun x => x.updateEdge pid u v a
  | .removeEdge pid u v => c.onNet fun x => x.removeEdge pid u v
  | .clearEdges pid => c.onNet fun x => x.clearEdges pid

/-- What a model does: the ranks do something by themselves, which may depend on the rank and on its context, or all call the same collective function, with arguments that may depend on them. -/
inductive Turn (S A Q P : Type) where
  | own (f : Nat → Mx S A P → List (Act S A Q))
  | request (rs : Nat → Mx S A P → List (Nat × Nat))
  | move (ms : Nat → Mx S A P → List (Nat × Nat))
  | synch (ghosts : Bool)

/-- A turn of rank `r`. -/
def turn (n r : Nat) (b : Bool) (t : Turn S A Q P) (c : Mx S A P) : Prog (Mx S A P) :=
  match t with
  | .own f => Prog.lift ((f r c).foldlM Act.run c)
  | .request rs => requestAgents n r (rs r c) c
  | .move ms => moveAgents n r b (ms r c) c
  | .synch g => synchronize n r b g c

/-- The model of rank `r`. -/
def script (n r : Nat) (b : Bool) (ts : List (Turn S A Q P)) (c : Mx S A P) : Prog (Mx S A P) := Prog.forM (turn n r b) ts c

/-! ### The projections stay the same -/

/-- The ranks have the same projections. -/
def Same (n k : Nat) (bs : List (Nat × String)) (w : Mixed.World S A P) : Prop := ∀ i < n, HasM k bs (w i)

variable {n k : Nat} {bs : List (Nat × String)}

theorem Same.nets {w : Mixed.World S A P} (hw : Same n k bs w) : Net.Same n k fun r => (w r).nc := fun i hi => (hw i hi).nets

theorem Same.len {w : Mixed.World S A P} (hw : Same n k bs w) {i : Nat} (hi : i < n) : (w i).spaces.length = bs.length := by
  rw [← (hw i hi).spaces, List.length_map]

theorem Same.each {f : Nat → Option (Mx S A P)} {w : Mixed.World S A P} (h : ∀ i < n, All (HasM k bs) (f i)) : All (Same n k bs) (eachOf n f w) := fun w' e i hi => h i hi (w' i) (eachOf_some e i hi)

theorem Same.exchange {M : Type} {send : Mx S A P → Option (Mx S A P × List (Nat × M))} {recv1 : Mx S A P → Nat × M → Option (Mx S A P)} {w : Mixed.World S A P} (hw : Same n k bs w)
    (h1 : ∀ c, HasM k bs c → All (fun x => HasM k bs x.1) (send c)) (h2 : ∀ c m, HasM k bs c → All (HasM k bs) (recv1 c m)) : All (Same n k bs) (exchangeOf n send recv1 w) := by
  refine All.bind (p := Same n k bs) (Same.each fun i hi => ?_) fun w' hw' => Same.each fun i hi => All.foldlM (h2 · ·) _ _ (hw' i hi)
  rw [at_range (fun r => send (w r)) hi]
  exact (h1 _ (hw i hi)).map fun _ h => h

theorem Same.eachNet {F : Nat → Mixed.World S A P → Option (Mixed.World S A P)} {w : Mixed.World S A P} (hw : Same n k bs w) (hF : ∀ pid w, Same n k bs w → All (Same n k bs) (F pid w)) :
    All (Same n k bs) (Mixed.eachNet F w) := All.foldlM (fun w pid hw => hF pid w hw) _ _ hw

theorem Same.eachSpace {F : Nat → Mixed.World S A P → Option (Mixed.World S A P)} {w : Mixed.World S A P} (hw : Same n k bs w) (hF : ∀ pid w, Same n k bs w → All (Same n k bs) (F pid w)) :
    All (Same n k bs) (Mixed.eachSpace F w) := All.foldlM (fun w pid hw => hF pid w hw) _ _ hw

theorem Same.eachProj {b : Bool} {F G : Nat → Mixed.World S A P → Option (Mixed.World S A P)} {w : Mixed.World S A P} (hw : Same n k bs w) (hF : ∀ pid w, Same n k bs w → All (Same n k bs) (F pid w))
    (hG : ∀ pid w, Same n k bs w → All (Same n k bs) (G pid w)) : All (Same n k bs) (Mixed.eachProj b F G w) :=
  All.ite ((hw.eachNet hG).bind fun _ hw => hw.eachSpace hF) ((hw.eachSpace hF).bind fun _ hw => hw.eachNet hG)

theorem Same.onNets {F : Network.World S A → Option (Network.World S A)} {w : Mixed.World S A P} (hw : Same n k bs w) (hF : ∀ x, Net.Same n k x → All (Net.Same n k) (F x)) :
    All (Same n k bs) (Mixed.onNets F w) := (hF _ hw.nets).map fun _ hx i hi => ⟨hx i hi, (hw i hi).spaces⟩

theorem Same.preNet {w : Mixed.World S A P} (hw : Same n k bs w) (pid : Nat) : All (Same n k bs) (Mixed.preNet n pid w) :=
  Same.exchange hw (fun c hc => hc.sendRefs n pid) fun c m hc => hc.onNet fun _ hx => hx.tag _ _

theorem Same.preSynch {w : Mixed.World S A P} (hw : Same n k bs w) (b : Bool) : All (Same n k bs) (Mixed.preSynch n b w) :=
  hw.eachProj (fun pid _ hw => Same.each fun i hi => (hw i hi).preSpace pid) fun pid _ hw => hw.preNet pid

theorem Same.updateGhosts {w : Mixed.World S A P} (hw : Same n k bs w) : All (Same n k bs) (Mixed.updateGhosts n w) := by
  have h1 : ∀ c : Mx S A P, HasM k bs c → All (fun x => HasM k bs x.1) ((c.nc.sendRemovedAgents n).map fun x => (({ c with nc := x.1 } : Mx S A P), x.2)) :=
    fun c hc => (hc.nets.sendRemovedAgents n).map fun _ hx => ⟨hx, hc.spaces⟩
  have h2 : ∀ c : Mx S A P, HasM k bs c → All (fun x => HasM k bs x.1) ((c.nc.sendStates n).map fun x => (c, x.2)) := fun c hc => All.mapped fun _ => hc
  exact All.bind (p := Same n k bs) (Same.exchange hw h1 fun c m hc => hc.dropGhost _) fun w hw => Same.exchange hw h2 fun c m hc => hc.onNet fun _ hx => hx.updateGhost _ _

theorem Same.synchSpace {w : Mixed.World S A P} (hw : Same n k bs w) (pid : Nat) : All (Same n k bs) (Mixed.synchSpace n pid w) :=
  All.ite (Same.exchange hw (fun c hc => All.mapped fun _ => hc) fun c m hc => hc.bufferOne pid m) (All.some hw)

theorem Same.synchGhosts {w : Mixed.World S A P} (hw : Same n k bs w) (b : Bool) : All (Same n k bs) (Mixed.synchGhosts n b w) :=
  hw.updateGhosts.bind fun _ hw => hw.eachProj (fun pid _ hw => hw.synchSpace pid) fun pid _ hw => hw.onNets fun _ hx => hx.synchNet pid

theorem Same.afterMoved {w : Mixed.World S A P} (hw : Same n k bs w) : All (Same n k bs) (Mixed.afterMoved n w) :=
  (hw.eachNet fun pid _ hw => hw.onNets fun _ hx => hx.postMoved pid).bind fun _ hw => hw.eachNet fun pid _ hw => (hw.preNet pid).bind fun _ hw => hw.updateGhosts.bind fun _ hw =>
    hw.eachNet fun j _ hw => hw.onNets fun _ hx => hx.synchNet j

theorem Same.moveOob {w : Mixed.World S A P} (hw : Same n k bs w) : All (fun x => Same n k bs x.1) (Mixed.moveOob n w) := by
  unfold Mixed.moveOob
  refine All.bind (p := Same n k bs) (Same.each fun i hi => ?_) fun w hw => All.map (p := Same n k bs) (Same.each fun i hi => ?_) fun _ hw => hw
  · rw [at_range (fun r => (w r).gatherOob n) hi]
    exact ((hw i hi).gatherOob n).map fun _ h => h
  · rw [List.getElem?_map, List.getElem?_range hi]
    exact (All.foldlM (p := fun x : Mx S A P × List Nat => HasM k bs x.1) (fun _ _ ha => HasM.processOne ha _) _ _ (hw i hi)).map fun _ h => h

theorem Same.synchronize {w : Mixed.World S A P} (hw : Same n k bs w) (b g : Bool) : All (Same n k bs) (Mixed.synchronize n b g w) :=
  (All.ite (hw.preSynch b) (All.some hw) : All (Same n k bs) _).bind fun _ hw => hw.moveOob.bind fun x hx =>
    (All.ite ((Same.eachNet hx fun pid _ hw => hw.onNets fun _ hx => hx.agentsMoved _ pid).bind fun _ hw => Same.each fun i hi => (hw i hi).deleteGhosts _) (All.some hx) : All (Same n k bs) _).bind fun _ hw =>
      (All.ite (hw.synchGhosts b) (All.some hw) : All (Same n k bs) _).bind fun _ hw => All.ite hw.afterMoved (All.some hw)

theorem Same.requestAgents {w : Mixed.World S A P} (hw : Same n k bs w) (rs : Nat → List (Nat × Nat)) : All (Same n k bs) (Mixed.requestAgents n rs w) := by
  unfold Mixed.requestAgents
  refine All.bind (p := Same n k bs) (Same.each fun i hi => ?_) fun w hw => All.bind (p := Same n k bs) (Same.each fun i hi => ?_) fun w hw =>
    Same.each fun i hi => All.foldlM (fun c m hc => HasM.recvRequested hc m) _ _ (hw i hi)
  · rw [at_range (fun r => (rs r).foldlM (Mx.sendRequest n) (w r, ([] : List (Nat × Nat)))) hi]
    exact (All.foldlM (p := fun x : Mx S A P × List (Nat × Nat) => HasM k bs x.1) (fun _ _ ha => HasM.sendRequest ha _ _) _ _ (hw i hi)).map fun _ h => h
  · rw [List.getElem?_map, List.getElem?_range hi]
    exact (All.foldlM (p := fun x : Mx S A P × List (Nat × Nat × S) => HasM k bs x.1) (fun _ _ ha => HasM.answer ha _) _ _ (hw i hi)).map fun _ h => h

theorem Same.moveAgents {w : Mixed.World S A P} (hw : Same n k bs w) (b : Bool) (ms : Nat → List (Nat × Nat)) : All (Same n k bs) (Mixed.moveAgents n b ms w) := by
  unfold Mixed.moveAgents
  refine All.bind (p := Same n k bs) (Same.each fun i hi => ?_) fun w hw => All.bind (p := Same n k bs) (Same.each fun i hi => ?_) fun w hw =>
    All.bind (p := Same n k bs) (All.ite (All.some hw) (hw.eachNet fun pid _ hw => hw.onNets fun _ hx => hx.agentsMoved _ pid)) fun w hw =>
      All.bind (p := Same n k bs) (Same.each fun i hi => (hw i hi).deleteGhosts _) fun w hw => (hw.preSynch b).bind fun w hw => hw.moveOob.bind fun x hx =>
        All.bind (p := Same n k bs) (Same.synchGhosts hx b) fun w hw => hw.eachNet fun pid _ hw => hw.onNets fun _ hx => hx.postMoved pid
  · rw [at_range _ hi]
    exact (All.foldlM (p := fun x : Mx S A P × List (Nat × Nat × S × Option (Dict Int)) => HasM k bs x.1) (fun _ _ ha => HasM.sendAway ha _ _) _ _ (hw i hi)).map fun _ h => h
  · rw [at_range _ hi]
    exact (All.foldlM (p := fun x : Mx S A P × List Nat => HasM k bs x.1) (fun _ _ ha => HasM.arriveOne ha _) _ _ (hw i hi)).map fun _ h => h

/-! ### The calls of all ranks -/

theorem lock_onNets {p : Nat → Network.Cx S A → Prog (Network.Cx S A)} {F : Network.World S A → Option (Network.World S A)} (w : Mixed.World S A P)
    (h : Lock n (fun i => p i (w i).nc) (F fun r => (w r).nc)) : Lock n (fun i => onNc (p i) (w i)) (Mixed.onNets F w) :=
  Lock.bind_ret (g := fun i x => ({ w i with nc := x } : Mx S A P)) (o' := fun x r => ({ w r with nc := x r } : Mx S A P)) h fun _ _ _ _ => rfl

theorem lock_eachNet (hn : 0 < n) {body : Nat → Nat → Mx S A P → Prog (Mx S A P)} {F : Nat → Mixed.World S A P → Option (Mixed.World S A P)} {w : Mixed.World S A P} (hw : Same n k bs w)
    (hb : ∀ pid w, Same n k bs w → Lock n (fun i => body i pid (w i)) (F pid w)) (hz : ∀ pid w, Same n k bs w → All (Same n k bs) (F pid w)) :
    Lock n (fun i => eachNet (body i) (w i)) (Mixed.eachNet F w) := by
  have := Lock.forM (Same n k bs) (body := body) hb (fun j w w' hw e => hz j w hw w' e) (List.range k) w hw
  have e : Mixed.eachNet F w = (List.range k).foldlM (fun w j => F j w) w := by
    show (List.range (w 0).nc.nets.length).foldlM _ w = _
    rw [(hw 0 hn).nets]
  rw [e]
  refine this.congr fun i hi => ?_
  show Prog.forM (body i) (List.range (w i).nc.nets.length) (w i) = _
  rw [(hw i hi).nets]

theorem lock_eachSpace (hn : 0 < n) {body : Nat → Nat → Mx S A P → Prog (Mx S A P)} {F : Nat → Mixed.World S A P → Option (Mixed.World S A P)} {w : Mixed.World S A P} (hw : Same n k bs w)
    (hb : ∀ pid w, Same n k bs w → Lock n (fun i => body i pid (w i)) (F pid w)) (hz : ∀ pid w, Same n k bs w → All (Same n k bs) (F pid w)) :
    Lock n (fun i => eachSpace (body i) (w i)) (Mixed.eachSpace F w) := by
  have := Lock.forM (Same n k bs) (body := body) hb (fun j w w' hw e => hz j w hw w' e) (List.range bs.length) w hw
  have e : Mixed.eachSpace F w = (List.range bs.length).foldlM (fun w j => F j w) w := by
    show (List.range (w 0).spaces.length).foldlM _ w = _
    rw [hw.len hn]
  rw [e]
  refine this.congr fun i hi => ?_
  show Prog.forM (body i) (List.range (w i).spaces.length) (w i) = _
  rw [hw.len hi]

theorem lock_eachProj (hn : 0 < n) {b : Bool} {body body' : Nat → Nat → Mx S A P → Prog (Mx S A P)} {F F' : Nat → Mixed.World S A P → Option (Mixed.World S A P)} {w : Mixed.World S A P} (hw : Same n k bs w)
    (hb : ∀ pid w, Same n k bs w → Lock n (fun i => body i pid (w i)) (F pid w)) (hz : ∀ pid w, Same n k bs w → All (Same n k bs) (F pid w))
    (hb' : ∀ pid w, Same n k bs w → Lock n (fun i => body' i pid (w i)) (F' pid w)) (hz' : ∀ pid w, Same n k bs w → All (Same n k bs) (F' pid w)) :
    Lock n (fun i => eachProj b (body i) (body' i) (w i)) (Mixed.eachProj b F F' w) := by
  cases b with
  | true => exact Lock.bind (lock_eachNet hn hw hb' hz') fun w e => lock_eachSpace hn ((hw.eachNet hz') w e) hb hz
  | false => exact Lock.bind (lock_eachSpace hn hw hb hz) fun w e => lock_eachNet hn ((hw.eachSpace hz) w e) hb' hz'

theorem lock_preNet (pid : Nat) (w : Mixed.World S A P) : Lock n (fun i => preNet n i pid (w i)) (Mixed.preNet n pid w) := Lock.exchange "network.py:445" _ _ w

theorem lock_preSynch (hn : 0 < n) {w : Mixed.World S A P} (hw : Same n k bs w) (b : Bool) : Lock n (fun i => preSynch n i b (w i)) (Mixed.preSynch n b w) :=
  lock_eachProj hn hw (fun pid w _ => Lock.each (fun r => (w r).preSpace pid) w) (fun pid _ hw => Same.each fun i hi => (hw i hi).preSpace pid) (fun pid w _ => lock_preNet pid w) fun pid _ hw => hw.preNet pid

theorem lock_updateGhosts (w : Mixed.World S A P) : Lock n (fun i => updateGhosts n i (w i)) (Mixed.updateGhosts n w) :=
  Lock.bind (Lock.exchange "context.py:216" _ _ w) fun w _ => Lock.exchange "context.py:235" _ _ w

theorem lock_synchSpace (hn : 0 < n) {w : Mixed.World S A P} (hw : Same n k bs w) (pid : Nat) : Lock n (fun i => synchSpace n i pid (w i)) (Mixed.synchSpace n pid w) := by
  have hb : ∀ i < n, ((w i).spaces[pid]?).map (fun g => form g.sp) = bs[pid]? := fun i hi => by rw [← (hw i hi).spaces, List.getElem?_map]
  unfold Mixed.synchSpace
  cases e : bs[pid]? with
  | none =>
    have hg : ∀ i < n, (w i).spaces[pid]? = none := fun i hi => by
      have := hb i hi
      rw [e] at this
      exact Option.map_eq_none_iff.1 this
    rw [if_neg (by
      intro h
      have := List.all_eq_true.1 h 0 (List.mem_range.2 hn)
      rw [hg 0 hn] at this
      cases this)]
    refine .done fun i hi => ?_
    unfold synchSpace
    rw [hg i hi]
  | some q =>
    have hg : ∀ i < n, ∃ g, (w i).spaces[pid]? = some g ∧ Proj.bufSize g.sp = q.1 ∧ Kept.site g.sp = q.2 := fun i hi => by
      have := hb i hi
      rw [e] at this
      obtain ⟨g, h1, h2⟩ := Option.map_eq_some_iff.1 this
      exact ⟨g, h1, congrArg Prod.fst h2, congrArg Prod.snd h2⟩
    by_cases hq : q.1 > 0
    · rw [if_pos (by
        refine List.all_eq_true.2 fun i hi => ?_
        obtain ⟨g, h1, h2, -⟩ := hg i (List.mem_range.1 hi)
        rw [h1]
        exact decide_eq_true (by omega))]
      refine (Lock.exchange q.2 (fun c : Mx S A P => (c.bufferMsgs n pid).map fun l => (c, l)) (fun c m => c.bufferOne pid m) w).congr fun i hi => ?_
      obtain ⟨g, h1, h2, h3⟩ := hg i hi
      unfold synchSpace
      rw [h1]
      show (if Proj.bufSize g.sp > 0 then _ else _) = _
      rw [if_pos (by omega), h3]
    · rw [if_neg (by
        intro h
        have := List.all_eq_true.1 h 0 (List.mem_range.2 hn)
        obtain ⟨g, h1, h2, -⟩ := hg 0 hn
        rw [h1] at this
        have := of_decide_eq_true this
        omega)]
      refine .done fun i hi => ?_
      obtain ⟨g, h1, h2, h3⟩ := hg i hi
      unfold synchSpace
      rw [h1]
      show (if Proj.bufSize g.sp > 0 then _ else _) = _
      rw [if_neg (by omega)]

theorem lock_synchGhosts (hn : 0 < n) {w : Mixed.World S A P} (hw : Same n k bs w) (b : Bool) : Lock n (fun i => synchGhosts n i b (w i)) (Mixed.synchGhosts n b w) :=
  Lock.bind (lock_updateGhosts w) fun w1 e => lock_eachProj hn (hw.updateGhosts w1 e) (fun pid _ hw => lock_synchSpace hn hw pid) (fun pid _ hw => hw.synchSpace pid)
    (fun pid w _ => lock_onNets w (Net.lock_synchNet pid _)) fun pid _ hw => hw.onNets fun _ hx => hx.synchNet pid

theorem lock_afterMoved (hn : 0 < n) {w : Mixed.World S A P} (hw : Same n k bs w) : Lock n (fun i => afterMoved n i (w i)) (Mixed.afterMoved n w) :=
  Lock.bind (lock_eachNet hn hw (fun pid w _ => lock_onNets w (Net.lock_postMoved pid _)) fun pid _ hw => hw.onNets fun _ hx => hx.postMoved pid) fun w1 e1 =>
    lock_eachNet hn ((hw.eachNet fun pid _ hw => hw.onNets fun _ hx => hx.postMoved pid) w1 e1)
      (fun pid w hw => Lock.bind (lock_preNet pid w) fun w2 e2 => Lock.bind (lock_updateGhosts w2) fun w3 e3 =>
        lock_eachNet hn ((hw.preNet pid w2 e2).updateGhosts w3 e3) (fun j w _ => lock_onNets w (Net.lock_synchNet j _)) fun j _ hw => hw.onNets fun _ hx => hx.synchNet j)
      fun pid _ hw => (hw.preNet pid).bind fun _ hw => hw.updateGhosts.bind fun _ hw => hw.eachNet fun j _ hw => hw.onNets fun _ hx => hx.synchNet j

/-- What `moveOob` amounts to. -/
def wmoveOob (n : Nat) (w : Mixed.World S A P) : Option (Nat → Mx S A P × Bool) :=
  (Mixed.moveOob n w).bind fun x =>
    (if !(List.range n).all fun r => (x.2.2 r).isEmpty then
      (Mixed.eachNet (fun pid => Mixed.onNets (Network.agentsMoved n x.2.2 pid)) x.1).bind fun w => Mixed.each n (fun r => (w r).deleteGhosts (x.2.1 r)) w
     else some x.1).map fun w r => (w r, !(List.range n).all fun r => (x.2.2 r).isEmpty)

theorem lock_moveOob (hn : 0 < n) {w : Mixed.World S A P} (hw : Same n k bs w) : Lock n (fun i => moveOob n i (w i)) (wmoveOob n w) := by
  unfold wmoveOob Mixed.moveOob
  simp only
  let F : Nat → Option (Mx S A P × List (Nat × OobMsg S Q) × List (Nat × Nat)) := fun r => (w r).gatherOob n
  have ha : ∀ j < n, oobOut (((List.range n).map F)[j]?.bind id) = oobOut (F j) := fun j hj => by rw [at_range F hj]
  have hl : ∀ j < n, oobLeft (((List.range n).map F)[j]?.bind id) = oobLeft (F j) := fun j hj => by rw [at_range F hj]
  rw [show Mixed.each n (fun r => (((List.range n).map F)[r]?.bind id).map (·.1)) w = eachOf n (fun r => (F r).map (·.1)) w from eachOf_congr (fun i hi => by rw [at_range F hi]) w,
    Option.bind_assoc]
  refine Lock.split (F := F) (out := fun r => (oobOut (F r), oobLeft (F r))) (fun i hi x e => by rw [e]; rfl) fun w1 h1 => ?_
  have hw1 : Same n k bs w1 := fun i hi => (hw i hi).gatherOob n _ (h1 i hi)
  refine Lock.called ?_
  let G : Nat → Option (Mx S A P × List Nat) := fun r => ((recv n (fun s => oobOut (((List.range n).map F)[s]?.bind id)) r).map (·.2)).foldlM Mx.processOne (w1 r, ([] : List Nat))
  let left : Nat → List (Nat × Nat) := fun r => oobLeft (((List.range n).map F)[r]?.bind id)
  let K : Mixed.World S A P → Option (Nat → Mx S A P × Bool) := fun w =>
    (if !(List.range n).all fun r => (left r).isEmpty then
      (Mixed.eachNet (fun pid => Mixed.onNets (Network.agentsMoved n left pid)) w).bind fun w => Mixed.each n (fun r => (w r).deleteGhosts (sent (((List.range n).map G)[r]?.bind id))) w
     else some w).map fun w r => (w r, !(List.range n).all fun r => (left r).isEmpty)
  show Lock n _ (((eachOf n (fun r => (((List.range n).map G)[r]?.bind id).map (·.1)) w1).map fun w => (w, _, _)).bind _)
  rw [Option.bind_map]
  show Lock n _ ((eachOf n (fun r => (((List.range n).map G)[r]?.bind id).map (·.1)) w1).bind K)
  rw [eachOf_congr (fun i hi => by rw [at_range G hi]) w1]
  refine Lock.congr (Lock.split (F := G) (k := fun r y => (Prog.call "context.py:475" (oobLeft (F r))).bind fun l =>
      (if Net.anyMoved l then (eachNet (fun pid => onNc (Net.agentsMoved n r l pid)) y.1).bind fun c => Prog.lift (c.deleteGhosts y.2) else .ret y.1).bind fun c => .ret (c, Net.anyMoved l))
      (out := fun r => sent (G r)) (fun i hi x e => by rw [e]; rfl) fun w2 h2 => ?_) fun i hi => ?_
  · have hw2 : Same n k bs w2 := fun i hi => (All.foldlM (p := fun x : Mx S A P × List Nat => HasM k bs x.1) (fun _ _ ha => HasM.processOne ha _) _ _ (hw1 i hi)) _ (h2 i hi)
    refine Lock.called ?_
    have el : (List.range n).map (fun r => oobLeft (F r)) = (List.range n).map left := List.map_congr_left fun i hi => (hl i (List.mem_range.1 hi)).symm
    have e : Net.anyMoved ((List.range n).map left) = !(List.range n).all (fun r => (left r).isEmpty) := by
      unfold Net.anyMoved
      rw [List.all_map]; rfl
    rw [el, e]
    show Lock n _ (K w2)
    show Lock n _ (Option.map _ (if _ then _ else _))
    refine Lock.bind_ret (g := fun _ c => (c, !(List.range n).all fun r => (left r).isEmpty)) (o' := fun w r => (w r, !(List.range n).all fun r => (left r).isEmpty)) ?_ fun _ _ _ _ => rfl
    cases (List.range n).all (fun r => (left r).isEmpty) with
    | true => exact .done fun _ _ => rfl
    | false =>
      refine Lock.bind (lock_eachNet hn hw2 (fun pid w _ => lock_onNets w (Net.lock_agentsMoved left pid _)) fun pid _ hw => hw.onNets fun _ hx => hx.agentsMoved _ pid) fun w3 e3 => ?_
      exact (Lock.each (fun r => (w3 r).deleteGhosts (sent (((List.range n).map G)[r]?.bind id))) w3).congr fun i hi => by rw [at_range G hi]
  · rw [delivered_map (fun j => oobOut (F j)), ← recv_congr ha]

theorem synchronize_eq (b g : Bool) (w : Mixed.World S A P) (hn : 0 < n) : Mixed.synchronize n b g w =
    (if g then Mixed.preSynch n b w else some w).bind fun w => (wmoveOob n w).bind fun y =>
      (if g then Mixed.synchGhosts n b (fun r => (y r).1) else some fun r => (y r).1).bind fun w => if (y 0).2 then Mixed.afterMoved n w else some w := by
  unfold Mixed.synchronize wmoveOob
  congr 1
  funext w
  rw [Option.bind_assoc]
  congr 1
  funext x
  rw [Option.bind_map]
  rfl

theorem wmoveOob_same {w : Mixed.World S A P} (hw : Same n k bs w) : All (fun y => Same n k bs (fun r => (y r).1) ∧ ∀ i j, (y i).2 = (y j).2) (wmoveOob n w) :=
  hw.moveOob.bind fun x hx =>
    (All.ite ((Same.eachNet hx fun pid _ hw => hw.onNets fun _ hx => hx.agentsMoved _ pid).bind fun _ hw => Same.each fun i hi => (hw i hi).deleteGhosts _) (All.some hx) : All (Same n k bs) _).map
      fun _ hw => ⟨hw, fun _ _ => rfl⟩

theorem lock_synchronize (hn : 0 < n) {w : Mixed.World S A P} (hw : Same n k bs w) (b g : Bool) : Lock n (fun i => synchronize n i b g (w i)) (Mixed.synchronize n b g w) := by
  rw [synchronize_eq b g w hn]
  refine Lock.bind ?_ fun w1 e1 => ?_
  · cases g with
    | true => exact lock_preSynch hn hw b
    | false => exact .done fun _ _ => rfl
  have hw1 : Same n k bs w1 := (All.ite (hw.preSynch b) (All.some hw) : All (Same n k bs) _) w1 e1
  refine Lock.bind (lock_moveOob hn hw1) fun y ey => ?_
  obtain ⟨hy, hs⟩ := wmoveOob_same hw1 y ey
  refine Lock.bind ?_ fun w2 e2 => ?_
  · cases g with
    | true => exact lock_synchGhosts hn hy b
    | false => exact .done fun _ _ => rfl
  have hw2 : Same n k bs w2 := (All.ite (hy.synchGhosts b) (All.some hy) : All (Same n k bs) _) w2 e2
  refine Lock.congr (ps := fun i => if (y 0).2 then afterMoved n i (w2 i) else .ret (w2 i)) ?_ fun i _ => by rw [hs i 0]
  cases (y 0).2 with
  | true => exact lock_afterMoved hn hw2
  | false => exact .done fun _ _ => rfl

theorem lock_requestAgents (rs : Nat → List (Nat × Nat)) (w : Mixed.World S A P) : Lock n (fun i => requestAgents n i (rs i) (w i)) (Mixed.requestAgents n rs w) := by
  unfold Mixed.requestAgents
  simp only
  let F : Nat → Option (Mx S A P × List (Nat × Nat)) := fun r => (rs r).foldlM (Mx.sendRequest n) (w r, ([] : List (Nat × Nat)))
  have ha : ∀ j < n, sent (((List.range n).map F)[j]?.bind id) = sent (F j) := fun j hj => by rw [at_range F hj]
  rw [show Mixed.each n (fun r => (((List.range n).map F)[r]?.bind id).map (·.1)) w = eachOf n (fun r => (F r).map (·.1)) w from eachOf_congr (fun i hi => by rw [at_range F hi]) w]
  refine Lock.split (F := F) (out := fun r => sent (F r)) (fun i hi x e => by rw [e]; rfl) fun w1 _ => ?_
  refine Lock.called ?_
  let G : Nat → Option (Mx S A P × List (Nat × Nat × S)) := fun r => (recv n (fun s => sent (((List.range n).map F)[s]?.bind id)) r).foldlM Mx.answer (w1 r, ([] : List (Nat × Nat × S)))
  have hb : ∀ j < n, sent (((List.range n).map G)[j]?.bind id) = sent (G j) := fun j hj => by rw [at_range G hj]
  rw [show Mixed.each n (fun r => (((List.range n).map G)[r]?.bind id).map (·.1)) w1 = eachOf n (fun r => (G r).map (·.1)) w1 from eachOf_congr (fun i hi => by rw [at_range G hi]) w1]
  refine Lock.congr (Lock.split (F := G) (k := fun i y => (Prog.call "context.py:463" y.2).bind fun l => Prog.lift ((delivered n i l).foldlM Mx.recvRequested y.1)) (out := fun r => sent (G r))
    (fun i hi x e => by rw [e]; rfl) fun w2 _ => ?_) fun i hi => ?_
  · refine Lock.called ?_
    refine (Lock.each (fun r => (recv n (fun s => sent (((List.range n).map G)[s]?.bind id)) r).foldlM Mx.recvRequested (w2 r)) w2).congr fun i hi => ?_
    rw [delivered_map (fun j => sent (G j)), recv_congr hb]
  · rw [delivered_map (fun j => sent (F j)), ← recv_congr ha]

/-- `Mixed.moveOob` of `move_agents`. -/
theorem lock_oob {w : Mixed.World S A P} : Lock n (fun i => (Prog.lift ((w i).gatherOob n)).bind fun x => (Prog.call "context.py:543" x.2.1).bind fun l =>
    (Prog.lift (((delivered n i l).map (·.2)).foldlM Mx.processOne (x.1, ([] : List Nat)))).bind fun y => .ret y.1) ((Mixed.moveOob n w).map (·.1)) := by
  unfold Mixed.moveOob
  simp only
  let F : Nat → Option (Mx S A P × List (Nat × OobMsg S Q) × List (Nat × Nat)) := fun r => (w r).gatherOob n
  have ha : ∀ j < n, oobOut (((List.range n).map F)[j]?.bind id) = oobOut (F j) := fun j hj => by rw [at_range F hj]
  rw [show Mixed.each n (fun r => (((List.range n).map F)[r]?.bind id).map (·.1)) w = eachOf n (fun r => (F r).map (·.1)) w from eachOf_congr (fun i hi => by rw [at_range F hi]) w,
    Option.map_bind]
  refine Lock.split (F := F) (out := fun r => (oobOut (F r), oobLeft (F r))) (fun i hi x e => by rw [e]; rfl) fun w1 h1 => ?_
  refine Lock.called ?_
  let G : Nat → Option (Mx S A P × List Nat) := fun r => ((recv n (fun s => oobOut (((List.range n).map F)[s]?.bind id)) r).map (·.2)).foldlM Mx.processOne (w1 r, ([] : List Nat))
  show Lock n _ (((eachOf n (fun r => (((List.range n).map G)[r]?.bind id).map (·.1)) w1).map fun w => (w, _, _)).map _)
  rw [Option.map_map]
  show Lock n _ ((eachOf n (fun r => (((List.range n).map G)[r]?.bind id).map (·.1)) w1).map fun w => w)
  rw [eachOf_congr (fun i hi => by rw [at_range G hi]) w1, Option.map_id']
  refine (Lock.each (fun r => (G r).map (·.1)) w1).congr fun i hi => ?_
  rw [delivered_map (fun j => oobOut (F j)), ← recv_congr ha]
  show (Prog.lift (G i)).bind _ = _
  cases G i <;> rfl

theorem lock_moveAgents (hn : 0 < n) {w : Mixed.World S A P} (hw : Same n k bs w) (b : Bool) (ms : Nat → List (Nat × Nat)) : Lock n (fun i => moveAgents n i b (ms i) (w i)) (Mixed.moveAgents n b ms w) := by
  unfold Mixed.moveAgents
  simp only
  let F : Nat → Option (Mx S A P × List (Nat × Nat × S × Option (Dict Int))) := fun r => (ms r).foldlM (Mx.sendAway n) (w r, ([] : List (Nat × Nat × S × Option (Dict Int))))
  have ha : ∀ j < n, sent (((List.range n).map F)[j]?.bind id) = sent (F j) := fun j hj => by rw [at_range F hj]
  rw [show Mixed.each n (fun r => (((List.range n).map F)[r]?.bind id).map (·.1)) w = eachOf n (fun r => (F r).map (·.1)) w from eachOf_congr (fun i hi => by rw [at_range F hi]) w]
  refine Lock.split (F := F) (out := fun r => sent (F r)) (fun i hi x e => by rw [e]; rfl) fun w1 h1 => ?_
  have hw1 : Same n k bs w1 := fun i hi => (All.foldlM (p := fun x : Mx S A P × List (Nat × Nat × S × Option (Dict Int)) => HasM k bs x.1) (fun _ _ ha => HasM.sendAway ha _ _) _ _ (hw i hi)) _ (h1 i hi)
  refine Lock.called ?_
  let G : Nat → Option (Mx S A P × List Nat) := fun r => ((recv n (fun s => sent (((List.range n).map F)[s]?.bind id)) r).map (·.2)).foldlM Mx.arriveOne (w1 r, ([] : List Nat))
  rw [show Mixed.each n (fun r => (((List.range n).map G)[r]?.bind id).map (·.1)) w1 = eachOf n (fun r => (G r).map (·.1)) w1 from eachOf_congr (fun i hi => by rw [at_range G hi]) w1]
  refine Lock.congr (Lock.split (F := G) (k := fun r y => (Prog.call "context.py:475" (ms r)).bind fun l =>
      (if Net.anyMoved l then eachNet (fun pid => onNc (Net.agentsMoved n r l pid)) y.1 else .ret y.1).bind fun c =>
        (Prog.lift (c.deleteGhosts y.2)).bind fun c => (preSynch n r b c).bind fun c =>
          ((Prog.lift (c.gatherOob n)).bind fun x => (Prog.call "context.py:543" x.2.1).bind fun l =>
            (Prog.lift (((delivered n r l).map (·.2)).foldlM Mx.processOne (x.1, ([] : List Nat)))).bind fun y =>
              (synchGhosts n r b y.1).bind fun c => eachNet (fun pid => onNc (Net.postMoved n r pid)) c)) (out := fun r => sent (G r)) (fun i hi x e => by rw [e]; rfl) fun w2 h2 => ?_) fun i hi => ?_
  · have hw2 : Same n k bs w2 := fun i hi => (All.foldlM (p := fun x : Mx S A P × List Nat => HasM k bs x.1) (fun _ _ ha => HasM.arriveOne ha _) _ _ (hw1 i hi)) _ (h2 i hi)
    refine Lock.called ?_
    refine Lock.bind (o := if (List.range n).all (fun r => (ms r).isEmpty) then some w2 else Mixed.eachNet (fun pid => Mixed.onNets (Network.agentsMoved n ms pid)) w2) ?_ fun w3 e3 => ?_
    · have e : Net.anyMoved ((List.range n).map ms) = !(List.range n).all (fun r => (ms r).isEmpty) := by
        unfold Net.anyMoved
        rw [List.all_map]; rfl
      rw [e]
      cases (List.range n).all (fun r => (ms r).isEmpty) with
      | true => exact .done fun _ _ => rfl
      | false => exact lock_eachNet hn hw2 (fun pid w _ => lock_onNets w (Net.lock_agentsMoved ms pid _)) fun pid _ hw => hw.onNets fun _ hx => hx.agentsMoved _ pid
    · have hw3 : Same n k bs w3 := (All.ite (All.some hw2) (hw2.eachNet fun pid _ hw => hw.onNets fun _ hx => hx.agentsMoved _ pid) : All (Same n k bs) _) w3 e3
      refine Lock.bind ((Lock.each (fun r => (w3 r).deleteGhosts (sent (((List.range n).map G)[r]?.bind id))) w3).congr fun i hi => by rw [at_range G hi]) fun w4 e4 => ?_
      have hw4 : Same n k bs w4 := (Same.each fun i hi => (hw3 i hi).deleteGhosts _) w4 e4
      refine Lock.bind (lock_preSynch hn hw4 b) fun w5 e5 => ?_
      have hw5 := (hw4.preSynch b) w5 e5
      have h6 : ((Mixed.moveOob n w5).bind fun x => (Mixed.synchGhosts n b x.1).bind fun w => Mixed.eachNet (fun pid => Mixed.onNets (Network.postMoved n pid)) w) =
          ((Mixed.moveOob n w5).map (·.1)).bind fun w => (Mixed.synchGhosts n b w).bind fun w => Mixed.eachNet (fun pid => Mixed.onNets (Network.postMoved n pid)) w := by
        rw [Option.bind_map]; rfl
      rw [h6]
      refine Lock.congr (Lock.bind (lock_oob (w := w5)) (q := fun r c => (synchGhosts n r b c).bind fun c => eachNet (fun pid => onNc (Net.postMoved n r pid)) c) fun w6 e6 => ?_) fun i hi => ?_
      · have hw6 : Same n k bs w6 := by
          obtain ⟨x, ex, rfl⟩ := Option.map_eq_some_iff.1 e6
          exact hw5.moveOob x ex
        exact Lock.bind (lock_synchGhosts hn hw6 b) fun w7 e7 => lock_eachNet hn (hw6.synchGhosts b w7 e7) (fun pid w _ => lock_onNets w (Net.lock_postMoved pid _)) fun pid _ hw => hw.onNets fun _ hx => hx.postMoved pid
      · cases (w5 i).gatherOob n with
        | none => rfl
        | some x =>
          show Prog.coll _ _ _ _ = Prog.coll _ _ _ _
          congr 1
          funext l
          show (Prog.lift _).bind _ = ((Prog.lift _).bind _).bind _
          cases ((delivered n i l).map (·.2)).foldlM Mx.processOne (x.1, ([] : List Nat)) <;> rfl
  · rw [delivered_map (fun j => sent (F j)), ← recv_congr ha]


variable {b : Bool}

/-! ### Models -/

/-- A turn of all ranks, one rank after the other. -/
def wturn (n : Nat) (b : Bool) (t : Turn S A Q P) (w : Mixed.World S A P) : Option (Mixed.World S A P) :=
  match t with
  | .own f => eachOf n (fun r => (f r (w r)).foldlM Act.run (w r)) w
  | .request rs => Mixed.requestAgents n (fun r => rs r (w r)) w
  | .move ms => Mixed.moveAgents n b (fun r => ms r (w r)) w
  | .synch g => Mixed.synchronize n b g w

/-- The same turn as operations of a history. -/
def Turn.ops (n : Nat) (t : Turn S A Q P) (w : Mixed.World S A P) : List (WOp S A Q) :=
  match t with
  | .own f => (List.range n).flatMap fun r => (f r (w r)).map (Act.of r)
  | .request rs => [.request fun r => rs r (w r)]
  | .move ms => [.move fun r => ms r (w r)]
  | .synch g => [.synch g]

theorem HasM.act {c : Mx S A P} (h : HasM k bs c) (a : Act S A Q) : All (HasM k bs) (Act.run c a) := by
  cases a with
  | add u s => exact All.some (h.add u s)
  | remove u => exact h.remove u
  | setState u s => exact h.onNet fun _ hx => hx.setState u s
  | gmove pid u pt => exact h.gmove pid u pt
  | addEdge pid u v a => exact h.onNet fun _ hx => hx.addEdge pid u v a
  | updateEdge pid u v a => exact h.onNet fun _ hx => hx.updateEdge pid u v a
  | removeEdge pid u v => exact h.onNet fun _ hx => hx.removeEdge pid u v
  | clearEdges pid => exact h.onNet fun _ hx => hx.clearEdges pid

theorem Same.wturn {w : Mixed.World S A P} (hw : Same n k bs w) (b : Bool) (t : Turn S A Q P) : All (Same n k bs) (wturn n b t w) := by
  cases t with
  | own f => exact Same.each fun i hi => All.foldlM (fun c a hc => HasM.act hc a) _ _ (hw i hi)
  | request rs => exact hw.requestAgents _
  | move ms => exact hw.moveAgents b _
  | synch g => exact hw.synchronize b g

theorem lock_turn (hn : 0 < n) {w : Mixed.World S A P} (hw : Same n k bs w) (b : Bool) (t : Turn S A Q P) : Lock n (fun i => turn n i b t (w i)) (wturn n b t w) := by
  cases t with
  | own f => exact Lock.each _ w
  | request rs => exact lock_requestAgents (fun r => rs r (w r)) w
  | move ms => exact lock_moveAgents hn hw b fun r => ms r (w r)
  | synch g => exact lock_synchronize hn hw b g

theorem lock_script (hn : 0 < n) {w : Mixed.World S A P} (hw : Same n k bs w) (b : Bool) (ts : List (Turn S A Q P)) : Lock n (fun i => script n i b ts (w i)) (ts.foldlM (fun w t => wturn n b t w) w) :=
  Lock.forM (Same n k bs) (fun t w hw => lock_turn hn hw b t) (fun t w w' hw e => hw.wturn b t w' e) ts w hw

theorem wstep_of (r : Nat) (a : Act S A Q) (w : Mixed.World S A P) : wstep n b w (a.of r) = at_ n r (fun c => Act.run c a) w := by cases a <;> rfl

/-- What one rank does by itself. -/
theorem wrun_rank {r : Nat} (hr : r < n) (as : List (Act S A Q)) (w : Mixed.World S A P) {c : Mx S A P} (h : as.foldlM Act.run (w r) = some c) :
    wrun n b w (as.map (Act.of r)) = some (fun i => if i = r then c else w i) := by
  induction as generalizing w with
  | nil =>
    rw [List.foldlM_nil] at h
    cases h
    show some w = _
    congr 1
    funext i
    split <;> simp_all
  | cons a as ih =>
    rw [List.foldlM_cons, Option.bind_eq_bind] at h
    obtain ⟨c', e, h⟩ := Option.bind_eq_some_iff.1 h
    have hs : wstep n b w (a.of r) = some (fun i => if i = r then c' else w i) := by
      rw [wstep_of]
      unfold at_
      rw [if_pos hr]
      show (Act.run (w r) a).map _ = _
      rw [e]; rfl
    show ((a.of r) :: as.map (Act.of r)).foldlM (wstep n b) w = _
    rw [List.foldlM_cons, Option.bind_eq_bind, hs]
    show wrun n b _ (as.map (Act.of r)) = _
    rw [ih (fun i => if i = r then c' else w i) (by simpa using h)]
    congr 1
    funext i
    split <;> simp_all

theorem wrun_own (f : Nat → Mx S A P → List (Act S A Q)) (w w' : Mixed.World S A P) (h : ∀ i < n, (f i (w i)).foldlM Act.run (w i) = some (w' i)) :
    ∀ m, m ≤ n → wrun n b w ((List.range m).flatMap fun r => (f r (w r)).map (Act.of r)) = some (fun i => if i < m then w' i else w i) := by
  intro m
  induction m with
  | zero => intro _; rfl
  | succ m ih =>
    intro hm
    rw [List.range_succ, List.flatMap_append]
    show ((_ ++ _ : List (WOp S A Q)).foldlM (wstep n b) w) = _
    rw [List.foldlM_append, Option.bind_eq_bind]
    show (wrun n b w _).bind _ = _
    rw [ih (by omega), Option.bind_some, List.flatMap_cons, List.flatMap_nil, List.append_nil]
    show wrun n b _ _ = _
    rw [wrun_rank (r := m) (c := w' m) (by omega) (f m (w m)) (fun i => if i < m then w' i else w i) (by simpa using h m (by omega))]
    congr 1
    funext i
    by_cases h1 : i = m
    · subst h1; simp
    · by_cases h2 : i < m
      · simp [h1, h2, show i < m + 1 by omega]
      · simp [h1, h2, show ¬ i < m + 1 by omega]

theorem wrun_turn (t : Turn S A Q P) {w w' : Mixed.World S A P} (h : wturn n b t w = some w') : wrun n b w (t.ops n w) = some w' := by
  have one : ∀ o : WOp S A Q, wstep n b w o = some w' → wrun n b w [o] = some w' := by
    intro o h
    show [o].foldlM (wstep n b) w = _
    rw [List.foldlM_cons, h]; rfl
  cases t with
  | own f =>
    have := wrun_own (b := b) f w w' (eachOf_some h) n (Nat.le_refl n)
    show wrun n b w ((List.range n).flatMap fun r => (f r (w r)).map (Act.of r)) = _
    rw [this]
    congr 1
    funext i
    by_cases hi : i < n
    · rw [if_pos hi]
    · rw [if_neg hi, Net.eachOf_out h hi]
  | request rs => exact one _ h
  | move ms => exact one _ h
  | synch g => exact one _ h

theorem wrun_append (w : Mixed.World S A P) (l l' : List (WOp S A Q)) : wrun n b w (l ++ l') = (wrun n b w l).bind fun w => wrun n b w l' := by
  show (l ++ l').foldlM (wstep n b) w = _
  rw [List.foldlM_append]; rfl

theorem wrun_rank_none {r : Nat} (hr : r < n) (as : List (Act S A Q)) (w : Mixed.World S A P) (h : as.foldlM Act.run (w r) = none) : wrun n b w (as.map (Act.of r)) = none := by
  induction as generalizing w with
  | nil => cases h
  | cons a as ih =>
    rw [List.foldlM_cons, Option.bind_eq_bind] at h
    show ((a.of r) :: as.map (Act.of r)).foldlM (wstep n b) w = _
    rw [List.foldlM_cons, Option.bind_eq_bind, wstep_of]
    unfold at_
    rw [if_pos hr]
    show ((Act.run (w r) a).map _).bind _ = none
    cases e : Act.run (w r) a with
    | none => rfl
    | some c =>
      rw [e] at h
      exact ih (fun k => if k = r then c else w k) (by simpa using h)

theorem wrun_own_some (f : Nat → Mx S A P → List (Act S A Q)) (w : Mixed.World S A P) :
    ∀ m, m ≤ n → ∀ u, wrun n b w ((List.range m).flatMap fun r => (f r (w r)).map (Act.of r)) = some u → (∀ i < m, (f i (w i)).foldlM Act.run (w i) = some (u i)) ∧ ∀ i, m ≤ i → u i = w i := by
  intro m
  induction m with
  | zero => intro _ u h; cases h; exact ⟨by omega, fun _ _ => rfl⟩
  | succ m ih =>
    intro hm u h
    rw [List.range_succ, List.flatMap_append, wrun_append] at h
    obtain ⟨v, h1, h2⟩ := Option.bind_eq_some_iff.1 h
    obtain ⟨h3, h4⟩ := ih (by omega) v h1
    rw [List.flatMap_cons, List.flatMap_nil, List.append_nil] at h2
    have e : v m = w m := h4 m (Nat.le_refl m)
    cases ec : (f m (w m)).foldlM Act.run (v m) with
    | none => rw [wrun_rank_none (by omega) _ v ec] at h2; cases h2
    | some c =>
      rw [wrun_rank (by omega) _ v ec] at h2
      cases h2
      refine ⟨fun i hi => ?_, fun i hi => ?_⟩
      · by_cases him : i = m
        · subst him; simp only [if_true]; rw [← e]; rw [e] at ec ⊢; exact ec
        · simp only [him, if_false]; exact h3 i (by omega)
      · simp only [show i ≠ m by omega, if_false]; exact h4 i (by omega)

theorem wrun_turn_none (t : Turn S A Q P) {w : Mixed.World S A P} (h : wturn n b t w = none) : wrun n b w (t.ops n w) = none := by
  have one : ∀ o : WOp S A Q, wstep n b w o = none → wrun n b w [o] = none := by
    intro o h
    show [o].foldlM (wstep n b) w = _
    rw [List.foldlM_cons, h]; rfl
  cases t with
  | own f =>
    obtain ⟨i, hi, he⟩ := eachOf_none h
    cases e : wrun n b w ((Turn.own f).ops n w) with
    | none => rfl
    | some u =>
      have := (wrun_own_some f w n (Nat.le_refl n) u e).1 i hi
      rw [he] at this
      cases this
  | request rs => exact one _ h
  | move ms => exact one _ h
  | synch g => exact one _ h

/-- `ops` are what the ranks do in the turns `ts`, one rank after the other: as far as none of them raises an exception, and then until one does. -/
inductive Follows (n : Nat) (b : Bool) : Mixed.World S A P → List (Turn S A Q P) → List (WOp S A Q) → Prop
  | nil (w : Mixed.World S A P) : Follows n b w [] []
  | cons {w w' : Mixed.World S A P} {t : Turn S A Q P} {ts : List (Turn S A Q P)} {ops : List (WOp S A Q)} : wrun n b w (t.ops n w) = some w' → Follows n b w' ts ops → Follows n b w (t :: ts) (t.ops n w ++ ops)
  | raises {w : Mixed.World S A P} {t : Turn S A Q P} {ts : List (Turn S A Q P)} : wrun n b w (t.ops n w) = none → Follows n b w (t :: ts) (t.ops n w)

/-- The turns are a history. -/
theorem wrun_turns (ts : List (Turn S A Q P)) : ∀ w : Mixed.World S A P, ∃ ops, Follows n b w ts ops ∧ wrun n b w ops = ts.foldlM (fun w t => wturn n b t w) w := by
  induction ts with
  | nil => intro w; exact ⟨[], .nil w, rfl⟩
  | cons t ts ih =>
    intro w
    rw [List.foldlM_cons, Option.bind_eq_bind]
    cases h : wturn n b t w with
    | none => exact ⟨_, .raises (wrun_turn_none t h), wrun_turn_none t h⟩
    | some w1 =>
      obtain ⟨ops, h2, h3⟩ := ih w1
      refine ⟨_, .cons (wrun_turn t h) h2, ?_⟩
      rw [wrun_append, wrun_turn t h]
      exact h3

/-! ### Histories -/

/-- The rank that does an operation by itself. -/
def rankOf : WOp S A Q → Option Nat
  | .add r _ _ | .remove r _ | .setState r _ _ | .gmove r _ _ _ | .addEdge r _ _ _ _ | .updateEdge r _ _ _ _ | .removeEdge r _ _ _ | .clearEdges r _ => some r
  | .request _ | .move _ | .synch _ => none

/-- What rank `r` does of an operation of a history: all of it, its part of a collective function, or nothing. -/
def part (n r : Nat) (b : Bool) (o : WOp S A Q) (c : Mx S A P) : Prog (Mx S A P) :=
  match o with
  | .add q u s => if q = r then .ret (c.add u s) else .ret c
  | .remove q u => if q = r then Prog.lift (c.remove u) else .ret c
  | .setState q u s => if q = r then Prog.lift (c.onNet fun x => x.setState u s) else .ret c
  | .gmove q pid u pt => if q = r then Prog.lift (c.gmove pid u pt) else .ret c
  | .addEdge q pid u v a => if q = r then Prog.lift (c.onNet fun x => x.addEdge pid u v a) else .ret c
  | .updateEdge q pid u v a => if q = r then Prog.lift (c.onNet fun x => x.updateEdge pid u v a) else .ret c
  | .removeEdge q pid u v => if q = r then Prog.lift (c.onNet fun x => x.removeEdge pid u v) else .ret c
  | .clearEdges q pid => if q = r then Prog.lift (c.onNet fun x => x.clearEdges pid) else .ret c
  | .request rs => requestAgents n r (rs r) c
  | .move ms => moveAgents n r b (ms r) c
  | .synch g => synchronize n r b g c

/-- What rank `r` does of a history. -/
def parts (n r : Nat) (b : Bool) (ops : List (WOp S A Q)) (c : Mx S A P) : Prog (Mx S A P) := Prog.forM (part n r b) ops c

theorem lock_at {q : Nat} (hq : q < n) (f : Mx S A P → Option (Mx S A P)) (w : Mixed.World S A P) : Lock n (fun i => if q = i then Prog.lift (f (w i)) else .ret (w i)) (at_ n q f w) := by
  unfold at_
  rw [if_pos hq]
  cases e : f (w q) with
  | none => exact .raised ⟨q, hq, by rw [if_pos rfl, e]; rfl⟩
  | some c =>
    refine .done fun i _ => ?_
    show _ = Prog.ret (if i = q then c else w i)
    by_cases h : q = i
    · subst h; rw [if_pos rfl, if_pos rfl, e]; rfl
    · rw [if_neg h, if_neg (Ne.symm h)]

theorem lock_part (hn : 0 < n) {w : Mixed.World S A P} (hw : Same n k bs w) (o : WOp S A Q) (ho : ∀ q, rankOf o = some q → q < n) : Lock n (fun i => part n i b o (w i)) (wstep n b w o) := by
  cases o with
  | add q u s => exact lock_at (ho q rfl) (fun c => some (c.add u s)) w
  | remove q u => exact lock_at (ho q rfl) (fun c => c.remove u) w
  | setState q u s => exact lock_at (ho q rfl) (fun c => c.onNet fun x => x.setState u s) w
  | gmove q pid u pt => exact lock_at (ho q rfl) (fun c => c.gmove pid u pt) w
  | addEdge q pid u v a => exact lock_at (ho q rfl) (fun c => c.onNet fun x => x.addEdge pid u v a) w
  | updateEdge q pid u v a => exact lock_at (ho q rfl) (fun c => c.onNet fun x => x.updateEdge pid u v a) w
  | removeEdge q pid u v => exact lock_at (ho q rfl) (fun c => c.onNet fun x => x.removeEdge pid u v) w
  | clearEdges q pid => exact lock_at (ho q rfl) (fun c => c.onNet fun x => x.clearEdges pid) w
  | request rs => exact lock_requestAgents rs w
  | move ms => exact lock_moveAgents hn hw b ms
  | synch g => exact lock_synchronize hn hw b g

theorem Same.at_ {w : Mixed.World S A P} (hw : Same n k bs w) (q : Nat) {f : Mx S A P → Option (Mx S A P)} (hf : ∀ c, HasM k bs c → All (HasM k bs) (f c)) : All (Same n k bs) (at_ n q f w) := by
  unfold Mixed.at_
  by_cases hq : q < n
  · rw [if_pos hq]
    exact (hf _ (hw q hq)).map fun c hc i hi => by
      show HasM k bs (if i = q then c else w i)
      split
      · exact hc
      · exact hw i hi
  · rw [if_neg hq]; exact All.none

theorem Same.wstep {w : Mixed.World S A P} (hw : Same n k bs w) (o : WOp S A Q) : All (Same n k bs) (wstep n b w o) := by
  cases o with
  | add q u s => exact hw.at_ q fun c hc => All.some (hc.add u s)
  | remove q u => exact hw.at_ q fun c hc => hc.remove u
  | setState q u s => exact hw.at_ q fun c hc => hc.onNet fun _ hx => hx.setState u s
  | gmove q pid u pt => exact hw.at_ q fun c hc => hc.gmove pid u pt
  | addEdge q pid u v a => exact hw.at_ q fun c hc => hc.onNet fun _ hx => hx.addEdge pid u v a
  | updateEdge q pid u v a => exact hw.at_ q fun c hc => hc.onNet fun _ hx => hx.updateEdge pid u v a
  | removeEdge q pid u v => exact hw.at_ q fun c hc => hc.onNet fun _ hx => hx.removeEdge pid u v
  | clearEdges q pid => exact hw.at_ q fun c hc => hc.onNet fun _ hx => hx.clearEdges pid
  | request rs => exact hw.requestAgents _
  | move ms => exact hw.moveAgents b _
  | synch g => exact hw.synchronize b g

theorem lock_parts (hn : 0 < n) : ∀ (ops : List (WOp S A Q)) (w : Mixed.World S A P), Same n k bs w → (∀ o ∈ ops, ∀ q, rankOf o = some q → q < n) → Lock n (fun i => parts n i b ops (w i)) (wrun n b w ops) := by
  intro ops
  induction ops with
  | nil => intro w _ _; exact .done fun _ _ => rfl
  | cons o ops ih =>
    intro w hw ho
    show Lock n _ ((o :: ops).foldlM (wstep n b) w)
    rw [List.foldlM_cons, Option.bind_eq_bind]
    exact (lock_part hn hw o (ho o List.mem_cons_self)).bind fun w' e => ih w' (hw.wstep o w' e) fun o ho' => ho o (List.mem_cons_of_mem _ ho')

end Repast.Mpi.Mix
