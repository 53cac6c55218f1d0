import Verif.Network.Model

/-
Model of `SharedContext` (`/repo/src/repast4py/context.py`) for contexts with shared spaces and networks.

The agents, the ghosts and the networks of a rank are those of `Verif/Network/Model.lean`; the spaces are those of `Verif/Context/Model.lean`, shared grids or shared
continuous spaces. Whether the networks have been added to the context before the spaces, or the spaces before the networks, is a parameter: the code goes through the projections in
the order in which they were added (simplification: not in any other order).

Simplifications: as in these two models. A space refers to agents by their unique id, as the C++ code does; the state of an agent in a space is that of the local agent or of the
registered ghost with this unique id. The user refers to agents by their unique id: the local agent or else the registered ghost.
-/
namespace Repast.Mixed
open Repast.Dict Repast.Context Repast.Network

/-- The context of one rank: context.py:31-41. -/
structure Mx (S A P : Type) where
  /-- agent manager and networks -/
  nc : Network.Cx S A
  /-- the states of agent objects that were ghosts until a space dropped them -/
  kept : Obj → Option S
  /-- the spaces (`bounded_projs`) -/
  spaces : List (Shared P)

variable {S A P Q : Type} [Proj P Q]

/-- A new context with the given spaces and networks. -/
def Mx.start (rank : Nat) (ps : List P) (dirs : List Bool) : Mx S A P :=
  { nc := Network.Cx.init rank dirs ps.length, kept := fun _ => none, spaces := ps.map fun p => { sp := p, buffered := [] } }

/-- A call that only concerns the agents and networks. -/
def Mx.onNet (c : Mx S A P) (f : Network.Cx S A → Option (Network.Cx S A)) : Option (Mx S A P) := (f c.nc).map fun n => { c with nc := n }

/-- `proj.add(agent)` for each space -/
def Mx.spacesAdd (c : Mx S A P) (u : Nat) : Mx S A P := { c with spaces := c.spaces.map fun g => { g with sp := Proj.add c.nc.rank g.sp u } }

/-- `proj.remove(agent)` for each space -/
def Mx.spacesRemove (c : Mx S A P) (u : Nat) : Mx S A P := { c with spaces := c.spaces.map fun g => { g with sp := Proj.remove c.nc.rank g.sp u } }

/-- context.py:43-55 `add` of a new agent. -/
def Mx.add (c : Mx S A P) (u : Nat) (s : S) : Mx S A P := { c with nc := c.nc.add u s }.spacesAdd u

/-- context.py:115-128 `remove`. -/
def Mx.remove (c : Mx S A P) (u : Nat) : Option (Mx S A P) := (c.onNet fun n => n.remove u).map fun c => c.spacesRemove u

/-- A statement about the space `pid`. -/
def Mx.onSpace (c : Mx S A P) (pid : Nat) (f : Shared P → Option (Shared P)) : Option (Mx S A P) :=
  (c.spaces[pid]?).bind fun g => (f g).map fun g => { c with spaces := c.spaces.set pid g }

/-- `proj.remove(agent)` in the space `pid` -/
def Mx.spRemove (c : Mx S A P) (pid u : Nat) : Option (Mx S A P) := c.onSpace pid fun g => some { g with sp := Proj.remove c.nc.rank g.sp u }

/-- `proj.move(agent, pt)` in the space `pid`; an exception if it raises -/
def Mx.spMove (c : Mx S A P) (pid u : Nat) (pt : Q) : Option (Mx S A P) :=
  c.onSpace pid fun g => (Proj.move c.nc.rank g.sp u pt).map fun sp => { g with sp := sp }

/-- The user moves a local agent in the space `pid`. -/
def Mx.gmove (c : Mx S A P) (pid u : Nat) (pt : Q) : Option (Mx S A P) := (get c.nc.locals u).bind fun _ => c.spMove pid u pt

/-- core.py:238-251 `remove_ghost`, of a ghost that a space drops; the agent object keeps its state. -/
def Mx.removeGhost (c : Mx S A P) (u : Nat) : Option (Mx S A P) :=
  (c.nc.removeGhost u).map fun n =>
    { c with nc := n, kept := fun o => match get c.nc.ghosts u with | some g => if o = g.obj then some g.st else c.kept o | none => c.kept o }

/-- space.py:185-197, 348-363 `_pre_synch_ghosts` of the space `pid`. -/
def Mx.preSpace (c : Mx S A P) (pid : Nat) : Option (Mx S A P) :=
  (c.spaces[pid]?).bind fun g =>
    if Proj.bufSize g.sp > 0 then
      (g.buffered.foldlM (fun (c : Mx S A P) u => (c.spRemove pid u).bind fun c => c.removeGhost u) c).bind fun c =>
        c.onSpace pid fun g => some { g with buffered := [] }
    else some c

/-- network.py:434-441: one agent of `ghosts_to_ref`. A ghost that is not registered any more is registered again; its state is that of the object. -/
def Mx.refOne (n pid : Nat) (acc : Mx S A P × List (Nat × Nat)) (o : Obj) : Option (Mx S A P × List (Nat × Nat)) :=
  (acc.1.nc.nets[pid]?).bind fun N =>
    if o ∈ N.g.nodes then
      (match get acc.1.nc.ghosts o.uid with
        | some _ => some (acc.1.nc.refGhost o.uid 1)
        | none => (acc.1.kept o).map fun s => acc.1.nc.addGhost (acc.1.nc.lrank o) o s 1).bind fun c =>
          if acc.1.nc.lrank o < n then some ({ acc.1 with nc := c }, acc.2 ++ [(acc.1.nc.lrank o, o.uid)]) else none
    else some acc

/-- network.py:432-443: `_pre_synch_ghosts` of the network `pid` before the messages are exchanged. -/
def Mx.sendRefs (n pid : Nat) (c : Mx S A P) : Option (Mx S A P × List (Nat × Nat)) :=
  (c.nc.nets[pid]?).bind fun N => (N.toRef.foldlM (Mx.refOne n pid) (c, [])).bind fun x =>
    (x.1.onNet fun c => c.withNet pid fun N => some { N with toRef := [] }).map fun c => (c, x.2)

/-- What is sent for an agent that is out of bounds: context.py:149-163. `st` is `none` if the agent is no longer local. -/
structure OobMsg (S Q : Type) where
  uid : Nat
  st : Option (S × Option (Dict Int))
  pid : Nat
  pt : Q

/-- The body of the loop context.py:145-163; `_agent_moving_rank` of the space removes the agent, that of the networks is in network.py:476-545. The accumulator: the
messages, and the agents that leave with their destinations. -/
def Mx.gatherOne (n pid : Nat) (acc : Mx S A P × List (Nat × OobMsg S Q) × List (Nat × Nat)) (e : Nat × Nat × Q) :
    Option (Mx S A P × List (Nat × OobMsg S Q) × List (Nat × Nat)) :=
  if e.2.1 < n then
    match get acc.1.nc.locals e.1 with
    | none => some (acc.1, acc.2.1 ++ [(e.2.1, ⟨e.1, none, pid, e.2.2⟩)], acc.2.2)
    | some o =>
      (acc.1.spRemove pid e.1).bind fun c =>
        ((List.range c.nc.nets.length).foldlM (fun a k => Network.Cx.moving k o.1 o.2 e.2.1 a)
          ({ c.nc with locals := del c.nc.locals e.1, ghosted := del c.nc.ghosted e.1 }, get c.nc.ghosted e.1)).map fun x =>
            ({ c with nc := x.1 }, acc.2.1 ++ [(e.2.1, ⟨e.1, some (o.2, x.2), pid, e.2.2⟩)], acc.2.2 ++ [(e.1, e.2.1)])
  else none

/-- `_get_oob` of the space `pid`, restricted to the agents `us`. -/
def Mx.oobList (c : Mx S A P) (pid : Nat) (us : List Nat) : List (Nat × Nat × Q) :=
  match c.spaces[pid]? with
  | none => []
  | some g => us.filterMap fun u => (Proj.oob g.sp u).map fun e => (u, e)

/-- The unique ids of the local agents and then those of the ghosts. -/
def Mx.uids (c : Mx S A P) : List Nat := keys c.nc.locals ++ (keys c.nc.ghosts).filter fun u => decide (u ∉ keys c.nc.locals)

/-- context.py:130-167 `_gather_oob_data`. The queue of a space is listed in the order of the local agents and the ghosts at the beginning (simplification, as in
`Verif/Context/Model.lean`). -/
def Mx.gatherOob (n : Nat) (c : Mx S A P) : Option (Mx S A P × List (Nat × OobMsg S Q) × List (Nat × Nat)) :=
  (List.range c.spaces.length).foldlM (fun acc pid =>
    ((acc.1.oobList pid c.uids).foldlM (Mx.gatherOne n pid) acc).bind fun x =>
      (x.1.onSpace pid fun g => some { g with sp := Proj.clear x.1.nc.rank g.sp }).map fun c => (c, x.2)) (c, [], [])

/-- context.py:191-202, 522-532: an agent arrives as a new local agent. -/
def Mx.arrive (c : Mx S A P) (u : Nat) (s : S) (gh : Option (Dict Int)) : Option (Mx S A P) :=
  match gh with
  | none => some (c.add u s)
  | some d => (c.add u s).onNet fun n => n.setGhosted u (del d n.rank)

/-- The body of the loop context.py:180-205. (`create_agent` without a state is an exception: simplification.) -/
def Mx.processOne (acc : Mx S A P × List Nat) (m : OobMsg S Q) : Option (Mx S A P × List Nat) :=
  (match get acc.1.nc.locals m.uid with
    | some _ => some acc
    | none => m.st.bind fun x =>
        (acc.1.arrive m.uid x.1 x.2).map fun c => (c, if (get acc.1.nc.ghosts m.uid).isSome then acc.2 ++ [m.uid] else acc.2)).bind fun x =>
          (x.1.spMove m.pid m.uid m.pt).map fun c => (c, x.2)

/-- `for gh_uid in ghosts_to_remove: self._agent_manager.delete_ghost(gh_uid)` (context.py:290-291, 538-539) -/
def Mx.deleteGhosts (c : Mx S A P) (us : List Nat) : Option (Mx S A P) := c.onNet fun n => us.foldlM (fun n u => n.deleteGhost u) n

/-- context.py:219-222: a removed agent. -/
def Mx.dropGhost (c : Mx S A P) (u : Nat) : Option (Mx S A P) := (c.onNet fun n => n.dropGhost u).map fun c => c.spacesRemove u

/-- What a space refers to when it sends an agent: the state of the agent. -/
def Mx.stateOf (c : Mx S A P) (u : Nat) : Option S := ((get c.nc.locals u).map (·.2)).or ((get c.nc.ghosts u).map (·.st))

/-- space.py:138-156, 365-389: what the space `pid` of a rank sends: destination, unique id, state and location. -/
def Mx.bufferMsgs (n pid : Nat) (c : Mx S A P) : Option (List (Nat × Nat × S × Q)) :=
  (c.spaces[pid]?).bind fun g => (Proj.sends c.nc.rank n g.sp).bind fun l => l.mapM fun m => (c.stateOf m.2.1).map fun s => (m.1, m.2.1, s, m.2.2)

/-- space.py:178-182: the ghost with the given unique id; if there is none, it is made. `k` is the sending rank. -/
def Mx.ghostFor (c : Mx S A P) (k u : Nat) (s : S) : Mx S A P :=
  match get c.nc.ghosts u with
  | some _ => { c with nc := c.nc.refGhost u 1 }
  | none => { c with nc := (c.nc.newObj u).2.addGhost k (c.nc.newObj u).1 s 1 }

/-- space.py:173-186: one received agent. -/
def Mx.bufferOne (pid : Nat) (c : Mx S A P) (m : Nat × Nat × S × Q) : Option (Mx S A P) :=
  ((c.ghostFor m.1 m.2.1 m.2.2.1).onSpace pid fun g => some { sp := Proj.add c.nc.rank g.sp m.2.1, buffered := g.buffered ++ [m.2.1] }).bind fun c =>
    c.spMove pid m.2.1 m.2.2.2

/-! ### All of the ranks -/

/-- The contexts of the ranks. -/
abbrev World (S A P : Type) := Nat → Mx S A P

/-- Each rank does something; an exception on any rank ends the model. -/
def each (n : Nat) (f : Nat → Option (Mx S A P)) (w : World S A P) : Option (World S A P) :=
  let l := (List.range n).map f
  if l.all (·.isSome) then some (fun r => (l[r]?.bind id).getD (w r)) else none

/-- Each rank does something and sends messages; then each rank processes the messages that it receives. -/
def exchange {M : Type} (n : Nat) (send : Mx S A P → Option (Mx S A P × List (Nat × M))) (recv1 : Mx S A P → Nat × M → Option (Mx S A P)) (w : World S A P) :
    Option (World S A P) :=
  let q := (List.range n).map fun r => send (w r)
  let out : Nat → List (Nat × M) := fun r => sent (q[r]?.bind id)
  (each n (fun r => (q[r]?.bind id).map (·.1)) w).bind fun w => each n (fun r => (recv n out r).foldlM recv1 (w r)) w

/-- Something that only concerns the agents and the networks. -/
def onNets (f : Network.World S A → Option (Network.World S A)) (w : World S A P) : Option (World S A P) :=
  (f fun r => (w r).nc).map fun x r => { w r with nc := x r }

/-- For each network, which are the same on all ranks. -/
def eachNet (f : Nat → World S A P → Option (World S A P)) (w : World S A P) : Option (World S A P) :=
  (List.range (w 0).nc.nets.length).foldlM (fun w pid => f pid w) w

/-- For each space, which are the same on all ranks. -/
def eachSpace (f : Nat → World S A P → Option (World S A P)) (w : World S A P) : Option (World S A P) :=
  (List.range (w 0).spaces.length).foldlM (fun w pid => f pid w) w

/-- For each projection, in the order in which they were added. -/
def eachProj (netsFirst : Bool) (space net : Nat → World S A P → Option (World S A P)) (w : World S A P) : Option (World S A P) :=
  if netsFirst then (eachNet net w).bind (eachSpace space) else (eachSpace space w).bind (eachNet net)

/-- network.py:423-448 `_pre_synch_ghosts` of the network `pid`. -/
def preNet (n pid : Nat) (w : World S A P) : Option (World S A P) :=
  exchange n (fun c => c.sendRefs n pid) (fun c m => c.onNet fun x => x.tag m.1 m.2) w

/-- context.py:241-246 `_pre_synch_ghosts`. -/
def preSynch (n : Nat) (netsFirst : Bool) (w : World S A P) : Option (World S A P) :=
  eachProj netsFirst (fun pid w => each n (fun r => (w r).preSpace pid) w) (preNet n) w

/-- What a rank sends: context.py:163-165. -/
def oobOut : Option (Mx S A P × List (Nat × OobMsg S Q) × List (Nat × Nat)) → List (Nat × OobMsg S Q)
  | some x => x.2.1
  | none => []

/-- The agents that leave a rank: context.py:151. -/
def oobLeft : Option (Mx S A P × List (Nat × OobMsg S Q) × List (Nat × Nat)) → List (Nat × Nat)
  | some x => x.2.2
  | none => []

/-- Movement of agents that are out of bounds: context.py:279-287. The result: the contexts, the agents that were ghosts where they arrive, and the agents that leave each
rank with their destinations. -/
def moveOob (n : Nat) (w : World S A P) : Option (World S A P × (Nat → List Nat) × (Nat → List (Nat × Nat))) :=
  let g : List (Option (Mx S A P × List (Nat × OobMsg S Q) × List (Nat × Nat))) := (List.range n).map fun r => (w r).gatherOob n
  let out : Nat → List (Nat × OobMsg S Q) := fun r => oobOut (g[r]?.bind id)
  let left : Nat → List (Nat × Nat) := fun r => oobLeft (g[r]?.bind id)
  (each n (fun r => (g[r]?.bind id).map (·.1)) w).bind fun w =>
    let a := (List.range n).map fun r => ((recv n out r).map (·.2)).foldlM Mx.processOne (w r, ([] : List Nat))
    (each n (fun r => (a[r]?.bind id).map (·.1)) w).map fun w => (w, fun r => sent (a[r]?.bind id), left)

/-- context.py:226-239 `_update_ghosts`. -/
def updateGhosts (n : Nat) (w : World S A P) : Option (World S A P) :=
  (exchange n (fun c => (c.nc.sendRemovedAgents n).map fun x => ({ c with nc := x.1 }, x.2)) (fun c m => c.dropGhost m.2) w).bind fun w =>
    exchange n (fun c => (c.nc.sendStates n).map fun x => (c, x.2)) (fun c m => c.onNet fun x => x.updateGhost m.2.1 m.2.2) w

/-- space.py:199-211, 413-424 `_synch_ghosts` of the space `pid`. -/
def synchSpace (n pid : Nat) (w : World S A P) : Option (World S A P) :=
  if (List.range n).all (fun r => match (w r).spaces[pid]? with | some g => decide (Proj.bufSize g.sp > 0) | none => false) then
    exchange n (fun c => (c.bufferMsgs n pid).map fun l => (c, l)) (fun c m => c.bufferOne pid m) w
  else some w

/-- context.py:248-261 `_synch_ghosts`. -/
def synchGhosts (n : Nat) (netsFirst : Bool) (w : World S A P) : Option (World S A P) :=
  (updateGhosts n w).bind fun w => eachProj netsFirst (synchSpace n) (fun pid => onNets (Network.synchNet n pid)) w

/-- context.py:296-308: after agents have moved out of bounds. (`_post_agents_moved_rank` of a space does nothing.) -/
def afterMoved (n : Nat) (w : World S A P) : Option (World S A P) :=
  (eachNet (fun pid => onNets (Network.postMoved n pid)) w).bind fun w =>
    eachNet (fun pid w => (preNet n pid w).bind fun w => (updateGhosts n w).bind fun w => eachNet (fun k => onNets (Network.synchNet n k)) w) w

/-- context.py:263-308 `synchronize`. -/
def synchronize (n : Nat) (netsFirst ghosts : Bool) (w : World S A P) : Option (World S A P) :=
  (if ghosts then preSynch n netsFirst w else some w).bind fun w => (moveOob n w).bind fun x =>
    let anyMoved := !(List.range n).all fun r => (x.2.2 r).isEmpty
    (if anyMoved then
      (eachNet (fun pid => onNets (Network.agentsMoved n x.2.2 pid)) x.1).bind fun w => each n (fun r => (w r).deleteGhosts (x.2.1 r)) w
     else some x.1).bind fun w =>
      (if ghosts then synchGhosts n netsFirst w else some w).bind fun w => if anyMoved then afterMoved n w else some w

/-- The body of the loop context.py:420-433. -/
def Mx.sendRequest (n : Nat) (acc : Mx S A P × List (Nat × Nat)) (q : Nat × Nat) : Option (Mx S A P × List (Nat × Nat)) :=
  match get acc.1.nc.ghosts q.1 with
  | none => if q.2 < n then some (acc.1, acc.2 ++ [(q.2, q.1)]) else none
  | some g => some ({ acc.1 with
      nc := (acc.1.nc.addReq q.1).netsAdd g.obj
      spaces := acc.1.spaces.map fun x => if (Proj.where_ x.sp q.1).isSome then x else { x with sp := Proj.add acc.1.nc.rank x.sp q.1 } }, acc.2)

/-- context.py:464-469: a requested agent arrives, from rank `m.1`. -/
def Mx.recvRequested (c : Mx S A P) (m : Nat × Nat × S) : Option (Mx S A P) :=
  some (({ c with nc := c.nc.recvRequested m } : Mx S A P).spacesAdd m.2.1)

/-- context.py:456-461: the owner tags an agent and sends its state. -/
def Mx.answer (acc : Mx S A P × List (Nat × Nat × S)) (q : Nat × Nat) : Option (Mx S A P × List (Nat × Nat × S)) :=
  (Network.Cx.answer (acc.1.nc, acc.2) q).map fun x => ({ acc.1 with nc := x.1 }, x.2)

/-- context.py:438-471 `request_agents`: `rs r` is the list that rank `r` passes, of unique ids and ranks. -/
def requestAgents (n : Nat) (rs : Nat → List (Nat × Nat)) (w : World S A P) : Option (World S A P) :=
  let q := (List.range n).map fun r => (rs r).foldlM (Mx.sendRequest n) (w r, ([] : List (Nat × Nat)))
  (each n (fun r => (q[r]?.bind id).map (·.1)) w).bind fun w =>
    let a := (List.range n).map fun r => (recv n (fun s => sent (q[s]?.bind id)) r).foldlM Mx.answer (w r, ([] : List (Nat × Nat × S)))
    (each n (fun r => (a[r]?.bind id).map (·.1)) w).bind fun w =>
      each n (fun r => (recv n (fun s => sent (a[s]?.bind id)) r).foldlM Mx.recvRequested (w r)) w

/-- context.py:505-516: an agent leaves the rank. (`_agent_moving_rank` of a space only removes the agent from it, space.py:261-263, 426-428.) -/
def Mx.sendAway (n : Nat) (acc : Mx S A P × List (Nat × Nat × S × Option (Dict Int))) (m : Nat × Nat) : Option (Mx S A P × List (Nat × Nat × S × Option (Dict Int))) :=
  (Network.Cx.sendAway n (acc.1.nc, acc.2) m).map fun x => (({ acc.1 with nc := x.1 } : Mx S A P).spacesRemove m.1, x.2)

/-- context.py:522-532: an agent arrives. The second component of the accumulator are the agents that were ghosts here. -/
def Mx.arriveOne (acc : Mx S A P × List Nat) (m : Nat × S × Option (Dict Int)) : Option (Mx S A P × List Nat) :=
  (acc.1.arrive m.1 m.2.1 m.2.2).map fun c => (c, if (get acc.1.nc.ghosts m.1).isSome then acc.2 ++ [m.1] else acc.2)

/-- context.py:486-549 `move_agents`: `ms r` is the list that rank `r` passes, of unique ids and ranks. Agents that are out of bounds are moved too; those that were ghosts where they arrive stay ghosts as well
(context.py:544-545), and the networks are not told about them. (`_agents_moved_rank` and `_post_agents_moved_rank` of a space do nothing.) -/
def moveAgents (n : Nat) (netsFirst : Bool) (ms : Nat → List (Nat × Nat)) (w : World S A P) : Option (World S A P) :=
  let q := (List.range n).map fun r => (ms r).foldlM (Mx.sendAway n) (w r, ([] : List (Nat × Nat × S × Option (Dict Int))))
  (each n (fun r => (q[r]?.bind id).map (·.1)) w).bind fun w =>
    let a := (List.range n).map fun r => (((recv n (fun s => sent (q[s]?.bind id)) r).map (·.2)).foldlM Mx.arriveOne (w r, ([] : List Nat)))
    (each n (fun r => (a[r]?.bind id).map (·.1)) w).bind fun w =>
      (if (List.range n).all (fun r => (ms r).isEmpty) then some w else eachNet (fun pid => onNets (Network.agentsMoved n ms pid)) w).bind fun w =>
        (each n (fun r => (w r).deleteGhosts (sent (a[r]?.bind id))) w).bind fun w =>
          (preSynch n netsFirst w).bind fun w => (moveOob n w).bind fun x =>
            (synchGhosts n netsFirst x.1).bind fun w => eachNet (fun pid => onNets (Network.postMoved n pid)) w

/-- What a model does: operations of one rank, and collective ones. `pid` is the number of a space (`gmove`) or of a network. -/
inductive WOp (S A Q : Type) where
  | add (r u : Nat) (s : S)
  | remove (r u : Nat)
  | setState (r u : Nat) (s : S)
  | gmove (r pid u : Nat) (pt : Q)
  | addEdge (r pid u v : Nat) (at_ : Attr A)
  | updateEdge (r pid u v : Nat) (at_ : Attr A)
  | removeEdge (r pid u v : Nat)
  | clearEdges (r pid : Nat)
  | request (rs : Nat → List (Nat × Nat))
  | move (ms : Nat → List (Nat × Nat))
  | synch (ghosts : Bool)

/-- An operation of rank `r`. -/
def at_ (n r : Nat) (f : Mx S A P → Option (Mx S A P)) (w : World S A P) : Option (World S A P) :=
  if r < n then (f (w r)).map fun c => fun k => if k = r then c else w k else none

def wstep (n : Nat) (netsFirst : Bool) (w : World S A P) : WOp S A Q → Option (World S A P)
  | .add r u s => at_ n r (fun c => some (c.add u s)) w
  | .remove r u => at_ n r (fun c => c.remove u) w
  | .setState r u s => at_ n r (fun c => c.onNet fun x => x.setState u s) w
  | .gmove r pid u pt => at_ n r (fun c => c.gmove pid u pt) w
  | .addEdge r pid u v a => at_ n r (fun c => c.onNet fun x => x.addEdge pid u v a) w
  | .updateEdge r pid u v a => at_ n r (fun c => c.onNet fun x => x.updateEdge pid u v a) w
  | .removeEdge r pid u v => at_ n r (fun c => c.onNet fun x => x.removeEdge pid u v) w
  | .clearEdges r pid => at_ n r (fun c => c.onNet fun x => x.clearEdges pid) w
  | .request rs => requestAgents n rs w
  | .move ms => moveAgents n netsFirst ms w
  | .synch g => synchronize n netsFirst g w

/-- A history; `none` is an exception on some rank. -/
def wrun (n : Nat) (netsFirst : Bool) (w : World S A P) (ops : List (WOp S A Q)) : Option (World S A P) := ops.foldlM (wstep n netsFirst) w

/-- The contexts of the ranks at the beginning. -/
def World.start (ps : List P) (dirs : List Bool) : World S A P := fun r => Mx.start r ps dirs

/-! ### What the user sees -/

/-- context.py:360-375 `agent`: the state of the agent. -/
def Mx.agent (c : Mx S A P) (u : Nat) : Option S := c.nc.agent u

/-- context.py:377-388 `ghost_agent`: the state of the ghost. -/
def Mx.ghostAgent (c : Mx S A P) (u : Nat) : Option S := c.nc.ghostAgent u

/-- `agent in space` and `get_location`: `none` if the agent is not in the space `pid`. -/
def Mx.placed (c : Mx S A P) (pid u : Nat) : Option (Option Q) := (c.spaces[pid]?).bind fun g => Proj.where_ g.sp u

/-- network.py:280-290 `contains_edge`, of the agents with the given unique ids. -/
def Mx.containsEdge (c : Mx S A P) (pid u v : Nat) : Bool := c.nc.containsEdge pid u v

end Repast.Mixed
