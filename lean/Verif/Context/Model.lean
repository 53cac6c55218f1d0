import Verif.Context.Dict
import Verif.Topology.Buffer

/-
Model of `SharedContext` (`/repo/src/repast4py/context.py`) and `AgentManager` (`/repo/src/repast4py/core.py:66-305`), first of the context of
one rank, then of all of the ranks of a model.

Agents are identified by their unique id, a number; `ty u` is the type component of the unique id `u`. The state of an agent is an arbitrary value
of a type `S`: what its `save` method returns besides the unique id. An agent object occurs in several collections; its state is kept once per
rank, in `locals` for a local agent and in `ghosts` for a ghost. The user's `restore_agent` is assumed to return an agent with the unique id and
the state that it is given, and the user's `update` method to set the state.

An exception is `none`. A message to a rank that does not exist is an `IndexError`. (Simplification: a negative rank, which Python would accept
as an index, is not a value of the model.)

Modelled projections: shared grids, with the model of `Verif/Topology` (process topology, out of bounds queue, buffers), and shared continuous spaces
(`Verif/Context/CSpace`). The projections of a context are all of the same kind. Networks and value layers are modelled elsewhere; a context with a network is not
modelled here.
-/
namespace Repast.Context
open Repast.Dict Repast.Space Repast.Topology

/-- core.py:23-41 `GhostAgent`: the state of the ghost, and its reference count. -/
structure Ghost (S : Type) where
  st : S
  ref : Int
  deriving DecidableEq, Repr

/-- space.py:76-88: the arguments of a shared grid. `topo` contains bounds, borders and the processes. -/
structure GCfg where
  topo : Topo
  single : Bool
  buf : Nat

/-- The methods of a shared space that a context and the synchronization of its buffers use. `P` is what one rank knows of the space, `Q` are the points. The first argument
of a method that changes the space is the rank. The space is a grid (below) or a continuous space (`Verif/Context/CSpace`). -/
class Proj (P : Type) (Q : outParam Type) where
  /-- `buffer_size` -/
  bufSize : P → Nat
  /-- `agent in proj` and `get_location`: `none` if the agent is not in the space, `some none` if it has no location -/
  where_ : P → Nat → Option (Option Q)
  /-- the entry of the agent in `_get_oob` -/
  oob : P → Nat → Option (Nat × Q)
  /-- `add` -/
  add : Nat → P → Nat → P
  /-- `remove` -/
  remove : Nat → P → Nat → P
  /-- `move`; `none`: an exception -/
  move : Nat → P → Nat → Q → Option P
  /-- `_clear_oob` -/
  clear : Nat → P → P
  /-- `_fill_send_data` for a number of ranks: destination, unique id and location -/
  sends : Nat → Nat → P → Option (List (Nat × Nat × Q))

/-- A shared space on one rank, and its `buffered_agents` (space.py:89, 307). -/
structure Shared (P : Type) where
  sp : P
  buffered : List Nat

/-- A shared grid on one rank: space.py:76-100, and the underlying C++ object. -/
structure GridSp where
  cfg : GCfg
  st : DSp

/-- A new grid. -/
def GCfg.new (g : GCfg) : GridSp := { cfg := g, st := DSp.empty }

/-- A call of the C++ grid of the rank. -/
def GridSp.call (r : Nat) (g : GridSp) (o : DOp) : GridSp × Res Pt :=
  let x := dstep (grid g.cfg.topo.box g.cfg.topo.periodic g.cfg.single) (g.cfg.topo.bounds r) (g.cfg.topo.allBounds r) g.st o
  ({ g with st := x.1 }, x.2)

/-- Shared grids. `sends`: space.py:138-156 and 213-259. -/
instance : Proj GridSp Pt where
  bufSize g := g.cfg.buf
  where_ g u := g.st.base.agents u
  oob g u := g.st.oob u
  add r g u := (g.call r (.base (.add u))).1
  remove r g u := (g.call r (.base (.remove u))).1
  move r g u pt := match g.call r (.base (.move u pt)) with
    | (_, .error) => none
    | (g, _) => some g
  clear r g := (g.call r .clear).1
  sends r n g := (g.cfg.topo.buffers r g.cfg.buf).map fun bs => (List.range n).flatMap fun k => (sendTo g.cfg.topo.nd bs g.st.base.loc k).map fun m => (k, m.1, m.2)

/-- The context of one rank: context.py:31-41, core.py:78-86. -/
structure Cx (S : Type) (P : Type := GridSp) where
  rank : Nat
  /-- `_local_agents` -/
  locals : Dict S
  /-- `_agents_by_type`: for each type the unique ids of its (ordered) dictionary -/
  byType : Dict (List Nat)
  /-- `_ghosted_agents`: the `ghost_ranks` -/
  ghosted : Dict (Dict Int)
  /-- `_ghost_agents` -/
  ghosts : Dict (Ghost S)
  /-- `_req_ghosts` -/
  req : List Nat
  /-- `removed_ghosteds`: unique id and `ghost_ranks` -/
  removed : List (Nat × Dict Int)
  /-- `projections`; the projection id is the index -/
  projs : List (Shared P)

/-- A new context, on which the given projections are already registered (context.py:31-41, 70-94). -/
def Cx.start {S P : Type} (rank : Nat) (ps : List P) : Cx S P :=
  { rank := rank, locals := [], byType := [], ghosted := [], ghosts := [], req := [], removed := [], projs := ps.map fun p => { sp := p, buffered := [] } }

/-- A new context with shared grids. -/
abbrev Cx.init {S : Type} (rank : Nat) (grids : List GCfg) : Cx S := Cx.start rank (grids.map GCfg.new)

variable {S P Q : Type} [Proj P Q] (ty : Nat → Nat)

/-! ### The methods of a context that concern one rank only -/

/-- `proj.add(agent)` for each projection -/
def Cx.projsAdd (c : Cx S P) (u : Nat) : Cx S P := { c with projs := c.projs.map fun g => { g with sp := Proj.add c.rank g.sp u } }

/-- `proj.remove(agent)` for each projection -/
def Cx.projsRemove (c : Cx S P) (u : Nat) : Cx S P := { c with projs := c.projs.map fun g => { g with sp := Proj.remove c.rank g.sp u } }

/-- `self._agents_by_type.setdefault(agent.uid[1], collections.OrderedDict())[agent.uid] = agent` (context.py:53) -/
def addType (d : Dict (List Nat)) (t u : Nat) : Dict (List Nat) :=
  let l := (get d t).getD []
  set d t (if u ∈ l then l else l ++ [u])

/-- `del self._agents_by_type[agent.uid[1]][agent.uid]` (context.py:126, 152, 507): a `KeyError` if it is not there. -/
def delType (d : Dict (List Nat)) (t u : Nat) : Option (Dict (List Nat)) :=
  match get d t with
  | none => none
  | some l => if u ∈ l then some (set d t (l.erase u)) else none

/-- context.py:43-55 `add`, core.py:139-146. -/
def Cx.add (c : Cx S P) (u : Nat) (s : S) : Cx S P :=
  ({ c with locals := set c.locals u s, byType := addType c.byType (ty u) u }).projsAdd u

/-- context.py:115-128 `remove`, core.py:110-126. -/
def Cx.remove (c : Cx S P) (u : Nat) : Option (Cx S P) :=
  let removed := match get c.ghosted u with
    | some d => c.removed ++ [(u, d)]
    | none => c.removed
  (delType c.byType (ty u) u).map fun d =>
    ({ c with ghosted := del c.ghosted u, locals := del c.locals u, removed := removed, byType := d }).projsRemove u

/-- An agent changes its own state. -/
def Cx.setState (c : Cx S P) (u : Nat) (s : S) : Option (Cx S P) :=
  match get c.locals u with
  | some _ => some { c with locals := set c.locals u s }
  | none => none

/-- context.py:310-320 `contains_type`. -/
def Cx.containsType (c : Cx S P) (t : Nat) : Bool :=
  match get c.byType t with
  | some l => decide (l.length > 0)
  | none => false

/-- context.py:360-375 `agent`: the state of the agent. -/
def Cx.agent (c : Cx S P) (u : Nat) : Option S := get c.locals u

/-- context.py:377-388 `ghost_agent`: the state of the ghost. -/
def Cx.ghostAgent (c : Cx S P) (u : Nat) : Option S := (get c.ghosts u).map (·.st)

/-- Python slicing `l[:n]`. -/
def pySlice {α : Type} (l : List α) (n : Int) : List α := if n ≥ 0 then l.take n.toNat else l.take (l.length - (-n).toNat)

/-- context.py:343-346, 355-358: all of the agents, or those of a type. -/
def Cx.listOf (c : Cx S P) : Option Nat → Option (List Nat)
  | none => some (keys c.locals)
  | some t => get c.byType t

/-- context.py:322-358 `agents`; `shuf` is what `random.default_rng.shuffle` does to a list. -/
def Cx.agents (c : Cx S P) (shuf : List Nat → List Nat) (t : Option Nat) (count : Option Int) (shuffle : Bool) : Option (List Nat) :=
  if shuffle || count.isSome then
    (c.listOf t).map fun l =>
      let l := if shuffle then shuf l else l
      match count with
      | some n => pySlice l n
      | none => l
  else c.listOf t

/-- context.py:390-407 `size`: the items of the dictionary it returns, as a function. (The key -1 is `none`.) -/
def Cx.size (c : Cx S P) (ts : List Nat) : Option (List (Option Nat × Nat)) :=
  if ts.isEmpty then some [(none, c.locals.length)]
  else ts.mapM fun t => (get c.byType t).map fun l => (some t, l.length)

/-! ### The agent manager: ghosts -/

/-- core.py:287-305 `get_ghost`, the effect on the reference count. -/
def Cx.refGhost (c : Cx S P) (u : Nat) (incr : Int) : Cx S P :=
  match get c.ghosts u with
  | some g => { c with ghosts := set c.ghosts u { g with ref := g.ref + incr } }
  | none => c

/-- core.py:263-275 `add_ghost`. (`local_rank` is not modelled.) -/
def Cx.addGhost (c : Cx S P) (u : Nat) (s : S) (incr : Int) : Cx S P := { c with ghosts := set c.ghosts u ⟨s, incr⟩ }

/-- core.py:238-251 `remove_ghost`. -/
def Cx.removeGhost (c : Cx S P) (u : Nat) : Option (Cx S P) :=
  if u ∈ c.req then some c
  else match get c.ghosts u with
    | none => none
    | some g => some { c with ghosts := if g.ref - 1 = 0 then del c.ghosts u else set c.ghosts u { g with ref := g.ref - 1 } }

/-- core.py:253-261 `delete_ghost`. -/
def Cx.deleteGhost (c : Cx S P) (u : Nat) : Option (Cx S P) :=
  match get c.ghosts u with
  | none => none
  | some _ => some { c with ghosts := del c.ghosts u }

/-- core.py:99-108 `add_req_ghost`. -/
def Cx.addReq (c : Cx S P) (u : Nat) : Cx S P := if u ∈ c.req then c else { c with req := c.req ++ [u] }

/-- core.py:171-192 `tag_as_ghosted`. -/
def Cx.tag (c : Cx S P) (k u : Nat) : Option (Cx S P) :=
  match get c.ghosted u with
  | some d => some { c with ghosted := set c.ghosted u (set d k (match get d k with | some n => n + 1 | none => 1)) }
  | none =>
    match get c.locals u with
    | some _ => some { c with ghosted := set c.ghosted u [(k, 1)] }
    | none => none

/-- core.py:194-203 `set_as_ghosted`. -/
def Cx.setGhosted (c : Cx S P) (u : Nat) (d : Dict Int) : Option (Cx S P) :=
  if d.isEmpty then some c
  else match get c.locals u with
    | some _ => some { c with ghosted := set c.ghosted u d }
    | none => none

/-- context.py:57-60 `_add_ghost`. -/
def Cx.addGhostAll (c : Cx S P) (u : Nat) (s : S) : Cx S P := (c.addGhost u s c.projs.length).projsAdd u

/-- The state of the agent object with the given unique id in a projection of the rank. -/
def Cx.stateOf (c : Cx S P) (u : Nat) : Option S := (get c.locals u).or ((get c.ghosts u).map (·.st))

/-- An agent leaves the rank: context.py:146-155, 506-513. The state and the `ghost_ranks` to send. -/
def Cx.take (c : Cx S P) (u : Nat) : Option (Cx S P × S × Option (Dict Int)) :=
  (get c.locals u).bind fun s => (delType c.byType (ty u) u).map fun d =>
    ({ c with locals := del c.locals u, byType := d, ghosted := del c.ghosted u }, s, get c.ghosted u)

/-- An agent arrives: context.py:191-202, 522-532. The second component says that it was a ghost here. -/
def Cx.arrive (c : Cx S P) (u : Nat) (s : S) (gh : Option (Dict Int)) : Option (Cx S P × Bool) :=
  let was := (get c.ghosts u).isSome
  match gh with
  | none => some (c.add ty u s, was)
  | some d => ((c.add ty u s).setGhosted u (del d c.rank)).map fun c => (c, was)

/-! ### All of the ranks -/

/-- The contexts of the ranks; those `< n` exist. -/
abbrev World (S : Type) (P : Type := GridSp) := Nat → Cx S P

/-- Each rank does something; an exception on any rank ends the model. -/
def each (n : Nat) (f : Nat → Option (Cx S P)) (w : World S P) : Option (World S P) :=
  let l := (List.range n).map f
  if l.all (·.isSome) then some (fun r => (l[r]?.bind id).getD (w r)) else none

/-- `comm.alltoall`: what the ranks send to rank `k`, in the order of the sending ranks. `send r` are rank `r`'s messages with their
destinations. -/
def recv {M : Type} (n : Nat) (send : Nat → List (Nat × M)) (k : Nat) : List (Nat × M) :=
  (List.range n).flatMap fun r => ((send r).filter (fun m => decide (m.1 = k))).map fun m => (r, m.2)

/-- `proj.remove(agent)` in the grid `pid` (space.py: `_agent_moving_rank`, and space.py:196). -/
def Cx.projRemove (c : Cx S P) (pid u : Nat) : Cx S P :=
  match c.projs[pid]? with
  | none => c
  | some g => { c with projs := c.projs.set pid { g with sp := Proj.remove c.rank g.sp u } }

/-- `self.buffered_agents.clear()` -/
def Cx.clearBuffered (c : Cx S P) (pid : Nat) : Cx S P :=
  match c.projs[pid]? with
  | none => c
  | some g => { c with projs := c.projs.set pid { g with buffered := [] } }

/-- space.py:188-198 `_pre_synch_ghosts` of one grid. -/
def Cx.preSynch (c : Cx S P) (pid : Nat) : Option (Cx S P) :=
  match c.projs[pid]? with
  | none => none
  | some g =>
    if Proj.bufSize g.sp > 0 then
      (g.buffered.foldlM (fun (c : Cx S P) u => (c.projRemove pid u).removeGhost u) c).map fun c => c.clearBuffered pid
    else some c

/-- context.py:241-246 -/
def Cx.preSynchAll (c : Cx S P) : Option (Cx S P) := (List.range c.projs.length).foldlM (fun c pid => c.preSynch pid) c

/-- What is sent for an agent that is out of bounds: context.py:149-163. `st` is `none` if the agent is no longer local. -/
structure OobMsg (S : Type) (Q : Type := Pt) where
  uid : Nat
  st : Option (S × Option (Dict Int))
  pid : Nat
  pt : Q

/-- The body of the loop context.py:145-163. -/
def Cx.gatherOne (n : Nat) (pid : Nat) (acc : Cx S P × List (Nat × OobMsg S Q) × List Nat) (e : Nat × Nat × Q) :
    Option (Cx S P × List (Nat × OobMsg S Q) × List Nat) :=
  if e.2.1 ≥ n then none
  else match get acc.1.locals e.1 with
    | none => some (acc.1, acc.2.1 ++ [(e.2.1, ⟨e.1, none, pid, e.2.2⟩)], acc.2.2)
    | some _ => (acc.1.take ty e.1).map fun x => (x.1.projRemove pid e.1, acc.2.1 ++ [(e.2.1, ⟨e.1, some x.2, pid, e.2.2⟩)], acc.2.2 ++ [e.1])

/-- `_get_oob` of the grid `pid`, restricted to the agents `us`. -/
def Cx.oobList (c : Cx S P) (pid : Nat) (us : List Nat) : List (Nat × Nat × Q) :=
  match c.projs[pid]? with
  | none => []
  | some g => us.filterMap fun u => (Proj.oob g.sp u).map fun e => (u, e)

/-- `_clear_oob` of the grid `pid`. -/
def Cx.clearOob (c : Cx S P) (pid : Nat) : Cx S P :=
  match c.projs[pid]? with
  | none => c
  | some g => { c with projs := c.projs.set pid { g with sp := Proj.clear c.rank g.sp } }

/-- context.py:130-167 `_gather_oob_data`: the messages, and the agents that leave. The queue of a grid is listed in the order of the local
agents and the ghosts at the beginning (simplification: the C++ map orders it by unique id; an agent in the queue is one of these). -/
def Cx.gatherOob (n : Nat) (c : Cx S P) : Option (Cx S P × List (Nat × OobMsg S Q) × List Nat) :=
  (List.range c.projs.length).foldlM (fun acc pid =>
    ((acc.1.oobList pid (keys c.locals ++ keys c.ghosts)).foldlM (Cx.gatherOne ty n pid) acc).map fun x => (x.1.clearOob pid, x.2)) (c, [], [])

/-- context.py:187-202: the agent of a message, which may already have arrived. -/
def Cx.receiveOob (acc : Cx S P × List Nat) (m : OobMsg S Q) : Option (Cx S P × List Nat) :=
  match get acc.1.locals m.uid with
  | some _ => some acc
  | none =>
    match m.st with
    | none => none
    | some (s, gh) => (acc.1.arrive ty m.uid s gh).map fun x => (x.1, if x.2 then acc.2 ++ [m.uid] else acc.2)

/-- context.py:205 `_move_oob_agent` and space.py: the agent is moved in the grid `pid`. -/
def Cx.projMove (c : Cx S P) (pid u : Nat) (pt : Q) : Option (Cx S P) :=
  match c.projs[pid]? with
  | none => none
  | some g => (Proj.move c.rank g.sp u pt).map fun sp => { c with projs := c.projs.set pid { g with sp := sp } }

/-- The body of the loop context.py:180-205. -/
def Cx.processOne (acc : Cx S P × List Nat) (m : OobMsg S Q) : Option (Cx S P × List Nat) :=
  (Cx.receiveOob ty acc m).bind fun x => (x.1.projMove m.pid m.uid m.pt).map fun c => (c, x.2)

/-- context.py:169-205 `_process_recv_oob_data`. (`create_agent` without a state is an exception: simplification.) -/
def Cx.processOob (c : Cx S P) (ms : List (OobMsg S Q)) : Option (Cx S P × List Nat) := ms.foldlM (Cx.processOne ty) (c, [])

/-- `for gh_uid in ghosts_to_remove: self._agent_manager.delete_ghost(gh_uid)` (context.py:290-291, 538-539) -/
def Cx.deleteGhosts (c : Cx S P) (us : List Nat) : Option (Cx S P) := us.foldlM (fun c u => c.deleteGhost u) c

/-- The messages of `_gather_oob_data`. -/
def gathered {α M : Type} : Option (α × List M × List Nat) → List M
  | some x => x.2.1
  | none => []

/-- Whether agents leave. -/
def leaving {α M : Type} : Option (α × List M × List Nat) → Bool
  | some x => !x.2.2.isEmpty
  | none => false

/-- Movement of agents that are out of bounds: context.py:279-291. `delGhosts` is false in
`move_agents` (context.py:542-545), which never deletes these ghosts. -/
def moveOob (n : Nat) (delGhosts : Bool) (w : World S P) : Option (World S P) :=
  let g : Nat → Option (Cx S P × List (Nat × OobMsg S Q) × List Nat) := fun r => (w r).gatherOob ty n
  let out : Nat → List (Nat × OobMsg S Q) := fun r => gathered (g r)
  let anyMoved := (List.range n).any fun r => leaving (g r)
  (each n (fun r => (g r).map (·.1)) w).bind fun w =>
    each n (fun r => ((w r).processOob ty ((recv n out r).map (·.2))).bind fun x => if anyMoved && delGhosts then x.1.deleteGhosts x.2 else some x.1) w

/-- context.py:213-215: the messages about removed agents. -/
def Cx.removedMsgs (c : Cx S P) : List (Nat × Nat) := c.removed.flatMap fun e => (keys e.2).map fun k => (k, e.1)

/-- context.py:219-222 -/
def Cx.dropGhost (c : Cx S P) (u : Nat) : Option (Cx S P) :=
  match get c.ghosts u with
  | none => none
  | some _ => ((c.refGhost u 1).projsRemove u).deleteGhost u

/-- context.py:207-224 `_update_removed_ghosts`. -/
def updateRemoved (n : Nat) (w : World S P) : Option (World S P) :=
  if (List.range n).all (fun r => (w r).removedMsgs.all fun m => decide (m.1 < n)) then
    each n (fun r => (((recv n (fun s => (w s).removedMsgs) r).map fun m => m.2).foldlM Cx.dropGhost (w r)).map fun c =>
      { c with removed := [] }) w
  else none

/-- context.py:231-234: the state updates a rank sends. (Simplification: the state of an agent that is no longer local is not defined.) -/
def Cx.stateMsgs (c : Cx S P) : Option (List (Nat × Nat × S)) :=
  (c.ghosted.flatMap fun e => (keys e.2).map fun k => (k, e.1)).mapM fun m => (get c.locals m.2).map fun s => (m.1, m.2, s)

/-- context.py:238-239 -/
def Cx.updateGhost (c : Cx S P) (u : Nat) (s : S) : Option (Cx S P) :=
  match get c.ghosts u with
  | none => none
  | some g => some { c with ghosts := set c.ghosts u { g with st := s } }

/-- context.py:230-239. -/
def updateStates (n : Nat) (w : World S P) : Option (World S P) :=
  let out : Nat → List (Nat × Nat × S) := fun r => ((w r).stateMsgs).getD []
  if (List.range n).all (fun r => match (w r).stateMsgs with | none => false | some l => l.all fun m => decide (m.1 < n)) then
    each n (fun r => ((recv n out r).map (·.2)).foldlM (fun c m => c.updateGhost m.1 m.2) (w r)) w
  else none

/-- context.py:226-239 `_update_ghosts`. -/
def updateGhosts (n : Nat) (w : World S P) : Option (World S P) := (updateRemoved n w).bind fun w => updateStates n w

/-- space.py:138-156, 365-389: what the projection `pid` of a rank sends: destination, unique id, state and location. -/
def Cx.bufferMsgs (c : Cx S P) (n pid : Nat) : Option (List (Nat × Nat × S × Q)) :=
  match c.projs[pid]? with
  | none => none
  | some g => (Proj.sends c.rank n g.sp).bind fun l => l.mapM fun m => (c.stateOf m.2.1).map fun s => (m.1, m.2.1, s, m.2.2)

/-- space.py:178-182: the ghost with the given unique id, which is created if it does not exist. -/
def Cx.ghostFor (c : Cx S P) (u : Nat) (s : S) : Cx S P :=
  match get c.ghosts u with
  | some _ => c.refGhost u 1
  | none => c.addGhost u s 1

/-- space.py:183-184 -/
def Cx.bufferAdd (c : Cx S P) (pid u : Nat) : Cx S P :=
  match c.projs[pid]? with
  | none => c
  | some g => { c with projs := c.projs.set pid { sp := Proj.add c.rank g.sp u, buffered := g.buffered ++ [u] } }

/-- space.py:173-186: one received agent. -/
def Cx.bufferOne (pid : Nat) (c : Cx S P) (m : Nat × S × Q) : Option (Cx S P) :=
  ((c.ghostFor m.1 m.2.1).bufferAdd pid m.1).projMove pid m.1 m.2.2

/-- space.py:200-211 `_synch_ghosts` of one grid on all of the ranks. -/
def synchGrid (n pid : Nat) (w : World S P) : Option (World S P) :=
  let out : Nat → List (Nat × Nat × S × Q) := fun r => ((w r).bufferMsgs n pid).getD []
  if (List.range n).all (fun r => match (w r).projs[pid]? with | some g => decide (Proj.bufSize g.sp > 0) | none => false) then
    if (List.range n).all (fun r => ((w r).bufferMsgs n pid).isSome) then
      each n (fun r => ((recv n out r).map (·.2)).foldlM (Cx.bufferOne pid) (w r)) w
    else none
  else some w

/-- context.py:248-261 `_synch_ghosts`; the ranks have the same projections. -/
def synchGhosts (n : Nat) (w : World S P) : Option (World S P) :=
  (updateGhosts n w).bind fun w => (List.range (w 0).projs.length).foldlM (fun w pid => synchGrid n pid w) w

/-- context.py:263-308 `synchronize`, with bounded projections only. -/
def synchronize (n : Nat) (syncGhosts : Bool) (w : World S P) : Option (World S P) :=
  if syncGhosts then (each n (fun r => (w r).preSynchAll) w).bind fun w => (moveOob ty n true w).bind fun w => synchGhosts n w
  else moveOob ty n true w

/-- `if agent not in proj: proj.add(agent)` for each projection (context.py:431-433) -/
def Cx.projsAddNew (c : Cx S P) (u : Nat) : Cx S P :=
  { c with projs := c.projs.map fun g => if (Proj.where_ g.sp u).isSome then g else { g with sp := Proj.add c.rank g.sp u } }

/-- The body of the loop context.py:420-433. -/
def Cx.sendRequest (n : Nat) (acc : Cx S P × List (Nat × Nat)) (q : Nat × Nat) : Option (Cx S P × List (Nat × Nat)) :=
  match get acc.1.ghosts q.1 with
  | none => if q.2 < n then some (acc.1, acc.2 ++ [(q.2, q.1)]) else none
  | some _ => some ((acc.1.addReq q.1).projsAddNew q.1, acc.2)

/-- context.py:416-433: the requests a rank sends, and its context after that. -/
def Cx.sendRequests (n : Nat) (c : Cx S P) (rs : List (Nat × Nat)) : Option (Cx S P × List (Nat × Nat)) := rs.foldlM (Cx.sendRequest n) (c, [])

/-- context.py:456-461: the owner tags the agents and sends their states. -/
def Cx.answer (c : Cx S P) (rs : List (Nat × Nat)) : Option (Cx S P × List (Nat × Nat × S)) :=
  rs.foldlM (fun acc q => (acc.1.tag q.1 q.2).bind fun c => (get c.locals q.2).map fun s => (c, acc.2 ++ [(q.1, q.2, s)])) (c, [])

/-- What a rank sends. -/
def sent {α M : Type} : Option (α × List M) → List M
  | some x => x.2
  | none => []

/-- context.py:438-471 `request_agents`: `rs r` is the list that rank `r` passes, of unique ids and ranks. -/
def requestAgents (n : Nat) (rs : Nat → List (Nat × Nat)) (w : World S P) : Option (World S P) :=
  let q : Nat → Option (Cx S P × List (Nat × Nat)) := fun r => (w r).sendRequests n (rs r)
  let out : Nat → List (Nat × Nat) := fun r => sent (q r)
  (each n (fun r => (q r).map (·.1)) w).bind fun w =>
    let a : Nat → Option (Cx S P × List (Nat × Nat × S)) := fun r => (w r).answer (recv n out r)
    let out : Nat → List (Nat × Nat × S) := fun r => sent (a r)
    (each n (fun r => (a r).map (·.1)) w).bind fun w =>
      each n (fun r => some (((recv n out r).map (·.2)).foldl (fun c m => (c.addGhostAll m.1 m.2).addReq m.1) (w r))) w

/-- context.py:505-516: the agents of the list leave the rank. -/
def Cx.sendAway (n : Nat) (c : Cx S P) (ms : List (Nat × Nat)) : Option (Cx S P × List (Nat × Nat × S × Option (Dict Int))) :=
  ms.foldlM (fun acc m =>
    if m.2 < n then (acc.1.take ty m.1).map fun x => (x.1.projsRemove m.1, acc.2 ++ [(m.2, m.1, x.2)]) else none) (c, [])

/-- context.py:520-539: the agents arrive, and are no longer ghosts. -/
def Cx.arriveAll (c : Cx S P) (ms : List (Nat × S × Option (Dict Int))) : Option (Cx S P) :=
  (ms.foldlM (fun (acc : Cx S P × List Nat) m => (acc.1.arrive ty m.1 m.2.1 m.2.2).map fun x => (x.1, if x.2 then acc.2 ++ [m.1] else acc.2)) (c, ([] : List Nat))).bind
    fun x => x.1.deleteGhosts x.2

/-- context.py:486-549 `move_agents`: `ms r` is the list that rank `r` passes, of unique ids and ranks. -/
def moveAgents (n : Nat) (ms : Nat → List (Nat × Nat)) (w : World S P) : Option (World S P) :=
  let q : Nat → Option (Cx S P × List (Nat × Nat × S × Option (Dict Int))) := fun r => (w r).sendAway ty n (ms r)
  let out : Nat → List (Nat × Nat × S × Option (Dict Int)) := fun r => sent (q r)
  (each n (fun r => (q r).map (·.1)) w).bind fun w =>
    (each n (fun r => (w r).arriveAll ty ((recv n out r).map (·.2))) w).bind fun w =>
      (each n (fun r => (w r).preSynchAll) w).bind fun w => (moveOob ty n false w).bind fun w => synchGhosts n w

/-- The user moves a local agent on the grid `pid`. -/
def Cx.gmove (c : Cx S P) (pid u : Nat) (pt : Q) : Option (Cx S P) :=
  match get c.locals u with
  | some _ => c.projMove pid u pt
  | none => none

/-- context.py:70-94 `add_projection` and core.py:277-285 `add_ghosts_to_projection`, for a grid with a new name. -/
def Cx.addProjection (c : Cx S P) (p : P) : Cx S P :=
  let p := (keys c.locals ++ keys c.ghosts).foldl (fun p u => Proj.add c.rank p u) p
  { c with ghosts := c.ghosts.map fun e => (e.1, { e.2 with ref := e.2.ref + 1 }), projs := c.projs ++ [{ sp := p, buffered := [] }] }

/-- What a model does: local operations of one rank, and collective ones. -/
inductive WOp (S : Type) (P : Type := GridSp) (Q : Type := Pt) where
  | add (r u : Nat) (s : S)
  | remove (r u : Nat)
  | setState (r u : Nat) (s : S)
  | gmove (r pid u : Nat) (pt : Q)
  | request (rs : Nat → List (Nat × Nat))
  | move (ms : Nat → List (Nat × Nat))
  | synch (ghosts : Bool)
  | addProj (p : P)

/-- A local operation of rank `r`. -/
def at_ (n r : Nat) (f : Cx S P → Option (Cx S P)) (w : World S P) : Option (World S P) :=
  if r < n then (f (w r)).map fun c => upd w r c else none

def wstep (n : Nat) (w : World S P) : WOp S P Q → Option (World S P)
  | .add r u s => at_ n r (fun c => some (c.add ty u s)) w
  | .remove r u => at_ n r (fun c => c.remove ty u) w
  | .setState r u s => at_ n r (fun c => c.setState u s) w
  | .gmove r pid u pt => at_ n r (fun c => c.gmove pid u pt) w
  | .request rs => requestAgents n rs w
  | .move ms => moveAgents ty n ms w
  | .synch g => synchronize ty n g w
  | .addProj p => some fun r => (w r).addProjection p

/-- A history; `none` is an exception on some rank. -/
def wrun (n : Nat) (w : World S P) (ops : List (WOp S P Q)) : Option (World S P) := ops.foldlM (wstep ty n) w

/-- The contexts of `n` ranks at the beginning. -/
def World.start (ps : List P) : World S P := fun r => Cx.start r ps

/-- The contexts of `n` ranks with shared grids at the beginning. -/
abbrev World.init (grids : List GCfg) : World S := World.start (grids.map GCfg.new)

end Repast.Context
