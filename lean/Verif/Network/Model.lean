import Verif.Network.Graph
import Verif.Context.Model

/-
Model of `SharedNetwork`, `UndirectedSharedNetwork` and `DirectedSharedNetwork` (`/repo/src/repast4py/network.py:30-880`), of `AgentManager`
(`/repo/src/repast4py/core.py:66-305`) and of `SharedContext` (`/repo/src/repast4py/context.py`) for contexts whose projections are networks.

Agents are identified by their unique id, a number, agent objects by `Obj`: a rank may have several objects with the same unique id. Every object has a `local_rank`
(`lrank`). The state of an agent is kept with the local agent or the ghost of a rank, as in `Verif/Context/Model.lean`. The user's `restore_agent` is assumed to return a
new object with the unique id and the state that it is given, and the user's `update` method to set the state.

An exception is `none`. The user refers to agents by their unique id: the local agent with that id or else the ghost (context.py:360-388). Simplification: the dictionary
`_agents_by_type` of a context, which is modelled in `Verif/Context/Model.lean`, is not repeated here.
-/
namespace Repast.Network
open Repast.Dict Repast.Context

/-- network.py:30-34 `GhostedEdge`; `dict` is the dictionary object `edge_attr`. -/
structure GEdge where
  localA : Obj
  ghostA : Obj
  dict : Nat
  deriving DecidableEq, Repr

/-- The fields of a `SharedNetwork`: network.py:61-87, 625-627. -/
structure Net (A : Type) where
  g : Graph A
  /-- `canonical_edge_keys`; empty if the network is directed -/
  keys : Assoc.Assoc EKey EKey
  /-- `edges_to_update`: the elements of the set -/
  toUpdate : List EKey
  /-- `ghosted_edges` -/
  ghosted : Assoc.Assoc EKey GEdge
  /-- `new_edges` -/
  newEdges : Assoc.Assoc EKey GEdge
  /-- `edges_to_remove`: the index of the ghost, `false` is 0 and `true` is 1 -/
  toRemove : Assoc.Assoc EKey Bool
  /-- `_agent_moved_edges` -/
  movedEdges : List (Nat × Nat × Attr A)
  /-- `_no_longer_ghosts`: the ranks and unique ids -/
  noLonger : List (Nat × Nat)
  /-- `ghosts_to_ref` -/
  toRef : List Obj

variable {A : Type}

def Net.empty (directed : Bool) : Net A := ⟨Graph.empty directed, [], [], [], [], [], [], [], []⟩

/-! ### One network of one rank. `r` is `self.rank`, `lr` the `local_rank` of the agent objects. -/

/-- network.py:649-657, 790-800 `_get_edge_key`. -/
def Net.edgeKey (N : Net A) (k : EKey) : Option EKey := if N.g.directed then some k else Assoc.get N.keys k

/-- network.py:659-669, 813-822 `_add_edge_key`. -/
def Net.addKey (N : Net A) (u v : Obj) : Net A :=
  if N.g.directed then N else { N with keys := Assoc.set (Assoc.set N.keys (u, v) (u, v)) (v, u) (u, v) }

/-- network.py:671-680, 802-811 `_remove_edge_key`: two calls of `pop` without a default. -/
def Net.removeKey (N : Net A) (u v : Obj) : Option (Net A) :=
  if N.g.directed then some N
  else if (Assoc.get N.keys (u, v)).isSome then
    let keys := Assoc.del N.keys (u, v)
    if (Assoc.get keys (v, u)).isSome then some { N with keys := Assoc.del keys (v, u) } else none
  else none

/-- network.py:195-199 `add`. -/
def Net.add (N : Net A) (u : Obj) : Net A := { N with g := N.g.addNode u }

/-- network.py:201-208 `add_nodes`. -/
def Net.addNodes (N : Net A) (us : List Obj) : Net A := us.foldl Net.add N

/-- network.py:210-219 `remove`. -/
def Net.remove (N : Net A) (u : Obj) : Option (Net A) := (N.g.removeNode u).map fun g => { N with g := g }

/-- network.py:694-701, 704-710, 834-841, 844-850: the end of `add_edge` for an edge between a local agent and a ghost. -/
def Net.noteEdge (N : Net A) (u v loc gho : Obj) : Net A :=
  { N with
    newEdges := Assoc.set N.newEdges (u, v) ⟨loc, gho, (N.g.slot u v).getD 0⟩
    toRemove := Assoc.del N.toRemove (u, v) }

/-- network.py:695, 704, 842, 852 -/
def Net.noteRef (N : Net A) (gho : Obj) : Net A := if gho ∈ N.g.nodes then N else { N with toRef := N.toRef ++ [gho] }

/-- `self.graph.add_edge` and `_add_edge_key` -/
def Net.put (N : Net A) (u v : Obj) (at_ : Attr A) : Net A := ({ N with g := N.g.addEdge u v at_ } : Net A).addKey u v

/-- network.py:682-719, 824-859 `add_edge`. -/
def Net.addEdge (r : Nat) (lr : Obj → Nat) (N : Net A) (u v : Obj) (at_ : Attr A) : Net A :=
  if lr u = r ∧ lr v ≠ r then ((N.noteRef v).put u v at_).noteEdge u v u v
  else if lr u ≠ r ∧ lr v = r then ((N.noteRef u).put u v at_).noteEdge u v v u
  else N.put u v at_

/-- The edge has exactly one end on this rank (network.py:239-240, 254-255). -/
def crosses (r : Nat) (lr : Obj → Nat) (u v : Obj) : Bool := decide (lr u = r ∧ lr v ≠ r ∨ lr u ≠ r ∧ lr v = r)

/-- `for k, v in kwattr.items(): self.graph.edges[edge_key][k] = v` (network.py:236-237) -/
def Net.setAttrs (N : Net A) (key : EKey) (at_ : Attr A) : Option (Net A) :=
  if at_.isEmpty then some N
  else (N.g.slot key.1 key.2).map fun i => { N with g := { N.g with dicts := N.g.dicts.modify i (fun a => merge a at_) } }

/-- network.py:221-241 `update_edge`. -/
def Net.updateEdge (r : Nat) (lr : Obj → Nat) (N : Net A) (u v : Obj) (at_ : Attr A) : Option (Net A) :=
  (N.edgeKey (u, v)).bind fun key => (N.setAttrs key at_).map fun N =>
    if crosses r lr u v then { N with toUpdate := if key ∈ N.toUpdate then N.toUpdate else N.toUpdate ++ [key] } else N

/-- network.py:254-265 -/
def Net.forget (r : Nat) (lr : Obj → Nat) (N : Net A) (u v : Obj) : Option (Net A) :=
  if crosses r lr u v then
    (N.edgeKey (u, v)).bind fun key =>
      if (Assoc.get N.ghosted key).isSome then
        some { N with
          toRemove := Assoc.set N.toRemove key (decide (lr key.2 ≠ r))
          ghosted := Assoc.del N.ghosted key
          toUpdate := N.toUpdate.filter (fun k => decide (k ≠ key))
          newEdges := Assoc.del N.newEdges key }
      else none
  else some N

/-- network.py:243-266 `remove_edge`. -/
def Net.removeEdge (r : Nat) (lr : Obj → Nat) (N : Net A) (u v : Obj) : Option (Net A) :=
  (N.g.removeEdge u v).bind fun g => (({ N with g := g } : Net A).forget r lr u v).bind fun N => N.removeKey u v

/-- network.py:272-275: one ghosted edge. -/
def Net.clearOne (r : Nat) (lr : Obj → Nat) (N : Net A) (k : EKey) : Option (Net A) :=
  (N.edgeKey k).map fun key =>
    { N with toRemove := Assoc.set N.toRemove key (decide (lr key.1 = r)), toUpdate := N.toUpdate.filter (fun k => decide (k ≠ key)) }

/-- network.py:268-278 `clear_edges`. -/
def Net.clearEdges (r : Nat) (lr : Obj → Nat) (N : Net A) : Option (Net A) :=
  ((Assoc.keys N.ghosted).foldlM (Net.clearOne r lr) { N with g := N.g.clearEdges }).map fun N => { N with newEdges := [], ghosted := [] }

/-- network.py:638-647, 779-788 `_has_edge`. -/
def Net.hasAnyEdge (N : Net A) (u : Obj) : Option Bool := (N.g.edgesOf u).map fun l => !l.isEmpty

/-! ### The context of one rank -/

/-- core.py:23-41 `GhostAgent`, and the state of the ghost. -/
structure Gh (S : Type) where
  obj : Obj
  st : S
  ref : Int

/-- The context of one rank: context.py:31-41, core.py:78-86. -/
structure Cx (S A : Type) where
  rank : Nat
  /-- the number of agent objects made so far -/
  fresh : Nat
  /-- `local_rank` of the agent objects -/
  lrank : Obj → Nat
  /-- `_local_agents`: the object, and its state -/
  locals : Dict (Obj × S)
  /-- `_ghosted_agents`: the `ghost_ranks` -/
  ghosted : Dict (Dict Int)
  /-- `_ghost_agents` -/
  ghosts : Dict (Gh S)
  /-- `_req_ghosts` -/
  req : List Nat
  /-- `removed_ghosteds`: unique id and `ghost_ranks` -/
  removed : List (Nat × Dict Int)
  /-- `projections`: the networks -/
  nets : List (Net A)
  /-- the number of other projections in `projections`, see `Verif/Mixed/Model.lean` -/
  others : Nat

variable {S : Type}

def Cx.init (rank : Nat) (dirs : List Bool) (others : Nat := 0) : Cx S A :=
  { rank := rank, fresh := 0, lrank := fun _ => rank, locals := [], ghosted := [], ghosts := [], req := [], removed := [], nets := dirs.map Net.empty, others := others }

/-- `obj.local_rank = k` -/
def Cx.setRank (c : Cx S A) (o : Obj) (k : Nat) : Cx S A := { c with lrank := fun x => if x = o then k else c.lrank x }

/-- A new agent object. -/
def Cx.newObj (c : Cx S A) (u : Nat) : Obj × Cx S A := (⟨u, c.fresh⟩, { c with fresh := c.fresh + 1 })

/-- A statement for each projection. -/
def Cx.eachNet (c : Cx S A) (f : Net A → Option (Net A)) : Option (Cx S A) := (c.nets.mapM f).map fun ns => { c with nets := ns }

/-- `proj.add(agent)` for each projection -/
def Cx.netsAdd (c : Cx S A) (o : Obj) : Cx S A := { c with nets := c.nets.map fun N => N.add o }

/-- context.py:43-55 `add` of an agent object, core.py:139-146. -/
def Cx.addObj (c : Cx S A) (o : Obj) (s : S) : Cx S A :=
  ({ c with locals := Dict.set c.locals o.uid (o, s) }.setRank o c.rank).netsAdd o

/-- The user makes an agent and adds it. -/
def Cx.add (c : Cx S A) (u : Nat) (s : S) : Cx S A := (c.newObj u).2.addObj (c.newObj u).1 s

/-- context.py:115-128 `remove`, core.py:110-126. (An agent that is not local: a `KeyError`, context.py:126.) -/
def Cx.remove (c : Cx S A) (u : Nat) : Option (Cx S A) :=
  (Dict.get c.locals u).bind fun o =>
    let removed := match Dict.get c.ghosted u with
      | some d => c.removed ++ [(u, d)]
      | none => c.removed
    ({ c with ghosted := Dict.del c.ghosted u, locals := Dict.del c.locals u, removed := removed } : Cx S A).eachNet fun N => N.remove o.1

/-- An agent changes its own state. -/
def Cx.setState (c : Cx S A) (u : Nat) (s : S) : Option (Cx S A) :=
  (Dict.get c.locals u).map fun o => { c with locals := Dict.set c.locals u (o.1, s) }

/-- context.py:360-388: the agent object that the user gets for a unique id. -/
def Cx.find (c : Cx S A) (u : Nat) : Option Obj := ((Dict.get c.locals u).map (·.1)).or ((Dict.get c.ghosts u).map (·.obj))

/-- core.py:263-275 `add_ghost`. -/
def Cx.addGhost (c : Cx S A) (k : Nat) (o : Obj) (s : S) (incr : Int) : Cx S A :=
  { c with ghosts := Dict.set c.ghosts o.uid ⟨o, s, incr⟩ }.setRank o k

/-- core.py:287-305 `get_ghost`, the effect on the reference count. -/
def Cx.refGhost (c : Cx S A) (u : Nat) (incr : Int) : Cx S A :=
  match Dict.get c.ghosts u with
  | some g => { c with ghosts := Dict.set c.ghosts u { g with ref := g.ref + incr } }
  | none => c

/-- core.py:238-251 `remove_ghost`. -/
def Cx.removeGhost (c : Cx S A) (u : Nat) : Option (Cx S A) :=
  if u ∈ c.req then some c
  else (Dict.get c.ghosts u).map fun g =>
    { c with ghosts := if (g.ref - 1 : Int) = 0 then Dict.del c.ghosts u else Dict.set c.ghosts u { g with ref := g.ref - 1 } }

/-- core.py:253-261 `delete_ghost`. -/
def Cx.deleteGhost (c : Cx S A) (u : Nat) : Option (Cx S A) := (Dict.get c.ghosts u).map fun _ => { c with ghosts := Dict.del c.ghosts u }

/-- core.py:99-108 `add_req_ghost`. -/
def Cx.addReq (c : Cx S A) (u : Nat) : Cx S A := if u ∈ c.req then c else { c with req := c.req ++ [u] }

/-- core.py:157-169 `is_ghosted_to`. -/
def Cx.ghostedTo (c : Cx S A) (k u : Nat) : Bool :=
  match Dict.get c.ghosted u with
  | some d => (Dict.get d k).isSome
  | none => false

/-- core.py:171-192 `tag_as_ghosted`. -/
def Cx.tag (c : Cx S A) (k u : Nat) : Option (Cx S A) :=
  match Dict.get c.ghosted u with
  | some d => some { c with ghosted := Dict.set c.ghosted u (Dict.set d k (match Dict.get d k with | some n => n + 1 | none => 1)) }
  | none =>
    match Dict.get c.locals u with
    | some _ => some { c with ghosted := Dict.set c.ghosted u [(k, 1)] }
    | none => none

/-- core.py:194-203 `set_as_ghosted`. -/
def Cx.setGhosted (c : Cx S A) (u : Nat) (d : Dict Int) : Option (Cx S A) :=
  if d.isEmpty then some c
  else match Dict.get c.locals u with
    | some _ => some { c with ghosted := Dict.set c.ghosted u d }
    | none => none

/-- core.py:221-236 `untag_as_ghosted`. -/
def Cx.untag (c : Cx S A) (k u : Nat) : Option (Cx S A) :=
  (Dict.get c.ghosted u).bind fun d => (Dict.get d k).map fun n =>
    { c with ghosted := Dict.set c.ghosted u (if n - 1 = 0 then Dict.del d k else Dict.set d k (n - 1)) }

/-- context.py:57-60 `_add_ghost`. -/
def Cx.addGhostAll (c : Cx S A) (k : Nat) (o : Obj) (s : S) : Cx S A := (c.addGhost k o s (c.nets.length + c.others : Nat)).netsAdd o

/-- A method of the network `pid`. -/
def Cx.withNet (c : Cx S A) (pid : Nat) (f : Net A → Option (Net A)) : Option (Cx S A) :=
  (c.nets[pid]?).bind fun N => (f N).map fun N => { c with nets := c.nets.set pid N }

/-- The user calls `add_edge` of the network `pid`. -/
def Cx.addEdge (c : Cx S A) (pid u v : Nat) (at_ : Attr A) : Option (Cx S A) :=
  (c.find u).bind fun u => (c.find v).bind fun v => c.withNet pid fun N => some (N.addEdge c.rank c.lrank u v at_)

/-- The user calls `update_edge` of the network `pid`. -/
def Cx.updateEdge (c : Cx S A) (pid u v : Nat) (at_ : Attr A) : Option (Cx S A) :=
  (c.find u).bind fun u => (c.find v).bind fun v => c.withNet pid fun N => N.updateEdge c.rank c.lrank u v at_

/-- The user calls `remove_edge` of the network `pid`. -/
def Cx.removeEdge (c : Cx S A) (pid u v : Nat) : Option (Cx S A) :=
  (c.find u).bind fun u => (c.find v).bind fun v => c.withNet pid fun N => N.removeEdge c.rank c.lrank u v

/-- The user calls `clear_edges` of the network `pid`. -/
def Cx.clearEdges (c : Cx S A) (pid : Nat) : Option (Cx S A) := c.withNet pid fun N => N.clearEdges c.rank c.lrank

/-! ### Synchronization of a network: what one rank does -/

/-- network.py:298-302: the messages about removed edges; the local agents of the edges are untagged. -/
def Cx.sendRemoved (n pid : Nat) (c : Cx S A) : Option (Cx S A × List (Nat × Nat × Nat)) :=
  (c.nets[pid]?).bind fun N =>
    (N.toRemove.foldlM (fun (acc : Cx S A × List (Nat × Nat × Nat)) e =>
      let gho := if e.2 then e.1.2 else e.1.1
      let loc := if e.2 then e.1.1 else e.1.2
      if c.lrank gho < n then (acc.1.untag (c.lrank gho) loc.uid).map fun c' => (c', acc.2 ++ [(c.lrank gho, e.1.1.uid, e.1.2.uid)]) else none)
      (c, [])).bind fun x => (x.1.withNet pid fun N => some { N with toRemove := [] }).map fun c => (c, x.2)

/-- network.py:314-319, 321-329: an edge is removed, and its ghost if it has no other edge. -/
def Cx.dropEdge (c : Cx S A) (pid : Nat) (u v gho : Obj) : Option (Cx S A) :=
  (c.withNet pid fun N => (N.g.removeEdge u v).map fun g => { N with g := g }).bind fun c =>
    ((c.nets[pid]?).bind fun N => N.hasAnyEdge gho).bind fun b =>
      (if b then some c else (c.removeGhost gho.uid).bind fun c => c.withNet pid fun N => N.remove gho).bind fun c =>
        c.withNet pid fun N => N.removeKey u v

/-- The ends of an edge that another rank has sent: one is a ghost and one is local (network.py:308-313, 321-323, 398-406). The third component is the ghost. -/
def Cx.ends (c : Cx S A) (u v : Nat) : Option (Obj × Obj × Obj) :=
  match Dict.get c.ghosts u with
  | none => (Dict.get c.locals u).bind fun o => (Dict.get c.ghosts v).map fun g => (o.1, g.obj, g.obj)
  | some g => (Dict.get c.locals v).map fun o => (g.obj, o.1, g.obj)

/-- network.py:306-330 -/
def Cx.recvRemoved (pid : Nat) (c : Cx S A) (m : Nat × Nat) : Option (Cx S A) :=
  (c.ends m.1 m.2).bind fun e => c.dropEdge pid e.1 e.2.1 e.2.2

/-- What a rank sends to synchronize vertices and edges. -/
structure Sync (S A : Type) where
  agents : List (Nat × Nat × S)
  edges : List (Nat × Nat × Nat × Attr A)

/-- network.py:352-363: one new edge. -/
def Cx.sendNew (n pid : Nat) (acc : Cx S A × Sync S A) (e : EKey × GEdge) : Option (Cx S A × Sync S A) :=
  let k := acc.1.lrank e.2.ghostA
  if k < n then
    (acc.1.nets[pid]?).bind fun N =>
      (acc.1.withNet pid fun N => some { N with ghosted := Assoc.set N.ghosted e.1 e.2 }).bind fun c =>
        (if c.ghostedTo k e.2.localA.uid then some (c, acc.2.agents)
          else (Dict.get c.locals e.2.localA.uid).bind fun o => (c.tag k e.2.localA.uid).map fun c => (c, acc.2.agents ++ [(k, e.2.localA.uid, o.2)])).map fun x =>
            (x.1, ⟨x.2, acc.2.edges ++ [(k, e.1.1.uid, e.1.2.uid, N.g.dict e.2.dict)]⟩)
  else none

/-- network.py:366-369: one updated edge. -/
def Cx.sendUpdated (n pid : Nat) (acc : Cx S A × Sync S A) (key : EKey) : Option (Cx S A × Sync S A) :=
  (acc.1.nets[pid]?).bind fun N => (Assoc.get N.ghosted key).bind fun e =>
    let k := acc.1.lrank e.ghostA
    if k < n then some (acc.1, { acc.2 with edges := acc.2.edges ++ [(k, key.1.uid, key.2.uid, N.g.dict e.dict)] }) else none

/-- network.py:350-370: `_sync_vertices` before the messages are exchanged. -/
def Cx.sendSync (n pid : Nat) (c : Cx S A) : Option (Cx S A × Sync S A) :=
  (c.nets[pid]?).bind fun N =>
    (N.newEdges.foldlM (Cx.sendNew n pid) (c, ⟨[], []⟩)).bind fun x =>
      (N.toUpdate.foldlM (Cx.sendUpdated n pid) x).bind fun x =>
        (x.1.withNet pid fun N => some { N with newEdges := [], toUpdate := [] }).map fun c => (c, x.2)

/-- network.py:373-378: an agent is received, from rank `m.1`. -/
def Cx.recvVertex (pid : Nat) (c : Cx S A) (m : Nat × Nat × S) : Option (Cx S A) :=
  let o := c.newObj m.2.1
  (o.2.addGhost m.1 o.1 m.2.2 1).withNet pid fun N => some (N.add o.1)

/-- network.py:396-409: an edge is received. -/
def Cx.recvEdge (pid : Nat) (c : Cx S A) (m : Nat × Nat × Attr A) : Option (Cx S A) :=
  (c.ends m.1 m.2.1).bind fun e => c.withNet pid fun N => some (N.put e.1 e.2.1 m.2.2)

/-- network.py:434-441 -/
def Cx.refOne (n pid : Nat) (acc : Cx S A × List (Nat × Nat)) (o : Obj) : Option (Cx S A × List (Nat × Nat)) :=
  (acc.1.nets[pid]?).bind fun N =>
    if o ∈ N.g.nodes then
      -- The state of a ghost that is not registered is that of the local agent it stands for; it is not known here: an error (simplification)
      (match Dict.get acc.1.ghosts o.uid with
        | some _ => some (acc.1.refGhost o.uid 1)
        | none => none).bind fun c =>
          if acc.1.lrank o < n then some (c, acc.2 ++ [(acc.1.lrank o, o.uid)]) else none
    else some acc

/-- network.py:432-443: `_pre_synch_ghosts` before the messages are exchanged. -/
def Cx.sendRefs (n pid : Nat) (c : Cx S A) : Option (Cx S A × List (Nat × Nat)) :=
  (c.nets[pid]?).bind fun N => (N.toRef.foldlM (Cx.refOne n pid) (c, [])).bind fun x =>
    (x.1.withNet pid fun N => some { N with toRef := [] }).map fun c => (c, x.2)

/-- network.py:500-529: one edge of an agent that leaves. The accumulator: the context, the `ghost_ranks` in `moving_agent_data`, the edges and the nodes to remove. -/
def Cx.movingEdge (pid : Nat) (o : Obj) (s : S) (dest : Nat) (acc : Cx S A × Option (Dict Int) × List EKey × List Obj) (e : EKey × Nat) :
    Option (Cx S A × Option (Dict Int) × List EKey × List Obj) :=
  let other := if e.1.1.uid = o.uid then e.1.2 else e.1.1
  (acc.1.nets[pid]?).bind fun N =>
    if acc.1.lrank other ≠ acc.1.rank ∧ other.uid ∉ acc.1.req then
      (N.g.numEdges other).bind fun k =>
        if k = 1 then
          (acc.1.removeGhost other.uid).bind fun c =>
            (c.withNet pid fun N => some { N with noLonger := N.noLonger ++ [(acc.1.lrank other, other.uid)] }).map fun c =>
              (c, acc.2.1, acc.2.2.1 ++ [e.1], acc.2.2.2 ++ [other])
        else some (acc.1, acc.2.1, acc.2.2.1 ++ [e.1], acc.2.2.2)
    else
      let d := acc.2.1.getD []
      let d := Dict.set d acc.1.rank (match Dict.get d acc.1.rank with | some m => m + 1 | none => 1)
      ((acc.1.addGhost dest o s 0).withNet pid fun N => some { N with movedEdges := N.movedEdges ++ [(e.1.1.uid, e.1.2.uid, N.g.dict e.2)] }).map fun c =>
        (c, some d, acc.2.2)

/-- network.py:476-545 `_agent_moving_rank`. -/
def Cx.moving (pid : Nat) (o : Obj) (s : S) (dest : Nat) (acc : Cx S A × Option (Dict Int)) : Option (Cx S A × Option (Dict Int)) :=
  (acc.1.nets[pid]?).bind fun N => (N.g.edgesOf o).bind fun es =>
    (es.foldlM (Cx.movingEdge pid o s dest) (acc.1, acc.2, [], [])).bind fun x =>
      (x.2.2.1.foldlM (fun (c : Cx S A) k => c.withNet pid fun N => (N.g.removeEdge k.1 k.2).bind fun g => ({ N with g := g } : Net A).removeKey k.1 k.2) x.1).bind fun c =>
        (x.2.2.2.foldlM (fun (c : Cx S A) u => c.withNet pid fun N => N.remove u) c).bind fun c =>
          (c.withNet pid fun N => N.remove o).map fun c => (c, x.2.1)

/-- network.py:575-582: an edge of the former ghost of the agent `o`. -/
def Graph.replaceEdge (o : Obj) (g : Graph A) (e : EKey × Nat) : Option (Graph A) :=
  (g.removeEdge e.1.1 e.1.2).map fun g' =>
    if e.1.1.uid = o.uid then g'.addEdge o e.1.2 (g.dict e.2) else g'.addEdge e.1.1 o (g.dict e.2)

/-- network.py:593-599: an edge of a ghost that has moved to `dest`. -/
def Cx.redirect (pid dest : Nat) (c : Cx S A) (e : EKey × Nat) : Option (Cx S A) :=
  (c.nets[pid]?).bind fun N => (N.edgeKey e.1).bind fun key =>
    match Assoc.get N.ghosted key with
    | none => some c
    | some ge => (c.setRank ge.ghostA dest).withNet pid fun N => some { N with newEdges := Assoc.set N.newEdges key ge }

/-- network.py:567-599: one agent that has moved. -/
def Cx.movedOne (pid : Nat) (c : Cx S A) (m : Nat × Nat) : Option (Cx S A) :=
  match Dict.get c.ghosts m.1 with
  | none => some c
  | some gh =>
    if m.2 = c.rank then
      (Dict.get c.locals m.1).bind fun o => (c.refGhost m.1 1).withNet pid fun N =>
        (N.g.edgesOf gh.obj).bind fun es => (es.foldlM (Graph.replaceEdge o.1) N.g).bind fun g =>
          (g.removeNode gh.obj).map fun g => { N with g := g }
    else (c.nets[pid]?).bind fun N => (N.g.edgesOf gh.obj).bind fun es => es.foldlM (Cx.redirect pid m.2) c

/-- network.py:459-471: the edges of moved agents are added again. -/
def Cx.readdEdges (pid : Nat) (c : Cx S A) : Option (Cx S A) :=
  (c.nets[pid]?).bind fun N =>
    (N.movedEdges.foldlM (fun (c : Cx S A) e => c.addEdge pid e.1 e.2.1 e.2.2) c).bind fun c => c.withNet pid fun N => some { N with movedEdges := [] }

/-! ### All of the ranks -/

abbrev World (S A : Type) := Nat → Cx S A

/-- Each rank does something; an exception on any rank ends the model. -/
def each (n : Nat) (f : Nat → Option (Cx S A)) (w : World S A) : Option (World S A) :=
  let l := (List.range n).map f
  if l.all (·.isSome) then some (fun r => (l[r]?.bind id).getD (w r)) else none

/-- Each rank does something and sends messages; then each rank processes the messages that it receives. -/
def exchange {M : Type} (n : Nat) (send : Cx S A → Option (Cx S A × List (Nat × M))) (recv1 : Cx S A → Nat × M → Option (Cx S A)) (w : World S A) :
    Option (World S A) :=
  let q := (List.range n).map fun r => send (w r)
  let out : Nat → List (Nat × M) := fun r => sent (q[r]?.bind id)
  (each n (fun r => (q[r]?.bind id).map (·.1)) w).bind fun w => each n (fun r => (recv n out r).foldlM recv1 (w r)) w

/-- What a rank sends (network.py:371 and 394). -/
def sentAgents : Option (Cx S A × Sync S A) → List (Nat × Nat × S)
  | some y => y.2.agents
  | none => []

def sentEdges : Option (Cx S A × Sync S A) → List (Nat × Nat × Nat × Attr A)
  | some y => y.2.edges
  | none => []

/-- network.py:411-421 `_synch_ghosts` of the network `pid`. -/
def synchNet (n pid : Nat) (w : World S A) : Option (World S A) :=
  (exchange n (fun c => c.sendRemoved n pid) (fun c m => c.recvRemoved pid m.2) w).bind fun w =>
    let q := (List.range n).map fun r => (w r).sendSync n pid
    let x : Nat → Option (Cx S A × Sync S A) := fun r => q[r]?.bind id
    (each n (fun r => (x r).map (·.1)) w).bind fun w =>
      (each n (fun r => (recv n (fun s => sentAgents (x s)) r).foldlM (fun c m => c.recvVertex pid m) (w r)) w).bind fun w =>
        each n (fun r => (recv n (fun s => sentEdges (x s)) r).foldlM (fun c m => c.recvEdge pid m.2) (w r)) w

/-- network.py:423-448 `_pre_synch_ghosts` of the network `pid`. -/
def preSynchNet (n pid : Nat) (w : World S A) : Option (World S A) :=
  exchange n (fun c => c.sendRefs n pid) (fun c m => c.tag m.1 m.2) w

/-- context.py:213-215: the messages about removed agents. -/
def Cx.sendRemovedAgents (n : Nat) (c : Cx S A) : Option (Cx S A × List (Nat × Nat)) :=
  let l := c.removed.flatMap fun e => (Dict.keys e.2).map fun k => (k, e.1)
  if l.all (fun m => decide (m.1 < n)) then some ({ c with removed := [] }, l) else none

/-- context.py:219-222 -/
def Cx.dropGhost (c : Cx S A) (u : Nat) : Option (Cx S A) :=
  (Dict.get c.ghosts u).bind fun g => ((c.refGhost u 1).eachNet fun N => N.remove g.obj).bind fun c => c.deleteGhost u

/-- context.py:231-234: the state updates a rank sends. -/
def Cx.sendStates (n : Nat) (c : Cx S A) : Option (Cx S A × List (Nat × Nat × S)) :=
  let l := c.ghosted.flatMap fun e => (Dict.keys e.2).map fun k => (k, e.1)
  if l.all (fun m => decide (m.1 < n)) then (l.mapM fun m => (Dict.get c.locals m.2).map fun o => (m.1, m.2, o.2)).map fun l => (c, l) else none

/-- context.py:238-239 -/
def Cx.updateGhost (c : Cx S A) (u : Nat) (s : S) : Option (Cx S A) :=
  (Dict.get c.ghosts u).map fun g => { c with ghosts := Dict.set c.ghosts u { g with st := s } }

/-- context.py:226-239 `_update_ghosts`. -/
def updateGhosts (n : Nat) (w : World S A) : Option (World S A) :=
  (exchange n (fun c => c.sendRemovedAgents n) (fun c m => c.dropGhost m.2) w).bind fun w =>
    exchange n (fun c => c.sendStates n) (fun c m => c.updateGhost m.2.1 m.2.2) w

/-- The number of projections, which is the same on all ranks. -/
def World.count (w : World S A) : Nat := (w 0).nets.length

def eachPid (f : Nat → World S A → Option (World S A)) (w : World S A) : Option (World S A) :=
  (List.range w.count).foldlM (fun w pid => f pid w) w

/-- context.py:263-308 `synchronize`, with networks only: nothing moves out of bounds. `sync_ghosts=False` does nothing. -/
def synchronize (n : Nat) (ghosts : Bool) (w : World S A) : Option (World S A) :=
  if ghosts then (eachPid (preSynchNet n) w).bind fun w => (updateGhosts n w).bind fun w => eachPid (synchNet n) w else some w

/-- The body of the loop context.py:420-433. -/
def Cx.sendRequest (n : Nat) (acc : Cx S A × List (Nat × Nat)) (q : Nat × Nat) : Option (Cx S A × List (Nat × Nat)) :=
  match Dict.get acc.1.ghosts q.1 with
  | none => if q.2 < n then some (acc.1, acc.2 ++ [(q.2, q.1)]) else none
  | some g => some ((acc.1.addReq q.1).netsAdd g.obj, acc.2)

/-- context.py:456-461: the owner tags an agent and sends its state. -/
def Cx.answer (acc : Cx S A × List (Nat × Nat × S)) (q : Nat × Nat) : Option (Cx S A × List (Nat × Nat × S)) :=
  (acc.1.tag q.1 q.2).bind fun c => (Dict.get c.locals q.2).map fun o => (c, acc.2 ++ [(q.1, q.2, o.2)])

/-- context.py:464-469: a requested agent arrives, from rank `m.1`. -/
def Cx.recvRequested (c : Cx S A) (m : Nat × Nat × S) : Cx S A :=
  let o := c.newObj m.2.1
  (o.2.addGhostAll m.1 o.1 m.2.2).addReq m.2.1

/-- context.py:438-471 `request_agents`: `rs r` is the list that rank `r` passes, of unique ids and ranks. -/
def requestAgents (n : Nat) (rs : Nat → List (Nat × Nat)) (w : World S A) : Option (World S A) :=
  let q := (List.range n).map fun r => (rs r).foldlM (Cx.sendRequest n) (w r, ([] : List (Nat × Nat)))
  (each n (fun r => (q[r]?.bind id).map (·.1)) w).bind fun w =>
    let a := (List.range n).map fun r => (recv n (fun s => sent (q[s]?.bind id)) r).foldlM Cx.answer (w r, ([] : List (Nat × Nat × S)))
    (each n (fun r => (a[r]?.bind id).map (·.1)) w).bind fun w =>
      each n (fun r => some ((recv n (fun s => sent (a[s]?.bind id)) r).foldl Cx.recvRequested (w r))) w

/-- context.py:505-516: an agent leaves the rank. -/
def Cx.sendAway (n : Nat) (acc : Cx S A × List (Nat × Nat × S × Option (Dict Int))) (m : Nat × Nat) : Option (Cx S A × List (Nat × Nat × S × Option (Dict Int))) :=
  (Dict.get acc.1.locals m.1).bind fun o =>
    if m.2 < n then
      ((List.range acc.1.nets.length).foldlM (fun a pid => Cx.moving pid o.1 o.2 m.2 a)
        ({ acc.1 with locals := Dict.del acc.1.locals m.1, ghosted := Dict.del acc.1.ghosted m.1 }, Dict.get acc.1.ghosted m.1)).map fun x =>
          (x.1, acc.2 ++ [(m.2, m.1, o.2, x.2)])
    else none

/-- context.py:522-532: an agent arrives. The second component of the accumulator are the agents that were ghosts here. -/
def Cx.arrive (acc : Cx S A × List Nat) (m : Nat × S × Option (Dict Int)) : Option (Cx S A × List Nat) :=
  let c := acc.1.add m.1 m.2.1
  ((match m.2.2 with
    | none => some c
    | some d => c.setGhosted m.1 (Dict.del d c.rank))).map fun c => (c, if (Dict.get acc.1.ghosts m.1).isSome then acc.2 ++ [m.1] else acc.2)

/-- network.py:562-565: the agents that are no longer ghosted. -/
def Cx.sendNoLonger (n pid : Nat) (c : Cx S A) : Option (Cx S A × List (Nat × Nat)) :=
  (c.nets[pid]?).bind fun N =>
    if N.noLonger.all (fun m => decide (m.1 < n)) then (c.withNet pid fun N => some { N with noLonger := [] }).map fun c => (c, N.noLonger) else none

/-- network.py:547-599 `_agents_moved_rank` of the network `pid`; `ms s` are the agents that moved off rank `s`, with their destinations. -/
def agentsMoved (n : Nat) (ms : Nat → List (Nat × Nat)) (pid : Nat) (w : World S A) : Option (World S A) :=
  (exchange n (fun c => c.sendNoLonger n pid) (fun c m => c.untag m.1 m.2) w).bind fun w =>
    each n (fun r => (((List.range n).filter (fun s => decide (s ≠ r))).flatMap ms).foldlM (Cx.movedOne pid) (w r)) w

/-- network.py:450-474 `_post_agents_moved_rank` of the network `pid`. -/
def postMoved (n pid : Nat) (w : World S A) : Option (World S A) :=
  (each n (fun r => (w r).readdEdges pid) w).bind fun w => synchNet n pid w

/-- context.py:486-549 `move_agents`: `ms r` is the list that rank `r` passes, of unique ids and ranks. -/
def moveAgents (n : Nat) (ms : Nat → List (Nat × Nat)) (w : World S A) : Option (World S A) :=
  let q := (List.range n).map fun r => (ms r).foldlM (Cx.sendAway n) (w r, ([] : List (Nat × Nat × S × Option (Dict Int))))
  (each n (fun r => (q[r]?.bind id).map (·.1)) w).bind fun w =>
    let a := (List.range n).map fun r => (((recv n (fun s => sent (q[s]?.bind id)) r).map (·.2)).foldlM Cx.arrive (w r, ([] : List Nat)))
    (each n (fun r => (a[r]?.bind id).map (·.1)) w).bind fun w =>
      (if (List.range n).all (fun r => (ms r).isEmpty) then some w else eachPid (agentsMoved n ms) w).bind fun w =>
        (each n (fun r => (sent (a[r]?.bind id)).foldlM (fun (c : Cx S A) u => c.deleteGhost u) (w r)) w).bind fun w =>
          (eachPid (preSynchNet n) w).bind fun w => (updateGhosts n w).bind fun w =>
            (eachPid (synchNet n) w).bind fun w => eachPid (postMoved n) w

/-- What a model does: operations of one rank, and collective ones. `pid` is the number of a network. -/
inductive WOp (S A : Type) where
  | add (r u : Nat) (s : S)
  | remove (r u : Nat)
  | setState (r u : Nat) (s : S)
  | addEdge (r pid u v : Nat) (at_ : Attr A)
  | updateEdge (r pid u v : Nat) (at_ : Attr A)
  | removeEdge (r pid u v : Nat)
  | clearEdges (r pid : Nat)
  | request (rs : Nat → List (Nat × Nat))
  | move (ms : Nat → List (Nat × Nat))
  | synch (ghosts : Bool)

/-- An operation of rank `r`. -/
def at_ (n r : Nat) (f : Cx S A → Option (Cx S A)) (w : World S A) : Option (World S A) :=
  if r < n then (f (w r)).map fun c => fun k => if k = r then c else w k else none

def wstep (n : Nat) (w : World S A) : WOp S A → Option (World S A)
  | .add r u s => at_ n r (fun c => some (c.add u s)) w
  | .remove r u => at_ n r (fun c => c.remove u) w
  | .setState r u s => at_ n r (fun c => c.setState u s) w
  | .addEdge r pid u v a => at_ n r (fun c => c.addEdge pid u v a) w
  | .updateEdge r pid u v a => at_ n r (fun c => c.updateEdge pid u v a) w
  | .removeEdge r pid u v => at_ n r (fun c => c.removeEdge pid u v) w
  | .clearEdges r pid => at_ n r (fun c => c.clearEdges pid) w
  | .request rs => requestAgents n rs w
  | .move ms => moveAgents n ms w
  | .synch g => synchronize n g w

/-- A history; `none` is an exception on some rank. -/
def wrun (n : Nat) (w : World S A) (ops : List (WOp S A)) : Option (World S A) := ops.foldlM (wstep n) w

/-- The contexts of the ranks at the beginning: `dirs` says which of the networks are directed. -/
def World.init (dirs : List Bool) (others : Nat := 0) : World S A := fun r => Cx.init r dirs others

/-! ### What the user sees -/

/-- network.py:280-290 `contains_edge`, of the agents with the given unique ids; `false` if there is no such agent on the rank. -/
def Cx.containsEdge (c : Cx S A) (pid u v : Nat) : Bool :=
  match c.nets[pid]?, c.find u, c.find v with
  | some N, some u, some v => N.g.hasEdge u v
  | _, _, _ => false

/-- `graph.edges[(u, v)]`. -/
def Cx.edgeAttr (c : Cx S A) (pid u v : Nat) : Option (Attr A) :=
  match c.nets[pid]?, c.find u, c.find v with
  | some N, some u, some v => N.g.attr u v
  | _, _, _ => none

/-- The unique ids of the nodes, network.py:89-96 `__iter__`. -/
def Cx.nodeIds (c : Cx S A) (pid : Nat) : List Nat :=
  match c.nets[pid]? with
  | some N => N.g.nodes.map (·.uid)
  | none => []

def Cx.agent (c : Cx S A) (u : Nat) : Option S := (Dict.get c.locals u).map (·.2)
def Cx.ghostAgent (c : Cx S A) (u : Nat) : Option S := (Dict.get c.ghosts u).map (·.st)

end Repast.Network
