import Verif.Network.Violations

/-
C20: networks in checkpoints. Model of checkpoint.py:339-447 for the contexts of `Verif/Network/Model.lean`.

Simplifications: `save_network` is called with the rank of the process and the checkpoint is pickled before the network changes again (but see `NetworkLive.lean`), so that the attributes in it are
values (in the code they are the dictionaries of the graph); pickling and loading gives an equal object; `restore_network` is called on all ranks, with a network that is a projection
of the context (as in `/repo/tests/test_checkpoint.py:182-187`), and the user's `create_agent` makes an agent with the unique id and the state that it is given.
-/
namespace Repast.Network
open Repast.Dict Repast.Context

variable {S A : Type}

/-- checkpoint.py:350-353 and 357-358: an element of `data`. The lists have the unique id and the `local_rank` of the other agent, and the attributes of the edge.
An undirected network has `succ` only. -/
structure SavedNode (A : Type) where
  uid : Nat
  succ : List (Nat × Nat × Attr A)
  pred : List (Nat × Nat × Attr A)

/-- checkpoint.py:349-353, 356-358: one node. -/
def Cx.saveNode (c : Cx S A) (N : Net A) (nd : Obj) : SavedNode A :=
  if N.g.directed then
    ⟨nd.uid, (N.g.outEdges nd).map fun e => (e.1.2.uid, c.lrank e.1.2, N.g.dict e.2), (N.g.inEdges nd).map fun e => (e.1.1.uid, c.lrank e.1.1, N.g.dict e.2)⟩
  else ⟨nd.uid, (N.g.nbrEdges nd).map fun e => (e.1.2.uid, c.lrank e.1.2, N.g.dict e.2), []⟩

/-- checkpoint.py:339-362 `save_network` of the network `pid`: what is saved. -/
def Cx.saveNetwork (c : Cx S A) (pid : Nat) : Option (List (SavedNode A)) :=
  (c.nets[pid]?).map fun N => (N.g.nodes.filter fun nd => decide (c.lrank nd = c.rank)).map (c.saveNode N)

/-- The state of `restore` of a `NetworkRestorer`: the context, `requests` and `ghost_edges`. The first component of a ghost edge is `true` for `_make_suc_edge`. -/
structure Restoring (S A : Type) where
  cx : Cx S A
  requests : Dict Nat
  edges : List (Bool × Nat × Nat × Attr A)

/-- checkpoint.py:414-424 `_add_edges`: one edge. `suc` says which of the functions are passed (checkpoint.py:402-412). If the node is not a local agent of the context, `node` is `None`,
and there is an `AttributeError`. -/
def Restoring.addEdge (pid : Nat) (node : Nat) (suc : Bool) (acc : Restoring S A) (e : Nat × Nat × Attr A) : Option (Restoring S A) :=
  if (Dict.get acc.cx.locals node).isSome then
    match acc.cx.find e.1 with
    | none => some { acc with requests := Dict.set acc.requests e.1 e.2.1, edges := acc.edges ++ [if suc then (true, node, e.1, e.2.2) else (false, e.1, node, e.2.2)] }
    | some _ => (if suc then acc.cx.addEdge pid node e.1 e.2.2 else acc.cx.addEdge pid e.1 node e.2.2).map fun c => { acc with cx := c }
  else none

/-- checkpoint.py:438-441 and 443-445: one node. -/
def Restoring.addNode (pid : Nat) (acc : Restoring S A) (x : SavedNode A) : Option (Restoring S A) :=
  (x.succ.foldlM (Restoring.addEdge pid x.uid true) acc).bind fun acc => x.pred.foldlM (Restoring.addEdge pid x.uid false) acc

/-- checkpoint.py:433-447 `restore`. -/
def Cx.restore (pid : Nat) (c : Cx S A) (data : List (SavedNode A)) : Option (Restoring S A) := data.foldlM (Restoring.addNode pid) ⟨c, [], []⟩

/-- checkpoint.py:426-431 `create_ghost_edges`: one edge. `requests[v]` is a `KeyError` if `v` was not requested, and else the ghost; `context.agent(u)` is `None`, and there is an
`AttributeError`, if `u` is not a local agent. -/
def Cx.ghostEdge (pid : Nat) (requests : Dict Nat) (c : Cx S A) (e : Bool × Nat × Nat × Attr A) : Option (Cx S A) :=
  if (Dict.get requests e.2.2.1).isSome && (Dict.get c.locals e.2.1).isSome then
    if e.1 then c.addEdge pid e.2.1 e.2.2.1 e.2.2.2 else c.addEdge pid e.2.2.1 e.2.1 e.2.2.2
  else none

/-- checkpoint.py:363-391 `restore_network` on all ranks; `data r` is what rank `r` has saved. -/
def restoreNetwork (n pid : Nat) (data : Nat → List (SavedNode A)) (w : World S A) : Option (World S A) :=
  let q := (List.range n).map fun r => (w r).restore pid (data r)
  let x : Nat → Option (Restoring S A) := fun r => q[r]?.bind id
  (each n (fun r => (x r).map (·.cx)) w).bind fun w =>
    (requestAgents n (fun r => ((x r).map (·.requests)).getD []) w).bind fun w =>
      each n (fun r => (((x r).map (·.edges)).getD []).foldlM (Cx.ghostEdge pid (((x r).map (·.requests)).getD [])) (w r)) w

/-- All ranks save the network, and the local agents, and restore them into new contexts. -/
def roundTrip (n : Nat) (d : Bool) (pop : Nat → List (Nat × S)) (w : World S A) : Option (World S A) :=
  let q := (List.range n).map fun r => (w r).saveNetwork 0
  if q.all (·.isSome) then
    (wrun n (World.init [d]) ((List.range n).flatMap fun r => (pop r).map fun a => .add r a.1 a.2)).bind fun w' =>
      restoreNetwork n 0 (fun r => (q[r]?.bind id).getD []) w'
  else none

/-! ### Violations -/

/-- The local agents of a rank, and their states. -/
def Cx.population (c : Cx S A) : List (Nat × S) := c.locals.map fun e => (e.1, e.2.2)

/-- A history, a round trip, and then another history. -/
def restored (d : Bool) (ops ops' : List (WOp Nat Nat)) : Option (World Nat Nat) :=
  (wrun 2 (World.init [d]) ops).bind fun w => (roundTrip 2 d (fun r => (w r).population) w).bind fun w => wrun 2 w ops'

/-- What rank `r` sees of the agent `u` and of the edge from `u` to `v`. -/
def seenBy (w : Option (World Nat Nat)) (r u v : Nat) : Option Seen := w.map fun w => ⟨(w r).agent u, (w r).ghostAgent u, (w r).edgeAttr 0 u v⟩

/-- Two ranks and an edge between them, which is there on both ranks. -/
def linkedUp : List (WOp Nat Nat) := four ++ [.addEdge 0 0 1 11 [(0, 3)], .addEdge 0 0 1 2 [(0, 9)], .synch true]

/-- C20 is violated: if a directed network has an edge from an agent of another rank, `restore_network` raises an exception. -/
theorem C20_violation_directed : (wrun 2 (World.init [true]) linkedUp).isSome = true ∧ restored true linkedUp [] = none := by
  refine ⟨by decide +kernel, ?_⟩
  have : (restored true linkedUp []).isNone = true := by decide +kernel
  simpa using this

/-- What should happen, and does: the network is not directed. -/
theorem linkedUp_restored :
    seenBy (restored false linkedUp []) 0 1 11 = some ⟨some 5, none, some [(0, 3)]⟩ ∧ seenBy (restored false linkedUp []) 1 11 1 = some ⟨some 7, none, some [(0, 3)]⟩ ∧
    seenBy (restored false linkedUp []) 1 1 11 = some ⟨none, some 5, some [(0, 3)]⟩ ∧ seenBy (restored false linkedUp []) 0 2 1 = some ⟨some 6, none, some [(0, 9)]⟩ := by
  refine ⟨?_, ?_, ?_, ?_⟩ <;> decide +kernel

/-- C20 is violated: in the network that was saved, rank 0 can update or remove the edge and synchronize; in the network that is restored, after the next `synchronize`, it cannot. -/
theorem C20_violation_update :
    (wrun 2 (World.init [false]) (linkedUp ++ [.updateEdge 0 0 1 11 [(0, 4)], .synch true])).isSome = true ∧
    (wrun 2 (World.init [false]) (linkedUp ++ [.removeEdge 0 0 1 11, .synch true])).isSome = true ∧
    (restored false linkedUp [.synch true]).isSome = true ∧
    (restored false linkedUp [.synch true, .updateEdge 0 0 1 11 [(0, 4)], .synch true]).isNone = true ∧
    (restored false linkedUp [.synch true, .removeEdge 0 0 1 11]).isNone = true := by
  refine ⟨?_, ?_, ?_, ?_, ?_⟩ <;> decide +kernel

end Repast.Network
