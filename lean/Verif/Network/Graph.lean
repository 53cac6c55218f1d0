import Verif.Context.Dict
import Verif.Network.Assoc

/-
The part of networkx's `Graph` and `DiGraph` that `/repo/src/repast4py/network.py` uses. (networkx is a dependency; its source is not in `/repo`. What is
modelled is its documented behaviour: https://networkx.org.)

Nodes are agent objects. `Agent` (`/repo/src/repast4py/coremodule.cpp`: `tp_hash` and `tp_richcompare` are 0) is compared by identity: two objects with the same
unique id are different nodes.

The attributes of an edge are a dictionary object, which may be referred to from elsewhere (network.py:705 `self.graph.edges[edge_key]`); it is a number, the index of
its contents in `dicts`.
-/
namespace Repast.Network
open Repast.Dict

/-- An agent object: the unique id of the agent, and the number of the object among those of its rank. -/
structure Obj where
  uid : Nat
  gen : Nat
  deriving DecidableEq, Repr

/-- A tuple of agents. -/
abbrev EKey := Obj × Obj

/-- Attributes of an edge: the keys are numbers (simplification: any type of keys with decidable equality would do). -/
abbrev Attr (A : Type) := Dict A

/-- `a.update(b)` -/
def merge {A : Type} (a b : Attr A) : Attr A := b.foldl (fun a e => Dict.set a e.1 e.2) a

structure Graph (A : Type) where
  directed : Bool
  nodes : List Obj
  edges : Assoc.Assoc EKey Nat
  dicts : List (Attr A)

variable {A : Type}

def Graph.empty (directed : Bool) : Graph A := ⟨directed, [], [], []⟩

/-- The dictionary object of the edge between `u` and `v`. -/
def Graph.slot (g : Graph A) (u v : Obj) : Option Nat :=
  match Assoc.get g.edges (u, v) with
  | some i => some i
  | none => if g.directed then none else Assoc.get g.edges (v, u)

/-- The contents of a dictionary object. -/
def Graph.dict (g : Graph A) (i : Nat) : Attr A := (g.dicts[i]?).getD []

/-- `graph.has_edge(u, v)` -/
def Graph.hasEdge (g : Graph A) (u v : Obj) : Bool := (g.slot u v).isSome

/-- `graph.edges[(u, v)]`: a `KeyError` if there is no such edge. -/
def Graph.attr (g : Graph A) (u v : Obj) : Option (Attr A) := (g.slot u v).map g.dict

/-- `graph.add_node(u)` -/
def Graph.addNode (g : Graph A) (u : Obj) : Graph A := if u ∈ g.nodes then g else { g with nodes := g.nodes ++ [u] }

/-- `graph.add_edge(u, v, **at)`: the nodes are added; the attributes of an existing edge are updated. -/
def Graph.addEdge (g : Graph A) (u v : Obj) (at_ : Attr A) : Graph A :=
  let g := (g.addNode u).addNode v
  match g.slot u v with
  | some i => { g with dicts := g.dicts.modify i (fun a => merge a at_) }
  | none => { g with edges := g.edges ++ [((u, v), g.dicts.length)], dicts := g.dicts ++ [merge [] at_] }

/-- Is this the entry of the edge between `u` and `v`? -/
def Graph.isEntry (directed : Bool) (u v : Obj) (k : EKey) : Bool := decide (k = (u, v)) || (!directed && decide (k = (v, u)))

/-- `graph.remove_edge(u, v)`: a `NetworkXError` if there is no such edge. -/
def Graph.removeEdge (g : Graph A) (u v : Obj) : Option (Graph A) :=
  if g.hasEdge u v then some { g with edges := g.edges.filter fun e => !Graph.isEntry g.directed u v e.1 } else none

/-- `graph.remove_node(u)`: a `NetworkXError` if there is no such node. -/
def Graph.removeNode (g : Graph A) (u : Obj) : Option (Graph A) :=
  if u ∈ g.nodes then
    some { g with nodes := g.nodes.filter (fun x => decide (x ≠ u)), edges := g.edges.filter fun e => decide (e.1.1 ≠ u) && decide (e.1.2 ≠ u) }
  else none

/-- `graph.clear_edges()` -/
def Graph.clearEdges (g : Graph A) : Graph A := { g with edges := [] }

/-- The edges of a directed graph that leave and enter a node: `out_edges(u)` and `in_edges(u)`. -/
def Graph.outEdges (g : Graph A) (u : Obj) : List (EKey × Nat) := g.edges.filter fun e => decide (e.1.1 = u)
def Graph.inEdges (g : Graph A) (u : Obj) : List (EKey × Nat) := g.edges.filter fun e => decide (e.1.2 = u)

/-- `edges(u)` of an undirected graph: the first component of each edge is `u`. -/
def Graph.nbrEdges (g : Graph A) (u : Obj) : List (EKey × Nat) :=
  g.edges.filterMap fun e => if e.1.1 = u then some e else if e.1.2 = u then some ((u, e.1.1), e.2) else none

/-- network.py:721-732 and 861-872 `_edges`, with the dictionary objects; a `NetworkXError` if `u` is not a node. -/
def Graph.edgesOf (g : Graph A) (u : Obj) : Option (List (EKey × Nat)) :=
  if u ∈ g.nodes then some (if g.directed then g.outEdges u ++ g.inEdges u else g.nbrEdges u) else none

/-- network.py:734-743, 874-880 `num_edges`. -/
def Graph.numEdges (g : Graph A) (u : Obj) : Option Nat := (g.edgesOf u).map List.length

end Repast.Network
