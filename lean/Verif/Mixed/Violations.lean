import Verif.Mixed.Model
import Verif.Context.Violations

/-
Contexts with a shared grid and a network in which edges get lost or `synchronize` raises although the agents and edges only do what the documentation describes: edges between a local agent and
a ghost in the buffer of the grid, and agents with edges that walk into another rank.

The ranks share a line of cells, five of each rank, with buffers of two cells.
-/
namespace Repast.Mixed
open Repast.Dict Repast.Context Repast.Space Repast.Network

/-- A shared grid of `5 * n` cells of `n` ranks. -/
def line (n buf : Nat) : GCfg :=
  { topo := { nd := 1, px := n, py := 1, pz := 1, periodic := false, box := ⟨0, 5 * n, 0, 0, 0, 0⟩ }, single := false, buf := buf }

/-- The contexts of the ranks: a grid with buffers of two cells, and a network. -/
def lineWorld (n : Nat) (d : Bool) : World Nat Nat GridSp := World.start [(line n 2).new] [d]

/-- What rank `r` sees of the agent `u`, as a local agent and as a ghost, and whether it has an edge from `u` to `v`. -/
def seenEdge (n : Nat) (first d : Bool) (ops : List (WOp Nat Nat Pt)) (r u v : Nat) : Option (Option Nat × Option Nat × Bool) :=
  (wrun n first (lineWorld n d) ops).map fun w => ((w r).agent u, (w r).ghostAgent u, (w r).containsEdge 0 u v)

/-- The history raises an exception on some rank. -/
def fails (n : Nat) (first d : Bool) (ops : List (WOp Nat Nat Pt)) : Bool := (wrun n first (lineWorld n d) ops).isNone

/-- The agents 1 and 11 are neighbours, on the two sides of the border of the ranks 0 and 1. -/
def neighbours : List (WOp Nat Nat Pt) := [.add 0 1 5, .add 1 11 7, .gmove 0 0 1 ⟨4, 0, 0⟩, .gmove 1 0 11 ⟨5, 0, 0⟩, .synch true]

/-- What should happen, and does: rank 0 adds an edge to the ghost in its buffer, and both ranks have it after `synchronize`. -/
theorem neighbours_linked (first d : Bool) :
    seenEdge 2 first d (neighbours ++ [.addEdge 0 0 1 11 [], .synch true]) 0 1 11 = some (some 5, none, true) ∧
    seenEdge 2 first d (neighbours ++ [.addEdge 0 0 1 11 [], .synch true]) 1 1 11 = some (none, some 5, true) := by
  cases first <;> cases d <;> refine ⟨?_, ?_⟩ <;> decide +kernel

/-- C43 is violated: if the grid has been added to the context before the network, the next `synchronize` raises a `KeyError`: the network has registered its copy of agent 1 in the place of the
one in the buffer, with a reference count of one, and the grid, when it empties its buffer, drops it. -/
theorem C43_violation_buffered (d : Bool) :
    fails 2 false d (neighbours ++ [.addEdge 0 0 1 11 [], .synch true]) = false ∧
    fails 2 false d (neighbours ++ [.addEdge 0 0 1 11 [], .synch true, .synch true]) = true := by
  cases d <;> refine ⟨?_, ?_⟩ <;> decide +kernel

/-- If the network has been added first, the edge is still there. -/
theorem neighbours_linked_again (d : Bool) :
    seenEdge 2 true d (neighbours ++ [.addEdge 0 0 1 11 [], .synch true, .synch true]) 0 1 11 = some (some 5, none, true) ∧
    seenEdge 2 true d (neighbours ++ [.addEdge 0 0 1 11 [], .synch true, .synch true]) 1 1 11 = some (none, some 5, true) := by
  cases d <;> refine ⟨?_, ?_⟩ <;> decide +kernel

/-- C69 is violated: rank 1 adds an edge from its agent 11 to the ghost of agent 1 in its buffer, and agent 11 walks to rank 2: the edge is not there on rank 2, although agent 1 is
still on rank 0. -/
theorem C69_violation_lost (d : Bool) :
    seenEdge 3 true d (neighbours ++ [.addEdge 1 0 11 1 [], .synch true]) 1 11 1 = some (some 7, none, true) ∧
    seenEdge 3 true d (neighbours ++ [.addEdge 1 0 11 1 [], .synch true, .gmove 1 0 11 ⟨12, 0, 0⟩, .synch true]) 2 11 1 = some (some 7, none, false) := by
  cases d <;> refine ⟨?_, ?_⟩ <;> decide +kernel

/-- C69 is violated: an agent adds an edge to a ghost in the buffer, and walks to the rank of the ghost in the same tick: `synchronize` raises a `KeyError`. -/
theorem C69_violation_new_edge (d : Bool) :
    fails 2 true d (neighbours ++ [.addEdge 0 0 1 11 [], .gmove 0 0 1 ⟨6, 0, 0⟩]) = false ∧
    fails 2 true d (neighbours ++ [.addEdge 0 0 1 11 [], .gmove 0 0 1 ⟨6, 0, 0⟩, .synch true]) = true := by
  cases d <;> refine ⟨?_, ?_⟩ <;> decide +kernel

/-- Two agents of rank 0 with an edge. -/
def couple : List (WOp Nat Nat Pt) := [.add 0 1 5, .add 0 2 6, .gmove 0 0 1 ⟨2, 0, 0⟩, .gmove 0 0 2 ⟨2, 0, 0⟩, .addEdge 0 0 1 2 [], .synch true]

/-- What should happen, and does: one of them walks to rank 1, and both ranks have the edge. -/
theorem couple_apart (first d : Bool) :
    seenEdge 2 first d (couple ++ [.gmove 0 0 1 ⟨8, 0, 0⟩, .synch true]) 0 1 2 = some (none, some 5, true) ∧
    seenEdge 2 first d (couple ++ [.gmove 0 0 1 ⟨8, 0, 0⟩, .synch true]) 1 1 2 = some (some 5, none, true) := by
  cases first <;> cases d <;> refine ⟨?_, ?_⟩ <;> decide +kernel

/-- C69 is violated: both walk to rank 1 in the same tick, and `synchronize` raises. -/
theorem C69_violation_together (first d : Bool) :
    fails 2 first d (couple ++ [.gmove 0 0 1 ⟨8, 0, 0⟩, .gmove 0 0 2 ⟨8, 0, 0⟩]) = false ∧
    fails 2 first d (couple ++ [.gmove 0 0 1 ⟨8, 0, 0⟩, .gmove 0 0 2 ⟨8, 0, 0⟩, .synch true]) = true := by
  cases first <;> cases d <;> refine ⟨?_, ?_⟩ <;> decide +kernel

/-- Two agents of rank 0 with an edge, one of them in the buffer of rank 1. -/
def couple' : List (WOp Nat Nat Pt) := [.add 0 1 5, .add 0 2 6, .gmove 0 0 1 ⟨2, 0, 0⟩, .gmove 0 0 2 ⟨3, 0, 0⟩, .addEdge 0 0 1 2 [], .synch true]

/-- C69 is violated: one of them walks to rank 1 and the other stays behind in the buffer of rank 1: the next call of `synchronize` raises a `KeyError`, for the reason given with
`C43_violation_buffered`, but whichever projection has been added first. -/
theorem C69_violation_left_behind (first d : Bool) :
    fails 2 first d (couple' ++ [.gmove 0 0 1 ⟨8, 0, 0⟩, .synch true]) = false ∧
    fails 2 first d (couple' ++ [.gmove 0 0 1 ⟨8, 0, 0⟩, .synch true, .synch true]) = true := by
  cases first <;> cases d <;> refine ⟨?_, ?_⟩ <;> decide +kernel

end Repast.Mixed
