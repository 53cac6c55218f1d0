import Verif.Network.Model

/-
Where contexts with networks do not do what C25, C26, C43 and C54 say: concrete histories of two ranks, with the model of `Verif/Network/Model.lean`.
-/
namespace Repast.Network
open Repast.Dict

/-- A rank's view: the agent with a unique id, its ghost, and the attributes of an edge in the first network. -/
structure Seen where
  agent : Option Nat
  ghost : Option Nat
  edge : Option (Attr Nat)
  deriving DecidableEq

/-- What rank `r` sees of the agent `u` and of the edge from `u` to `v`, after a history; `none` if there was an exception. -/
def seen (dirs : List Bool) (ops : List (WOp Nat Nat)) (r u v : Nat) : Option Seen :=
  (wrun 2 (World.init dirs) ops).map fun w => ⟨(w r).agent u, (w r).ghostAgent u, (w r).edgeAttr 0 u v⟩

/-- The history raises an exception on some rank. -/
def raises (dirs : List Bool) (ops : List (WOp Nat Nat)) : Bool := (wrun 2 (World.init dirs) ops).isNone

/-- Rank 0 has the agents 1 and 2, rank 1 the agents 11 and 12; rank 0 has requested ghosts of 11 and 12. -/
def four : List (WOp Nat Nat) :=
  [.add 0 1 5, .add 0 2 6, .add 1 11 7, .add 1 12 8, .request fun r => if r = 0 then [(11, 1), (12, 1)] else []]

/-- What should happen, and does: an edge from 1 to 11 that rank 0 has added is there on both ranks after `synchronize`, and rank 1 has a ghost of 1. -/
theorem four_linked (d : Bool) :
    seen [d] (four ++ [.addEdge 0 0 1 11 [(0, 3)], .synch true]) 0 1 11 = some ⟨some 5, none, some [(0, 3)]⟩ ∧
    seen [d] (four ++ [.addEdge 0 0 1 11 [(0, 3)], .synch true]) 1 1 11 = some ⟨none, some 5, some [(0, 3)]⟩ := by
  cases d <;> refine ⟨?_, ?_⟩ <;> decide +kernel

/-- What should happen, and does: the edge is removed on both ranks. -/
theorem four_removed (d : Bool) :
    seen [d] (four ++ [.addEdge 0 0 1 11 [(0, 3)], .synch true, .removeEdge 0 0 1 11, .synch true]) 0 1 11 = some ⟨some 5, none, none⟩ ∧
    seen [d] (four ++ [.addEdge 0 0 1 11 [(0, 3)], .synch true, .removeEdge 0 0 1 11, .synch true]) 1 1 11 = some ⟨none, none, none⟩ := by
  cases d <;> refine ⟨?_, ?_⟩ <;> decide +kernel

/-! ### C43 -/

/-- C43 is violated: an edge between a local agent and a ghost cannot be removed before the next `synchronize`. -/
theorem C43_violation_remove_new (d : Bool) : raises [d] (four ++ [.addEdge 0 0 1 11 [(0, 3)], .removeEdge 0 0 1 11]) = true := by
  cases d <;> decide +kernel

/-- C43 is violated: an edge between a local agent and a ghost cannot be removed on the other rank. -/
theorem C43_violation_remove_mirrored (d : Bool) : raises [d] (four ++ [.addEdge 0 0 1 11 [(0, 3)], .synch true, .removeEdge 1 0 1 11]) = true := by
  cases d <;> decide +kernel

/-- C43 is violated: the attributes of the edge can be changed on the other rank, but the next `synchronize` raises an exception. -/
theorem C43_violation_update_mirrored (d : Bool) :
    raises [d] (four ++ [.addEdge 0 0 1 11 [(0, 3)], .synch true, .updateEdge 1 0 1 11 [(0, 4)]]) = false ∧
    raises [d] (four ++ [.addEdge 0 0 1 11 [(0, 3)], .synch true, .updateEdge 1 0 1 11 [(0, 4)], .synch true]) = true := by
  cases d <;> refine ⟨?_, ?_⟩ <;> decide +kernel

/-- Both ranks add the same edge, with different attributes. -/
def both : List (WOp Nat Nat) :=
  four ++ [.request fun r => if r = 1 then [(1, 0)] else [], .addEdge 0 0 1 11 [(0, 3)], .addEdge 1 0 1 11 [(0, 4)], .synch true]

/-- C43 is violated: if both ranks add an edge, each rank has the attributes of the other one after `synchronize`. -/
theorem C43_violation_attributes (d : Bool) :
    seen [d] both 0 1 11 = some ⟨some 5, none, some [(0, 4)]⟩ ∧ seen [d] both 1 1 11 = some ⟨none, some 5, some [(0, 3)]⟩ := by
  cases d <;> refine ⟨?_, ?_⟩ <;> decide +kernel

/-- The agent 1 has two edges to ghosts of rank 1; one of them is removed. -/
def twoEdges : List (WOp Nat Nat) :=
  four ++ [.addEdge 0 0 1 11 [(0, 3)], .addEdge 0 0 1 12 [(0, 4)], .synch true, .removeEdge 0 0 1 11, .synch true]

/-- C25 is violated: if one of two edges of an agent to a rank is removed, the other rank keeps the ghost of the agent, for the other edge, but the ghost is not
updated any more. -/
theorem C25_violation_edge_removed (d : Bool) :
    seen [d] (twoEdges ++ [.setState 0 1 9, .synch true]) 0 1 12 = some ⟨some 9, none, some [(0, 4)]⟩ ∧
    seen [d] (twoEdges ++ [.setState 0 1 9, .synch true]) 1 1 12 = some ⟨none, some 5, some [(0, 4)]⟩ := by
  cases d <;> refine ⟨?_, ?_⟩ <;> decide +kernel

/-- C43 is violated: if both edges are removed one after the other, `synchronize` raises an exception; and also if they are removed together. -/
theorem C43_violation_remove_both (d : Bool) :
    raises [d] (twoEdges ++ [.removeEdge 0 0 1 12, .synch true]) = true ∧
    raises [d] (four ++ [.addEdge 0 0 1 11 [], .addEdge 0 0 1 12 [], .synch true, .removeEdge 0 0 1 11, .removeEdge 0 0 1 12, .synch true]) = true := by
  cases d <;> refine ⟨?_, ?_⟩ <;> decide +kernel

/-- C43 is violated: `clear_edges` with an edge of an agent that was removed raises an exception at the next `synchronize`. -/
theorem C43_violation_clear_edges (d : Bool) :
    raises [d] (four ++ [.addEdge 0 0 1 11 [(0, 3)], .synch true, .remove 0 1, .synch true]) = false ∧
    raises [d] (four ++ [.addEdge 0 0 1 11 [(0, 3)], .synch true, .remove 0 1, .synch true, .clearEdges 0 0, .synch true]) = true := by
  cases d <;> refine ⟨?_, ?_⟩ <;> decide +kernel

/-- C43 is violated: `clear_edges` on a rank that has received an edge from another rank does not remove it from that rank, so that the ranks disagree. -/
theorem C43_violation_clear_received (d : Bool) :
    seen [d] (four ++ [.addEdge 0 0 1 11 [(0, 3)], .synch true, .clearEdges 1 0, .synch true]) 0 1 11 = some ⟨some 5, none, some [(0, 3)]⟩ ∧
    seen [d] (four ++ [.addEdge 0 0 1 11 [(0, 3)], .synch true, .clearEdges 1 0, .synch true]) 1 1 11 = some ⟨none, some 5, none⟩ := by
  cases d <;> refine ⟨?_, ?_⟩ <;> decide +kernel

/-- C43 is violated: if a new edge to a ghost is updated and then removed by `clear_edges`, the next `synchronize` raises an exception. -/
theorem C43_violation_clear_updated (d : Bool) :
    raises [d] (four ++ [.addEdge 0 0 1 11 [(0, 3)], .clearEdges 0 0, .synch true]) = false ∧
    raises [d] (four ++ [.addEdge 0 0 1 11 [(0, 3)], .updateEdge 0 0 1 11 [(0, 4)], .clearEdges 0 0, .synch true]) = true := by
  cases d <;> refine ⟨?_, ?_⟩ <;> decide +kernel

/-- The agents 1 and 11 are linked in two networks; then the edge in the first is removed. -/
def twoNets : List (WOp Nat Nat) := four ++ [.addEdge 0 0 1 11 [(0, 3)], .synch true, .addEdge 0 1 1 11 [(0, 4)], .synch true, .removeEdge 0 0 1 11, .synch true]

/-- C43 and C25 are violated with two networks: if two agents are linked in both and the edge in one is removed, the other rank has no ghost of the agent any more, although the other edge remains; if
this edge is updated or removed, `synchronize` raises an exception. -/
theorem C43_violation_two_networks (d e : Bool) :
    seen [d, e] twoNets 1 1 11 = some ⟨none, none, none⟩ ∧ raises [d, e] (twoNets ++ [.setState 0 1 9, .synch true]) = false ∧
    raises [d, e] (twoNets ++ [.updateEdge 0 1 1 11 [(0, 5)], .synch true]) = true ∧
    raises [d, e] (twoNets ++ [.removeEdge 0 1 1 11, .synch true]) = true := by
  cases d <;> cases e <;> refine ⟨?_, ?_, ?_, ?_⟩ <;> decide +kernel

/-! ### C26 -/

/-- C26 is violated: if an agent is removed that has a new edge to a ghost, `synchronize` raises an exception; also if the edge was updated. -/
theorem C26_violation_new_edge (d : Bool) :
    raises [d] (four ++ [.addEdge 0 0 1 11 [(0, 3)], .remove 0 1, .synch true]) = true ∧
    raises [d] (four ++ [.addEdge 0 0 1 11 [(0, 3)], .remove 1 11, .synch true]) = true ∧
    raises [d] (four ++ [.addEdge 0 0 1 11 [(0, 3)], .synch true, .updateEdge 0 0 1 11 [(0, 4)], .remove 0 1, .synch true]) = true := by
  cases d <;> refine ⟨?_, ?_, ?_⟩ <;> decide +kernel

/-- C26 is violated: if an agent is removed that has an edge to a ghost in one of two networks, `synchronize` raises an exception, because the other rank has not
added the ghost to the other network. -/
theorem C26_violation_two_networks (d e : Bool) :
    raises [d, e] (four ++ [.addEdge 0 0 1 11 [(0, 3)], .synch true]) = false ∧
    raises [d, e] (four ++ [.addEdge 0 0 1 11 [(0, 3)], .synch true, .remove 0 1, .synch true]) = true := by
  cases d <;> cases e <;> refine ⟨?_, ?_⟩ <;> decide +kernel

/-! ### C54 -/

/-- The agents 1 and 2, which are linked, move together. -/
def together : WOp Nat Nat := .move fun r => if r = 0 then [(1, 1), (2, 1)] else []

/-- The agent 1 moves. -/
def alone : WOp Nat Nat := .move fun r => if r = 0 then [(1, 1)] else []

/-- C54 is violated: if two linked agents move together, `move_agents` raises an exception. -/
theorem C54_violation_together (d : Bool) : raises [d] (four ++ [.addEdge 0 0 1 2 [(0, 3)], together]) = true := by
  cases d <;> decide +kernel

/-- What should happen, and does: when one of two linked agents moves, both of the ranks have the edge. -/
theorem four_moved (d : Bool) :
    seen [d] (four ++ [.addEdge 0 0 1 2 [(0, 3)], alone]) 0 1 2 = some ⟨none, some 5, some [(0, 3)]⟩ ∧
    seen [d] (four ++ [.addEdge 0 0 1 2 [(0, 3)], alone]) 1 1 2 = some ⟨some 5, none, some [(0, 3)]⟩ := by
  cases d <;> refine ⟨?_, ?_⟩ <;> decide +kernel

/-- C54 is violated: in an undirected network, when an agent moves to the rank of an agent it is linked with, that rank has the edge, but cannot change its
attributes or remove it. -/
theorem C54_violation_undirected :
    seen [false] (four ++ [.addEdge 0 0 1 11 [(0, 3)], .synch true, alone]) 1 1 11 = some ⟨some 5, none, some [(0, 3)]⟩ ∧
    raises [false] (four ++ [.addEdge 0 0 1 11 [(0, 3)], .synch true, alone, .updateEdge 1 0 1 11 [(0, 4)]]) = true ∧
    raises [false] (four ++ [.addEdge 0 0 1 11 [(0, 3)], .synch true, alone, .removeEdge 1 0 1 11]) = true := by
  refine ⟨?_, ?_, ?_⟩ <;> decide +kernel

/-- What rank `r` of three ranks sees of the agent `u` and of the edge from `u` to `v`, after a history; `none` if there was an exception. -/
def seen3 (d : Bool) (ops : List (WOp Nat Nat)) (r u v : Nat) : Option Seen :=
  (wrun 3 (World.init [d]) ops).map fun w => ⟨(w r).agent u, (w r).ghostAgent u, (w r).edgeAttr 0 u v⟩

/-- The history raises an exception on one of three ranks. -/
def raises3 (d : Bool) (ops : List (WOp Nat Nat)) : Bool := (wrun 3 (World.init [d]) ops).isNone

/-- Agent `u` moves from rank `r` to rank `k`. -/
def moveOne (r u k : Nat) : WOp Nat Nat := .move fun i => if i = r then [(u, k)] else []

/-- What should happen, and does: an agent that is linked with an agent of rank 0 moves to rank 1 and on to rank 2, and rank 0 can still change and remove the edge. -/
theorem moved_on (d : Bool) :
    let ops := [.add 0 1 5, .add 0 2 6, .addEdge 0 0 1 2 [(0, 3)], moveOne 0 1 1, moveOne 1 1 2, .updateEdge 0 0 1 2 [(0, 4)], .synch true]
    seen3 d ops 0 1 2 = some ⟨none, some 5, some [(0, 4)]⟩ ∧ seen3 d ops 1 1 2 = some ⟨none, none, none⟩ ∧ seen3 d ops 2 1 2 = some ⟨some 5, none, some [(0, 4)]⟩ ∧
    seen3 d (ops ++ [.removeEdge 0 0 1 2, .synch true]) 0 1 2 = some ⟨none, some 5, none⟩ ∧ seen3 d (ops ++ [.removeEdge 0 0 1 2, .synch true]) 2 1 2 = some ⟨some 5, none, none⟩ := by
  cases d <;> refine ⟨?_, ?_, ?_, ?_, ?_⟩ <;> decide +kernel

/-- C54 is violated: rank 0 has added an edge between its agent 1 and the agent 11 of rank 1, for which it has requested a ghost; the agent 1 moves to rank 2, which does not have the edge, not
even after `synchronize`. -/
theorem C54_violation_requested (d : Bool) :
    let ops := four ++ [.addEdge 0 0 1 11 [(0, 3)], .synch true, moveOne 0 1 2, .synch true]
    seen3 d ops 1 1 11 = some ⟨none, some 5, some [(0, 3)]⟩ ∧ seen3 d ops 2 1 11 = some ⟨some 5, none, none⟩ := by
  cases d <;> refine ⟨?_, ?_⟩ <;> decide +kernel

/-- C54 is violated: if first one of two linked agents moves and then the other one, `move_agents` raises an exception. -/
theorem C54_violation_one_after_the_other (d : Bool) :
    raises3 d [.add 0 1 5, .add 0 2 6, .addEdge 0 0 1 2 [(0, 3)], moveOne 0 1 1, .synch true] = false ∧
    raises3 d [.add 0 1 5, .add 0 2 6, .addEdge 0 0 1 2 [(0, 3)], moveOne 0 1 1, .synch true, moveOne 0 2 2] = true := by
  cases d <;> refine ⟨?_, ?_⟩ <;> decide +kernel

/-- C43 is violated: rank 0 has requested a ghost of the agent 11 of rank 1, which moves to rank 2; rank 0 still has the ghost, but if it adds an edge to it, the next `synchronize` raises an exception. -/
theorem C43_violation_moved_ghost (d : Bool) :
    seen3 d (four ++ [moveOne 1 11 2, .synch true, .addEdge 0 0 1 11 [(0, 3)]]) 0 11 1 = some ⟨none, some 7, if d then none else some [(0, 3)]⟩ ∧
    raises3 d (four ++ [moveOne 1 11 2, .synch true, .addEdge 0 0 1 11 [(0, 3)], .synch true]) = true := by
  cases d <;> refine ⟨?_, ?_⟩ <;> decide +kernel

end Repast.Network
