import Verif.Checkpoint.Network

/-
C20: several networks in one checkpoint. The ghosts that `restore_network` has requested for one network are found by `_add_edges` (checkpoint.py:417-419) when the next network is restored.
-/
namespace Repast.Network
open Repast.Dict Repast.Context

variable {S A : Type}

/-! ### Model -/

/-- All ranks save all networks (checkpoint.py:339-362), and the local agents; `restore_network` (checkpoint.py:363-391) is called for the networks `order`, one after the other, in new contexts. -/
def roundTrips (n : Nat) (dirs : List Bool) (order : List Nat) (pop : Nat → List (Nat × S)) (w : World S A) : Option (World S A) :=
  let q := (List.range dirs.length).map fun pid => (List.range n).map fun r => (w r).saveNetwork pid
  if q.all (fun x => x.all (·.isSome)) then
    (wrun n (World.init dirs) ((List.range n).flatMap fun r => (pop r).map fun a => .add r a.1 a.2)).bind fun w' =>
      order.foldlM (fun w' pid => restoreNetwork n pid (fun r => ((q[pid]?.bind fun x => x[r]?).bind id).getD []) w') w'
  else none

/-- With one network it is the round trip of that network. -/
theorem roundTrips_one (n : Nat) (d : Bool) (pop : Nat → List (Nat × S)) (w : World S A) : roundTrips n [d] [0] pop w = roundTrip n d pop w := by
  unfold roundTrips roundTrip
  simp only [List.length_cons, List.length_nil, List.range_succ, List.range_zero, List.nil_append, List.map_cons, List.map_nil, List.all_cons, List.all_nil, Bool.and_true, List.getElem?_cons_zero, Option.bind_some]
  split
  · congr 1
    funext w'
    show Option.bind (restoreNetwork n 0 (fun r => ((((List.range n).map fun r => (w r).saveNetwork 0)[r]?).bind id).getD []) w') some = _
    cases restoreNetwork n 0 (fun r => ((((List.range n).map fun r => (w r).saveNetwork 0)[r]?).bind id).getD []) w' <;> rfl
  · rfl

/-! ### Violation -/

/-- A directed network, and one that is not, with the same two agents of different ranks. -/
def linkedTwice : List (WOp Nat Nat) := four ++ [.addEdge 0 0 1 11 [(0, 3)], .addEdge 0 1 1 11 [(0, 4)], .synch true]

def restoredAll (order : List Nat) : Option (World Nat Nat) :=
  (wrun 2 (World.init [true, false]) linkedTwice).bind fun w => roundTrips 2 [true, false] order (fun r => (w r).population) w

/-- C20 is violated: whether networks can be restored depends on the order. If the directed network is restored after the other one, both ranks have the edges of both networks; if it is restored first, `restore_network` raises. -/
theorem C20_violation_order :
    ((restoredAll [1, 0]).map fun w => ((w 0).edgeAttr 0 1 11, (w 1).edgeAttr 0 1 11)) = some (some [(0, 3)], some [(0, 3)]) ∧
    ((restoredAll [1, 0]).map fun w => ((w 0).edgeAttr 1 1 11, (w 1).edgeAttr 1 1 11)) = some (some [(0, 4)], some [(0, 4)]) ∧
    restoredAll [0, 1] = none := by
  refine ⟨by decide +kernel, by decide +kernel, ?_⟩
  have : (restoredAll [0, 1]).isNone = true := by decide +kernel
  simpa using this

end Repast.Network
