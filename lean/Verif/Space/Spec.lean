import Verif.Space.Model

/-! What a space should do, as a small abstract machine: the agents it contains and where they are, in order of arrival. -/
namespace Repast.Space

/-- `known`: the agents of the space. `placed`: the agents with a location and their location, in the order in which they came to
it. -/
structure Abs (P : Type) where
  known : List Nat
  placed : List (Nat × P)

namespace Abs
variable {P : Type} [DecidableEq P]

def at_ (s : Abs P) (p : P) : List Nat := (s.placed.filter (fun q => decide (q.2 = p))).map (·.1)
def where_ (s : Abs P) (a : Nat) : Option P := (s.placed.find? (fun q => decide (q.1 = a))).map (·.2)
def unplace (s : Abs P) (a : Nat) : List (Nat × P) := s.placed.filter (fun q => decide (q.1 ≠ a))

/-- The specification of each call; a move to `pt` is to lead to `T pt`. -/
def step (single : Bool) (T : P → P) (s : Abs P) : Op P → Abs P × Res P
  | .add a => ({ s with known := a :: s.known }, .bool true)
  | .remove a => ({ known := s.known.filter (fun b => decide (b ≠ a)), placed := s.unplace a }, .bool (s.where_ a).isSome)
  | .move a pt =>
    if a ∉ s.known then (s, .error)
    else if s.where_ a = some (T pt) then (s, .loc (some (T pt)))
    else if single = true ∧ s.at_ (T pt) ≠ [] then (s, .loc none)
    else ({ s with placed := s.unplace a ++ [(a, T pt)] }, .loc (some (T pt)))
  | .getAgent pt => (s, .agent (s.at_ pt).head?)
  | .getAgents pt => (s, .agents (s.at_ pt))
  | .getLocation a => (s, .loc (s.where_ a))
  | .contains a => (s, .bool (decide (a ∈ s.known)))

/-- The specification of a sequence of calls. -/
def run (single : Bool) (T : P → P) (t : Abs P) : List (Op P) → Abs P × List (Res P)
  | [] => (t, [])
  | o :: os =>
    let r := t.step single T o
    let q := run single T r.1 os
    (q.1, r.2 :: q.2)

end Abs

/-- `add` is only called for agents that are not in the space; `k` are the agents already in it. -/
def AddsOnlyNew {P : Type} : List Nat → List (Op P) → Prop
  | _, [] => True
  | k, .add a :: os => a ∉ k ∧ AddsOnlyNew (a :: k) os
  | k, .remove a :: os => AddsOnlyNew (k.filter (fun b => decide (b ≠ a))) os
  | k, _ :: os => AddsOnlyNew k os

/-- The points given to query methods. -/
def Op.queried {P : Type} : Op P → Option P
  | .getAgent p => some p
  | .getAgents p => some p
  | _ => none

end Repast.Space
