import Verif.Space.Geom

/-
Model of a (non-distributed) space: `/repo/src/repast4py/space.h` (`BaseSpace`), grid.h:51-81 (`BaseGrid::move`), cspace.h:77-119
(`BaseCSpace`, without its tree, see `Verif/Tree`) and occupancy.h.

The model is generic in the type `P` of points and in the border transform, so that it covers grids (`P = Pt`) and continuous spaces.

Simplifications: agents are identified by their unique id (one agent object per id); the `std::map`s are functions; in the location map an absent
key is the empty list (both accessors erase an entry that becomes empty). `get_location` and `move` return the space's own point object, which
changes when the agent moves; the model returns its value at the time of the call. Objects with equal unique ids and reference counts: `Verif/Space/Refs`.
-/
namespace Repast.Space

/-- The template parameters of a space. `tr pt wpt` is the content of the working point `wpt` after `borders.transform(pt, wpt)`
(it may depend on its previous content, see `periodic`); `single` selects `SingleOccupancyAccessor`. -/
structure Cfg (P : Type) where
  tr : P → P → P
  single : Bool

/-- space.h:52-53: `agents a` is the entry of `agent_map` (`some none`: in the space, without a location), `loc` is `location_map`. -/
structure Sp (P : Type) where
  agents : Nat → Option (Option P)
  loc : P → List Nat
  wpt : P

/-- space.h:75-77 -/
def Sp.empty {P : Type} (zero : P) : Sp P := { agents := fun _ => none, loc := fun _ => [], wpt := zero }

def upd {α β : Type} [DecidableEq α] (f : α → β) (a : α) (b : β) : α → β := fun x => if x = a then b else f x

variable {P : Type} [DecidableEq P]

/-- occupancy.h:82-94 and 171-180: `put`. -/
def put (c : Cfg P) (loc : P → List Nat) (a : Nat) (p : P) : Option (P → List Nat) :=
  if c.single then
    if loc p = [] then some (upd loc p [a]) else none
  else some (upd loc p (loc p ++ [a]))

/-- occupancy.h:96-114 (erase the first occurrence) and 182-192 (erase the entry): `remove`. -/
def rem (c : Cfg P) (loc : P → List Nat) (a : Nat) (p : P) : (P → List Nat) × Bool :=
  if c.single then
    if loc p = [] then (loc, false) else (upd loc p [], true)
  else if a ∈ loc p then (upd loc p ((loc p).erase a), true)
  else (loc, false)

/-- The methods of a space. -/
inductive Op (P : Type) where
  | add (a : Nat)
  | remove (a : Nat)
  | move (a : Nat) (pt : P)
  | getAgent (pt : P)
  | getAgents (pt : P)
  | getLocation (a : Nat)
  | contains (a : Nat)

/-- What a method returns; `error` is a raised exception. -/
inductive Res (P : Type) where
  | bool (b : Bool)
  | agent (a : Option Nat)
  | agents (l : List Nat)
  | loc (p : Option P)
  | error
  deriving DecidableEq, Repr

/-- space.h:95-104 `add`. -/
def add (s : Sp P) (a : Nat) : Sp P := { s with agents := upd s.agents a (some none) }

/-- space.h:106-120 `remove`. -/
def remove (c : Cfg P) (s : Sp P) (a : Nat) : Sp P × Bool :=
  match s.agents a with
  | none => (s, false)
  | some none => ({ s with agents := upd s.agents a none }, false)
  | some (some p) =>
    let r := rem c s.loc a p
    ({ s with agents := upd s.agents a none, loc := r.1, wpt := p }, r.2)

/-- grid.h:51-81 `move`, cspace.h:86-119. -/
def move (c : Cfg P) (s : Sp P) (a : Nat) (pt : P) : Sp P × Res P :=
  match s.agents a with
  | none => (s, .error)
  | some cur =>
    let w := c.tr pt s.wpt
    let s := { s with wpt := w }
    if cur = some w then (s, .loc (some w))
    else
      match put c s.loc a w with
      | none => (s, .loc none)
      | some loc =>
        let loc := match cur with
          | none => loc
          | some p => (rem c loc a p).1
        ({ s with agents := upd s.agents a (some (some w)), loc := loc }, .loc (some w))

/-- One call. `getAgent`: space.h:127-131, occupancy.h:53-61, 141-149; `getAgents`: space.h:133-137, occupancy.h:72-80, 160-169;
`getLocation`: space.h:139-146; `contains`: space.h:148-151. -/
def step (c : Cfg P) (s : Sp P) : Op P → Sp P × Res P
  | .add a => (add s a, .bool true)
  | .remove a => let r := remove c s a; (r.1, .bool r.2)
  | .move a pt => move c s a pt
  | .getAgent pt => ({ s with wpt := pt }, .agent (s.loc pt).head?)
  | .getAgents pt => ({ s with wpt := pt }, .agents (s.loc pt))
  | .getLocation a => (s, .loc ((s.agents a).getD none))
  | .contains a => (s, .bool (s.agents a).isSome)

/-- A sequence of calls: the space and the results. -/
def run (c : Cfg P) (s : Sp P) : List (Op P) → Sp P × List (Res P)
  | [] => (s, [])
  | o :: os =>
    let r := step c s o
    let q := run c r.1 os
    (q.1, r.2 :: q.2)

/-- A grid: sticky (grid.h:174, 176) or periodic (grid.h:175, 177) borders. -/
def grid (b : Box) (isPeriodic single : Bool) : Cfg Pt :=
  { tr := fun p w => if isPeriodic then periodic b p w else sticky b p, single := single }

/-- space.h:75-77: a new grid. -/
def newGrid : Sp Pt := Sp.empty ⟨0, 0, 0⟩

end Repast.Space
