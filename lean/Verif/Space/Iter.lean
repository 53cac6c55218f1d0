import Verif.Space.Model

/-
Model of the iterator that `get_agents` of a grid or continuous space returns, and of loops over it: core.h:60-95 (`TAgentIter`),
coremodule.cpp:22-50 (`AgentIter`), spacemodule.cpp:959-969, 1316-1326, 1786-1796, 2213-2223 and occupancy.h:29-114 (`MultiOccupancyAccessor`).

`get_agents` of a space with multiple occupancy does not copy the agents: the iterator refers to the list object of the location itself, and to one
of its nodes. Therefore the location map is modelled here with list objects and nodes, whereas `Verif/Space/Model` has the contents of the lists only;
`Verif/Space/IterLemmas` proves that the two agree.

Simplifications: as in `Verif/Space/Model`; the memory of a list object is never used for another one (`std::shared_ptr`, and the iterator has one of
the pointers), and that of a node neither: the use of a node that was erased is an error.
-/
namespace Repast.Space

variable {P : Type} [DecidableEq P]

/-- A space with multiple occupancy, with the list objects of its `location_map` (space.h:51-57, occupancy.h:25-26). List object 0 is `empty_list`
(occupancy.h:33, 48). A node is a number and an agent. -/
structure Hp (P : Type) where
  agents : Nat → Option (Option P)
  map : P → Option Nat
  cells : Nat → List (Nat × Nat)
  /-- the number of list objects and of nodes made so far -/
  lists : Nat
  nodes : Nat
  wpt : P

/-- space.h:75-77 -/
def Hp.empty (zero : P) : Hp P := { agents := fun _ => none, map := fun _ => none, cells := fun _ => [], lists := 1, nodes := 0, wpt := zero }

/-- occupancy.h:82-94 `put`. -/
def Hp.put (h : Hp P) (a : Nat) (p : P) : Hp P :=
  match h.map p with
  | none => { h with map := upd h.map p (some h.lists), cells := upd h.cells h.lists [(h.nodes, a)], lists := h.lists + 1, nodes := h.nodes + 1 }
  | some l => { h with cells := upd h.cells l (h.cells l ++ [(h.nodes, a)]), nodes := h.nodes + 1 }

/-- occupancy.h:96-114 `remove`. -/
def Hp.rem (h : Hp P) (a : Nat) (p : P) : Hp P × Bool :=
  match h.map p with
  | none => (h, false)
  | some l =>
    if (h.cells l).any (fun x => x.2 == a) then
      let cells := (h.cells l).eraseP (fun x => x.2 == a)
      ({ h with cells := upd h.cells l cells, map := if cells.isEmpty then upd h.map p none else h.map }, true)
    else (h, false)

/-- space.h:95-104 `add`. -/
def Hp.add (h : Hp P) (a : Nat) : Hp P := { h with agents := upd h.agents a (some none) }

/-- space.h:106-120 `remove`. -/
def Hp.remove (h : Hp P) (a : Nat) : Hp P × Bool :=
  match h.agents a with
  | none => (h, false)
  | some none => ({ h with agents := upd h.agents a none }, false)
  | some (some p) =>
    let r := h.rem a p
    ({ r.1 with agents := upd h.agents a none, wpt := p }, r.2)

/-- grid.h:51-81 `move`, cspace.h:86-119. -/
def Hp.move (c : Cfg P) (h : Hp P) (a : Nat) (pt : P) : Hp P × Res P :=
  match h.agents a with
  | none => (h, .error)
  | some cur =>
    let w := c.tr pt h.wpt
    let h := { h with wpt := w }
    if cur = some w then (h, .loc (some w))
    else
      let q := h.put a w
      let q := match cur with
        | none => q
        | some p => (q.rem a p).1
      ({ q with agents := upd h.agents a (some (some w)) }, .loc (some w))

/-- occupancy.h:72-80 `getAll`: the list object. -/
def Hp.getAll (h : Hp P) (p : P) : Nat := (h.map p).getD 0

/-- One call of a space with multiple occupancy. The agents that `getAgents` returns are those that a loop without a body visits. -/
def Hp.step (c : Cfg P) (h : Hp P) : Op P → Hp P × Res P
  | .add a => (h.add a, .bool true)
  | .remove a => let r := h.remove a; (r.1, .bool r.2)
  | .move a pt => h.move c a pt
  | .getAgent pt => ({ h with wpt := pt }, .agent ((h.cells (h.getAll pt)).head?.map (·.2)))
  | .getAgents pt => ({ h with wpt := pt }, .agents ((h.cells (h.getAll pt)).map (·.2)))
  | .getLocation a => (h, .loc ((h.agents a).getD none))
  | .contains a => (h, .bool (h.agents a).isSome)

/-- A sequence of calls. -/
def Hp.run (c : Cfg P) (h : Hp P) (ops : List (Op P)) : Hp P := ops.foldl (fun h o => (h.step c o).1) h

/-! ### The iterator -/

/-- `begin()` of a list, `none` is `end()`. -/
def first (l : List (Nat × Nat)) : Option Nat := l.head?.map (·.1)

/-- core.h:90-95 `next`: the agent of the node `k`, and the next node. `none`: the node has been erased. -/
def after (k : Nat) : List (Nat × Nat) → Option (Nat × Option Nat)
  | [] => none
  | x :: l => if x.1 = k then some (x.2, first l) else after k l

/-- What a loop leads to. -/
inductive Out (P : Type) where
  /-- the loop has ended; the agents visited -/
  | done (h : Hp P) (visited : List Nat)
  /-- a node that was erased has been used, after these visits -/
  | dangling (visited : List Nat)
  /-- the loop has not ended after the given number of rounds -/
  | more (visited : List Nat)

/-- `for a in agents: …` (coremodule.cpp:36-50, core.h:80-95): `l` is the list object, `pos` the node of the iterator, `body a` are the calls that are made
when `a` is visited. -/
def loop (c : Cfg P) (body : Nat → List (Op P)) : Nat → Hp P → Nat → Option Nat → List Nat → Out P
  | 0, _, _, _, v => .more v
  | _ + 1, h, _, none, v => .done h v
  | f + 1, h, l, some k, v =>
    match after k (h.cells l) with
    | none => .dangling v
    | some (a, pos) => loop c body f (h.run c (body a)) l pos (v ++ [a])

/-- `for a in space.get_agents(pt): …`, at most `f` rounds. -/
def forAgents (c : Cfg P) (body : Nat → List (Op P)) (f : Nat) (h : Hp P) (pt : P) : Out P :=
  let h := (h.step c (.getAgents pt)).1
  loop c body f h (h.getAll pt) (first (h.cells (h.getAll pt))) []

/-- A whole loop over an iterator whose list does not change: the agents visited. At its end the iterator is at `end()`. -/
def visitAll (l : List (Nat × Nat)) : Nat → Option Nat → List Nat
  | 0, _ => []
  | _ + 1, none => []
  | f + 1, some k =>
    match after k l with
    | none => []
    | some (a, pos) => a :: visitAll l f pos

/-- `for x in agents: for y in agents: …` for the same result `agents` of `get_agents`: the pairs visited. Both loops have the same iterator, and the
beginning of a loop sets it to the first node (coremodule.cpp:36-40 `AgentIter_iter`, core.h:85-88 `reset`). -/
def nested (l : List (Nat × Nat)) : Nat → Option Nat → List (Nat × Nat)
  | 0, _ => []
  | _ + 1, none => []
  | f + 1, some k =>
    match after k l with
    | none => []
    | some (a, _) => (visitAll l (l.length + 1) (first l)).map (fun b => (a, b)) ++ nested l f none

end Repast.Space
