import Verif.Space.Spec

/-
Model of a continuous space and its spatial tree: `/repo/src/repast4py/SpatialTree.h`, `SpatialTree.cpp`, `cspace.h`, borders.h for continuous
points.

Point objects are modelled by addresses (`Nat`) into a heap (`pts : Nat → CPt`), because the tree stores pointers to the agents' point objects and
`move` changes those objects in place.

Simplifications: coordinates are exact rationals (a double is a rational; rounding of the arithmetic on them, and overflow of the integer bounds, are not modelled).
The items of a leaf are a list in order of insertion: the order of a `std::map` / `std::set` only affects the order of a result. `std::map::find`
on the map of a leaf finds an entry whose key has equal coordinates if there is one. (This is what it does on a map whose keys are in order or that
has at most one key. After a key was changed in place the real search may even miss an entry that is there.) A leaf with more than INT_MAX points
is not modelled. Reference counts are not modelled.
-/
namespace Repast.Tree
open Repast.Space (Box upd Op Res)

/-- geometry.h:57-61 `Point<R4Py_ContinuousPoint>`, and the content of an `R4Py_ContinuousPoint`'s array. -/
structure CPt where
  x : Rat
  y : Rat
  z : Rat
  deriving DecidableEq, Repr

/-- geometry.cpp:157-189 `BoundingBox::contains` for continuous points. -/
def _root_.Repast.Space.Box.containsC (b : Box) (p : CPt) : Bool :=
  let xc := decide ((b.xmin : Rat) ≤ p.x) && decide (p.x < (b.xmax : Rat))
  let yc := decide ((b.ymin : Rat) ≤ p.y) && decide (p.y < (b.ymax : Rat))
  let zc := decide ((b.zmin : Rat) ≤ p.z) && decide (p.z < (b.zmax : Rat))
  match b.numDims with
  | 2 => xc && yc
  | 3 => xc && yc && zc
  | _ => xc

/-- borders.h:47-50: the offset of a continuous point. -/
def offset : Rat := 1 / 100000000

/-- borders.h:85: one coordinate of `StickyBorders::transform`. -/
def csticky1 (min_ max_ : Int) (v : Rat) : Rat := max (min_ : Rat) (min ((max_ : Rat) - offset) v)

/-- borders.h:72-88 `StickyBorders::transform`. -/
def csticky (b : Box) (p : CPt) : CPt :=
  { x := csticky1 b.xmin b.xmax p.x, y := csticky1 b.ymin b.ymax p.y, z := csticky1 b.zmin b.zmax p.z }

/-- C's `fmod`: the remainder of the division truncated towards zero. -/
def fmod (a b : Rat) : Rat := a - b * ((if 0 ≤ a / b then (a / b).floor else -((-(a / b)).floor) : Int) : Rat)

/-- borders.h:98-99: one coordinate of a periodic transform. -/
def cperiodic1 (min_ max_ ext : Int) (v : Rat) : Rat :=
  let nc := fmod (v - min_) ext
  if nc < 0 then (max_ : Rat) + nc else (min_ : Rat) + nc

/-- borders.h:93-165 `PeriodicBorders::transform`, as `Repast.Space.periodic`. -/
def cperiodic (b : Box) (p d : CPt) : CPt :=
  if 0 < b.xext ∧ 0 < b.yext ∧ 0 < b.zext then
    { x := cperiodic1 b.xmin b.xmax b.xext p.x, y := cperiodic1 b.ymin b.ymax b.yext p.y, z := cperiodic1 b.zmin b.zmax b.zext p.z }
  else if 0 < b.xext ∧ 0 < b.yext then
    { d with x := cperiodic1 b.xmin b.xmax b.xext p.x, y := cperiodic1 b.ymin b.ymax b.yext p.y }
  else
    { d with x := cperiodic1 b.xmin b.xmax b.xext p.x }

/-- SpatialTree.h:37-56 `Box2D`, `Box3D`: `min_` and `max_`. -/
structure NBox where
  x0 : Rat
  x1 : Rat
  y0 : Rat
  y1 : Rat
  z0 : Rat
  z1 : Rat
  deriving DecidableEq, Repr

/-- SpatialTree.cpp:17-22, 33-38 `contains`; `d3` selects `Box3D`. -/
def NBox.contains (d3 : Bool) (b : NBox) (p : CPt) : Bool :=
  decide (b.x0 ≤ p.x) && decide (p.x ≤ b.x1) && (decide (b.y0 ≤ p.y) && decide (p.y ≤ b.y1)) &&
    (!d3 || (decide (b.z0 ≤ p.z) && decide (p.z ≤ b.z1)))

/-- SpatialTree.cpp:24-28, 40-46 `intersects`. -/
def NBox.intersects (d3 : Bool) (b : NBox) (q : Box) : Bool :=
  if b.x0 > (q.xmax : Rat) ∨ (q.xmin : Rat) > b.x1 then false
  else if b.y0 > (q.ymax : Rat) ∨ (q.ymin : Rat) > b.y1 then false
  else if d3 = true ∧ (b.z0 > (q.zmax : Rat) ∨ (q.zmin : Rat) > b.z1) then false
  else true

/-- SpatialTree.h:473-477, 526-532: the planes of a composite node. -/
def NBox.xp (b : NBox) : Rat := b.x0 + (b.x1 - b.x0) / 2
def NBox.yp (b : NBox) : Rat := b.y0 + (b.y1 - b.y0) / 2
def NBox.zp (b : NBox) : Rat := b.z0 + (b.z1 - b.z0) / 2

/-- SpatialTree.h:493-506 (2-D), 556-574 (3-D) `calcChildIndex`. -/
def childIndex (d3 : Bool) (b : NBox) (p : CPt) : Nat :=
  if d3 then (if b.xp ≤ p.x then 4 else 0) + (if b.yp ≤ p.y then 2 else 0) + (if b.zp ≤ p.z then 1 else 0)
  else (if b.xp ≤ p.x then 2 else 0) + (if b.yp ≤ p.y then 1 else 0)

/-- SpatialTree.h:479-486 (2-D), 534-549 (3-D): the bounds of child `i`, from its minimum (SpatialTree.h:77-79 adds half the extents to it). -/
def childBox (d3 : Bool) (b : NBox) (i : Nat) : NBox :=
  let hx := (b.x1 - b.x0) / 2
  let hy := (b.y1 - b.y0) / 2
  let hz := (b.z1 - b.z0) / 2
  let right := if d3 then decide (4 ≤ i) else decide (2 ≤ i)
  let up := if d3 then decide (i % 4 / 2 = 1) else decide (i % 2 = 1)
  let back := d3 && decide (i % 2 = 1)
  let mx := if right then b.x0 + hx else b.x0
  let my := if up then b.y0 + hy else b.y0
  let mz := if d3 then (if back then b.z0 + hz else b.z0) else 0
  { x0 := mx, x1 := mx + hx, y0 := my, y1 := my + hy, z0 := mz, z1 := if d3 then mz + hz else 0 }

/-- The number of children. -/
def arity (d3 : Bool) : Nat := if d3 then 8 else 4

/-- SpatialTree.h:323-339 `ComponentNode` (its items: the pointers and their counts; in a single occupancy space the counts are not
used) and 383-406 `CompositeNode`. -/
inductive Node where
  | leaf (b : NBox) (items : List (Nat × Nat))
  | comp (b : NBox) (size : Nat) (ch : Nat → Node)

/-- SpatialTree.h:115-125 `MOItems::add`: `find`, by coordinates. -/
def moAdd (pts : Nat → CPt) (p : Nat) : List (Nat × Nat) → List (Nat × Nat)
  | [] => [(p, 1)]
  | (k, n) :: l => if pts k = pts p then (k, n + 1) :: l else (k, n) :: moAdd pts p l

/-- SpatialTree.h:127-141 `MOItems::remove`. -/
def moRemove (pts : Nat → CPt) (p : Nat) : List (Nat × Nat) → List (Nat × Nat) × Bool
  | [] => ([], false)
  | (k, n) :: l =>
    if pts k = pts p then (if n = 1 then l else (k, n - 1) :: l, true)
    else let r := moRemove pts p l; ((k, n) :: r.1, r.2)

/-- SpatialTree.h:225-229 `SOItems::add`: a set of pointers. -/
def soAdd (p : Nat) (l : List (Nat × Nat)) : List (Nat × Nat) := if p ∈ l.map (·.1) then l else l ++ [(p, 1)]

/-- SpatialTree.h:231-240 `SOItems::remove`. -/
def soRemove (p : Nat) : List (Nat × Nat) → List (Nat × Nat) × Bool
  | [] => ([], false)
  | (k, n) :: l => if k = p then (l, true) else let r := soRemove p l; ((k, n) :: r.1, r.2)

/-- SpatialTree.h:298-310 `TreeItemSelector`. -/
def itemsAdd (single : Bool) (pts : Nat → CPt) (p : Nat) (l : List (Nat × Nat)) : List (Nat × Nat) := if single then soAdd p l else moAdd pts p l
def itemsRemove (single : Bool) (pts : Nat → CPt) (p : Nat) (l : List (Nat × Nat)) : List (Nat × Nat) × Bool :=
  if single then soRemove p l else moRemove pts p l

/-- SpatialTree.h:424-436, 348-352 `addItem` with threshold INT_MAX: no node is split. -/
def Node.addNS (d3 single : Bool) (pts : Nat → CPt) (p : Nat) : Node → Node
  | .leaf b items => .leaf b (itemsAdd single pts p items)
  | .comp b n ch =>
    if b.contains d3 (pts p) then .comp b (n + 1) (upd ch (childIndex d3 b (pts p)) ((ch (childIndex d3 b (pts p))).addNS d3 single pts p))
    else .comp b n ch

/-- SpatialTree.h:469-487, 522-550: a new composite node, whose children are leaves. -/
def newComp (d3 : Bool) (b : NBox) : Node := .comp b 0 (fun i => .leaf (childBox d3 b i) [])

/-- SpatialTree.h:367-382 `ComponentNode::split`, 143-155 and 242-254 `addToNode`. (Of a composite node `split` throws, SpatialTree.h:451-454,
but is never called because `addItem` of a composite node returns false.) -/
def Node.split (d3 single : Bool) (pts : Nat → CPt) : Node → Node
  | .leaf b items => items.foldl (fun nd kv => nd.addNS d3 single pts kv.1) (newComp d3 b)
  | nd => nd

/-- SpatialTree.h:351: `items.size() > threshold`, a comparison of a `size_t` and an `int`: a negative threshold becomes a large number. -/
def over (size : Nat) (threshold : Int) : Bool := decide (0 ≤ threshold) && decide (threshold < (size : Int))

/-- SpatialTree.h:424-436 (composite), 348-352 (component) `addItem`. -/
def Node.add (d3 single : Bool) (pts : Nat → CPt) (thr : Int) (p : Nat) : Node → Node × Bool
  | .leaf b items => let l := itemsAdd single pts p items; (.leaf b l, over l.length thr)
  | .comp b n ch =>
    if b.contains d3 (pts p) then
      let i := childIndex d3 b (pts p)
      let r := (ch i).add d3 single pts thr p
      (.comp b (n + 1) (upd ch i (if r.2 then r.1.split d3 single pts else r.1)), false)
    else (.comp b n ch, false)

/-- SpatialTree.h:438-448 (composite), 354-357 (component) `removeItem`. -/
def Node.remove (d3 single : Bool) (pts : Nat → CPt) (p : Nat) : Node → Node × Bool
  | .leaf b items => let r := itemsRemove single pts p items; (.leaf b r.1, r.2)
  | .comp b n ch =>
    if b.contains d3 (pts p) then
      let i := childIndex d3 b (pts p)
      let r := (ch i).remove d3 single pts p
      if r.2 then (.comp b (n - 1) (upd ch i r.1), true) else (.comp b n (upd ch i r.1), false)
    else (.comp b n ch, false)

/-- SpatialTree.h:157-168, 257-268 `getObjectsWithin` of the items of a leaf. `(*loc_map)[ppt]` of a point without agents is a null pointer, which
is then dereferenced: `none`. -/
def itemsWithin (pts : Nat → CPt) (loc : CPt → List Nat) (q : Box) : List (Nat × Nat) → Option (List Nat)
  | [] => some []
  | (k, _) :: l =>
    if q.containsC (pts k) then
      if loc (pts k) = [] then none else (itemsWithin pts loc q l).map (loc (pts k) ++ ·)
    else itemsWithin pts loc q l

/-- The concatenation of the results of a list of traversals. -/
def gather : List (Option (List Nat)) → Option (List Nat)
  | [] => some []
  | none :: _ => none
  | some x :: l => (gather l).map (x ++ ·)

/-- SpatialTree.h:413-422 (composite), 359-365 (component) `getObjectsWithin`. -/
def Node.within (d3 : Bool) (pts : Nat → CPt) (loc : CPt → List Nat) (q : Box) : Node → Option (List Nat)
  | .leaf b items => if items.length > 0 ∧ b.intersects d3 q = true then itemsWithin pts loc q items else some []
  | .comp b n ch =>
    if n > 0 ∧ b.intersects d3 q = true then gather ((List.range (arity d3)).map (fun i => (ch i).within d3 pts loc q)) else some []

/-- A continuous space: its bounds, borders, occupancy type and tree threshold. -/
structure CCfg where
  bounds : Box
  tr : CPt → CPt → CPt
  single : Bool
  thr : Int

/-- cspace.h:50-59: the kind of tree. -/
def CCfg.d3 (c : CCfg) : Bool := decide (c.bounds.numDims = 3)

/-- cspace.h:18-29, space.h:51-57. `agents a` is the entry of `agent_map` (`some none`: without a point object); `next` is the address of the next point
object; `root` is not used if the space has one dimension (the space then has no tree). -/
structure CS where
  agents : Nat → Option (Option Nat)
  pts : Nat → CPt
  next : Nat
  loc : CPt → List Nat
  wpt : CPt
  root : Node

/-- SpatialTree.h:596-610: the bounds of the root. (`Box2D` ignores the third dimension.) -/
def rootBox (b : Box) : NBox := { x0 := b.xmin, x1 := (b.xmin : Rat) + b.xext, y0 := b.ymin, y1 := (b.ymin : Rat) + b.yext,
                                  z0 := b.zmin, z1 := (b.zmin : Rat) + b.zext }

/-- cspace.h:43-60: a new space. -/
def CS.init (c : CCfg) : CS :=
  { agents := fun _ => none, pts := fun _ => ⟨0, 0, 0⟩, next := 0, loc := fun _ => [], wpt := ⟨0, 0, 0⟩, root := newComp c.d3 (rootBox c.bounds) }

/-- The part of the configuration the accessors use (`Space.put`, `Space.rem`). -/
def CCfg.base (c : CCfg) : Space.Cfg CPt := { tr := c.tr, single := c.single }

/-- cspace.h:77-84 `remove`, then space.h:106-120. `none`: the null tree of a one-dimensional space is used. -/
def cremove (c : CCfg) (s : CS) (a : Nat) : Option (CS × Bool) :=
  match s.agents a with
  | none => some (s, false)
  | some none => some ({ s with agents := upd s.agents a none }, false)
  | some (some k) =>
    if c.bounds.numDims = 1 then none else
    let root := (s.root.remove c.d3 c.single s.pts k).1
    let r := Space.rem c.base s.loc a (s.pts k)
    some ({ s with agents := upd s.agents a none, loc := r.1, wpt := s.pts k, root := root }, r.2)

/-- cspace.h:86-119 `move`. -/
def cmove (c : CCfg) (s : CS) (a : Nat) (pt : CPt) : Option (CS × Res CPt) :=
  match s.agents a with
  | none => some (s, .error)
  | some cur =>
    let w := c.tr pt s.wpt
    let s := { s with wpt := w }
    if cur.map s.pts = some w then some (s, .loc (some w))
    else
      match Space.put c.base s.loc a w with
      | none => some (s, .loc none)
      | some loc =>
        if c.bounds.numDims = 1 then none else
        match cur with
        | some k =>
          let root := (s.root.remove c.d3 c.single s.pts k).1
          let loc := (Space.rem c.base loc a (s.pts k)).1
          let pts := upd s.pts k w
          let root := (root.add c.d3 c.single pts c.thr k).1
          some ({ s with pts := pts, loc := loc, root := root }, .loc (some w))
        | none =>
          let pts := upd s.pts s.next w
          let root := (s.root.add c.d3 c.single pts c.thr s.next).1
          some ({ s with agents := upd s.agents a (some (some s.next)), pts := pts, next := s.next + 1, loc := loc, root := root }, .loc (some w))

/-- One call, as `Space.step`. -/
def cstep (c : CCfg) (s : CS) : Op CPt → Option (CS × Res CPt)
  | .add a => some ({ s with agents := upd s.agents a (some none) }, .bool true)
  | .remove a => (cremove c s a).map (fun r => (r.1, .bool r.2))
  | .move a pt => cmove c s a pt
  | .getAgent pt => some ({ s with wpt := pt }, .agent (s.loc pt).head?)
  | .getAgents pt => some ({ s with wpt := pt }, .agents (s.loc pt))
  | .getLocation a => some (s, .loc (((s.agents a).getD none).map s.pts))
  | .contains a => some (s, .bool (s.agents a).isSome)

/-- A sequence of calls. -/
def crun (c : CCfg) (s : CS) : List (Op CPt) → Option (CS × List (Res CPt))
  | [] => some (s, [])
  | o :: os =>
    match cstep c s o with
    | none => none
    | some r => (crun c r.1 os).map (fun q => (q.1, r.2 :: q.2))

/-- cspace.h:65-70 `getAgentsWithin` (spacemodule.cpp:1798-1823 `get_agents_within`). `none`: a null pointer is used. -/
def getWithin (c : CCfg) (s : CS) (q : Box) : Option (List Nat) :=
  if c.bounds.numDims = 1 then none else s.root.within c.d3 s.pts s.loc q

/-- Continuous spaces with sticky or periodic borders (cspace.h:218-221). -/
def cspace (b : Box) (isPeriodic single : Bool) (thr : Int) : CCfg :=
  { bounds := b, tr := fun p w => if isPeriodic then cperiodic b p w else csticky b p, single := single, thr := thr }

end Repast.Tree
