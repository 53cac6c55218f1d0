/-
Model of the discrete geometry of `/repo/src/repast4py`: points (geometry.h:57-61), bounding boxes (geometry.h:115-136,
geometry.cpp:83-189) and the two border behaviours (borders.h) on integer coordinates.

Simplifications: `long` coordinates are unbounded integers. `fmod` on the doubles converted from the longs is exact below 2^53 and is modelled by the
truncated remainder `Int.tmod`. A box is given by its minima and extents, the maxima are derived (geometry.cpp:83-91).
-/
namespace Repast.Space

/-- geometry.h:57-61 `Point<R4Py_DiscretePoint>`; also the content of an `R4Py_DiscretePoint`'s array. -/
structure Pt where
  x : Int
  y : Int
  z : Int
  deriving DecidableEq, Repr

/-- geometry.h:115-136 `BoundingBox`. -/
structure Box where
  xmin : Int
  xext : Int
  ymin : Int
  yext : Int
  zmin : Int
  zext : Int
  deriving DecidableEq, Repr

/-- geometry.cpp:83-86. -/
def Box.xmax (b : Box) : Int := b.xmin + b.xext
def Box.ymax (b : Box) : Int := b.ymin + b.yext
def Box.zmax (b : Box) : Int := b.zmin + b.zext

/-- geometry.cpp:86-89 `num_dims`. -/
def Box.numDims (b : Box) : Nat := if 0 < b.zext then 3 else if 0 < b.yext then 2 else 1

/-- geometry.cpp:125-155 `BoundingBox::contains`. -/
def Box.contains (b : Box) (p : Pt) : Bool :=
  let xc := decide (b.xmin ≤ p.x) && decide (p.x < b.xmax)
  let yc := decide (b.ymin ≤ p.y) && decide (p.y < b.ymax)
  let zc := decide (b.zmin ≤ p.z) && decide (p.z < b.zmax)
  match b.numDims with
  | 2 => xc && yc
  | 3 => xc && yc && zc
  | _ => xc

/-- borders.h:67-69, 85-87: one coordinate of `StickyBorders::transform`; the offset of a discrete point is 1 (borders.h:42-45). -/
def sticky1 (min_ max_ v : Int) : Int := max min_ (min (max_ - 1) v)

/-- borders.h:52-88 `StickyBorders::transform` (both versions). -/
def sticky (b : Box) (p : Pt) : Pt :=
  { x := sticky1 b.xmin b.xmax p.x, y := sticky1 b.ymin b.ymax p.y, z := sticky1 b.zmin b.zmax p.z }

/-- borders.h:98-99: one coordinate of a periodic transform. -/
def periodic1 (min_ max_ ext v : Int) : Int :=
  let nc := (v - min_).tmod ext
  if nc < 0 then max_ + nc else min_ + nc

/-- borders.h:93-165 `PeriodicBorders::transform(const PointType*, Point&)`: `transformXYZ`, `transformXY` or `transformX` is chosen from the
extents, and the coordinates that are not transformed keep their value in the destination `d`. -/
def periodic (b : Box) (p d : Pt) : Pt :=
  if 0 < b.xext ∧ 0 < b.yext ∧ 0 < b.zext then
    { x := periodic1 b.xmin b.xmax b.xext p.x, y := periodic1 b.ymin b.ymax b.yext p.y, z := periodic1 b.zmin b.zmax b.zext p.z }
  else if 0 < b.xext ∧ 0 < b.yext then
    { d with x := periodic1 b.xmin b.xmax b.xext p.x, y := periodic1 b.ymin b.ymax b.yext p.y }
  else
    { d with x := periodic1 b.xmin b.xmax b.xext p.x }

/-- borders.h:167-174 `PeriodicBorders::transform(const PointType*, PointType*)` for a sequence of calls on one border object: the results. The member
`temp_pt` (`tmp`, initially zero, borders.h:151) is what each call transforms into. -/
def periodicCalls (b : Box) : Pt → List Pt → List Pt
  | _, [] => []
  | tmp, p :: ps => periodic b p tmp :: periodicCalls b (periodic b p tmp) ps

end Repast.Space
