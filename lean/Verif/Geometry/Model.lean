/-
Model of the neighbourhood finders of `/repo/src/repast4py/geometry.py`.

Arrays are lists; a stacked array is the list of its rows. Coordinates are unbounded integers. `pt` is given by its coordinates and `min_max` by the
inclusive limits of each dimension.
-/
namespace Repast.Geometry

/-- numpy: `pt[i] + offsets`. -/
def shift (v : Int) (offs : List Int) : List Int := offs.map (v + ·)

/-- numpy: `(a >= lo) & (a <= hi)`. -/
def mask (lo hi : Int) (a : List Int) : List Bool := a.map (fun v => decide (lo ≤ v) && decide (v ≤ hi))

/-- numpy: `a[mask]`. -/
def sel (a : List Int) (m : List Bool) : List Int := ((a.zip m).filter (·.2)).map (·.1)

/-- numpy: `np.tile`. -/
def tile (n : Nat) (l : List Int) : List Int := (List.replicate n l).flatten

/-- geometry.py:57-62: the offsets. -/
def xoff1 : List Int := [-1, 0, 1]
def xoff2 : List Int := tile 3 xoff1
def yoff2 : List Int := [-1, -1, -1, 0, 0, 0, 1, 1, 1]
def xoff3 : List Int := tile 9 xoff1
def yoff3 : List Int := tile 3 yoff2
def zoff3 : List Int := List.replicate 9 (-1) ++ List.replicate 9 0 ++ List.replicate 9 1

/-- An inclusive range `[min, max]` of `min_max`. -/
structure MM where
  lo : Int
  hi : Int

/-- geometry.py:66-92 `find_1d_nghs_sticky`. -/
def sticky1d (x : Int) (mx : MM) : List Int :=
  let xs := shift x xoff1
  sel xs (mask mx.lo mx.hi xs)

/-- geometry.py:96-125 `find_2d_nghs_sticky`. -/
def sticky2d (x y : Int) (mx my : MM) (pytorch : Bool) : List (List Int) :=
  let xs := shift x xoff2
  let ys := shift y yoff2
  let xi := mask mx.lo mx.hi xs
  let xs := sel xs xi
  let ys := sel ys xi
  let yi := mask my.lo my.hi ys
  let xs := sel xs yi
  let ys := sel ys yi
  if pytorch then [ys, xs] else [xs, ys]

/-- geometry.py:129-165 `find_3d_nghs_sticky`. -/
def sticky3d (x y z : Int) (mx my mz : MM) (pytorch : Bool) : List (List Int) :=
  let xs := shift x xoff3
  let ys := shift y yoff3
  let zs := shift z zoff3
  let xi := mask mx.lo mx.hi xs
  let xs := sel xs xi
  let ys := sel ys xi
  let zs := sel zs xi
  let yi := mask my.lo my.hi ys
  let xs := sel xs yi
  let ys := sel ys yi
  let zs := sel zs yi
  let zi := mask mz.lo mz.hi zs
  let xs := sel xs zi
  let ys := sel ys zi
  let zs := sel zs zi
  if pytorch then [zs, ys, xs] else [xs, ys, zs]

/-- geometry.py:193-196, 216-224, 244-257: `ncs = np.mod(pts - min, extent)` (the remainder of division rounded down),
`np.where(ncs < 0, max + ncs, min + ncs)`. -/
def wrapAll (m : MM) (pts : List Int) : List Int :=
  let ext := m.hi - m.lo + 1
  pts.map (fun v => let nc := (v - m.lo).fmod ext; if nc < 0 then m.hi + nc else m.lo + nc)

/-- geometry.py:169-197 `find_1d_nghs_periodic`. -/
def periodic1d (x : Int) (mx : MM) : List Int := wrapAll mx (shift x xoff1)

/-- geometry.py:201-226 `find_2d_nghs_periodic`. -/
def periodic2d (x y : Int) (mx my : MM) (pytorch : Bool) : List (List Int) :=
  let xs := wrapAll mx (shift x xoff2)
  let ys := wrapAll my (shift y yoff2)
  if pytorch then [ys, xs] else [xs, ys]

/-- geometry.py:230-259 `find_3d_nghs_periodic`. -/
def periodic3d (x y z : Int) (mx my mz : MM) (pytorch : Bool) : List (List Int) :=
  let xs := wrapAll mx (shift x xoff3)
  let ys := wrapAll my (shift y yoff3)
  let zs := wrapAll mz (shift z zoff3)
  if pytorch then [zs, ys, xs] else [xs, ys, zs]

/-- geometry.py:21-54 `get_num_dims`; the extents of the last two dimensions. -/
def getNumDims (yext zext : Int) : Nat := if yext = 0 ∧ zext = 0 then 1 else if zext = 0 then 2 else 3

end Repast.Geometry
