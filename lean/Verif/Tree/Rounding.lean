import Verif.Tree.Props

/-!
C50 with the rounding of doubles. `Verif/Tree/Model` computes with exact rationals; here the two borders are computed as borders.h does, with every
arithmetic operation rounded. Both then have results outside of the bounds.
-/
namespace Repast.Tree
open Repast.Space (Box)

/-- The largest integer `e` with `2^e ≤ q`, for `q > 0`. -/
def ilog2 (q : Rat) : Int :=
  let e : Int := (Nat.log2 q.num.natAbs : Int) - (Nat.log2 q.den : Int)
  if (2 : Rat) ^ e ≤ q then e else e - 1

/-- Rounding to the nearest integer, ties to even. -/
def roundEven (q : Rat) : Int :=
  let f := q.floor
  let d := q - f
  if d < 1 / 2 then f else if 1 / 2 < d then f + 1 else if f % 2 = 0 then f else f + 1

/-- Rounding to the nearest double: 53 significant bits, ties to even. (Overflow and subnormal numbers are not modelled; the theorems here do not reach them.) -/
def rnd (q : Rat) : Rat :=
  if q = 0 then 0
  else if 0 < q then (roundEven (q / (2 : Rat) ^ (ilog2 q - 52)) : Rat) * (2 : Rat) ^ (ilog2 q - 52)
  else -((roundEven (-q / (2 : Rat) ^ (ilog2 (-q) - 52)) : Rat) * (2 : Rat) ^ (ilog2 (-q) - 52))

/-- A double. -/
def IsDouble (q : Rat) : Prop := rnd q = q

instance (q : Rat) : Decidable (IsDouble q) := inferInstanceAs (Decidable (_ = _))

/-- borders.h:47-50, 85 with rounding: the constant and the subtraction. -/
def dsticky1 (min_ max_ : Int) (v : Rat) : Rat := max (min_ : Rat) (min (rnd ((max_ : Rat) - rnd offset)) v)

/-- borders.h:98-99 with rounding: the subtraction and the addition. (`fmod` is exact on doubles.) -/
def dperiodic1 (min_ max_ ext : Int) (v : Rat) : Rat :=
  let nc := fmod (rnd (v - min_)) ext
  if nc < 0 then rnd ((max_ : Rat) + nc) else rnd ((min_ : Rat) + nc)

/-- C50 is violated: a periodic dimension `[0, 10)` maps the double `-2^-60` to `10`, which is not in it. -/
theorem C50_rounding_periodic : IsDouble (-1 / 2 ^ 60) ∧ dperiodic1 0 10 10 (-1 / 2 ^ 60) = 10 := by decide +kernel

/-- C50 is violated: a sticky dimension `[0, 2^28)` maps every double from `2^28` on to `2^28`, which is not in it. -/
theorem C50_rounding_sticky (v : Rat) (hv : 268435456 ≤ v) : dsticky1 0 268435456 v = 268435456 := by
  have h : rnd (((268435456 : Int) : Rat) - rnd offset) = 268435456 := by decide +kernel
  unfold dsticky1
  rw [h]
  have h0 : ((0 : Int) : Rat) = 0 := rfl
  rw [h0]
  grind

/-- For small coordinates the two agree. -/
example : dperiodic1 0 10 10 (-5 / 2) = cperiodic1 0 10 10 (-5 / 2) ∧ dsticky1 0 10 (5 / 2) = csticky1 0 10 (5 / 2) ∧ dsticky1 0 10 11 < 10 ∧
    rnd (1 / 10) = 3602879701896397 / 36028797018963968 := by decide +kernel

end Repast.Tree
