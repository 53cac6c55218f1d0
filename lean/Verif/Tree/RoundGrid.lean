import Verif.Tree.RoundBounds
import Verif.Space.BorderProps

/-! C28 with the conversion of `long` coordinates to doubles: borders.h calls `fmod`, whose arguments are doubles, for grids too. `Verif/Space/Geom` takes the
remainder of integers. -/
namespace Repast.Tree
open Repast.Space (Box Pt periodic1 periodic)

/-- The conversion of a double to a `long`: towards zero. -/
def trunc (q : Rat) : Int := if 0 ≤ q then q.floor else -(-q).floor

/-- borders.h:98-99 for `R4Py_DiscretePoint`: the distance (a `long`) and the extent are converted to doubles for `fmod`, and its result to a `long`. (The
subtraction does not overflow: coordinates are unbounded integers.) -/
def gperiodic1 (min_ max_ ext v : Int) : Int :=
  let nc := trunc (fmod (rnd ((v - min_ : Int) : Rat)) (rnd (ext : Rat)))
  if nc < 0 then max_ + nc else min_ + nc

/-- borders.h:95-137: the transform of a point; `d` is the destination. -/
def gperiodic (b : Box) (p d : Pt) : Pt :=
  if 0 < b.xext ∧ 0 < b.yext ∧ 0 < b.zext then
    ⟨gperiodic1 b.xmin b.xmax b.xext p.x, gperiodic1 b.ymin b.ymax b.yext p.y, gperiodic1 b.zmin b.zmax b.zext p.z⟩
  else if 0 < b.xext ∧ 0 < b.yext then
    ⟨gperiodic1 b.xmin b.xmax b.xext p.x, gperiodic1 b.ymin b.ymax b.yext p.y, d.z⟩
  else
    ⟨gperiodic1 b.xmin b.xmax b.xext p.x, d.y, d.z⟩

theorem trunc_int (n : Int) : trunc (n : Rat) = n := by
  unfold trunc
  rw [← Rat.intCast_neg, Rat.floor_intCast, Rat.floor_intCast]
  split <;> omega

theorem fmod_int (a : Int) {b : Int} (hb : 0 < b) : fmod (a : Rat) (b : Rat) = ((a.tmod b : Int) : Rat) := by
  have hb' : (0 : Rat) < b := Rat.intCast_pos.2 hb
  obtain ⟨h1, h2, k, hk⟩ := fmod_spec (a : Rat) hb'
  rw [← Rat.intCast_mul, ← Rat.intCast_sub] at hk
  rw [hk] at h1 h2 ⊢
  congr 1
  have e := Int.mul_tdiv_add_tmod a b
  by_cases ha : 0 ≤ a
  · obtain ⟨l, u⟩ := h1 (Rat.intCast_nonneg.2 ha)
    have l : 0 ≤ a - b * k := Rat.intCast_nonneg.1 l
    have u : a - b * k < b := Rat.intCast_lt_intCast.1 u
    rw [Int.tmod_eq_emod_of_nonneg ha, ← Int.emod_eq_of_lt l u, Int.sub_mul_emod_self_left]
  · obtain ⟨l, u⟩ := h2 (Rat.intCast_neg_iff.2 (by omega))
    rw [← Rat.intCast_neg] at l
    have l : -b < a - b * k := Rat.intCast_lt_intCast.1 l
    have u : a - b * k ≤ 0 := Rat.intCast_nonpos.1 u
    have := Int.emod_eq_of_lt (a := -(a - b * k)) (b := b) (by omega) (by omega)
    rw [show -(a - b * k) = -a + b * k by omega, Int.add_mul_emod_self_left] at this
    have t := Int.neg_tmod a b
    rw [Int.tmod_eq_emod_of_nonneg (by omega)] at t
    omega

theorem gperiodic1_eq {lo hi ext v : Int} (h : 0 < ext) (he : ext ≤ 2 ^ 53) (h1 : -2 ^ 53 ≤ v - lo) (h2 : v - lo ≤ 2 ^ 53) :
    gperiodic1 lo hi ext v = periodic1 lo hi ext v := by
  unfold gperiodic1 periodic1
  simp only
  rw [rnd_bits (Bits.int h1 h2), rnd_bits (Bits.int (by omega) he), fmod_int _ h, trunc_int]

/-- C28 with doubles: for boxes with extents, and points at distances from their minima, up to `2^53` the transform is the exact one. -/
theorem C28_rounding_partial {b : Box} (p d : Pt) (hx : 0 < b.xext) (ex : b.xext ≤ 2 ^ 53) (x1 : -2 ^ 53 ≤ p.x - b.xmin) (x2 : p.x - b.xmin ≤ 2 ^ 53)
    (ey : b.yext ≤ 2 ^ 53) (y1 : -2 ^ 53 ≤ p.y - b.ymin) (y2 : p.y - b.ymin ≤ 2 ^ 53)
    (ez : b.zext ≤ 2 ^ 53) (z1 : -2 ^ 53 ≤ p.z - b.zmin) (z2 : p.z - b.zmin ≤ 2 ^ 53) : gperiodic b p d = periodic b p d := by
  unfold gperiodic periodic
  have X := gperiodic1_eq (hi := b.xmax) hx ex x1 x2
  have Y := fun h : 0 < b.yext => gperiodic1_eq (hi := b.ymax) h ey y1 y2
  have Z := fun h : 0 < b.zext => gperiodic1_eq (hi := b.zmax) h ez z1 z2
  split
  · rename_i h; rw [X, Y h.2.1, Z h.2.2]
  · split
    · rename_i h; rw [X, Y h.2]
    · rw [X]

theorem trunc_between {q : Rat} {n : Int} (h1 : -(n : Rat) < q) (h2 : q < n) : -n < trunc q ∧ trunc q < n := by
  unfold trunc
  split
  · rename_i h
    have a := Rat.floor_monotone h
    have b := Rat.floor_le q
    have c : (q.floor : Rat) < n := by grind
    have c := Rat.intCast_lt_intCast.1 c
    have z : Rat.floor 0 = 0 := by decide
    omega
  · rename_i h
    have h' : 0 ≤ -q := by grind
    have a := Rat.floor_monotone h'
    have b := Rat.floor_le (-q)
    have c : ((-q).floor : Rat) < n := by grind
    have c := Rat.intCast_lt_intCast.1 c
    have z : Rat.floor 0 = 0 := by decide
    omega

/-- C28 with doubles: whatever the point, the transform lands in bounds. -/
theorem C28_rounding_bounds {b : Box} (hb : b.Ok) (ex : b.xext ≤ 2 ^ 53) (ey : b.yext ≤ 2 ^ 53) (ez : b.zext ≤ 2 ^ 53) (p d : Pt) :
    b.contains (gperiodic b p d) = true := by
  have key {lo ext v : Int} (h : 0 < ext) (he : ext ≤ 2 ^ 53) : lo ≤ gperiodic1 lo (lo + ext) ext v ∧ gperiodic1 lo (lo + ext) ext v < lo + ext := by
    unfold gperiodic1
    simp only
    rw [rnd_bits (Bits.int (n := ext) (by omega) he)]
    have := fmod_between (rnd ((v - lo : Int) : Rat)) (b := (ext : Rat)) (Rat.intCast_pos.2 h)
    have := trunc_between this.1 this.2
    split <;> omega
  have X := key (lo := b.xmin) (v := p.x) hb.x ex
  have Y := fun h : 0 < b.yext => key (lo := b.ymin) (v := p.y) h ey
  have Z := fun h : 0 < b.zext => key (lo := b.zmin) (v := p.z) h ez
  have hy := hb.y
  have hz := hb.z
  refine (Space.contains_iff hb _).2 ⟨?_, fun h => ?_, fun h => ?_⟩
  · unfold gperiodic; split
    · exact X
    · split <;> exact X
  · unfold gperiodic; split
    · exact Y h
    · rw [if_pos ⟨hb.x, h⟩]; exact Y h
  · unfold gperiodic
    rw [if_pos ⟨hb.x, hb.zy h, h⟩]; exact Z h

/-- C28 is violated: in a periodic grid of two cells the `long` coordinate `2^53 + 1` is that of cell 1, and is transformed to cell 0. -/
theorem C28_violation_large : periodic1 0 2 2 (2 ^ 53 + 1) = 1 ∧ gperiodic1 0 2 2 (2 ^ 53 + 1) = 0 ∧
    ¬ ∃ k : Int, gperiodic1 0 2 2 (2 ^ 53 + 1) = 2 ^ 53 + 1 + k * 2 := by
  have h : gperiodic1 0 2 2 (2 ^ 53 + 1) = 0 := by decide +kernel
  refine ⟨by decide +kernel, h, ?_⟩
  rw [h]
  rintro ⟨k, hk⟩
  omega

/-- The hypotheses: a box away from the origin and a point outside of it. -/
example : (⟨-3, 10, 5, 7, 0, 0⟩ : Box).Ok ∧ gperiodic ⟨-3, 10, 5, 7, 0, 0⟩ ⟨29, -1, 0⟩ ⟨0, 0, 0⟩ = ⟨-1, 6, 0⟩ := by
  refine ⟨⟨by decide, by decide, by decide, by decide⟩, by decide +kernel⟩

end Repast.Tree
