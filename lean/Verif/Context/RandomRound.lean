import Verif.Context.RandomPt
import Verif.Tree.RoundBounds

/-! C55 with the rounding of doubles: random points of shared continuous spaces. -/
namespace Repast.RandomPt
open Repast.Space Repast.Topology Repast.Tree Repast.Context

/-- numpy `Generator.uniform(low, high)`: `low + (high - low) * random()`, both operations rounded; `random()` is `k / 2^53` with `k < 2^53`. (The range is exact: it
is an integer below `2^53`.) -/
def duniform (low high : Int) (k : Nat) : Rat := rnd ((low : Rat) + rnd (((high - low : Int) : Rat) * ((k : Rat) / 2 ^ 53)))

/-- space.py:313-333, 338-346 `SharedCSpace.get_random_local_pt` with doubles. -/
def drandomCPt (b : Box) (kx ky kz : Nat) : CPt :=
  if Geometry.getNumDims b.yext b.zext = 1 then ⟨duniform b.xmin (b.xmin + b.xext) kx, 0, 0⟩
  else if Geometry.getNumDims b.yext b.zext = 2 then ⟨duniform b.xmin (b.xmin + b.xext) kx, duniform b.ymin (b.ymin + b.yext) ky, 0⟩
  else ⟨duniform b.xmin (b.xmin + b.xext) kx, duniform b.ymin (b.ymin + b.yext) ky, duniform b.zmin (b.zmin + b.zext) kz⟩

/-- In the bounds of a box or on its upper border. -/
def OnBox (b : Box) (nd : Nat) (p : CPt) : Prop :=
  ((b.xmin : Rat) ≤ p.x ∧ p.x ≤ (b.xmin + b.xext : Int)) ∧ (1 < nd → (b.ymin : Rat) ≤ p.y ∧ p.y ≤ (b.ymin + b.yext : Int)) ∧
  (nd = 3 → (b.zmin : Rat) ≤ p.z ∧ p.z ≤ (b.zmin + b.zext : Int))

theorem draw_unit {k : Nat} (hk : k < 2 ^ 53) : 0 ≤ (k : Rat) / 2 ^ 53 ∧ (k : Rat) / 2 ^ 53 ≤ 1 - 1 / 2 ^ 53 := by
  have e53 : (2 : Rat) ^ 53 = 9007199254740992 := by decide +kernel
  have k0 : (0 : Rat) ≤ k := Rat.natCast_nonneg
  have k1 : (k : Rat) ≤ ((2 ^ 53 - 1 : Nat) : Rat) := Rat.natCast_le_natCast.2 (by omega)
  have k2 : ((2 ^ 53 - 1 : Nat) : Rat) = 9007199254740991 := by decide +kernel
  rw [e53]
  grind

theorem duniform_on {lo hi : Int} (h : lo < hi) (h1 : -2 ^ 53 ≤ lo) (h2 : hi ≤ 2 ^ 53) (h3 : hi - lo ≤ 2 ^ 53) {k : Nat} (hk : k < 2 ^ 53) :
    (lo : Rat) ≤ duniform lo hi k ∧ duniform lo hi k ≤ hi := by
  obtain ⟨k0, k1⟩ := draw_unit hk
  have k1 : (k : Rat) / 2 ^ 53 ≤ 1 := Rat.le_trans k1 (by decide +kernel)
  unfold duniform
  generalize (k : Rat) / 2 ^ 53 = u at *
  have p : (0 : Rat) < ((hi - lo : Int) : Rat) := Rat.intCast_pos.2 (by omega)
  have m0 := Rat.mul_nonneg (Rat.le_of_lt p) k0
  have m1 := Rat.mul_le_mul_of_nonneg_left k1 (Rat.le_of_lt p)
  have z : Bits 0 := Bits.int (n := 0) (by decide) (by decide)
  have r0 := (rnd_between (q := ((hi - lo : Int) : Rat) * u) z).2 m0
  have r1 := (rnd_between (q := ((hi - lo : Int) : Rat) * u) (Bits.int (n := hi - lo) (by omega) h3)).1 (by grind)
  have e : ((hi - lo : Int) : Rat) = hi - lo := Rat.intCast_sub ..
  exact ⟨(rnd_between (Bits.int h1 (by omega))).2 (by grind), (rnd_between (Bits.int (by omega) h2)).1 (by grind)⟩

/-- C55 with doubles: a random local point is in the local bounds or on their upper border. Missing: the border itself is not local, and is drawn
(`C55_rounding_border`). -/
theorem C55_rounding_closed_partial {t : Topo} (h : t.Ok) (hr : Roomy t) (r : Nat)
    (bx : -2 ^ 52 ≤ (t.bounds r).xmin ∧ (t.bounds r).xmin + (t.bounds r).xext ≤ 2 ^ 52)
    (by_ : -2 ^ 52 ≤ (t.bounds r).ymin ∧ (t.bounds r).ymin + (t.bounds r).yext ≤ 2 ^ 52)
    (bz : -2 ^ 52 ≤ (t.bounds r).zmin ∧ (t.bounds r).zmin + (t.bounds r).zext ≤ 2 ^ 52) {kx ky kz : Nat} (hx : kx < 2 ^ 53) (hy : ky < 2 ^ 53) (hz : kz < 2 ^ 53) :
    OnBox (t.bounds r) t.nd (drandomCPt (t.bounds r) kx ky kz) := by
  obtain ⟨ex, ey, ez⟩ := local_ext h hr r
  obtain ⟨d1, d2⟩ := local_dims h hr r
  have X := duniform_on (lo := (t.bounds r).xmin) (hi := (t.bounds r).xmin + (t.bounds r).xext) (by omega) (by omega) (by omega) (by omega) hx
  unfold OnBox drandomCPt
  rcases nd_cases h with hn | hn | hn <;> simp only [d1, hn] at ey ez ⊢
  · exact ⟨X, fun k => by omega, fun k => by omega⟩
  · have ey : 0 < (t.bounds r).yext := by simpa using ey
    exact ⟨X, fun _ => duniform_on (by omega) (by omega) (by omega) (by omega) hy, fun k => by omega⟩
  · have ey : 0 < (t.bounds r).yext := by simpa using ey
    have ez : 0 < (t.bounds r).zext := by simpa using ez
    exact ⟨X, fun _ => duniform_on (by omega) (by omega) (by omega) (by omega) hy, fun _ => duniform_on (by omega) (by omega) (by omega) (by omega) hz⟩

/-- C55 with doubles: in a dimension in which the local bounds start at 0 the coordinate is in the bounds. -/
theorem C55_rounding_zero_partial {hi : Int} (h : 0 < hi) (h2 : hi ≤ 2 ^ 53) {k : Nat} (hk : k < 2 ^ 53) : 0 ≤ duniform 0 hi k ∧ duniform 0 hi k < hi := by
  have h0 := (duniform_on h (by omega) h2 (by omega) hk).1
  refine ⟨h0, ?_⟩
  obtain ⟨k0, k1⟩ := draw_unit hk
  generalize hu : (k : Rat) / 2 ^ 53 = u at *
  have e53 : (2 : Rat) ^ 53 = 9007199254740992 := by decide +kernel
  have p : (0 : Rat) < hi := Rat.intCast_pos.2 h
  have m0 := Rat.mul_nonneg (Rat.le_of_lt p) k0
  have m1 := Rat.mul_le_mul_of_nonneg_left k1 (Rat.le_of_lt p)
  have near := rnd_near (q := (hi : Rat) * u) (B := (hi : Rat) * u) (by grind) Rat.le_refl
  have lt : rnd ((hi : Rat) * u) < hi := by rw [e53] at *; grind
  have e : duniform 0 hi k = rnd ((hi : Rat) * u) := by
    unfold duniform
    rw [hu, Int.sub_zero, show ((0 : Int) : Rat) = 0 from rfl, Rat.zero_add, rnd_rnd]
  rw [e]
  exact lt

/-- C55 is violated: on rank 1 of three, with the local bounds `[1, 2)`, the largest draw gives the point 2, which is local to rank 2. -/
theorem C55_rounding_border : ∃ t : Topo, t.Ok ∧ Roomy t ∧ drandomCPt (t.bounds 1) (2 ^ 53 - 1) 0 0 = ⟨2, 0, 0⟩ ∧
    (t.bounds 1).containsC (drandomCPt (t.bounds 1) (2 ^ 53 - 1) 0 0) = false ∧ (t.bounds 2).containsC (drandomCPt (t.bounds 1) (2 ^ 53 - 1) 0 0) = true := by
  refine ⟨{ nd := 1, px := 3, py := 1, pz := 1, periodic := false, box := ⟨0, 3, 0, 0, 0, 0⟩ },
    ⟨⟨by decide, by decide, by decide, by decide⟩, by decide, by decide, by decide, by decide, by decide, by decide⟩, ⟨by decide, by unfold Topo.Fits; decide⟩, ?_, ?_, ?_⟩
  · have : duniform 1 2 (2 ^ 53 - 1) = 2 := by decide +kernel
    show CPt.mk (duniform 1 2 (2 ^ 53 - 1)) 0 0 = _
    rw [this]
  · decide +kernel
  · decide +kernel

/-- The hypotheses of `C55_rounding_closed_partial`: two processes in each of two dimensions. -/
example : let t : Topo := { nd := 2, px := 2, py := 2, pz := 1, periodic := false, box := ⟨-3, 7, 2, 5, 0, 0⟩ }
    t.Ok ∧ Roomy t ∧ (-2 ^ 52 ≤ (t.bounds 1).xmin ∧ (t.bounds 1).xmin + (t.bounds 1).xext ≤ 2 ^ 52) ∧ (t.bounds 1).xext = 4 ∧ (t.bounds 1).yext = 2 ∧
    drandomCPt (t.bounds 1) (2 ^ 51) (2 ^ 52) 0 = ⟨-2, 6, 0⟩ := by
  refine ⟨⟨⟨by decide, by decide, by decide, by decide⟩, by decide, by decide, by decide, by decide, by decide, by decide⟩, ⟨by decide, by unfold Topo.Fits; decide⟩,
    by decide, by decide, by decide, ?_⟩
  have h1 : duniform (-3) 1 (2 ^ 51) = -2 := by decide +kernel
  have h2 : duniform 5 7 (2 ^ 52) = 6 := by decide +kernel
  show CPt.mk (duniform (-3) 1 (2 ^ 51)) (duniform 5 7 (2 ^ 52)) 0 = _
  rw [h1, h2]

end Repast.RandomPt
