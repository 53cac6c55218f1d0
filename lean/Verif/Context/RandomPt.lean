import Verif.Context.GridView
import Verif.Geometry.Model
import Verif.Tree.Model

/-! C55: `get_random_local_pt` of shared grids and shared continuous spaces (`/repo/src/repast4py/space.py`). -/
namespace Repast.RandomPt
open Repast.Space Repast.Topology Repast.Tree Repast.Context

/-! ### Model -/

/-- numpy's `Generator.integers(low, high)`: a `ValueError` if `low >= high`, otherwise some integer of the range `[low, high)`, which one is decided
by the state `o` of the generator. -/
def integers (low high o : Int) : Option Int := if low ≥ high then none else some (low + o % (high - low))

/-- The states of the generator at the (up to three) calls. -/
structure Draws where
  x : Int
  y : Int
  z : Int

/-- space.py:102-122, 127-135 `SharedGrid.get_random_local_pt`, for the local bounds `b`. -/
def randomPt (b : Box) (o : Draws) : Option Pt :=
  if Geometry.getNumDims b.yext b.zext = 1 then
    (integers b.xmin (b.xmin + b.xext) o.x).map fun x => ⟨x, 0, 0⟩
  else if Geometry.getNumDims b.yext b.zext = 2 then
    (integers b.xmin (b.xmin + b.xext) o.x).bind fun x =>
    (integers b.ymin (b.ymin + b.yext) o.y).map fun y => ⟨x, y, 0⟩
  else
    (integers b.xmin (b.xmin + b.xext) o.x).bind fun x =>
    (integers b.ymin (b.ymin + b.yext) o.y).bind fun y =>
    (integers b.zmin (b.zmin + b.zext) o.z).map fun z => ⟨x, y, z⟩

/-- numpy's `Generator.uniform(low, high)`: `low + (high - low) * u` for some `u` of `[0, 1)`. (Rounding is not modelled, as in `Verif/Tree`.) -/
def uniform (low high : Int) (u : Rat) : Rat := low + (high - low) * u

/-- space.py:313-333, 338-346 `SharedCSpace.get_random_local_pt`. -/
def randomCPt (b : Box) (u : CPt) : CPt :=
  if Geometry.getNumDims b.yext b.zext = 1 then ⟨uniform b.xmin (b.xmin + b.xext) u.x, 0, 0⟩
  else if Geometry.getNumDims b.yext b.zext = 2 then ⟨uniform b.xmin (b.xmin + b.xext) u.x, uniform b.ymin (b.ymin + b.yext) u.y, 0⟩
  else ⟨uniform b.xmin (b.xmin + b.xext) u.x, uniform b.ymin (b.ymin + b.yext) u.y, uniform b.zmin (b.zmin + b.zext) u.z⟩

/-! ### Specification -/

/-- There are at least as many columns, rows and layers as processes in that dimension. -/
def Roomy (t : Topo) : Prop := (t.px : Int) ≤ t.box.xext ∧ t.Fits

/-- What a generator draws from `[0, 1)`. -/
def Unit3 (u : CPt) : Prop := (0 ≤ u.x ∧ u.x < 1) ∧ (0 ≤ u.y ∧ u.y < 1) ∧ (0 ≤ u.z ∧ u.z < 1)

/-! ### Proofs -/

theorem integers_some {lo hi : Int} (h : lo < hi) (o : Int) : ∃ v, integers lo hi o = some v ∧ lo ≤ v ∧ v < hi := by
  refine ⟨lo + o % (hi - lo), ?_, ?_, ?_⟩
  · unfold integers; rw [if_neg (by omega)]
  · have := Int.emod_nonneg o (b := hi - lo) (by omega); omega
  · have := Int.emod_lt_of_pos o (b := hi - lo) (by omega); omega

theorem integers_any {lo hi v : Int} (h1 : lo ≤ v) (h2 : v < hi) : integers lo hi (v - lo) = some v := by
  unfold integers
  rw [if_neg (by omega), Int.emod_eq_of_lt (by omega) (by omega)]
  congr 1; omega

/-- The local bounds have a positive extent in each of the dimensions of the space, and in no other. -/
theorem local_ext {t : Topo} (h : t.Ok) (hr : Roomy t) (r : Nat) : 0 < (t.bounds r).xext ∧
    (if 1 < t.nd then 0 < (t.bounds r).yext else (t.bounds r).yext = 0) ∧ (if t.nd = 3 then 0 < (t.bounds r).zext else (t.bounds r).zext = 0) := by
  obtain ⟨_, x2⟩ := bounds_x h r
  refine ⟨by rw [x2]; exact dim_pos h.px hr.1, ?_, ?_⟩
  · split
    · rename_i hn
      rw [(bounds_y h hn r).2]
      exact dim_pos h.py (hr.2.1 hn)
    · rename_i hn
      unfold Topo.bounds; simp [hn]
  · split
    · rename_i hn
      rw [(bounds_z h hn r).2]
      exact dim_pos h.pz (hr.2.2 hn)
    · rename_i hn
      unfold Topo.bounds; simp [hn]

/-- The number of dimensions that `get_num_dims` computes from the local bounds is that of the space. -/
theorem local_dims {t : Topo} (h : t.Ok) (hr : Roomy t) (r : Nat) : Geometry.getNumDims (t.bounds r).yext (t.bounds r).zext = t.nd ∧ (t.bounds r).numDims = t.nd := by
  obtain ⟨_, hy, hz⟩ := local_ext h hr r
  unfold Geometry.getNumDims Box.numDims
  rcases nd_cases h with hn | hn | hn <;> simp [hn] at hy hz ⊢
  · simp [hy, hz]
  · have : ¬ (t.bounds r).yext = 0 := by omega
    simp [hy, hz, this]
  · have : ¬ (t.bounds r).zext = 0 := by omega
    simp only [this, and_false, if_false, hz, if_true]
    exact ⟨trivial, fun k => by omega⟩

theorem contains_nd {b : Box} {n : Nat} (h : b.numDims = n) (hn : n = 1 ∨ n = 2 ∨ n = 3) (p : Pt) : b.contains p = true ↔
    (b.xmin ≤ p.x ∧ p.x < b.xmin + b.xext) ∧ (1 < n → b.ymin ≤ p.y ∧ p.y < b.ymin + b.yext) ∧ (n = 3 → b.zmin ≤ p.z ∧ p.z < b.zmin + b.zext) := by
  unfold Box.contains Box.xmax Box.ymax Box.zmax
  rcases hn with e | e | e <;> simp [h, e, and_assoc]

theorem containsC_nd {b : Box} {n : Nat} (h : b.numDims = n) (hn : n = 1 ∨ n = 2 ∨ n = 3) (p : CPt) : b.containsC p = true ↔
    ((b.xmin : Rat) ≤ p.x ∧ p.x < ((b.xmin + b.xext : Int) : Rat)) ∧ (1 < n → (b.ymin : Rat) ≤ p.y ∧ p.y < ((b.ymin + b.yext : Int) : Rat)) ∧
      (n = 3 → (b.zmin : Rat) ≤ p.z ∧ p.z < ((b.zmin + b.zext : Int) : Rat)) := by
  unfold Box.containsC Box.xmax Box.ymax Box.zmax
  rcases hn with e | e | e <;> simp [h, e, and_assoc]

/-- C55 for grids: for every state of the generator the call succeeds, and the point is in the local bounds of the rank (and of the space), with 0 in the
dimensions that the space does not have. Missing (`_partial`): process grids with more processes than columns, rows or layers, for which it is false
(`C55_no_columns`, `C55_no_rows`). -/
theorem C55_grid_partial {t : Topo} (h : t.Ok) (hr : Roomy t) {r : Nat} (hrs : r < t.size) (o : Draws) :
    ∃ p, randomPt (t.bounds r) o = some p ∧ (t.bounds r).contains p = true ∧ t.box.contains p = true ∧ FlatPt t.nd p := by
  obtain ⟨hx, hy, hz⟩ := local_ext h hr r
  obtain ⟨d1, d2⟩ := local_dims h hr r
  obtain ⟨x, ex, x1, x2⟩ := integers_some (lo := (t.bounds r).xmin) (hi := (t.bounds r).xmin + (t.bounds r).xext) (by omega) o.x
  have fin : ∀ p, randomPt (t.bounds r) o = some p → (t.bounds r).contains p = true → FlatPt t.nd p →
      ∃ p, randomPt (t.bounds r) o = some p ∧ (t.bounds r).contains p = true ∧ t.box.contains p = true ∧ FlatPt t.nd p :=
    fun p e1 e2 e3 => ⟨p, e1, e2, (C33_partition_partial h hr.2 p).2 r hrs e2, e3⟩
  rcases nd_cases h with hn | hn | hn
  · refine fin ⟨x, 0, 0⟩ ?_ ?_ ⟨fun _ => rfl, fun _ => rfl⟩
    · unfold randomPt; simp [d1, hn, ex]
    · rw [contains_nd d2 (nd_cases h)]; exact ⟨⟨x1, x2⟩, fun k => by omega, fun k => by omega⟩
  · rw [if_pos (by omega)] at hy
    obtain ⟨y, ey, y1, y2⟩ := integers_some (lo := (t.bounds r).ymin) (hi := (t.bounds r).ymin + (t.bounds r).yext) (by omega) o.y
    refine fin ⟨x, y, 0⟩ ?_ ?_ ⟨fun k => by omega, fun _ => rfl⟩
    · unfold randomPt; simp [d1, hn, ex, ey]
    · rw [contains_nd d2 (nd_cases h)]; exact ⟨⟨x1, x2⟩, fun _ => ⟨y1, y2⟩, fun k => by omega⟩
  · rw [if_pos (by omega)] at hy
    rw [if_pos hn] at hz
    obtain ⟨y, ey, y1, y2⟩ := integers_some (lo := (t.bounds r).ymin) (hi := (t.bounds r).ymin + (t.bounds r).yext) (by omega) o.y
    obtain ⟨z, ez, z1, z2⟩ := integers_some (lo := (t.bounds r).zmin) (hi := (t.bounds r).zmin + (t.bounds r).zext) (by omega) o.z
    refine fin ⟨x, y, z⟩ ?_ ?_ ⟨fun k => by omega, fun k => absurd hn k⟩
    · unfold randomPt; simp [d1, hn, ex, ey, ez]
    · rw [contains_nd d2 (nd_cases h)]; exact ⟨⟨x1, x2⟩, fun _ => ⟨y1, y2⟩, fun _ => ⟨z1, z2⟩⟩

/-- C55 for grids: every point of the local bounds is the result for some state of the generator. -/
theorem C55_grid_every_partial {t : Topo} (h : t.Ok) (hr : Roomy t) {r : Nat} {p : Pt} (hp : (t.bounds r).contains p = true) (hf : FlatPt t.nd p) :
    ∃ o, randomPt (t.bounds r) o = some p := by
  obtain ⟨d1, d2⟩ := local_dims h hr r
  rw [contains_nd d2 (nd_cases h)] at hp
  obtain ⟨⟨x1, x2⟩, hy, hz⟩ := hp
  refine ⟨⟨p.x - (t.bounds r).xmin, p.y - (t.bounds r).ymin, p.z - (t.bounds r).zmin⟩, ?_⟩
  obtain ⟨x, y, z⟩ := p
  unfold randomPt
  rcases nd_cases h with hn | hn | hn
  · obtain rfl : y = 0 := hf.1 hn
    obtain rfl : z = 0 := hf.2 (by omega)
    simp [d1, hn, integers_any x1 x2]
  · obtain rfl : z = 0 := hf.2 (by omega)
    obtain ⟨y1, y2⟩ := hy (by omega)
    simp [d1, hn, integers_any x1 x2, integers_any y1 y2]
  · obtain ⟨y1, y2⟩ := hy (by omega)
    obtain ⟨z1, z2⟩ := hz hn
    simp [d1, hn, integers_any x1 x2, integers_any y1 y2, integers_any z1 z2]

theorem flat_of_pt {t : Topo} (h : t.Ok) {p : Pt} (hp : FlatPt t.nd p) : Flat t.box p := by
  have hnd := h.nd
  rcases numDims_cases h.box with ⟨h1, h2, h3⟩ | ⟨h1, h2, h3⟩ | ⟨h1, h2, h3⟩
  · exact ⟨fun _ => hp.1 (by omega), fun _ => hp.2 (by omega)⟩
  · exact ⟨fun e => by omega, fun _ => hp.2 (by omega)⟩
  · exact ⟨fun e => by omega, fun e => by omega⟩

/-- C55 for grids: an agent that is moved to a random local point (with single occupancy: to one that is free) is there, and it is not marked as having left the rank. (`DOk`
holds for every state of the grid that the library's calls lead to.) -/
theorem C55_grid_stays_partial {t : Topo} (h : t.Ok) (hr : Roomy t) (hfb : FlatBox t.box) {r : Nat} (hrs : r < t.size) {single : Bool} {s : DSp} (hs : DOk t single r s) {u : Nat}
    (hu : (s.base.agents u).isSome = true) {o : Draws} {p : Pt} (hp : randomPt (t.bounds r) o = some p)
    (hfree : single = true → ∀ v, v ≠ u → s.base.agents v ≠ some (some p)) :
    (dcall t single r s (.base (.move u p))).2 = .loc (some p) ∧ (dcall t single r s (.base (.move u p))).1.oob u = none := by
  obtain ⟨q, e1, e2, e3, e4⟩ := C55_grid_partial h hr hrs o
  rw [hp] at e1
  obtain rfl : p = q := by simpa using e1
  have hd := dest1_inside h hfb e3 (flat_of_pt h e4)
  obtain ⟨m1, m2, m3⟩ := hs.move h hr.2 hfb hu p (by rw [hd]; exact hfree)
  rw [hd] at m1 m3
  refine ⟨m1, ?_⟩
  rw [m2.oob, m3]
  simp [upd, aim, e2]

theorem uniform_in {lo ext : Int} (h : 0 < ext) {u : Rat} (h0 : 0 ≤ u) (h1 : u < 1) : (lo : Rat) ≤ uniform lo (lo + ext) u ∧ uniform lo (lo + ext) u < ((lo + ext : Int) : Rat) := by
  have hq : (0 : Rat) < (ext : Rat) := by exact_mod_cast h
  unfold uniform
  have e : ((lo + ext : Int) : Rat) = (lo : Rat) + (ext : Rat) := by simp
  rw [e]
  have e2 : (lo : Rat) + (ext : Rat) - (lo : Rat) = (ext : Rat) := by grind
  rw [e2]
  have a := Rat.mul_nonneg (Rat.le_of_lt hq) h0
  have b : 0 < (ext : Rat) * (1 - u) := Rat.mul_pos hq (by grind)
  constructor <;> grind

theorem uniform_any {lo ext : Int} (h : 0 < ext) {v : Rat} (h0 : (lo : Rat) ≤ v) (h1 : v < ((lo + ext : Int) : Rat)) :
    ∃ u : Rat, (0 ≤ u ∧ u < 1) ∧ uniform lo (lo + ext) u = v := by
  have hq : (0 : Rat) < (ext : Rat) := by exact_mod_cast h
  have e : ((lo + ext : Int) : Rat) = (lo : Rat) + (ext : Rat) := by simp
  rw [e] at h1
  have hm : (ext : Rat) * ((v - lo) / ext) = v - lo := by grind
  refine ⟨(v - lo) / ext, ⟨?_, ?_⟩, ?_⟩
  · rw [Rat.div_def]; exact Rat.mul_nonneg (by grind) (Rat.le_of_lt (Rat.inv_pos.2 hq))
  · rw [Rat.div_lt_iff hq]; grind
  · unfold uniform
    rw [e]
    grind

/-- C55 for continuous spaces: the point is in the local bounds. Missing (`_partial`): as for `C55_grid_partial`, and the rounding of doubles. -/
theorem C55_continuous_partial {t : Topo} (h : t.Ok) (hr : Roomy t) (r : Nat) {u : CPt} (hu : Unit3 u) : (t.bounds r).containsC (randomCPt (t.bounds r) u) = true := by
  obtain ⟨hx, hy, hz⟩ := local_ext h hr r
  obtain ⟨d1, d2⟩ := local_dims h hr r
  rw [containsC_nd d2 (nd_cases h)]
  unfold randomCPt
  rcases nd_cases h with hn | hn | hn <;> simp only [d1, hn] at hy hz ⊢
  · exact ⟨uniform_in hx hu.1.1 hu.1.2, fun k => by omega, fun k => by omega⟩
  · exact ⟨uniform_in hx hu.1.1 hu.1.2, fun _ => uniform_in (by simpa using hy) hu.2.1.1 hu.2.1.2, fun k => by omega⟩
  · exact ⟨uniform_in hx hu.1.1 hu.1.2, fun _ => uniform_in (by simpa using hy) hu.2.1.1 hu.2.1.2, fun _ => uniform_in (by simpa using hz) hu.2.2.1 hu.2.2.2⟩

/-- C55 for continuous spaces: every point of the local bounds is the result for some draws. -/
theorem C55_continuous_every_partial {t : Topo} (h : t.Ok) (hr : Roomy t) {r : Nat} {p : CPt} (hp : (t.bounds r).containsC p = true)
    (hf : (t.nd = 1 → p.y = 0) ∧ (t.nd ≠ 3 → p.z = 0)) : ∃ u, Unit3 u ∧ randomCPt (t.bounds r) u = p := by
  obtain ⟨hx, hy, hz⟩ := local_ext h hr r
  obtain ⟨d1, d2⟩ := local_dims h hr r
  rw [containsC_nd d2 (nd_cases h)] at hp
  obtain ⟨⟨x1, x2⟩, py, pz⟩ := hp
  obtain ⟨ux, hux, ex⟩ := uniform_any hx x1 x2
  obtain ⟨x, y, z⟩ := p
  have z0 : (0 : Rat) ≤ 0 ∧ (0 : Rat) < 1 := by decide
  unfold randomCPt
  rcases nd_cases h with hn | hn | hn <;> simp only [d1, hn] at hy hz ⊢
  · obtain rfl : y = 0 := hf.1 hn
    obtain rfl : z = 0 := hf.2 (by omega)
    refine ⟨⟨ux, 0, 0⟩, ⟨hux, z0, z0⟩, ?_⟩
    simp [ex]
  · obtain rfl : z = 0 := hf.2 (by omega)
    obtain ⟨y1, y2⟩ := py (by omega)
    obtain ⟨uy, huy, ey⟩ := uniform_any (by simpa using hy) y1 y2
    refine ⟨⟨ux, uy, 0⟩, ⟨hux, huy, z0⟩, ?_⟩
    simp [ex, ey]
  · obtain ⟨y1, y2⟩ := py (by omega)
    obtain ⟨z1, z2⟩ := pz hn
    obtain ⟨uy, huy, ey⟩ := uniform_any (by simpa using hy) y1 y2
    obtain ⟨uz, huz, ez⟩ := uniform_any (by simpa using hz) z1 z2
    refine ⟨⟨ux, uy, uz⟩, ⟨hux, huy, huz⟩, ?_⟩
    simp [ex, ey, ez]

/-- A grid of 11 columns and 7 rows on 3 by 2 processes meets the hypotheses. -/
example : (exTopo).Ok ∧ Roomy exTopo ∧ FlatBox exTopo.box ∧ randomPt (exTopo.bounds 3) ⟨100, 7, 3⟩ = some ⟨0, 7, 0⟩ := by
  refine ⟨?_, ?_, ?_, by decide⟩
  · constructor <;> first | decide | (constructor <;> decide)
  · unfold Roomy Topo.Fits; decide
  · unfold FlatBox; decide

example : Unit3 ⟨1/2, 3/4, 0⟩ ∧ randomCPt (exTopo.bounds 3) ⟨1/2, 3/4, 0⟩ = ⟨2, 33/4, 0⟩ := by unfold Unit3; decide +kernel

/-- C55 is violated if there are more processes than columns: on a rank without columns the call raises an exception, whatever the generator does. -/
theorem C55_no_columns : ∃ t : Topo, t.Ok ∧ t.Fits ∧ 2 < t.size ∧ ∀ o, randomPt (t.bounds 2) o = none :=
  ⟨{ nd := 1, px := 3, py := 1, pz := 1, periodic := false, box := ⟨0, 2, 0, 0, 0, 0⟩ },
    ⟨⟨by decide, by decide, by decide, by decide⟩, by decide, by decide, by decide, by decide, by decide, by decide⟩,
    by unfold Topo.Fits; decide, by decide, fun _ => rfl⟩

/-- C55 is violated if there are more processes than rows: on a rank without rows the point is not in the space. -/
theorem C55_no_rows : ∃ t : Topo, t.Ok ∧ (t.px : Int) ≤ t.box.xext ∧ 1 < t.size ∧ ∀ o, ∃ p, randomPt (t.bounds 1) o = some p ∧ t.box.contains p = false := by
  refine ⟨{ nd := 2, px := 2, py := 2, pz := 1, periodic := false, box := ⟨0, 4, 5, 1, 0, 0⟩ },
    ⟨⟨by decide, by decide, by decide, by decide⟩, by decide, by decide, by decide, by decide, by decide, by decide⟩, by decide, by decide, fun o => ?_⟩
  refine ⟨⟨0 + o.x % 2, 0, 0⟩, rfl, ?_⟩
  simp [Box.contains, Box.numDims, Box.ymax]

end Repast.RandomPt
