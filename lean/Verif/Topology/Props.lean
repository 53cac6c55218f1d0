import Verif.Topology.Model
import Verif.Space.Props

/-! C33, C34 and C35: the decomposition of a shared space over the processes. -/
namespace Repast.Topology
open Repast.Space

/-! ### Specification -/

/-- A topology of the library: as many dimensions as the space, at least one process in each; dimensions the space does not have have one process. -/
structure Topo.Ok (t : Topo) : Prop where
  box : t.box.Ok
  nd : t.nd = t.box.numDims
  px : 0 < t.px
  py : 0 < t.py
  pz : 0 < t.pz
  y1 : t.nd < 2 → t.py = 1
  z1 : t.nd < 3 → t.pz = 1

/-- There are at least as many rows (and layers) as processes in that dimension. -/
def Topo.Fits (t : Topo) : Prop := (1 < t.nd → (t.py : Int) ≤ t.box.yext) ∧ (t.nd = 3 → (t.pz : Int) ≤ t.box.zext)

/-- Coordinates at distance at most one in a row of `p` processes. -/
def Adj (periodic : Bool) (p c c' : Nat) : Prop :=
  c' = c ∨ c' = c + 1 ∨ c = c' + 1 ∨ (periodic = true ∧ (c = 0 ∧ c' + 1 = p ∨ c' = 0 ∧ c + 1 = p))

/-! ### Ranks and coordinates -/

theorem coords_lt {t : Topo} (h : t.Ok) {r : Nat} (hr : r < t.size) : (t.coords r).x < t.px ∧ (t.coords r).y < t.py ∧ (t.coords r).z < t.pz := by
  refine ⟨?_, Nat.mod_lt _ h.py, Nat.mod_lt _ h.pz⟩
  show r / (t.py * t.pz) < t.px
  rw [Nat.div_lt_iff_lt_mul (Nat.mul_pos h.py h.pz), ← Nat.mul_assoc]
  exact hr

theorem rankOf_coords {t : Topo} (r : Nat) : t.rankOf (t.coords r) = r := by
  unfold Topo.rankOf Topo.coords
  simp only []
  rw [Nat.mul_comm t.py t.pz, ← Nat.div_div_eq_div_mul, Nat.mul_comm _ t.py, Nat.div_add_mod, Nat.mul_comm _ t.pz, Nat.div_add_mod]

theorem coords_rankOf {t : Topo} {c : Coord} (hy : c.y < t.py) (hz : c.z < t.pz) : t.coords (t.rankOf c) = c := by
  have h1 : t.rankOf c % t.pz = c.z := by
    unfold Topo.rankOf; rw [Nat.mul_comm, Nat.mul_add_mod, Nat.mod_eq_of_lt hz]
  have h2 : t.rankOf c / t.pz = c.x * t.py + c.y := by
    unfold Topo.rankOf
    rw [Nat.mul_comm, Nat.mul_add_div (by omega), Nat.div_eq_of_lt hz, Nat.add_zero]
  have h3 : (c.x * t.py + c.y) % t.py = c.y := by rw [Nat.mul_comm, Nat.mul_add_mod, Nat.mod_eq_of_lt hy]
  have h4 : (c.x * t.py + c.y) / t.py = c.x := by
    rw [Nat.mul_comm, Nat.mul_add_div (by omega), Nat.div_eq_of_lt hy, Nat.add_zero]
  have h5 : t.rankOf c / (t.py * t.pz) = c.x := by
    rw [Nat.mul_comm, ← Nat.div_div_eq_div_mul, h2, h4]
  unfold Topo.coords
  rw [h1, h2, h3, h5]

theorem rankOf_lt {t : Topo} {c : Coord} (hx : c.x < t.px) (hy : c.y < t.py) (hz : c.z < t.pz) : t.rankOf c < t.size := by
  unfold Topo.rankOf Topo.size
  have h1 : c.x * t.py + c.y < t.px * t.py := by
    have : (c.x + 1) * t.py ≤ t.px * t.py := Nat.mul_le_mul_right _ (by omega)
    rw [Nat.add_mul] at this
    omega
  have : (c.x * t.py + c.y + 1) * t.pz ≤ t.px * t.py * t.pz := Nat.mul_le_mul_right _ (by omega)
  rw [Nat.add_mul] at this
  omega

/-! ### C33 -/

/-- Where the processes' ranges of one dimension begin. -/
def cut (gmin gext : Int) (p c : Nat) : Int := gmin + gext / p * c + min (c : Int) (gext % p)

theorem dimBounds_eq {gmin gext : Int} (hg : 0 ≤ gext) {p c : Nat} (hp : 0 < p) :
    dimBounds gmin gext p c = (cut gmin gext p c, cut gmin gext p (c + 1) - cut gmin gext p c) := by
  unfold dimBounds adjustMinExtent cut
  rw [Int.tdiv_eq_ediv_of_nonneg hg, Int.tmod_eq_emod_of_nonneg hg]
  have h1 : 0 ≤ gext % p := Int.emod_nonneg _ (by omega)
  have h2 : gext % p < p := Int.emod_lt_of_pos _ (by omega)
  generalize gext % p = r at *
  generalize gext / p = e
  have h3 : e * ((c + 1 : Nat) : Int) = e * c + e := by rw [Int.natCast_add, Int.mul_add]; simp
  rw [h3]
  obtain ⟨n, rfl⟩ := Int.eq_ofNat_of_zero_le h1
  simp only [Int.toNat_natCast]
  generalize e * (c : Int) = m
  by_cases h : 0 < n
  · rw [if_pos h]
    by_cases hc : c < n
    · rw [if_pos hc]
      by_cases h0 : 0 < c
      · rw [if_pos ⟨h0, hc⟩]; ext <;> simp only [] <;> omega
      · rw [if_neg (by omega), if_neg (by omega)]; ext <;> simp only [] <;> omega
    · rw [if_neg hc, if_neg (by omega), if_pos (by omega)]; ext <;> simp only [] <;> omega
  · rw [if_neg h]; ext <;> simp only [] <;> omega

theorem cut_zero (gmin gext : Int) (p : Nat) (hp : 0 < p) : cut gmin gext p 0 = gmin := by
  have h1 : 0 ≤ gext % p := Int.emod_nonneg _ (by omega)
  unfold cut; simp; omega

theorem cut_all (gmin gext : Int) (p : Nat) (hp : 0 < p) : cut gmin gext p p = gmin + gext := by
  have h1 : gext % p < p := Int.emod_lt_of_pos _ (by omega)
  have h2 := Int.mul_ediv_add_emod gext p
  unfold cut
  rw [Int.mul_comm]; omega

theorem cut_step {gmin gext : Int} (hg : 0 ≤ gext) {p : Nat} (hp : 0 < p) (c : Nat) : cut gmin gext p c ≤ cut gmin gext p (c + 1) := by
  have h1 : 0 ≤ gext % p := Int.emod_nonneg _ (by omega)
  have h2 : 0 ≤ gext / p := Int.ediv_nonneg hg (by omega)
  unfold cut
  have h3 : gext / p * ((c + 1 : Nat) : Int) = gext / p * c + gext / p := by rw [Int.natCast_add, Int.mul_add]; simp
  omega

theorem cut_mono {gmin gext : Int} (hg : 0 ≤ gext) {p : Nat} (hp : 0 < p) {c d : Nat} (h : c ≤ d) : cut gmin gext p c ≤ cut gmin gext p d := by
  induction h with
  | refl => exact Int.le_refl _
  | step _ ih => exact Int.le_trans ih (cut_step hg hp _)

/-- The range of process coordinate `c` of one dimension. -/
def InDim (gmin gext : Int) (p c : Nat) (v : Int) : Prop := cut gmin gext p c ≤ v ∧ v < cut gmin gext p (c + 1)

theorem inDim_exists {gmin gext v : Int} {p : Nat} (hp : 0 < p) (hv : InRange gmin gext v) : ∃ c, c < p ∧ InDim gmin gext p c v := by
  have key : ∀ n, v < cut gmin gext p n → ∃ c, c < n ∧ InDim gmin gext p c v := by
    intro n
    induction n with
    | zero => intro h; rw [cut_zero _ _ _ hp] at h; exact absurd hv.1 (by omega)
    | succ n ih =>
      intro h
      by_cases h1 : v < cut gmin gext p n
      · obtain ⟨c, hc, hi⟩ := ih h1; exact ⟨c, by omega, hi⟩
      · exact ⟨n, by omega, by omega, h⟩
  exact key p (by rw [cut_all _ _ _ hp]; exact hv.2)

theorem inDim_unique {gmin gext v : Int} {p c d : Nat} (hg : 0 ≤ gext) (hp : 0 < p) (h1 : InDim gmin gext p c v) (h2 : InDim gmin gext p d v) : c = d := by
  unfold InDim at *
  rcases Nat.lt_trichotomy c d with h | h | h
  · have := cut_mono (gmin := gmin) hg hp (c := c + 1) (d := d) h; omega
  · exact h
  · have := cut_mono (gmin := gmin) hg hp (c := d + 1) (d := c) h; omega

theorem inDim_range {gmin gext v : Int} {p c : Nat} (hg : 0 ≤ gext) (hp : 0 < p) (hc : c < p) (h : InDim gmin gext p c v) : InRange gmin gext v := by
  have h1 := cut_mono (gmin := gmin) hg hp (c := 0) (d := c) (by omega)
  have h2 := cut_mono (gmin := gmin) hg hp (c := c + 1) (d := p) hc
  rw [cut_zero _ _ _ hp] at h1
  rw [cut_all _ _ _ hp] at h2
  unfold InDim InRange at *
  omega

theorem dim_pos {gmin gext : Int} {p c : Nat} (hp : 0 < p) (h : (p : Int) ≤ gext) : 0 < cut gmin gext p (c + 1) - cut gmin gext p c := by
  have h1 : 0 ≤ gext % p := Int.emod_nonneg _ (by omega)
  have h2 : 1 ≤ gext / p := by rw [Int.le_ediv_iff_mul_le (by omega)]; omega
  have h3 : gext / p * ((c + 1 : Nat) : Int) = gext / p * c + gext / p := by rw [Int.natCast_add, Int.mul_add]; simp
  unfold cut
  omega

theorem contains_iff' {b : Box} (hzy : 0 < b.zext → 0 < b.yext) (p : Pt) : b.contains p = true ↔ InBounds b p := by
  unfold Box.contains InBounds InRange Box.numDims Box.xmax Box.ymax Box.zmax
  by_cases h3 : 0 < b.zext
  · have := hzy h3
    simp [h3, this, and_assoc]
  · by_cases h2 : 0 < b.yext
    · simp [h3, h2, and_assoc]
    · simp [h3, h2]

theorem numDims_cases {b : Box} (hb : b.Ok) : b.numDims = 1 ∧ b.yext = 0 ∧ b.zext = 0 ∨ b.numDims = 2 ∧ 0 < b.yext ∧ b.zext = 0 ∨
    b.numDims = 3 ∧ 0 < b.yext ∧ 0 < b.zext := by
  have hy := hb.y
  have hz := hb.z
  have hzy := hb.zy
  unfold Box.numDims
  by_cases h3 : 0 < b.zext
  · right; right; simp [h3, hzy h3]
  · by_cases h2 : 0 < b.yext
    · right; left; simp [h3, h2]; omega
    · left; simp [h3, h2]; omega

/-- Local bounds of rank `r`, dimension by dimension. -/
theorem bounds_contains {t : Topo} (h : t.Ok) (hf : t.Fits) (r : Nat) (p : Pt) : (t.bounds r).contains p = true ↔
    InDim t.box.xmin t.box.xext t.px (t.coords r).x p.x ∧
    (0 < t.box.yext → InDim t.box.ymin t.box.yext t.py (t.coords r).y p.y) ∧
    (0 < t.box.zext → InDim t.box.zmin t.box.zext t.pz (t.coords r).z p.z) := by
  have hbx := h.box.x
  have hnd := h.nd
  rcases numDims_cases h.box with ⟨hn, hy, hz⟩ | ⟨hn, hy, hz⟩ | ⟨hn, hy, hz⟩
  · have e : t.bounds r = { xmin := cut t.box.xmin t.box.xext t.px (t.coords r).x, xext := cut t.box.xmin t.box.xext t.px ((t.coords r).x + 1) - cut t.box.xmin t.box.xext t.px (t.coords r).x, ymin := 0, yext := 0, zmin := 0, zext := 0 } := by
      unfold Topo.bounds
      rw [hnd, hn]
      simp only [dimBounds_eq (Int.le_of_lt h.box.x) h.px]; rfl
    rw [e, contains_iff' (by simp)]
    simp only [InBounds, InRange, InDim, hy, hz]
    constructor
    · rintro ⟨h1, -, -⟩; exact ⟨by omega, by omega, by omega⟩
    · rintro ⟨h1, -, -⟩; exact ⟨by omega, by omega, by omega⟩
  · have e : t.bounds r = { xmin := cut t.box.xmin t.box.xext t.px (t.coords r).x, xext := cut t.box.xmin t.box.xext t.px ((t.coords r).x + 1) - cut t.box.xmin t.box.xext t.px (t.coords r).x, ymin := cut t.box.ymin t.box.yext t.py (t.coords r).y, yext := cut t.box.ymin t.box.yext t.py ((t.coords r).y + 1) - cut t.box.ymin t.box.yext t.py (t.coords r).y, zmin := 0, zext := 0 } := by
      unfold Topo.bounds
      rw [hnd, hn]
      simp only [dimBounds_eq (Int.le_of_lt h.box.x) h.px, dimBounds_eq h.box.y h.py]; rfl
    have hpos : 0 < cut t.box.ymin t.box.yext t.py ((t.coords r).y + 1) - cut t.box.ymin t.box.yext t.py (t.coords r).y := dim_pos h.py (hf.1 (by omega))
    rw [e, contains_iff' (by simp)]
    simp only [InBounds, InRange, InDim, hz, hpos, hy, true_implies]
    constructor
    · rintro ⟨h1, h2, -⟩; exact ⟨by omega, by omega, by omega⟩
    · rintro ⟨h1, h2, -⟩; exact ⟨by omega, by omega, by omega⟩
  · have e : t.bounds r = { xmin := cut t.box.xmin t.box.xext t.px (t.coords r).x, xext := cut t.box.xmin t.box.xext t.px ((t.coords r).x + 1) - cut t.box.xmin t.box.xext t.px (t.coords r).x, ymin := cut t.box.ymin t.box.yext t.py (t.coords r).y, yext := cut t.box.ymin t.box.yext t.py ((t.coords r).y + 1) - cut t.box.ymin t.box.yext t.py (t.coords r).y, zmin := cut t.box.zmin t.box.zext t.pz (t.coords r).z, zext := cut t.box.zmin t.box.zext t.pz ((t.coords r).z + 1) - cut t.box.zmin t.box.zext t.pz (t.coords r).z } := by
      unfold Topo.bounds
      rw [hnd, hn]
      simp only [dimBounds_eq (Int.le_of_lt h.box.x) h.px, dimBounds_eq h.box.y h.py, dimBounds_eq h.box.z h.pz]; rfl
    have hpos : 0 < cut t.box.ymin t.box.yext t.py ((t.coords r).y + 1) - cut t.box.ymin t.box.yext t.py (t.coords r).y := dim_pos h.py (hf.1 (by omega))
    have hpos' : 0 < cut t.box.zmin t.box.zext t.pz ((t.coords r).z + 1) - cut t.box.zmin t.box.zext t.pz (t.coords r).z := dim_pos h.pz (hf.2 (by omega))
    rw [e, contains_iff' (by simp only []; intro _; exact hpos)]
    simp only [InBounds, InRange, InDim, hpos, hpos', hy, hz, true_implies]
    constructor
    · rintro ⟨h1, h2, h3⟩; exact ⟨by omega, by omega, by omega⟩
    · rintro ⟨h1, h2, h3⟩; exact ⟨by omega, by omega, by omega⟩

/-- C33: every point of the global bounds is in the local bounds of exactly one rank, and local bounds are within the global bounds. Missing (`_partial`):
topologies with more processes than rows or layers, for which it is false (`C33_violation`). -/
theorem C33_partition_partial {t : Topo} (h : t.Ok) (hf : t.Fits) (p : Pt) :
    (t.box.contains p = true → ∃ r, r < t.size ∧ (t.bounds r).contains p = true ∧ ∀ r', r' < t.size → (t.bounds r').contains p = true → r' = r) ∧
    (∀ r, r < t.size → (t.bounds r).contains p = true → t.box.contains p = true) := by
  have hbx := h.box.x
  have hby := h.box.y
  have hbz := h.box.z
  constructor
  · intro hp
    obtain ⟨h1, h2, h3⟩ := (contains_iff h.box p).1 hp
    obtain ⟨cx, hcx, ix⟩ := inDim_exists h.px h1
    have hy : ∃ cy, cy < t.py ∧ (0 < t.box.yext → InDim t.box.ymin t.box.yext t.py cy p.y) := by
      by_cases h' : 0 < t.box.yext
      · obtain ⟨c, hc, i⟩ := inDim_exists h.py (h2 h'); exact ⟨c, hc, fun _ => i⟩
      · exact ⟨0, h.py, fun h'' => absurd h'' h'⟩
    have hz : ∃ cz, cz < t.pz ∧ (0 < t.box.zext → InDim t.box.zmin t.box.zext t.pz cz p.z) := by
      by_cases h' : 0 < t.box.zext
      · obtain ⟨c, hc, i⟩ := inDim_exists h.pz (h3 h'); exact ⟨c, hc, fun _ => i⟩
      · exact ⟨0, h.pz, fun h'' => absurd h'' h'⟩
    obtain ⟨cy, hcy, iy⟩ := hy
    obtain ⟨cz, hcz, iz⟩ := hz
    have hc := coords_rankOf (t := t) (c := ⟨cx, cy, cz⟩) hcy hcz
    refine ⟨t.rankOf ⟨cx, cy, cz⟩, rankOf_lt hcx hcy hcz, ?_, ?_⟩
    · rw [bounds_contains h hf, hc]; exact ⟨ix, iy, iz⟩
    · intro r' hr' hb
      rw [bounds_contains h hf] at hb
      obtain ⟨b1, b2, b3⟩ := hb
      obtain ⟨l1, l2, l3⟩ := coords_lt h hr'
      have e1 := inDim_unique (by omega) h.px b1 ix
      have e2 : (t.coords r').y = cy := by
        by_cases h' : 0 < t.box.yext
        · exact inDim_unique (by omega) h.py (b2 h') (iy h')
        · have : t.py = 1 := by
            apply h.y1
            rw [h.nd]; rcases numDims_cases h.box with hh | hh | hh <;> omega
          omega
      have e3 : (t.coords r').z = cz := by
        by_cases h' : 0 < t.box.zext
        · exact inDim_unique (by omega) h.pz (b3 h') (iz h')
        · have : t.pz = 1 := by
            apply h.z1
            rw [h.nd]; rcases numDims_cases h.box with hh | hh | hh <;> omega
          omega
      rw [← rankOf_coords (t := t) r', ← e1, ← e2, ← e3]
  · intro r hr hb
    rw [bounds_contains h hf] at hb
    obtain ⟨b1, b2, b3⟩ := hb
    obtain ⟨l1, l2, l3⟩ := coords_lt h hr
    rw [contains_iff h.box]
    exact ⟨inDim_range (by omega) h.px l1 b1, fun h' => inDim_range (by omega) h.py l2 (b2 h'), fun h' => inDim_range (by omega) h.pz l3 (b3 h')⟩

/-- A 2-dimensional topology of 6 processes for an 11 by 7 space that does not start at 0. -/
def exTopo : Topo := { nd := 2, px := 3, py := 2, pz := 1, periodic := true, box := ⟨-4, 11, 2, 7, 0, 0⟩ }

theorem exTopo_ok : exTopo.Ok ∧ exTopo.Fits :=
  ⟨⟨⟨by decide, by decide, by decide, by decide⟩, by decide, by decide, by decide, by decide, by decide, by decide⟩, by decide, by decide⟩

example : (List.range exTopo.size).map exTopo.bounds =
    [⟨-4, 4, 2, 4, 0, 0⟩, ⟨-4, 4, 6, 3, 0, 0⟩, ⟨0, 4, 2, 4, 0, 0⟩, ⟨0, 4, 6, 3, 0, 0⟩, ⟨4, 3, 2, 4, 0, 0⟩, ⟨4, 3, 6, 3, 0, 0⟩] := by decide

/-- C33 is violated when there are more processes than rows in the second dimension: a rank with no rows takes every point of its columns
for its own. Here a 4 by 1 space on a 2 by 2 process grid: the point (0, 0) is in the local bounds of ranks 0 and 1. -/
theorem C33_violation : ∃ t : Topo, t.Ok ∧ t.box.contains ⟨0, 0, 0⟩ = true ∧ (t.bounds 0).contains ⟨0, 0, 0⟩ = true ∧
    (t.bounds 1).contains ⟨0, 0, 0⟩ = true ∧ 1 < t.size :=
  ⟨{ nd := 2, px := 2, py := 2, pz := 1, periodic := false, box := ⟨0, 4, 0, 1, 0, 0⟩ },
    ⟨⟨by decide, by decide, by decide, by decide⟩, by decide, by decide, by decide, by decide, by decide, by decide⟩,
    by decide, by decide, by decide, by decide⟩

/-! ### C35 -/

theorem wrapCoord_lt {p : Nat} (hp : 0 < p) (c : Int) : wrapCoord p c < p := by
  unfold wrapCoord
  have h1 := Int.emod_nonneg c (b := p) (by omega)
  have h2 := Int.emod_lt_of_pos c (b := p) (by omega)
  omega

theorem wrapCoord_self {p c : Nat} (hc : c < p) : wrapCoord p (c : Int) = c := by
  unfold wrapCoord
  rw [Int.emod_eq_of_lt (by omega) (by omega)]
  omega

theorem wrapCoord_succ {p c : Nat} (hc : c < p) : wrapCoord p ((c : Int) + 1) = if c + 1 = p then 0 else c + 1 := by
  unfold wrapCoord
  split
  · rename_i h
    have : ((c : Int) + 1) = p := by omega
    rw [this, Int.emod_self]; rfl
  · rw [Int.emod_eq_of_lt (by omega) (by omega)]; omega

theorem wrapCoord_pred {p c : Nat} (hc : c < p) : wrapCoord p ((c : Int) + -1) = if c = 0 then p - 1 else c - 1 := by
  unfold wrapCoord
  split
  · rename_i h
    have : ((c : Int) + -1) % p = p - 1 := by
      have e : ((c : Int) + -1) = (p - 1 : Int) + (p : Int) * (-1) := by omega
      rw [e, Int.add_mul_emod_self_left, Int.emod_eq_of_lt (by omega) (by omega)]
    rw [this]; omega
  · rw [Int.emod_eq_of_lt (by omega) (by omega)]; omega

/-- The offsets of a dimension reach the adjacent coordinates; a non-zero one reaches another coordinate unless `p = 1`. -/
theorem offsets_reach {periodic : Bool} {p c : Nat} (hc : c < p) {l : List Int}
    (hl : ∀ d, d ∈ l ↔ (d = 0 ∨ d = -1 ∧ (periodic = true ∨ 0 < c) ∨ d = 1 ∧ (periodic = true ∨ c + 1 < p))) :
    (∀ d ∈ l, Adj periodic p c (wrapCoord p (c + d))) ∧
    (∀ c', c' < p → Adj periodic p c c' → ∃ d ∈ l, wrapCoord p (c + d) = c' ∧ (d = 0 ↔ c' = c)) ∧
    (1 < p → ∀ d ∈ l, d ≠ 0 → wrapCoord p (c + d) ≠ c) := by
  refine ⟨?_, ?_, ?_⟩
  · intro d hd
    rcases (hl d).1 hd with rfl | ⟨rfl, h⟩ | ⟨rfl, h⟩
    · rw [Int.add_zero, wrapCoord_self hc]; exact .inl rfl
    · rw [wrapCoord_pred hc]
      unfold Adj
      split
      · rename_i h0
        right; right; right
        refine ⟨by rcases h with h | h; exact h; omega, .inl ⟨h0, by omega⟩⟩
      · omega
    · rw [wrapCoord_succ hc]
      unfold Adj
      split
      · right; right; right
        refine ⟨by rcases h with h | h; exact h; omega, .inr ⟨rfl, by omega⟩⟩
      · omega
  · intro c' hc' ha
    by_cases h0 : c' = c
    · refine ⟨0, (hl 0).2 (.inl rfl), ?_, by simp [h0]⟩
      rw [Int.add_zero, wrapCoord_self hc, h0]
    · rcases ha with h | h | h | ⟨hp, h | h⟩
      · exact absurd h h0
      · refine ⟨1, (hl 1).2 (.inr (.inr ⟨rfl, .inr (by omega)⟩)), ?_, by simp [h0]⟩
        rw [wrapCoord_succ hc, if_neg (by omega), h]
      · refine ⟨-1, (hl (-1)).2 (.inr (.inl ⟨rfl, .inr (by omega)⟩)), ?_, by simp [h0]⟩
        rw [wrapCoord_pred hc, if_neg (by omega)]; omega
      · refine ⟨-1, (hl (-1)).2 (.inr (.inl ⟨rfl, .inl hp⟩)), ?_, by simp [h0]⟩
        rw [wrapCoord_pred hc, if_pos h.1]; omega
      · refine ⟨1, (hl 1).2 (.inr (.inr ⟨rfl, .inl hp⟩)), ?_, by simp [h0]⟩
        rw [wrapCoord_succ hc, if_pos h.2, h.1]
  · intro hp d hd h0
    rcases (hl d).1 hd with rfl | ⟨rfl, h⟩ | ⟨rfl, h⟩
    · exact absurd rfl h0
    · rw [wrapCoord_pred hc]; split <;> omega
    · rw [wrapCoord_succ hc]; split <;> omega

theorem offsets2_mem {periodic : Bool} {p c : Nat} (d : Int) : d ∈ offsets2 periodic p c ↔
    (d = 0 ∨ d = -1 ∧ (periodic = true ∨ 0 < c) ∨ d = 1 ∧ (periodic = true ∨ c + 1 < p)) := by
  unfold offsets2 clipOffsets
  cases periodic with
  | true => simp; omega
  | false =>
    simp only [Bool.false_eq_true, if_false, List.mem_filter, List.mem_cons, List.not_mem_nil, or_false, Bool.not_eq_true', false_or]
    simp only [decide_eq_false_iff_not]
    omega

/-- C35: the neighbours of a rank are the other ranks whose process coordinates are adjacent in every dimension (around the edges if periodic).
Missing (`_partial`): a 1-dimensional periodic space of one process, which has itself as a neighbour (`C35_violation`). -/
theorem C35_neighbors_partial {t : Topo} (h : t.Ok) (h1 : t.nd = 1 → t.periodic = true → 1 < t.px) {r : Nat} (hr : r < t.size) (r' : Nat) :
    (∃ n ∈ t.neighbors r, n.rank = r') ↔
    r' < t.size ∧ r' ≠ r ∧ Adj t.periodic t.px (t.coords r).x (t.coords r').x ∧ Adj t.periodic t.py (t.coords r).y (t.coords r').y ∧
      Adj t.periodic t.pz (t.coords r).z (t.coords r').z := by
  obtain ⟨lx, ly, lz⟩ := coords_lt h hr
  have hcr := rankOf_coords (t := t) r
  generalize hc : t.coords r = c at *
  have hnd : t.nd = 1 ∨ t.nd = 2 ∨ t.nd = 3 := by
    rw [h.nd]; rcases numDims_cases h.box with hh | hh | hh <;> omega
  -- a neighbour at given offsets
  have hat : ∀ dx dy dz, (t.at_ c dx dy dz).rank < t.size ∧ t.coords (t.at_ c dx dy dz).rank =
      ⟨wrapCoord t.px (c.x + dx), wrapCoord t.py (c.y + dy), wrapCoord t.pz (c.z + dz)⟩ := by
    intro dx dy dz
    exact ⟨rankOf_lt (wrapCoord_lt h.px _) (wrapCoord_lt h.py _) (wrapCoord_lt h.pz _),
      coords_rankOf (wrapCoord_lt h.py _) (wrapCoord_lt h.pz _)⟩
  have hat' : ∀ dx dy dz r', r' < t.size → t.coords r' = ⟨wrapCoord t.px (c.x + dx), wrapCoord t.py (c.y + dy), wrapCoord t.pz (c.z + dz)⟩ →
      (t.at_ c dx dy dz).rank = r' := by
    intro dx dy dz r' _ e
    rw [← rankOf_coords (t := t) r', e]; rfl
  have hself : ∀ r', t.coords r' = c → r' = r := by
    intro r' e
    rw [← rankOf_coords (t := t) r', e, hcr]
  have hrc : t.coords r = c := hc
  have oy := offsets_reach (periodic := t.periodic) ly (l := offsets2 t.periodic t.py c.y) offsets2_mem
  have ox := offsets_reach (periodic := t.periodic) lx (l := offsets2 t.periodic t.px c.x) offsets2_mem
  have one : ∀ (p c c' : Nat), p = 1 → c < p → c' < p → c' = c := by intros; omega
  rcases hnd with hnd | hnd | hnd
  · -- one dimension
    have hy1 := h.y1 (by omega)
    have hz1 := h.z1 (by omega)
    have hmem : ∀ d, d ∈ offsets1 t c.x ↔ d ∈ offsets2 t.periodic t.px c.x ∧ d ≠ 0 := by
      intro d
      rw [offsets2_mem]
      unfold offsets1 clipOffsets
      cases t.periodic with
      | true => simp; omega
      | false =>
        simp only [Bool.false_eq_true, if_false, List.mem_filter, List.mem_cons, List.not_mem_nil, or_false, Bool.not_eq_true', false_or]
        simp only [decide_eq_false_iff_not]
        omega
    unfold Topo.neighbors
    simp only [hnd, if_true, hrc, List.mem_map]
    constructor
    · rintro ⟨n, ⟨dx, hdx, rfl⟩, rfl⟩
      obtain ⟨hd, hd0⟩ := (hmem dx).1 hdx
      obtain ⟨a1, a2⟩ := hat dx 0 0
      refine ⟨a1, ?_, ?_, ?_, ?_⟩
      · intro e
        have h2 : 1 < t.px := by
          rcases (offsets2_mem dx).1 hd with h' | h' | h'
          · exact absurd h' hd0
          · rcases h'.2 with hp | hp
            · exact h1 hnd hp
            · omega
          · rcases h'.2 with hp | hp
            · exact h1 hnd hp
            · omega
        rw [e, hrc] at a2
        exact ox.2.2 h2 dx hd hd0 (congrArg Coord.x a2).symm
      · rw [a2]; exact ox.1 dx hd
      · rw [a2]; exact .inl (one t.py _ _ hy1 ly (wrapCoord_lt h.py (c.y + 0)))
      · rw [a2]; exact .inl (one t.pz _ _ hz1 lz (wrapCoord_lt h.pz (c.z + 0)))
    · rintro ⟨b1, b2, b3, b4, b5⟩
      obtain ⟨mx, my, mz⟩ := coords_lt h b1
      obtain ⟨dx, hdx, ex, zx⟩ := ox.2.1 _ mx b3
      have hy := one _ _ _ hy1 ly my
      have hz := one _ _ _ hz1 lz mz
      have hx0 : dx ≠ 0 := by
        intro e
        apply b2
        apply hself
        have := zx.1 e
        cases hh : t.coords r'
        rw [hh] at this hy hz
        cases c
        simp_all
      refine ⟨_, ⟨dx, (hmem dx).2 ⟨hdx, hx0⟩, rfl⟩, hat' dx 0 0 r' b1 ?_⟩
      cases hh : t.coords r'
      rw [hh] at ex hy hz
      simp only [] at ex hy hz
      rw [ex, Int.add_zero, Int.add_zero, wrapCoord_self ly, wrapCoord_self lz, hy, hz]
  · -- two dimensions
    have hz1 := h.z1 (by omega)
    unfold Topo.neighbors
    simp only [hnd, hrc]
    rw [if_neg (by omega), if_pos trivial]
    constructor
    · rintro ⟨n, hn, rfl⟩
      simp only [List.mem_filter, List.mem_flatMap, decide_eq_true_eq] at hn
      obtain ⟨⟨dx, hdx, dy, hdy, hm⟩, hne⟩ := hn
      split at hm
      · cases hm
      · simp only [List.mem_singleton] at hm
        subst hm
        obtain ⟨a1, a2⟩ := hat dx dy 0
        refine ⟨a1, hne, ?_, ?_, ?_⟩
        · rw [a2]; exact ox.1 dx hdx
        · rw [a2]; exact oy.1 dy hdy
        · rw [a2]; exact .inl (one t.pz _ _ hz1 lz (wrapCoord_lt h.pz (c.z + 0)))
    · rintro ⟨b1, b2, b3, b4, b5⟩
      obtain ⟨mx, my, mz⟩ := coords_lt h b1
      obtain ⟨dx, hdx, ex, zx⟩ := ox.2.1 _ mx b3
      obtain ⟨dy, hdy, ey, zy⟩ := oy.2.1 _ my b4
      have hz := one _ _ _ hz1 lz mz
      have hr' : (t.at_ c dx dy 0).rank = r' := by
        refine hat' dx dy 0 r' b1 ?_
        cases hh : t.coords r'
        rw [hh] at ex ey hz
        simp only [] at ex ey hz
        rw [ex, ey, Int.add_zero, wrapCoord_self lz, hz]
      refine ⟨t.at_ c dx dy 0, ?_, hr'⟩
      simp only [List.mem_filter, List.mem_flatMap, decide_eq_true_eq]
      refine ⟨⟨dx, hdx, dy, hdy, ?_⟩, by rw [hr']; exact b2⟩
      rw [if_neg]
      · simp
      · rintro ⟨e1, e2⟩
        apply b2
        apply hself
        have h1 := zx.1 e1
        have h2 := zy.1 e2
        cases hh : t.coords r'
        rw [hh] at h1 h2 hz
        cases c
        simp_all
  · -- three dimensions
    have hmem3 : ∀ {p c : Nat}, ∀ d, d ∈ offsets3 t.periodic p c → d ∈ offsets2 t.periodic p c := by
      intro p c d hd
      unfold offsets3 at hd
      unfold offsets2
      cases hp : t.periodic with
      | true =>
        rw [hp] at hd
        simp only [if_true] at hd ⊢
        split at hd
        · simp only [List.mem_singleton] at hd; simp [hd]
        · exact hd
      | false => rw [hp] at hd; exact hd
    have hmem3' : ∀ {p c c' : Nat}, c < p → c' < p → ∀ d, d ∈ offsets2 t.periodic p c → (d = 0 ↔ c' = c) → d ∈ offsets3 t.periodic p c := by
      intro p c c' hc hc' d hd hz
      unfold offsets2 at hd
      unfold offsets3
      cases hp : t.periodic with
      | true =>
        rw [hp] at hd
        simp only [if_true] at hd ⊢
        split
        · rw [hz.2 (by omega)]; simp
        · exact hd
      | false => rw [hp] at hd; exact hd
    have hne3 : ∀ {p c : Nat}, c < p → ∀ d, d ∈ offsets3 t.periodic p c → d ≠ 0 → 1 < p := by
      intro p c hc d hd h0
      have h2 := (offsets2_mem d).1 (hmem3 d hd)
      unfold offsets3 at hd
      cases hp : t.periodic with
      | true =>
        rw [hp] at hd
        simp only [if_true] at hd
        split at hd
        · simp only [List.mem_singleton] at hd; exact absurd hd h0
        · omega
      | false =>
        rw [hp] at h2
        simp only [Bool.false_eq_true, false_or] at h2
        omega
    have oz := offsets_reach (periodic := t.periodic) lz (l := offsets2 t.periodic t.pz c.z) offsets2_mem
    unfold Topo.neighbors
    simp only [hnd, hrc]
    rw [if_neg (by omega), if_neg (by omega)]
    constructor
    · rintro ⟨n, hn, rfl⟩
      simp only [List.mem_flatMap] at hn
      obtain ⟨dx, hdx, dy, hdy, dz, hdz, hm⟩ := hn
      split at hm
      · cases hm
      · rename_i hnz
        simp only [List.mem_singleton] at hm
        subst hm
        obtain ⟨a1, a2⟩ := hat dx dy dz
        refine ⟨a1, ?_, ?_, ?_, ?_⟩
        · intro e
          rw [e, hrc] at a2
          by_cases h0 : dx = 0
          · by_cases h0' : dy = 0
            · have h0'' : dz ≠ 0 := fun h'' => hnz ⟨h0, h0', h''⟩
              exact oz.2.2 (hne3 lz dz hdz h0'') dz (hmem3 dz hdz) h0'' (congrArg Coord.z a2).symm
            · exact oy.2.2 (hne3 ly dy hdy h0') dy (hmem3 dy hdy) h0' (congrArg Coord.y a2).symm
          · exact ox.2.2 (hne3 lx dx hdx h0) dx (hmem3 dx hdx) h0 (congrArg Coord.x a2).symm
        · rw [a2]; exact ox.1 dx (hmem3 dx hdx)
        · rw [a2]; exact oy.1 dy (hmem3 dy hdy)
        · rw [a2]; exact oz.1 dz (hmem3 dz hdz)
    · rintro ⟨b1, b2, b3, b4, b5⟩
      obtain ⟨mx, my, mz⟩ := coords_lt h b1
      obtain ⟨dx, hdx, ex, zx⟩ := ox.2.1 _ mx b3
      obtain ⟨dy, hdy, ey, zy⟩ := oy.2.1 _ my b4
      obtain ⟨dz, hdz, ez, zz⟩ := oz.2.1 _ mz b5
      have hr' : (t.at_ c dx dy dz).rank = r' := by
        refine hat' dx dy dz r' b1 ?_
        cases hh : t.coords r'
        rw [hh] at ex ey ez
        simp only [] at ex ey ez
        rw [ex, ey, ez]
      refine ⟨t.at_ c dx dy dz, ?_, hr'⟩
      simp only [List.mem_flatMap]
      refine ⟨dx, hmem3' lx mx dx hdx zx, dy, hmem3' ly my dy hdy zy, dz, hmem3' lz mz dz hdz zz, ?_⟩
      rw [if_neg]
      · simp
      · rintro ⟨e1, e2, e3⟩
        apply b2
        apply hself
        have h1 := zx.1 e1
        have h2 := zy.1 e2
        have h3 := zz.1 e3
        cases hh : t.coords r'
        rw [hh] at h1 h2 h3
        cases c
        simp_all

theorem Adj.symm {periodic : Bool} {p c c' : Nat} (h : Adj periodic p c c') : Adj periodic p c' c := by
  unfold Adj at *
  rcases h with h | h | h | ⟨hp, h⟩
  · exact .inl h.symm
  · exact .inr (.inr (.inl h))
  · exact .inr (.inl h)
  · exact .inr (.inr (.inr ⟨hp, h.symm⟩))

/-- C35: being neighbours is symmetric. -/
theorem C35_symmetric_partial {t : Topo} (h : t.Ok) (h1 : t.nd = 1 → t.periodic = true → 1 < t.px) {r r' : Nat} (hr : r < t.size) (hr' : r' < t.size) :
    (∃ n ∈ t.neighbors r, n.rank = r') ↔ (∃ n ∈ t.neighbors r', n.rank = r) := by
  rw [C35_neighbors_partial h h1 hr, C35_neighbors_partial h h1 hr']
  constructor
  · rintro ⟨-, a, b, c, d⟩; exact ⟨hr, a.symm, b.symm, c.symm, d.symm⟩
  · rintro ⟨-, a, b, c, d⟩; exact ⟨hr', a.symm, b.symm, c.symm, d.symm⟩

example : exTopo.size = 6 ∧ (exTopo.neighbors 0).map (·.rank) = [5, 4, 5, 1, 1, 3, 2, 3] := by decide

/-- C35 is violated in a 1-dimensional periodic space of one process: it is its own neighbour, twice. -/
theorem C35_violation : ∃ t : Topo, t.Ok ∧ t.size = 1 ∧ (t.neighbors 0).map (·.rank) = [0, 0] :=
  ⟨{ nd := 1, px := 1, py := 1, pz := 1, periodic := true, box := ⟨0, 10, 0, 0, 0, 0⟩ },
    ⟨⟨by decide, by decide, by decide, by decide⟩, by decide, by decide, by decide, by decide, by decide, by decide⟩, by decide, by decide⟩

end Repast.Topology
