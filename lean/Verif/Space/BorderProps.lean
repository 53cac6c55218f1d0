import Verif.Space.Geom

/-! C27 and C28: what the border transforms do, for all points and boxes. -/
namespace Repast.Space

/-! ### Specification -/

/-- The boxes of the library: positive extents in the first dimensions, zero in the others. -/
structure Box.Ok (b : Box) : Prop where
  x : 0 < b.xext
  y : 0 ≤ b.yext
  z : 0 ≤ b.zext
  zy : 0 < b.zext → 0 < b.yext

/-- `v` is one of `lo, lo+1, …, lo+ext-1`. -/
def InRange (lo ext v : Int) : Prop := lo ≤ v ∧ v < lo + ext

/-- The point is in the box: each coordinate of a dimension of positive extent is in range. -/
def InBounds (b : Box) (p : Pt) : Prop :=
  InRange b.xmin b.xext p.x ∧ (0 < b.yext → InRange b.ymin b.yext p.y) ∧ (0 < b.zext → InRange b.zmin b.zext p.z)

/-- `t` is the element of the range nearest to `v`. -/
def Nearest (lo ext v t : Int) : Prop := InRange lo ext t ∧ ∀ u, InRange lo ext u → (v - t).natAbs ≤ (v - u).natAbs

/-- `t` is in the range and differs from `v` by a multiple of the extent. -/
def Wrapped (lo ext v t : Int) : Prop := InRange lo ext t ∧ ∃ k, v = t + k * ext

/-- The model's `contains` is being in bounds. -/
theorem contains_iff {b : Box} (hb : b.Ok) (p : Pt) : b.contains p = true ↔ InBounds b p := by
  obtain ⟨hx, hy, hz, hzy⟩ := hb
  unfold Box.contains InBounds InRange Box.numDims Box.xmax Box.ymax Box.zmax
  by_cases h3 : 0 < b.zext
  · have := hzy h3
    simp [h3, this, and_assoc]
  · by_cases h2 : 0 < b.yext
    · simp [h3, h2, and_assoc]
    · simp [h3, h2]

/-! ### C27 -/

theorem sticky1_spec {lo ext : Int} (h : 0 < ext) (v : Int) :
    Nearest lo ext v (sticky1 lo (lo + ext) v) ∧ (InRange lo ext v → sticky1 lo (lo + ext) v = v) := by
  unfold Nearest InRange sticky1
  refine ⟨⟨by omega, ?_⟩, by omega⟩
  intro u hu
  omega

/-- C27: in every dimension of the space the sticky transform is the nearest in-bounds coordinate; it lands in bounds; and it is the
identity on in-bounds points (a coordinate of a dimension the space does not have is set to the minimum). -/
theorem C27_sticky {b : Box} (hb : b.Ok) (p : Pt) :
    b.contains (sticky b p) = true ∧
    Nearest b.xmin b.xext p.x (sticky b p).x ∧
    (if 0 < b.yext then Nearest b.ymin b.yext p.y (sticky b p).y else (sticky b p).y = b.ymin) ∧
    (if 0 < b.zext then Nearest b.zmin b.zext p.z (sticky b p).z else (sticky b p).z = b.zmin) := by
  have hx := (sticky1_spec (lo := b.xmin) hb.x p.x).1
  have hy : if 0 < b.yext then Nearest b.ymin b.yext p.y (sticky b p).y else (sticky b p).y = b.ymin := by
    split
    · rename_i h; exact (sticky1_spec (lo := b.ymin) h p.y).1
    · have := hb.y
      show sticky1 b.ymin (b.ymin + b.yext) p.y = b.ymin
      unfold sticky1; omega
  have hz : if 0 < b.zext then Nearest b.zmin b.zext p.z (sticky b p).z else (sticky b p).z = b.zmin := by
    split
    · rename_i h; exact (sticky1_spec (lo := b.zmin) h p.z).1
    · have := hb.z
      show sticky1 b.zmin (b.zmin + b.zext) p.z = b.zmin
      unfold sticky1; omega
  refine ⟨(contains_iff hb _).2 ⟨hx.1, ?_, ?_⟩, hx, hy, hz⟩
  · intro h; rw [if_pos h] at hy; exact hy.1
  · intro h; rw [if_pos h] at hz; exact hz.1

/-- C27: an in-bounds point is not changed. -/
theorem C27_sticky_inside {b : Box} (hb : b.Ok) (p : Pt) (h : b.contains p = true)
    (hy : b.yext = 0 → p.y = b.ymin) (hz : b.zext = 0 → p.z = b.zmin) : sticky b p = p := by
  obtain ⟨h1, h2, h3⟩ := (contains_iff hb p).1 h
  have hby := hb.y
  have hbz := hb.z
  have e1 : (sticky b p).x = p.x := (sticky1_spec hb.x p.x).2 h1
  have e2 : (sticky b p).y = p.y := by
    by_cases h' : 0 < b.yext
    · exact (sticky1_spec h' p.y).2 (h2 h')
    · have h0 : b.yext = 0 := by omega
      show sticky1 b.ymin (b.ymin + b.yext) p.y = p.y
      rw [hy h0, h0]; unfold sticky1; omega
  have e3 : (sticky b p).z = p.z := by
    by_cases h' : 0 < b.zext
    · exact (sticky1_spec h' p.z).2 (h3 h')
    · have h0 : b.zext = 0 := by omega
      show sticky1 b.zmin (b.zmin + b.zext) p.z = p.z
      rw [hz h0, h0]; unfold sticky1; omega
  cases hp : sticky b p
  cases p
  simp_all

example : let b : Box := ⟨-5, 10, 3, 4, 0, 0⟩
    b.Ok ∧ sticky b ⟨100, -7, 9⟩ = ⟨4, 3, 0⟩ ∧ b.contains ⟨-5, 6, 0⟩ = true ∧ sticky b ⟨-5, 6, 0⟩ = ⟨-5, 6, 0⟩ :=
  ⟨⟨by decide, by decide, by decide, by decide⟩, by decide, by decide, by decide⟩

/-! ### C28 -/

theorem periodic1_wrapped {lo ext : Int} (h : 0 < ext) (v : Int) : Wrapped lo ext v (periodic1 lo (lo + ext) ext v) := by
  have h1 := Int.tdiv_mul_add_tmod (v - lo) ext
  have h2 : (v - lo).tmod ext < ext := Int.tmod_lt_of_pos _ h
  have h3 : -ext < (v - lo).tmod ext := by
    have := Int.tmod_lt_of_pos (-(v - lo)) h
    rw [Int.neg_tmod] at this
    omega
  unfold Wrapped InRange periodic1
  simp only []
  split
  · refine ⟨by omega, (v - lo).tdiv ext - 1, ?_⟩
    rw [Int.sub_mul]; omega
  · exact ⟨by omega, (v - lo).tdiv ext, by omega⟩

/-- `Wrapped` determines the result: the transform is the only in-range value congruent to the argument. -/
theorem Wrapped.unique {lo ext v t u : Int} (h1 : Wrapped lo ext v t) (h2 : Wrapped lo ext v u) : t = u := by
  obtain ⟨⟨a1, a2⟩, k1, e1⟩ := h1
  obtain ⟨⟨b1, b2⟩, k2, e2⟩ := h2
  have e : t - u = (k2 - k1) * ext := by rw [Int.sub_mul]; omega
  have hk : k2 - k1 = 0 := by
    rcases Int.lt_trichotomy (k2 - k1) 0 with h | h | h
    · have : (k2 - k1) * ext ≤ (-1) * ext := Int.mul_le_mul_of_nonneg_right (by omega) (by omega)
      omega
    · exact h
    · have : 1 * ext ≤ (k2 - k1) * ext := Int.mul_le_mul_of_nonneg_right (by omega) (by omega)
      omega
  rw [hk, Int.zero_mul] at e
  omega

theorem periodic1_inside {lo ext : Int} (h : 0 < ext) {v : Int} (hv : InRange lo ext v) : periodic1 lo (lo + ext) ext v = v :=
  (periodic1_wrapped h v).unique ⟨hv, 0, by omega⟩

/-- C28: the periodic transform lands in bounds and changes each coordinate of the space by a multiple of the extent (the coordinates of
dimensions the space does not have are those of the destination `d`). -/
theorem C28_periodic {b : Box} (hb : b.Ok) (p d : Pt) :
    b.contains (periodic b p d) = true ∧
    Wrapped b.xmin b.xext p.x (periodic b p d).x ∧
    (if 0 < b.yext then Wrapped b.ymin b.yext p.y (periodic b p d).y else (periodic b p d).y = d.y) ∧
    (if 0 < b.zext then Wrapped b.zmin b.zext p.z (periodic b p d).z else (periodic b p d).z = d.z) := by
  have hx : Wrapped b.xmin b.xext p.x (periodic b p d).x := by
    have := periodic1_wrapped (lo := b.xmin) hb.x p.x
    unfold periodic; split
    · exact this
    · split <;> exact this
  have hy : if 0 < b.yext then Wrapped b.ymin b.yext p.y (periodic b p d).y else (periodic b p d).y = d.y := by
    split
    · rename_i h
      have := periodic1_wrapped (lo := b.ymin) h p.y
      unfold periodic; split
      · exact this
      · rw [if_pos ⟨hb.x, h⟩]; exact this
    · rename_i h
      unfold periodic
      rw [if_neg (by omega), if_neg (by omega)]
  have hz : if 0 < b.zext then Wrapped b.zmin b.zext p.z (periodic b p d).z else (periodic b p d).z = d.z := by
    split
    · rename_i h
      unfold periodic
      rw [if_pos ⟨hb.x, hb.zy h, h⟩]
      exact periodic1_wrapped h p.z
    · rename_i h
      unfold periodic
      rw [if_neg (by omega)]
      split <;> rfl
  refine ⟨(contains_iff hb _).2 ⟨hx.1, ?_, ?_⟩, hx, hy, hz⟩
  · intro h; rw [if_pos h] at hy; exact hy.1
  · intro h; rw [if_pos h] at hz; exact hz.1

/-- C28: an in-bounds point is not changed. -/
theorem C28_periodic_inside {b : Box} (hb : b.Ok) (p d : Pt) (h : b.contains p = true)
    (hy : b.yext = 0 → p.y = d.y) (hz : b.zext = 0 → p.z = d.z) : periodic b p d = p := by
  obtain ⟨h1, h2, h3⟩ := (contains_iff hb p).1 h
  obtain ⟨-, w1, w2, w3⟩ := C28_periodic hb p d
  have hby := hb.y
  have hbz := hb.z
  have e1 : (periodic b p d).x = p.x := w1.unique ⟨h1, 0, by omega⟩
  have e2 : (periodic b p d).y = p.y := by
    by_cases h' : 0 < b.yext
    · rw [if_pos h'] at w2; exact w2.unique ⟨h2 h', 0, by omega⟩
    · rw [if_neg h'] at w2; rw [w2, hy (by omega)]
  have e3 : (periodic b p d).z = p.z := by
    by_cases h' : 0 < b.zext
    · rw [if_pos h'] at w3; exact w3.unique ⟨h3 h', 0, by omega⟩
    · rw [if_neg h'] at w3; rw [w3, hz (by omega)]
  cases hp : periodic b p d
  cases p
  simp_all

/-- C28: points that differ by multiples of the extents are transformed to the same point. -/
theorem C28_periodic_congruent {b : Box} (hb : b.Ok) (p q d : Pt) (i j k : Int) (hx : p.x = q.x + i * b.xext)
    (hy : p.y = q.y + j * b.yext) (hz : p.z = q.z + k * b.zext) : periodic b p d = periodic b q d := by
  obtain ⟨-, w1, w2, w3⟩ := C28_periodic hb p d
  obtain ⟨-, v1, v2, v3⟩ := C28_periodic hb q d
  have shift : ∀ {lo ext v u t i : Int}, v = u + i * ext → Wrapped lo ext u t → Wrapped lo ext v t := by
    rintro lo ext v u t i rfl ⟨h, k, e⟩
    exact ⟨h, k + i, by rw [Int.add_mul]; omega⟩
  have e1 : (periodic b p d).x = (periodic b q d).x := w1.unique (shift hx v1)
  have e2 : (periodic b p d).y = (periodic b q d).y := by
    split at w2
    · rename_i h; rw [if_pos h] at v2; exact w2.unique (shift hy v2)
    · rename_i h; rw [if_neg h] at v2; rw [w2, v2]
  have e3 : (periodic b p d).z = (periodic b q d).z := by
    split at w3
    · rename_i h; rw [if_pos h] at v3; exact w3.unique (shift hz v3)
    · rename_i h; rw [if_neg h] at v3; rw [w3, v3]
  cases hp : periodic b p d
  cases hq : periodic b q d
  simp_all

/-- C28 for a border object used on its own (as value layers do): the result of the `i`-th call depends on its argument only; coordinates of
dimensions the space does not have are 0. -/
theorem C28_border_object {b : Box} (ps : List Pt) :
    periodicCalls b ⟨0, 0, 0⟩ ps = ps.map (fun p => periodic b p ⟨0, 0, 0⟩) := by
  have key : ∀ (ps : List Pt) (tmp : Pt), (∀ q, periodic b q tmp = periodic b q ⟨0, 0, 0⟩) →
      periodicCalls b tmp ps = ps.map (fun p => periodic b p ⟨0, 0, 0⟩) := by
    intro ps
    induction ps with
    | nil => intros; rfl
    | cons p ps ih =>
      intro tmp h
      simp only [periodicCalls, List.map_cons, h p]
      rw [ih]
      intro q
      unfold periodic
      split
      · rfl
      · split <;> rfl
  exact key ps _ (fun _ => rfl)

example : let b : Box := ⟨-5, 10, 3, 4, 0, 0⟩
    b.Ok ∧ periodic b ⟨100, -7, 9⟩ ⟨0, 0, 0⟩ = ⟨0, 5, 0⟩ ∧ periodic b ⟨-6, 3, 0⟩ ⟨0, 0, 0⟩ = ⟨4, 3, 0⟩ ∧
    (100 : Int) = 0 + 10 * b.xext :=
  ⟨⟨by decide, by decide, by decide, by decide⟩, by decide, by decide, by decide⟩

end Repast.Space
