import Verif.ValueLayer.Model
import Verif.Space.BorderProps
import Verif.Geometry.Props

/-! C39 and C41: value layers and read/write value layers. -/
namespace Repast.ValueLayer
open Repast.Space Repast.Geometry

/-! ### Specification: a layer is a map from the points of the box to values -/

/-- The coordinate under the borders: the nearest one in the range, or the one congruent modulo the extent. -/
def place1 (periodic : Bool) (lo ext v : Int) : Int :=
  if periodic then lo + (v - lo) % ext else if v < lo then lo else if lo + ext ≤ v then lo + ext - 1 else v

/-- The location a point stands for; a coordinate of a dimension the layer does not have is irrelevant (0). -/
def place (b : Box) (periodic : Bool) (p : Pt) : Pt :=
  { x := place1 periodic b.xmin b.xext p.x
    y := if 0 < b.yext then place1 periodic b.ymin b.yext p.y else 0
    z := if 0 < b.zext then place1 periodic b.zmin b.zext p.z else 0 }

/-- The cells at distance at most one, x varying fastest. -/
def around (b : Box) (p : Pt) : List Pt :=
  (if 0 < b.zext then near p.z else [0]).flatMap fun z => (if 0 < b.yext then near p.y else [0]).flatMap fun y => (near p.x).map fun x => ⟨x, y, z⟩

/-- The neighbouring locations: those in bounds, or all of them wrapped. -/
def nghsOf (b : Box) (periodic : Bool) (p : Pt) : List Pt :=
  if periodic then (around b p).map (place b true) else (around b p).filter b.contains

/-- An array of locations: one row for each dimension. -/
def rows (b : Box) (pts : List Pt) : List (List Int) :=
  if 0 < b.zext then [pts.map (·.x), pts.map (·.y), pts.map (·.z)] else if 0 < b.yext then [pts.map (·.x), pts.map (·.y)] else [pts.map (·.x)]

abbrev Map (V : Type) := Pt → V

def Map.set {V : Type} (m : Map V) (p : Pt) (v : V) : Map V := fun q => if q = p then v else m q

/-- What the calls should do. -/
def specStep {V : Type} (b : Box) (periodic : Bool) (m : Map V) : Op V → Map V × Res V
  | .get p => (m, .val (m (place b periodic p)))
  | .set p v => (m.set (place b periodic p) v, .unit)
  | .nghs p => (m, .nghs ((nghsOf b periodic p).map m) (rows b (nghsOf b periodic p)))

def specRun {V : Type} (b : Box) (periodic : Bool) (m : Map V) : List (Op V) → Map V × List (Res V)
  | [] => (m, [])
  | o :: os => ((specRun b periodic (specStep b periodic m o).1 os).1, (specStep b periodic m o).2 :: (specRun b periodic (specStep b periodic m o).1 os).2)

/-! ### What the borders mean -/

theorem place1_range {periodic : Bool} {lo ext : Int} (h : 0 < ext) (v : Int) : lo ≤ place1 periodic lo ext v ∧ place1 periodic lo ext v < lo + ext := by
  unfold place1
  split
  · have h1 := Int.emod_nonneg (v - lo) (by omega : ext ≠ 0)
    have h2 := Int.emod_lt_of_pos (v - lo) h
    omega
  · split
    · omega
    · split <;> omega

theorem place1_sticky {lo ext : Int} (h : 0 < ext) (v : Int) : sticky1 lo (lo + ext) v = place1 false lo ext v := by
  unfold place1 sticky1
  simp only [Bool.false_eq_true, if_false]
  split
  · omega
  · split <;> omega

theorem place1_wrapped {lo ext : Int} (h : 0 < ext) (v : Int) : Wrapped lo ext v (place1 true lo ext v) := by
  refine ⟨place1_range h v, (v - lo) / ext, ?_⟩
  have := Int.mul_ediv_add_emod (v - lo) ext
  unfold place1
  rw [if_pos rfl, Int.mul_comm ((v - lo) / ext)]
  omega

theorem place1_periodic {lo ext : Int} (h : 0 < ext) (v : Int) : periodic1 lo (lo + ext) ext v = place1 true lo ext v :=
  (periodic1_wrapped h v).unique (place1_wrapped h v)

theorem place1_inside {periodic : Bool} {lo ext v : Int} (h : lo ≤ v ∧ v < lo + ext) : place1 periodic lo ext v = v := by
  unfold place1
  split
  · rw [Int.emod_eq_of_lt (by omega) (by omega)]; omega
  · rw [if_neg (by omega), if_neg (by omega)]

/-- C39: what `place` is: it is in bounds, the nearest location under sticky borders, the congruent one under periodic borders, and the point itself if
that is in bounds. -/
theorem C39_place {b : Box} (hb : b.Ok) (periodic : Bool) (p : Pt) :
    b.contains (place b periodic p) = true ∧
    (if periodic then Wrapped b.xmin b.xext p.x (place b periodic p).x else Nearest b.xmin b.xext p.x (place b periodic p).x) ∧
    (0 < b.yext → if periodic then Wrapped b.ymin b.yext p.y (place b periodic p).y else Nearest b.ymin b.yext p.y (place b periodic p).y) ∧
    (0 < b.zext → if periodic then Wrapped b.zmin b.zext p.z (place b periodic p).z else Nearest b.zmin b.zext p.z (place b periodic p).z) ∧
    (b.contains p = true → (b.yext = 0 → p.y = 0) → (b.zext = 0 → p.z = 0) → place b periodic p = p) := by
  have one : ∀ {lo ext : Int} (v : Int), 0 < ext → if periodic then Wrapped lo ext v (place1 periodic lo ext v) else Nearest lo ext v (place1 periodic lo ext v) := by
    intro lo ext v h
    cases periodic with
    | true => exact place1_wrapped h v
    | false =>
      simp only [Bool.false_eq_true, if_false]
      rw [← place1_sticky h]; exact (sticky1_spec h v).1
  refine ⟨(contains_iff hb _).2 ⟨place1_range hb.x _, fun h => ?_, fun h => ?_⟩, one _ hb.x, fun h => ?_, fun h => ?_, fun h hy hz => ?_⟩
  · show InRange _ _ (if 0 < b.yext then _ else _); rw [if_pos h]; exact place1_range h _
  · show InRange _ _ (if 0 < b.zext then _ else _); rw [if_pos h]; exact place1_range h _
  · simp only [place, if_pos h]; exact one _ h
  · simp only [place, if_pos h]; exact one _ h
  · obtain ⟨h1, h2, h3⟩ := (contains_iff hb p).1 h
    have := hb.y
    have := hb.z
    cases p with
    | mk x y z =>
      simp only [place, Pt.mk.injEq]
      refine ⟨place1_inside h1, ?_, ?_⟩
      · split
        · rename_i h'; exact place1_inside (h2 h')
        · exact (hy (by omega)).symm
      · split
        · rename_i h'; exact place1_inside (h3 h')
        · exact (hz (by omega)).symm

/-! ### Refinement -/

/-- The value of a location in the tensor. -/
def valAt {V : Type} (b : Box) (f : Nat → Nat → Nat → V) (p : Pt) : V :=
  f (if 0 < b.zext then (p.z - b.zmin).toNat else 0) (if 0 < b.yext then (p.y - b.ymin).toNat else 0) (p.x - b.xmin).toNat

/-- The translation from coordinates to indices. -/
def trOf (b : Box) : Pt := ⟨0 - b.xmin, if b.yext = 0 then 0 else 0 - b.ymin, if b.yext = 0 then 0 else if b.zext = 0 then 0 else 0 - b.zmin⟩

/-- What does not change in a layer created with `Layer.new`. -/
structure Static {V : Type} (b : Box) (periodic : Bool) (l : Layer V) : Prop where
  nd : l.nd = if b.yext = 0 then 1 else if b.zext = 0 then 2 else 3
  box : l.box = b
  per : l.periodic = periodic
  nx : l.ten.nx = b.xext.toNat
  ny : l.ten.ny = if b.yext = 0 then 1 else b.yext.toNat
  nz : l.ten.nz = if b.yext = 0 then 1 else if b.zext = 0 then 1 else b.zext.toNat
  pt : l.ptTr = trOf b
  ngh : l.nghTr = trOf b

/-- The layer is one created with `Layer.new` and holds the values of `m`. -/
structure Holds {V : Type} (b : Box) (periodic : Bool) (l : Layer V) (m : Map V) : Prop where
  static : Static b periodic l
  vals : ∀ p, InBounds b p → (¬ 0 < b.yext → p.y = 0) → (¬ 0 < b.zext → p.z = 0) → valAt b l.ten.at_ p = m p

theorem index_ok {n i : Int} (h : 0 ≤ i ∧ i < n) : index n.toNat i = some i.toNat := by
  unfold index
  rw [if_pos h.1, if_pos (by omega)]

theorem place_inBounds {b : Box} (hb : b.Ok) (periodic : Bool) (p : Pt) : InBounds b (place b periodic p) :=
  (contains_iff hb _).1 (C39_place hb periodic p).1

theorem place_flat (b : Box) (periodic : Bool) (p : Pt) :
    (¬ 0 < b.yext → (place b periodic p).y = 0) ∧ (¬ 0 < b.zext → (place b periodic p).z = 0) :=
  ⟨fun h => if_neg h, fun h => if_neg h⟩

/-- The transformed point is the location, in the dimensions of the layer. -/
theorem transform_place {V : Type} {b : Box} (hb : b.Ok) {periodic : Bool} {l : Layer V} (h1 : l.box = b) (h2 : l.periodic = periodic) (p : Pt) :
    (l.transform p).x = (place b periodic p).x ∧ (0 < b.yext → (l.transform p).y = (place b periodic p).y) ∧
    (0 < b.zext → (l.transform p).z = (place b periodic p).z) := by
  subst h1 h2
  unfold Layer.transform
  cases hp : l.periodic with
  | true =>
    obtain ⟨-, w1, w2, w3⟩ := C28_periodic hb p l.tpt
    refine ⟨w1.unique (place1_wrapped hb.x p.x), fun h => ?_, fun h => ?_⟩
    · rw [if_pos h] at w2
      simp only [place, if_pos h]
      exact w2.unique (place1_wrapped h p.y)
    · rw [if_pos h] at w3
      simp only [place, if_pos h]
      exact w3.unique (place1_wrapped h p.z)
  | false =>
    simp only [Bool.false_eq_true, if_false, place, sticky, Box.xmax, Box.ymax, Box.zmax]
    exact ⟨place1_sticky hb.x _, fun h => by rw [if_pos h]; exact place1_sticky h _, fun h => by rw [if_pos h]; exact place1_sticky h _⟩

/-- The cell of a location. -/
theorem cell_place {V : Type} {b : Box} (hb : b.Ok) {periodic : Bool} {l : Layer V} (hl : Static b periodic l) {p q : Pt}
    (hq : InBounds b q) (hx : p.x = q.x) (hy : 0 < b.yext → p.y = q.y) (hz : 0 < b.zext → p.z = q.z) :
    l.cell p = some ((if 0 < b.zext then (q.z - b.zmin).toNat else 0), (if 0 < b.yext then (q.y - b.ymin).toNat else 0), (q.x - b.xmin).toNat) := by
  obtain ⟨⟨a1, a2⟩, bb, cc⟩ := hq
  have e1 : index b.xext.toNat (p.x + (0 - b.xmin)) = some (q.x - b.xmin).toNat := by
    rw [hx, show q.x + (0 - b.xmin) = q.x - b.xmin by omega]; exact index_ok ⟨by omega, by omega⟩
  have hby := hb.y
  have hbz := hb.z
  unfold Layer.cell
  rw [hl.nd, hl.nx, hl.ny, hl.nz, hl.pt, hl.ngh]
  unfold trOf
  by_cases h2 : b.yext = 0
  · have h3 : ¬ 0 < b.zext := fun h => by have := hb.zy h; omega
    simp only [if_pos h2, if_true, e1, if_neg h3, if_neg (by omega : ¬ 0 < b.yext)]
    rfl
  · have h2' : 0 < b.yext := by omega
    have e2 : index b.yext.toNat (p.y + (0 - b.ymin)) = some (q.y - b.ymin).toNat := by
      have := bb h2'
      unfold InRange at this
      rw [hy h2', show q.y + (0 - b.ymin) = q.y - b.ymin by omega]; exact index_ok ⟨by omega, by omega⟩
    by_cases h3 : b.zext = 0
    · simp only [if_neg h2, if_pos h3, if_neg (by omega : ¬ 2 = 1), if_true, e1, e2, if_pos h2', if_neg (by omega : ¬ 0 < b.zext)]
      rfl
    · have h3' : 0 < b.zext := by omega
      have e3 : index b.zext.toNat (p.z + (0 - b.zmin)) = some (q.z - b.zmin).toNat := by
        have := cc h3'
        unfold InRange at this
        rw [hz h3', show q.z + (0 - b.zmin) = q.z - b.zmin by omega]; exact index_ok ⟨by omega, by omega⟩
      simp only [if_neg h2, if_neg h3, if_neg (by omega : ¬ 3 = 1), if_neg (by omega : ¬ 3 = 2), e1, e2, e3, if_pos h2', if_pos h3']
      rfl

theorem Holds.get {V : Type} {b : Box} (hb : b.Ok) {periodic : Bool} {l : Layer V} {m : Map V} (h : Holds b periodic l m) (p : Pt) :
    Holds b periodic (l.get p).1 m ∧ (l.get p).2 = .val (m (place b periodic p)) := by
  obtain ⟨t1, t2, t3⟩ := transform_place hb h.static.box h.static.per p
  have hin := place_inBounds hb periodic p
  have hc := cell_place hb h.static hin t1 t2 t3
  refine ⟨⟨⟨h.static.nd, h.static.box, h.static.per, h.static.nx, h.static.ny, h.static.nz, h.static.pt, h.static.ngh⟩, h.vals⟩, ?_⟩
  · unfold Layer.get
    simp only [hc]
    exact congrArg _ (h.vals _ hin (place_flat b periodic p).1 (place_flat b periodic p).2)

theorem inBounds_ext {b : Box} {p q : Pt} (hp : InBounds b p) (hq : InBounds b q) (p1 : ¬ 0 < b.yext → p.y = 0) (p2 : ¬ 0 < b.zext → p.z = 0)
    (q1 : ¬ 0 < b.yext → q.y = 0) (q2 : ¬ 0 < b.zext → q.z = 0) :
    ((if 0 < b.zext then (p.z - b.zmin).toNat else 0) = (if 0 < b.zext then (q.z - b.zmin).toNat else 0) ∧
     (if 0 < b.yext then (p.y - b.ymin).toNat else 0) = (if 0 < b.yext then (q.y - b.ymin).toNat else 0) ∧
     (p.x - b.xmin).toNat = (q.x - b.xmin).toNat) ↔ p = q := by
  constructor
  · rintro ⟨e1, e2, e3⟩
    obtain ⟨a1, a2, a3⟩ := hp
    obtain ⟨b1, b2, b3⟩ := hq
    unfold InRange at *
    cases p; cases q
    simp only [Pt.mk.injEq] at *
    refine ⟨by omega, ?_, ?_⟩
    · by_cases h : 0 < b.yext
      · rw [if_pos h, if_pos h] at e2
        have := a2 h; have := b2 h
        omega
      · rw [p1 h, q1 h]
    · by_cases h : 0 < b.zext
      · rw [if_pos h, if_pos h] at e1
        have := a3 h; have := b3 h
        omega
      · rw [p2 h, q2 h]
  · rintro rfl; exact ⟨rfl, rfl, rfl⟩

theorem Holds.set {V : Type} {b : Box} (hb : b.Ok) {periodic : Bool} {l : Layer V} {m : Map V} (h : Holds b periodic l m) (p : Pt) (v : V) :
    Holds b periodic (l.set p v).1 (m.set (place b periodic p) v) ∧ (l.set p v).2 = .unit := by
  obtain ⟨t1, t2, t3⟩ := transform_place hb h.static.box h.static.per p
  have hin := place_inBounds hb periodic p
  have hc := cell_place hb h.static hin t1 t2 t3
  refine ⟨⟨?_, ?_⟩, ?_⟩
  · unfold Layer.set
    simp only [hc]
    exact ⟨h.static.nd, h.static.box, h.static.per, h.static.nx, h.static.ny, h.static.nz, h.static.pt, h.static.ngh⟩
  · intro q hq q1 q2
    unfold Layer.set
    simp only [hc]
    unfold Ten.set valAt Map.set
    simp only []
    have := inBounds_ext hq hin q1 q2 (place_flat b periodic p).1 (place_flat b periodic p).2
    by_cases e : q = place b periodic p
    · rw [if_pos e, if_pos (this.2 e)]
    · rw [if_neg e, if_neg (fun h => e (this.1 h))]
      exact h.vals q hq q1 q2
  · unfold Layer.set; simp only [hc]

/-! neighbours -/

theorem gather_map {V α : Type} (t : Ten V) (L : List α) (fz fy fx : α → Int) (g : α → V)
    (h : ∀ a ∈ L, ∃ k j i, index t.nz (fz a) = some k ∧ index t.ny (fy a) = some j ∧ index t.nx (fx a) = some i ∧ t.at_ k j i = g a) :
    t.gather (L.map fz) (L.map fy) (L.map fx) = some (L.map g) := by
  induction L with
  | nil => rfl
  | cons a L ih =>
    obtain ⟨k, j, i, h1, h2, h3, h4⟩ := h a (by simp)
    have ih := ih (fun a ha => h a (List.mem_cons_of_mem _ ha))
    simp only [List.map_cons, Ten.gather, h1, h2, h3, ih, Option.bind_eq_bind, Option.bind_some, h4]
    rfl

theorem wrap_place {lo ext : Int} (h : 0 < ext) (v : Int) : wrap ⟨lo, lo + ext - 1⟩ v = place1 true lo ext v := by
  obtain ⟨h1, h2, k, e⟩ := wrap_spec (m := ⟨lo, lo + ext - 1⟩) (by show lo ≤ lo + ext - 1; omega) v
  refine Wrapped.unique (lo := lo) (ext := ext) ⟨⟨h1, by simp only at h2; omega⟩, k, ?_⟩ (place1_wrapped h v)
  rw [show (lo + ext - 1 - lo + 1) = ext by omega] at e
  exact e

/-- The finders return the rows of the neighbouring locations. -/
theorem nghs_in {b : Box} (hb : b.Ok) {periodic : Bool} {p q : Pt} (h : q ∈ nghsOf b periodic p) :
    InBounds b q ∧ (¬ 0 < b.yext → q.y = 0) ∧ (¬ 0 < b.zext → q.z = 0) := by
  unfold nghsOf at h
  split at h
  · obtain ⟨q', -, rfl⟩ := List.mem_map.1 h
    exact ⟨place_inBounds hb _ _, (place_flat _ _ _).1, (place_flat _ _ _).2⟩
  · obtain ⟨h1, h2⟩ := List.mem_filter.1 h
    refine ⟨(contains_iff hb q).1 h2, fun hy => ?_, fun hz => ?_⟩
    · unfold around at h1
      rw [if_neg hy] at h1
      simp only [List.mem_flatMap, List.mem_map, List.mem_singleton] at h1
      obtain ⟨z, -, y, rfl, x, -, rfl⟩ := h1
      rfl
    · unfold around at h1
      rw [if_neg hz] at h1
      simp only [List.mem_flatMap, List.mem_map, List.mem_singleton] at h1
      obtain ⟨z, rfl, y, -, x, -, rfl⟩ := h1
      rfl

theorem around3 {b : Box} (h2 : 0 < b.yext) (h3 : 0 < b.zext) (p : Pt) : around b p = (moore3 p.x p.y p.z).map fun q => ⟨q.1, q.2.1, q.2.2⟩ := by
  unfold around moore3
  rw [if_pos h2, if_pos h3]
  simp [List.map_flatMap, Function.comp_def]

theorem around2 {b : Box} (h2 : 0 < b.yext) (h3 : ¬ 0 < b.zext) (p : Pt) : around b p = (moore2 p.x p.y).map fun q => ⟨q.1, q.2, 0⟩ := by
  unfold around moore2
  rw [if_pos h2, if_neg h3]
  simp [List.map_flatMap, Function.comp_def]

theorem around1 {b : Box} (h2 : ¬ 0 < b.yext) (h3 : ¬ 0 < b.zext) (p : Pt) : around b p = (near p.x).map fun q => ⟨q, 0, 0⟩ := by
  unfold around
  rw [if_neg h2, if_neg h3]
  simp

theorem has_iff (m : MM) (v : Int) : m.has v = true ↔ m.lo ≤ v ∧ v ≤ m.hi := by simp [MM.has]

theorem has_range (lo ext v : Int) : (MM.mk lo (lo + ext - 1)).has v = (decide (lo ≤ v) && decide (v < lo + ext)) := by
  unfold MM.has
  congr 1
  simp only [decide_eq_decide]
  omega

theorem numDims3 {b : Box} (h3 : 0 < b.zext) : b.numDims = 3 := by unfold Box.numDims; rw [if_pos h3]
theorem numDims2 {b : Box} (h2 : 0 < b.yext) (h3 : ¬ 0 < b.zext) : b.numDims = 2 := by unfold Box.numDims; rw [if_neg h3, if_pos h2]
theorem numDims1 {b : Box} (h2 : ¬ 0 < b.yext) (h3 : ¬ 0 < b.zext) : b.numDims = 1 := by unfold Box.numDims; rw [if_neg h3, if_neg h2]

theorem finder1 {b : Box} (hb : b.Ok) (h2 : ¬ 0 < b.yext) (h3 : ¬ 0 < b.zext) (periodic : Bool) (p : Pt) :
    (if periodic then periodic1d p.x (mmx b) else sticky1d p.x (mmx b)) = (nghsOf b periodic p).map (·.x) := by
  unfold nghsOf
  rw [around1 h2 h3]
  cases periodic with
  | true =>
    simp only [if_true, periodic1d, wrapAll_eq, List.map_map]
    have : shift p.x xoff1 = near p.x := by simp [shift, xoff1, near, Int.sub_eq_add_neg]
    rw [this]
    apply List.map_congr_left
    intro v _
    exact wrap_place hb.x v
  | false =>
    simp only [Bool.false_eq_true, if_false, sticky1d_eq, List.filter_map, List.map_map]
    rw [show (Pt.x ∘ fun q : Int => (⟨q, 0, 0⟩ : Pt)) = id from rfl, List.map_id]
    apply List.filter_congr
    intro v _
    simp only [mmx, has_range, Function.comp_apply, Box.contains, numDims1 h2 h3, Box.xmax]
    rfl

theorem finder2 {b : Box} (hb : b.Ok) (h2 : 0 < b.yext) (h3 : ¬ 0 < b.zext) (periodic : Bool) (p : Pt) :
    (if periodic then periodic2d p.x p.y (mmx b) (mmy b) true else sticky2d p.x p.y (mmx b) (mmy b) true) =
      [(nghsOf b periodic p).map (·.y), (nghsOf b periodic p).map (·.x)] := by
  unfold nghsOf
  rw [around2 h2 h3]
  cases periodic with
  | true =>
    have hx : shift p.x xoff2 = (moore2 p.x p.y).map (·.1) := by simp [shift, xoff2, tile, xoff1, moore2, near, Int.sub_eq_add_neg]
    have hy : shift p.y yoff2 = (moore2 p.x p.y).map (·.2) := by simp [shift, yoff2, moore2, near, Int.sub_eq_add_neg]
    simp only [if_true, periodic2d, wrapAll_eq, List.map_map, hx, hy]
    congr 1
    · apply List.map_congr_left
      intro v _
      simp only [Function.comp_apply, place, if_pos h2]
      exact wrap_place h2 _
    · congr 1
      apply List.map_congr_left
      intro v _
      exact wrap_place hb.x _
  | false =>
    simp only [Bool.false_eq_true, if_false, (sticky2d_eq p.x p.y (mmx b) (mmy b)).2, List.filter_map, List.map_map]
    have : (moore2 p.x p.y).filter (fun p => (mmx b).has p.1 && (mmy b).has p.2) = (moore2 p.x p.y).filter (b.contains ∘ fun q => ⟨q.1, q.2, 0⟩) := by
      apply List.filter_congr
      intro v _
      simp only [mmx, mmy, has_range, Function.comp_apply, Box.contains, numDims2 h2 h3, Box.xmax, Box.ymax]
      rfl
    rw [this]
    rfl

theorem finder3 {b : Box} (hb : b.Ok) (h2 : 0 < b.yext) (h3 : 0 < b.zext) (periodic : Bool) (p : Pt) :
    (if periodic then periodic3d p.x p.y p.z (mmx b) (mmy b) (mmz b) true else sticky3d p.x p.y p.z (mmx b) (mmy b) (mmz b) true) =
      [(nghsOf b periodic p).map (·.z), (nghsOf b periodic p).map (·.y), (nghsOf b periodic p).map (·.x)] := by
  unfold nghsOf
  rw [around3 h2 h3]
  cases periodic with
  | true =>
    have hx : shift p.x xoff3 = (moore3 p.x p.y p.z).map (·.1) := by
      simp [shift, xoff3, tile, xoff1, moore3, near, Int.sub_eq_add_neg, List.replicate]
    have hy : shift p.y yoff3 = (moore3 p.x p.y p.z).map (·.2.1) := by
      simp [shift, yoff3, tile, yoff2, moore3, near, Int.sub_eq_add_neg, List.replicate]
    have hz : shift p.z zoff3 = (moore3 p.x p.y p.z).map (·.2.2) := by
      simp [shift, zoff3, moore3, near, Int.sub_eq_add_neg, List.replicate]
    simp only [if_true, periodic3d, wrapAll_eq, List.map_map, hx, hy, hz]
    congr 1
    · apply List.map_congr_left
      intro v _
      simp only [Function.comp_apply, place, if_pos h3]
      exact wrap_place h3 _
    · congr 1
      · apply List.map_congr_left
        intro v _
        simp only [Function.comp_apply, place, if_pos h2]
        exact wrap_place h2 _
      · congr 1
        apply List.map_congr_left
        intro v _
        exact wrap_place hb.x _
  | false =>
    simp only [Bool.false_eq_true, if_false, (sticky3d_eq p.x p.y p.z (mmx b) (mmy b) (mmz b)).2, List.filter_map, List.map_map]
    have : (moore3 p.x p.y p.z).filter (fun p => (mmx b).has p.1 && (mmy b).has p.2.1 && (mmz b).has p.2.2) =
        (moore3 p.x p.y p.z).filter (b.contains ∘ fun q => ⟨q.1, q.2.1, q.2.2⟩) := by
      apply List.filter_congr
      intro v _
      simp only [mmx, mmy, mmz, has_range, Function.comp_apply, Box.contains, numDims3 h3, Box.xmax, Box.ymax, Box.zmax]
      rfl
    rw [this]
    rfl

theorem Holds.nghs {V : Type} {b : Box} (hb : b.Ok) {periodic : Bool} {l : Layer V} {m : Map V} (h : Holds b periodic l m) (p : Pt) :
    l.getNghs p = .nghs ((nghsOf b periodic p).map m) (rows b (nghsOf b periodic p)) := by
  have hby := hb.y
  have hbz := hb.z
  have hv : ∀ q ∈ nghsOf b periodic p, valAt b l.ten.at_ q = m q := fun q hq => by
    obtain ⟨h1, h2, h3⟩ := nghs_in hb hq
    exact h.vals q h1 h2 h3
  have hx : ∀ q ∈ nghsOf b periodic p, index l.ten.nx (q.x + (0 - b.xmin)) = some (q.x - b.xmin).toNat := fun q hq => by
    obtain ⟨⟨a, a'⟩, -, -⟩ := (nghs_in hb hq).1
    rw [h.static.nx, show q.x + (0 - b.xmin) = q.x - b.xmin by omega]; exact index_ok ⟨by omega, by omega⟩
  unfold Layer.getNghs rows
  rw [h.static.nd, h.static.box, h.static.per, h.static.ngh]
  unfold trOf
  by_cases h2 : b.yext = 0
  · have h3 : ¬ 0 < b.zext := fun h => by have := hb.zy h; omega
    simp only [if_pos h2, if_true, if_neg h3, if_neg (by omega : ¬ 0 < b.yext), finder1 hb (by omega) h3, plus, List.map_map]
    rw [gather_map _ _ _ _ _ m]
    · rfl
    · intro q hq
      refine ⟨0, 0, _, by simp [index, h.static.nz, h2], by simp [index, h.static.ny, h2], hx q hq, ?_⟩
      have := hv q hq
      rw [valAt, if_neg h3, if_neg (by omega : ¬ 0 < b.yext)] at this
      exact this
  · have h2' : 0 < b.yext := by omega
    have hy : ∀ q ∈ nghsOf b periodic p, index l.ten.ny (q.y + (0 - b.ymin)) = some (q.y - b.ymin).toNat := fun q hq => by
      obtain ⟨-, a, -⟩ := (nghs_in hb hq).1
      have := a h2'
      unfold InRange at this
      rw [h.static.ny, if_neg h2, show q.y + (0 - b.ymin) = q.y - b.ymin by omega]; exact index_ok ⟨by omega, by omega⟩
    by_cases h3 : b.zext = 0
    · simp only [if_neg h2, if_pos h3, if_neg (by omega : ¬ 2 = 1), if_true, if_pos h2', if_neg (by omega : ¬ 0 < b.zext), finder2 hb h2' (by omega : ¬ 0 < b.zext), plus, List.map_map]
      rw [gather_map _ _ _ _ _ m]
      · rfl
      · intro q hq
        refine ⟨0, _, _, by simp [index, h.static.nz, h3], hy q hq, hx q hq, ?_⟩
        have := hv q hq
        rw [valAt, if_neg (by omega : ¬ 0 < b.zext), if_pos h2'] at this
        exact this
    · have h3' : 0 < b.zext := by omega
      have hz : ∀ q ∈ nghsOf b periodic p, index l.ten.nz (q.z + (0 - b.zmin)) = some (q.z - b.zmin).toNat := fun q hq => by
        obtain ⟨-, -, a⟩ := (nghs_in hb hq).1
        have := a h3'
        unfold InRange at this
        rw [h.static.nz, if_neg h2, if_neg h3, show q.z + (0 - b.zmin) = q.z - b.zmin by omega]; exact index_ok ⟨by omega, by omega⟩
      simp only [if_neg h2, if_neg h3, if_neg (by omega : ¬ 3 = 1), if_neg (by omega : ¬ 3 = 2), if_pos h3', finder3 hb h2' h3', plus, List.map_map]
      rw [gather_map _ _ _ _ _ m]
      · rfl
      · intro q hq
        refine ⟨_, _, _, hz q hq, hy q hq, hx q hq, ?_⟩
        have := hv q hq
        rw [valAt, if_pos h3', if_pos h2'] at this
        exact this

/-! ### C39 -/

theorem Holds.step {V : Type} {b : Box} (hb : b.Ok) {periodic : Bool} {l : Layer V} {m : Map V} (h : Holds b periodic l m) (o : Op V) :
    Holds b periodic (l.step o).1 (specStep b periodic m o).1 ∧ (l.step o).2 = (specStep b periodic m o).2 := by
  cases o with
  | get p => exact h.get hb p
  | set p v => exact h.set hb p v
  | nghs p => exact ⟨h, h.nghs hb p⟩

theorem Holds.run {V : Type} {b : Box} (hb : b.Ok) {periodic : Bool} (ops : List (Op V)) {l : Layer V} {m : Map V} (h : Holds b periodic l m) :
    Holds b periodic (l.run ops).1 (specRun b periodic m ops).1 ∧ (l.run ops).2 = (specRun b periodic m ops).2 := by
  induction ops generalizing l m with
  | nil => exact ⟨h, rfl⟩
  | cons o os ih =>
    obtain ⟨h1, h2⟩ := h.step hb o
    obtain ⟨h3, h4⟩ := ih h1
    exact ⟨h3, by simp only [Layer.run, specRun, h2, h4]⟩

theorem new_at {V : Type} (b : Box) (periodic : Bool) (init : Nat → Nat → Nat → V) :
    (Layer.new b periodic init).ten.at_ = init ∧ (Layer.new b periodic init).tpt = ⟨0, 0, 0⟩ := by
  unfold Layer.new
  repeat' split
  all_goals exact ⟨rfl, rfl⟩

theorem holds_new {V : Type} (b : Box) (periodic : Bool) (init : Nat → Nat → Nat → V) : Holds b periodic (Layer.new b periodic init) (valAt b init) := by
  obtain ⟨e1, e2⟩ := new_at b periodic init
  refine ⟨?_, fun p _ _ _ => by rw [e1]⟩
  unfold Layer.new
  by_cases h2 : b.yext = 0
  · simp only [if_pos h2]
    constructor <;> simp [h2, trOf]
  · by_cases h3 : b.zext = 0
    · simp only [if_neg h2, if_pos h3]
      constructor <;> simp [h2, h3, trOf]
    · simp only [if_neg h2, if_neg h3]
      constructor <;> simp [h2, h3, trOf]

/-- C39: every sequence of calls on a new value layer gives the results of the map from locations to values, whatever the box, the border type and
the initial values. -/
theorem C39_layer {V : Type} {b : Box} (hb : b.Ok) (periodic : Bool) (init : Nat → Nat → Nat → V) :
    ∃ m0 : Map V, (∀ v, init = (fun _ _ _ => v) → ∀ p, m0 p = v) ∧
      ∀ ops, ((Layer.new b periodic init).run ops).2 = (specRun b periodic m0 ops).2 :=
  ⟨valAt b init, fun v hv p => by rw [hv]; rfl, fun ops => ((holds_new b periodic init).run hb ops).2⟩

/-- C39: after any calls, `set(p, v)` makes `get(q)` return `v` for the points `q` that stand for the same location as `p`, and changes the result of no
other `get`. -/
theorem C39_read_your_writes {V : Type} {b : Box} (hb : b.Ok) (periodic : Bool) (init : Nat → Nat → Nat → V) (ops : List (Op V)) (p q : Pt) (v : V) :
    let l := ((Layer.new b periodic init).run ops).1
    (l.set p v).2 = .unit ∧
    (place b periodic q = place b periodic p → ((l.set p v).1.get q).2 = .val v) ∧
    (place b periodic q ≠ place b periodic p → ((l.set p v).1.get q).2 = (l.get q).2) := by
  intro l
  have h := ((holds_new b periodic init).run hb ops).1
  obtain ⟨h1, h2⟩ := h.set hb p v
  refine ⟨h2, fun e => ?_, fun e => ?_⟩
  · rw [(h1.get hb q).2, Map.set, if_pos e]
  · rw [(h1.get hb q).2, (h.get hb q).2, Map.set, if_neg e]

example : (⟨-3, 4, 10, 5, 0, 0⟩ : Box).Ok ∧ place ⟨-3, 4, 10, 5, 0, 0⟩ true ⟨1, 9, 0⟩ = place ⟨-3, 4, 10, 5, 0, 0⟩ true ⟨-3, 14, 7⟩ ∧
    ((Layer.new (V := Nat) ⟨-3, 4, 10, 5, 0, 0⟩ true (fun _ _ _ => 0)).run
      [.set ⟨1, 9, 0⟩ 7, .get ⟨-3, 14, 0⟩, .get ⟨0, 14, 0⟩, .set ⟨0, 10, 0⟩ 5, .nghs ⟨0, 14, 0⟩]).2 =
      [.unit, .val 7, .val 0, .unit,
       .nghs [0, 0, 0, 0, 0, 7, 0, 5, 0] [[-1, 0, -3, -1, 0, -3, -1, 0, -3], [13, 13, 13, 14, 14, 14, 10, 10, 10]]] :=
  ⟨⟨by decide, by decide, by decide, by decide⟩, by decide +kernel, by decide +kernel⟩

/-! ### C41 -/

/-- Two maps: reads see the first, writes change the second, `swap_layers` exchanges them. -/
def rwStep {V : Type} (b : Box) (periodic : Bool) (m : Map V × Map V) : RWOp V → (Map V × Map V) × Res V
  | .get p => (m, .val (m.1 (place b periodic p)))
  | .set p v => ((m.1, m.2.set (place b periodic p) v), .unit)
  | .swap => ((m.2, m.1), .unit)
  | .nghs _ => (m, .error)

def rwRun {V : Type} (b : Box) (periodic : Bool) (m : Map V × Map V) : List (RWOp V) → (Map V × Map V) × List (Res V)
  | [] => (m, [])
  | o :: os => ((rwRun b periodic (rwStep b periodic m o).1 os).1, (rwStep b periodic m o).2 :: (rwRun b periodic (rwStep b periodic m o).1 os).2)

theorem rw_run {V : Type} {b : Box} (hb : b.Ok) {periodic : Bool} (ops : List (RWOp V)) {s : RW V} {m : Map V × Map V} (h1 : Holds b periodic s.read m.1)
    (h2 : Holds b periodic s.write m.2) :
    (Holds b periodic (s.run ops).1.read (rwRun b periodic m ops).1.1 ∧ Holds b periodic (s.run ops).1.write (rwRun b periodic m ops).1.2) ∧
    (s.run ops).2 = (rwRun b periodic m ops).2 := by
  induction ops generalizing s m with
  | nil => exact ⟨⟨h1, h2⟩, rfl⟩
  | cons o os ih =>
    cases o with
    | get p =>
      obtain ⟨g1, g2⟩ := h1.get hb p
      obtain ⟨i1, i2⟩ := ih (s := { s with read := (s.read.get p).1 }) (m := m) g1 h2
      exact ⟨i1, by simp only [RW.run, RW.step, rwRun, rwStep, g2, i2]⟩
    | set p v =>
      obtain ⟨g1, g2⟩ := h2.set hb p v
      obtain ⟨i1, i2⟩ := ih (s := { s with write := (s.write.set p v).1 }) (m := (m.1, m.2.set (place b periodic p) v)) h1 g1
      exact ⟨i1, by simp only [RW.run, RW.step, rwRun, rwStep, g2, i2]⟩
    | swap =>
      obtain ⟨i1, i2⟩ := ih (s := { read := s.write, write := s.read }) (m := (m.2, m.1)) h2 h1
      exact ⟨i1, by simp only [RW.run, RW.step, rwRun, rwStep, i2]⟩
    | nghs p =>
      obtain ⟨i1, i2⟩ := ih (s := s) (m := m) h1 h2
      exact ⟨i1, by simp only [RW.run, RW.step, rwRun, rwStep, i2]⟩

/-- C41 (partial): every sequence of `get`, `set` and `swap_layers` on a read/write layer gives the results of the two maps. The layers are as created by
`ValueLayer`, which is what a `SharedValueLayer` of one rank with sticky borders is. Missing: neighbourhood reads, which always fail (`C41_nghs`), and the layers
of several ranks, for which the isolation is `C41_isolated`. -/
theorem C41_maps_partial {V : Type} {b : Box} (hb : b.Ok) (periodic : Bool) (init1 init2 : Nat → Nat → Nat → V) :
    ∃ m0 : Map V × Map V, (∀ v, init1 = (fun _ _ _ => v) → ∀ p, m0.1 p = v) ∧ (∀ v, init2 = (fun _ _ _ => v) → ∀ p, m0.2 p = v) ∧
      ∀ ops, ((RW.mk (Layer.new b periodic init1) (Layer.new b periodic init2)).run ops).2 = (rwRun b periodic m0 ops).2 :=
  ⟨(valAt b init1, valAt b init2), fun v hv p => by rw [hv]; rfl, fun v hv p => by rw [hv]; rfl,
   fun ops => (rw_run hb ops (holds_new b periodic init1) (holds_new b periodic init2)).2⟩

/-- The result of `get` does not depend on the scratch point. -/
def sameVals {V : Type} (l l' : Layer V) : Prop := l' = { l with tpt := l'.tpt }

/-- The calls since a swap. -/
def RWOp.isSwap {V : Type} : RWOp V → Bool
  | .swap => true
  | _ => false

theorem rw_noswap {V : Type} (ops : List (RWOp V)) (h : ∀ o ∈ ops, o.isSwap = false) (s : RW V) : sameVals s.read (s.run ops).1.read := by
  induction ops generalizing s with
  | nil => rfl
  | cons o os ih =>
    have ih := ih (fun o ho => h o (List.mem_cons_of_mem _ ho))
    cases o with
    | get p => have := ih { s with read := (s.read.get p).1 }; exact this
    | set p v => exact ih { s with write := (s.write.set p v).1 }
    | swap => have := h .swap (by simp); cases this
    | nghs p => exact ih s

/-- C41: whatever the two layers are (shared over any number of ranks, any borders), no sequence of calls without `swap_layers` changes the read layer's
tensor, and `swap_layers` makes the write layer, as it is, the read layer. -/
theorem C41_isolated {V : Type} (s : RW V) (ops : List (RWOp V)) (h : ∀ o ∈ ops, o.isSwap = false) :
    (s.run ops).1.read.ten = s.read.ten ∧ ((s.run ops).1.step .swap).1.read = (s.run ops).1.write := by
  refine ⟨?_, rfl⟩
  have := rw_noswap ops h s
  unfold sameVals at this
  rw [this]

/-- C41 is violated for neighbourhood reads: they raise an error, always. -/
theorem C41_nghs {V : Type} (s : RW V) (p : Pt) : (s.step (.nghs p)).2 = .error := rfl

/-- C41: in every state reached by calls, `set(p, v)` is invisible to `get(q)` for every `q`; after `swap_layers`, `get(q)` is `v` if `q` stands for the same
location as `p`, and otherwise what the write layer held. -/
theorem C41_swap {V : Type} {b : Box} (hb : b.Ok) (periodic : Bool) (init1 init2 : Nat → Nat → Nat → V) (ops : List (RWOp V)) (p q : Pt) (v : V) :
    let s := ((RW.mk (Layer.new b periodic init1) (Layer.new b periodic init2)).run ops).1
    let s1 := (s.step (.set p v)).1
    let s2 := (s1.step .swap).1
    (s1.step (.get q)).2 = (s.step (.get q)).2 ∧
    (place b periodic q = place b periodic p → (s2.step (.get q)).2 = .val v) ∧
    (place b periodic q ≠ place b periodic p → (s2.step (.get q)).2 = (s.write.get q).2) := by
  intro s s1 s2
  obtain ⟨h1, h2⟩ := (rw_run hb ops (s := RW.mk (Layer.new b periodic init1) (Layer.new b periodic init2)) (m := (valAt b init1, valAt b init2))
    (holds_new b periodic init1) (holds_new b periodic init2)).1
  have g := (h2.set hb p v).1
  refine ⟨rfl, fun e => ?_, fun e => ?_⟩
  · show ((s.write.set p v).1.get q).2 = _
    rw [(g.get hb q).2, Map.set, if_pos e]
  · show ((s.write.set p v).1.get q).2 = _
    rw [(g.get hb q).2, Map.set, if_neg e, (h2.get hb q).2]

example : ((RW.mk (Layer.new (V := Nat) ⟨0, 4, 0, 0, 0, 0⟩ false (fun _ _ _ => 0)) (Layer.new ⟨0, 4, 0, 0, 0, 0⟩ false (fun _ _ _ => 0))).run
    [.set ⟨1, 0, 0⟩ 7, .get ⟨1, 0, 0⟩, .swap, .get ⟨1, 0, 0⟩, .swap, .get ⟨1, 0, 0⟩]).2 = [.unit, .val 0, .unit, .val 7, .unit, .val 0] := by decide +kernel

end Repast.ValueLayer
