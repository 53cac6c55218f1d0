import Verif.Topology.Props

/-
C79: what a `CartesianTopology` tells about itself: `local_bounds`, `coordinates` and `procs_per_dim` (spacemodule.cpp:2642-2680, 2719-2730).
-/
namespace Repast.Topology
open Repast.Space

/-- A `std::vector<int>`: `mem` is what is in memory from its first element on, also after its last element. -/
structure Vec where
  size : Nat
  cap : Nat
  mem : Nat → Int

/-- The coordinates that MPI_Cart_coords tells, in the order of the dimensions. -/
def Topo.cart (t : Topo) (r : Nat) : List Int := [((t.coords r).x : Int), (t.coords r).y, (t.coords r).z].take t.nd

/-- distributed_space.cpp:276-279 `getCoords`: `reserve` makes room, but does not change the size of the vector. `fresh` is what is in the memory it gets.
Simplified: memory is not bounded; that an index is past `cap` is in `outside`. -/
def Topo.getCoords (t : Topo) (r : Nat) (v : Vec) (fresh : Nat → Int) : Vec :=
  let v := if v.cap < t.nd then { v with cap := t.nd, mem := fun i => if i < v.size then v.mem i else fresh i } else v
  { v with mem := fun i => ((t.cart r)[i]?).getD (v.mem i) }

/-- spacemodule.cpp:2663-2684 `CartesianTopology_getCartCoords`: the tuple, and whether it read memory past that of the vector. -/
def Topo.coordinates (t : Topo) (r : Nat) (fresh : Nat → Int) : List Int × Bool :=
  let v := t.getCoords r { size := 0, cap := 0, mem := fresh } fresh
  let n := if v.size = 1 then 1 else if v.size = 2 then 2 else 3
  ((List.range n).map v.mem, decide (v.cap < n))

/-- spacemodule.cpp:2719-2730 `CartesianTopology_procsPerDim`. -/
def Topo.procsPerDim (t : Topo) : List Nat := if t.nd = 1 then [t.px] else if t.nd = 2 then [t.px, t.py] else [t.px, t.py, t.pz]

/-! ### Lemmas -/

theorem cut_ext {gmin gext : Int} {p : Nat} (hp : 0 < p) (c : Nat) :
    cut gmin gext p (c + 1) - cut gmin gext p c = gext / p + if (c : Int) < gext % p then 1 else 0 := by
  have h1 : 0 ≤ gext % p := Int.emod_nonneg _ (by omega)
  unfold cut
  have h3 : gext / p * ((c + 1 : Nat) : Int) = gext / p * c + gext / p := by rw [Int.natCast_add, Int.mul_add]; simp
  rw [h3]
  split <;> omega

theorem bounds_x {t : Topo} (h : t.Ok) (r : Nat) : (t.bounds r).xmin = cut t.box.xmin t.box.xext t.px (t.coords r).x ∧
    (t.bounds r).xext = (cut t.box.xmin t.box.xext t.px ((t.coords r).x + 1) - cut t.box.xmin t.box.xext t.px (t.coords r).x) := by
  refine Prod.mk.inj ?_
  rw [← dimBounds_eq (Int.le_of_lt h.box.x) h.px]
  rfl

theorem bounds_y {t : Topo} (h : t.Ok) (hn : 1 < t.nd) (r : Nat) : (t.bounds r).ymin = cut t.box.ymin t.box.yext t.py (t.coords r).y ∧
    (t.bounds r).yext = (cut t.box.ymin t.box.yext t.py ((t.coords r).y + 1) - cut t.box.ymin t.box.yext t.py (t.coords r).y) := by
  refine Prod.mk.inj ?_
  rw [← dimBounds_eq h.box.y h.py]
  unfold Topo.bounds
  simp only [if_pos hn]

theorem bounds_z {t : Topo} (h : t.Ok) (hn : t.nd = 3) (r : Nat) : (t.bounds r).zmin = cut t.box.zmin t.box.zext t.pz (t.coords r).z ∧
    (t.bounds r).zext = (cut t.box.zmin t.box.zext t.pz ((t.coords r).z + 1) - cut t.box.zmin t.box.zext t.pz (t.coords r).z) := by
  refine Prod.mk.inj ?_
  rw [← dimBounds_eq h.box.z h.pz]
  unfold Topo.bounds
  simp only [if_pos hn]

theorem attr_nd_cases {t : Topo} (h : t.Ok) : t.nd = 1 ∨ t.nd = 2 ∨ t.nd = 3 := by
  have := h.nd
  rcases numDims_cases h.box with ⟨h, _⟩ | ⟨h, _⟩ | ⟨h, _⟩ <;> omega

/-! ### C79 -/

/-- Two lengths that differ by at most one. -/
def Even (a b : Int) : Prop := a ≤ b + 1 ∧ b ≤ a + 1

/-- The local bounds of any two ranks are equally large, up to one, in each dimension, also if there are more processes than rows or layers (C33_violation). -/
theorem C79_even_partial {t : Topo} (h : t.Ok) (r r' : Nat) :
    Even (t.bounds r).xext (t.bounds r').xext ∧ Even (t.bounds r).yext (t.bounds r').yext ∧ Even (t.bounds r).zext (t.bounds r').zext := by
  have key : ∀ {gmin gext : Int} {p : Nat} (_ : 0 < p) (c c' : Nat), Even (cut gmin gext p (c + 1) - cut gmin gext p c) (cut gmin gext p (c' + 1) - cut gmin gext p c') := by
    intro gmin gext p hp c c'
    rw [cut_ext hp, cut_ext hp]
    unfold Even
    split <;> split <;> omega
  refine ⟨?_, ?_, ?_⟩
  · rw [(bounds_x h r).2, (bounds_x h r').2]
    exact key h.px _ _
  · by_cases hn : 1 < t.nd
    · rw [(bounds_y h hn r).2, (bounds_y h hn r').2]
      exact key h.py _ _
    · have : ∀ r, (t.bounds r).yext = 0 := by intro r; unfold Topo.bounds; simp only [if_neg hn]
      rw [this, this]; simp [Even]
  · by_cases hn : t.nd = 3
    · rw [(bounds_z h hn r).2, (bounds_z h hn r').2]
      exact key h.pz _ _
    · have : ∀ r, (t.bounds r).zext = 0 := by intro r; unfold Topo.bounds; simp only [if_neg hn]
      rw [this, this]; simp [Even]

/-- The local bounds of ranks that are next to each other in a dimension are next to each other, those of the first begin where the global bounds begin and those of the last end where these end. -/
theorem C79_consecutive_partial {t : Topo} (h : t.Ok) (r r' : Nat) :
    ((t.coords r').x = (t.coords r).x + 1 → (t.bounds r').xmin = (t.bounds r).xmin + (t.bounds r).xext) ∧
    ((t.coords r).x = 0 → (t.bounds r).xmin = t.box.xmin) ∧ ((t.coords r).x + 1 = t.px → (t.bounds r).xmin + (t.bounds r).xext = t.box.xmin + t.box.xext) ∧
    (1 < t.nd → ((t.coords r').y = (t.coords r).y + 1 → (t.bounds r').ymin = (t.bounds r).ymin + (t.bounds r).yext) ∧
      ((t.coords r).y = 0 → (t.bounds r).ymin = t.box.ymin) ∧ ((t.coords r).y + 1 = t.py → (t.bounds r).ymin + (t.bounds r).yext = t.box.ymin + t.box.yext)) ∧
    (t.nd = 3 → ((t.coords r').z = (t.coords r).z + 1 → (t.bounds r').zmin = (t.bounds r).zmin + (t.bounds r).zext) ∧
      ((t.coords r).z = 0 → (t.bounds r).zmin = t.box.zmin) ∧ ((t.coords r).z + 1 = t.pz → (t.bounds r).zmin + (t.bounds r).zext = t.box.zmin + t.box.zext)) := by
  have hx := fun r => bounds_x h r
  refine ⟨fun e => ?_, fun e => ?_, fun e => ?_, fun hn => ?_, fun hn => ?_⟩
  · rw [(hx r').1, (hx r).1, (hx r).2, e]; omega
  · rw [(hx r).1, e]; exact cut_zero _ _ _ h.px
  · rw [(hx r).1, (hx r).2, e]; rw [cut_all _ _ _ h.px]; omega
  · have hy := fun r => bounds_y h hn r
    refine ⟨fun e => ?_, fun e => ?_, fun e => ?_⟩
    · rw [(hy r').1, (hy r).1, (hy r).2, e]; omega
    · rw [(hy r).1, e]; exact cut_zero _ _ _ h.py
    · rw [(hy r).1, (hy r).2, e]; rw [cut_all _ _ _ h.py]; omega
  · have hz := fun r => bounds_z h hn r
    refine ⟨fun e => ?_, fun e => ?_, fun e => ?_⟩
    · rw [(hz r').1, (hz r).1, (hz r).2, e]; omega
    · rw [(hz r).1, e]; exact cut_zero _ _ _ h.pz
    · rw [(hz r).1, (hz r).2, e]; rw [cut_all _ _ _ h.pz]; omega

/-- `procs_per_dim` has an entry for each dimension, the product of which is the number of ranks. -/
theorem C79_procs_partial {t : Topo} (h : t.Ok) : t.procsPerDim.length = t.nd ∧ t.procsPerDim.foldl (· * ·) 1 = t.size := by
  unfold Topo.procsPerDim Topo.size
  rcases attr_nd_cases h with e | e | e
  · rw [e]; simp [h.y1 (by omega), h.z1 (by omega)]
  · rw [e]; simp [h.z1 (by omega)]
  · rw [e]; simp

/-- In three dimensions `coordinates` are those of the rank in the grid of processes: different for different ranks, each less than the number of processes in its dimension. -/
theorem C79_coordinates_partial {t : Topo} (h : t.Ok) (hn : t.nd = 3) (fresh : Nat → Int) :
    (∀ r, (t.coordinates r fresh).2 = false ∧ (t.coordinates r fresh).1 = t.cart r) ∧
    (∀ r < t.size, (t.coordinates r fresh).1.length = t.procsPerDim.length ∧ ∀ (i : Nat) (c : Int) (p : Nat), (t.coordinates r fresh).1[i]? = some c → t.procsPerDim[i]? = some p → 0 ≤ c ∧ c < p) ∧
    (∀ r r', (t.coordinates r fresh).1 = (t.coordinates r' fresh).1 → r = r') := by
  have e : ∀ r, (t.coordinates r fresh).2 = false ∧ (t.coordinates r fresh).1 = t.cart r := by
    intro r
    unfold Topo.coordinates Topo.getCoords Topo.cart
    simp [hn, List.range, List.range.loop]
  refine ⟨e, fun r hr => ?_, fun r r' he => ?_⟩
  · obtain ⟨h1, h2, h3⟩ := coords_lt h hr
    rw [(e r).2]
    unfold Topo.cart Topo.procsPerDim
    rw [hn]
    refine ⟨rfl, fun i c p hc hp => ?_⟩
    match i with
    | 0 => simp at hc hp; omega
    | 1 => simp at hc hp; omega
    | 2 => simp at hc hp; omega
    | i + 3 => simp at hc
  · rw [(e r).2, (e r').2] at he
    unfold Topo.cart at he
    rw [hn] at he
    simp at he
    rw [← rankOf_coords (t := t) r, ← rankOf_coords (t := t) r']
    unfold Topo.rankOf
    rw [Int.ofNat.inj he.1, Int.ofNat.inj he.2.1, Int.ofNat.inj he.2.2]

/-- In one and two dimensions `coordinates` is always a tuple of three values (spacemodule.cpp:2669-2684: the size of the vector is 0), of which the last is whatever is in memory behind the vector, for each
rank and topology. -/
theorem C79_violation_coordinates {t : Topo} (h : t.Ok) (hn : t.nd ≠ 3) (r : Nat) :
    (∀ fresh, (t.coordinates r fresh).2 = true ∧ (t.coordinates r fresh).1.length = 3 ∧ (t.coordinates r fresh).1.length ≠ t.procsPerDim.length ∧ (t.coordinates r fresh).1 ≠ t.cart r) ∧
    ∀ z, ∃ fresh, (t.coordinates r fresh).1[2]? = some z := by
  have hl : t.procsPerDim.length = t.nd := (C79_procs_partial h).1
  have hc : (t.cart r).length = t.nd := by
    unfold Topo.cart
    rcases attr_nd_cases h with e | e | e <;> rw [e] <;> rfl
  have h3 : ∀ fresh, (t.coordinates r fresh).1.length = 3 ∧ (t.coordinates r fresh).2 = true := by
    intro fresh
    unfold Topo.coordinates Topo.getCoords
    rcases attr_nd_cases h with e | e | e
    · rw [e]; simp
    · rw [e]; simp
    · exact absurd e hn
  refine ⟨fun fresh => ⟨(h3 fresh).2, (h3 fresh).1, by rw [(h3 fresh).1, hl]; exact fun e => hn e.symm, fun e => ?_⟩, fun z => ⟨fun _ => z, ?_⟩⟩
  · have := congrArg List.length e
    rw [(h3 fresh).1, hc] at this
    exact hn this.symm
  · have : (t.cart r)[2]? = none := by
      rw [List.getElem?_eq_none_iff, hc]
      rcases attr_nd_cases h with e | e | e
      · omega
      · omega
      · exact absurd e hn
    unfold Topo.coordinates Topo.getCoords
    have hpos : 0 < t.nd := by rcases attr_nd_cases h with e | e | e <;> omega
    simp [hpos, List.range, List.range.loop, this]

/-! ### Examples -/

example : exTopo.nd ≠ 3 ∧ exTopo.procsPerDim = [3, 2] ∧ exTopo.cart 3 = [1, 1] ∧ (exTopo.coordinates 3 (fun _ => 77)).1 = [1, 1, 77] := by decide

def grid3' : Topo := { nd := 3, px := 2, py := 3, pz := 2, periodic := true, box := ⟨0, 8, 0, 8, 0, 8⟩ }

example : grid3'.Ok := ⟨⟨by decide, by decide, by decide, by decide⟩, rfl, by decide, by decide, by decide, by decide, by decide⟩

example : grid3'.nd = 3 ∧ grid3'.size = 12 ∧ (grid3'.coordinates 7 (fun _ => 77)).1 = [1, 0, 1] ∧ grid3'.procsPerDim = [2, 3, 2] := by decide

end Repast.Topology
