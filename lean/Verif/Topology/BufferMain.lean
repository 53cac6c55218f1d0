import Verif.Topology.BufferProps
import Verif.Topology.OOB

namespace Repast.Topology
open Repast.Space

/-! ### The neighbours that are a given rank -/

theorem withSeen_filter {β : Type} {f g : Ngh → β} (F G : Nat → β) (k : Nat) (ns : List Ngh) (hf : ∀ n ∈ ns, f n = F n.rank) (hg : ∀ n ∈ ns, g n = G n.rank)
    (seen : List Nat) : (withSeen f g seen ns).filter (fun e => e.1 = k) =
    if k ∈ seen then List.replicate ((ns.map (·.rank)).count k) (k, G k)
    else match (ns.map (·.rank)).count k with
      | 0 => []
      | m + 1 => (k, F k) :: List.replicate m (k, G k) := by
  induction ns generalizing seen with
  | nil => simp [withSeen]
  | cons n ns ih =>
    have ih := ih (fun m hm => hf m (List.mem_cons_of_mem _ hm)) (fun m hm => hg m (List.mem_cons_of_mem _ hm)) (n.rank :: seen)
    simp only [withSeen, List.filter_cons, List.map_cons, List.count_cons, ih]
    by_cases hk : n.rank = k
    · subst hk
      simp only [decide_true, if_true, List.mem_cons, true_or, beq_self_eq_true]
      rw [hf n (by simp), hg n (by simp)]
      split
      · rw [List.replicate_succ]
      · rfl
    · have hk' : k ≠ n.rank := fun h => hk h.symm
      simp [hk, hk']

theorem nextOffsets_filter {β : Type} (F : Nat → List β) (ns : List Ngh) (seen : List Nat)
    (h : ∀ k, seen.count k + (ns.map (·.rank)).count k = (F k).length ∨ (ns.map (·.rank)).count k = 0) :
    ∃ l, nextOffsets F seen ns = some l ∧ ∀ k, l.filter (fun e => e.1 = k) =
      if (ns.map (·.rank)).count k = 0 then [] else ((F k).drop (seen.count k)).map (fun b => (k, b)) := by
  induction ns generalizing seen with
  | nil => exact ⟨[], rfl, by simp⟩
  | cons n ns ih =>
    have hn : seen.count n.rank + (ns.map (·.rank)).count n.rank + 1 = (F n.rank).length := by
      have := h n.rank
      simp only [List.map_cons, List.count_cons, beq_self_eq_true, if_true] at this
      omega
    obtain ⟨l, hl, hk⟩ := ih (n.rank :: seen) (by
      intro k
      have := h k
      simp only [List.map_cons, List.count_cons] at this ⊢
      by_cases e : n.rank = k
      · subst e
        simp only [beq_self_eq_true, if_true] at this ⊢
        left; omega
      · simp only [beq_iff_eq, e, if_false] at this ⊢
        omega)
    have hlt : seen.count n.rank < (F n.rank).length := by omega
    refine ⟨(n.rank, (F n.rank)[seen.count n.rank]) :: l, ?_, ?_⟩
    · simp only [nextOffsets, List.getElem?_eq_getElem hlt, hl]; rfl
    · intro k
      rw [List.filter_cons, hk k]
      simp only [List.map_cons, List.count_cons]
      by_cases e : n.rank = k
      · subst e
        simp only [decide_true, if_true, beq_self_eq_true]
        rw [if_neg (by omega : ¬ ((ns.map (·.rank)).count n.rank + 1 = 0)), List.drop_eq_getElem_cons hlt, List.map_cons]
        split
        · rename_i h0
          rw [List.drop_of_length_le (by omega)]; rfl
        · rfl
      · simp [e]

theorem countP_flatMap_ite {α : Type} (l : List Int) (P : Int → Bool) (m : Nat) (g : Int → List α) (R : α → Bool)
    (h : ∀ a ∈ l, (g a).countP R = if P a = true then m else 0) : (l.flatMap g).countP R = l.countP P * m := by
  induction l with
  | nil => simp
  | cons a l ih =>
    rw [List.flatMap_cons, List.countP_append, ih (fun a ha => h a (List.mem_cons_of_mem _ ha)), List.countP_cons, Nat.add_mul, h a (by simp)]
    split <;> omega

theorem coord_ext {c d : Coord} (h1 : c.x = d.x) (h2 : c.y = d.y) (h3 : c.z = d.z) : c = d := by
  cases c; cases d; simp_all

theorem at_rank_iff {t : Topo} (h : t.Ok) {c : Coord} {k : Nat} (dx dy dz : Int) :
    (t.at_ c dx dy dz).rank = k ↔ k < t.size ∧ wrapCoord t.px (c.x + dx) = (t.coords k).x ∧ wrapCoord t.py (c.y + dy) = (t.coords k).y ∧
      wrapCoord t.pz (c.z + dz) = (t.coords k).z := by
  have hc : t.coords (t.at_ c dx dy dz).rank = ⟨wrapCoord t.px (c.x + dx), wrapCoord t.py (c.y + dy), wrapCoord t.pz (c.z + dz)⟩ :=
    coords_rankOf (wrapCoord_lt h.py _) (wrapCoord_lt h.pz _)
  constructor
  · intro e
    rw [e] at hc
    rw [hc]
    exact ⟨by rw [← e]; exact rankOf_lt (wrapCoord_lt h.px _) (wrapCoord_lt h.py _) (wrapCoord_lt h.pz _), rfl, rfl, rfl⟩
  · rintro ⟨-, h1, h2, h3⟩
    rw [← rankOf_coords (t := t) k]
    show t.rankOf _ = _
    rw [h1, h2, h3]

theorem neighbors_coord {t : Topo} (h : t.Ok) {r : Nat} {n : Ngh} (hn : n ∈ t.neighbors r) : n.c = t.coords n.rank := by
  have hat : ∀ c dx dy dz, (t.at_ c dx dy dz).c = t.coords (t.at_ c dx dy dz).rank := fun c dx dy dz =>
    (coords_rankOf (wrapCoord_lt h.py _) (wrapCoord_lt h.pz _)).symm
  unfold Topo.neighbors at hn
  simp only [] at hn
  split at hn
  · obtain ⟨dx, -, rfl⟩ := List.mem_map.1 hn
    exact hat _ _ _ _
  · split at hn
    · simp only [List.mem_filter, List.mem_flatMap] at hn
      obtain ⟨⟨dx, -, dy, -, hm⟩, -⟩ := hn
      split at hm
      · cases hm
      · rw [List.mem_singleton.1 hm]; exact hat _ _ _ _
    · simp only [List.mem_flatMap] at hn
      obtain ⟨dx, -, dy, -, dz, -, hm⟩ := hn
      split at hm
      · cases hm
      · rw [List.mem_singleton.1 hm]; exact hat _ _ _ _

/-- Number of offsets reaching the process coordinate `c'`. -/
def reach (l : List Int) (p c c' : Nat) : Nat := l.countP (fun d => decide (wrapCoord p (c + d) = c'))

theorem count1 {t : Topo} (h : t.Ok) (hnd : t.nd = 1) {r k : Nat} (hr : r < t.size) (hk : k < t.size) (hne : k ≠ r) :
    ((t.neighbors r).map (·.rank)).count k = reach (offsets2 t.periodic t.px (t.coords r).x) t.px (t.coords r).x (t.coords k).x := by
  obtain ⟨lx, ly, lz⟩ := coords_lt h hr
  obtain ⟨kx, ky, kz⟩ := coords_lt h hk
  have hy1 := h.y1 (by omega)
  have hz1 := h.z1 (by omega)
  have hself : ¬ (t.coords k).x = (t.coords r).x := by
    intro e
    apply hne
    rw [← rankOf_coords (t := t) k, ← rankOf_coords (t := t) r]
    exact congrArg t.rankOf (coord_ext e (by omega) (by omega))
  have hoff : offsets1 t (t.coords r).x = (offsets2 t.periodic t.px (t.coords r).x).filter (fun d => d ≠ 0) := by
    unfold offsets1 offsets2 clipOffsets
    cases t.periodic with
    | true => simp
    | false =>
      simp only [Bool.false_eq_true, if_false, List.filter_filter]
      simp [List.filter_cons]
  unfold Topo.neighbors
  simp only [hnd, if_true, List.map_map]
  rw [List.count, List.countP_map, hoff, List.countP_filter]
  unfold reach
  apply List.countP_congr
  intro d hd
  simp only [Function.comp_apply, beq_iff_eq, Bool.and_eq_true, decide_eq_true_eq]
  rw [at_rank_iff h]
  constructor
  · rintro ⟨⟨-, h1, -, -⟩, -⟩; exact h1
  · intro h1
    have e1 := wrapCoord_lt h.py ((t.coords r).y + 0)
    have e2 := wrapCoord_lt h.pz ((t.coords r).z + 0)
    refine ⟨⟨hk, h1, by omega, by omega⟩, ?_⟩
    rintro rfl
    rw [Int.add_zero, wrapCoord_self lx] at h1
    exact hself h1.symm

theorem count2 {t : Topo} (h : t.Ok) (hnd : t.nd = 2) {r k : Nat} (hr : r < t.size) (hk : k < t.size) (hne : k ≠ r) :
    ((t.neighbors r).map (·.rank)).count k = reach (offsets2 t.periodic t.px (t.coords r).x) t.px (t.coords r).x (t.coords k).x *
      reach (offsets2 t.periodic t.py (t.coords r).y) t.py (t.coords r).y (t.coords k).y := by
  obtain ⟨lx, ly, lz⟩ := coords_lt h hr
  obtain ⟨kx, ky, kz⟩ := coords_lt h hk
  have hz1 := h.z1 (by omega)
  have hz : ∀ d, wrapCoord t.pz ((t.coords r).z + d) = (t.coords k).z := by
    intro d; have := wrapCoord_lt h.pz ((t.coords r).z + d); omega
  unfold Topo.neighbors
  simp only [hnd]
  rw [if_neg (by omega), if_pos trivial, List.count, List.countP_map, List.countP_filter]
  refine countP_flatMap_ite _ _ _ _ _ fun dx _ => ?_
  rw [countP_flatMap_ite _ (fun d => decide (wrapCoord t.py ((t.coords r).y + d) = (t.coords k).y)) (if wrapCoord t.px ((t.coords r).x + dx) = (t.coords k).x then 1 else 0)]
  · unfold reach
    split <;> simp_all
  · intro dy _
    by_cases h0 : dx = 0 ∧ dy = 0
    · rw [if_pos h0]
      obtain ⟨rfl, rfl⟩ := h0
      simp only [Int.add_zero, wrapCoord_self lx, wrapCoord_self ly, List.countP_nil]
      split
      · split
        · exfalso
          apply hne
          rw [← rankOf_coords (t := t) k, ← rankOf_coords (t := t) r]
          have := hz 0
          rw [Int.add_zero, wrapCoord_self lz] at this
          rename_i h1 h2
          exact congrArg t.rankOf (coord_ext h2.symm (by simpa using Eq.symm (of_decide_eq_true h1)) this.symm)
        · rfl
      · rfl
    · rw [if_neg h0, List.countP_cons, List.countP_nil]
      have : ((((fun x => x == k) ∘ fun x => x.rank) (t.at_ (t.coords r) dx dy 0) && decide ((t.at_ (t.coords r) dx dy 0).rank ≠ r)) = true) ↔
          (wrapCoord t.px ((t.coords r).x + dx) = (t.coords k).x ∧ wrapCoord t.py ((t.coords r).y + dy) = (t.coords k).y) := by
        simp only [Function.comp_apply, beq_iff_eq, Bool.and_eq_true, decide_eq_true_eq]
        constructor
        · rintro ⟨h1, -⟩
          have := (at_rank_iff h dx dy 0).1 h1
          exact ⟨this.2.1, this.2.2.1⟩
        · rintro ⟨h1, h2⟩
          have := (at_rank_iff h (c := t.coords r) dx dy 0).2 ⟨hk, h1, h2, hz 0⟩
          exact ⟨this, by rw [this]; exact hne⟩
      simp only [this]
      by_cases h1 : wrapCoord t.px ((t.coords r).x + dx) = (t.coords k).x <;> by_cases h2 : wrapCoord t.py ((t.coords r).y + dy) = (t.coords k).y <;> simp [h1, h2]

theorem count3 {t : Topo} (h : t.Ok) (hnd : t.nd = 3) {r k : Nat} (hr : r < t.size) (hk : k < t.size) (hne : k ≠ r) :
    ((t.neighbors r).map (·.rank)).count k = reach (offsets3 t.periodic t.px (t.coords r).x) t.px (t.coords r).x (t.coords k).x *
      (reach (offsets3 t.periodic t.py (t.coords r).y) t.py (t.coords r).y (t.coords k).y *
      reach (offsets3 t.periodic t.pz (t.coords r).z) t.pz (t.coords r).z (t.coords k).z) := by
  obtain ⟨lx, ly, lz⟩ := coords_lt h hr
  obtain ⟨kx, ky, kz⟩ := coords_lt h hk
  unfold Topo.neighbors
  simp only [hnd]
  rw [if_neg (by omega), if_neg (by omega), List.count, List.countP_map]
  refine countP_flatMap_ite _ _ _ _ _ fun dx _ => ?_
  rw [countP_flatMap_ite _ (fun d => decide (wrapCoord t.py ((t.coords r).y + d) = (t.coords k).y)) (if wrapCoord t.px ((t.coords r).x + dx) = (t.coords k).x then reach (offsets3 t.periodic t.pz (t.coords r).z) t.pz (t.coords r).z (t.coords k).z else 0)]
  · conv => rhs; unfold reach
    conv => lhs; unfold reach
    split <;> simp_all
  · intro dy _
    rw [countP_flatMap_ite _ (fun d => decide (wrapCoord t.pz ((t.coords r).z + d) = (t.coords k).z)) (if wrapCoord t.px ((t.coords r).x + dx) = (t.coords k).x ∧ wrapCoord t.py ((t.coords r).y + dy) = (t.coords k).y then 1 else 0)]
    · unfold reach
      by_cases h1 : wrapCoord t.px ((t.coords r).x + dx) = (t.coords k).x <;> by_cases h2 : wrapCoord t.py ((t.coords r).y + dy) = (t.coords k).y <;> simp [h1, h2]
    · intro dz _
      by_cases h0 : dx = 0 ∧ dy = 0 ∧ dz = 0
      · rw [if_pos h0]
        obtain ⟨rfl, rfl, rfl⟩ := h0
        simp only [Int.add_zero, wrapCoord_self lx, wrapCoord_self ly, wrapCoord_self lz, List.countP_nil]
        split
        · split
          · exfalso
            apply hne
            rw [← rankOf_coords (t := t) k, ← rankOf_coords (t := t) r]
            rename_i h1 h2
            exact congrArg t.rankOf (coord_ext h2.1.symm h2.2.symm (by simpa using Eq.symm (of_decide_eq_true h1)))
          · rfl
        · rfl
      · rw [if_neg h0, List.countP_cons, List.countP_nil]
        have : ((((fun x => x == k) ∘ fun x => x.rank) (t.at_ (t.coords r) dx dy dz)) = true) ↔
            (wrapCoord t.px ((t.coords r).x + dx) = (t.coords k).x ∧ wrapCoord t.py ((t.coords r).y + dy) = (t.coords k).y ∧ wrapCoord t.pz ((t.coords r).z + dz) = (t.coords k).z) := by
          simp only [Function.comp_apply, beq_iff_eq]
          rw [at_rank_iff h]
          exact ⟨fun h => h.2, fun h => ⟨hk, h⟩⟩
        simp only [this]
        by_cases h1 : wrapCoord t.px ((t.coords r).x + dx) = (t.coords k).x <;> by_cases h2 : wrapCoord t.py ((t.coords r).y + dy) = (t.coords k).y <;>
          by_cases h3 : wrapCoord t.pz ((t.coords r).z + dz) = (t.coords k).z <;> simp [h1, h2, h3]

/-! ### The bounds, dimension by dimension -/

theorem bounds_x {t : Topo} (h : t.Ok) (r : Nat) : (t.bounds r).xmin = cut t.box.xmin t.box.xext t.px (t.coords r).x ∧
    (t.bounds r).xext = cut t.box.xmin t.box.xext t.px ((t.coords r).x + 1) - cut t.box.xmin t.box.xext t.px (t.coords r).x := by
  unfold Topo.bounds
  simp only [dimBounds_eq (Int.le_of_lt h.box.x) h.px]
  exact ⟨trivial, trivial⟩

theorem bounds_y {t : Topo} (h : t.Ok) (hnd : 1 < t.nd) (r : Nat) : (t.bounds r).ymin = cut t.box.ymin t.box.yext t.py (t.coords r).y ∧
    (t.bounds r).yext = cut t.box.ymin t.box.yext t.py ((t.coords r).y + 1) - cut t.box.ymin t.box.yext t.py (t.coords r).y := by
  unfold Topo.bounds
  simp only [dimBounds_eq h.box.y h.py, hnd, if_true]
  exact ⟨trivial, trivial⟩

theorem bounds_z {t : Topo} (h : t.Ok) (hnd : t.nd = 3) (r : Nat) : (t.bounds r).zmin = cut t.box.zmin t.box.zext t.pz (t.coords r).z ∧
    (t.bounds r).zext = cut t.box.zmin t.box.zext t.pz ((t.coords r).z + 1) - cut t.box.zmin t.box.zext t.pz (t.coords r).z := by
  unfold Topo.bounds
  simp only [dimBounds_eq h.box.z h.pz, hnd, if_true]
  exact ⟨trivial, trivial⟩

/-! ### Which ranges contain a point -/

/-- The point is in the ranges, in the dimensions of the space. -/
def Hits (nd : Nat) (p : Pt) (g : Rng) : Prop :=
  (g.x0 ≤ p.x ∧ p.x < g.x1) ∧ (1 < nd → g.y0 ≤ p.y ∧ p.y < g.y1) ∧ (nd = 3 → g.z0 ≤ p.z ∧ p.z < g.z1)

instance (nd : Nat) (p : Pt) (g : Rng) : Decidable (Hits nd p g) := by unfold Hits; infer_instance

theorem hits_iff {t : Topo} (h : t.Ok) (r buf : Nat) (p : Pt) (ox oy oz : Int) : Hits t.nd p (bufferBounds t.nd (t.bounds r) buf ox oy oz) ↔
    InSide (cut t.box.xmin t.box.xext t.px (t.coords r).x) (cut t.box.xmin t.box.xext t.px ((t.coords r).x + 1)) buf ox p.x ∧
    (1 < t.nd → InSide (cut t.box.ymin t.box.yext t.py (t.coords r).y) (cut t.box.ymin t.box.yext t.py ((t.coords r).y + 1)) buf oy p.y) ∧
    (t.nd = 3 → InSide (cut t.box.zmin t.box.zext t.pz (t.coords r).z) (cut t.box.zmin t.box.zext t.pz ((t.coords r).z + 1)) buf oz p.z) := by
  obtain ⟨x1, x2⟩ := bounds_x h r
  have ex : (t.bounds r).xmax = cut t.box.xmin t.box.xext t.px ((t.coords r).x + 1) := by unfold Box.xmax; omega
  unfold Hits bufferBounds InSide
  simp only [x1, ex]
  refine and_congr Iff.rfl (and_congr ?_ ?_)
  · constructor
    · intro hh hnd
      obtain ⟨y1, y2⟩ := bounds_y h hnd r
      have ey : (t.bounds r).ymax = cut t.box.ymin t.box.yext t.py ((t.coords r).y + 1) := by unfold Box.ymax; omega
      have := hh hnd
      rw [if_pos hnd, y1, ey] at this
      exact this
    · intro hh hnd
      obtain ⟨y1, y2⟩ := bounds_y h hnd r
      have ey : (t.bounds r).ymax = cut t.box.ymin t.box.yext t.py ((t.coords r).y + 1) := by unfold Box.ymax; omega
      rw [if_pos hnd, y1, ey]
      exact hh hnd
  · constructor
    · intro hh hnd
      obtain ⟨y1, y2⟩ := bounds_z h hnd r
      have ey : (t.bounds r).zmax = cut t.box.zmin t.box.zext t.pz ((t.coords r).z + 1) := by unfold Box.zmax; omega
      have := hh hnd
      rw [if_pos hnd, y1, ey] at this
      exact this
    · intro hh hnd
      obtain ⟨y1, y2⟩ := bounds_z h hnd r
      have ey : (t.bounds r).zmax = cut t.box.zmin t.box.zext t.pz ((t.coords r).z + 1) := by unfold Box.zmax; omega
      rw [if_pos hnd, y1, ey]
      exact hh hnd

theorem sub_eq {t : Topo} (h : t.Ok) {r : Nat} {n : Ngh} (hn : n ∈ t.neighbors r) : n.c.sub (t.coords r) = (t.coords n.rank).sub (t.coords r) := by
  rw [neighbors_coord h hn]

instance (lo hi buf o v : Int) : Decidable (InSide lo hi buf o v) := by unfold InSide; infer_instance

theorem fixed_cover {periodic : Bool} {px py nx ny : Nat} {Sx Sy : Int → Prop} [DecidablePred Sx] [DecidablePred Sy] {nearx neary samex samey : Prop} {ox oy : Int}
    (hx : DimCase periodic px Sx nearx ox samex nx) (hy : DimCase periodic py Sy neary oy samey ny) (hs : ¬ (samex ∧ samey)) :
    (nx * ny = 0 ∧ ¬ (nearx ∧ neary)) ∨
    (fixedOffsets (px = 2) (py = 2) (nx * ny) ox oy).length = nx * ny ∧
    (nearx ∧ neary → (fixedOffsets (px = 2) (py = 2) (nx * ny) ox oy).countP (fun o => Sx o.1 ∧ Sy o.2) = 1) ∧
    (¬ (nearx ∧ neary) → (fixedOffsets (px = 2) (py = 2) (nx * ny) ox oy).countP (fun o => Sx o.1 ∧ Sy o.2) = 0) := by
  cases hx with
  | far hn => left; simp [hn]
  | here hx0 hxn hxs hxsame =>
    cases hy with
    | far hn => left; simp [hn]
    | here _ _ _ hysame => exact absurd ⟨hxsame, hysame⟩ hs
    | side h0 h2 hn => right; subst hx0; simp [fixedOffsets, hxs, hxn, hn]
    | both h0 hp h2 hn hx =>
      right; subst hx0
      have : oy ≠ 0 := by omega
      simp [fixedOffsets, hxs, hxn, hn, h2, this]
      grind
  | side hx0 hx2 hxn =>
    cases hy with
    | far hn => left; simp [hn]
    | here hy0 hyn hys hysame => right; subst hy0; simp [fixedOffsets, hyn, hys, hxn]
    | side h0 h2 hn => right; simp [fixedOffsets, hxn, hn]
    | both h0 hp h2 hn hx =>
      right
      have : oy ≠ 0 := by omega
      simp [fixedOffsets, hxn, hn, h2, this, hx2 hp]
      grind
  | both hx0 hxp hx2 hxn hxx =>
    have : ox ≠ 0 := by omega
    cases hy with
    | far hn => left; simp [hn]
    | here hy0 hyn hys hysame => right; subst hy0; simp [fixedOffsets, hyn, hys, hxn, hx2, this]; grind
    | side h0 h2 hn => right; simp [fixedOffsets, hxn, hn, hx2, this]; grind
    | both h0 hp h2 hn hx =>
      right
      simp [fixedOffsets, hxn, hn, hx2, h2]
      grind

/-- The buffers of a neighbour in three dimensions: the first with the differences, the others turned around. -/
def seen3 (px py pz : Nat) (ox oy oz : Int) : Nat → List (Int × Int × Int)
  | 0 => []
  | m + 1 => (ox, oy, oz) :: List.replicate m (flip3 (px = 2) ox, flip3 (py = 2) oy, flip3 (pz = 2) oz)

theorem seen_cover {periodic : Bool} {px py pz nx ny nz : Nat} {Sx Sy Sz : Int → Prop} [DecidablePred Sx] [DecidablePred Sy] [DecidablePred Sz]
    {nearx neary nearz samex samey samez : Prop} {ox oy oz : Int}
    (hx : DimCase periodic px Sx nearx ox samex nx) (hy : DimCase periodic py Sy neary oy samey ny) (hz : DimCase periodic pz Sz nearz oz samez nz)
    (hg : periodic = true → ¬ (px = 2 ∧ py = 2) ∧ ¬ (px = 2 ∧ pz = 2) ∧ ¬ (py = 2 ∧ pz = 2)) :
    (nearx ∧ neary ∧ nearz → (seen3 px py pz ox oy oz (nx * (ny * nz))).countP (fun o => Sx o.1 ∧ Sy o.2.1 ∧ Sz o.2.2) = 1) ∧
    (¬ (nearx ∧ neary ∧ nearz) → (seen3 px py pz ox oy oz (nx * (ny * nz))).countP (fun o => Sx o.1 ∧ Sy o.2.1 ∧ Sz o.2.2) = 0) := by
  -- at most one dimension has two offsets
  have one : ∀ {p : Nat} {S : Int → Prop} {near same : Prop} {raw : Int} {n : Nat}, DimCase periodic p S near raw same n → n ≠ 0 → n ≠ 2 → n = 1 ∧ (near ↔ S raw) ∧ (periodic = true → flip3 (p = 2) raw = raw) := by
    intro p S near same raw n h h0 h2
    cases h with
    | far => exact absurd rfl h0
    | here h hn hs _ => subst h; exact ⟨rfl, by simp [hn, hs], fun _ => by simp [flip3]⟩
    | side h h3 hn => exact ⟨rfl, hn, fun hp => by simp [flip3, h3 hp]⟩
    | both => exact absurd rfl h2
  have two : ∀ {p : Nat} {S : Int → Prop} {near same : Prop} {raw : Int}, DimCase periodic p S near raw same 2 → periodic = true ∧ p = 2 ∧ flip3 (p = 2) raw = -raw ∧
      (near ↔ S raw ∨ S (-raw)) ∧ ¬ (S raw ∧ S (-raw)) := by
    intro p S near same raw h
    cases h with
    | both h hp h2 hn hx =>
      refine ⟨hp, h2, ?_, ?_, ?_⟩
      · rcases h with rfl | rfl <;> simp [flip3, h2]
      · rcases h with rfl | rfl
        · exact hn
        · rw [hn]; simp only [Int.neg_neg]; exact Or.comm
      · rcases h with rfl | rfl
        · exact hx
        · simp only [Int.neg_neg]; exact fun h => hx h.symm
  have zero : ∀ {p : Nat} {S : Int → Prop} {near same : Prop} {raw : Int}, DimCase periodic p S near raw same 0 → ¬ near := by
    intro p S near same raw h
    cases h with
    | far h => exact h
  by_cases x0 : nx = 0
  · subst x0; have := zero hx; simp [this, seen3]
  by_cases y0 : ny = 0
  · subst y0; have := zero hy; simp [this, seen3]
  by_cases z0 : nz = 0
  · subst z0; have := zero hz; simp [this, seen3]
  by_cases x2 : nx = 2
  · subst x2
    obtain ⟨hp, e, fx, n, d⟩ := two hx
    obtain ⟨rfl, n1, f1⟩ := one hy y0 (by rintro rfl; exact (hg hp).1 ⟨e, (two hy).2.1⟩)
    obtain ⟨rfl, n2, f2⟩ := one hz z0 (by rintro rfl; exact (hg hp).2.1 ⟨e, (two hz).2.1⟩)
    rw [n, n1, n2]
    simp only [seen3, List.replicate_succ, List.replicate_zero, List.countP_cons, List.countP_nil, fx, f1 hp, f2 hp, decide_eq_true_eq]
    grind
  by_cases y2 : ny = 2
  · subst y2
    obtain ⟨hp, e, fx, n, d⟩ := two hy
    obtain ⟨rfl, n1, f1⟩ := one hx x0 x2
    obtain ⟨rfl, n2, f2⟩ := one hz z0 (by rintro rfl; exact (hg hp).2.2 ⟨e, (two hz).2.1⟩)
    rw [n, n1, n2]
    simp only [seen3, List.replicate_succ, List.replicate_zero, List.countP_cons, List.countP_nil, fx, f1 hp, f2 hp, decide_eq_true_eq]
    grind
  by_cases z2 : nz = 2
  · subst z2
    obtain ⟨hp, e, fx, n, d⟩ := two hz
    obtain ⟨rfl, n1, f1⟩ := one hx x0 x2
    obtain ⟨rfl, n2, f2⟩ := one hy y0 y2
    rw [n, n1, n2]
    simp only [seen3, List.replicate_succ, List.replicate_zero, List.countP_cons, List.countP_nil, fx, f1 hp, f2 hp, decide_eq_true_eq]
    grind
  obtain ⟨rfl, n1, -⟩ := one hx x0 x2
  obtain ⟨rfl, n2, -⟩ := one hy y0 y2
  obtain ⟨rfl, n3, -⟩ := one hz z0 z2
  rw [n1, n2, n3]
  simp only [seen3, List.replicate_zero, List.countP_cons, List.countP_nil, decide_eq_true_eq]
  grind

/-- How often the buffers for rank `k` cover the point `p` of rank `r`: once if `p` is near `k`, else not at all. -/
theorem buffers_cover {t : Topo} (h : t.Ok) (hf : t.Fits) (hg : GoodGrid t) {buf : Nat} (hb : BufFits t buf) {r k : Nat} (hr : r < t.size) (hk : k < t.size)
    (hne : k ≠ r) {p : Pt} (hp : (t.bounds r).contains p = true) :
    ∃ bs, t.buffers r buf = some bs ∧ (Near t buf k p → (bs.filter (fun b => b.1 = k)).countP (fun b => Hits t.nd p b.2) = 1) ∧
      (¬ Near t buf k p → (bs.filter (fun b => b.1 = k)).countP (fun b => Hits t.nd p b.2) = 0) := by
  obtain ⟨ix, iy, iz⟩ := (bounds_contains h hf r p).1 hp
  obtain ⟨lx, ly, lz⟩ := coords_lt h hr
  obtain ⟨kx, ky, kz⟩ := coords_lt h hk
  have hsame : ¬ ((t.coords k).x = (t.coords r).x ∧ (t.coords k).y = (t.coords r).y ∧ (t.coords k).z = (t.coords r).z) := by
    rintro ⟨e1, e2, e3⟩
    apply hne
    rw [← rankOf_coords (t := t) k, ← rankOf_coords (t := t) r]
    exact congrArg t.rankOf (coord_ext e1 e2 e3)
  have hnd := h.nd
  obtain ⟨x1, x2⟩ := bounds_x h k
  unfold Topo.buffers
  simp only []
  have F1 : ∀ n ∈ t.neighbors r, n.c.sub (t.coords r) = (t.coords n.rank).sub (t.coords r) := fun n hn => sub_eq h hn
  rcases numDims_cases h.box with ⟨hn, hy, hz⟩ | ⟨hn, hy, hz⟩ | ⟨hn, hy, hz⟩
  · -- one dimension
    have hnd1 : t.nd = 1 := by omega
    have hy1 := h.y1 (by omega)
    have hz1 := h.z1 (by omega)
    have hx' : ¬ (t.coords k).x = (t.coords r).x := fun e => hsame ⟨e, by omega, by omega⟩
    rw [if_pos hnd1]
    refine ⟨_, rfl, ?_⟩
    rw [List.filter_map, List.countP_map]
    have hc := count1 h hnd1 hr hk hne
    have hd := dimCase (gmin := t.box.xmin) (v := p.x) h.px h.box.x hb.1 lx kx ix (.inl ⟨rfl, fun hper => (hg hper).1 hnd1⟩)
    have hnear : Near t buf k p ↔ Near1 t.periodic t.box.xext buf (cut t.box.xmin t.box.xext t.px (t.coords k).x) (cut t.box.xmin t.box.xext t.px ((t.coords k).x + 1) - cut t.box.xmin t.box.xext t.px (t.coords k).x) p.x := by
      unfold Near
      rw [x1, x2, hy, hz]
      simp
    have hfil := withSeen_filter (fun n => (((t.coords n).sub (t.coords r))).1) (fun n => flip1 (((t.coords n).sub (t.coords r))).1) k (t.neighbors r)
      (f := fun n => (n.c.sub (t.coords r)).1) (g := fun n => flip1 (n.c.sub (t.coords r)).1) (fun n hn => by rw [F1 n hn]) (fun n hn => by rw [F1 n hn]) []
    simp only [Function.comp_def]
    rw [hfil, hc]
    rw [← reach] at hd
    generalize reach (offsets2 t.periodic t.px (t.coords r).x) t.px (t.coords r).x (t.coords k).x = N at *
    have hh : ∀ o : Int, Hits t.nd p (bufferBounds t.nd (t.bounds r) buf o 0 0) ↔ InSide (cut t.box.xmin t.box.xext t.px (t.coords r).x) (cut t.box.xmin t.box.xext t.px ((t.coords r).x + 1)) buf o p.x := by
      intro o
      rw [hits_iff h, hnd1]
      simp
    simp only [List.not_mem_nil, if_false]
    rw [← hnear] at hd
    cases hd with
    | far hn => simp [hn]
    | here _ _ _ hs => exact absurd hs hx'
    | side h0 h2 hn =>
      simp only [List.replicate_zero, List.countP_cons, List.countP_nil, Coord.sub, decide_eq_true_eq, hh]
      simp only [hn, Nat.zero_add]
      grind
    | both h0 h1 h2 hn hx =>
      simp only [List.replicate_succ, List.replicate_zero, List.countP_cons, List.countP_nil, Coord.sub, decide_eq_true_eq, hh]
      simp only [hn, Nat.zero_add, flip1]
      rcases h0 with h0 | h0
      · rw [h0]
        grind
      · rw [h0]
        grind
  · -- two dimensions
    have hnd2 : t.nd = 2 := by omega
    have hz1 := h.z1 (by omega)
    rw [if_neg (by omega), if_pos hnd2]
    have hh : ∀ o : Int × Int, Hits t.nd p (bufferBounds t.nd (t.bounds r) buf o.1 o.2 0) ↔
        InSide (cut t.box.xmin t.box.xext t.px (t.coords r).x) (cut t.box.xmin t.box.xext t.px ((t.coords r).x + 1)) buf o.1 p.x ∧
        InSide (cut t.box.ymin t.box.yext t.py (t.coords r).y) (cut t.box.ymin t.box.yext t.py ((t.coords r).y + 1)) buf o.2 p.y := by
      intro o
      rw [hits_iff h, hnd2]
      simp
    have key : ∀ k, k < t.size → k ≠ r → _ := fun k hk hne =>
      fixed_cover
        (dimCase (gmin := t.box.xmin) (v := p.x) h.px h.box.x hb.1 lx (coords_lt h hk).1 ix (.inl ⟨rfl, fun hper => ((hg hper).2.1 hnd2).1⟩))
        (dimCase (gmin := t.box.ymin) (v := p.y) h.py hy (hb.2.1 hy) ly (coords_lt h hk).2.1 (iy hy) (.inl ⟨rfl, fun hper => ((hg hper).2.1 hnd2).2⟩))
        (by
          rintro ⟨e1, e2⟩
          apply hne
          rw [← rankOf_coords (t := t) k, ← rankOf_coords (t := t) r]
          have := (coords_lt h hk).2.2
          exact congrArg t.rankOf (coord_ext e1 e2 (by omega)))
    have hF : ∀ k, ((t.neighbors r).map (·.rank)).count k ≠ 0 →
        fixedFor t (t.coords r) (t.neighbors r) k =
        fixedOffsets (t.px = 2) (t.py = 2) (((t.neighbors r).map (·.rank)).count k) (((t.coords k).x : Int) - (t.coords r).x) (((t.coords k).y : Int) - (t.coords r).y) ∧
        k < t.size ∧ k ≠ r := by
      intro k hk0
      have hm : k ∈ (t.neighbors r).map (·.rank) := List.count_pos_iff.1 (by omega)
      obtain ⟨n, hn, rfl⟩ := List.mem_map.1 hm
      refine ⟨?_, neighbors_lt h hn, ?_⟩
      · cases hfind : (t.neighbors r).find? (fun m => decide (m.rank = n.rank)) with
        | none =>
          have := List.find?_eq_none.1 hfind n hn
          simp at this
        | some m =>
          have hm := List.mem_of_find?_eq_some hfind
          have he := List.find?_some hfind
          simp only [decide_eq_true_eq] at he
          have e2 := F1 m hm
          rw [he] at e2
          unfold fixedFor
          rw [hfind]
          simp only [e2]
          rfl
      · intro e
        unfold Topo.neighbors at hn
        simp only [] at hn
        rw [if_neg (by omega), if_pos hnd2] at hn
        have := (List.mem_filter.1 hn).2
        simp at this
        exact this e
    obtain ⟨l, hl, hlf⟩ := nextOffsets_filter (fixedFor t (t.coords r) (t.neighbors r))
        (t.neighbors r) [] (by
      intro k
      by_cases h0 : ((t.neighbors r).map (·.rank)).count k = 0
      · exact .inr h0
      · left
        obtain ⟨e, hk, hne⟩ := hF k h0
        simp only [e]
        rw [count2 h hnd2 hr hk hne] at h0 ⊢
        rcases key k hk hne with hh | hh
        · exact absurd hh.1 h0
        · simp only [List.count_nil, Nat.zero_add]
          exact hh.1.symm)
    rw [hl]
    refine ⟨_, rfl, ?_⟩
    rw [List.filter_map, List.countP_map]
    simp only [Function.comp_def]
    rw [hlf k]
    have hnear : Near t buf k p ↔ Near1 t.periodic t.box.xext buf (cut t.box.xmin t.box.xext t.px (t.coords k).x) (cut t.box.xmin t.box.xext t.px ((t.coords k).x + 1) - cut t.box.xmin t.box.xext t.px (t.coords k).x) p.x ∧
       Near1 t.periodic t.box.yext buf (cut t.box.ymin t.box.yext t.py (t.coords k).y) (cut t.box.ymin t.box.yext t.py ((t.coords k).y + 1) - cut t.box.ymin t.box.yext t.py (t.coords k).y) p.y := by
      obtain ⟨y1, y2⟩ := bounds_y h (by omega) k
      unfold Near
      rw [x1, x2, y1, y2, hz]
      simp [hy]
    simp only [hnear]
    split
    · rename_i h0
      rw [count2 h hnd2 hr hk hne] at h0
      rw [List.countP_nil]
      rcases key k hk hne with hh | hh
      · exact ⟨fun h => absurd h hh.2, fun _ => rfl⟩
      · unfold reach at h0
        have hh2 := hh.2
        rw [List.length_eq_zero_iff.1 (hh.1.trans h0)] at hh2
        exact hh2
    · rename_i h0
      obtain ⟨e, -, -⟩ := hF k h0
      simp only [List.count_nil, List.drop_zero, e]
      rw [List.countP_map]
      rw [List.countP_congr (q := fun o => decide (InSide (cut t.box.xmin t.box.xext t.px (t.coords r).x) (cut t.box.xmin t.box.xext t.px ((t.coords r).x + 1)) buf o.1 p.x ∧
        InSide (cut t.box.ymin t.box.yext t.py (t.coords r).y) (cut t.box.ymin t.box.yext t.py ((t.coords r).y + 1)) buf o.2 p.y))
        (by intro o _; simp only [Function.comp_apply, decide_eq_true_eq]; exact hh o)]
      rw [count2 h hnd2 hr hk hne] at h0 ⊢
      rcases key k hk hne with hh | hh
      · exact absurd hh.1 h0
      · exact hh.2
  · -- three dimensions
    have hnd3 : t.nd = 3 := by omega
    rw [if_neg (by omega), if_neg (by omega)]
    refine ⟨_, rfl, ?_⟩
    rw [List.filter_map, List.countP_map]
    have hfil := withSeen_filter (fun n => ((t.coords n).sub (t.coords r))) (fun n => (flip3 (t.px = 2) ((t.coords n).sub (t.coords r)).1,
        flip3 (t.py = 2) ((t.coords n).sub (t.coords r)).2.1, flip3 (t.pz = 2) ((t.coords n).sub (t.coords r)).2.2)) k (t.neighbors r)
      (f := fun n => n.c.sub (t.coords r)) (g := fun n => (flip3 (t.px = 2) (n.c.sub (t.coords r)).1, flip3 (t.py = 2) (n.c.sub (t.coords r)).2.1,
        flip3 (t.pz = 2) (n.c.sub (t.coords r)).2.2)) (fun n hn => F1 n hn) (fun n hn => by rw [F1 n hn]) []
    simp only [Function.comp_def]
    rw [hfil, count3 h hnd3 hr hk hne]
    simp only [List.not_mem_nil, if_false]
    have hnear : Near t buf k p ↔ Near1 t.periodic t.box.xext buf (cut t.box.xmin t.box.xext t.px (t.coords k).x) (cut t.box.xmin t.box.xext t.px ((t.coords k).x + 1) - cut t.box.xmin t.box.xext t.px (t.coords k).x) p.x ∧
       Near1 t.periodic t.box.yext buf (cut t.box.ymin t.box.yext t.py (t.coords k).y) (cut t.box.ymin t.box.yext t.py ((t.coords k).y + 1) - cut t.box.ymin t.box.yext t.py (t.coords k).y) p.y ∧
       Near1 t.periodic t.box.zext buf (cut t.box.zmin t.box.zext t.pz (t.coords k).z) (cut t.box.zmin t.box.zext t.pz ((t.coords k).z + 1) - cut t.box.zmin t.box.zext t.pz (t.coords k).z) p.z := by
      obtain ⟨y1, y2⟩ := bounds_y h (by omega) k
      obtain ⟨z1, z2⟩ := bounds_z h hnd3 k
      unfold Near
      rw [x1, x2, y1, y2, z1, z2]
      simp [hy, hz]
    have hh : ∀ o : Int × Int × Int, Hits t.nd p (bufferBounds t.nd (t.bounds r) buf o.1 o.2.1 o.2.2) ↔
        InSide (cut t.box.xmin t.box.xext t.px (t.coords r).x) (cut t.box.xmin t.box.xext t.px ((t.coords r).x + 1)) buf o.1 p.x ∧
        InSide (cut t.box.ymin t.box.yext t.py (t.coords r).y) (cut t.box.ymin t.box.yext t.py ((t.coords r).y + 1)) buf o.2.1 p.y ∧
        InSide (cut t.box.zmin t.box.zext t.pz (t.coords r).z) (cut t.box.zmin t.box.zext t.pz ((t.coords r).z + 1)) buf o.2.2 p.z := by
      intro o
      rw [hits_iff h, hnd3]
      simp
    have key := seen_cover
        (dimCase (gmin := t.box.xmin) (v := p.x) h.px h.box.x hb.1 lx kx ix (.inr rfl))
        (dimCase (gmin := t.box.ymin) (v := p.y) h.py hy (hb.2.1 hy) ly ky (iy hy) (.inr rfl))
        (dimCase (gmin := t.box.zmin) (v := p.z) h.pz hz (hb.2.2 hz) lz kz (iz hz) (.inr rfl))
        (fun hper => (hg hper).2.2 hnd3)
    rw [hnear]
    rw [← reach, ← reach, ← reach] at key
    generalize reach (offsets3 t.periodic t.px (t.coords r).x) t.px (t.coords r).x (t.coords k).x *
      (reach (offsets3 t.periodic t.py (t.coords r).y) t.py (t.coords r).y (t.coords k).y *
      reach (offsets3 t.periodic t.pz (t.coords r).z) t.pz (t.coords r).z (t.coords k).z) = N at key ⊢
    have e : ∀ N, (match N with
        | 0 => []
        | m + 1 => (k, (t.coords k).sub (t.coords r)) :: List.replicate m (k, (flip3 (t.px = 2) ((t.coords k).sub (t.coords r)).1,
          flip3 (t.py = 2) ((t.coords k).sub (t.coords r)).2.1, flip3 (t.pz = 2) ((t.coords k).sub (t.coords r)).2.2))) =
        (seen3 t.px t.py t.pz ((t.coords k).x - (t.coords r).x) ((t.coords k).y - (t.coords r).y) ((t.coords k).z - (t.coords r).z) N).map (fun o => (k, o)) := by
      intro N
      cases N with
      | zero => rfl
      | succ m => simp [seen3, Coord.sub]
    rw [e, List.countP_map]
    rw [List.countP_congr (q := fun o => decide (InSide (cut t.box.xmin t.box.xext t.px (t.coords r).x) (cut t.box.xmin t.box.xext t.px ((t.coords r).x + 1)) buf o.1 p.x ∧
        InSide (cut t.box.ymin t.box.yext t.py (t.coords r).y) (cut t.box.ymin t.box.yext t.py ((t.coords r).y + 1)) buf o.2.1 p.y ∧
        InSide (cut t.box.zmin t.box.zext t.pz (t.coords r).z) (cut t.box.zmin t.box.zext t.pz ((t.coords r).z + 1)) buf o.2.2 p.z))
        (by intro o _; simp only [Function.comp_apply, decide_eq_true_eq]; exact hh o)]
    exact key

end Repast.Topology
