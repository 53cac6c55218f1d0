import Verif.Context.CSpace
import Verif.Context.GridView
import Verif.Tree.Props

/-! One shared continuous space, on one rank: what each call does to the locations and to the out of bounds queue. -/
namespace Repast.Context
open Repast.Space Repast.Topology Repast.Tree

/-! ### Specification -/

/-- `v` is within `buf` of the range `[lo, lo + ext)`, around the edges of a global extent `gext` if periodic. -/
def CNear1 (periodic : Bool) (gext buf lo ext : Int) (v : Rat) : Prop :=
  ∃ j : Int, (periodic = false → j = 0) ∧ ((lo - buf : Int) : Rat) ≤ v + (j * gext : Int) ∧ v + (j * gext : Int) < (lo + ext + buf : Int)

/-- `p` is within `buf` of the local bounds of rank `k`. -/
def CNear (t : Topo) (buf k : Nat) (p : CPt) : Prop :=
  CNear1 t.periodic t.box.xext buf (t.bounds k).xmin (t.bounds k).xext p.x ∧
  (0 < t.box.yext → CNear1 t.periodic t.box.yext buf (t.bounds k).ymin (t.bounds k).yext p.y) ∧
  (0 < t.box.zext → CNear1 t.periodic t.box.zext buf (t.bounds k).zmin (t.bounds k).zext p.z)

/-- The rank whose local bounds contain a point. -/
def cowner (t : Topo) (q : CPt) : Nat := ((List.range t.size).find? (fun k => (t.bounds k).containsC q)).getD 0

/-- Where a move to the point leads. -/
def cdest (t : Topo) (pt : CPt) : CPt := if t.periodic then cperiodic t.box pt ⟨0, 0, 0⟩ else csticky t.box pt

/-- The coordinates of the dimensions that a box does not have are 0. -/
def CFlat (b : Box) (p : CPt) : Prop := (b.yext = 0 → p.y = 0) ∧ (b.zext = 0 → p.z = 0)

/-- The points that can be the location of an agent: those within the bounds, not closer than 10^-8 to the upper bounds if the borders are sticky. -/
def CValid (t : Topo) (q : CPt) : Prop := t.box.containsC q = true ∧ CFlat t.box q ∧ (t.periodic = false →
  q.x ≤ (t.box.xmax : Rat) - 1 / 100000000 ∧ (0 < t.box.yext → q.y ≤ (t.box.ymax : Rat) - 1 / 100000000) ∧ (0 < t.box.zext → q.z ≤ (t.box.zmax : Rat) - 1 / 100000000))

/-! ### Reduction to points with integer coordinates -/

/-- The point with the coordinates rounded down. -/
def _root_.Repast.Tree.CPt.down (p : CPt) : Pt := ⟨p.x.floor, p.y.floor, p.z.floor⟩

theorem containsC_down (b : Box) (p : CPt) : b.containsC p = b.contains p.down := by
  unfold Box.containsC Box.contains CPt.down
  have h : ∀ (lo hi : Int) (v : Rat), (decide ((lo : Rat) ≤ v) && decide (v < (hi : Rat))) = (decide (lo ≤ v.floor) && decide (v.floor < hi)) := by
    intro lo hi v
    rw [decide_eq_decide.2 (Rat.le_floor_iff (x := lo) (a := v)), decide_eq_decide.2 (Rat.floor_lt_iff (x := hi) (a := v))]
  simp only [h]
  rfl

theorem cnear1_down {periodic : Bool} {gext buf lo ext : Int} {v : Rat} : CNear1 periodic gext buf lo ext v ↔ Near1 periodic gext buf lo ext v.floor := by
  unfold CNear1 Near1
  constructor
  · rintro ⟨j, h1, h2, h3⟩
    rw [← Rat.le_floor_iff, Rat.floor_add_intCast] at h2
    rw [← Rat.floor_lt_iff, Rat.floor_add_intCast] at h3
    exact ⟨j, h1, h2, h3⟩
  · rintro ⟨j, h1, h2, h3⟩
    refine ⟨j, h1, ?_, ?_⟩
    · rw [← Rat.le_floor_iff, Rat.floor_add_intCast]; exact h2
    · rw [← Rat.floor_lt_iff, Rat.floor_add_intCast]; exact h3

theorem cnear_down {t : Topo} {buf k : Nat} {p : CPt} : CNear t buf k p ↔ Near t buf k p.down := by
  unfold CNear Near CPt.down
  simp only [cnear1_down]

theorem cowner_down (t : Topo) (q : CPt) : cowner t q = owner t q.down := by
  unfold cowner owner
  simp only [containsC_down]

/-! ### Borders -/

theorem cperiodic1_inside {lo ext : Int} (h : 0 < ext) {v : Rat} (h1 : (lo : Rat) ≤ v) (h2 : v < ((lo + ext : Int) : Rat)) : cperiodic1 lo (lo + ext) ext v = v := by
  obtain ⟨a, b, k, e⟩ := cperiodic1_spec (lo := lo) h v
  have hx : (0 : Rat) < (ext : Rat) := Rat.intCast_pos.2 h
  have hk : k = 0 := by
    rw [e] at a b
    rw [Rat.intCast_add] at b h2
    have h3 : (k : Rat) * ext < 1 * ext := by grind
    have h4 : (-1 : Rat) * ext < k * ext := by grind
    have h5 := Rat.lt_of_mul_lt_mul_right h3 (Rat.le_of_lt hx)
    have h6 := Rat.lt_of_mul_lt_mul_right h4 (Rat.le_of_lt hx)
    have h7 : k < 1 := Rat.intCast_lt_intCast.1 (by simpa using h5)
    have h8 : -1 < k := Rat.intCast_lt_intCast.1 (by simpa using h6)
    omega
  rw [e, hk]
  grind

theorem cperiodic_flat {b : Box} (hb : b.Ok) (p w : CPt) (hw : CFlat b w) : cperiodic b p w = cperiodic b p ⟨0, 0, 0⟩ ∧ CFlat b (cperiodic b p ⟨0, 0, 0⟩) := by
  obtain ⟨e1, e2, e3⟩ := cperiodic_spec hb p w
  obtain ⟨f1, f2, f3⟩ := cperiodic_spec hb p ⟨0, 0, 0⟩
  have hy := hb.y
  have hz := hb.z
  refine ⟨?_, ?_, ?_⟩
  · have h2 : (cperiodic b p w).y = (cperiodic b p ⟨0, 0, 0⟩).y := by
      rw [e2, f2]
      split
      · rfl
      · exact hw.1 (by omega)
    have h3 : (cperiodic b p w).z = (cperiodic b p ⟨0, 0, 0⟩).z := by
      rw [e3, f3]
      split
      · rfl
      · exact hw.2 (by omega)
    have h1 := e1.trans f1.symm
    cases h : cperiodic b p w
    cases h' : cperiodic b p ⟨0, 0, 0⟩
    rw [h, h'] at h1 h2 h3
    simp only at h1 h2 h3
    rw [h1, h2, h3]
  · intro e; rw [f2, if_neg (by omega)]
  · intro e; rw [f3, if_neg (by omega)]

theorem csticky1_le {lo hi : Int} (h : lo < hi) (v : Rat) : csticky1 lo hi v ≤ hi - 1 / 100000000 := by
  have h1 : (lo : Rat) + 1 ≤ hi := by
    have h0 : lo + 1 ≤ hi := h
    have : ((lo + 1 : Int) : Rat) ≤ (hi : Rat) := Rat.intCast_le_intCast.2 h0
    rw [Rat.intCast_add] at this
    exact this
  unfold csticky1 offset
  grind

theorem cdest_spec {t : Topo} (h : t.Ok) (hfb : FlatBox t.box) (pt : CPt) : CValid t (cdest t pt) := by
  have hx := h.box.x
  unfold cdest
  split
  · rename_i hp
    exact ⟨(C50_periodic_partial h.box pt _).1, (cperiodic_flat h.box pt ⟨0, 0, 0⟩ ⟨fun _ => rfl, fun _ => rfl⟩).2, fun e => by rw [e] at hp; cases hp⟩
  · refine ⟨(C50_sticky_partial h.box pt).1, ⟨fun e => ?_, fun e => ?_⟩, fun _ => ⟨?_, fun hy => ?_, fun hz => ?_⟩⟩
    · show csticky1 t.box.ymin t.box.ymax pt.y = 0
      have := hfb.1 e
      unfold Box.ymax
      rw [e, this]
      exact csticky1_flat _
    · show csticky1 t.box.zmin t.box.zmax pt.z = 0
      have := hfb.2 e
      unfold Box.zmax
      rw [e, this]
      exact csticky1_flat _
    · exact csticky1_le (by unfold Box.xmax; omega) _
    · exact csticky1_le (by unfold Box.ymax; omega) _
    · exact csticky1_le (by unfold Box.zmax; omega) _

theorem cdest_inside {t : Topo} (h : t.Ok) (hfb : FlatBox t.box) {q : CPt} (hq : CValid t q) : cdest t q = q := by
  obtain ⟨h1, h2, h3⟩ := hq
  obtain ⟨i1, i2, i3⟩ := (containsC_iff h.box q).1 h1
  have hby := h.box.y
  have hbz := h.box.z
  unfold cdest
  obtain ⟨x, y, z⟩ := q
  split
  · obtain ⟨f1, f2, f3⟩ := cperiodic_spec h.box ⟨x, y, z⟩ ⟨0, 0, 0⟩
    have g1 : (cperiodic t.box ⟨x, y, z⟩ ⟨0, 0, 0⟩).x = x := by rw [f1]; exact cperiodic1_inside h.box.x i1.1 i1.2
    have g2 : (cperiodic t.box ⟨x, y, z⟩ ⟨0, 0, 0⟩).y = y := by
      rw [f2]
      split
      · rename_i hy; exact cperiodic1_inside hy (i2 hy).1 (i2 hy).2
      · exact (h2.1 (by omega)).symm
    have g3 : (cperiodic t.box ⟨x, y, z⟩ ⟨0, 0, 0⟩).z = z := by
      rw [f3]
      split
      · rename_i hz; exact cperiodic1_inside hz (i3 hz).1 (i3 hz).2
      · exact (h2.2 (by omega)).symm
    cases e : cperiodic t.box ⟨x, y, z⟩ ⟨0, 0, 0⟩
    rw [e] at g1 g2 g3
    simp only at g1 g2 g3
    rw [g1, g2, g3]
  · rename_i hp
    obtain ⟨l1, l2, l3⟩ := h3 (by simpa using hp)
    obtain ⟨-, s1, s2, s3⟩ := C50_sticky_partial h.box ⟨x, y, z⟩
    have g1 := s1 i1.1 l1
    have g2 : (csticky t.box ⟨x, y, z⟩).y = y := by
      by_cases hy : 0 < t.box.yext
      · exact s2 hy (i2 hy).1 (l2 hy)
      · have hy : t.box.yext = 0 := by omega
        show csticky1 t.box.ymin t.box.ymax y = y
        unfold Box.ymax
        rw [hy, hfb.1 hy, show y = 0 from h2.1 hy]
        exact csticky1_flat _
    have g3 : (csticky t.box ⟨x, y, z⟩).z = z := by
      by_cases hz : 0 < t.box.zext
      · exact s3 hz (i3 hz).1 (l3 hz)
      · have hz : t.box.zext = 0 := by omega
        show csticky1 t.box.zmin t.box.zmax z = z
        unfold Box.zmax
        rw [hz, hfb.2 hz, show z = 0 from h2.2 hz]
        exact csticky1_flat _
    cases e : csticky t.box ⟨x, y, z⟩
    rw [e] at g1 g2 g3
    simp only at g1 g2 g3
    rw [g1, g2, g3]

theorem ctr_eq {g : CSCfg} (h : g.topo.Ok) {wpt : CPt} (hw : CFlat g.topo.box wpt) (pt : CPt) : g.space.tr pt wpt = cdest g.topo pt := by
  unfold CSCfg.space cspace cdest
  simp only []
  split
  · exact (cperiodic_flat h.box pt wpt hw).1
  · rfl

theorem cowner_spec {t : Topo} (h : t.Ok) (hf : t.Fits) {q : CPt} (hq : t.box.containsC q = true) :
    cowner t q < t.size ∧ (t.bounds (cowner t q)).containsC q = true ∧ ∀ k, k < t.size → (t.bounds k).containsC q = true → k = cowner t q := by
  simp only [containsC_down, cowner_down] at *
  exact owner_spec h hf hq

theorem cfind_owner {t : Topo} (h : t.Ok) (hf : t.Fits) {r : Nat} {q : CPt} (hq : t.box.containsC q = true) (hl : ¬ (t.bounds r).containsC q = true) :
    ∃ k, (t.allBounds r).find? (fun b => b.1.containsC q) = some (t.bounds k, k) ∧ k < t.size ∧ k ≠ r ∧ (t.bounds k).containsC q = true := by
  simp only [containsC_down] at *
  exact find_owner h hf hq hl

/-! ### The space of one rank -/

/-- The queue entry of an agent with the given entry in the space of rank `r`. -/
def caim (t : Topo) (r : Nat) : Option (Option CPt) → Option (Nat × CPt)
  | some (some q) => if (t.bounds r).containsC q then none else some (cowner t q, q)
  | _ => none

/-- The continuous spaces for which this is right. -/
structure CSet (t : Topo) : Prop where
  ok : t.Ok
  fits : t.Fits
  flat : FlatBox t.box
  dims : t.nd ≠ 1

/-- The space of rank `r` is consistent, and no two agents have the same location in it. -/
structure COk (g : CSCfg) (r : Nat) (s : CDSp) : Prop where
  inv : ∃ a, CInv g.space s.cs a
  apart : ∀ u v q, s.cs.base.agents u = some (some q) → s.cs.base.agents v = some (some q) → u = v
  oob : ∀ u, s.oob u = caim g.topo r (s.cs.base.agents u)
  pts : ∀ u q, s.cs.base.agents u = some (some q) → CValid g.topo q
  wpt : CFlat g.topo.box s.cs.wpt

theorem COk.occ {g : CSCfg} {r : Nat} {s : CDSp} (h : COk g r s) : Occ g.space.base s.cs.base := by
  obtain ⟨a, h⟩ := h.inv
  exact ⟨a, h.coup⟩

theorem short_of_apart {c : Space.Cfg CPt} {s : Sp CPt} (h : Occ c s) (ha : ∀ u v q, s.agents u = some (some q) → s.agents v = some (some q) → u = v) (p : CPt) :
    (s.loc p).length ≤ 1 := by
  have hn := h.nodup p
  cases e : s.loc p with
  | nil => simp
  | cons x l =>
    cases l with
    | nil => simp
    | cons y l =>
      rw [e] at hn
      have := ha x y p (h.mem.1 (by rw [e]; simp)) (h.mem.1 (by rw [e]; simp))
      subst this
      simp at hn

theorem mayLeave_of_apart {g : CSCfg} {r : Nat} {s : CDSp} (h : COk g r s) (a : Nat) : MayLeave s.cs a := by
  intro k hk
  left
  have h1 : (s.cs.loc (s.cs.pts k)).length ≤ 1 := short_of_apart h.occ h.apart (s.cs.pts k)
  have h2 : a ∈ s.cs.loc (s.cs.pts k) := h.occ.mem.2 (by simp [CS.base, hk])
  cases hl : s.cs.loc (s.cs.pts k) with
  | nil => rw [hl] at h2; cases h2
  | cons b l =>
    rw [hl] at h1 h2
    simp only [List.length_cons] at h1
    have : l = [] := List.eq_nil_of_length_eq_zero (by omega)
    subst this
    simp only [List.mem_singleton] at h2
    rw [h2]

theorem space_root {g : CSCfg} (ht : CSet g.topo) (p w : CPt) : (rootBox g.space.bounds).contains g.space.d3 (g.space.tr p w) = true := by
  refine root_contains (c := g.space) ht.ok.box (by show g.topo.box.numDims ≠ 1; rw [← ht.ok.nd]; exact ht.dims) ?_
  show g.topo.box.containsC (if g.topo.periodic then cperiodic g.topo.box p w else csticky g.topo.box p) = true
  split
  · exact (C50_periodic_partial ht.ok.box p w).1
  · exact (C50_sticky_partial ht.ok.box p).1

/-- One call of the underlying space. -/
theorem COk.step {g : CSCfg} (ht : CSet g.topo) {r : Nat} {s : CDSp} (h : COk g r s) (o : Op CPt) (hadd : ∀ a, o = .add a → s.cs.base.agents a = none)
    (hap : ∀ u v q, (Space.step g.space.base s.cs.base o).1.agents u = some (some q) → (Space.step g.space.base s.cs.base o).1.agents v = some (some q) → u = v) :
    ∃ s' res, cstep g.space s.cs o = some (s', res) ∧ s'.base = (Space.step g.space.base s.cs.base o).1 ∧ res = (Space.step g.space.base s.cs.base o).2 ∧
      ∃ a, CInv g.space s' a := by
  obtain ⟨a, hi⟩ := h.inv
  have hd : g.space.bounds.numDims ≠ 1 := by show g.topo.box.numDims ≠ 1; rw [← ht.ok.nd]; exact ht.dims
  obtain ⟨s', res, e1, e2, e3, e4⟩ := cstep_base hi.addr hd o
  refine ⟨s', res, e1, e3, e4, _, hi.step hd (space_root ht) o ?_ e1 ?_⟩
  · intro b e hk
    have := (hi.coup.known b).1 hk
    rw [hadd b e] at this
    cases this
  · have hml := mayLeave_of_apart h
    cases o with
    | remove b => exact hml b
    | move b pt =>
      refine ⟨Or.inr (hml b), Or.inl ?_⟩
      have ho : Occ g.space.base s'.base := by rw [e3]; exact h.occ.step _ hadd
      intro p
      exact short_of_apart ho (by rw [e3]; exact hap) p
    | _ => trivial

abbrev ccall (g : CSCfg) (r : Nat) (s : CDSp) (o : Op CPt) : Option (CDSp × Res CPt) := cdstep g.space (g.topo.bounds r) (g.topo.allBounds r) s o

theorem COk.new (g : CSCfg) (r : Nat) : COk g r { cs := CS.init g.space, oob := fun _ => none } := by
  refine ⟨⟨_, CInv.init _⟩, ?_, ?_, ?_, ⟨fun _ => rfl, fun _ => rfl⟩⟩
  · intro u v q h; simp [CS.base, CS.init] at h
  · intro u; rfl
  · intro u q h; simp [CS.base, CS.init] at h

theorem COk.add {g : CSCfg} (ht : CSet g.topo) {r : Nat} {s : CDSp} (h : COk g r s) {u : Nat} (hu : s.cs.base.agents u = none) :
    ∃ s' res, ccall g r s (.add u) = some (s', res) ∧ COk g r s' ∧ s'.cs.base.agents = upd s.cs.base.agents u (some none) := by
  have hap : ∀ x v q, (Space.step g.space.base s.cs.base (.add u)).1.agents x = some (some q) → (Space.step g.space.base s.cs.base (.add u)).1.agents v = some (some q) → x = v := by
    intro x v q h1 h2
    simp only [Space.step, Space.add, upd] at h1 h2
    split at h1
    · simp at h1
    · split at h2
      · simp at h2
      · exact h.apart _ _ _ h1 h2
  obtain ⟨cs', res, e1, e2, e3, hi⟩ := h.step ht (.add u) (by rintro a ⟨⟩; exact hu) hap
  have e : cs'.base.agents = upd s.cs.base.agents u (some none) := by rw [e2]; rfl
  refine ⟨{ s with cs := cs' }, res, ?_, ⟨hi, ?_, ?_, ?_, ?_⟩, e⟩
  · simp only [ccall, cdstep, e1, Option.map_some]
  · show ∀ x v q, cs'.base.agents x = _ → _
    rw [e2]; exact hap
  · intro v
    show s.oob v = caim g.topo r (cs'.base.agents v)
    rw [e, h.oob]
    simp only [upd]
    split
    · rename_i hv; rw [hv, hu]; rfl
    · rfl
  · intro v q hv
    replace hv : cs'.base.agents v = some (some q) := hv
    rw [e] at hv
    simp only [upd] at hv
    split at hv
    · simp at hv
    · exact h.pts v q hv
  · have : cs'.base.wpt = s.cs.wpt := by rw [e2]; rfl
    show CFlat _ cs'.base.wpt
    rw [this]; exact h.wpt

theorem COk.remove {g : CSCfg} (ht : CSet g.topo) {r : Nat} {s : CDSp} (h : COk g r s) (u : Nat) :
    ∃ s' res, ccall g r s (.remove u) = some (s', res) ∧ COk g r s' ∧ s'.cs.base.agents = upd s.cs.base.agents u none := by
  have he : (Space.step g.space.base s.cs.base (.remove u)).1.agents = upd s.cs.base.agents u none := remove_entries _ _ _
  have hap : ∀ x v q, (Space.step g.space.base s.cs.base (.remove u)).1.agents x = some (some q) → (Space.step g.space.base s.cs.base (.remove u)).1.agents v = some (some q) → x = v := by
    intro x v q h1 h2
    rw [he] at h1 h2
    simp only [upd] at h1 h2
    split at h1
    · simp at h1
    · split at h2
      · simp at h2
      · exact h.apart _ _ _ h1 h2
  obtain ⟨cs', res, e1, e2, e3, hi⟩ := h.step ht (.remove u) (by rintro a ⟨⟩) hap
  have e : cs'.base.agents = upd s.cs.base.agents u none := by rw [e2, he]
  have hr : ∃ b, cremove g.space s.cs u = some (cs', b) := by
    replace e1 : (cremove g.space s.cs u).map (fun r => (r.1, Res.bool r.2)) = some (cs', res) := e1
    obtain ⟨x, hx, hx'⟩ := Option.map_eq_some_iff.1 e1
    simp only [Prod.mk.injEq] at hx'
    exact ⟨x.2, by rw [hx, ← hx'.1]⟩
  obtain ⟨b, hr⟩ := hr
  refine ⟨{ cs := cs', oob := upd s.oob u none }, .bool b, ?_, ⟨hi, ?_, ?_, ?_, ?_⟩, e⟩
  · show (cremove g.space s.cs u).map _ = _
    rw [hr]; rfl
  · show ∀ x v q, cs'.base.agents x = _ → _
    rw [e2]; exact hap
  · intro v
    show upd s.oob u none v = caim g.topo r (cs'.base.agents v)
    rw [e]
    simp only [upd]
    split
    · rfl
    · exact h.oob v
  · intro v q hv
    replace hv : cs'.base.agents v = some (some q) := hv
    rw [e] at hv
    simp only [upd] at hv
    split at hv
    · simp at hv
    · exact h.pts v q hv
  · show CFlat _ cs'.base.wpt
    rw [e2]
    show CFlat _ (Space.remove g.space.base s.cs.base u).1.wpt
    unfold Space.remove
    split
    · exact h.wpt
    · exact h.wpt
    · rename_i q hq
      exact (h.pts u q hq).2.1

theorem COk.move {g : CSCfg} (ht : CSet g.topo) {r : Nat} {s : CDSp} (h : COk g r s) {u : Nat}
    (hu : (s.cs.base.agents u).isSome = true) (pt : CPt) (hfree : ∀ v, v ≠ u → s.cs.base.agents v ≠ some (some (cdest g.topo pt))) :
    ∃ s', ccall g r s (.move u pt) = some (s', .loc (some (cdest g.topo pt))) ∧ COk g r s' ∧
      s'.cs.base.agents = upd s.cs.base.agents u (some (some (cdest g.topo pt))) := by
  have hv := cdest_spec ht.ok ht.flat pt
  have htr : g.space.base.tr pt s.cs.base.wpt = cdest g.topo pt := ctr_eq ht.ok h.wpt pt
  obtain ⟨m1, m2, m3⟩ := h.occ.move hu pt (by rw [htr]; exact fun _ => hfree)
  rw [htr] at m1 m2 m3
  have hap : ∀ x v q, (Space.step g.space.base s.cs.base (.move u pt)).1.agents x = some (some q) → (Space.step g.space.base s.cs.base (.move u pt)).1.agents v = some (some q) → x = v := by
    intro x v q h1 h2
    replace h1 : (Space.move g.space.base s.cs.base u pt).1.agents x = some (some q) := h1
    replace h2 : (Space.move g.space.base s.cs.base u pt).1.agents v = some (some q) := h2
    rw [m2] at h1 h2
    simp only [upd] at h1 h2
    split at h1 <;> split at h2
    · rename_i e1 e2; rw [e1, e2]
    · rename_i e1 e2
      rw [← h1] at h2
      exact absurd h2 (hfree v e2)
    · rename_i e1 e2
      rw [← h2] at h1
      exact absurd h1 (hfree x e1)
    · exact h.apart _ _ _ h1 h2
  obtain ⟨cs', res, e1, e2, e3, hi⟩ := h.step ht (.move u pt) (by rintro a ⟨⟩) hap
  replace e2 : cs'.base = (Space.move g.space.base s.cs.base u pt).1 := e2
  replace e3 : res = (Space.move g.space.base s.cs.base u pt).2 := e3
  replace e1 : cmove g.space s.cs u pt = some (cs', res) := e1
  rw [m1] at e3
  subst e3
  have e : cs'.base.agents = upd s.cs.base.agents u (some (some (cdest g.topo pt))) := by rw [e2, m2]
  refine ⟨{ cs := cs', oob := upd s.oob u (caim g.topo r (some (some (cdest g.topo pt)))) }, ?_, ⟨hi, ?_, ?_, ?_, ?_⟩, e⟩
  · show cdmove _ _ _ s u pt = _
    unfold cdmove
    rw [e1]
    simp only [Option.map_some]
    congr 3
    unfold caim
    by_cases hl : (g.topo.bounds r).containsC (cdest g.topo pt) = true
    · simp only [hl, if_true]
    · obtain ⟨k, hk, hk1, hk2, hk3⟩ := cfind_owner ht.ok ht.fits hv.1 hl
      have hko := (cowner_spec ht.ok ht.fits hv.1).2.2 k hk1 hk3
      simp only [hl, hk, hko, Bool.false_eq_true, if_false]
      funext v
      simp only [upd]
      split <;> rfl
  · show ∀ x v q, cs'.base.agents x = _ → _
    rw [e2]; exact hap
  · intro v
    show upd s.oob u (caim g.topo r (some (some (cdest g.topo pt)))) v = caim g.topo r (cs'.base.agents v)
    rw [e]
    simp only [upd]
    split
    · rfl
    · exact h.oob v
  · intro v q hq
    replace hq : cs'.base.agents v = some (some q) := hq
    rw [e] at hq
    simp only [upd] at hq
    split at hq
    · simp only [Option.some.injEq] at hq
      rw [← hq]; exact hv
    · exact h.pts v q hq
  · show CFlat _ cs'.base.wpt
    rw [e2, m3]; exact hv.2.1

theorem COk.clear {g : CSCfg} {r : Nat} {s : CDSp} (h : COk g r s) (hn : ∀ u, caim g.topo r (s.cs.base.agents u) = none) : COk g r { s with oob := fun _ => none } :=
  ⟨h.inv, h.apart, fun u => (hn u).symm, h.pts, h.wpt⟩

end Repast.Context
