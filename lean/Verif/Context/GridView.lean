import Verif.Space.Occ
import Verif.Topology.OOB
import Verif.Topology.BufferAgents

/-! One shared grid, on one rank: what each call does to the locations and to the out of bounds queue. -/
namespace Repast.Context
open Repast.Space Repast.Topology

/-- The rank whose local bounds contain a point. -/
def owner (t : Topo) (q : Pt) : Nat := ((List.range t.size).find? (fun k => (t.bounds k).contains q)).getD 0

/-- Where a move to the point leads. -/
def dest1 (t : Topo) (pt : Pt) : Pt := if t.periodic then periodic t.box pt ⟨0, 0, 0⟩ else sticky t.box pt

/-- A box has its minimum at 0 in the dimensions that it does not have. -/
def FlatBox (b : Box) : Prop := (b.yext = 0 → b.ymin = 0) ∧ (b.zext = 0 → b.zmin = 0)

theorem owner_spec {t : Topo} (h : t.Ok) (hf : t.Fits) {q : Pt} (hq : t.box.contains q = true) :
    owner t q < t.size ∧ (t.bounds (owner t q)).contains q = true ∧ ∀ k, k < t.size → (t.bounds k).contains q = true → k = owner t q := by
  obtain ⟨r, hr, hc, hu⟩ := (C33_partition_partial h hf q).1 hq
  have : owner t q = r := by
    unfold owner
    cases hfi : (List.range t.size).find? (fun k => (t.bounds k).contains q) with
    | none => exact absurd hc (by simpa using List.find?_eq_none.1 hfi r (List.mem_range.2 hr))
    | some k =>
      have h1 := List.mem_range.1 (List.mem_of_find?_eq_some hfi)
      have h2 := List.find?_some hfi
      exact hu k h1 h2
  rw [this]
  exact ⟨hr, hc, hu⟩

theorem dest1_spec {t : Topo} (h : t.Ok) (hfb : FlatBox t.box) (pt : Pt) : t.box.contains (dest1 t pt) = true ∧ Flat t.box (dest1 t pt) := by
  unfold dest1
  split
  · exact ⟨(C28_periodic h.box pt _).1, (periodic_flat h.box pt ⟨0, 0, 0⟩ ⟨fun _ => rfl, fun _ => rfl⟩).2⟩
  · obtain ⟨h1, h2, h3, h4⟩ := C27_sticky h.box pt
    refine ⟨h1, ?_, ?_⟩
    · intro e; rw [if_neg (by omega)] at h3; rw [h3]; exact hfb.1 e
    · intro e; rw [if_neg (by omega)] at h4; rw [h4]; exact hfb.2 e

theorem dest1_inside {t : Topo} (h : t.Ok) (hfb : FlatBox t.box) {q : Pt} (hq : t.box.contains q = true) (hf : Flat t.box q) : dest1 t q = q := by
  unfold dest1
  split
  · exact C28_periodic_inside h.box q _ hq hf.1 hf.2
  · exact C27_sticky_inside h.box q hq (fun e => (hf.1 e).trans (hfb.1 e).symm) (fun e => (hf.2 e).trans (hfb.2 e).symm)

theorem tr_eq {t : Topo} (h : t.Ok) {wpt : Pt} (hw : Flat t.box wpt) (single : Bool) (pt : Pt) : (grid t.box t.periodic single).tr pt wpt = dest1 t pt := by
  unfold grid dest1
  simp only []
  split
  · exact (periodic_flat h.box pt wpt hw).1
  · rfl

theorem flat_pt {t : Topo} (h : t.Ok) {q : Pt} (hq : Flat t.box q) : FlatPt t.nd q := by
  have hnd := h.nd
  rcases numDims_cases h.box with ⟨h1, h2, h3⟩ | ⟨h1, h2, h3⟩ | ⟨h1, h2, h3⟩
  · exact ⟨fun _ => hq.1 h2, fun _ => hq.2 h3⟩
  · exact ⟨fun e => by omega, fun _ => hq.2 h3⟩
  · exact ⟨fun e => by omega, fun e => by omega⟩

/-- The queue entry of an agent with the given entry in the grid of rank `r`. -/
def aim (t : Topo) (r : Nat) : Option (Option Pt) → Option (Nat × Pt)
  | some (some q) => if (t.bounds r).contains q then none else some (owner t q, q)
  | _ => none

/-- The grid of rank `r` is consistent. -/
structure DOk (t : Topo) (single : Bool) (r : Nat) (s : DSp) : Prop where
  occ : Occ (grid t.box t.periodic single) s.base
  oob : ∀ u, s.oob u = aim t r (s.base.agents u)
  pts : ∀ u q, s.base.agents u = some (some q) → t.box.contains q = true ∧ Flat t.box q
  wpt : Flat t.box s.base.wpt

abbrev dcall (t : Topo) (single : Bool) (r : Nat) (s : DSp) (o : DOp) : DSp × Res Pt := dstep (grid t.box t.periodic single) (t.bounds r) (t.allBounds r) s o

theorem DOk.empty (t : Topo) (single : Bool) (r : Nat) : DOk t single r DSp.empty :=
  ⟨Occ.empty _ _, by intro u; rfl, by intro u q h; simp [DSp.empty, newGrid, Sp.empty] at h, ⟨fun _ => rfl, fun _ => rfl⟩⟩

theorem DOk.add {t : Topo} {single : Bool} {r : Nat} {s : DSp} (h : DOk t single r s) {u : Nat} (hu : s.base.agents u = none) :
    DOk t single r (dcall t single r s (.base (.add u))).1 ∧ (dcall t single r s (.base (.add u))).1.base.agents = upd s.base.agents u (some none) := by
  have e : (dcall t single r s (.base (.add u))).1.base.agents = upd s.base.agents u (some none) := rfl
  refine ⟨⟨h.occ.step (.add u) (by rintro a ⟨⟩; exact hu), ?_, ?_, h.wpt⟩, e⟩
  · intro v
    rw [e]
    show s.oob v = _
    rw [h.oob]
    simp only [upd]
    split
    · rename_i hv; rw [hv, hu]; rfl
    · rfl
  · intro v q hv
    rw [e] at hv
    simp only [upd] at hv
    split at hv
    · simp at hv
    · exact h.pts v q hv

theorem DOk.remove {t : Topo} {single : Bool} {r : Nat} {s : DSp} (h : DOk t single r s) (u : Nat) :
    DOk t single r (dcall t single r s (.base (.remove u))).1 ∧ (dcall t single r s (.base (.remove u))).1.base.agents = upd s.base.agents u none := by
  have e : (dcall t single r s (.base (.remove u))).1.base.agents = upd s.base.agents u none := remove_agents _ _ _
  refine ⟨⟨h.occ.step (.remove u) (by rintro a ⟨⟩), ?_, ?_, ?_⟩, e⟩
  · intro v
    rw [e]
    show upd s.oob u none v = _
    simp only [upd]
    split
    · rfl
    · exact h.oob v
  · intro v q hv
    rw [e] at hv
    simp only [upd] at hv
    split at hv
    · simp at hv
    · exact h.pts v q hv
  · show Flat t.box (Space.remove (grid t.box t.periodic single) s.base u).1.wpt
    unfold Space.remove
    split
    · exact h.wpt
    · exact h.wpt
    · rename_i q hq
      exact (h.pts u q hq).2

theorem DOk.move {t : Topo} (ht : t.Ok) (hf : t.Fits) (hfb : FlatBox t.box) {single : Bool} {r : Nat} {s : DSp} (h : DOk t single r s) {u : Nat}
    (hu : (s.base.agents u).isSome = true) (pt : Pt) (hfree : single = true → ∀ v, v ≠ u → s.base.agents v ≠ some (some (dest1 t pt))) :
    (dcall t single r s (.base (.move u pt))).2 = .loc (some (dest1 t pt)) ∧ DOk t single r (dcall t single r s (.base (.move u pt))).1 ∧
      (dcall t single r s (.base (.move u pt))).1.base.agents = upd s.base.agents u (some (some (dest1 t pt))) := by
  obtain ⟨hin, hfl⟩ := dest1_spec ht hfb pt
  have htr := tr_eq ht h.wpt single pt
  obtain ⟨m1, m2, m3⟩ := h.occ.move hu pt (by rw [htr]; exact hfree)
  rw [htr] at m1 m2 m3
  have hd : dcall t single r s (.base (.move u pt)) = (DSp.mk (Space.move (grid t.box t.periodic single) s.base u pt).1
      (upd s.oob u (aim t r (some (some (dest1 t pt))))), .loc (some (dest1 t pt))) := by
    show dmove _ _ _ s u pt = _
    unfold dmove
    simp only [m1]
    congr 2
    unfold aim
    by_cases hl : (t.bounds r).contains (dest1 t pt) = true
    · simp only [hl, if_true]
    · obtain ⟨k, hk, hk1, hk2, hk3⟩ := find_owner ht hf hin hl
      have hko := (owner_spec ht hf hin).2.2 k hk1 hk3
      simp only [hl, hk, hko, Bool.false_eq_true, if_false]
      funext v
      simp only [upd]
      split <;> rfl
  rw [hd]
  refine ⟨rfl, ⟨h.occ.step (.move u pt) (by rintro a ⟨⟩), ?_, ?_, ?_⟩, m2⟩
  · intro v
    show upd s.oob u (aim t r (some (some (dest1 t pt)))) v = aim t r ((Space.move (grid t.box t.periodic single) s.base u pt).1.agents v)
    rw [m2]
    simp only [upd]
    split
    · rfl
    · exact h.oob v
  · intro v q hv
    have hv : (Space.move (grid t.box t.periodic single) s.base u pt).1.agents v = some (some q) := hv
    rw [m2] at hv
    simp only [upd] at hv
    split at hv
    · simp only [Option.some.injEq] at hv; rw [← hv]; exact ⟨hin, hfl⟩
    · exact h.pts v q hv
  · show Flat t.box (Space.move (grid t.box t.periodic single) s.base u pt).1.wpt
    rw [m3]; exact hfl

theorem DOk.clear {t : Topo} {single : Bool} {r : Nat} {s : DSp} (h : DOk t single r s) (hn : ∀ u, aim t r (s.base.agents u) = none) :
    DOk t single r (dcall t single r s .clear).1 ∧ (dcall t single r s .clear).1.base = s.base :=
  ⟨⟨h.occ, fun u => (hn u).symm, h.pts, h.wpt⟩, rfl⟩

end Repast.Context
