import Verif.Tree.Refine
import Verif.Space.Props

/-! C37: `get_agents_within` of a continuous space; C29, C31 and C50 for continuous spaces. -/
namespace Repast.Tree
open Repast.Space (Box upd Op Res Sp Abs Coupled AddsOnlyNew)

/-- `get_location(a)`, as observed by a call. -/
def locationOf (c : CCfg) (s : CS) (a : Nat) : Option (Res CPt) := (cstep c s (.getLocation a)).map (·.2)

/-! ### borders -/

theorem csticky1_spec {lo hi : Int} (h : lo < hi) (v : Rat) :
    (lo : Rat) ≤ csticky1 lo hi v ∧ csticky1 lo hi v < hi ∧ ((lo : Rat) ≤ v → v ≤ hi - offset → csticky1 lo hi v = v) := by
  have h1 : (lo : Rat) + 1 ≤ hi := by
    have h0 : lo + 1 ≤ hi := h
    have : ((lo + 1 : Int) : Rat) ≤ (hi : Rat) := Rat.intCast_le_intCast.2 h0
    rw [Rat.intCast_add] at this
    exact this
  unfold csticky1 offset
  grind

theorem csticky1_flat {lo : Int} (v : Rat) : csticky1 lo lo v = lo := by
  unfold csticky1 offset
  grind

theorem fmod_spec (a : Rat) {b : Rat} (hb : 0 < b) : (0 ≤ a → 0 ≤ fmod a b ∧ fmod a b < b) ∧ (a < 0 → -b < fmod a b ∧ fmod a b ≤ 0) ∧
    ∃ k : Int, fmod a b = a - b * k := by
  have hd : b * (a / b) = a := by rw [Rat.mul_comm, Rat.div_mul_cancel (by grind)]
  refine ⟨?_, ?_, ?_⟩
  · intro ha
    have h0 : 0 ≤ a / b := by
      rw [Rat.div_def]; exact Rat.mul_nonneg ha (Rat.le_of_lt (Rat.inv_pos.2 hb))
    unfold fmod
    rw [if_pos h0]
    have h1 := Rat.floor_le (a / b)
    have h2 := Rat.lt_floor_add_one (a / b)
    rw [Rat.intCast_add] at h2
    have e1 : b * ((a / b).floor : Rat) ≤ b * (a / b) := Rat.mul_le_mul_of_nonneg_left h1 (Rat.le_of_lt hb)
    have e2 : b * (a / b) < b * (((a / b).floor : Rat) + ((1 : Int) : Rat)) := Rat.mul_lt_mul_of_pos_left h2 hb
    rw [Rat.mul_add] at e2
    have : ((1 : Int) : Rat) = 1 := rfl
    rw [this] at e2
    grind
  · intro ha
    have h0 : ¬ 0 ≤ a / b := by
      intro h
      have := Rat.mul_nonneg (Rat.le_of_lt hb) h
      rw [hd] at this
      grind
    unfold fmod
    rw [if_neg h0]
    have h1 := Rat.floor_le (-(a / b))
    have h2 := Rat.lt_floor_add_one (-(a / b))
    rw [Rat.intCast_add] at h2
    have e1 : b * ((-(a / b)).floor : Rat) ≤ b * (-(a / b)) := Rat.mul_le_mul_of_nonneg_left h1 (Rat.le_of_lt hb)
    have e2 : b * (-(a / b)) < b * (((-(a / b)).floor : Rat) + ((1 : Int) : Rat)) := Rat.mul_lt_mul_of_pos_left h2 hb
    rw [Rat.mul_add] at e2
    have : ((1 : Int) : Rat) = 1 := rfl
    rw [this] at e2
    rw [Rat.mul_neg] at e1 e2
    rw [Rat.intCast_neg, Rat.mul_neg]
    grind
  · exact ⟨_, rfl⟩

theorem cperiodic1_spec {lo ext : Int} (h : 0 < ext) (v : Rat) :
    (lo : Rat) ≤ cperiodic1 lo (lo + ext) ext v ∧ cperiodic1 lo (lo + ext) ext v < ((lo + ext : Int) : Rat) ∧
      ∃ k : Int, cperiodic1 lo (lo + ext) ext v = v + k * ext := by
  have hb : (0 : Rat) < (ext : Rat) := Rat.intCast_pos.2 h
  obtain ⟨f1, f2, k, fk⟩ := fmod_spec (v - lo) hb
  unfold cperiodic1
  simp only []
  rw [Rat.intCast_add]
  by_cases hn : fmod (v - lo) ext < 0
  · rw [if_pos hn]
    have hneg : v - lo < 0 := by
      by_cases h0 : 0 ≤ v - lo
      · have := (f1 h0).1; grind
      · grind
    have := f2 hneg
    refine ⟨by grind, by grind, 1 - k, ?_⟩
    rw [fk, Rat.intCast_sub]
    have : ((1 : Int) : Rat) = 1 := rfl
    rw [this]
    grind
  · rw [if_neg hn]
    have : fmod (v - lo) ext < ext := by
      by_cases h0 : 0 ≤ v - lo
      · exact (f1 h0).2
      · have := f2 (by grind); grind
    refine ⟨by grind, by grind, -k, ?_⟩
    rw [fk, Rat.intCast_neg]
    grind

theorem containsC_iff {b : Box} (hb : b.Ok) (p : CPt) : b.containsC p = true ↔
    ((b.xmin : Rat) ≤ p.x ∧ p.x < (b.xmax : Rat)) ∧ (0 < b.yext → (b.ymin : Rat) ≤ p.y ∧ p.y < (b.ymax : Rat)) ∧
      (0 < b.zext → (b.zmin : Rat) ≤ p.z ∧ p.z < (b.zmax : Rat)) := by
  unfold Box.containsC Box.numDims
  by_cases h3 : 0 < b.zext
  · have := hb.zy h3
    simp [h3, this, and_assoc]
  · by_cases h2 : 0 < b.yext
    · simp [h3, h2, and_assoc]
    · simp [h3, h2]

/-- C50 in exact arithmetic (missing: with rounding it is false, see `C50_rounding_sticky`): the sticky transform lands in bounds, and does not change a point of the bounds whose coordinates are not
less than 10^-8 from the upper bounds. -/
theorem C50_sticky_partial {b : Box} (hb : b.Ok) (p : CPt) :
    b.containsC (csticky b p) = true ∧
    ((b.xmin : Rat) ≤ p.x → p.x ≤ b.xmax - 1 / 100000000 → (csticky b p).x = p.x) ∧
    (0 < b.yext → (b.ymin : Rat) ≤ p.y → p.y ≤ b.ymax - 1 / 100000000 → (csticky b p).y = p.y) ∧
    (0 < b.zext → (b.zmin : Rat) ≤ p.z → p.z ≤ b.zmax - 1 / 100000000 → (csticky b p).z = p.z) := by
  have hx := csticky1_spec (lo := b.xmin) (hi := b.xmax) (by have := hb.x; unfold Box.xmax; omega) p.x
  have hy := fun h : 0 < b.yext => csticky1_spec (lo := b.ymin) (hi := b.ymax) (by unfold Box.ymax; omega) p.y
  have hz := fun h : 0 < b.zext => csticky1_spec (lo := b.zmin) (hi := b.zmax) (by unfold Box.zmax; omega) p.z
  refine ⟨(containsC_iff hb _).2 ⟨⟨hx.1, hx.2.1⟩, fun h => ⟨(hy h).1, (hy h).2.1⟩, fun h => ⟨(hz h).1, (hz h).2.1⟩⟩, hx.2.2, fun h => (hy h).2.2,
    fun h => (hz h).2.2⟩

theorem cperiodic_spec {b : Box} (hb : b.Ok) (p d : CPt) :
    (cperiodic b p d).x = cperiodic1 b.xmin b.xmax b.xext p.x ∧
    (cperiodic b p d).y = (if 0 < b.yext then cperiodic1 b.ymin b.ymax b.yext p.y else d.y) ∧
    (cperiodic b p d).z = (if 0 < b.zext then cperiodic1 b.zmin b.zmax b.zext p.z else d.z) := by
  have hx := hb.x
  unfold cperiodic
  by_cases h3 : 0 < b.zext
  · have := hb.zy h3
    simp [h3, this, hx]
  · by_cases h2 : 0 < b.yext
    · simp [h3, h2, hx]
    · simp [h3, h2]

/-- C50 in exact arithmetic (missing: with rounding it is false, see `C50_rounding_periodic`): the periodic transform lands in bounds and changes every coordinate of a dimension of the space by
a multiple of the extent. -/
theorem C50_periodic_partial {b : Box} (hb : b.Ok) (p d : CPt) :
    b.containsC (cperiodic b p d) = true ∧ (∃ k : Int, (cperiodic b p d).x = p.x + k * b.xext) ∧
    (0 < b.yext → ∃ k : Int, (cperiodic b p d).y = p.y + k * b.yext) ∧ (0 < b.zext → ∃ k : Int, (cperiodic b p d).z = p.z + k * b.zext) := by
  obtain ⟨e1, e2, e3⟩ := cperiodic_spec hb p d
  have hx := cperiodic1_spec (lo := b.xmin) hb.x p.x
  have hy := fun h : 0 < b.yext => cperiodic1_spec (lo := b.ymin) h p.y
  have hz := fun h : 0 < b.zext => cperiodic1_spec (lo := b.zmin) h p.z
  rw [containsC_iff hb, e1, e2, e3]
  refine ⟨⟨⟨hx.1, hx.2.1⟩, fun h => ?_, fun h => ?_⟩, hx.2.2, fun h => ?_, fun h => ?_⟩
  · rw [if_pos h]; exact ⟨(hy h).1, (hy h).2.1⟩
  · rw [if_pos h]; exact ⟨(hz h).1, (hz h).2.1⟩
  · rw [if_pos h]; exact (hy h).2.2
  · rw [if_pos h]; exact (hz h).2.2

example : (csticky ⟨0, 10, 0, 10, 0, 0⟩ ⟨25/2, -3, 0⟩) = ⟨999999999 / 100000000, 0, 0⟩ ∧
    cperiodic ⟨0, 10, 0, 10, 0, 0⟩ ⟨25/2, -3, 0⟩ ⟨0, 0, 0⟩ = ⟨5/2, 7, 0⟩ := by decide +kernel

/-! ### C29 -/

/-- A continuous space of two or three dimensions does what the generic space of `Verif/Space` does: the same results for every sequence of calls. The
theorems C29-C32 about all configurations therefore hold for it. -/
theorem crun_base {c : CCfg} (hd : c.bounds.numDims ≠ 1) {s : CS} (h : Addr s) (ops : List (Op CPt)) :
    ∃ s' rs, crun c s ops = some (s', rs) ∧ Addr s' ∧ s'.base = (Space.run c.base s.base ops).1 ∧ rs = (Space.run c.base s.base ops).2 := by
  induction ops generalizing s with
  | nil => exact ⟨s, [], rfl, h, rfl, rfl⟩
  | cons o os ih =>
    obtain ⟨s1, r1, e1, e2, e3, e4⟩ := cstep_base h hd o
    obtain ⟨s2, rs, f1, f2, f3, f4⟩ := ih e2
    refine ⟨s2, r1 :: rs, ?_, f2, ?_, ?_⟩
    · simp only [crun, e1, f1, Option.map_some]
    · simp only [Space.run, f3, e3]
    · simp only [Space.run, f4, e3, e4]

theorem addr_init (c : CCfg) : Addr (CS.init c) := ⟨by simp [CS.init], by simp [CS.init]⟩
theorem base_init (c : CCfg) : (CS.init c).base = Sp.empty ⟨0, 0, 0⟩ := rfl

/-- C29 for continuous spaces: as `C29_agreement_partial`; `add` is not called for an agent of the space. -/
theorem C29_continuous_partial (c : CCfg) (hd : c.bounds.numDims ≠ 1) (ops : List (Op CPt)) (ha : AddsOnlyNew [] ops) (p : CPt) :
    ∃ s rs, crun c (CS.init c) ops = some (s, rs) ∧
    ∃ s' l, cstep c s (.getAgents p) = some (s', .agents l) ∧ l.Nodup ∧ ∀ a, a ∈ l ↔ locationOf c s a = some (.loc (some p)) := by
  obtain ⟨s, rs, e1, e2, e3, e4⟩ := crun_base hd (addr_init c) ops
  obtain ⟨l, f1, f2, f3⟩ := Space.C29_agreement_partial c.base ⟨0, 0, 0⟩ ops ha p
  rw [← base_init c, ← e3] at f1 f3
  refine ⟨s, rs, e1, { s with wpt := p }, l, ?_, f2, fun a => (f3 a).trans ?_⟩
  · simp only [Space.agentsAt, Space.step, Res.agents.injEq] at f1
    simp only [cstep]
    rw [← f1]; rfl
  · simp only [Space.locationOf, Space.step, locationOf, cstep, Option.map_some, Option.some.injEq, CS.base]
    cases s.agents a with
    | none => simp
    | some o => simp

/-- C31 for continuous spaces with single occupancy: no two agents have the same location. -/
theorem C31_continuous (c : CCfg) (hd : c.bounds.numDims ≠ 1) (hs : c.single = true) (ops : List (Op CPt)) :
    ∃ s rs, crun c (CS.init c) ops = some (s, rs) ∧
    ∀ a b p, locationOf c s a = some (.loc (some p)) → locationOf c s b = some (.loc (some p)) → a = b := by
  obtain ⟨s, rs, e1, e2, e3, e4⟩ := crun_base hd (addr_init c) ops
  refine ⟨s, rs, e1, fun a b p h1 h2 => ?_⟩
  have key : ∀ a, locationOf c s a = some (.loc (some p)) → Space.locationOf c.base (Space.run c.base (Sp.empty ⟨0, 0, 0⟩) ops).1 a = .loc (some p) := by
    intro a h
    rw [← base_init c, ← e3]
    simp only [Space.locationOf, Space.step, locationOf, cstep, Option.map_some, Option.some.injEq, CS.base] at h ⊢
    cases hs : s.agents a with
    | none => rw [hs] at h; simp at h
    | some o => rw [hs] at h; simpa using h
  exact Space.C31_exclusive c.base hs _ ops a b p (key a h1) (key b h2)

/-- In a single occupancy space the second agent is refused. -/
example : ((crun (cspace ⟨0, 10, 0, 10, 0, 0⟩ false true 2) (CS.init (cspace ⟨0, 10, 0, 10, 0, 0⟩ false true 2))
    [.add 1, .move 1 ⟨1, 1, 0⟩, .add 2, .move 2 ⟨1, 1, 0⟩]).map (·.2)) =
    some [.bool true, .loc (some ⟨1, 1, 0⟩), .bool true, .loc none] := by decide +kernel

/-! ### C37 -/

/-- The calls of a history, each from the state the previous ones lead to, satisfy `CallOk`: an agent that leaves a location it shares is not the one that
`get_agent` returns there; and after each move either no location is shared or no more locations are occupied than the threshold of the tree. -/
def Tame (c : CCfg) : CS → List (Op CPt) → Prop
  | _, [] => True
  | s, o :: os => ∀ s' r, cstep c s o = some (s', r) → CallOk c s s' o ∧ Tame c s' os

theorem CInv.init (c : CCfg) : CInv c (CS.init c) { known := [], placed := [] } := by
  refine ⟨Space.coupled_empty c.base ⟨0, 0, 0⟩, addr_init c, by simp, ?_, ?_⟩
  · exact (newComp_holds (fun _ h => h)).1
  · exact (newComp_holds (pts := (CS.init c).pts) (R := fun p => (rootBox c.bounds).contains c.d3 p = true) (fun _ h => h)).2.1

theorem CInv.run {c : CCfg} (hd : c.bounds.numDims ≠ 1) (htr : ∀ p w, (rootBox c.bounds).contains c.d3 (c.tr p w) = true) {s : CS} {t : Abs CPt}
    (h : CInv c s t) (ops : List (Op CPt)) (ha : AddsOnlyNew t.known ops) (ht : Tame c s ops) :
    ∃ s' rs t', crun c s ops = some (s', rs) ∧ CInv c s' t' := by
  induction ops generalizing s t with
  | nil => exact ⟨s, [], t, rfl, h⟩
  | cons o os ih =>
    obtain ⟨s1, r1, e1, _⟩ := cstep_base h.addr hd o
    obtain ⟨k1, k2⟩ := Space.known_step (single := c.single) (T := fun p => c.tr p s.wpt) ha
    obtain ⟨t1, t2⟩ := ht s1 r1 e1
    obtain ⟨s', rs, t', f1, f2⟩ := ih (h.step hd htr o k1 e1 t1) k2 t2
    exact ⟨s', r1 :: rs, t', by simp only [crun, e1, f1, Option.map_some], f2⟩

/-- A transform into the space's bounds is one into the bounds of the root of the tree. -/
theorem root_contains {c : CCfg} (hb : c.bounds.Ok) {p : CPt} (hd : c.bounds.numDims ≠ 1) (h : c.bounds.containsC p = true) :
    (rootBox c.bounds).contains c.d3 p = true := by
  obtain ⟨h1, h2, h3⟩ := (containsC_iff hb p).1 h
  have hy : 0 < c.bounds.yext := by
    unfold Box.numDims at hd
    have := hb.y
    by_cases e : 0 < c.bounds.yext
    · exact e
    · by_cases e' : 0 < c.bounds.zext
      · exact absurd (hb.zy e') e
      · simp [e, e'] at hd
  have h2 := h2 hy
  rw [NBox.contains_iff]
  simp only [rootBox, Box.xmax, Box.ymax, Box.zmax, Rat.intCast_add] at *
  refine ⟨⟨h1.1, by grind⟩, ⟨h2.1, by grind⟩, fun h => ?_⟩
  have hz : 0 < c.bounds.zext := by
    rw [CCfg.d3, decide_eq_true_eq, Box.numDims] at h
    split at h
    · assumption
    · simp at h
  have := h3 hz
  exact ⟨this.1, by grind⟩

/-- The query box is `QueryFits`: it has an extent in every dimension of the space. -/
def FullQuery (b q : Box) : Prop := 0 < q.yext ∧ (b.numDims = 3 → 0 < q.zext)

/-- C37, general form: for every space of two or three dimensions (single or multiple occupancy, any borders that map into the bounds,
any threshold) and every `Tame` history, `get_agents_within` of every box of the space's dimension returns exactly the agents located in the box,
each once. Missing (`_partial`): for the histories that are not `Tame` it is false, see `C37_lost`, `C37_twice`, `C37_crash`, `C37_split`; for boxes of fewer
dimensions `C37_flat_query`; for one-dimensional spaces `C37_one_dim`. -/
theorem C37_within_partial (c : CCfg) (hb : c.bounds.Ok) (hd : c.bounds.numDims ≠ 1) (htr : ∀ p w, c.bounds.containsC (c.tr p w) = true)
    (ops : List (Op CPt)) (ha : AddsOnlyNew [] ops) (ht : Tame c (CS.init c) ops) :
    ∃ s rs, crun c (CS.init c) ops = some (s, rs) ∧
    ∀ q, FullQuery c.bounds q → ∃ l, getWithin c s q = some l ∧ l.Nodup ∧
      ∀ a, a ∈ l ↔ ∃ p, locationOf c s a = some (.loc (some p)) ∧ q.containsC p = true := by
  obtain ⟨s, rs, t, e, h⟩ := CInv.run hd (fun p w => root_contains hb hd (htr p w)) (CInv.init c) ops ha ht
  refine ⟨s, rs, e, fun q hq => ?_⟩
  obtain ⟨l, l1, l2, l3⟩ := h.within hd q ⟨hq.1, fun h => hq.2 (by simpa [CCfg.d3] using h)⟩
  refine ⟨l, l1, l2, fun a => (l3 a).trans ?_⟩
  simp only [locationOf, cstep, Option.map_some, Option.some.injEq, CS.base, Res.loc.injEq]
  cases s.agents a with
  | none => simp
  | some o => simp

theorem CInv.run_single {c : CCfg} (hd : c.bounds.numDims ≠ 1) (hs : c.single = true) (htr : ∀ p w, (rootBox c.bounds).contains c.d3 (c.tr p w) = true)
    {s : CS} {t : Abs CPt} (h : CInv c s t) (ops : List (Op CPt)) (ha : AddsOnlyNew t.known ops) : Tame c s ops := by
  have len : ∀ {s t}, Coupled c.base s t → ∀ p, (s.loc p).length ≤ 1 := by
    intro s t h p
    rw [h.loc]; exact h.one hs p
  induction ops generalizing s t with
  | nil => trivial
  | cons o os ih =>
    intro s' r e
    obtain ⟨k1, k2⟩ := Space.known_step (single := c.single) (T := fun p => c.tr p s.wpt) ha
    have hml : ∀ a, MayLeave s a := by
      intro a k hk
      left
      have h1 : (s.loc (s.pts k)).length ≤ 1 := len h.coup (s.pts k)
      have h2 : a ∈ s.loc (s.pts k) := h.at_loc.2 ⟨k, hk, rfl⟩
      cases hl : s.loc (s.pts k) with
      | nil => rw [hl] at h2; cases h2
      | cons b l =>
        rw [hl] at h1 h2
        simp only [List.length_cons] at h1
        have : l = [] := List.eq_nil_of_length_eq_zero (by omega)
        subst this
        simp only [List.mem_singleton] at h2
        rw [h2]
    have hok : CallOk c s s' o := by
      cases o with
      | remove a => exact hml a
      | move a pt =>
        refine ⟨Or.inr (hml a), Or.inl ?_⟩
        obtain ⟨s1, r1, e1, _, e3, _⟩ := cstep_base h.addr hd (.move a pt)
        rw [e] at e1
        simp only [Option.some.injEq, Prod.mk.injEq] at e1
        obtain ⟨rfl, _⟩ := e1
        have hc := (h.coup.step (.move a pt) k1 (fun p => c.tr p s.wpt) (fun _ _ _ => rfl)).1
        rw [← e3] at hc
        exact len hc
      | _ => trivial
    exact ⟨hok, ih (h.step hd htr o k1 e hok) k2⟩

/-- C37 for single occupancy: no condition on the history. -/
theorem C37_single (b : Box) (hb : b.Ok) (hd : b.numDims ≠ 1) (isPeriodic : Bool) (thr : Int) (ops : List (Op CPt)) (ha : AddsOnlyNew [] ops) :
    let c := cspace b isPeriodic true thr
    ∃ s rs, crun c (CS.init c) ops = some (s, rs) ∧
    ∀ q, FullQuery b q → ∃ l, getWithin c s q = some l ∧ l.Nodup ∧
      ∀ a, a ∈ l ↔ ∃ p, locationOf c s a = some (.loc (some p)) ∧ q.containsC p = true := by
  intro c
  have htr : ∀ p w, c.bounds.containsC (c.tr p w) = true := by
    intro p w
    show b.containsC (if isPeriodic then cperiodic b p w else csticky b p) = true
    cases isPeriodic with
    | true => simpa using (C50_periodic_partial hb p w).1
    | false => simpa using (C50_sticky_partial hb p).1
  exact C37_within_partial c hb hd htr ops ha (CInv.run_single hd rfl (fun p w => root_contains hb hd (htr p w)) (CInv.init c) ops ha)

/-- C37 for multiple occupancy when agents never share a location, for any threshold (a special case of `C37_within_partial`): the histories whose moves
go to locations that are not occupied by others. -/
def NeverShared (c : CCfg) : CS → List (Op CPt) → Prop
  | _, [] => True
  | s, o :: os => ∀ s' r, cstep c s o = some (s', r) → (∀ p, (s'.loc p).length ≤ 1) ∧ NeverShared c s' os

theorem CInv.run_never {c : CCfg} (hd : c.bounds.numDims ≠ 1) (htr : ∀ p w, (rootBox c.bounds).contains c.d3 (c.tr p w) = true)
    {s : CS} {t : Abs CPt} (h : CInv c s t) (h0 : ∀ p, (s.loc p).length ≤ 1) (ops : List (Op CPt)) (ha : AddsOnlyNew t.known ops)
    (hn : NeverShared c s ops) : Tame c s ops := by
  induction ops generalizing s t with
  | nil => trivial
  | cons o os ih =>
    intro s' r e
    obtain ⟨k1, k2⟩ := Space.known_step (single := c.single) (T := fun p => c.tr p s.wpt) ha
    obtain ⟨n1, n2⟩ := hn s' r e
    have hml : ∀ a, MayLeave s a := by
      intro a k hk
      left
      have h1 := h0 (s.pts k)
      have h2 : a ∈ s.loc (s.pts k) := h.at_loc.2 ⟨k, hk, rfl⟩
      cases hl : s.loc (s.pts k) with
      | nil => rw [hl] at h2; cases h2
      | cons b l =>
        rw [hl] at h1 h2
        simp only [List.length_cons] at h1
        have : l = [] := List.eq_nil_of_length_eq_zero (by omega)
        subst this
        simp only [List.mem_singleton] at h2
        rw [h2]
    have hok : CallOk c s s' o := by
      cases o with
      | remove a => exact hml a
      | move a pt => exact ⟨Or.inr (hml a), Or.inl n1⟩
      | _ => trivial
    exact ⟨hok, ih (h.step hd htr o k1 e hok) n1 k2 n2⟩

theorem C37_never_shared_partial (c : CCfg) (hb : c.bounds.Ok) (hd : c.bounds.numDims ≠ 1) (htr : ∀ p w, c.bounds.containsC (c.tr p w) = true)
    (ops : List (Op CPt)) (ha : AddsOnlyNew [] ops) (hn : NeverShared c (CS.init c) ops) :
    ∃ s rs, crun c (CS.init c) ops = some (s, rs) ∧
    ∀ q, FullQuery c.bounds q → ∃ l, getWithin c s q = some l ∧ l.Nodup ∧
      ∀ a, a ∈ l ↔ ∃ p, locationOf c s a = some (.loc (some p)) ∧ q.containsC p = true :=
  C37_within_partial c hb hd htr ops ha
    (CInv.run_never hd (fun p w => root_contains hb hd (htr p w)) (CInv.init c) (by simp [CS.init]) ops ha hn)

/-! ### violations -/

/-- What `get_agents_within(q)` returns after the calls `ops` (`none`: a null pointer is dereferenced). -/
def withinAfter (c : CCfg) (ops : List (Op CPt)) (q : Box) : Option (List Nat) := (crun c (CS.init c) ops).bind (fun r => getWithin c r.1 q)
/-- `get_location(a)` after the calls. -/
def locationAfter (c : CCfg) (ops : List (Op CPt)) (a : Nat) : Option (Res CPt) := (crun c (CS.init c) ops).bind (fun r => locationOf c r.1 a)

/-- A two-dimensional space with multiple occupancy. -/
def mspace (thr : Int) : CCfg := cspace ⟨0, 10, 0, 10, 0, 0⟩ false false thr

/-- Agent 2 joins agent 1, and agent 1 moves on. -/
def joinAndLeave : List (Op CPt) := [.add 1, .add 2, .move 1 ⟨1, 1, 0⟩, .move 2 ⟨1, 1, 0⟩, .move 1 ⟨8, 8, 0⟩]

/-- C37 is violated: an agent whose location is in the box is not returned. -/
theorem C37_lost : locationAfter (mspace 100) joinAndLeave 2 = some (.loc (some ⟨1, 1, 0⟩)) ∧
    withinAfter (mspace 100) joinAndLeave ⟨0, 5, 0, 5, 0, 0⟩ = some [] := by decide +kernel

/-- C37 is violated: an agent is returned twice. -/
theorem C37_twice : withinAfter (mspace 100) joinAndLeave ⟨5, 5, 5, 5, 0, 0⟩ = some [1, 1] := by decide +kernel

/-- C37 is violated: after the agent is removed the same query dereferences a null pointer. -/
theorem C37_crash : withinAfter (mspace 100) (joinAndLeave ++ [.remove 1]) ⟨5, 5, 5, 5, 0, 0⟩ = none := by decide +kernel

/-- C37 is violated: a split of a node of the tree forgets how many agents are at a location, so that when one of them leaves the others are lost. -/
theorem C37_split :
    let ops := [.add 1, .add 2, .add 3, .move 1 ⟨1, 1, 0⟩, .move 2 ⟨1, 1, 0⟩, .move 3 ⟨2, 2, 0⟩, .move 2 ⟨8, 8, 0⟩]
    locationAfter (mspace 1) ops 1 = some (.loc (some ⟨1, 1, 0⟩)) ∧ withinAfter (mspace 1) ops ⟨0, 5, 0, 5, 0, 0⟩ = some [3] := by decide +kernel

/-- C37 is violated: for a box that has only a first dimension the result depends on which part of the tree an agent is in. The two agents are in the box
(as `BoundingBox::contains` defines it), one of them is returned. -/
theorem C37_flat_query :
    let ops := [.add 1, .add 2, .move 1 ⟨1, 1, 0⟩, .move 2 ⟨1, 8, 0⟩]
    let q : Box := ⟨0, 5, 0, 0, 0, 0⟩
    q.containsC ⟨1, 1, 0⟩ = true ∧ q.containsC ⟨1, 8, 0⟩ = true ∧ withinAfter (mspace 100) ops q = some [1] := by decide +kernel

/-- C37 is violated: a one-dimensional continuous space has no tree; placing an agent dereferences a null pointer. -/
theorem C37_one_dim (isPeriodic single : Bool) (thr : Int) :
    crun (cspace ⟨0, 10, 0, 0, 0, 0⟩ isPeriodic single thr) (CS.init (cspace ⟨0, 10, 0, 0, 0, 0⟩ isPeriodic single thr)) [.add 1, .move 1 ⟨1, 0, 0⟩] =
      (none : Option (CS × List (Res CPt))) := by
  cases isPeriodic <;> cases single <;> rfl

/-- A history in which nodes are split and agents share a location, for `C37_within_partial`. -/
example : withinAfter (cspace ⟨0, 10, 0, 10, 0, 0⟩ true true 1)
    [.add 1, .add 2, .add 3, .move 1 ⟨1, 1, 0⟩, .move 2 ⟨12, 2, 0⟩, .move 3 ⟨1, 3, 0⟩, .move 3 ⟨-2, 3, 0⟩, .move 1 ⟨7, 1, 0⟩, .remove 2]
    ⟨5, 4, 0, 5, 0, 0⟩ = some [1, 3] := by decide +kernel

/-- A `Tame` history with a shared location. -/
example : Tame (mspace 100) (CS.init (mspace 100)) [.add 1, .add 2, .move 1 ⟨1, 1, 0⟩, .move 2 ⟨1, 1, 0⟩] := by
  have htr : csticky ⟨0, 10, 0, 10, 0, 0⟩ ⟨1, 1, 0⟩ = ⟨1, 1, 0⟩ := by decide +kernel
  intro s1 r1 e1
  cases e1
  refine ⟨trivial, ?_⟩
  intro s1 r1 e1
  cases e1
  refine ⟨trivial, ?_⟩
  intro s1 r1 e1
  cases e1
  refine ⟨⟨Or.inr (fun k hk => by cases hk), Or.inr ⟨[⟨1, 1, 0⟩], by decide, fun p hp => ?_⟩⟩, ?_⟩
  · have hp' : upd (fun _ => []) (csticky ⟨0, 10, 0, 10, 0, 0⟩ ⟨1, 1, 0⟩) [1] p ≠ [] := hp
    rw [htr] at hp'
    by_cases e : p = ⟨1, 1, 0⟩
    · simp [e]
    · rw [upd_ne _ _ e] at hp'; exact absurd rfl hp'
  intro s1 r1 e1
  cases e1
  refine ⟨⟨Or.inr (fun k hk => by cases hk), Or.inr ⟨[⟨1, 1, 0⟩], by decide, fun p hp => ?_⟩⟩, trivial⟩
  have hp' : upd (upd (fun _ => []) (csticky ⟨0, 10, 0, 10, 0, 0⟩ ⟨1, 1, 0⟩) [1]) (csticky ⟨0, 10, 0, 10, 0, 0⟩ ⟨1, 1, 0⟩)
    (upd (fun _ => []) (csticky ⟨0, 10, 0, 10, 0, 0⟩ ⟨1, 1, 0⟩) [1] (csticky ⟨0, 10, 0, 10, 0, 0⟩ ⟨1, 1, 0⟩) ++ [2]) p ≠ [] := hp
  rw [htr] at hp'
  by_cases e : p = ⟨1, 1, 0⟩
  · simp [e]
  · rw [upd_ne _ _ e, upd_ne _ _ e] at hp'; exact absurd rfl hp'

end Repast.Tree
