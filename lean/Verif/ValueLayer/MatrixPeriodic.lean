import Verif.ValueLayer.Matrix
import Verif.ValueLayer.Periodic

/-! C77: shared value layers with periodic borders in two dimensions are one matrix, as far as C40 holds for them. -/
namespace Repast.ValueLayer
open Repast.Space Repast.Geometry Repast.Topology

variable {V : Type} {t : Topo} {buf : Nat}

/-! ### Specification -/

/-- The location that `u` stands for in a periodic world of two dimensions. -/
def wrapped (t : Topo) (u : Pt) : Pt := ⟨u.x % t.box.xext, u.y % t.box.yext, 0⟩

/-- Locations, not below the origin, within `buf` of the local bounds of rank `k`. -/
def Around (t : Topo) (buf k : Nat) (u : Pt) : Prop :=
  (0 ≤ u.x ∧ (t.bounds k).xmin - buf ≤ u.x ∧ u.x < (t.bounds k).xmin + (t.bounds k).xext + buf) ∧
  (0 ≤ u.y ∧ (t.bounds k).ymin - buf ≤ u.y ∧ u.y < (t.bounds k).ymin + (t.bounds k).yext + buf)

/-! ### Places -/

/-- The place of a location that is near the local bounds. -/
theorem spot_at (h : Wrapping t buf) (n2 : t.nd = 2) {k : Nat} {u : Pt} (hx : (lx t k).1 - buf ≤ u.x) (hy : (ly t k).1 - buf ≤ u.y) :
    spot t buf k (u.y - (ly t k).1 + buf).toNat (u.x - (lx t k).1 + buf).toNat = wrapped t u := by
  unfold spot wrapped
  rw [if_neg (by omega), (boundsX h k).1, (boundsY h n2 k).1]
  congr 2 <;> omega

theorem spot_self (h : Wrapping t buf) (n2 : t.nd = 2) {k : Nat} {q : Pt} (ho : Owns t k q) (hz : q.z = 0) : wrapped t q = q ∧ (lx t k).1 ≤ q.x ∧ q.x < (lx t k).2 ∧ (ly t k).1 ≤ q.y ∧ q.y < (ly t k).2 := by
  obtain ⟨o1, o2⟩ := (wowns_iff h k _).1 ho.2
  have hin := (contains_iff h.ok.box q).1 ((C33_partition_partial h.ok h.fits q).2 k ho.1 ho.2)
  obtain ⟨i1, i2, -⟩ := hin
  have i2 := i2 (by have := wrapping_nd h; omega)
  rw [h.x0] at i1
  rw [h.y0] at i2
  have i1 : 0 ≤ q.x ∧ q.x < 0 + t.box.xext := i1
  have i2 : 0 ≤ q.y ∧ q.y < 0 + t.box.yext := i2
  refine ⟨?_, o1.1, o1.2, ?_⟩
  · unfold wrapped
    rw [Int.emod_eq_of_lt (by omega) (by omega), Int.emod_eq_of_lt (by omega) (by omega), ← hz]
  · unfold ly
    rw [if_neg (by omega)]
    exact o2 n2

/-- A place of `k` whose location belongs to `k` is the place of that location. -/
theorem place_self (h : Wrapping t buf) (n2 : t.nd = 2) {k : Nat} (hk : k < t.size) {row col : Nat} (hq : InTen t buf k row col) (ho : Owns t k (spot t buf k row col)) :
    row = ((spot t buf k row col).y - (ly t k).1 + buf).toNat ∧ col = ((spot t buf k row col).x - (lx t k).1 + buf).toNat := by
  have e := own_self h hk hq ho (V := Nat × Nat) { nz := 1, ny := 1, nx := 1, at_ := fun _ j i => (j, i) }
  unfold own at e
  rw [if_neg (by omega), (boundsX h k).1, (boundsY h n2 k).1] at e
  simp only [Prod.mk.injEq] at e
  exact ⟨e.1.symm, e.2.symm⟩

theorem set_wrapping (h : Wrapping t buf) (n2 : t.nd = 2) {k : Nat} (hk : k < t.size) {l : Layer V} (hd : WDims t buf k l) {u : Pt} (hu : 0 ≤ u.x ∧ 0 ≤ u.y)
    (hx : (lx t k).1 - buf ≤ u.x ∧ u.x < (lx t k).2 + buf) (hy : (ly t k).1 - buf ≤ u.y ∧ u.y < (ly t k).2 + buf) (v : V) (row col : Nat) :
    (l.set u v).1.ten.at_ 0 row col = if row = (u.y - (ly t k).1 + buf).toNat ∧ col = (u.x - (lx t k).1 + buf).toNat then v else l.ten.at_ 0 row col := by
  obtain ⟨⟨b1, b2⟩, -, b4, b5⟩ := bufBox_wrapping h hk
  obtain ⟨b6, b7⟩ := b4 n2
  obtain ⟨l1, l2, l3⟩ := wlow h hk
  have l3 := l3 n2
  have tx := hd.tx
  have ty := hd.ty n2
  have nx := hd.nx
  have ny := hd.ny
  rw [if_neg (by omega)] at ny
  have hbx : (bufBox t buf k).xmin ≤ u.x ∧ u.x < (bufBox t buf k).xmin + (bufBox t buf k).xext := by rw [b1, b2]; split <;> omega
  have hby : (bufBox t buf k).ymin ≤ u.y ∧ u.y < (bufBox t buf k).ymin + (bufBox t buf k).yext := by rw [b6, b7]; split <;> omega
  have htr : (l.transform u).x = u.x ∧ (l.transform u).y = u.y := by
    unfold Layer.transform
    rw [hd.per, hd.box, if_pos rfl]
    unfold Space.periodic
    rw [if_neg (by omega), if_pos (by omega)]
    exact ⟨periodic1_inside (by omega) hbx, periodic1_inside (by omega) hby⟩
  have hc : l.cell (l.transform u) = some (0, (u.y - (ly t k).1 + buf).toNat, (u.x - (lx t k).1 + buf).toNat) := by
    unfold Layer.cell index
    rw [if_neg (by rw [hd.nd]; omega), if_pos (by rw [hd.nd]; omega), htr.1, htr.2, tx, ty]
    rw [if_pos (by omega), if_pos (by omega), if_pos (by omega), if_pos (by omega)]
    simp only [Option.bind_eq_bind, Option.bind_some, Option.pure_def]
    congr 4 <;> omega
  unfold Layer.set
  simp only [hc]
  unfold Ten.set
  simp

/-! ### The refinement -/

/-- The owner of each place has the value of `mo` there, the others that of `ms`. -/
structure One (t : Topo) (buf : Nat) (w : Nat → Layer V) (mo ms : Map V) : Prop where
  dims : ∀ k, k < t.size → WDims t buf k (w k)
  vals : ∀ k row col r, k < t.size → InTen t buf k row col → Owns t r (spot t buf k row col) →
    (w k).ten.at_ 0 row col = if r = k then mo (spot t buf k row col) else ms (spot t buf k row col)

/-- The matrices after a history. -/
def matrices : Map V × Map V → List (SOp V × (Nat → Nat → Nat → V)) → Map V × Map V
  | m, [] => m
  | m, (.call _ (.set p v), _) :: os => matrices (fun q => if q = p then v else m.1 q, m.2) os
  | m, (.call _ _, _) :: os => matrices m os
  | m, (.synch, _) :: os => matrices (m.1, m.1) os

theorem One.own (h : Wrapping t buf) (n2 : t.nd = 2) {w : Nat → Layer V} {mo ms : Map V} (o : One t buf w mo ms) {r : Nat} {q : Pt} (ho : Owns t r q) (hz : q.z = 0) :
    ValueLayer.own t buf r (w r).ten q = mo q := by
  obtain ⟨e, q1, q2, q3, q4⟩ := spot_self h n2 ho hz
  have es := spot_at h n2 (k := r) (u := q) (by omega) (by omega)
  rw [e] at es
  have hq : InTen t buf r (q.y - (ly t r).1 + buf).toNat (q.x - (lx t r).1 + buf).toNat := by
    refine ⟨by omega, ?_⟩
    rw [if_neg (by omega)]
    omega
  have := o.vals r _ _ r ho.1 hq (by rw [es]; exact ho)
  rw [if_pos rfl, es] at this
  unfold ValueLayer.own
  rw [if_neg (by omega), (boundsX h r).1, (boundsY h n2 r).1]
  exact this

theorem spot_z (t : Topo) (buf k row col : Nat) : (spot t buf k row col).z = 0 := rfl

theorem One.synch (h : Wrapping t buf) (n2 : t.nd = 2) {w : Nat → Layer V} {mo ms : Map V} (o : One t buf w mo ms) (junk : Nat → Nat → Nat → V) :
    ∃ w', ValueLayer.synch t buf junk w = some w' ∧ One t buf w' mo mo := by
  obtain ⟨w', f1, f2, f3⟩ := synch_wrapping h o.dims junk
  refine ⟨w', f1, f2, fun k row col r hk hq ho => ?_⟩
  have d := f2 k hk
  have nx := d.nx
  have ny := d.ny
  obtain ⟨q1, q2⟩ := hq
  rw [if_neg (by omega)] at ny q2
  obtain ⟨r', hr, hc, e⟩ := f3 k row col hk (by omega) (by omega)
  rw [e, o.own h n2 ⟨hr, hc⟩ rfl]
  simp

theorem One.set (h : Wrapping t buf) (n2 : t.nd = 2) {w : Nat → Layer V} {mo ms : Map V} (o : One t buf w mo ms) {r : Nat} {p : Pt} (ho : Owns t r p) (hz : p.z = 0) (v : V) :
    One t buf (upd w r ((w r).step (.set p v)).1) (fun q => if q = p then v else mo q) ms := by
  obtain ⟨e, q1, q2, q3, q4⟩ := spot_self h n2 ho hz
  have es := spot_at h n2 (k := r) (u := p) (by omega) (by omega)
  rw [e] at es
  have hin := (contains_iff h.ok.box p).1 ((C33_partition_partial h.ok h.fits p).2 r ho.1 ho.2)
  obtain ⟨i1, i2, -⟩ := hin
  have i2 := i2 (by have := wrapping_nd h; omega)
  rw [h.x0] at i1
  rw [h.y0] at i2
  have d := step_dims (o.dims r ho.1) (.set p v)
  constructor
  · intro k hk
    unfold upd
    split
    · rename_i e; subst e; exact d
    · exact o.dims k hk
  · intro k row col r' hk hq ho'
    unfold upd
    by_cases hkr : k = r
    · subst hkr
      rw [if_pos rfl]
      have := set_wrapping h n2 hk (o.dims k hk) (u := p) ⟨i1.1, i2.1⟩ ⟨by omega, by omega⟩ ⟨by omega, by omega⟩ v row col
      rw [show ((w k).step (.set p v)).1 = ((w k).set p v).1 from rfl, this, o.vals k row col r' hk hq ho']
      by_cases hrk : r' = k
      · subst hrk
        have hp := place_self h n2 hk hq ho'
        simp only [if_true]
        by_cases hsp : spot t buf r' row col = p
        · rw [if_pos hsp, if_pos (by rw [hsp] at hp; exact hp)]
        · rw [if_neg hsp, if_neg]
          rintro ⟨rfl, rfl⟩
          exact hsp es
      · rw [if_neg hrk, if_neg hrk, if_neg]
        rintro ⟨rfl, rfl⟩
        rw [es] at ho'
        exact hrk (wowns_unique h ho ho')
    · rw [if_neg hkr, o.vals k row col r' hk hq ho']
      by_cases hrk : r' = k
      · subst hrk
        have : spot t buf r' row col ≠ p := fun e => hkr (wowns_unique h ho (e ▸ ho'))
        rw [if_pos rfl, if_pos rfl, if_neg this]
      · rw [if_neg hrk, if_neg hrk]

theorem One.run (h : Wrapping t buf) (n2 : t.nd = 2) (ops : List (SOp V × (Nat → Nat → Nat → V))) {w : Nat → Layer V} {mo ms : Map V} (o : One t buf w mo ms)
    (hr : ∀ r p v junk, (SOp.call r (.set p v), junk) ∈ ops → Owns t r p ∧ p.z = 0) :
    ∃ w', srun t buf w ops = some w' ∧ One t buf w' (matrices (mo, ms) ops).1 (matrices (mo, ms) ops).2 := by
  induction ops generalizing w mo ms with
  | nil => exact ⟨w, rfl, o⟩
  | cons a ops ih =>
    obtain ⟨a, junk⟩ := a
    have hr' : ∀ r p v junk, (SOp.call r (.set p v), junk) ∈ ops → Owns t r p ∧ p.z = 0 := fun r p v j hm => hr r p v j (List.mem_cons_of_mem _ hm)
    have same : ∀ {r : Nat} {a : Op V}, ((w r).step a).1.ten = (w r).ten → One t buf (upd w r ((w r).step a).1) mo ms := by
      intro r a e
      constructor
      · intro k hk
        unfold upd
        split
        · rename_i e; subst e; exact step_dims (o.dims k hk) a
        · exact o.dims k hk
      · intro k row col r' hk hq ho
        rw [← o.vals k row col r' hk hq ho]
        unfold upd
        split
        · rename_i e'; subst e'; rw [e]
        · rfl
    cases a with
    | call r a =>
      cases a with
      | set p v =>
        obtain ⟨h1, h2⟩ := hr r p v junk (by simp)
        exact ih (o.set h n2 h1 h2 v) hr'
      | get p => exact ih (same rfl) hr'
      | nghs p => exact ih (same rfl) hr'
    | synch =>
      obtain ⟨w', e1, o'⟩ := o.synch h n2 junk
      obtain ⟨w'', f1, f2⟩ := ih o' hr'
      refine ⟨w'', ?_, f2⟩
      unfold srun
      simp only [e1, Option.bind_eq_bind, Option.bind_some]
      exact f1

/-! ### The last values -/

theorem matrices_fst (q : Pt) : ∀ (ops : List (SOp V × (Nat → Nat → Nat → V))) (m : Map V × Map V), (matrices m ops).1 q = (lastSet q ops).getD (m.1 q) := by
  intro ops
  induction ops with
  | nil => intro m; rfl
  | cons a ops ih =>
    intro m
    obtain ⟨a, junk⟩ := a
    cases a with
    | call r a =>
      cases a with
      | set p v =>
        unfold matrices lastSet
        rw [ih]
        cases e : lastSet q ops with
        | some x => simp
        | none =>
          by_cases hp : q = p
          · subst hp; simp
          · simp [hp, Ne.symm hp]
      | get p => exact ih m
      | nghs p => exact ih m
    | synch => exact ih _

/-- Whether the ranks synchronize. -/
def hasSynch (ops : List (SOp V × (Nat → Nat → Nat → V))) : Bool := ops.any fun o => match o.1 with | .synch => true | _ => false

theorem matrices_snd (q : Pt) : ∀ (ops : List (SOp V × (Nat → Nat → Nat → V))) (m : Map V × Map V),
    (matrices m ops).2 q = if hasSynch ops then (lastSet q (synched ops)).getD (m.1 q) else m.2 q := by
  intro ops
  induction ops with
  | nil => intro m; rfl
  | cons a ops ih =>
    intro m
    obtain ⟨a, junk⟩ := a
    have hsyn : synched ((a, junk) :: ops) = if hasSynch ((a, junk) :: ops) then (a, junk) :: synched ops else [] := rfl
    have hnil : hasSynch ops = false → synched ops = [] := by
      intro h
      cases ops with
      | nil => rfl
      | cons b ops =>
        unfold synched
        rw [if_neg]
        intro h'
        rw [show hasSynch (b :: ops) = true from h'] at h
        cases h
    cases a with
    | call r a =>
      have hs : hasSynch ((.call r a, junk) :: ops) = hasSynch ops := by simp [hasSynch]
      rw [hsyn, hs]
      cases a with
      | set p v =>
        unfold matrices
        rw [ih]
        cases c : hasSynch ops with
        | false => simp
        | true =>
          simp only [if_true]
          rw [show lastSet q ((.call r (.set p v), junk) :: synched ops) = (lastSet q (synched ops)).or (if p = q then some v else none) from rfl]
          cases e : lastSet q (synched ops) with
          | some x => simp
          | none =>
            by_cases hp : q = p
            · subst hp; simp
            · simp [hp, Ne.symm hp]
      | get p =>
        rw [show matrices m ((.call r (.get p), junk) :: ops) = matrices m ops from rfl, ih]
        cases c : hasSynch ops <;> simp [lastSet]
      | nghs p =>
        rw [show matrices m ((.call r (.nghs p), junk) :: ops) = matrices m ops from rfl, ih]
        cases c : hasSynch ops <;> simp [lastSet]
    | synch =>
      have hs : hasSynch ((.synch, junk) :: ops) = true := by simp [hasSynch]
      rw [hsyn, hs, show matrices m ((.synch, junk) :: ops) = matrices (m.1, m.1) ops from rfl, ih]
      simp only [if_true]
      rw [show lastSet q ((.synch, junk) :: synched ops) = lastSet q (synched ops) from rfl]
      cases c : hasSynch ops with
      | true => rfl
      | false => rw [hnil c]; rfl

theorem One.create (h : Wrapping t buf) (n2 : t.nd = 2) (junk : Nat → Nat → Nat → V) (rand : Nat → Nat → Nat → Nat → V) (v : Option V) :
    ∃ (w : Nat → Layer V) (m : Map V), ValueLayer.create t buf junk rand v = some w ∧ (∀ x, v = some x → ∀ q, m q = x) ∧ One t buf w m m := by
  have hsize := wsize h
  have hall : ((List.range t.size).all fun k => (construct t buf (rand k) v k).isSome) = true := by
    rw [List.all_eq_true]
    intro k hk
    obtain ⟨m', e, -⟩ := construct_wrapping h (rand k) v (List.mem_range.1 hk)
    rw [e]; rfl
  let w0 := fun k => (construct t buf (rand k) v k).getD (Layer.new (bufBox t buf k) t.periodic (rand k))
  have hw0 : ∀ k, k < t.size → WDims t buf k (w0 k) ∧ ∀ x, v = some x → ∀ q, Owns t k q → ValueLayer.own t buf k (w0 k).ten q = x := by
    intro k hk
    obtain ⟨l, e, e1, e2⟩ := construct_wrapping h (rand k) v hk
    simp only [w0, e, Option.getD_some]
    exact ⟨e1, e2⟩
  obtain ⟨w, e1, e2, e3⟩ := synch_wrapping h (fun k hk => (hw0 k hk).1) junk
  have hcr : ValueLayer.create t buf junk rand v = some w := by
    unfold ValueLayer.create
    rw [if_pos hall, if_pos hsize]
    exact e1
  refine ⟨w, fun q => match v with | some x => x | none => ValueLayer.own t buf (owner t q) (w0 (owner t q)).ten q, hcr, fun x hx q => by subst hx; rfl, e2, fun k row col r hk hq ho => ?_⟩
  have d := e2 k hk
  have nx := d.nx
  have ny := d.ny
  obtain ⟨q1, q2⟩ := hq
  rw [if_neg (by omega)] at ny q2
  obtain ⟨r', hr, hc, e⟩ := e3 k row col hk (by omega) (by omega)
  rw [e, ite_self]
  cases v with
  | some x => exact (hw0 r' hr).2 x rfl _ ⟨hr, hc⟩
  | none =>
    have : owner t (spot t buf k row col) = r' := by
      unfold owner
      cases hf : (List.range t.size).find? fun r => (t.bounds r).contains (spot t buf k row col) with
      | none =>
        have := List.find?_eq_none.1 hf r' (List.mem_range.2 hr)
        exact absurd hc this
      | some r'' =>
        have h1 := List.find?_some hf
        have h2 := List.mem_range.1 (List.mem_of_find?_eq_some hf)
        exact wowns_unique h ⟨hr, hc⟩ ⟨h2, h1⟩
    simp only [this]

/-! ### C77 -/

/-- C77 (what is missing: locations below the origin, one dimension and others, see C40): with periodic borders in two dimensions, if the ranks set only locations in their own local bounds, the layers of
all ranks are one matrix whose borders meet. `get` on the rank that owns a location returns the last value that the location was given; on other ranks, for a location within `buf` of the local bounds, perhaps
across the borders, it returns the last value that the location it stands for was given before the ranks synchronized for the last time. -/
theorem C77_periodic_partial (h : Wrapping t buf) (n2 : t.nd = 2) (junk0 : Nat → Nat → Nat → V) (rand : Nat → Nat → Nat → Nat → V) (v : Option V) :
    ∃ (w0 : Nat → Layer V) (m0 : Map V), create t buf junk0 rand v = some w0 ∧ (∀ x, v = some x → ∀ q, m0 q = x) ∧
      ∀ ops : List (SOp V × (Nat → Nat → Nat → V)), (∀ r p v junk, (SOp.call r (.set p v), junk) ∈ ops → r < t.size ∧ (t.bounds r).contains p = true ∧ p.z = 0) →
        ∃ w, srun t buf w0 ops = some w ∧ ∀ k u, k < t.size → Around t buf k u →
          ((w k).get u).2 = .val ((lastSet (wrapped t u) (if (t.bounds k).contains (wrapped t u) then ops else synched ops)).getD (m0 (wrapped t u))) := by
  obtain ⟨w0, m0, e0, i0, o0⟩ := One.create h n2 junk0 rand v
  refine ⟨w0, m0, e0, i0, fun ops hr => ?_⟩
  obtain ⟨w, e1, o⟩ := o0.run h n2 ops fun r p v junk hm => ⟨⟨(hr r p v junk hm).1, (hr r p v junk hm).2.1⟩, (hr r p v junk hm).2.2⟩
  refine ⟨w, e1, fun k u hk hu => ?_⟩
  obtain ⟨⟨u1, u2, u3⟩, u4, u5, u6⟩ := hu
  have bx := boundsX h k
  have by_ := boundsY h n2 k
  have es := spot_at h n2 (k := k) (u := u) (by omega) (by omega)
  have hq : InTen t buf k (u.y - (ly t k).1 + buf).toNat (u.x - (lx t k).1 + buf).toNat := by
    refine ⟨by omega, ?_⟩
    rw [if_neg (by omega)]
    omega
  obtain ⟨r, ho⟩ := spot_owner h k (u.y - (ly t k).1 + buf).toNat (u.x - (lx t k).1 + buf).toNat
  rw [get_wrapping h n2 hk (o.dims k hk) ⟨u1, u4⟩ ⟨by omega, by omega⟩ ⟨by omega, by omega⟩, o.vals k _ _ r hk hq ho]
  rw [es] at ho ⊢
  congr 1
  by_cases hrk : r = k
  · subst hrk
    rw [if_pos rfl, if_pos ho.2, matrices_fst]
  · have : (t.bounds k).contains (wrapped t u) ≠ true := fun hc => hrk (wowns_unique h ⟨hk, hc⟩ ho)
    rw [if_neg hrk, if_neg this, matrices_snd]
    split
    · rfl
    · rename_i hs
      have : synched ops = [] := by
        cases ops with
        | nil => rfl
        | cons b ops =>
          unfold synched
          rw [if_neg]
          exact hs
      rw [this]; rfl

/-- Nine ranks: rank 0 sets its location (0, 0), and sets it again after the synchronization. Rank 2, which has the locations (0, 6) to (2, 8), looks across the border. -/
def exAcross : List (SOp Int × (Nat → Nat → Nat → Int)) :=
  [(.call 0 (.set ⟨0, 0, 0⟩ 5), fun _ _ _ => -7), (.synch, fun _ _ _ => -7), (.call 0 (.set ⟨0, 0, 0⟩ 6), fun _ _ _ => -7)]

example : Wrapping (exT2 3 3 9 9) 1 ∧ (∀ r p v junk, (SOp.call r (.set p v), junk) ∈ exAcross → r < (exT2 3 3 9 9).size ∧ ((exT2 3 3 9 9).bounds r).contains p = true ∧ p.z = 0) ∧
    Around (exT2 3 3 9 9) 1 2 ⟨0, 9, 0⟩ ∧ wrapped (exT2 3 3 9 9) ⟨0, 9, 0⟩ = ⟨0, 0, 0⟩ ∧ lastSet ⟨0, 0, 0⟩ (synched exAcross) = some 5 ∧
    look ((create (exT2 3 3 9 9) 1 (fun _ _ _ => -7) (fun _ _ _ _ => -1) (some 0)).bind fun w => srun (exT2 3 3 9 9) 1 w exAcross) 2 ⟨0, 9, 0⟩ = some (.val 5) := by
  refine ⟨exT2_wrapping, fun r p v junk hm => ?_, ?_, by decide, by decide +kernel, by decide +kernel⟩
  · simp only [exAcross, List.mem_cons, List.not_mem_nil, or_false, Prod.mk.injEq, SOp.call.injEq, Op.set.injEq, reduceCtorEq, false_and, false_or] at hm
    rcases hm with ⟨⟨rfl, rfl, -⟩, -⟩ | ⟨⟨rfl, rfl, -⟩, -⟩ <;> decide
  · unfold Around; decide

end Repast.ValueLayer
