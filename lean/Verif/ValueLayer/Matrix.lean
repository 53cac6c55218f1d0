import Verif.ValueLayer.SharedProps

/-!
C77: a shared value layer is one matrix, of which each rank owns a part and has a copy of what is around it; and the same for the two layers of a `ReadWriteValueLayer` (value_layer.py:992-1113).
-/
namespace Repast.ValueLayer
open Repast.Space Repast.Geometry Repast.Topology

variable {V : Type}

/-! ### Read/write layers of several ranks -/

/-- value_layer.py:1031-1033: the read and the write layers of all ranks. -/
structure RWs (V : Type) where
  read : Nat → Layer V
  write : Nat → Layer V

/-- Calls on the `ReadWriteValueLayer` of rank `r`, and `_synch_ghosts` on all ranks. `junkW` and `junkR` are what the send buffers held before. -/
inductive ROp (V : Type) where
  | get (r : Nat) (p : Pt)
  | set (r : Nat) (p : Pt) (v : V)
  | swap (r : Nat)
  | synch (junkW junkR : Nat → Nat → Nat → V)

/-- value_layer.py:1031-1033 `__init__`, on all ranks. -/
def rwCreate (t : Topo) (buf : Nat) (junkR junkW : Nat → Nat → Nat → V) (randR randW : Nat → Nat → Nat → Nat → V) (v : Option V) : Option (RWs V) :=
  (create t buf junkR randR v).bind fun r => (create t buf junkW randW v).map fun w => { read := r, write := w }

/-- value_layer.py:1035-1037 `swap_layers`, 1058-1077 `get` and `set`, 1100-1109 `_synch_ghosts`: first the write layers, then the read layers. -/
def RWs.step (t : Topo) (buf : Nat) (s : RWs V) : ROp V → Option (RWs V)
  | .get r p => some { s with read := upd s.read r ((s.read r).get p).1 }
  | .set r p v => some { s with write := upd s.write r ((s.write r).set p v).1 }
  | .swap r => some { read := upd s.read r (s.write r), write := upd s.write r (s.read r) }
  | .synch junkW junkR => (synch t buf junkW s.write).bind fun w => (synch t buf junkR s.read).map fun r => { read := r, write := w }

def RWs.run (t : Topo) (buf : Nat) (s : RWs V) (ops : List (ROp V)) : Option (RWs V) := ops.foldlM (RWs.step t buf) s

/-! ### Specification -/

/-- A location that rank `k` has: one of the layer, in the local bounds of `k` or within `buf` of them. The coordinates of dimensions that the layer does not have are 0. -/
def Reach (t : Topo) (buf k : Nat) (q : Pt) : Prop := t.box.contains q = true ∧ Near t buf k q ∧ (t.box.yext = 0 → q.y = 0) ∧ (t.box.zext = 0 → q.z = 0)

/-- The rank in whose local bounds a location is. -/
def owner (t : Topo) (q : Pt) : Nat := ((List.range t.size).find? fun r => (t.bounds r).contains q).getD 0

/-- What each rank has where. `set` changes the place on the rank that calls it; `_synch_ghosts` gives all ranks what the owners have. -/
def wants (t : Topo) (m : Nat → Map V) : List (SOp V × (Nat → Nat → Nat → V)) → Nat → Map V
  | [] => m
  | (.call r (.set p v), _) :: os => wants t (fun k q => if k = r ∧ q = p then v else m k q) os
  | (.call _ _, _) :: os => wants t m os
  | (.synch, _) :: os => wants t (fun _ q => m (owner t q) q) os

/-- The last value that a location was given, if it was. -/
def lastSet (q : Pt) : List (SOp V × (Nat → Nat → Nat → V)) → Option V
  | [] => none
  | (.call _ (.set p v), _) :: os => (lastSet q os).or (if p = q then some v else none)
  | _ :: os => lastSet q os

/-- What has happened when the ranks synchronized the last time. -/
def synched : List (SOp V × (Nat → Nat → Nat → V)) → List (SOp V × (Nat → Nat → Nat → V))
  | [] => []
  | o :: os => if (o :: os).any (fun o => match o.1 with | .synch => true | _ => false) then o :: synched os else []

/-- What each rank has in its read and its write layer. -/
def rwWants (t : Topo) (m : (Nat → Map V) × (Nat → Map V)) : List (ROp V) → (Nat → Map V) × (Nat → Map V)
  | [] => m
  | .get _ _ :: os => rwWants t m os
  | .set r p v :: os => rwWants t (m.1, fun k q => if k = r ∧ q = p then v else m.2 k q) os
  | .swap r :: os => rwWants t (fun k => if k = r then m.2 k else m.1 k, fun k => if k = r then m.1 k else m.2 k) os
  | .synch _ _ :: os => rwWants t (fun _ q => m.1 (owner t q) q, fun _ q => m.2 (owner t q) q) os

/-! ### Lemmas -/

variable {t : Topo} {buf : Nat}

theorem place_reach (h : Sticky t buf) {k : Nat} (hk : k < t.size) {q : Pt} (hq : Reach t buf k q) : place (bufBox t buf k) false q = q := by
  obtain ⟨c1, c2, c3, c4⟩ := hq
  have hb := bufBox_sticky h hk
  have h1 := xlo_lt h hk
  have h2 := ylo_lt h hk
  have hi := (near_inBuf h hk c1).1 c2
  have hq1 := hi.1
  have hz : t.box.zext = 0 := by have := sticky_nd h; omega
  refine (C39_place (box_sticky h hk) false q).2.2.2.2 ?_ ?_ ?_
  · rw [contains_iff (box_sticky h hk), hb]
    refine ⟨⟨by simp only; omega, by simp only; omega⟩, fun hh => ?_, fun hh => by simp only at hh; omega⟩
    simp only at hh ⊢
    split at hh
    · omega
    · rename_i n1
      rw [if_neg n1]
      have hq2 := hi.2 (by have := sticky_nd h; omega)
      exact ⟨by omega, by omega⟩
  · intro e
    rw [hb] at e
    simp only at e
    split at e
    · exact c3 (by have := sticky_nd h; omega)
    · omega
  · intro _
    exact c4 hz

theorem owner_owns (h : Sticky t buf) {q : Pt} (hq : t.box.contains q = true) : Owns t (owner t q) q := by
  obtain ⟨r, hr, hc, -⟩ := (C33_partition_partial h.ok h.fits q).1 hq
  unfold owner
  cases e : (List.range t.size).find? fun r => (t.bounds r).contains q with
  | none => exact absurd hc (by have := List.find?_eq_none.1 e r (List.mem_range.2 hr); simpa using this)
  | some r' =>
    have h1 := List.find?_some e
    have h2 := List.mem_of_find?_eq_some e
    exact ⟨List.mem_range.1 h2, h1⟩

theorem owner_eq (h : Sticky t buf) {r : Nat} {q : Pt} (ho : Owns t r q) : owner t q = r :=
  owns_unique h ho (owner_owns h ((C33_partition_partial h.ok h.fits q).2 r ho.1 ho.2))

theorem owner_reach (h : Sticky t buf) {k : Nat} {q : Pt} (hq : Reach t buf k q) : Reach t buf (owner t q) q := by
  have ho := owner_owns h hq.1
  exact ⟨hq.1, (near_inBuf h ho.1 hq.1).2 (owner_inBuf h ho), hq.2.2⟩

/-- The layers have the values `m`. -/
def Has (t : Topo) (buf : Nat) (w : Nat → Layer V) (m : Nat → Map V) : Prop :=
  ∀ k < t.size, Static (bufBox t buf k) false (w k) ∧ ∀ q, Reach t buf k q → ((w k).get q).2 = .val (m k q)

theorem Has.one (h : Sticky t buf) {w : Nat → Layer V} {m : Nat → Map V} (hw : Has t buf w m) {k : Nat} (hk : k < t.size) :
    ∃ m', Holds (bufBox t buf k) false (w k) m' ∧ ∀ q, Reach t buf k q → m' q = m k q := by
  obtain ⟨h1, h2⟩ := hw k hk
  refine ⟨fun p => valAt (bufBox t buf k) (w k).ten.at_ p, ⟨h1, fun p _ _ _ => rfl⟩, fun q hq => ?_⟩
  have e := (Holds.get (box_sticky h hk) (l := w k) (m := fun p => valAt (bufBox t buf k) (w k).ten.at_ p) ⟨h1, fun p _ _ _ => rfl⟩ q).2
  rw [place_reach h hk hq, h2 q hq] at e
  exact (Res.val.inj e).symm

theorem Has.upd (h : Sticky t buf) {w : Nat → Layer V} {m : Nat → Map V} (hw : Has t buf w m) {r : Nat} {l : Layer V} {m' : Map V}
    (hl : r < t.size → ∃ m1, Holds (bufBox t buf r) false l m1 ∧ ∀ q, Reach t buf r q → m1 q = m' q) : Has t buf (upd w r l) (fun k => if k = r then m' else m k) := by
  intro k hk
  unfold Space.upd
  split
  · rename_i e
    subst e
    obtain ⟨m1, h1, h2⟩ := hl hk
    refine ⟨h1.static, fun q hq => ?_⟩
    rw [(h1.get (box_sticky h hk) q).2, place_reach h hk hq, h2 q hq]
    simp
  · rename_i e
    simp only [if_neg e]
    exact hw k hk

theorem Has.get (h : Sticky t buf) {w : Nat → Layer V} {m : Nat → Map V} (hw : Has t buf w m) (r : Nat) (p : Pt) : Has t buf (Space.upd w r ((w r).get p).1) m := by
  have := hw.upd h (r := r) (l := ((w r).get p).1) (m' := m r) fun hr => by
    obtain ⟨m', h1, h2⟩ := hw.one h hr
    exact ⟨m', (h1.get (box_sticky h hr) p).1, h2⟩
  refine Eq.mp (congrArg (Has t buf _) (funext fun k => ?_)) this
  split
  · rename_i e; rw [e]
  · rfl

theorem Has.set (h : Sticky t buf) {w : Nat → Layer V} {m : Nat → Map V} (hw : Has t buf w m) (r : Nat) {p : Pt} (hp : Reach t buf r p) (v : V) :
    Has t buf (Space.upd w r ((w r).set p v).1) (fun k q => if k = r ∧ q = p then v else m k q) := by
  have := hw.upd h (r := r) (l := ((w r).set p v).1) (m' := fun q => if q = p then v else m r q) fun hr => by
    obtain ⟨m', h1, h2⟩ := hw.one h hr
    refine ⟨_, (h1.set (box_sticky h hr) p v).1, fun q hq => ?_⟩
    rw [place_reach h hr hp, Map.set]
    split
    · rfl
    · exact h2 q hq
  refine Eq.mp (congrArg (Has t buf _) (funext fun k => funext fun q => ?_)) this
  by_cases e : k = r
  · subst e; simp
  · simp [e]

theorem Has.synch (h : Sticky t buf) {w : Nat → Layer V} {m : Nat → Map V} (hw : Has t buf w m) (junk : Nat → Nat → Nat → V) :
    ∃ w', synch t buf junk w = some w' ∧ Has t buf w' fun _ q => m (owner t q) q := by
  obtain ⟨w', h1, h2, h3⟩ := synch_sticky h (fun k hk => (hw k hk).1) junk
  refine ⟨w', h1, fun k hk => ⟨h2 k hk, fun q hq => ?_⟩⟩
  obtain ⟨r, v, hr, hc, g1, g2⟩ := h3 k q hk hq.1 hq.2.1
  have e := owner_eq h ⟨hr, hc⟩
  have ho := owner_reach h hq
  show _ = Res.val (m (owner t q) q)
  rw [e] at ho ⊢
  rw [(hw r hr).2 q ho] at g1
  rw [g2, g1]

theorem Has.create (h : Sticky t buf) (junk : Nat → Nat → Nat → V) (rand : Nat → Nat → Nat → Nat → V) (v : Option V) :
    ∃ w, create t buf junk rand v = some w ∧ ∃ m0 : Map V, (∀ x, v = some x → ∀ q, m0 q = x) ∧ Has t buf w fun _ => m0 := by
  obtain ⟨w, e, hm, hx⟩ := C40_create_partial h junk rand v
  have hs := create_static h junk rand v e
  cases v with
  | some x =>
    refine ⟨w, e, fun _ => x, fun y ey q => (by cases ey; rfl), fun k hk => ⟨hs k hk, fun q hq => hx x rfl k q hk hq.1 hq.2.1⟩⟩
  | none =>
    let m : Nat → Map V := fun k q => valAt (bufBox t buf k) (w k).ten.at_ q
    have hh : ∀ k, k < t.size → ∀ q, Reach t buf k q → ((w k).get q).2 = .val (m k q) := by
      intro k hk q hq
      rw [(Holds.get (box_sticky h hk) (l := w k) (m := m k) ⟨hs k hk, fun p _ _ _ => rfl⟩ q).2, place_reach h hk hq]
    refine ⟨w, e, fun q => m (owner t q) q, fun x ex => (by cases ex), fun k hk => ⟨hs k hk, fun q hq => ?_⟩⟩
    obtain ⟨r, v, hr, hc, g1, g2⟩ := hm k q hk hq.1 hq.2.1
    have e := owner_eq h ⟨hr, hc⟩
    have ho := owner_reach h hq
    show _ = Res.val (m (owner t q) q)
    rw [e] at ho ⊢
    rw [hh r hr q ho] at g1
    rw [g2, g1]

theorem Has.run (h : Sticky t buf) : ∀ (ops : List (SOp V × (Nat → Nat → Nat → V))) {w : Nat → Layer V} {m : Nat → Map V}, Has t buf w m →
    (∀ r p v junk, (SOp.call r (.set p v), junk) ∈ ops → Reach t buf r p) → ∃ w', srun t buf w ops = some w' ∧ Has t buf w' (wants t m ops) := by
  intro ops
  induction ops with
  | nil => intro w m hw _; exact ⟨w, rfl, hw⟩
  | cons o ops ih =>
    intro w m hw hr
    obtain ⟨o, junk⟩ := o
    have hr' : ∀ r p v junk, (SOp.call r (.set p v), junk) ∈ ops → Reach t buf r p := fun r p v j hm => hr r p v j (List.mem_cons_of_mem _ hm)
    cases o with
    | call r o =>
      cases o with
      | get p => exact ih (hw.get h r p) hr'
      | set p v => exact ih (hw.set h r (hr r p v junk List.mem_cons_self) v) hr'
      | nghs p =>
        refine ih (w := Space.upd w r (w r)) (m := m) ?_ hr'
        intro k hk
        unfold Space.upd
        split
        · rename_i e; subst e; exact hw k hk
        · exact hw k hk
    | synch =>
      obtain ⟨w1, e1, h1⟩ := hw.synch h junk
      obtain ⟨w2, e2, h2⟩ := ih h1 hr'
      refine ⟨w2, ?_, h2⟩
      show (ValueLayer.synch t buf junk w).bind _ = _
      rw [e1]
      exact e2

theorem wants_owner (h : Sticky t buf) {q : Pt} (hq : t.box.contains q = true) : ∀ (ops : List (SOp V × (Nat → Nat → Nat → V))) (m : Nat → Map V),
    (∀ r p v junk, (SOp.call r (.set p v), junk) ∈ ops → Owns t r p) → wants t m ops (owner t q) q = (lastSet q ops).getD (m (owner t q) q) := by
  intro ops
  induction ops with
  | nil => intro m _; rfl
  | cons o ops ih =>
    intro m hr
    obtain ⟨o, junk⟩ := o
    have hr' : ∀ r p v junk, (SOp.call r (.set p v), junk) ∈ ops → Owns t r p := fun r p v j hm => hr r p v j (List.mem_cons_of_mem _ hm)
    cases o with
    | call r o =>
      cases o with
      | get p => exact ih m hr'
      | nghs p => exact ih m hr'
      | set p v =>
        have ho := hr r p v junk List.mem_cons_self
        show wants t _ ops (owner t q) q = ((lastSet q ops).or _).getD _
        rw [ih _ hr']
        cases lastSet q ops with
        | some x => rfl
        | none =>
          by_cases e : p = q
          · subst e
            simp [owner_eq h ho]
          · simp [e, show ¬ q = p from fun e' => e e'.symm]
    | synch => exact ih _ hr'

/-- There is a synchronization. -/
def anySynch (ops : List (SOp V × (Nat → Nat → Nat → V))) : Bool := ops.any fun o => match o.1 with | .synch => true | _ => false

theorem wants_none (h : Sticky t buf) {k : Nat} {q : Pt} (hk : k ≠ owner t q) : ∀ (ops : List (SOp V × (Nat → Nat → Nat → V))) (m : Nat → Map V),
    (∀ r p v junk, (SOp.call r (.set p v), junk) ∈ ops → Owns t r p) → anySynch ops = false → wants t m ops k q = m k q := by
  intro ops
  induction ops with
  | nil => intro m _ _; rfl
  | cons o ops ih =>
    intro m hr hs
    obtain ⟨o, junk⟩ := o
    have hr' : ∀ r p v junk, (SOp.call r (.set p v), junk) ∈ ops → Owns t r p := fun r p v j hm => hr r p v j (List.mem_cons_of_mem _ hm)
    cases o with
    | call r o =>
      have hs' : anySynch ops = false := by simpa [anySynch] using hs
      cases o with
      | get p => exact ih m hr' hs'
      | nghs p => exact ih m hr' hs'
      | set p v =>
        show wants t _ ops k q = _
        rw [ih _ hr' hs']
        have ho := hr r p v junk List.mem_cons_self
        have : ¬ (k = r ∧ q = p) := by
          rintro ⟨rfl, rfl⟩
          exact hk (owner_eq h ho).symm
        simp only [if_neg this]
    | synch => simp [anySynch] at hs

theorem wants_some (h : Sticky t buf) {k : Nat} {q : Pt} (hk : k ≠ owner t q) : ∀ (ops : List (SOp V × (Nat → Nat → Nat → V))) (m : Nat → Map V),
    (∀ r p v junk, (SOp.call r (.set p v), junk) ∈ ops → Owns t r p) → anySynch ops = true → wants t m ops k q = (lastSet q (synched ops)).getD (m (owner t q) q) := by
  intro ops
  induction ops with
  | nil => intro m _ hs; cases hs
  | cons o ops ih =>
    intro m hr hs
    have hy : synched (o :: ops) = o :: synched ops := by
      show (if _ then _ else _) = _
      exact if_pos hs
    rw [hy]
    obtain ⟨o, junk⟩ := o
    have hr' : ∀ r p v junk, (SOp.call r (.set p v), junk) ∈ ops → Owns t r p := fun r p v j hm => hr r p v j (List.mem_cons_of_mem _ hm)
    cases o with
    | call r o =>
      have hs' : anySynch ops = true := by simpa [anySynch] using hs
      cases o with
      | get p => exact ih m hr' hs'
      | nghs p => exact ih m hr' hs'
      | set p v =>
        have ho := hr r p v junk List.mem_cons_self
        show wants t _ ops k q = ((lastSet q (synched ops)).or _).getD _
        rw [ih _ hr' hs']
        cases lastSet q (synched ops) with
        | some x => rfl
        | none =>
          by_cases e : p = q
          · subst e
            simp [owner_eq h ho]
          · simp [e, show ¬ q = p from fun e' => e e'.symm]
    | synch =>
      show wants t _ ops k q = (lastSet q (synched ops)).getD _
      cases c : anySynch ops with
      | true => rw [ih _ hr' c]
      | false =>
        rw [wants_none h hk ops _ hr' c]
        have : synched ops = [] := by
          cases ops with
          | nil => rfl
          | cons o ops => exact if_neg (by unfold anySynch at c; rw [c]; decide)
        rw [this]
        rfl

theorem wants_other (h : Sticky t buf) {k : Nat} {q : Pt} (hk : k ≠ owner t q) (ops : List (SOp V × (Nat → Nat → Nat → V))) (m0 : Map V)
    (hr : ∀ r p v junk, (SOp.call r (.set p v), junk) ∈ ops → Owns t r p) : wants t (fun _ => m0) ops k q = (lastSet q (synched ops)).getD (m0 q) := by
  cases c : anySynch ops with
  | true => exact wants_some h hk ops _ hr c
  | false =>
    rw [wants_none h hk ops _ hr c]
    have : synched ops = [] := by
      cases ops with
      | nil => rfl
      | cons o ops => exact if_neg (by unfold anySynch at c; rw [c]; decide)
    rw [this]
    rfl

/-! ### C77 -/

/-- C77 (what is missing: periodic borders and others, see C40): after any calls on any ranks and synchronizations, none of which raises an exception, `get` returns what it should for every location that the
rank has: the value that the rank itself has set since the last synchronization, or else the one that the owner had then, and on the owner the last one that it has set. -/
theorem C77_matrix_partial (h : Sticky t buf) (junk0 : Nat → Nat → Nat → V) (rand : Nat → Nat → Nat → Nat → V) (v : Option V) :
    ∃ (w0 : Nat → Layer V) (m0 : Map V), create t buf junk0 rand v = some w0 ∧ (∀ x, v = some x → ∀ q, m0 q = x) ∧
      ∀ ops : List (SOp V × (Nat → Nat → Nat → V)), (∀ r p v junk, (SOp.call r (.set p v), junk) ∈ ops → Reach t buf r p) →
        ∃ w, srun t buf w0 ops = some w ∧ ∀ k q, k < t.size → Reach t buf k q → ((w k).get q).2 = .val (wants t (fun _ => m0) ops k q) := by
  obtain ⟨w0, e0, m0, h1, h2⟩ := Has.create h junk0 rand v
  refine ⟨w0, m0, e0, h1, fun ops hr => ?_⟩
  obtain ⟨w, e1, h3⟩ := h2.run h ops hr
  exact ⟨w, e1, fun k q hk hq => (h3 k hk).2 q hq⟩

/-- C77 (what is missing: periodic borders and others, see C40): if the ranks set only locations in their own local bounds, then the layers of all ranks are one matrix. `get` on the rank that owns a location
returns the last value that the location was given; on the other ranks that have the location it returns the last value that it was given before the ranks synchronized for the last time. -/
theorem C77_last_partial (h : Sticky t buf) (junk0 : Nat → Nat → Nat → V) (rand : Nat → Nat → Nat → Nat → V) (v : Option V) :
    ∃ (w0 : Nat → Layer V) (m0 : Map V), create t buf junk0 rand v = some w0 ∧ (∀ x, v = some x → ∀ q, m0 q = x) ∧
      ∀ ops : List (SOp V × (Nat → Nat → Nat → V)), (∀ r p v junk, (SOp.call r (.set p v), junk) ∈ ops → r < t.size ∧ (t.bounds r).contains p = true ∧ Reach t buf r p) →
        ∃ w, srun t buf w0 ops = some w ∧ ∀ k q, k < t.size → Reach t buf k q →
          ((w k).get q).2 = .val ((lastSet q (if (t.bounds k).contains q then ops else synched ops)).getD (m0 q)) := by
  obtain ⟨w0, m0, e0, h1, h2⟩ := C77_matrix_partial h junk0 rand v
  refine ⟨w0, m0, e0, h1, fun ops hr => ?_⟩
  obtain ⟨w, e1, h3⟩ := h2 ops fun r p v junk hm => (hr r p v junk hm).2.2
  have hr' : ∀ r p v junk, (SOp.call r (.set p v), junk) ∈ ops → Owns t r p := fun r p v junk hm => ⟨(hr r p v junk hm).1, (hr r p v junk hm).2.1⟩
  refine ⟨w, e1, fun k q hk hq => ?_⟩
  rw [h3 k q hk hq]
  by_cases c : (t.bounds k).contains q = true
  · have e := owner_eq h ⟨hk, c⟩
    have := wants_owner h hq.1 ops (fun _ => m0) hr'
    rw [e] at this
    rw [this, if_pos c]
  · rw [if_neg c, wants_other h (fun e => c (by have := owner_owns h hq.1; rw [← e] at this; exact this.2)) ops m0 hr']

/-! ### Neighbourhoods -/

theorem loB_hiB {G : Int} {p c buf : Nat} (hp : 0 < p) (hG : 0 ≤ G) (hb : (buf : Int) * p ≤ G) (hc : c < p) : 0 ≤ loB G p c buf ∧ hiB G p c buf ≤ G := by
  unfold loB hiB
  constructor
  · split
    · rename_i h0
      have h1 := cut_buf hp hb (c - 1)
      have h2 := (cut_range hp hG (c := c - 1) (by omega)).1
      rw [show c - 1 + 1 = c by omega] at h1
      omega
    · omega
  · split
    · have h1 := cut_buf hp hb (c + 1)
      have h2 := (cut_range hp hG (c := c + 2) (by omega)).2
      rw [show c + 1 + 1 = c + 2 by omega] at h1
      omega
    · omega

theorem inBounds_buf (h : Sticky t buf) {k : Nat} (hk : k < t.size) (q : Pt) : InBounds (bufBox t buf k) q ↔ InBuf t buf k q := by
  have h1 := xlo_lt h hk
  have h2 := ylo_lt h hk
  rw [bufBox_sticky h hk]
  unfold InBounds InRange InBuf
  simp only
  have hn := sticky_nd h
  constructor
  · rintro ⟨a, b, -⟩
    refine ⟨by omega, fun n2 => ?_⟩
    rw [if_neg (by omega)] at b
    have := b (by omega)
    omega
  · rintro ⟨a, b⟩
    refine ⟨by omega, fun hh => ?_, fun hh => by omega⟩
    split at hh
    · omega
    · rename_i n1
      have := b (by omega)
      rw [if_neg n1]
      omega

/-- The neighbourhood of a location in the local bounds, in the buffered bounds, is that in the whole layer. -/
theorem nghsOf_buf (h : Sticky t buf) {k : Nat} {p : Pt} (ho : Owns t k p) :
    nghsOf (bufBox t buf k) false p = nghsOf t.box false p ∧ rows (bufBox t buf k) = rows t.box := by
  have hk := ho.1
  obtain ⟨kx, ky, kz⟩ := coords_lt h.ok hk
  have hn := sticky_nd h
  have hy : (0 < (bufBox t buf k).yext) = (0 < t.box.yext) := by
    have h2 := ylo_lt h hk
    rw [bufBox_sticky h hk]
    simp only [eq_iff_iff]
    split <;> omega
  have hz : (0 < (bufBox t buf k).zext) = (0 < t.box.zext) := by
    rw [bufBox_sticky h hk]
    simp only [eq_iff_iff]
    omega
  refine ⟨?_, ?_⟩
  · unfold nghsOf
    have ea : around (bufBox t buf k) p = around t.box p := by
      unfold around
      simp only [hy, hz]
    rw [ea]
    refine List.filter_congr fun q hq => ?_
    rw [Bool.eq_iff_iff, contains_iff (box_sticky h hk), inBounds_buf h hk]
    have hxr := loB_hiB (buf := buf) h.ok.px (Int.le_of_lt h.ok.box.x) h.buf.1.1 kx
    constructor
    · rintro ⟨a, b⟩
      unfold xlo xhi at a
      rw [contains_iff h.ok.box]
      refine ⟨by rw [h.x0]; unfold InRange; omega, fun hh => ?_, fun hh => by omega⟩
      have n2 : t.nd = 2 := by omega
      have hyr := loB_hiB (buf := buf) h.ok.py (Int.le_of_lt hh) (h.buf.2.1 hh).1 ky
      have b := b n2
      unfold ylo yhi at b
      rw [if_neg (by omega), if_neg (by omega)] at b
      rw [h.y0]
      unfold InRange
      omega
    · intro hc
      refine (near_inBuf h hk hc).1 ?_
      have hb := h.buf1
      obtain ⟨o1, o2⟩ := (owns_iff h k p).1 ho.2
      have bx := bounds_x h.ok k
      rw [h.x0] at bx
      unfold InDim at o1 o2
      simp only [around, List.mem_flatMap, List.mem_map] at hq
      obtain ⟨z, -, y, hy', x, hx', rfl⟩ := hq
      rw [mem_near] at hx'
      refine ⟨⟨0, fun _ => rfl, by simp only; omega, by simp only; omega⟩, fun hh => ?_, fun hh => by omega⟩
      rw [if_pos hh, mem_near] at hy'
      have n2 : t.nd = 2 := by omega
      have by' := bounds_y h.ok (by omega) k
      rw [h.y0] at by'
      have o2 := o2 n2
      exact ⟨0, fun _ => rfl, by simp only; omega, by simp only; omega⟩
  · unfold rows
    funext pts
    simp only [hy, hz]

theorem Has.nghs (h : Sticky t buf) {w : Nat → Layer V} {m : Nat → Map V} (hw : Has t buf w m) {k : Nat} {p : Pt} (ho : Owns t k p) :
    (w k).getNghs p = .nghs ((nghsOf t.box false p).map (m k)) (rows t.box (nghsOf t.box false p)) := by
  obtain ⟨m', h1, h2⟩ := hw.one h ho.1
  rw [h1.nghs (box_sticky h ho.1) p, (nghsOf_buf h ho).2, (nghsOf_buf h ho).1]
  congr 1
  refine List.map_congr_left fun q hq => h2 q ?_
  obtain ⟨c1, c2, c3⟩ := nghs_in h.ok.box hq
  have hc := (contains_iff h.ok.box q).2 c1
  have hb : InBounds (bufBox t buf k) q := (nghs_in (periodic := false) (box_sticky h ho.1) (by rw [(nghsOf_buf h ho).1]; exact hq)).1
  have hn := sticky_nd h
  exact ⟨hc, (near_inBuf h ho.1 hc).2 ((inBounds_buf h ho.1 q).1 hb), fun e => c2 (by omega), fun e => c3 (by omega)⟩

/-- C77 (what is missing: periodic borders and others, see C40): `get_nghs` of a location in the local bounds returns the locations around it that are in the layer, those of other ranks too, and the value that `get`
returns on the rank for each. -/
theorem C77_nghs_partial (h : Sticky t buf) (junk0 : Nat → Nat → Nat → V) (rand : Nat → Nat → Nat → Nat → V) (v : Option V) :
    ∃ w0, create t buf junk0 rand v = some w0 ∧
      ∀ ops : List (SOp V × (Nat → Nat → Nat → V)), (∀ r p v junk, (SOp.call r (.set p v), junk) ∈ ops → Reach t buf r p) →
        ∃ w, srun t buf w0 ops = some w ∧ ∀ k p, k < t.size → (t.bounds k).contains p = true →
          ∃ vals, (w k).getNghs p = .nghs vals (rows t.box (nghsOf t.box false p)) ∧ vals.map Res.val = (nghsOf t.box false p).map fun q => ((w k).get q).2 := by
  obtain ⟨w0, e0, m0, h1, h2⟩ := Has.create h junk0 rand v
  refine ⟨w0, e0, fun ops hr => ?_⟩
  obtain ⟨w, e1, h3⟩ := Has.run h ops h2 hr
  refine ⟨w, e1, fun k p hk hc => ⟨_, h3.nghs h ⟨hk, hc⟩, ?_⟩⟩
  rw [List.map_map]
  refine List.map_congr_left fun q hq => ?_
  obtain ⟨c1, c2, c3⟩ := nghs_in h.ok.box hq
  have hc' := (contains_iff h.ok.box q).2 c1
  have hb : InBounds (bufBox t buf k) q := (nghs_in (periodic := false) (box_sticky h hk) (by rw [(nghsOf_buf h ⟨hk, hc⟩).1]; exact hq)).1
  have hn := sticky_nd h
  exact ((h3 k hk).2 q ⟨hc', (near_inBuf h hk hc').2 ((inBounds_buf h hk q).1 hb), fun e => c2 (by omega), fun e => c3 (by omega)⟩).symm

/-! ### Read/write layers -/

theorem rw_has (h : Sticky t buf) : ∀ (ops : List (ROp V)) {s : RWs V} {m : (Nat → Map V) × (Nat → Map V)}, Has t buf s.read m.1 → Has t buf s.write m.2 →
    (∀ r p v, ROp.set r p v ∈ ops → Reach t buf r p) → ∃ s', s.run t buf ops = some s' ∧ Has t buf s'.read (rwWants t m ops).1 ∧ Has t buf s'.write (rwWants t m ops).2 := by
  have sw : ∀ {w w' : Nat → Layer V} {m m' : Nat → Map V} (r : Nat), Has t buf w m → Has t buf w' m' → Has t buf (Space.upd w r (w' r)) fun k => if k = r then m' k else m k := by
    intro w w' m m' r hw hw' k hk
    unfold Space.upd
    split
    · rename_i e
      subst e
      simp only [if_true]
      exact hw' k hk
    · rename_i e
      simp only [if_neg e]
      exact hw k hk
  intro ops
  induction ops with
  | nil => intro s m h1 h2 _; exact ⟨s, rfl, h1, h2⟩
  | cons o ops ih =>
    intro s m h1 h2 hr
    have hr' : ∀ r p v, ROp.set r p v ∈ ops → Reach t buf r p := fun r p v hm => hr r p v (List.mem_cons_of_mem _ hm)
    have go : ∀ {s1 : RWs V} {m1 : (Nat → Map V) × (Nat → Map V)}, RWs.step t buf s o = some s1 → Has t buf s1.read m1.1 → Has t buf s1.write m1.2 →
        ∃ s', s.run t buf (o :: ops) = some s' ∧ Has t buf s'.read (rwWants t m1 ops).1 ∧ Has t buf s'.write (rwWants t m1 ops).2 := by
      intro s1 m1 e g1 g2
      obtain ⟨s', e', g⟩ := ih g1 g2 hr'
      refine ⟨s', ?_, g⟩
      show (o :: ops).foldlM (RWs.step t buf) s = _
      rw [List.foldlM_cons, e]
      exact e'
    cases o with
    | get r p => exact go rfl (h1.get h r p) h2
    | set r p v => exact go (m1 := (m.1, fun k q => if k = r ∧ q = p then v else m.2 k q)) rfl h1 (h2.set h r (hr r p v List.mem_cons_self) v)
    | swap r => exact go (m1 := (fun k => if k = r then m.2 k else m.1 k, fun k => if k = r then m.1 k else m.2 k)) rfl (sw r h1 h2) (sw r h2 h1)
    | synch junkW junkR =>
      obtain ⟨w, e1, g1⟩ := h2.synch h junkW
      obtain ⟨r, e2, g2⟩ := h1.synch h junkR
      refine go (s1 := { read := r, write := w }) (m1 := (fun _ q => m.1 (owner t q) q, fun _ q => m.2 (owner t q) q)) ?_ g2 g1
      show (ValueLayer.synch t buf junkW s.write).bind _ = _
      rw [e1, Option.bind_some, e2]
      rfl

theorem rw_create (h : Sticky t buf) (junkR junkW : Nat → Nat → Nat → V) (randR randW : Nat → Nat → Nat → Nat → V) (v : Option V) :
    ∃ s, rwCreate t buf junkR junkW randR randW v = some s ∧ ∃ mR mW : Map V, (∀ x, v = some x → ∀ q, mR q = x ∧ mW q = x) ∧ Has t buf s.read (fun _ => mR) ∧ Has t buf s.write fun _ => mW := by
  obtain ⟨r, e1, mR, h1, h2⟩ := Has.create h junkR randR v
  obtain ⟨w, e2, mW, h3, h4⟩ := Has.create h junkW randW v
  refine ⟨{ read := r, write := w }, ?_, mR, mW, fun x ex q => ⟨h1 x ex q, h3 x ex q⟩, h2, h4⟩
  unfold rwCreate
  rw [e1, e2]
  rfl

/-- C77 (what is missing: periodic borders and others, see C40): read/write layers on several ranks. After any calls of `get`, `set` and `swap_layers` on any ranks, and synchronizations of all, none of which raises
an exception, `get` returns what it should, whether or not the ranks swap their layers at the same time. -/
theorem C77_read_write_partial (h : Sticky t buf) (junkR junkW : Nat → Nat → Nat → V) (randR randW : Nat → Nat → Nat → Nat → V) (v : Option V) :
    ∃ (s0 : RWs V) (mR mW : Map V), rwCreate t buf junkR junkW randR randW v = some s0 ∧ (∀ x, v = some x → ∀ q, mR q = x ∧ mW q = x) ∧
      ∀ ops : List (ROp V), (∀ r p v, ROp.set r p v ∈ ops → Reach t buf r p) →
        ∃ s, s0.run t buf ops = some s ∧ ∀ k q, k < t.size → Reach t buf k q → ((s.read k).get q).2 = .val ((rwWants t (fun _ => mR, fun _ => mW) ops).1 k q) := by
  obtain ⟨s0, e0, mR, mW, h1, h2, h3⟩ := rw_create h junkR junkW randR randW v
  refine ⟨s0, mR, mW, e0, h1, fun ops hr => ?_⟩
  obtain ⟨s, e, g1, -⟩ := rw_has h ops (m := (fun _ => mR, fun _ => mW)) h2 h3 hr
  exact ⟨s, e, fun k q hk hq => (g1 k hk).2 q hq⟩

theorem rwWants_append (m : (Nat → Map V) × (Nat → Map V)) : ∀ ops ops' : List (ROp V), rwWants t m (ops ++ ops') = rwWants t (rwWants t m ops) ops' := by
  intro ops
  induction ops generalizing m with
  | nil => intro ops'; rfl
  | cons o ops ih => intro ops'; cases o <;> exact ih _ ops'

/-- All ranks call `swap_layers`. -/
def swapAll (n : Nat) : List (ROp V) := (List.range n).map ROp.swap

theorem rwWants_swapAll (m : (Nat → Map V) × (Nat → Map V)) (n : Nat) : ∀ k < n, (rwWants t m (swapAll n)).1 k = m.2 k ∧ (rwWants t m (swapAll n)).2 k = m.1 k := by
  have key : ∀ n, (∀ k < n, (rwWants t m (swapAll n)).1 k = m.2 k ∧ (rwWants t m (swapAll n)).2 k = m.1 k) ∧
      ∀ k, n ≤ k → (rwWants t m (swapAll n)).1 k = m.1 k ∧ (rwWants t m (swapAll n)).2 k = m.2 k := by
    intro n
    induction n with
    | zero => exact ⟨fun k hk => by omega, fun k _ => ⟨rfl, rfl⟩⟩
    | succ n ih =>
      have e : (swapAll (n + 1) : List (ROp V)) = swapAll n ++ [.swap n] := by simp [swapAll, List.range_succ]
      rw [e, rwWants_append]
      simp only [rwWants]
      refine ⟨fun k hk => ?_, fun k hk => ?_⟩
      · by_cases c : k = n
        · subst c
          rw [if_pos rfl, if_pos rfl, (ih.2 k (Nat.le_refl k)).1, (ih.2 k (Nat.le_refl k)).2]
          exact ⟨rfl, rfl⟩
        · rw [if_neg c, if_neg c]
          exact ih.1 k (by omega)
      · rw [if_neg (by omega), if_neg (by omega)]
        exact ih.2 k (by omega)
  exact (key n).1

/-- C77 (what is missing: periodic borders and others, see C40): after any calls and synchronizations, if all ranks swap their layers and then synchronize, or synchronize and then swap, every rank reads what the
owners have written: what `get` returned on the write layer of the owner. All ranks that have a location read the same. -/
theorem C77_swap_partial (h : Sticky t buf) (junkR junkW junkR' junkW' : Nat → Nat → Nat → V) (randR randW : Nat → Nat → Nat → Nat → V) (v : Option V) (ops : List (ROp V))
    (hr : ∀ r p v, ROp.set r p v ∈ ops → Reach t buf r p) (b : Bool) :
    ∃ s0 s s', rwCreate t buf junkR junkW randR randW v = some s0 ∧ s0.run t buf ops = some s ∧
      s.run t buf (if b then swapAll t.size ++ [.synch junkW' junkR'] else .synch junkW' junkR' :: swapAll t.size) = some s' ∧
      ∀ k q, k < t.size → Reach t buf k q → ∃ r x, r < t.size ∧ (t.bounds r).contains q = true ∧ ((s.write r).get q).2 = .val x ∧ ((s'.read k).get q).2 = .val x := by
  obtain ⟨s0, e0, mR, mW, h1, h2, h3⟩ := rw_create h junkR junkW randR randW v
  obtain ⟨s, e, g1, g2⟩ := rw_has h ops (m := (fun _ => mR, fun _ => mW)) h2 h3 hr
  have hr' : ∀ r p v, ROp.set r p v ∈ (if b then swapAll t.size ++ [.synch junkW' junkR'] else .synch junkW' junkR' :: swapAll t.size) → Reach t buf r p := by
    intro r p v hm
    cases b <;> simp [swapAll] at hm
  obtain ⟨s', e', i1, -⟩ := rw_has h _ g1 g2 hr'
  refine ⟨s0, s, s', e0, e, e', fun k q hk hq => ?_⟩
  have ho := owner_owns h hq.1
  refine ⟨owner t q, _, ho.1, ho.2, (g2 _ ho.1).2 q (owner_reach h hq), ?_⟩
  rw [(i1 k hk).2 q hq]
  congr 1
  cases b with
  | true =>
    show (rwWants t _ (swapAll t.size ++ [.synch junkW' junkR'])).1 k q = _
    rw [rwWants_append]
    show (rwWants t _ (swapAll t.size)).1 (owner t q) q = _
    rw [(rwWants_swapAll _ t.size _ ho.1).1]
  | false =>
    show (rwWants t _ (swapAll t.size)).1 k q = _
    rw [(rwWants_swapAll _ t.size k hk).1]

/-! ### Read/write layers in a context -/

/-- What is added to a context with `add_value_layer` (context.py:62-68). -/
inductive Added (V : Type) where
  | shared (w : Nat → Layer V)
  | readWrite (s : RWs V)

/-- The number of arguments of `_synch_ghosts` (value_layer.py:957, 1100), besides `self`. -/
def Added.arity : Added V → Nat
  | .shared _ => 0
  | .readWrite _ => 2

/-- context.py:260-261: `vl._synch_ghosts()` for all value layers, on all ranks. A call with the wrong number of arguments is a `TypeError`. -/
def synchAdded (t : Topo) (buf : Nat) (junk : Nat → Nat → Nat → V) (ls : List (Added V)) : Option (List (Added V)) :=
  ls.mapM fun l => if l.arity ≠ 0 then none else match l with
    | .shared w => (synch t buf junk w).map .shared
    | .readWrite s => (s.step t buf (.synch junk junk)).map .readWrite

/-- C77 is violated for contexts: a read/write layer can be added to a context, but then `synchronize` always raises an exception. -/
theorem C77_violation_context (t : Topo) (buf : Nat) (junk : Nat → Nat → Nat → V) (ls : List (Added V)) (s : RWs V) (h : .readWrite s ∈ ls) : synchAdded t buf junk ls = none := by
  unfold synchAdded
  induction ls with
  | nil => cases h
  | cons l ls ih =>
    rw [List.mapM_cons]
    rcases List.mem_cons.1 h with rfl | h
    · rfl
    · rw [ih h]
      cases (if l.arity ≠ 0 then none else match l with
        | .shared w => (synch t buf junk w).map Added.shared
        | .readWrite s => (s.step t buf (.synch junk junk)).map .readWrite) <;> rfl

/-- C77 (what is missing: periodic borders and others, see C40): without read/write layers `synchronize` synchronizes all value layers. -/
theorem C77_context_partial (h : Sticky t buf) (junk : Nat → Nat → Nat → V) (ws : List (Nat → Layer V)) (hw : ∀ w ∈ ws, ∀ k < t.size, Static (bufBox t buf k) false (w k)) :
    ∃ ws', synchAdded t buf junk (ws.map .shared) = some (ws'.map .shared) ∧ ws'.length = ws.length ∧ ∀ p ∈ ws.zip ws', Mirrors t buf p.1 p.2 := by
  unfold synchAdded
  induction ws with
  | nil => exact ⟨[], rfl, rfl, fun p hp => by cases hp⟩
  | cons w ws ih =>
    obtain ⟨ws', e, hl, hp⟩ := ih fun w' hm => hw w' (List.mem_cons_of_mem _ hm)
    obtain ⟨w', e', -, hm⟩ := synch_sticky h (hw w List.mem_cons_self) junk
    refine ⟨w' :: ws', ?_, by simp [hl], fun p hp' => ?_⟩
    · rw [List.map_cons, List.mapM_cons, e]
      show ((synch t buf junk w).map Added.shared).bind _ = _
      rw [e']
      rfl
    · rcases List.mem_cons.1 hp' with rfl | hp'
      · exact hm
      · exact hp p hp'

/-! ### Examples -/

theorem exT_sticky : Sticky exT 2 :=
  ⟨⟨⟨by decide, by decide, by decide, by decide⟩, by decide, by decide, by decide, by decide, by decide, by decide⟩, ⟨by decide, by decide⟩, rfl, by decide, by decide, rfl, rfl,
    by decide, ⟨⟨by decide, by decide⟩, fun _ => ⟨by decide, by decide⟩, fun h => absurd h (by decide)⟩⟩

/-- Rank 3 owns (5, 5), rank 0 has a copy. -/
def exWrites : List (SOp Int × (Nat → Nat → Nat → Int)) :=
  [(.call 3 (.set ⟨5, 5, 0⟩ 1), fun _ _ _ => -7), (.synch, fun _ _ _ => -7), (.call 3 (.set ⟨5, 5, 0⟩ 2), fun _ _ _ => -7), (.call 0 (.get ⟨5, 5, 0⟩), fun _ _ _ => -7)]

example : Sticky exT 2 ∧ (∀ r p v junk, (SOp.call r (.set p v), junk) ∈ exWrites → r < exT.size ∧ (exT.bounds r).contains p = true ∧ Reach exT 2 r p) ∧
    Reach exT 2 0 ⟨5, 5, 0⟩ ∧ (lastSet ⟨5, 5, 0⟩ exWrites).getD 0 = 2 ∧ (lastSet ⟨5, 5, 0⟩ (synched exWrites)).getD 0 = 1 := by
  have hr : ∀ k, k = 3 ∨ k = 0 → Reach exT 2 k ⟨5, 5, 0⟩ := by
    rintro k (rfl | rfl)
    · exact ⟨by decide, ⟨⟨0, fun _ => rfl, by decide⟩, fun _ => ⟨0, fun _ => rfl, by decide⟩, fun h => absurd h (by decide)⟩, fun h => absurd h (by decide), fun _ => rfl⟩
    · exact ⟨by decide, ⟨⟨0, fun _ => rfl, by decide⟩, fun _ => ⟨0, fun _ => rfl, by decide⟩, fun h => absurd h (by decide)⟩, fun h => absurd h (by decide), fun _ => rfl⟩
  refine ⟨exT_sticky, fun r p v junk hm => ?_, hr 0 (.inr rfl), rfl, rfl⟩
  simp only [exWrites, List.mem_cons, Prod.mk.injEq, SOp.call.injEq, Op.set.injEq, List.not_mem_nil, or_false, reduceCtorEq, false_and, and_false, false_or] at hm
  rcases hm with ⟨⟨rfl, rfl, rfl⟩, -⟩ | ⟨⟨rfl, rfl, rfl⟩, -⟩
  · exact ⟨by decide, by decide, hr 3 (.inl rfl)⟩
  · exact ⟨by decide, by decide, hr 3 (.inl rfl)⟩

/-- What rank 0 and rank 3 read. -/
def exReads (ops : List (ROp Int)) : Option (Res Int × Res Int) :=
  ((rwCreate exT 2 (fun _ _ _ => -7) (fun _ _ _ => -7) (fun _ _ _ _ => -1) (fun _ _ _ _ => -1) (some 0)).bind fun s => s.run exT 2 ops).map fun s =>
    (((s.read 0).get ⟨5, 5, 0⟩).2, ((s.read 3).get ⟨5, 5, 0⟩).2)

def exJunk : Nat → Nat → Nat → Int := fun _ _ _ => -7

/-- What is written is read after swapping and synchronizing, in either order. -/
example : exReads [.set 3 ⟨5, 5, 0⟩ 4, .synch exJunk exJunk] = some (.val 0, .val 0) ∧
    exReads ([.set 3 ⟨5, 5, 0⟩ 4] ++ (swapAll exT.size ++ [.synch exJunk exJunk])) = some (.val 4, .val 4) ∧
    exReads ([.set 3 ⟨5, 5, 0⟩ 4] ++ (.synch exJunk exJunk :: swapAll exT.size)) = some (.val 4, .val 4) := by decide +kernel

/-- If only some ranks swap their layers, the copies get what is in the other layer: rank 3 does not read what it wrote, rank 0 neither. -/
example : exReads [.set 3 ⟨5, 5, 0⟩ 4, .swap 0, .synch exJunk exJunk] = some (.val 0, .val 0) ∧
    exReads [.set 3 ⟨5, 5, 0⟩ 4, .swap 3, .synch exJunk exJunk] = some (.val 4, .val 4) := by decide +kernel

end Repast.ValueLayer
