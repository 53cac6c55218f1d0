/-
C63: points as values. Model of spacemodule.cpp:39-254 (`DiscretePoint`) and 314-500 (`ContinuousPoint`): the constructor, `==`, `!=` and `_reset_from_array`.

Simplifications: coordinates are values of a type `C` with decidable equality (no NaN); 64-bit overflow of the arguments of the constructor (an exception) is not modelled.
-/
namespace Repast.Core

/-- A point object: its identity, its Python type, and its coordinates. -/
structure Pnt (C : Type) where
  ref : Nat
  ty : Nat
  d : Nat → C

/-- The comparison operators. -/
inductive Cmp where
  | eq | ne | other
  deriving DecidableEq

variable {C : Type} [DecidableEq C]

/-- spacemodule.cpp:67-82, 337-347: the constructor; the z coordinate is optional. -/
def Pnt.new (zero : C) (ref ty : Nat) (x y : C) (z : Option C) : Pnt C :=
  { ref := ref, ty := ty, d := fun i => if i = 0 then x else if i = 1 then y else z.getD zero }

/-- spacemodule.cpp:243-254, 489-500 `richcmp`; `none` is `NotImplemented`. -/
def richcmp (p q : Pnt C) (op : Cmp) : Option Bool :=
  if op = .eq ∧ p.ty = q.ty then some (decide (p.d 0 = q.d 0 ∧ p.d 1 = q.d 1 ∧ p.d 2 = q.d 2)) else none

/-- CPython's `do_richcompare` for `==` and `!=`: the left operand's method, then that of the right operand (in the other order if the type of the right one is a subclass,
`sub`), and if both return `NotImplemented` the identity of the objects. -/
def pyCompare (sub : Bool) (p q : Pnt C) (op : Cmp) : Bool :=
  let l := richcmp p q op
  let r := richcmp q p op
  match (if sub then r.or l else l.or r) with
  | some b => b
  | none => if op = .ne then decide (p.ref ≠ q.ref) else decide (p.ref = q.ref)

/-- C63: `==` of two points of the same type is the equality of the coordinates; points of different types are not equal unless they are the same object (which has one type). -/
theorem C63_eq (sub : Bool) (p q : Pnt C) :
    pyCompare sub p q .eq = true ↔ (p.ty = q.ty ∧ p.d 0 = q.d 0 ∧ p.d 1 = q.d 1 ∧ p.d 2 = q.d 2) ∨ (p.ty ≠ q.ty ∧ p.ref = q.ref) := by
  unfold pyCompare richcmp
  by_cases h : p.ty = q.ty
  · cases sub
    · simp [h]
    · simp only [h, and_self, if_true, Option.some_or, decide_eq_true_eq, true_and, ne_eq, not_true_eq_false, false_and, or_false]
      exact ⟨fun ⟨a, b, c⟩ => ⟨a.symm, b.symm, c.symm⟩, fun ⟨a, b, c⟩ => ⟨a.symm, b.symm, c.symm⟩⟩
  · have h' : ¬ q.ty = p.ty := fun e => h e.symm
    cases sub <;> simp [h, h']

/-- C63: `!=` of two points says whether they are different objects, whatever their coordinates. -/
theorem C63_ne (sub : Bool) (p q : Pnt C) : pyCompare sub p q .ne = true ↔ p.ref ≠ q.ref := by
  unfold pyCompare richcmp
  cases sub <;> simp

/-- C63: so `!=` is the negation of `==` for points with different coordinates, and for a point and itself. Missing (`_partial`): different point objects with the same
coordinates, see `C63_violation_ne`. -/
theorem C63_ne_partial (sub : Bool) (p q : Pnt C) (hid : p.ref = q.ref → p = q) (h : p.ref ≠ q.ref → p.d 0 ≠ q.d 0 ∨ p.d 1 ≠ q.d 1 ∨ p.d 2 ≠ q.d 2) :
    pyCompare sub p q .ne = !pyCompare sub p q .eq := by
  rw [Bool.eq_iff_iff, C63_ne, Bool.not_eq_true', ← Bool.not_eq_true, C63_eq]
  constructor
  · intro hr
    rcases h hr with h | h | h <;> simp [h, hr]
  · intro hn hr
    have := hid hr
    subst this
    exact hn (Or.inl ⟨rfl, rfl, rfl, rfl⟩)

/-- C63: two point objects of one type are equal iff they were made from the same coordinates, where a z coordinate that is not given is 0. -/
theorem C63_eq_coordinates (sub : Bool) (zero : C) (r r' ty : Nat) (x y x' y' : C) (z z' : Option C) :
    pyCompare sub (Pnt.new zero r ty x y z) (Pnt.new zero r' ty x' y' z') .eq = true ↔ x = x' ∧ y = y' ∧ z.getD zero = z'.getD zero := by
  rw [C63_eq]
  simp [Pnt.new]

/-- C63 is violated: any two point objects of the same type with the same coordinates are both equal (`==`) and not equal (`!=`). -/
theorem C63_violation_ne (sub : Bool) (zero : C) (r r' ty : Nat) (x y : C) (z : Option C) (h : r ≠ r') :
    pyCompare sub (Pnt.new zero r ty x y z) (Pnt.new zero r' ty x y z) .eq = true ∧
    pyCompare sub (Pnt.new zero r ty x y z) (Pnt.new zero r' ty x y z) .ne = true :=
  ⟨(C63_eq sub _ _).2 (Or.inl ⟨rfl, rfl, rfl, rfl⟩), (C63_ne sub _ _).2 h⟩

/-- The hypotheses of `C63_ne_partial` can be met. -/
example : let p := Pnt.new (0 : Int) 1 0 3 4 none
    let q := Pnt.new (0 : Int) 2 0 3 5 none
    (p.ref = q.ref → p = q) ∧ (p.ref ≠ q.ref → p.d 0 ≠ q.d 0 ∨ p.d 1 ≠ q.d 1 ∨ p.d 2 ≠ q.d 2) ∧ pyCompare false p q .ne = true := by
  refine ⟨fun h => absurd h (by decide), fun _ => by decide, by decide⟩

/-! ### `_reset_from_array` -/

/-- A numpy array: its dimensions, whether its type is one of those that are accepted, and where its elements are in memory: element `i` (of a 1D array) is at
`off + i * stride`. Positions of `mem` that belong to no array are `none`. -/
structure NpArray (C : Type) where
  ndim : Nat
  typeOk : Bool
  len : Nat
  off : Int
  stride : Int
  mem : Int → Option C

/-- The element `a[i]`, as numpy defines it. -/
def NpArray.get (a : NpArray C) (i : Nat) : Option C := if i < a.len then a.mem (a.off + i * a.stride) else none

/-- What `_reset_from_array` does with the coordinates. `bad` is a read outside of any array. -/
inductive Reset (C : Type) where
  | done (d : Nat → C)
  | error
  | bad

/-- The loop of spacemodule.cpp:157-169, 405-414: `d[i] = o[i]` for `i` less than the length and 3, where `o` is the address of the first element. -/
def resetLoop (a : NpArray C) : Nat → Nat → (Nat → C) → Reset C
  | 0, _, d => .done d
  | n + 1, i, d =>
    if i < a.len ∧ i < 3 then
      match a.mem (a.off + i) with
      | some v => resetLoop a n (i + 1) fun j => if j = i then v else d j
      | none => .bad
    else .done d

/-- spacemodule.cpp:137-176, 387-421 `_reset_from_array`; `error` is a `RuntimeError`. -/
def resetFromArray (p : Pnt C) (a : NpArray C) : Reset C :=
  if a.ndim ≠ 1 then .error
  else if a.typeOk then resetLoop a 3 0 p.d
  else .error

/-- C63: `_reset_from_array` with a 1D array of a proper type whose elements are next to each other in memory sets the first coordinates from its elements, and
leaves the other coordinates as they are. Missing (`_partial`): slices with a step, and columns, see `C63_violation_slice`. -/
theorem C63_reset_partial (p : Pnt C) (a : NpArray C) (h1 : a.ndim = 1) (ht : a.typeOk = true) (hs : a.stride = 1 ∨ a.len ≤ 1)
    (hm : ∀ i < a.len, (a.get i).isSome) :
    ∃ d, resetFromArray p a = .done d ∧ ∀ i < 3, some (d i) = if i < a.len then a.get i else some (p.d i) := by
  have key : ∀ i : Nat, i < a.len → ∃ v, a.mem (a.off + i) = some v ∧ a.get i = some v := by
    intro i hi
    obtain ⟨v, hv⟩ := Option.isSome_iff_exists.1 (hm i hi)
    refine ⟨v, ?_, hv⟩
    rw [← hv, NpArray.get, if_pos hi]
    rcases hs with hs | hs
    · rw [hs, Int.mul_one]
    · have : i = 0 := by omega
      subst this
      simp
  unfold resetFromArray
  rw [if_neg (by simp [h1]), if_pos ht]
  simp only [resetLoop]
  by_cases l0 : 0 < a.len
  · obtain ⟨v0, m0, g0⟩ := key 0 l0
    rw [if_pos ⟨l0, by omega⟩, m0]
    by_cases l1 : 1 < a.len
    · obtain ⟨v1, m1, g1⟩ := key 1 l1
      simp only [Nat.zero_add]
      rw [if_pos ⟨l1, by omega⟩, m1]
      by_cases l2 : 2 < a.len
      · obtain ⟨v2, m2, g2⟩ := key 2 l2
        simp only
        rw [if_pos ⟨l2, by omega⟩, m2]
        refine ⟨_, rfl, fun i hi => ?_⟩
        rcases (by omega : i = 0 ∨ i = 1 ∨ i = 2) with rfl | rfl | rfl <;> simp [l0, l1, l2, g0, g1, g2]
      · simp only
        rw [if_neg (by omega)]
        refine ⟨_, rfl, fun i hi => ?_⟩
        rcases (by omega : i = 0 ∨ i = 1 ∨ i = 2) with rfl | rfl | rfl <;> simp [l0, l1, l2, g0, g1]
    · simp only [Nat.zero_add]
      rw [if_neg (by omega)]
      refine ⟨_, rfl, fun i hi => ?_⟩
      rcases (by omega : i = 0 ∨ i = 1 ∨ i = 2) with rfl | rfl | rfl
      · simp [l0, g0]
      · simp [l1]
      · have : ¬ 2 < a.len := by omega
        simp [this]
  · rw [if_neg (by omega)]
    refine ⟨_, rfl, fun i hi => ?_⟩
    rw [if_neg (by omega)]

/-- C63: an array with other dimensions or of another type raises. -/
theorem C63_reset_error (p : Pnt C) (a : NpArray C) (h : a.ndim ≠ 1 ∨ a.typeOk = false) : resetFromArray p a = .error := by
  unfold resetFromArray
  rcases h with h | h
  · rw [if_pos h]
  · by_cases h1 : a.ndim ≠ 1
    · rw [if_pos h1]
    · rw [if_neg h1, if_neg (by simp [h])]

/-- The 2 × 3 array `[[1, 2, 3], [4, 5, 6]]` in memory. -/
def sixMem (i : Int) : Option Int := if 0 ≤ i ∧ i < 6 then some (i + 1) else none

def Reset.coords {C : Type} : Reset C → Option (C × C × C)
  | .done d => some (d 0, d 1, d 2)
  | _ => none

/-- The hypotheses of `C63_reset_partial` can be met, by the second row. -/
example : let a : NpArray Int := ⟨1, true, 3, 3, 1, sixMem⟩
    (∀ i < a.len, (a.get i).isSome) ∧ (resetFromArray (Pnt.new (0 : Int) 1 0 7 8 none) a).coords = some (4, 5, 6) := by
  refine ⟨fun i hi => ?_, by decide⟩
  rcases (by change i < 3 at hi; omega : i = 0 ∨ i = 1 ∨ i = 2) with rfl | rfl | rfl <;> decide

/-- C63 is violated: from the last column `[3, 6]` of that array, the coordinates are set to 3 and 4; from the reversed last row `[6, 5, 4]` (`a[::-1]`) the memory behind the
array is read. -/
theorem C63_violation_slice :
    let col : NpArray Int := ⟨1, true, 2, 2, 3, sixMem⟩
    let rev : NpArray Int := ⟨1, true, 3, 5, -1, sixMem⟩
    col.get 0 = some 3 ∧ col.get 1 = some 6 ∧ (resetFromArray (Pnt.new (0 : Int) 1 0 7 8 none) col).coords = some (3, 4, 0) ∧
    (∀ i < 3, rev.get i = some (6 - i)) ∧ resetFromArray (Pnt.new (0 : Int) 1 0 7 8 none) rev = .bad := by
  refine ⟨by decide, by decide, by decide, ?_, rfl⟩
  intro i hi
  rcases (by omega : i = 0 ∨ i = 1 ∨ i = 2) with rfl | rfl | rfl <;> decide

end Repast.Core
