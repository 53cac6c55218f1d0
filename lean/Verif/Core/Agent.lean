/-
Model of the unique id of an agent: core.h:21-40 (`R4Py_AgentID`, `agent_id_comp`), coremodule.cpp:170-260 (`Agent`) and of the order of the locations
geometry.h:78-91 (`PointComp`).

What is modelled is the memory of an agent id on a 64-bit Linux system, where a C `long` has 8 bytes and an `int` has 4: the `id` is at offset 0, the `type`
at 8, the `rank` at 12, the pointer to the tuple at 16. `PyArg_ParseTupleAndKeywords` (coremodule.cpp:208) is called with the format `li|l`: it stores a
`long` at the address of `rank`, and thus also in the first half of the pointer.
-/
namespace Repast.Core

/-- An integer in memory of `n` bits without and with a sign. -/
def unsigned (n : Nat) (v : Int) : Int := v % 2 ^ n
def signed (n : Nat) (v : Int) : Int := (v + 2 ^ (n - 1)) % 2 ^ n - 2 ^ (n - 1)

/-- The range of a C `long` and of an `int`. -/
def isLong (v : Int) : Bool := decide (-2 ^ 63 ≤ v) && decide (v < 2 ^ 63)
def isInt (v : Int) : Bool := decide (-2 ^ 31 ≤ v) && decide (v < 2 ^ 31)

/-- core.h:21-26 `R4Py_AgentID`: `tuple` is the tuple that `as_tuple` points to, if it points to one; `low` is the first half of that pointer, if it points
nowhere (0: a null pointer). -/
structure AgentId where
  id : Int
  type : Int
  rank : Int
  low : Int
  tuple : Option (Int × Int × Int)
  deriving DecidableEq, Repr

structure Agent where
  aid : AgentId
  localRank : Int
  deriving DecidableEq, Repr

/-- What the constructor leads to. `crash`: a pointer that points nowhere is used. -/
inductive Made where
  | agent (a : Agent)
  | overflowError
  | valueError
  | crash
  deriving DecidableEq, Repr

/-- coremodule.cpp:176-201 `Agent_new`: `new R4Py_AgentID()` sets all of the memory to 0, and the id and the type are then set to -1. This is what the
constructor of a subclass has before, or without, `super().__init__(...)`. -/
def Agent.new : Agent := ⟨⟨-1, -1, 0, 0, none⟩, 0⟩

/-- coremodule.cpp:203-216: the arguments are parsed, one after the other, and stored. `none`: an `OverflowError`. -/
def Agent.parse (a : Agent) (id type : Int) (rank : Option Int) : Option Agent :=
  if isLong id && isInt type then
    match rank with
    | none => some { a with aid := { a.aid with id := id, type := type } }
    | some r =>
      if isLong r then some { a with aid := { a.aid with id := id, type := type, rank := unsigned 32 r, low := unsigned 32 (r / 2 ^ 32) } } else none
  else none

/-- coremodule.cpp:170-174 `Agent_dealloc`, when the constructor has failed: is it safe? -/
def Agent.deallocSafe (a : Agent) : Bool := a.aid.tuple.isSome || decide (a.aid.low = 0)

/-- coremodule.cpp:203-224 `Agent(id, type, rank)`. -/
def Agent.make (id type : Int) (rank : Option Int) : Made :=
  match Agent.new.parse id type rank with
  | none => .overflowError
  | some a =>
    let a : Agent := { a with localRank := a.aid.rank }
    if a.aid.type < (0 : Int) then if a.deallocSafe then .valueError else .crash
    else .agent { a with aid := { a.aid with tuple := some (a.aid.id, a.aid.type, a.aid.rank) } }

/-- coremodule.cpp:226-246: the attributes. -/
def Agent.uid (a : Agent) : Option (Int × Int × Int) := a.aid.tuple
def Agent.id (a : Agent) : Int := a.aid.id
def Agent.type (a : Agent) : Int := a.aid.type
def Agent.uidRank (a : Agent) : Int := a.aid.rank

/-- coremodule.cpp:248-260 `Agent_set_local_rank`: a `long` is stored in an `unsigned int`. For an integer that is no `long`, `PyLong_AsLong` gives -1, which is stored. (The
`OverflowError` that it sets, and that the function does not report, is not modelled.) -/
def Agent.setLocalRank (a : Agent) (v : Int) : Agent := { a with localRank := unsigned 32 (if isLong v then v else -1) }

/-- core.h:28-34 `agent_id_comp`. -/
def idComp (a b : AgentId) : Bool :=
  if a.id ≠ b.id then decide (a.id < b.id)
  else if a.type ≠ b.type then decide (a.type < b.type)
  else decide (a.rank < b.rank)

/-- A coordinate; `none` is a NaN. -/
abbrev Coord := Option Rat

def Coord.ne (a b : Coord) : Bool :=
  match a, b with
  | some a, some b => decide (a ≠ b)
  | _, _ => true

def Coord.lt (a b : Coord) : Bool :=
  match a, b with
  | some a, some b => decide (a < b)
  | _, _ => false

/-- geometry.h:78-91 `PointComp`. -/
def pointComp (p q : Coord × Coord × Coord) : Bool :=
  if Coord.ne p.1 q.1 then Coord.lt p.1 q.1
  else if Coord.ne p.2.1 q.2.1 then Coord.lt p.2.1 q.2.1
  else Coord.lt p.2.2 q.2.2

/-! ### C57 -/

/-- `std::map` takes two keys for the same if none is less than the other. -/
def SameKey {α : Type} (comp : α → α → Bool) (a b : α) : Prop := comp a b = false ∧ comp b a = false

/-- What `std::map` needs: a strict weak order. -/
structure StrictWeak {α : Type} (comp : α → α → Bool) : Prop where
  irrefl : ∀ a, comp a a = false
  trans : ∀ a b c, comp a b = true → comp b c = true → comp a c = true
  same : ∀ a b c, SameKey comp a b → SameKey comp b c → SameKey comp a c

/-- The arguments for which the unique id is what it should be. -/
def Proper (id type rank : Int) : Prop := -2 ^ 63 ≤ id ∧ id < 2 ^ 63 ∧ 0 ≤ type ∧ type < 2 ^ 31 ∧ 0 ≤ rank ∧ rank < 2 ^ 32

theorem make_proper {id type rank : Int} (h : Proper id type rank) :
    Agent.make id type (some rank) = .agent ⟨⟨id, type, rank, 0, some (id, type, rank)⟩, rank⟩ := by
  obtain ⟨h1, h2, h3, h4, h5, h6⟩ := h
  have e1 : isLong id = true := by simp [isLong]; omega
  have e2 : isInt type = true := by simp [isInt]; omega
  have e3 : isLong rank = true := by simp [isLong]; omega
  have e4 : unsigned 32 rank = rank := Int.emod_eq_of_lt h5 h6
  have e5 : unsigned 32 (rank / 4294967296) = 0 := by rw [Int.ediv_eq_zero_of_lt h5 (by omega)]; rfl
  have e6 : ¬ type < 0 := by omega
  simp [Agent.make, Agent.parse, Agent.new, e1, e2, e3, e4, e5, e6]

/-- C57: for an id that fits into 64 bits, a type that is not negative and fits into 32 bits, and a rank that fits into 32 bits, an agent is made whose unique
id, whose components and whose local rank are what was asked for. Missing (`_partial`): other ranks, see `C57_violation_rank` and `C57_violation_crash`. -/
theorem C57_uid_partial (id type rank : Int) (h : Proper id type rank) :
    ∃ a, Agent.make id type (some rank) = .agent a ∧ a.uid = some (id, type, rank) ∧ a.id = id ∧ a.type = type ∧ a.uidRank = rank ∧ a.localRank = rank :=
  ⟨_, make_proper h, rfl, rfl, rfl, rfl, rfl⟩

/-- C57: two agents have the same unique id if and only if they were made with the same arguments. -/
theorem C57_distinct_partial (i t r i' t' r' : Int) (h : Proper i t r) (h' : Proper i' t' r') (a a' : Agent)
    (e : Agent.make i t (some r) = .agent a) (e' : Agent.make i' t' (some r') = .agent a') : a.uid = a'.uid ↔ i = i' ∧ t = t' ∧ r = r' := by
  rw [make_proper h] at e
  rw [make_proper h'] at e'
  cases e; cases e'
  simp [Agent.uid]

/-- C57: without a rank the rank is 0. -/
theorem C57_default (id type : Int) : Agent.make id type none = Agent.make id type (some 0) := by
  simp only [Agent.make, Agent.parse]
  by_cases hc : (isLong id && isInt type) = true
  · rw [if_pos hc, if_pos hc]; rfl
  · rw [if_neg hc, if_neg hc]

theorem idComp_iff (a b : AgentId) :
    idComp a b = true ↔ a.id < b.id ∨ (a.id = b.id ∧ (a.type < b.type ∨ (a.type = b.type ∧ a.rank < b.rank))) := by
  unfold idComp
  by_cases h1 : a.id = b.id
  · by_cases h2 : a.type = b.type
    · simp [h1, h2]
    · simp [h1, h2]
  · simp [h1]

/-- C57: the order of the agent ids is one that `std::map` can use, and it takes two ids for the same exactly if they have the same components. -/
theorem C57_order : StrictWeak idComp ∧ ∀ a b : AgentId, SameKey idComp a b ↔ a.id = b.id ∧ a.type = b.type ∧ a.rank = b.rank := by
  have key : ∀ a b : AgentId, SameKey idComp a b ↔ a.id = b.id ∧ a.type = b.type ∧ a.rank = b.rank := by
    intro a b
    unfold SameKey
    rw [← Bool.not_eq_true, ← Bool.not_eq_true, idComp_iff, idComp_iff]
    omega
  refine ⟨⟨fun a => by rw [← Bool.not_eq_true, idComp_iff]; omega, fun a b c hab hbc => ?_, fun a b c hab hbc => ?_⟩, key⟩
  · rw [idComp_iff] at *; omega
  · rw [key] at *
    obtain ⟨a1, a2, a3⟩ := hab
    obtain ⟨b1, b2, b3⟩ := hbc
    exact ⟨a1.trans b1, a2.trans b2, a3.trans b3⟩

/-- A point with numbers as coordinates. -/
def pt (p : Rat × Rat × Rat) : Coord × Coord × Coord := (some p.1, some p.2.1, some p.2.2)

theorem pointComp_iff (p q : Rat × Rat × Rat) :
    pointComp (pt p) (pt q) = true ↔ p.1 < q.1 ∨ (p.1 = q.1 ∧ (p.2.1 < q.2.1 ∨ (p.2.1 = q.2.1 ∧ p.2.2 < q.2.2))) := by
  unfold pointComp pt Coord.ne Coord.lt
  by_cases h1 : p.1 = q.1
  · by_cases h2 : p.2.1 = q.2.1
    · simp [h1, h2, Rat.lt_irrefl]
    · simp [h1, h2, Rat.lt_irrefl]
  · simp [h1]

theorem rat_lt_trans {a b c : Rat} (h : a < b) (g : b < c) : a < c := Std.lt_trans h g

theorem not_lt_both {a b : Rat} (h1 : ¬ a < b) (h2 : ¬ b < a) : a = b := Rat.le_antisymm (Rat.not_lt.mp h2) (Rat.not_lt.mp h1)

/-- C57: the order of the locations is one that `std::map` can use, and it takes two locations for the same exactly if they have the same coordinates; if the
coordinates are numbers (`_partial`), see `C57_violation_nan`. -/
theorem C57_points_partial : StrictWeak (fun p q => pointComp (pt p) (pt q)) ∧ ∀ p q, SameKey (fun p q => pointComp (pt p) (pt q)) p q ↔ p = q := by
  have key : ∀ p q, SameKey (fun p q => pointComp (pt p) (pt q)) p q ↔ p = q := by
    intro p q
    unfold SameKey
    simp only [← Bool.not_eq_true, pointComp_iff]
    constructor
    · intro ⟨h, h'⟩
      have e1 : p.1 = q.1 := not_lt_both (fun h1 => h (.inl h1)) (fun h1 => h' (.inl h1))
      have e2 : p.2.1 = q.2.1 := not_lt_both (fun h1 => h (.inr ⟨e1, .inl h1⟩)) (fun h1 => h' (.inr ⟨e1.symm, .inl h1⟩))
      have e3 : p.2.2 = q.2.2 := not_lt_both (fun h1 => h (.inr ⟨e1, .inr ⟨e2, h1⟩⟩)) (fun h1 => h' (.inr ⟨e1.symm, .inr ⟨e2.symm, h1⟩⟩))
      exact Prod.ext e1 (Prod.ext e2 e3)
    · rintro rfl
      simp [Rat.lt_irrefl]
  refine ⟨⟨fun a => ?_, fun a b c hab hbc => ?_, fun a b c hab hbc => ?_⟩, key⟩
  · rw [← Bool.not_eq_true, pointComp_iff]; simp [Rat.lt_irrefl]
  · rw [pointComp_iff] at *
    rcases hab with h | ⟨h, hab⟩
    · rcases hbc with g | ⟨g, _⟩
      · exact .inl (rat_lt_trans h g)
      · exact .inl (g ▸ h)
    · rcases hbc with g | ⟨g, hbc⟩
      · exact .inl (h ▸ g)
      · refine .inr ⟨h.trans g, ?_⟩
        rcases hab with h | ⟨h, hab⟩
        · rcases hbc with g | ⟨g, _⟩
          · exact .inl (rat_lt_trans h g)
          · exact .inl (g ▸ h)
        · rcases hbc with g | ⟨g, hbc⟩
          · exact .inl (h ▸ g)
          · exact .inr ⟨h.trans g, rat_lt_trans hab hbc⟩
  · rw [key] at *; exact hab.trans hbc

/-- The hypotheses can be met: agent 7 of type 2, made on rank 3. -/
example : Proper 7 2 3 ∧ Agent.make 7 2 (some 3) = .agent ⟨⟨7, 2, 3, 0, some (7, 2, 3)⟩, 3⟩ := ⟨by unfold Proper; omega, by decide⟩

/-- C57 is violated: ranks that do not fit into 32 bits are accepted, but are not what the unique id says; agents that were made with different ranks have the same
unique id. -/
theorem C57_violation_rank : ∃ a b, Agent.make 1 0 (some (-1)) = .agent a ∧ a.uid = some (1, 0, 4294967295) ∧
    Agent.make 1 0 (some 4294967295) = .agent b ∧ b.uid = a.uid := by
  refine ⟨_, _, rfl, ?_, rfl, ?_⟩ <;> decide

/-- C57: in general, the rank is taken modulo 2 ^ 32. -/
theorem C57_rank (id type rank : Int) (hi : isLong id = true) (ht : isInt type = true) (h0 : 0 ≤ type) (hr : isLong rank = true) :
    ∃ a, Agent.make id type (some rank) = .agent a ∧ a.uid = some (id, type, rank % 2 ^ 32) := by
  refine ⟨_, by simp only [Agent.make, Agent.parse, hi, ht, hr]; simp [Int.not_lt.mpr h0]; rfl, rfl⟩

/-- C57: the local rank is the one that was set last, if it fits into 32 bits; whatever it is set to, the unique id stays. Missing (`_partial`): other local ranks, see
`C57_violation_local_rank`. -/
theorem C57_local_rank_partial (a : Agent) (vs : List Int) (v : Int) :
    (let b := (vs ++ [v]).foldl Agent.setLocalRank a
     (0 ≤ v → v < 2 ^ 32 → b.localRank = v) ∧ b.uid = a.uid ∧ b.id = a.id ∧ b.type = a.type ∧ b.uidRank = a.uidRank) := by
  have hk : ∀ (vs : List Int) (a : Agent), (vs.foldl Agent.setLocalRank a).aid = a.aid := by
    intro vs
    induction vs with
    | nil => intro a; rfl
    | cons v vs ih => intro a; exact ih _
  refine ⟨fun h0 h1 => ?_, ?_, ?_, ?_, ?_⟩
  · rw [List.foldl_append]
    have : isLong v = true := by
      simp only [isLong, Bool.and_eq_true, decide_eq_true_eq]
      constructor <;> omega
    simp only [List.foldl_cons, List.foldl_nil, Agent.setLocalRank, this, if_true, unsigned]
    exact Int.emod_eq_of_lt h0 h1
  · exact congrArg AgentId.tuple (hk _ a)
  · exact congrArg AgentId.id (hk _ a)
  · exact congrArg AgentId.type (hk _ a)
  · exact congrArg AgentId.rank (hk _ a)

/-- The hypotheses: an agent is given to rank 3. -/
example : ([5, 3].foldl Agent.setLocalRank Agent.new).localRank = 3 := by decide

/-- C57 is violated: other local ranks are accepted, but are not what `local_rank` gives. -/
theorem C57_violation_local_rank (a : Agent) : (a.setLocalRank (-1)).localRank = 4294967295 ∧ (a.setLocalRank (2 ^ 32 + 7)).localRank = 7 ∧
    (a.setLocalRank (2 ^ 63)).localRank = 4294967295 := by
  refine ⟨?_, ?_, ?_⟩ <;> simp [Agent.setLocalRank, isLong, unsigned]

/-- C57 is violated: a negative type raises a `ValueError` for the usual ranks, but with a negative rank the interpreter uses a pointer that points nowhere. -/
theorem C57_violation_crash : Agent.make 1 (-1) (some 0) = .valueError ∧ Agent.make 1 (-1) (some (-1)) = .crash := by decide

/-- C57 is violated: `std::map` takes a location with a NaN for the same as two different locations. -/
theorem C57_violation_nan : SameKey pointComp (some 1, some 0, some 0) (none, some 0, some 0) ∧ SameKey pointComp (none, some 0, some 0) (some 2, some 0, some 0) ∧
    ¬ SameKey pointComp (some 1, some 0, some 0) (some 2, some 0, some 0) := by
  refine ⟨?_, ?_, ?_⟩ <;> unfold SameKey <;> decide +kernel

/-- C57 is violated by agents of subclasses that do not call `super().__init__`: they have the id and the type -1, there is no error, and they have no unique id: `uid`
follows a null pointer (coremodule.cpp:238-242). `Agent` itself gives no such agents. -/
theorem C57_violation_uninitialized : Agent.new.id = -1 ∧ Agent.new.type = -1 ∧ Agent.new.uidRank = 0 ∧ Agent.new.localRank = 0 ∧ Agent.new.uid = none ∧
    ∀ id type rank a, Agent.make id type rank = .agent a → a.uid.isSome = true := by
  refine ⟨rfl, rfl, rfl, rfl, rfl, fun id type rank a h => ?_⟩
  unfold Agent.make at h
  split at h
  · cases h
  · simp only at h
    split at h
    · split at h <;> cases h
    · cases h; rfl

end Repast.Core
