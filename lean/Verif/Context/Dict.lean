/-
Python dictionaries (insertion ordered) with integer keys, as association lists.
-/
namespace Repast.Dict

/-- A dictionary: the items in insertion order. -/
abbrev Dict (α : Type) := List (Nat × α)

variable {α β : Type}

/-- `d.get(k)` -/
def get (d : Dict α) (k : Nat) : Option α := (d.find? (fun e => decide (e.1 = k))).map (·.2)

/-- `d.keys()` -/
def keys (d : Dict α) : List Nat := d.map (·.1)

/-- `d[k] = v`: an existing key keeps its position. -/
def set : Dict α → Nat → α → Dict α
  | [], k, v => [(k, v)]
  | e :: d, k, v => if e.1 = k then (k, v) :: d else e :: set d k v

/-- `d.pop(k, None)`, without its result. -/
def del (d : Dict α) (k : Nat) : Dict α := d.filter (fun e => decide (e.1 ≠ k))

/-- The keys are distinct (true of every Python dictionary). -/
def Ok (d : Dict α) : Prop := (keys d).Nodup

@[simp] theorem get_nil (k : Nat) : get ([] : Dict α) k = none := rfl

theorem get_cons (e : Nat × α) (d : Dict α) (k : Nat) : get (e :: d) k = if e.1 = k then some e.2 else get d k := by
  unfold get
  rw [List.find?_cons]
  by_cases h : e.1 = k <;> simp [h]

@[simp] theorem get_set (d : Dict α) (k j : Nat) (v : α) : get (set d k v) j = if k = j then some v else get d j := by
  induction d with
  | nil => simp [set, get_cons]
  | cons e d ih =>
    unfold set
    by_cases h : e.1 = k
    · rw [if_pos h, get_cons, get_cons]
      by_cases h2 : k = j
      · simp [h2]
      · have : e.1 ≠ j := by omega
        simp [h2, this]
    · rw [if_neg h, get_cons, get_cons, ih]
      by_cases h2 : e.1 = j
      · have : k ≠ j := by omega
        simp [h2, this]
      · simp [h2]

@[simp] theorem get_del (d : Dict α) (k j : Nat) : get (del d k) j = if k = j then none else get d j := by
  induction d with
  | nil => simp [del]
  | cons e d ih =>
    unfold del at *
    rw [List.filter_cons, get_cons]
    by_cases h : e.1 = k
    · simp only [h, ne_eq, not_true_eq_false, decide_false, Bool.false_eq_true, if_false]
      rw [ih]
      by_cases h2 : k = j <;> simp [h2]
    · simp only [ne_eq, h, not_false_eq_true, decide_true, if_true]
      rw [get_cons, ih]
      by_cases h2 : e.1 = j
      · have : k ≠ j := by omega
        simp [h2, this]
      · simp [h2]

theorem get_isSome (d : Dict α) (k : Nat) : (get d k).isSome = true ↔ k ∈ keys d := by
  induction d with
  | nil => simp [keys]
  | cons e d ih =>
    rw [get_cons]
    unfold keys at *
    by_cases h : e.1 = k
    · simp [h]
    · simp only [h, if_false, ih, List.map_cons, List.mem_cons]
      constructor
      · exact .inr
      · rintro (h2 | h2)
        · exact absurd h2.symm h
        · exact h2

theorem get_eq_none (d : Dict α) (k : Nat) : get d k = none ↔ k ∉ keys d := by
  rw [← get_isSome]; cases get d k <;> simp

theorem mem_keys (d : Dict α) (k : Nat) : k ∈ keys d ↔ ∃ v, get d k = some v := by
  rw [← get_isSome, Option.isSome_iff_exists]

theorem mem_keys_of_get {d : Dict α} {k : Nat} {v : α} (h : get d k = some v) : k ∈ keys d := (mem_keys d k).2 ⟨v, h⟩

theorem get_of_mem {d : Dict α} (hd : Ok d) {k : Nat} {v : α} (h : (k, v) ∈ d) : get d k = some v := by
  induction d with
  | nil => simp at h
  | cons e d ih =>
    rw [get_cons]
    unfold Ok keys at hd
    rw [List.map_cons, List.nodup_cons] at hd
    rcases List.mem_cons.1 h with h | h
    · subst h; simp
    · have : e.1 ≠ k := by rintro rfl; exact hd.1 (List.mem_map.2 ⟨_, h, rfl⟩)
      simp [this, ih hd.2 h]

theorem mem_of_get {d : Dict α} {k : Nat} {v : α} (h : get d k = some v) : (k, v) ∈ d := by
  induction d with
  | nil => simp at h
  | cons e d ih =>
    rw [get_cons] at h
    by_cases h2 : e.1 = k
    · simp only [h2, if_true, Option.some.injEq] at h
      obtain ⟨a, b⟩ := e
      simp only at h2 h
      subst h2 h
      simp
    · rw [if_neg h2] at h; exact List.mem_cons_of_mem _ (ih h)

theorem keys_set (d : Dict α) (k : Nat) (v : α) : keys (set d k v) = if k ∈ keys d then keys d else keys d ++ [k] := by
  induction d with
  | nil => simp [set, keys]
  | cons e d ih =>
    unfold set
    unfold keys at *
    by_cases h : e.1 = k
    · simp [h]
    · have : k ≠ e.1 := fun h' => h h'.symm
      rw [if_neg h, List.map_cons, ih]
      by_cases h2 : k ∈ d.map (·.1)
      · simp [h2]
      · simp [h2, this]

theorem keys_del (d : Dict α) (k : Nat) : keys (del d k) = (keys d).filter (fun j => decide (j ≠ k)) := by
  unfold keys del
  rw [List.filter_map]
  rfl

theorem Ok.set {d : Dict α} (h : Ok d) (k : Nat) (v : α) : Ok (Dict.set d k v) := by
  unfold Ok at *
  rw [keys_set]
  split
  · exact h
  · rename_i hk
    rw [List.nodup_append]
    refine ⟨h, by simp, ?_⟩
    intro a ha b hb e
    simp only [List.mem_singleton] at hb
    subst e; subst hb
    exact hk ha

theorem Ok.del {d : Dict α} (h : Ok d) (k : Nat) : Ok (Dict.del d k) := by
  unfold Ok at *
  rw [keys_del]
  exact List.Pairwise.filter _ h

theorem Ok.nil : Ok ([] : Dict α) := by simp [Ok, keys]

end Repast.Dict
