/-
Python dictionaries (insertion ordered) with keys of any type, as association lists.
-/
namespace Repast.Assoc

/-- A dictionary: the items in insertion order. -/
abbrev Assoc (κ α : Type) := List (κ × α)

variable {κ α : Type} [DecidableEq κ]

/-- `d.get(k)` -/
def get (d : Assoc κ α) (k : κ) : Option α := (d.find? (fun e => decide (e.1 = k))).map (·.2)

/-- `d[k] = v`: an existing key keeps its position. -/
def set : Assoc κ α → κ → α → Assoc κ α
  | [], k, v => [(k, v)]
  | e :: d, k, v => if e.1 = k then (k, v) :: d else e :: set d k v

/-- `d.pop(k, None)`, without its result. -/
def del (d : Assoc κ α) (k : κ) : Assoc κ α := d.filter (fun e => decide (e.1 ≠ k))

/-- `d.keys()` -/
def keys (d : Assoc κ α) : List κ := d.map (·.1)

@[simp] theorem get_nil (k : κ) : get ([] : Assoc κ α) k = none := rfl

theorem get_cons (e : κ × α) (d : Assoc κ α) (k : κ) : get (e :: d) k = if e.1 = k then some e.2 else get d k := by
  unfold get
  rw [List.find?_cons]
  by_cases h : e.1 = k <;> simp [h]

@[simp] theorem get_set (d : Assoc κ α) (k j : κ) (v : α) : get (set d k v) j = if k = j then some v else get d j := by
  induction d with
  | nil => simp [set, get_cons]
  | cons e d ih =>
    unfold set
    by_cases h : e.1 = k
    · rw [if_pos h, get_cons, get_cons]
      by_cases h2 : k = j
      · simp [h2]
      · have : e.1 ≠ j := fun x => h2 (h.symm.trans x)
        simp [h2, this]
    · rw [if_neg h, get_cons, get_cons, ih]
      by_cases h2 : e.1 = j
      · have : k ≠ j := fun x => h (h2.trans x.symm)
        simp [h2, this]
      · simp [h2]

@[simp] theorem get_del (d : Assoc κ α) (k j : κ) : get (del d k) j = if k = j then none else get d j := by
  induction d with
  | nil => simp [del]
  | cons e d ih =>
    unfold del at *
    rw [List.filter_cons, get_cons]
    by_cases h : e.1 = k
    · simp only [h, ne_eq, not_true_eq_false, decide_false, Bool.false_eq_true, if_false]
      rw [ih]
      by_cases h2 : k = j <;> simp [h2]
    · simp only [ne_eq, h, not_false_eq_true, decide_true, if_true]
      rw [get_cons, ih]
      by_cases h2 : e.1 = j
      · have : k ≠ j := fun x => h (h2.trans x.symm)
        simp [h2, this]
      · simp [h2]

theorem get_isSome (d : Assoc κ α) (k : κ) : (get d k).isSome = true ↔ k ∈ keys d := by
  induction d with
  | nil => simp [keys]
  | cons e d ih =>
    rw [get_cons]
    unfold keys at *
    by_cases h : e.1 = k
    · simp [h]
    · simp only [h, if_false, ih, List.map_cons, List.mem_cons]
      exact ⟨.inr, fun x => x.elim (fun x => absurd x.symm h) id⟩

theorem mem_of_get {d : Assoc κ α} {k : κ} {v : α} (h : get d k = some v) : (k, v) ∈ d := by
  induction d with
  | nil => simp at h
  | cons e d ih =>
    rw [get_cons] at h
    split at h
    · rename_i he
      simp only [Option.some.injEq] at h
      subst he h
      simp
    · exact List.mem_cons_of_mem _ (ih h)

/-- The keys are distinct (true of every Python dictionary). -/
def Ok (d : Assoc κ α) : Prop := (keys d).Nodup

theorem get_of_mem {d : Assoc κ α} (h : Ok d) {k : κ} {v : α} (hm : (k, v) ∈ d) : get d k = some v := by
  induction d with
  | nil => simp at hm
  | cons e d ih =>
    unfold Ok keys at *
    rw [List.map_cons, List.nodup_cons] at h
    rw [get_cons]
    rcases List.mem_cons.1 hm with rfl | hm
    · simp
    · have : e.1 ≠ k := by
        rintro rfl
        exact h.1 (List.mem_map.2 ⟨_, hm, rfl⟩)
      rw [if_neg this]
      exact ih h.2 hm

theorem keys_set (d : Assoc κ α) (k : κ) (v : α) : keys (set d k v) = if k ∈ keys d then keys d else keys d ++ [k] := by
  induction d with
  | nil => simp [set, keys]
  | cons e d ih =>
    unfold set
    by_cases h : e.1 = k
    · simp [keys, h]
    · unfold keys at *
      rw [if_neg h, List.map_cons, ih]
      by_cases h2 : k ∈ List.map (·.1) d
      · simp [h2]
      · have : ¬ k = e.1 := fun x => h x.symm
        simp only [List.map_cons, List.mem_cons, this, h2, or_self, if_false, List.cons_append]

theorem Ok.set {d : Assoc κ α} (h : Ok d) (k : κ) (v : α) : Ok (set d k v) := by
  unfold Ok
  rw [keys_set]
  split
  · exact h
  · rename_i hk
    rw [List.nodup_append]
    refine ⟨h, by simp, ?_⟩
    intro a ha b hb
    simp only [List.mem_singleton] at hb
    rintro rfl
    exact hk (hb ▸ ha)

theorem keys_del (d : Assoc κ α) (k : κ) : keys (del d k) = (keys d).filter (fun j => decide (j ≠ k)) := by
  unfold keys del
  rw [List.filter_map]
  rfl

theorem Ok.del {d : Assoc κ α} (h : Ok d) (k : κ) : Ok (del d k) := by
  unfold Ok
  rw [keys_del]
  exact List.Pairwise.filter _ h

omit [DecidableEq κ] in
theorem Ok.nil : Ok ([] : Assoc κ α) := List.nodup_nil

end Repast.Assoc
