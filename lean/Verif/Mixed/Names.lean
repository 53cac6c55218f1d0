import Verif.Context.Dict

/-
C71: the projections of a context are found by their names (context.py:71-94 and 96-112).
-/
namespace Repast.Mixed.Names
open Repast.Dict

variable {X : Type}

/-! ### Model -/

/-- context.py:35-41: `projections`, `projection_id`, `bounded_projs` and `non_bounded_projs`. A projection is its name, whether it is a `BoundedProjection`, and the object itself. -/
structure Reg (X : Type) where
  projections : Dict (String × Bool × X)
  next : Nat
  bounded : Dict X
  others : List X

/-- context.py:35-41: a new context. -/
def Reg.init : Reg X := { projections := [], next := 0, bounded := [], others := [] }

/-- context.py:71-94 `add_projection`, `none` if it raises a `ValueError`. What it does to the projection, with the agents of the context, is `Mx.addNet` and `Mx.addSpace`. -/
def Reg.add (g : Reg X) (name : String) (isBounded : Bool) (x : X) : Option (Reg X) :=
  if g.projections.any (fun e => name == e.2.1) then none
  else some
    { projections := Dict.set g.projections g.next (name, isBounded, x)
      next := g.next + 1
      bounded := if isBounded then Dict.set g.bounded g.next x else g.bounded
      others := if isBounded then g.others else g.others ++ [x] }

/-- context.py:96-112 `get_projection`, `none` if it raises a `KeyError`. -/
def Reg.getProjection (g : Reg X) (name : String) : Option X := (g.projections.find? fun e => e.2.1 == name).map fun e => e.2.2.2

/-- A model adds projections one after the other; a call that raises changes nothing, and the model may go on. -/
def Reg.run (g : Reg X) : List (String × Bool × X) → Reg X
  | [] => g
  | (name, b, x) :: rest => ((g.add name b x).getD g).run rest

/-! ### Specification -/

/-- The first projection with each name is the one that counts. -/
def firsts : List String → List (String × Bool × X) → List (String × Bool × X)
  | _, [] => []
  | seen, (name, b, x) :: rest => if name ∈ seen then firsts seen rest else (name, b, x) :: firsts (name :: seen) rest

/-! ### Proofs -/

/-- The projections that have been added are `l`. -/
structure Holds (g : Reg X) (l : List (String × Bool × X)) : Prop where
  projections : g.projections.map (·.2) = l
  ids : keys g.projections = List.range l.length
  next : g.next = l.length
  bounded : g.bounded = (g.projections.filter fun e => e.2.2.1).map fun e => (e.1, e.2.2.2)
  others : g.others = (l.filter fun e => ! e.2.1).map (·.2.2)

theorem Holds.init : Holds (Reg.init : Reg X) [] := ⟨rfl, rfl, rfl, rfl, rfl⟩

theorem set_end {α : Type} {d : Dict α} {k : Nat} {v : α} (h : k ∉ keys d) : Dict.set d k v = d ++ [(k, v)] := by
  induction d with
  | nil => rfl
  | cons e d ih =>
    simp only [keys, List.map_cons, List.mem_cons, not_or] at h
    have : e.1 ≠ k := fun c => h.1 c.symm
    simp only [Dict.set, if_neg this, List.cons_append]
    rw [ih h.2]

theorem Holds.any {g : Reg X} {l : List (String × Bool × X)} (h : Holds g l) (name : String) : (g.projections.any fun e => name == e.2.1) = true ↔ name ∈ l.map (·.1) := by
  rw [← h.projections]
  simp only [List.any_eq_true, List.map_map, List.mem_map, Function.comp, beq_iff_eq]
  constructor
  · rintro ⟨e, he, hn⟩; exact ⟨e, he, hn.symm⟩
  · rintro ⟨e, he, hn⟩; exact ⟨e, he, hn.symm⟩

theorem Holds.add {g : Reg X} {l : List (String × Bool × X)} (h : Holds g l) (name : String) (b : Bool) (x : X) :
    (name ∈ l.map (·.1) → g.add name b x = none) ∧ (name ∉ l.map (·.1) → ∃ g', g.add name b x = some g' ∧ Holds g' (l ++ [(name, b, x)])) := by
  refine ⟨fun hn => ?_, fun hn => ?_⟩
  · unfold Reg.add
    rw [if_pos ((h.any name).2 hn)]
  · unfold Reg.add
    rw [if_neg fun c => hn ((h.any name).1 c)]
    refine ⟨_, rfl, ?_⟩
    have hk : g.next ∉ keys g.projections := by rw [h.ids, h.next]; simp
    have hb : b = true → g.next ∉ keys g.bounded := by
      intro _ c
      refine hk ?_
      rw [h.bounded] at c
      simp only [keys, List.map_map, List.mem_map, Function.comp] at c ⊢
      obtain ⟨e, he, e1⟩ := c
      exact ⟨e, (List.mem_filter.1 he).1, e1⟩
    constructor
    · show (Dict.set _ _ _).map _ = _
      rw [set_end hk, List.map_append, h.projections]; rfl
    · show keys (Dict.set _ _ _) = _
      rw [set_end hk]
      simp only [keys, List.map_append, List.map_singleton, List.length_append, List.length_singleton]
      rw [show g.projections.map (·.1) = List.range l.length from h.ids, List.range_succ, h.next]
    · show g.next + 1 = _
      rw [h.next, List.length_append]; rfl
    · show (if b = true then Dict.set g.bounded g.next x else g.bounded) = ((Dict.set g.projections g.next (name, b, x)).filter fun e => e.2.2.1).map fun e => (e.1, e.2.2.2)
      rw [set_end hk, List.filter_append, List.map_append, ← h.bounded]
      cases b with
      | true => rw [if_pos rfl, set_end (hb rfl)]; rfl
      | false => simp
    · show (if b = true then g.others else g.others ++ [x]) = _
      rw [List.filter_append, List.map_append, ← h.others]
      cases b <;> simp

theorem Holds.run : ∀ (ps : List (String × Bool × X)) (g : Reg X) (l : List (String × Bool × X)) (seen : List String), Holds g l → (∀ name, name ∈ seen ↔ name ∈ l.map (·.1)) →
    Holds (g.run ps) (l ++ firsts seen ps) := by
  intro ps
  induction ps with
  | nil => intro g l seen h _; simpa [firsts, Reg.run] using h
  | cons p ps ih =>
    obtain ⟨name, b, x⟩ := p
    intro g l seen h hs
    unfold Reg.run firsts
    by_cases hn : name ∈ seen
    · rw [if_pos hn, (h.add name b x).1 ((hs name).1 hn)]
      exact ih g l seen h hs
    · rw [if_neg hn]
      obtain ⟨g', e, h'⟩ := (h.add name b x).2 fun c => hn ((hs name).2 c)
      rw [e]
      have := ih g' (l ++ [(name, b, x)]) (name :: seen) h' (by
        intro m
        simp only [List.map_append, List.map_singleton, List.mem_append, List.mem_singleton, List.mem_cons, hs m]
        constructor
        · rintro (c | c)
          · exact .inr (.inl c)
          · exact .inl c
        · rintro (c | c | c)
          · exact .inr c
          · exact .inl c
          · cases c)
      rw [List.append_assoc] at this
      exact this

theorem Holds.get {g : Reg X} {l : List (String × Bool × X)} (h : Holds g l) (name : String) : g.getProjection name = (l.find? fun e => e.1 == name).map (·.2.2) := by
  unfold Reg.getProjection
  rw [← h.projections, List.find?_map, Option.map_map]
  rfl

theorem find_firsts (name : String) : ∀ (ps : List (String × Bool × X)) (seen : List String), name ∉ seen → (firsts seen ps).find? (fun e => e.1 == name) = ps.find? fun e => e.1 == name := by
  intro ps
  induction ps with
  | nil => intro seen _; rfl
  | cons p ps ih =>
    obtain ⟨m, b, x⟩ := p
    intro seen hn
    unfold firsts
    by_cases hm : m ∈ seen
    · have hne : (m == name) = false := by
        rw [beq_eq_false_iff_ne]; intro c; exact hn (c ▸ hm)
      rw [if_pos hm, List.find?_cons]
      simp only [hne]
      exact ih seen hn
    · rw [if_neg hm, List.find?_cons, List.find?_cons]
      cases hne : m == name with
      | true => rfl
      | false =>
        simp only
        refine ih _ ?_
        rw [beq_eq_false_iff_ne] at hne
        simp only [List.mem_cons, not_or]
        exact ⟨fun c => hne c.symm, hn⟩

theorem firsts_names : ∀ (ps : List (String × Bool × X)) (seen : List String), ((firsts seen ps).map (·.1)).Nodup ∧ ∀ m ∈ seen, m ∉ (firsts seen ps).map (·.1) := by
  intro ps
  induction ps with
  | nil => intro seen; simp [firsts]
  | cons p ps ih =>
    obtain ⟨m, b, x⟩ := p
    intro seen
    unfold firsts
    by_cases hm : m ∈ seen
    · rw [if_pos hm]; exact ih seen
    · rw [if_neg hm]
      obtain ⟨h1, h2⟩ := ih (m :: seen)
      rw [List.map_cons, List.nodup_cons]
      refine ⟨⟨h2 m List.mem_cons_self, h1⟩, ?_⟩
      intro k hk c
      rcases List.mem_cons.1 c with c | c
      · subst c; exact hm hk
      · exact h2 k (List.mem_cons_of_mem _ hk) c

/-- C71: `get_projection` returns the first projection that has been added with this name, and raises a `KeyError` if there is none. -/
theorem C71_get (ps : List (String × Bool × X)) (name : String) : ((Reg.init : Reg X).run ps).getProjection name = (ps.find? fun e => e.1 == name).map (·.2.2) := by
  have h := Holds.run ps Reg.init [] [] Holds.init (by simp)
  rw [List.nil_append] at h
  rw [h.get, find_firsts name ps [] (by simp)]

/-- C71: `add_projection` raises exactly if a projection with this name has been added before; a call that raises changes nothing (`Reg.run` goes on with the same context), and one that
does not changes what `get_projection` returns for this name only. -/
theorem C71_add (ps : List (String × Bool × X)) (name : String) (b : Bool) (x : X) :
    (((Reg.init : Reg X).run ps).add name b x = none ↔ ∃ e ∈ ps, e.1 = name) ∧
      ∀ g', ((Reg.init : Reg X).run ps).add name b x = some g' → g'.getProjection name = some x ∧ ∀ m ≠ name, g'.getProjection m = ((Reg.init : Reg X).run ps).getProjection m := by
  have h := Holds.run ps Reg.init [] [] Holds.init (by simp)
  rw [List.nil_append] at h
  have hmem : (name ∈ (firsts [] ps).map (·.1)) ↔ ∃ e ∈ ps, e.1 = name := by
    have hf := find_firsts (X := X) name ps [] (by simp)
    have h1 : (name ∈ (firsts [] ps).map (·.1)) ↔ ((firsts [] ps).find? fun e => e.1 == name).isSome = true := by
      simp [List.find?_isSome, List.mem_map]
    rw [h1, hf, List.find?_isSome]
    simp
  obtain ⟨a1, a2⟩ := h.add name b x
  refine ⟨?_, ?_⟩
  · rw [← hmem]
    constructor
    · intro e
      refine Classical.byContradiction fun hc => ?_
      obtain ⟨g', e', _⟩ := a2 hc
      rw [e] at e'; cases e'
    · exact a1
  · intro g' e
    have hn : name ∉ (firsts [] ps).map (·.1) := fun c => by rw [a1 c] at e; cases e
    obtain ⟨g'', e', h'⟩ := a2 hn
    rw [e] at e'
    cases e'
    have hnone : (firsts [] ps).find? (fun e => e.1 == name) = none := by
      rw [List.find?_eq_none]
      intro y hy c
      exact hn (List.mem_map.2 ⟨y, hy, by simpa using c⟩)
    refine ⟨?_, ?_⟩
    · rw [h'.get, List.find?_append, hnone]
      simp
    · intro m hm
      rw [h'.get, h.get, List.find?_append]
      have : ([(name, b, x)] : List (String × Bool × X)).find? (fun e => e.1 == m) = none := by
        simp [List.find?_cons, Ne.symm hm]
      rw [this, Option.or_none]

/-- The projections of a context have different names, and each is either one of its bounded projections, under the number of the calls of `add_projection` that did not raise before it, or one of
the others. -/
theorem split_projections (ps : List (String × Bool × X)) :
    (((Reg.init : Reg X).run ps).projections.map (·.2.1)).Nodup ∧ keys ((Reg.init : Reg X).run ps).projections = List.range ((Reg.init : Reg X).run ps).projections.length ∧
      (∀ i x, get ((Reg.init : Reg X).run ps).bounded i = some x ↔ ∃ name, get ((Reg.init : Reg X).run ps).projections i = some (name, true, x)) ∧
      ∀ x, x ∈ ((Reg.init : Reg X).run ps).others ↔ ∃ i name, get ((Reg.init : Reg X).run ps).projections i = some (name, false, x) := by
  have h := Holds.run ps Reg.init [] [] Holds.init (by simp)
  rw [List.nil_append] at h
  have hlen : (firsts [] ps).length = ((Reg.init : Reg X).run ps).projections.length := by rw [← h.projections, List.length_map]
  have hnd : (keys ((Reg.init : Reg X).run ps).projections).Nodup := by rw [h.ids]; exact List.nodup_range
  have hget : ∀ {α : Type} (d : Dict α), (keys d).Nodup → ∀ i v, get d i = some v ↔ (i, v) ∈ d := by
    intro α d
    induction d with
    | nil => intro _ i v; simp [Dict.get]
    | cons e d ih =>
      intro hd i v
      simp only [keys, List.map_cons, List.nodup_cons] at hd
      rw [get_cons]
      split
      · next hk =>
        subst hk
        constructor
        · intro c; cases c; exact List.mem_cons_self
        · intro c
          rcases List.mem_cons.1 c with c | c
          · rw [← c]
          · exact absurd (List.mem_map.2 ⟨_, c, rfl⟩) hd.1
      · next hk =>
        rw [ih hd.2, List.mem_cons]
        constructor
        · exact .inr
        · rintro (c | c)
          · exact absurd (by rw [← c]) hk
          · exact c
  refine ⟨?_, by rw [h.ids, hlen], ?_, ?_⟩
  · have := (firsts_names ps []).1
    rw [← h.projections, List.map_map] at this
    exact this
  · intro i x
    have hbn : (keys ((Reg.init : Reg X).run ps).bounded).Nodup := by
      rw [h.bounded]
      have : keys ((((Reg.init : Reg X).run ps).projections.filter fun e => e.2.2.1).map fun e => (e.1, e.2.2.2)) = (((Reg.init : Reg X).run ps).projections.filter fun e => e.2.2.1).map (·.1) := by
        simp [keys, List.map_map, Function.comp]
      rw [this]
      exact (List.filter_sublist.map _).nodup hnd
    rw [hget _ hbn, h.bounded]
    simp only [List.mem_map, List.mem_filter]
    constructor
    · rintro ⟨⟨i', n, b, x'⟩, ⟨hm, hb⟩, he⟩
      simp only [Prod.mk.injEq] at he hb
      obtain ⟨rfl, rfl⟩ := he
      subst hb
      exact ⟨n, (hget _ hnd _ _).2 hm⟩
    · rintro ⟨n, hn⟩
      exact ⟨(i, n, true, x), ⟨(hget _ hnd _ _).1 hn, rfl⟩, rfl⟩
  · intro x
    rw [h.others, ← h.projections]
    simp only [List.mem_map, List.mem_filter]
    constructor
    · rintro ⟨⟨n, b, x'⟩, ⟨⟨⟨i, e⟩, hm, rfl⟩, hb⟩, rfl⟩
      simp only [Bool.not_eq_true'] at hb
      subst hb
      exact ⟨i, n, (hget _ hnd _ _).2 hm⟩
    · rintro ⟨i, n, hn⟩
      exact ⟨(n, false, x), ⟨⟨_, (hget _ hnd _ _).1 hn, rfl⟩, rfl⟩, rfl⟩

/-! ### Concrete cases -/

/-- Two grids and two networks; one call raises. -/
def four : List (String × Bool × Nat) := [("grid", true, 10), ("friends", false, 11), ("grid", true, 12), ("space", true, 13), ("family", false, 14)]

example : ((Reg.init : Reg Nat).run four).getProjection "grid" = some 10 ∧ ((Reg.init : Reg Nat).run four).getProjection "family" = some 14 ∧ ((Reg.init : Reg Nat).run four).getProjection "work" = none := by
  decide +kernel

example : (((Reg.init : Reg Nat).run four).add "friends" true 3).isNone = true ∧ (((Reg.init : Reg Nat).run four).add "work" true 3).isSome = true := by decide +kernel

example : ((Reg.init : Reg Nat).run four).bounded = [(0, 10), (2, 13)] ∧ ((Reg.init : Reg Nat).run four).others = [11, 14] := by decide +kernel

end Repast.Mixed.Names
