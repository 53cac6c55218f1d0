import Verif.Space.Occ
import Verif.Space.Props

/-
C80: the agent objects that a space refers to, and the references that it counts for them: space.h:79-125, occupancy.h:82-114, 171-193, grid.h:51-81, cspace.h:86-119.

In `Verif/Space/Model` agents are numbers. Here they are objects, and each object has a unique id: `agent_map` is keyed by unique ids, but `location_map` holds pointers to objects and is searched by pointer.
Not modelled: the destructor of a space (space.h:79-93), the references of points, and those of the spatial tree of a continuous space, which counts none.
-/
namespace Repast.Space
variable {P : Type} [DecidableEq P]

/-- space.h:51-57. `agents u` is the entry of `agent_map` for the unique id `u`: the object and its location, if any. `loc` is `location_map`. `refs o` is the number of references to the object `o` that the
space has counted: `Py_INCREF`s minus `Py_DECREF`s. -/
structure Ob (P : Type) where
  agents : Nat → Option (Nat × Option P)
  loc : P → List Nat
  wpt : P
  refs : Nat → Int

/-- space.h:75-77 -/
def Ob.empty (zero : P) : Ob P := { agents := fun _ => none, loc := fun _ => [], wpt := zero, refs := fun _ => 0 }

/-- `Py_INCREF` -/
def inc (r : Nat → Int) (o : Nat) : Nat → Int := upd r o (r o + 1)

/-- `Py_DECREF` -/
def dec (r : Nat → Int) (o : Nat) : Nat → Int := upd r o (r o - 1)

/-- occupancy.h:96-114, 182-193: the object of which `remove` of an accessor drops a reference. -/
def dropped (c : Cfg P) (loc : P → List Nat) (o : Nat) (p : P) : Option Nat :=
  if c.single then (loc p).head? else if o ∈ loc p then some o else none

/-- occupancy.h:96-114, 182-193: the references after `remove` of an accessor. -/
def remRefs (c : Cfg P) (loc : P → List Nat) (o : Nat) (p : P) (r : Nat → Int) : Nat → Int :=
  match dropped c loc o p with
  | some x => dec r x
  | none => r

/-- space.h:95-104 `add`. -/
def Ob.add (uid : Nat → Nat) (s : Ob P) (o : Nat) : Ob P := { s with agents := upd s.agents (uid o) (some (o, none)), refs := inc s.refs o }

/-- space.h:106-125 `remove`. -/
def Ob.remove (uid : Nat → Nat) (c : Cfg P) (s : Ob P) (o : Nat) : Ob P × Bool :=
  match s.agents (uid o) with
  | none => (s, false)
  | some (x, none) => ({ s with agents := upd s.agents (uid o) none, refs := dec s.refs x }, false)
  | some (x, some p) =>
    ({ s with agents := upd s.agents (uid o) none, loc := (rem c s.loc x p).1, wpt := p, refs := dec (remRefs c s.loc x p s.refs) x }, (rem c s.loc x p).2)

/-- grid.h:51-81 `move`, cspace.h:86-119. The object that is passed is put to the new location, and looked for at the old one. -/
def Ob.move (uid : Nat → Nat) (c : Cfg P) (s : Ob P) (o : Nat) (pt : P) : Ob P × Res P :=
  match s.agents (uid o) with
  | none => (s, .error)
  | some (x, cur) =>
    let w := c.tr pt s.wpt
    let s := { s with wpt := w }
    if cur = some w then (s, .loc (some w))
    else
      match put c s.loc o w with
      | none => (s, .loc none)
      | some loc =>
        let s := { s with agents := upd s.agents (uid o) (some (x, some w)), loc := loc, refs := inc s.refs o }
        match cur with
        | none => (s, .loc (some w))
        | some p => ({ s with loc := (rem c loc o p).1, refs := remRefs c loc o p s.refs }, .loc (some w))

/-- One call (cf. `step` of `Verif/Space/Model`). Agents are objects, in the arguments and in the results. -/
def Ob.step (uid : Nat → Nat) (c : Cfg P) (s : Ob P) : Op P → Ob P × Res P
  | .add o => (s.add uid o, .bool true)
  | .remove o => let r := s.remove uid c o; (r.1, .bool r.2)
  | .move o pt => s.move uid c o pt
  | .getAgent pt => ({ s with wpt := pt }, .agent (s.loc pt).head?)
  | .getAgents pt => ({ s with wpt := pt }, .agents (s.loc pt))
  | .getLocation o => (s, .loc (((s.agents (uid o)).map (·.2)).getD none))
  | .contains o => (s, .bool (s.agents (uid o)).isSome)

/-- A sequence of calls: the space and the results. -/
def Ob.run (uid : Nat → Nat) (c : Cfg P) (s : Ob P) : List (Op P) → Ob P × List (Res P)
  | [] => (s, [])
  | o :: os =>
    let r := s.step uid c o
    let q := r.1.run uid c os
    (q.1, r.2 :: q.2)

/-! ### Specification -/

/-- The agent that is passed to a call. -/
def Op.agent? : Op P → Option Nat
  | .add o => some o
  | .remove o => some o
  | .move o _ => some o
  | .getLocation o => some o
  | .contains o => some o
  | _ => none

/-- Each unique id has one object in all calls. -/
def OneEach (uid : Nat → Nat) (S : Nat → Prop) : Prop := ∀ a b, S a → S b → uid a = uid b → a = b

/-- 1 if the agent is in the space, and 1 if it has a location there. -/
def held (s : Sp P) (o : Nat) : Int := match s.agents o with
  | none => 0
  | some none => 1
  | some (some _) => 2

/-! ### Lemmas -/

/-- The space with objects `b` is the space `s` without. -/
structure Same (uid : Nat → Nat) (S : Nat → Prop) (s : Sp P) (b : Ob P) : Prop where
  agents : ∀ o, S o → b.agents (uid o) = (s.agents o).map fun l => (o, l)
  loc : b.loc = s.loc
  wpt : b.wpt = s.wpt
  only : ∀ o, ¬ S o → s.agents o = none

theorem Same.upd {uid : Nat → Nat} {S : Nat → Prop} (hS : OneEach uid S) {s : Sp P} {b : Ob P} (h : Same uid S s b) {o : Nat} (ho : S o) (v : Option (Option P)) :
    ∀ x, S x → Space.upd b.agents (uid o) (v.map fun l => (o, l)) (uid x) = (Space.upd s.agents o v x).map fun l => (x, l) := by
  intro x hx
  unfold Space.upd
  by_cases e : x = o
  · subst e; simp
  · rw [if_neg (fun e' => e (hS _ _ hx ho e')), if_neg e]
    exact h.agents x hx

theorem Same.step {uid : Nat → Nat} {S : Nat → Prop} (hS : OneEach uid S) {c : Cfg P} {s : Sp P} {b : Ob P} (h : Same uid S s b) (o : Op P) (ho : ∀ a, o.agent? = some a → S a) :
    Same uid S (step c s o).1 (b.step uid c o).1 ∧ (b.step uid c o).2 = (step c s o).2 := by
  have only : ∀ a v, S a → ∀ x, ¬ S x → Space.upd s.agents a v x = none := by
    intro a v ha x hx
    unfold Space.upd
    rw [if_neg (show ¬ x = a from fun e => hx (e ▸ ha))]
    exact h.only x hx
  cases o with
  | add a =>
    have ha := ho a rfl
    exact ⟨⟨h.upd hS ha (some none), h.loc, h.wpt, only a _ ha⟩, rfl⟩
  | remove a =>
    have ha := ho a rfl
    have e := h.agents a ha
    have hu := h.upd hS ha none
    unfold Space.step Ob.step Space.remove Ob.remove
    cases hs : s.agents a with
    | none =>
      rw [hs] at e
      simp only [hs, e, Option.map_none]
      exact ⟨h, trivial⟩
    | some l =>
      rw [hs] at e
      cases l with
      | none =>
        simp only [hs, e, Option.map_some]
        exact ⟨⟨hu, h.loc, h.wpt, only a _ ha⟩, trivial⟩
      | some p =>
        simp only [hs, e, Option.map_some]
        rw [h.loc]
        exact ⟨⟨hu, rfl, rfl, only a _ ha⟩, rfl⟩
  | move a pt =>
    have ha := ho a rfl
    have e := h.agents a ha
    unfold Space.step Ob.step Space.move Ob.move
    cases hs : s.agents a with
    | none =>
      rw [hs] at e
      simp only [hs, e, Option.map_none]
      exact ⟨h, trivial⟩
    | some cur =>
      rw [hs] at e
      simp only [hs, e, Option.map_some]
      rw [h.wpt, h.loc]
      by_cases hw : cur = some (c.tr pt s.wpt)
      · rw [if_pos hw, if_pos hw]
        exact ⟨⟨h.agents, rfl, rfl, h.only⟩, rfl⟩
      · rw [if_neg hw, if_neg hw]
        cases hp : put c s.loc a (c.tr pt s.wpt) with
        | none => exact ⟨⟨h.agents, rfl, rfl, h.only⟩, rfl⟩
        | some loc =>
          have hu := h.upd hS ha (some (some (c.tr pt s.wpt)))
          cases cur with
          | none => exact ⟨⟨hu, rfl, rfl, only a _ ha⟩, rfl⟩
          | some p => exact ⟨⟨hu, rfl, rfl, only a _ ha⟩, rfl⟩
  | getAgent pt => exact ⟨⟨h.agents, h.loc, rfl, h.only⟩, by unfold Space.step Ob.step; simp only []; rw [h.loc]⟩
  | getAgents pt => exact ⟨⟨h.agents, h.loc, rfl, h.only⟩, by unfold Space.step Ob.step; simp only []; rw [h.loc]⟩
  | getLocation a =>
    refine ⟨h, ?_⟩
    unfold Space.step Ob.step
    simp only []
    rw [h.agents a (ho a rfl)]
    cases s.agents a <;> rfl
  | contains a =>
    refine ⟨h, ?_⟩
    unfold Space.step Ob.step
    simp only []
    rw [h.agents a (ho a rfl)]
    cases s.agents a <;> rfl

theorem Occ.alone {c : Cfg P} {s : Sp P} (h : Occ c s) (hc : c.single = true) {a : Nat} {p : P} (ha : s.agents a = some (some p)) : s.loc p = [a] := by
  have hm := h.mem.2 ha
  obtain ⟨t, h⟩ := h
  have hl := h.one hc p
  rw [← h.loc] at hl
  match hx : s.loc p, hl with
  | [], _ => rw [hx] at hm; cases hm
  | [x], _ => rw [hx] at hm; rw [List.mem_singleton.1 hm]
  | _ :: _ :: _, hl => simp at hl

theorem Occ.dropped {c : Cfg P} {s : Sp P} (h : Occ c s) {a : Nat} {p : P} (ha : s.agents a = some (some p)) : Space.dropped c s.loc a p = some a := by
  unfold Space.dropped
  split
  · rename_i hc; rw [h.alone hc ha]; rfl
  · rw [if_pos (h.mem.2 ha)]

/-- After the agent was put to another location, it is still the one that is dropped at the old one. -/
theorem Occ.dropped_put {c : Cfg P} {s : Sp P} (h : Occ c s) {a : Nat} {p w : P} (ha : s.agents a = some (some p)) (hw : p ≠ w) {loc : P → List Nat} (hp : put c s.loc a w = some loc) :
    Space.dropped c loc a p = some a := by
  have e : loc p = s.loc p := by
    unfold put at hp
    split at hp
    · split at hp
      · cases hp; unfold upd; rw [if_neg hw]
      · cases hp
    · cases hp; unfold upd; rw [if_neg hw]
  have := h.dropped ha
  unfold Space.dropped at this ⊢
  rw [e]
  exact this

/-- The counts are those that the space should have, and `d` more. -/
def Counted (d : Nat → Int) (s : Sp P) (b : Ob P) : Prop := ∀ o, b.refs o = d o + held s o

theorem held_upd (s : Sp P) (a : Nat) (v : Option (Option P)) (loc : P → List Nat) (w : P) (x : Nat) :
    held { agents := upd s.agents a v, loc := loc, wpt := w } x = if x = a then (match v with | none => 0 | some none => 1 | some (some _) => 2) else held s x := by
  unfold held upd
  simp only []
  by_cases e : x = a
  · rw [if_pos e, if_pos e]
  · rw [if_neg e, if_neg e]

theorem Counted.step {uid : Nat → Nat} {S : Nat → Prop} {c : Cfg P} {s : Sp P} {b : Ob P} (h : Same uid S s b) (hocc : Occ c s) {d : Nat → Int} (hd : Counted d s b)
    (o : Op P) (ho : ∀ a, o.agent? = some a → S a) (hnew : ∀ a, o = .add a → s.agents a = none) : Counted d (step c s o).1 (b.step uid c o).1 := by
  have same : ∀ w, Counted d { s with wpt := w } { b with wpt := w } := fun w x => hd x
  cases o with
  | add a =>
    intro x
    show inc b.refs a x = d x + held { agents := upd s.agents a (some none), loc := s.loc, wpt := s.wpt } x
    rw [held_upd]
    unfold inc upd
    by_cases e : x = a
    · subst e
      rw [if_pos rfl, if_pos rfl, hd x]
      unfold held
      rw [hnew x rfl]
      simp
    · rw [if_neg e, if_neg e]; exact hd x
  | remove a =>
    have e := h.agents a (ho a rfl)
    unfold Space.step Ob.step Space.remove Ob.remove
    cases hs : s.agents a with
    | none =>
      rw [hs] at e
      simp only [hs, e, Option.map_none]
      exact hd
    | some l =>
      rw [hs] at e
      cases l with
      | none =>
        simp only [hs, e, Option.map_some]
        intro x
        rw [held_upd]
        show dec b.refs a x = _
        unfold dec upd
        by_cases e : x = a
        · subst e
          rw [if_pos rfl, if_pos rfl, hd x]
          unfold held
          rw [hs]
          simp
        · rw [if_neg e, if_neg e]; exact hd x
      | some p =>
        simp only [hs, e, Option.map_some]
        intro x
        rw [held_upd]
        show dec (remRefs c b.loc a p b.refs) a x = _
        unfold remRefs
        rw [h.loc, hocc.dropped hs]
        simp only []
        unfold dec upd
        by_cases e : x = a
        · subst e
          rw [if_pos rfl, if_pos rfl, if_pos rfl, hd x]
          unfold held
          rw [hs]
          simp only []
          omega
        · rw [if_neg e, if_neg e, if_neg e]; exact hd x
  | move a pt =>
    have e := h.agents a (ho a rfl)
    unfold Space.step Ob.step Space.move Ob.move
    cases hs : s.agents a with
    | none =>
      rw [hs] at e
      simp only [hs, e, Option.map_none]
      exact hd
    | some cur =>
      rw [hs] at e
      simp only [hs, e, Option.map_some]
      rw [h.wpt, h.loc]
      by_cases hw : cur = some (c.tr pt s.wpt)
      · rw [if_pos hw, if_pos hw]
        exact hd
      · rw [if_neg hw, if_neg hw]
        cases hp : put c s.loc a (c.tr pt s.wpt) with
        | none => exact hd
        | some loc =>
          cases cur with
          | none =>
            intro x
            rw [held_upd]
            show inc b.refs a x = _
            unfold inc upd
            by_cases e : x = a
            · subst e
              rw [if_pos rfl, if_pos rfl, hd x]
              unfold held
              rw [hs]
              simp only []
              omega
            · rw [if_neg e, if_neg e]; exact hd x
          | some p =>
            intro x
            rw [held_upd]
            show remRefs c loc a p (inc b.refs a) x = _
            unfold remRefs
            rw [hocc.dropped_put hs (fun e => hw (by rw [e])) hp]
            simp only []
            unfold dec inc upd
            by_cases e : x = a
            · subst e
              rw [if_pos rfl, if_pos rfl, if_pos rfl, hd x]
              unfold held
              rw [hs]
              simp only []
              omega
            · rw [if_neg e, if_neg e, if_neg e]; exact hd x
  | _ => first | exact hd | exact same _

theorem Same.empty (uid : Nat → Nat) (S : Nat → Prop) (zero : P) : Same uid S (Sp.empty zero) (Ob.empty zero) := ⟨fun _ _ => rfl, rfl, rfl, fun _ _ => rfl⟩

theorem Same.run {uid : Nat → Nat} {S : Nat → Prop} (hS : OneEach uid S) {c : Cfg P} (ops : List (Op P)) {s : Sp P} {b : Ob P} (h : Same uid S s b)
    (ho : ∀ o ∈ ops, ∀ a, o.agent? = some a → S a) : Same uid S (run c s ops).1 (b.run uid c ops).1 ∧ (b.run uid c ops).2 = (run c s ops).2 := by
  induction ops generalizing s b with
  | nil => exact ⟨h, rfl⟩
  | cons o os ih =>
    obtain ⟨h1, h2⟩ := h.step hS (c := c) o (ho o (List.mem_cons_self ..))
    obtain ⟨h3, h4⟩ := ih h1 (fun o' h' => ho o' (List.mem_cons_of_mem _ h'))
    refine ⟨h3, ?_⟩
    show (b.step uid c o).2 :: ((b.step uid c o).1.run uid c os).2 = (Space.step c s o).2 :: (Space.run c (Space.step c s o).1 os).2
    rw [h2, h4]

theorem Counted.run {uid : Nat → Nat} {S : Nat → Prop} (hS : OneEach uid S) {c : Cfg P} (ops : List (Op P)) {s : Sp P} {t : Abs P} {b : Ob P} (h : Same uid S s b) (hc : Coupled c s t)
    (ha : AddsOnlyNew t.known ops) (ho : ∀ o ∈ ops, ∀ a, o.agent? = some a → S a) {d : Nat → Int} (hd : Counted d s b) :
    Counted d (run c s ops).1 (b.run uid c ops).1 ∧ Occ c (run c s ops).1 := by
  induction ops generalizing s t b with
  | nil => exact ⟨hd, t, hc⟩
  | cons o os ih =>
    have hoo := ho o (List.mem_cons_self ..)
    obtain ⟨h1, h2⟩ := known_step (single := c.single) (T := fun p => c.tr p s.wpt) ha
    refine ih (h.step hS (c := c) o hoo).1 (hc.step o h1 (fun p => c.tr p s.wpt) (fun _ _ _ => rfl)).1 h2 (fun o' h' => ho o' (List.mem_cons_of_mem _ h')) ?_
    refine hd.step h ⟨t, hc⟩ o hoo (fun a e => ?_)
    have := h1 a e
    rw [hc.known] at this
    cases hx : s.agents a with
    | none => rfl
    | some _ => rw [hx] at this; exact absurd rfl this

/-! ### C80 -/

/-- The objects that are passed to calls. -/
def Passed (ops : List (Op P)) (a : Nat) : Prop := ∃ o ∈ ops, o.agent? = some a

/-- C80 (partial), unique ids and objects: as long as each unique id is used with one object, all calls return what they return if agents are their unique ids (C29-C32 hold for objects). Whether agents are
added repeatedly does not matter. -/
theorem C80_objects_partial (uid : Nat → Nat) (c : Cfg P) (zero : P) (ops : List (Op P)) (h1 : OneEach uid (Passed ops)) :
    ((Ob.empty zero).run uid c ops).2 = (run c (Sp.empty zero) ops).2 :=
  (Same.run h1 ops (Same.empty uid _ zero) (fun o ho a e => ⟨o, ho, e⟩)).2

/-- C80 (partial), references: if each unique id is used with one object, and no agent is added that is in the space, the space has counted one reference for each agent that it contains, a second one
for each that has a location, and none for any other object: it keeps its agents alive, and lets go those that were removed. -/
theorem C80_refs_partial (uid : Nat → Nat) (c : Cfg P) (zero : P) (ops : List (Op P)) (h1 : OneEach uid (Passed ops)) (ha : AddsOnlyNew [] ops) :
    let b := ((Ob.empty zero).run uid c ops).1
    (∀ a, Passed ops a → (b.step uid c (.contains a)).2 = .bool false ∧ b.refs a = 0 ∨
      (b.step uid c (.contains a)).2 = .bool true ∧ (b.step uid c (.getLocation a)).2 = .loc none ∧ b.refs a = 1 ∨
      (b.step uid c (.contains a)).2 = .bool true ∧ (∃ p, (b.step uid c (.getLocation a)).2 = .loc (some p)) ∧ b.refs a = 2) ∧
    (∀ a, ¬ Passed ops a → b.refs a = 0) ∧
    (∀ p a, a ∈ b.loc p → b.refs a = 2) := by
  have hs := (Same.run h1 (c := c) ops (Same.empty uid _ zero) (fun o ho a e => ⟨o, ho, e⟩)).1
  obtain ⟨hd, hocc⟩ := Counted.run h1 (c := c) (b := Ob.empty zero) (d := fun _ => 0) ops (Same.empty uid _ zero) (coupled_empty c zero) ha (fun o ho a e => ⟨o, ho, e⟩) (fun _ => rfl)
  intro b
  have e1 : ∀ a, b.refs a = held (run c (Sp.empty zero) ops).1 a := fun a => by have := hd a; simp only [Int.zero_add] at this; exact this
  refine ⟨fun a hp => ?_, fun a hp => ?_, fun p a hm => ?_⟩
  · have e2 := hs.agents a hp
    have k1 : (b.step uid c (.contains a)).2 = .bool (b.agents (uid a)).isSome := rfl
    have k2 : (b.step uid c (.getLocation a)).2 = .loc (((b.agents (uid a)).map (·.2)).getD none) := rfl
    rw [k1, k2, e1 a]
    change b.agents (uid a) = _ at e2
    rw [e2]
    unfold held
    rcases (run c (Sp.empty zero) ops).1.agents a with _ | _ | p
    · exact Or.inl ⟨rfl, rfl⟩
    · exact Or.inr (Or.inl ⟨rfl, rfl, rfl⟩)
    · exact Or.inr (Or.inr ⟨rfl, ⟨p, rfl⟩, rfl⟩)
  · rw [e1 a]
    unfold held
    rw [hs.only a hp]
  · have e : b.loc = (run c (Sp.empty zero) ops).1.loc := hs.loc
    rw [e] at hm
    rw [e1 a]
    unfold held
    rw [hocc.mem.1 hm]

/-- Agents 10, 11 and 12 have the unique ids 0, 1 and 2. -/
def exUid (o : Nat) : Nat := o % 10

def exObOps : List (Op Pt) := [.add 10, .add 11, .move 10 ⟨1, 1, 0⟩, .move 11 ⟨1, 1, 0⟩, .move 10 ⟨2, 2, 0⟩, .add 12, .remove 11, .getAgents ⟨2, 2, 0⟩]

theorem exObOps_passed (a : Nat) (h : Passed exObOps a) : a = 10 ∨ a = 11 ∨ a = 12 := by
  obtain ⟨o, ho, e⟩ := h
  simp only [exObOps, List.mem_cons, List.not_mem_nil, or_false] at ho
  rcases ho with rfl | rfl | rfl | rfl | rfl | rfl | rfl | rfl <;> simp [Op.agent?] at e <;> omega

example : OneEach exUid (Passed exObOps) := by
  intro a b ha hb e
  rcases exObOps_passed a ha with rfl | rfl | rfl <;> rcases exObOps_passed b hb with rfl | rfl | rfl <;> simp [exUid] at e ⊢

example : AddsOnlyNew [] exObOps ∧ ([10, 11, 12].map ((Ob.empty ⟨0, 0, 0⟩).run exUid (grid ⟨0, 10, 0, 10, 0, 0⟩ false false) exObOps).1.refs) = [2, 0, 1] := by
  refine ⟨by simp [exObOps, AddsOnlyNew], by decide +kernel⟩

/-- C80 is violated when an agent without location is added again: the space counts a reference that it will never drop, whatever is called afterwards (without repeated `add`s), e.g. `remove`. -/
theorem C80_violation_leak (uid : Nat → Nat) (c : Cfg P) (zero : P) (a : Nat) (ops : List (Op P)) (h1 : OneEach uid (Passed (.add a :: ops))) (ha : AddsOnlyNew [a] ops) :
    let b := ((Ob.empty zero).run uid c (.add a :: .add a :: ops)).1
    1 ≤ b.refs a ∧ ((b.step uid c (.contains a)).2 = .bool false → b.refs a = 1) := by
  have hsub : Passed (.add a :: .add a :: ops) = Passed (.add a :: ops) := by
    funext x
    simp [Passed]
  have hp : Passed (.add a :: .add a :: ops) a := ⟨.add a, List.mem_cons_self .., rfl⟩
  rw [← hsub] at h1
  have hs := (Same.run h1 (c := c) (.add a :: .add a :: ops) (Same.empty uid _ zero) (fun o ho a e => ⟨o, ho, e⟩)).1
  -- after the first `add`
  have s1 := (Same.empty uid _ zero).step h1 (c := c) (.add a) (fun x e => by cases e; exact hp)
  have c1 := (coupled_empty c zero).step (.add a) (by simp) (fun p => c.tr p zero) (fun _ _ _ => rfl)
  -- after the second
  have s2 := s1.1.step h1 (c := c) (.add a) (fun x e => by cases e; exact hp)
  have e2 : (step c (step c (Sp.empty zero) (.add a)).1 (.add a)).1 = (step c (Sp.empty zero) (.add a)).1 := by
    show ({ agents := upd (upd (fun _ => none) a (some none)) a (some none), loc := fun _ => [], wpt := zero } : Sp P) = { agents := upd (fun _ => none) a (some none), loc := fun _ => [], wpt := zero }
    congr 1
    funext x
    unfold upd
    split <;> rfl
  rw [e2] at s2
  have hd : Counted (fun x => if x = a then 1 else 0) (step c (Sp.empty zero) (.add a)).1 ((((Ob.empty zero).step uid c (.add a)).1.step uid c (.add a)).1) := by
    intro x
    show inc (inc (fun _ => 0) a) a x = (if x = a then 1 else 0) + held { agents := upd (fun _ => none) a (some none), loc := fun _ => [], wpt := zero } x
    unfold inc held upd
    simp only []
    by_cases e : x = a
    · simp [e]
    · simp [e]
  have hr := Counted.run h1 ops s2.1 c1.1 (by exact ha) (fun o ho x e => ⟨o, List.mem_cons_of_mem _ (List.mem_cons_of_mem _ ho), e⟩) hd
  have er : (run c (Sp.empty zero) (.add a :: .add a :: ops)).1 = (run c (step c (Sp.empty zero) (.add a)).1 ops).1 := by
    show (run c (step c (step c (Sp.empty zero) (.add a)).1 (.add a)).1 ops).1 = _
    rw [e2]
  rw [er] at hs
  intro b
  have e1 : b.refs a = 1 + held (run c (step c (Sp.empty zero) (.add a)).1 ops).1 a := by
    have := hr.1 a
    simp only [if_pos] at this
    exact this
  have k : (b.step uid c (.contains a)).2 = .bool (b.agents (uid a)).isSome := rfl
  have e3 : b.agents (uid a) = _ := hs.agents a hp
  rw [k, e1, e3]
  unfold held
  rcases (run c (step c (Sp.empty zero) (.add a)).1 ops).1.agents a with _ | _ | p <;> simp

/-- The reference is still there after `remove`. -/
example : ((Ob.empty ⟨0, 0, 0⟩).run exUid (grid ⟨0, 10, 0, 10, 0, 0⟩ false false) [.add 10, .add 10, .move 10 ⟨1, 1, 0⟩, .remove 10]).1.refs 10 = 1 := by decide +kernel

/-- C80 is violated for two objects with one unique id: 10 is added and placed, 20 (with the same unique id) is moved. `get_location` gives the new location for both, but 10 stays at the old one. After
`remove`, `get_agents` still returns both, each at its location, though the space contains neither; 10 and 20 are each kept alive. -/
theorem C80_violation_object : ∃ (ops : List (Op Pt)), let c := grid ⟨0, 10, 0, 10, 0, 0⟩ false false
    let b := ((Ob.empty ⟨0, 0, 0⟩).run exUid c ops).1
    (b.step exUid c (.getLocation 10)).2 = .loc (some ⟨2, 2, 0⟩) ∧ (b.step exUid c (.getLocation 20)).2 = .loc (some ⟨2, 2, 0⟩) ∧
    (b.step exUid c (.getAgents ⟨1, 1, 0⟩)).2 = .agents [10] ∧ (b.step exUid c (.getAgents ⟨2, 2, 0⟩)).2 = .agents [20] ∧
    let b := (b.step exUid c (.remove 10)).1
    (b.step exUid c (.contains 10)).2 = .bool false ∧ (b.step exUid c (.contains 20)).2 = .bool false ∧
    (b.step exUid c (.getAgents ⟨1, 1, 0⟩)).2 = .agents [10] ∧ (b.step exUid c (.getAgents ⟨2, 2, 0⟩)).2 = .agents [20] ∧ b.refs 10 = 1 ∧ b.refs 20 = 1 :=
  ⟨[.add 10, .move 10 ⟨1, 1, 0⟩, .move 20 ⟨2, 2, 0⟩], by decide +kernel⟩

/-- Single occupancy: moving another object with the same unique id frees the place of the first, and the agent at the new place is then an object that was never added. All references are dropped when it is
removed. -/
theorem C80_violation_single : ∃ (ops : List (Op Pt)), let c := grid ⟨0, 10, 0, 10, 0, 0⟩ false true
    let b := ((Ob.empty ⟨0, 0, 0⟩).run exUid c ops).1
    (b.step exUid c (.contains 10)).2 = .bool true ∧ (b.step exUid c (.getAgent ⟨1, 1, 0⟩)).2 = .agent none ∧ (b.step exUid c (.getAgent ⟨2, 2, 0⟩)).2 = .agent (some 20) ∧ b.refs 10 = 1 ∧ b.refs 20 = 1 ∧
    let b := (b.step exUid c (.remove 20)).1
    b.refs 10 = 0 ∧ b.refs 20 = 0 :=
  ⟨[.add 10, .move 10 ⟨1, 1, 0⟩, .move 20 ⟨2, 2, 0⟩], by decide +kernel⟩

end Repast.Space
