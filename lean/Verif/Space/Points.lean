import Verif.Space.Props

/-
C61: the point objects that `get_location` and `move` return. Model of a space with the point objects of its agents: space.h:51-57, 95-151, grid.h:51-81,
cspace.h:86-119, geometry.h:63-75 (`create_point`, `update_point`, `extract_coords`), spacemodule.cpp:39-241 (`DiscretePoint`), 905-940 (`Grid_getLocation`, `Grid_move`).

`Verif/Space/Model` has the locations as values. Here they are objects that the program can keep, pass on and (by `_reset_from_array`, or by writing to the array that
`coordinates` returns) change.

Simplifications: as in `Verif/Space/Model`.
-/
namespace Repast.Space

/-- A reference to a point object: one that the program made (`DiscretePoint(x, y, z)`), or one that the space made (`create_point`). -/
inductive Ref where
  | user (k : Nat)
  | space (k : Nat)
  deriving DecidableEq, Repr

/-- The space and the point objects. `agents a = some (some k)`: the agent's `SpaceItem` has the point object `Ref.space k`. -/
structure PSp (P : Type) where
  agents : Nat → Option (Option Nat)
  loc : P → List Nat
  wpt : P
  upts : Nat → P
  spts : Nat → P
  unext : Nat
  snext : Nat

/-- space.h:75-77 -/
def PSp.empty {P : Type} (zero : P) : PSp P :=
  { agents := fun _ => none, loc := fun _ => [], wpt := zero, upts := fun _ => zero, spts := fun _ => zero, unext := 0, snext := 0 }

variable {P : Type} [DecidableEq P]

/-- The coordinates of a point object. -/
def PSp.at (s : PSp P) : Ref → P
  | .user k => s.upts k
  | .space k => s.spts k

/-- What a program does; points are given as objects. -/
inductive POp (P : Type) where
  /-- `DiscretePoint(x, y, z)` -/
  | new (p : P)
  /-- `pt._reset_from_array(...)`, `pt.coordinates[...] = ...`: spacemodule.cpp:137-181. -/
  | write (r : Ref) (p : P)
  | add (a : Nat)
  | remove (a : Nat)
  | move (a : Nat) (pt : Ref)
  | getAgent (pt : Ref)
  | getAgents (pt : Ref)
  | getLocation (a : Nat)
  | contains (a : Nat)

/-- What it gets. -/
inductive PRes where
  | nothing
  | bool (b : Bool)
  | agent (a : Option Nat)
  | agents (l : List Nat)
  | point (r : Option Ref)
  | error
  deriving DecidableEq, Repr

/-- grid.h:51-81 `move`, cspace.h:86-119, with the point objects: the object of an agent that has a location gets the new coordinates. -/
def PSp.move (c : Cfg P) (s : PSp P) (a : Nat) (pt : P) : PSp P × PRes :=
  match s.agents a with
  | none => (s, .error)
  | some cur =>
    let w := c.tr pt s.wpt
    let s := { s with wpt := w }
    if cur.map s.spts = some w then (s, .point (cur.map Ref.space))
    else
      match put c s.loc a w with
      | none => (s, .point none)
      | some loc =>
        match cur with
        | some k => ({ s with loc := (rem c loc a (s.spts k)).1, spts := upd s.spts k w }, .point (some (.space k)))
        | none =>
          ({ s with loc := loc, spts := upd s.spts s.snext w, snext := s.snext + 1, agents := upd s.agents a (some (some s.snext)) },
            .point (some (.space s.snext)))

/-- space.h:106-120 `remove`. -/
def PSp.remove (c : Cfg P) (s : PSp P) (a : Nat) : PSp P × Bool :=
  match s.agents a with
  | none => (s, false)
  | some none => ({ s with agents := upd s.agents a none }, false)
  | some (some k) =>
    let r := rem c s.loc a (s.spts k)
    ({ s with agents := upd s.agents a none, loc := r.1, wpt := s.spts k }, r.2)

/-- One call; see `Space.step` for the lines. -/
def PSp.step (c : Cfg P) (s : PSp P) : POp P → PSp P × PRes
  | .new p => ({ s with upts := upd s.upts s.unext p, unext := s.unext + 1 }, .point (some (.user s.unext)))
  | .write (.user k) p => ({ s with upts := upd s.upts k p }, .nothing)
  | .write (.space k) p => ({ s with spts := upd s.spts k p }, .nothing)
  | .add a => ({ s with agents := upd s.agents a (some none) }, .bool true)
  | .remove a => ((s.remove c a).1, .bool (s.remove c a).2)
  | .move a pt => s.move c a (s.at pt)
  | .getAgent pt => ({ s with wpt := s.at pt }, .agent (s.loc (s.at pt)).head?)
  | .getAgents pt => ({ s with wpt := s.at pt }, .agents (s.loc (s.at pt)))
  | .getLocation a => (s, .point (((s.agents a).getD none).map Ref.space))
  | .contains a => (s, .bool (s.agents a).isSome)

def PSp.run (c : Cfg P) (s : PSp P) (ops : List (POp P)) : PSp P := ops.foldl (fun s o => (s.step c o).1) s

/-! ### The model with values -/

/-- The space with the locations as values. -/
def PSp.abs (s : PSp P) : Sp P := { agents := fun a => (s.agents a).map (·.map s.spts), loc := s.loc, wpt := s.wpt }

/-- The call with the coordinates of the points at that moment. -/
def POp.val (s : PSp P) : POp P → Option (Op P)
  | .new _ => none
  | .write _ _ => none
  | .add a => some (.add a)
  | .remove a => some (.remove a)
  | .move a pt => some (.move a (s.at pt))
  | .getAgent pt => some (.getAgent (s.at pt))
  | .getAgents pt => some (.getAgents (s.at pt))
  | .getLocation a => some (.getLocation a)
  | .contains a => some (.contains a)

/-- The result with the coordinates that the point has at that moment; making and writing points has no result. -/
def PRes.val (s : PSp P) : PRes → Res P
  | .nothing => .error
  | .bool b => .bool b
  | .agent a => .agent a
  | .agents l => .agents l
  | .point r => .loc (r.map s.at)
  | .error => .error

/-- The calls of methods of the space, with their arguments as values. -/
def valOps (c : Cfg P) : PSp P → List (POp P) → List (Op P)
  | _, [] => []
  | s, o :: os => (o.val s).toList ++ valOps c (s.step c o).1 os

/-- What they returned, as values at the time of the return. -/
def valRes (c : Cfg P) : PSp P → List (POp P) → List (Res P)
  | _, [] => []
  | s, o :: os => ((o.val s).map fun _ => (s.step c o).2.val (s.step c o).1).toList ++ valRes c (s.step c o).1 os

/-- The program changes no point but those that it made itself (the documentation of `_reset_from_array` asks for that). -/
def Responsible : POp P → Prop
  | .write (.space _) _ => False
  | _ => True

/-- Point objects of agents exist, and no two agents have the same. -/
structure PSp.Ok (s : PSp P) : Prop where
  made : ∀ a k, s.agents a = some (some k) → k < s.snext
  own : ∀ a b k, s.agents a = some (some k) → s.agents b = some (some k) → a = b

theorem PSp.ok_empty (zero : P) : (PSp.empty zero).Ok := ⟨by simp [PSp.empty], by simp [PSp.empty]⟩

theorem upd_same {α β : Type} [DecidableEq α] (f : α → β) (a : α) (b : β) : upd f a b a = b := by simp [upd]

theorem upd_other {α β : Type} [DecidableEq α] (f : α → β) {a x : α} (b : β) (h : x ≠ a) : upd f a b x = f x := by simp [upd, h]

theorem PSp.Ok.agents_upd {s : PSp P} (h : s.Ok) (a : Nat) (o : Option (Option Nat)) (ho : ∀ k, o ≠ some (some k)) : ({ s with agents := upd s.agents a o } : PSp P).Ok := by
  constructor
  · intro b k hb
    change upd s.agents a o b = _ at hb
    by_cases e : b = a
    · subst e; rw [upd_same] at hb; exact absurd hb (ho k)
    · rw [upd_other _ _ e] at hb; exact h.made b k hb
  · intro b d k hb hd
    change upd s.agents a o b = _ at hb
    change upd s.agents a o d = _ at hd
    by_cases e : b = a
    · subst e; rw [upd_same] at hb; exact absurd hb (ho k)
    · by_cases e' : d = a
      · subst e'; rw [upd_same] at hd; exact absurd hd (ho k)
      · rw [upd_other _ _ e] at hb; rw [upd_other _ _ e'] at hd; exact h.own b d k hb hd

theorem abs_upd (s : PSp P) (a : Nat) (o : Option (Option Nat)) :
    (fun x => (upd s.agents a o x).map (·.map s.spts)) = upd (fun x => (s.agents x).map (·.map s.spts)) a (o.map (·.map s.spts)) := by
  funext x
  unfold upd
  by_cases e : x = a <;> simp [e]

theorem PSp.move_spec (c : Cfg P) {s : PSp P} (h : s.Ok) (a : Nat) (pt : P) :
    (s.move c a pt).1.Ok ∧ (s.move c a pt).1.abs = (Space.move c s.abs a pt).1 ∧ (s.move c a pt).2.val (s.move c a pt).1 = (Space.move c s.abs a pt).2 := by
  unfold PSp.move Space.move
  have ea : s.abs.agents a = (s.agents a).map (·.map s.spts) := rfl
  cases ha : s.agents a with
  | none => rw [ea, ha]; exact ⟨h, rfl, rfl⟩
  | some cur =>
    rw [ea, ha]
    simp only [Option.map_some]
    have ew : s.abs.wpt = s.wpt := rfl
    have el : s.abs.loc = s.loc := rfl
    rw [ew, el]
    by_cases hc : cur.map s.spts = some (c.tr pt s.wpt)
    · rw [if_pos hc, if_pos hc]
      refine ⟨⟨h.made, h.own⟩, rfl, ?_⟩
      simp only [PRes.val, Option.map_map]
      exact congrArg _ hc
    · rw [if_neg hc, if_neg hc]
      cases hp : put c s.loc a (c.tr pt s.wpt) with
      | none => exact ⟨⟨h.made, h.own⟩, rfl, rfl⟩
      | some loc =>
        cases cur with
        | some k =>
          refine ⟨⟨h.made, h.own⟩, ?_, ?_⟩
          · simp only [PSp.abs, Option.map_some]
            congr 1
            funext x
            by_cases e : x = a
            · subst e; simp [ha, upd]
            · rw [upd_other _ _ e]
              cases hx : s.agents x with
              | none => rfl
              | some o =>
                cases o with
                | none => rfl
                | some k' =>
                  have : k' ≠ k := fun e' => e (h.own x a k (e' ▸ hx) ha)
                  simp [upd, this]
          · simp [PRes.val, PSp.at, upd]
        | none =>
          refine ⟨⟨?_, ?_⟩, ?_, ?_⟩
          · intro b k hb
            change upd s.agents a (some (some s.snext)) b = _ at hb
            show k < s.snext + 1
            by_cases e : b = a
            · subst e; rw [upd_same] at hb; cases hb; omega
            · rw [upd_other _ _ e] at hb; have := h.made b k hb; omega
          · intro b d k hb hd
            change upd s.agents a (some (some s.snext)) b = _ at hb
            change upd s.agents a (some (some s.snext)) d = _ at hd
            by_cases e : b = a
            · by_cases e' : d = a
              · rw [e, e']
              · subst e; rw [upd_same] at hb; cases hb
                rw [upd_other _ _ e'] at hd
                have := h.made d _ hd; omega
            · by_cases e' : d = a
              · subst e'; rw [upd_same] at hd; cases hd
                rw [upd_other _ _ e] at hb
                have := h.made b _ hb; omega
              · rw [upd_other _ _ e] at hb; rw [upd_other _ _ e'] at hd; exact h.own b d k hb hd
          · simp only [PSp.abs, Option.map_none]
            congr 1
            funext x
            by_cases e : x = a
            · subst e; simp [upd]
            · rw [upd_other _ _ e, upd_other _ _ e]
              cases hx : s.agents x with
              | none => rfl
              | some o =>
                cases o with
                | none => rfl
                | some k' =>
                  have : k' ≠ s.snext := by have := h.made x k' hx; omega
                  simp [upd, this]
          · simp [PRes.val, PSp.at, upd]

theorem PSp.step_spec (c : Cfg P) {s : PSp P} (h : s.Ok) {o : POp P} (ho : Responsible o) :
    (s.step c o).1.Ok ∧ match o.val s with
      | none => (s.step c o).1.abs = s.abs
      | some v => (s.step c o).1.abs = (Space.step c s.abs v).1 ∧ (s.step c o).2.val (s.step c o).1 = (Space.step c s.abs v).2 := by
  cases o with
  | new p => exact ⟨⟨h.made, h.own⟩, rfl⟩
  | write r p =>
    cases r with
    | user k => exact ⟨⟨h.made, h.own⟩, rfl⟩
    | space k => exact (ho : False).elim
  | add a =>
    refine ⟨h.agents_upd a _ (by simp), ?_, rfl⟩
    simp only [PSp.step, PSp.abs, Space.step, Space.add, abs_upd]
    rfl
  | remove a =>
    simp only [PSp.step, POp.val, Space.step, PSp.remove, Space.remove]
    have ea : s.abs.agents a = (s.agents a).map (·.map s.spts) := rfl
    cases ha : s.agents a with
    | none => rw [ea, ha]; exact ⟨h, rfl, rfl⟩
    | some cur =>
      rw [ea, ha]
      cases cur with
      | none =>
        refine ⟨h.agents_upd a _ (by simp), ?_, rfl⟩
        simp only [PSp.abs, abs_upd]
        rfl
      | some k =>
        have := h.agents_upd a none (by simp)
        refine ⟨⟨this.made, this.own⟩, ?_, rfl⟩
        simp only [PSp.abs, abs_upd]
        rfl
  | move a pt => exact PSp.move_spec c h a (s.at pt)
  | getAgent pt => exact ⟨⟨h.made, h.own⟩, rfl, rfl⟩
  | getAgents pt => exact ⟨⟨h.made, h.own⟩, rfl, rfl⟩
  | getLocation a =>
    refine ⟨h, rfl, ?_⟩
    simp only [PSp.step, PRes.val, Space.step, PSp.abs, Option.map_map]
    congr 1
    cases s.agents a with
    | none => rfl
    | some cur => cases cur <;> rfl
  | contains a =>
    refine ⟨h, rfl, ?_⟩
    simp [PSp.step, PRes.val, Space.step, PSp.abs]

theorem PSp.run_spec (c : Cfg P) {s : PSp P} (h : s.Ok) (ops : List (POp P)) (ho : ∀ o ∈ ops, Responsible o) :
    (s.run c ops).Ok ∧ (s.run c ops).abs = (Space.run c s.abs (valOps c s ops)).1 ∧ valRes c s ops = (Space.run c s.abs (valOps c s ops)).2 := by
  induction ops generalizing s with
  | nil => exact ⟨h, rfl, rfl⟩
  | cons o os ih =>
    obtain ⟨h1, h2⟩ := PSp.step_spec c h (ho o List.mem_cons_self)
    obtain ⟨i1, i2, i3⟩ := ih h1 fun o' h' => ho o' (List.mem_cons_of_mem _ h')
    refine ⟨i1, ?_, ?_⟩
    · show ((s.step c o).1.run c os).abs = _
      rw [i2, show valOps c s (o :: os) = (o.val s).toList ++ valOps c (s.step c o).1 os from rfl]
      cases hv : o.val s with
      | none => rw [hv] at h2; rw [show (s.step c o).1.abs = s.abs from h2]; rfl
      | some v => rw [hv] at h2; rw [show (s.step c o).1.abs = _ from h2.1]; rfl
    · rw [show valOps c s (o :: os) = (o.val s).toList ++ valOps c (s.step c o).1 os from rfl,
        show valRes c s (o :: os) = ((o.val s).map fun _ => (s.step c o).2.val (s.step c o).1).toList ++ valRes c (s.step c o).1 os from rfl, i3]
      cases hv : o.val s with
      | none => rw [hv] at h2; rw [show (s.step c o).1.abs = s.abs from h2]; rfl
      | some v =>
        rw [hv] at h2
        rw [show (s.step c o).1.abs = _ from h2.1]
        show (s.step c o).2.val (s.step c o).1 :: _ = _
        rw [h2.2]
        rfl

/-! ### C61 -/

/-- C61: a program that changes no points but its own gets from the methods of a space what it would get if points were values: the calls have the results, as
they are when they are returned, of `Space.run` with the coordinates that the arguments have at the calls. So all that is proved about `Space.run` holds for it,
whichever points it passes (also those that the space returned). Missing (`_partial`): the results do not stay as they are, see `C61_violation_moved`. -/
theorem C61_values_partial (c : Cfg P) (zero : P) (ops : List (POp P)) (ho : ∀ o ∈ ops, Responsible o) :
    valRes c (PSp.empty zero) ops = (Space.run c (Sp.empty zero) (valOps c (PSp.empty zero) ops)).2 :=
  (PSp.run_spec c (PSp.ok_empty zero) ops ho).2.2

/-- C61: no call changes a point that the program made; only the program itself does. -/
theorem C61_own (c : Cfg P) (zero : P) (ops later : List (POp P)) (k : Nat)
    (hk : k < ((PSp.empty zero).run c ops).unext) (hw : ∀ o ∈ later, ∀ p, o ≠ .write (.user k) p) :
    (((PSp.empty zero).run c ops).run c later).at (.user k) = ((PSp.empty zero).run c ops).at (.user k) := by
  generalize (PSp.empty zero).run c ops = s at hk
  induction later generalizing s with
  | nil => rfl
  | cons o os ih =>
    have key : (s.step c o).1.upts k = s.upts k ∧ k < (s.step c o).1.unext := by
      cases o with
      | new p => exact ⟨upd_other _ _ (by omega), by show k < s.unext + 1; omega⟩
      | write r p =>
        cases r with
        | user j =>
          have : k ≠ j := fun e => hw _ List.mem_cons_self p (e ▸ rfl)
          exact ⟨upd_other _ _ this, hk⟩
        | space j => exact ⟨rfl, hk⟩
      | add a => exact ⟨rfl, hk⟩
      | remove a =>
        simp only [PSp.step, PSp.remove]
        split <;> exact ⟨rfl, hk⟩
      | move a pt =>
        simp only [PSp.step, PSp.move]
        split
        · exact ⟨rfl, hk⟩
        · split
          · exact ⟨rfl, hk⟩
          · split
            · exact ⟨rfl, hk⟩
            · split <;> exact ⟨rfl, hk⟩
      | getAgent pt => exact ⟨rfl, hk⟩
      | getAgents pt => exact ⟨rfl, hk⟩
      | getLocation a => exact ⟨rfl, hk⟩
      | contains a => exact ⟨rfl, hk⟩
    show ((s.step c o).1.run c os).upts k = s.upts k
    rw [← key.1]
    exact ih (hw := fun o' h' => hw o' (List.mem_cons_of_mem _ h')) (s := (s.step c o).1) key.2

/-- The agent is neither added nor removed. -/
def Stays (a : Nat) : POp P → Prop
  | .add b => b ≠ a
  | .remove b => b ≠ a
  | _ => True

theorem keeps_point (c : Cfg P) {s : PSp P} {a k : Nat} (h : s.agents a = some (some k)) (later : List (POp P)) (hs : ∀ o ∈ later, Stays a o) :
    (s.run c later).agents a = some (some k) := by
  induction later generalizing s with
  | nil => exact h
  | cons o os ih =>
    refine ih ?_ fun o' h' => hs o' (List.mem_cons_of_mem _ h')
    have hst := hs o List.mem_cons_self
    cases o with
    | new p => exact h
    | write r p => cases r <;> exact h
    | add b => exact (upd_other _ _ (Ne.symm hst)).trans h
    | remove b =>
      simp only [PSp.step, PSp.remove]
      split
      · exact h
      · exact (upd_other _ _ (Ne.symm hst)).trans h
      · exact (upd_other _ _ (Ne.symm hst)).trans h
    | move b pt =>
      simp only [PSp.step, PSp.move]
      split
      · exact h
      · rename_i cur hb
        split
        · exact h
        · split
          · exact h
          · split
            · exact h
            · have : a ≠ b := by
                intro e
                subst e
                rw [h] at hb
                cases hb
              exact (upd_other _ _ this).trans h
    | getAgent pt => exact h
    | getAgents pt => exact h
    | getLocation b => exact h
    | contains b => exact h

/-- C61: what `get_location` returned is from then on, as long as the agent is neither removed nor added again, the object that `get_location` returns, so it always has
the coordinates where the agent is now; and `get_agents` of it lists the agent (if no agent was added twice). The points of two agents are never the same object. -/
theorem C61_live_partial (c : Cfg P) (zero : P) (before later : List (POp P)) (a : Nat) (r : Ref)
    (hr : (((PSp.empty zero).run c before).step c (.getLocation a)).2 = .point (some r)) (hs : ∀ o ∈ later, Stays a o)
    (hb : ∀ o ∈ before, Responsible o) (hl : ∀ o ∈ later, Responsible o) :
    let s := ((PSp.empty zero).run c before).run c later
    (s.step c (.getLocation a)).2 = .point (some r) ∧
    (∀ b, (s.step c (.getLocation b)).2 = .point (some r) → b = a) ∧
    (AddsOnlyNew [] (valOps c (PSp.empty zero) (before ++ later)) → ∃ l, (s.step c (.getAgents r)).2 = .agents l ∧ a ∈ l) := by
  intro s
  have hrun : s = (PSp.empty zero).run c (before ++ later) := by
    show _ = List.foldl _ _ _
    rw [List.foldl_append]
    rfl
  obtain ⟨k, hk, rfl⟩ : ∃ k, ((PSp.empty zero).run c before).agents a = some (some k) ∧ r = .space k := by
    simp only [PSp.step, PRes.point.injEq] at hr
    cases ha : ((PSp.empty zero).run c before).agents a with
    | none => simp [ha] at hr
    | some o =>
      cases o with
      | none => simp [ha] at hr
      | some k => simp [ha] at hr; exact ⟨k, rfl, hr.symm⟩
  have h1 : s.agents a = some (some k) := keeps_point c hk later hs
  have hall : ∀ o ∈ before ++ later, Responsible o := by
    intro o ho
    rcases List.mem_append.1 ho with h | h
    · exact hb o h
    · exact hl o h
  obtain ⟨o1, o2, o3⟩ := PSp.run_spec c (PSp.ok_empty zero) (before ++ later) hall
  rw [← hrun] at o1 o2
  refine ⟨by simp [PSp.step, h1], ?_, ?_⟩
  · intro b hb'
    simp only [PSp.step, PRes.point.injEq] at hb'
    cases hb2 : s.agents b with
    | none => simp [hb2] at hb'
    | some o =>
      cases o with
      | none => simp [hb2] at hb'
      | some j =>
        simp [hb2] at hb'
        subst hb'
        exact o1.own b a j hb2 h1
  · intro hadd
    obtain ⟨l, g1, _, g3⟩ := C29_agreement_partial c zero (valOps c (PSp.empty zero) (before ++ later)) hadd (s.spts k)
    refine ⟨l, ?_, (g3 a).2 ?_⟩
    · have : s.loc (s.spts k) = l := by
        have e : (Space.run c (PSp.empty zero).abs (valOps c (PSp.empty zero) (before ++ later))).1.loc = s.loc := by rw [← o2]; rfl
        simp only [agentsAt, Space.step, Res.agents.injEq] at g1
        rw [← e]
        exact g1
      show PRes.agents (s.loc (s.spts k)) = _
      rw [this]
    · have e : (Space.run c (PSp.empty zero).abs (valOps c (PSp.empty zero) (before ++ later))).1.agents a = some (some (s.spts k)) := by
        rw [← o2]
        simp [PSp.abs, h1]
      show Res.loc _ = _
      have e' : (Space.run c (Sp.empty zero) (valOps c (PSp.empty zero) (before ++ later))).1.agents a = some (some (s.spts k)) := e
      rw [e']
      rfl

/-! ### Concrete cases -/

/-- A grid of 10 × 10 cells. -/
def ptGrid : Cfg Pt := grid ⟨0, 10, 0, 10, 0, 0⟩ false false

/-- Two agents at (1, 1), the second one by passing the location of the first one. -/
def ptOps : List (POp Pt) := [.new ⟨1, 1, 0⟩, .add 1, .add 2, .move 1 (.user 0), .getLocation 1, .move 2 (.space 0), .write (.user 0) ⟨4, 20, 0⟩]

/-- The hypotheses can be met: a program that passes a location which it got, and changes its own point; agent 1 moves later. -/
example : (∀ o ∈ ptOps, Responsible o) ∧ (((PSp.empty ⟨0, 0, 0⟩).run ptGrid ptOps).step ptGrid (.getLocation 1)).2 = .point (some (.space 0)) ∧
    (∀ o ∈ ([.move 1 (.user 0), .remove 2] : List (POp Pt)), Stays 1 o ∧ Responsible o) ∧
    AddsOnlyNew [] (valOps ptGrid (PSp.empty ⟨0, 0, 0⟩) (ptOps ++ [POp.move 1 (.user 0), .remove 2])) ∧
    (((PSp.empty ⟨0, 0, 0⟩).run ptGrid ptOps).run ptGrid [POp.move 1 (.user 0), .remove 2]).at (.space 0) = ⟨4, 9, 0⟩ := by
  refine ⟨?_, by decide +kernel, ?_, ?_, by decide +kernel⟩
  · intro o ho
    simp only [ptOps, List.mem_cons, List.not_mem_nil, or_false] at ho
    rcases ho with rfl | rfl | rfl | rfl | rfl | rfl | rfl <;> trivial
  · intro o ho
    simp only [List.mem_cons, List.not_mem_nil, or_false] at ho
    rcases ho with rfl | rfl
    · exact ⟨trivial, trivial⟩
    · exact ⟨show (2 : Nat) ≠ 1 by decide, trivial⟩
  · exact ⟨by simp, by simp, by trivial⟩

/-- C61 is violated: the location that `get_location` returned before a move has the coordinates of the new location after it. So
`before = grid.get_location(a); grid.move(a, pt); after = grid.get_location(a)` finds no difference between `before` and `after`. -/
theorem C61_violation_moved :
    let s := (PSp.empty ⟨0, 0, 0⟩).run ptGrid ptOps
    let s' := s.run ptGrid [.move 1 (.user 0)]
    (s.step ptGrid (.getLocation 1)).2 = .point (some (.space 0)) ∧ s.at (.space 0) = ⟨1, 1, 0⟩ ∧ s'.at (.space 0) = ⟨4, 9, 0⟩ ∧
      (s'.step ptGrid (.getLocation 1)).2 = .point (some (.space 0)) := by decide +kernel

/-- C61: in general, every move that takes the agent somewhere else changes the point that `get_location` returned before. -/
theorem C61_changed (c : Cfg P) (s : PSp P) (a k : Nat) (pt : Ref) (r : Ref) (h : s.agents a = some (some k))
    (hm : (s.step c (.move a pt)).2 = .point (some r)) : r = .space k ∧ (s.step c (.move a pt)).1.at (.space k) = c.tr (s.at pt) s.wpt := by
  simp only [PSp.step, PSp.move, h] at hm ⊢
  by_cases e : (some k).map s.spts = some (c.tr (s.at pt) s.wpt)
  · rw [if_pos e] at hm ⊢
    simp at hm
    refine ⟨hm.symm, ?_⟩
    simp at e
    simpa [PSp.at] using e
  · rw [if_neg e] at hm ⊢
    generalize put c s.loc a (c.tr (s.at pt) s.wpt) = o at hm ⊢
    cases o with
    | none => simp at hm
    | some loc =>
      simp at hm
      exact ⟨hm.symm, by simp [PSp.at, upd]⟩

/-- C61 is violated: writing to the coordinates of a point that `get_location` returned (for example `grid.get_location(a).coordinates += 1`) changes what `get_location`
returns, but `get_agents` still lists the agent where it was; and moving the agent to where it then seems to be does nothing, and moving it elsewhere leaves
it there, too. -/
theorem C61_violation_written :
    let s := (PSp.empty ⟨0, 0, 0⟩).run ptGrid (ptOps ++ [.write (.space 0) ⟨2, 2, 0⟩, .new ⟨1, 1, 0⟩, .new ⟨2, 2, 0⟩, .new ⟨3, 3, 0⟩])
    (s.step ptGrid (.getLocation 1)).2 = .point (some (.space 0)) ∧ s.at (.space 0) = ⟨2, 2, 0⟩ ∧
      (s.step ptGrid (.getAgents (.user 1))).2 = .agents [1, 2] ∧ (s.step ptGrid (.getAgents (.user 2))).2 = .agents [] ∧
      ((s.run ptGrid [.move 1 (.user 2)]).step ptGrid (.getAgents (.user 2))).2 = .agents [] ∧
      ((s.run ptGrid [.move 1 (.user 3)]).step ptGrid (.getAgents (.user 1))).2 = .agents [1, 2] ∧
      ((s.run ptGrid [.move 1 (.user 3)]).step ptGrid (.getAgents (.user 3))).2 = .agents [1] := by decide +kernel

end Repast.Space
