import Verif.Space.Refine
import Verif.Space.BorderProps

/-! C29-C32: properties of spaces, for every sequence of calls. -/
namespace Repast.Space

section
variable {P : Type} [DecidableEq P]

/-- `get_location(a)`, as observed by a call. -/
def locationOf (c : Cfg P) (s : Sp P) (a : Nat) : Res P := (step c s (.getLocation a)).2
/-- `get_agents(p)`, as observed by a call. -/
def agentsAt (c : Cfg P) (s : Sp P) (p : P) : Res P := (step c s (.getAgents p)).2

theorem known_step {single : Bool} {T : P → P} {t : Abs P} {o : Op P} {os : List (Op P)} (h : AddsOnlyNew t.known (o :: os)) :
    (∀ a, o = .add a → a ∉ t.known) ∧ AddsOnlyNew (t.step single T o).1.known os := by
  cases o with
  | add a => exact ⟨fun b hb => by cases hb; exact h.1, h.2⟩
  | move a pt =>
    refine ⟨by simp, ?_⟩
    simp only [Abs.step]
    split
    · exact h
    · split
      · exact h
      · split <;> exact h
  | _ => exact ⟨by simp, h⟩

/-- Any reachable space is coupled to an abstract state, whatever the borders. -/
theorem run_coupled {c : Cfg P} {s : Sp P} {t : Abs P} (h : Coupled c s t) (ops : List (Op P)) (ha : AddsOnlyNew t.known ops) :
    ∃ t', Coupled c (run c s ops).1 t' := by
  induction ops generalizing s t with
  | nil => exact ⟨t, h⟩
  | cons o os ih =>
    obtain ⟨h1, h2⟩ := known_step (single := c.single) (T := fun p => c.tr p s.wpt) ha
    exact ih (h.step o h1 (fun p => c.tr p s.wpt) (fun _ _ _ => rfl)).1 h2

/-- The working point stays in `Good`. -/
theorem step_good {c : Cfg P} {Good : P → Prop} (T : P → P) (hT : ∀ p w, Good w → c.tr p w = T p) (hG : ∀ p, Good (T p)) {s : Sp P} {o : Op P}
    (hq : ∀ p, o.queried = some p → Good p) (hw : Good s.wpt) (hl : ∀ a p, s.agents a = some (some p) → Good p) :
    Good (step c s o).1.wpt ∧ ∀ a p, (step c s o).1.agents a = some (some p) → Good p := by
  cases o with
  | getAgent pt => exact ⟨hq pt rfl, hl⟩
  | getAgents pt => exact ⟨hq pt rfl, hl⟩
  | getLocation a => exact ⟨hw, hl⟩
  | contains a => exact ⟨hw, hl⟩
  | add a =>
    refine ⟨hw, ?_⟩
    intro b p hb
    simp only [step, add, upd] at hb
    split at hb
    · simp at hb
    · exact hl b p hb
  | remove a =>
    have key : ∀ b p, upd s.agents a none b = some (some p) → Good p := by
      intro b p hb
      simp only [upd] at hb
      split at hb
      · cases hb
      · exact hl b p hb
    simp only [step, remove]
    split
    · exact ⟨hw, hl⟩
    · exact ⟨hw, key⟩
    · rename_i p hp
      exact ⟨hl a p hp, key⟩
  | move a pt =>
    simp only [step, move]
    split
    · exact ⟨hw, hl⟩
    · have hg : Good (c.tr pt s.wpt) := by rw [hT pt _ hw]; exact hG pt
      split
      · exact ⟨hg, hl⟩
      · split
        · exact ⟨hg, hl⟩
        · refine ⟨hg, ?_⟩
          intro b p hb
          simp only [upd] at hb
          split at hb
          · simp only [Option.some.injEq] at hb
            rw [← hb]; exact hg
          · exact hl b p hb

theorem run_refines {c : Cfg P} {Good : P → Prop} (T : P → P) (hT : ∀ p w, Good w → c.tr p w = T p) (hG : ∀ p, Good (T p)) {s : Sp P} {t : Abs P}
    (h : Coupled c s t) (ops : List (Op P)) (ha : AddsOnlyNew t.known ops) (hq : ∀ o ∈ ops, ∀ p, o.queried = some p → Good p)
    (hw : Good s.wpt) (hl : ∀ a p, s.agents a = some (some p) → Good p) :
    (run c s ops).2 = (t.run c.single T ops).2 := by
  induction ops generalizing s t with
  | nil => rfl
  | cons o os ih =>
    obtain ⟨h1, h2⟩ := known_step (single := c.single) (T := T) ha
    obtain ⟨c1, r1⟩ := h.step o h1 T (fun _ p _ => (hT p _ hw).symm)
    obtain ⟨g1, g2⟩ := step_good T hT hG (hq o (by simp)) hw hl
    simp only [run, Abs.run, r1]
    congr 1
    exact ih c1 h2 (fun o ho => hq o (List.mem_cons_of_mem _ ho)) g1 g2

/-! ### C29 -/

/-- C29: in every state reached by calls that do not add an agent already in the space, whatever the borders and for both occupancy
types: `get_agents(p)` lists an agent if and only if `get_location` of the agent is `p`, and lists no agent twice. Missing (`_partial`): a repeated `add`
of an agent that has a location, see `C29_double_add`. -/
theorem C29_agreement_partial (c : Cfg P) (zero : P) (ops : List (Op P)) (ha : AddsOnlyNew [] ops) (p : P) :
    ∃ l, agentsAt c (run c (Sp.empty zero) ops).1 p = .agents l ∧ l.Nodup ∧
      ∀ a, a ∈ l ↔ locationOf c (run c (Sp.empty zero) ops).1 a = .loc (some p) := by
  obtain ⟨t, h⟩ := run_coupled (coupled_empty c zero) ops ha
  refine ⟨_, rfl, ?_, ?_⟩
  · rw [h.loc]; exact at_nodup h.nodup p
  · intro a
    simp only [locationOf, step]
    rw [h.loc, mem_at, h.placed]
    cases hs : (run c (Sp.empty zero) ops).1.agents a with
    | none => simp
    | some o => simp

/-- C29: all results of all calls are those of the abstract machine (`Abs.run`): in particular `get_agents(p)` lists the agents at `p` in
order of arrival, `get_agent(p)` returns the one that has been there longest, and calls about one agent do not affect the others. Here for
a grid with sticky borders. -/
theorem C29_refines_sticky_partial (b : Box) (single : Bool) (ops : List (Op Pt)) (ha : AddsOnlyNew [] ops) :
    (run (grid b false single) newGrid ops).2 = (Abs.run single (sticky b) { known := [], placed := [] } ops).2 :=
  run_refines (c := grid b false single) (Good := fun _ => True) (sticky b) (fun _ _ _ => rfl) (fun _ => trivial)
    (coupled_empty _ _) ops ha (fun _ _ _ _ => trivial) trivial (fun _ _ _ => trivial)

/-- The coordinates of dimensions the space does not have are zero. -/
def Flat (b : Box) (p : Pt) : Prop := (b.yext = 0 → p.y = 0) ∧ (b.zext = 0 → p.z = 0)

theorem periodic_flat {b : Box} (hb : b.Ok) (p w : Pt) (hw : Flat b w) : periodic b p w = periodic b p ⟨0, 0, 0⟩ ∧ Flat b (periodic b p ⟨0, 0, 0⟩) := by
  have hbx := hb.x
  have hby := hb.y
  have hbz := hb.z
  have hzy := hb.zy
  unfold periodic Flat at *
  refine ⟨?_, ?_⟩
  · split
    · rfl
    · split
      · rw [hw.2 (by omega)]
      · have hy : b.yext = 0 := by omega
        have hz : b.zext = 0 := by have := hb.zy; omega
        rw [hw.1 hy, hw.2 hz]
  · split
    · constructor <;> intro h <;> omega
    · split
      · constructor
        · intro h; omega
        · intro _; rfl
      · exact ⟨fun _ => rfl, fun _ => rfl⟩

/-- C29, the same for periodic borders, as long as the points given to `get_agent` and `get_agents` are points of the space (coordinates of
dimensions the space does not have are zero); see `C30_violation` for why. -/
theorem C29_refines_periodic_partial {b : Box} (hb : b.Ok) (single : Bool) (ops : List (Op Pt)) (ha : AddsOnlyNew [] ops)
    (hq : ∀ o ∈ ops, ∀ p, o.queried = some p → Flat b p) :
    (run (grid b true single) newGrid ops).2 =
      (Abs.run single (fun p => periodic b p ⟨0, 0, 0⟩) { known := [], placed := [] } ops).2 :=
  run_refines (c := grid b true single) (Good := Flat b) (fun p => periodic b p ⟨0, 0, 0⟩) (fun p w hw => (periodic_flat hb p w hw).1)
    (fun p => (periodic_flat hb p ⟨0, 0, 0⟩ ⟨fun _ => rfl, fun _ => rfl⟩).2)
    (coupled_empty _ _) ops ha hq ⟨fun _ => rfl, fun _ => rfl⟩ (fun a p h => by simp [newGrid, Sp.empty] at h)

/-- A history with moves, a removal and a re-added agent. -/
def exOps : List (Op Pt) :=
  [.add 1, .add 2, .move 1 ⟨12, 3, 0⟩, .move 2 ⟨2, 13, 0⟩, .getAgents ⟨2, 3, 0⟩, .move 1 ⟨5, 5, 0⟩, .getLocation 1, .getAgent ⟨2, 3, 0⟩,
   .remove 1, .getAgents ⟨5, 5, 0⟩, .getLocation 1, .add 1, .getLocation 1, .contains 1, .remove 3, .move 3 ⟨0, 0, 0⟩]

example : AddsOnlyNew [] exOps ∧ (∀ o ∈ exOps, ∀ p, o.queried = some p → Flat ⟨0, 10, 0, 10, 0, 0⟩ p) ∧
    (run (grid ⟨0, 10, 0, 10, 0, 0⟩ true false) newGrid exOps).2 =
     [.bool true, .bool true, .loc (some ⟨2, 3, 0⟩), .loc (some ⟨2, 3, 0⟩), .agents [1, 2], .loc (some ⟨5, 5, 0⟩), .loc (some ⟨5, 5, 0⟩), .agent (some 2),
      .bool true, .agents [], .loc none, .bool true, .loc none, .bool true, .bool false, .error] := by
  refine ⟨by simp [exOps, AddsOnlyNew], ?_, by decide +kernel⟩
  intro o ho p hp
  simp only [exOps, List.mem_cons, List.not_mem_nil, or_false] at ho
  unfold Flat
  rcases ho with rfl | rfl | rfl | rfl | rfl | rfl | rfl | rfl | rfl | rfl | rfl | rfl | rfl | rfl | rfl | rfl <;>
    simp [Op.queried] at hp <;> subst hp <;> simp

/-- C29 is violated after a repeated `add`: the agent's location is forgotten, but `get_agents` still lists it. -/
theorem C29_double_add : ∃ (ops : List (Op Pt)), let c := grid ⟨0, 10, 0, 10, 0, 0⟩ false false
    let s := (run c newGrid ops).1
    agentsAt c s ⟨1, 1, 0⟩ = .agents [7] ∧ locationOf c s 7 = .loc none :=
  ⟨[.add 7, .move 7 ⟨1, 1, 0⟩, .add 7], by decide +kernel⟩

/-! ### C30 -/

/-- What `move` does, in any state: it fails for an unknown agent; otherwise the agent is at the transformed point, or the point is
occupied. -/
theorem move_result (c : Cfg P) (s : Sp P) (a : Nat) (pt : P) :
    (step c s (.contains a)).2 = .bool false ∧ (step c s (.move a pt)).2 = .error ∨
    (step c s (.contains a)).2 = .bool true ∧
      ((step c s (.move a pt)).2 = .loc (some (c.tr pt s.wpt)) ∧ locationOf c (step c s (.move a pt)).1 a = .loc (some (c.tr pt s.wpt)) ∨
       c.single = true ∧ (step c s (.move a pt)).2 = .loc none ∧ agentsAt c s (c.tr pt s.wpt) ≠ .agents []) := by
  cases ha : s.agents a with
  | none =>
    left
    simp [step, move, ha]
  | some cur =>
    right
    refine ⟨by simp [step, ha], ?_⟩
    simp only [step, move, locationOf, agentsAt, ha]
    by_cases h1 : cur = some (c.tr pt s.wpt)
    · left; rw [if_pos h1]; simp [ha, h1]
    · rw [if_neg h1]
      cases hp : put c s.loc a (c.tr pt s.wpt) with
      | none =>
        right
        simp only [put] at hp
        split at hp
        · rename_i hs
          split at hp
          · cases hp
          · rename_i hne
            exact ⟨hs, by simp, by simpa using hne⟩
        · cases hp
      | some loc => left; simp [upd]

/-- C30, sticky borders: whatever happened before, `move(agent, pt)` leads to the sticky transform of `pt` (or the agent is unknown, or the
point is occupied in a single occupancy grid). -/
theorem C30_sticky (b : Box) (single : Bool) (ops : List (Op Pt)) (a : Nat) (pt : Pt) :
    let c := grid b false single
    let s := (run c newGrid ops).1
    let r := step c s (.move a pt)
    (step c s (.contains a)).2 = .bool false ∧ r.2 = .error ∨
    r.2 = .loc (some (sticky b pt)) ∧ locationOf c r.1 a = .loc (some (sticky b pt)) ∨
    single = true ∧ r.2 = .loc none ∧ agentsAt c s (sticky b pt) ≠ .agents [] := by
  rcases move_result (grid b false single) (run (grid b false single) newGrid ops).1 a pt with h | ⟨-, h | h⟩
  · exact .inl h
  · exact .inr (.inl h)
  · exact .inr (.inr h)

/-- All states satisfy the working point invariant if the queries do. -/
theorem run_good {c : Cfg P} {Good : P → Prop} (T : P → P) (hT : ∀ p w, Good w → c.tr p w = T p) (hG : ∀ p, Good (T p)) {s : Sp P}
    (ops : List (Op P)) (hq : ∀ o ∈ ops, ∀ p, o.queried = some p → Good p)
    (hw : Good s.wpt) (hl : ∀ a p, s.agents a = some (some p) → Good p) : Good (run c s ops).1.wpt := by
  induction ops generalizing s with
  | nil => exact hw
  | cons o os ih =>
    obtain ⟨g1, g2⟩ := step_good T hT hG (hq o (by simp)) hw hl
    exact ih (fun o ho => hq o (List.mem_cons_of_mem _ ho)) g1 g2

/-- C30, periodic borders, if no `get_agent`/`get_agents` call was given a point with a non-zero coordinate in a dimension the space does not
have. Missing (`_partial`): the other histories, for which it is false (`C30_violation`). In a 3-dimensional space there is no such
dimension, so this is the full statement there. -/
theorem C30_periodic_partial {b : Box} (hb : b.Ok) (single : Bool) (ops : List (Op Pt)) (hq : ∀ o ∈ ops, ∀ p, o.queried = some p → Flat b p)
    (a : Nat) (pt : Pt) :
    let c := grid b true single
    let s := (run c newGrid ops).1
    let r := step c s (.move a pt)
    (step c s (.contains a)).2 = .bool false ∧ r.2 = .error ∨
    r.2 = .loc (some (periodic b pt ⟨0, 0, 0⟩)) ∧ locationOf c r.1 a = .loc (some (periodic b pt ⟨0, 0, 0⟩)) ∨
    single = true ∧ r.2 = .loc none ∧ agentsAt c s (periodic b pt ⟨0, 0, 0⟩) ≠ .agents [] := by
  have hg : Flat b (run (grid b true single) newGrid ops).1.wpt :=
    run_good (c := grid b true single) (fun p => periodic b p ⟨0, 0, 0⟩) (fun p w hw => (periodic_flat hb p w hw).1)
      (fun p => (periodic_flat hb p ⟨0, 0, 0⟩ ⟨fun _ => rfl, fun _ => rfl⟩).2) ops hq ⟨fun _ => rfl, fun _ => rfl⟩
      (fun a p h => by simp [newGrid, Sp.empty] at h)
  have he : (grid b true single).tr pt (run (grid b true single) newGrid ops).1.wpt = periodic b pt ⟨0, 0, 0⟩ := (periodic_flat hb pt _ hg).1
  have := move_result (grid b true single) (run (grid b true single) newGrid ops).1 a pt
  rw [he] at this
  rcases this with h | ⟨-, h | h⟩
  · exact .inl h
  · exact .inr (.inl h)
  · exact .inr (.inr h)

/-- C30 is violated in a 2-dimensional periodic grid: after a query at `(1, 1, 5)`, moving to `(2, 2)` puts the agent at `(2, 2, 5)`, which
`get_agents((2, 2))` does not find. Without the query the same move leads to `(2, 2, 0)`. -/
theorem C30_violation : ∃ (b : Box) (pre : List (Op Pt)), b.Ok ∧ let c := grid b true false
    let s := (run c newGrid pre).1
    let s' := (run c newGrid (pre ++ [.getAgents ⟨1, 1, 5⟩])).1
    (step c s (.move 1 ⟨2, 2, 0⟩)).2 = .loc (some ⟨2, 2, 0⟩) ∧
    (step c s' (.move 1 ⟨2, 2, 0⟩)).2 = .loc (some ⟨2, 2, 5⟩) ∧
    agentsAt c (step c s' (.move 1 ⟨2, 2, 0⟩)).1 ⟨2, 2, 0⟩ = .agents [] :=
  ⟨⟨0, 10, 0, 10, 0, 0⟩, [.add 1], ⟨by decide, by decide, by decide, by decide⟩, by decide +kernel⟩

/-! ### C31 -/

/-- An agent with a location is alone in the list of that location. -/
structure Alone (s : Sp P) : Prop where
  alone : ∀ a p, s.agents a = some (some p) → s.loc p = [a]

theorem Alone.step {c : Cfg P} (hc : c.single = true) {s : Sp P} (h : Alone s) (o : Op P) : Alone (step c s o).1 := by
  cases o with
  | getAgent pt => exact ⟨h.alone⟩
  | getAgents pt => exact ⟨h.alone⟩
  | getLocation a => exact h
  | contains a => exact h
  | add a =>
    refine ⟨fun b p hb => ?_⟩
    simp only [Space.step, add, upd] at hb
    split at hb
    · simp at hb
    · exact h.alone b p hb
  | remove a =>
    simp only [Space.step, remove]
    split
    · exact h
    · refine ⟨fun b p hb => ?_⟩
      simp only [upd] at hb
      split at hb
      · cases hb
      · exact h.alone b p hb
    · rename_i q hq
      refine ⟨fun b p hb => ?_⟩
      simp only [upd] at hb
      split at hb
      · cases hb
      · rename_i hne
        have h1 := h.alone b p hb
        have h2 := h.alone a q hq
        simp only [rem, hc, if_true, h2]
        simp only [List.cons_ne_nil, if_false, upd]
        rw [if_neg, h1]
        rintro rfl
        rw [h1] at h2
        exact hne (List.cons.inj h2).1
  | move a pt =>
    simp only [Space.step, move]
    split
    · exact h
    · rename_i cur hcur
      generalize c.tr pt s.wpt = w
      split
      · exact ⟨h.alone⟩
      · rename_i hne
        have hput : ∀ loc, put c s.loc a w = some loc → s.loc w = [] ∧ loc = upd s.loc w [a] := by
          intro loc hp
          simp only [put, hc, if_true] at hp
          split at hp
          · rename_i he; exact ⟨he, (Option.some.inj hp).symm⟩
          · cases hp
        cases hp : put c s.loc a w with
        | none => exact ⟨h.alone⟩
        | some loc =>
          obtain ⟨he, rfl⟩ := hput _ hp
          refine ⟨fun b p hb => ?_⟩
          simp only [upd] at hb
          cases cur with
          | none =>
            simp only [upd]
            split at hb
            · rename_i hba
              simp only [Option.some.injEq] at hb
              rw [if_pos hb.symm, hba]
            · have := h.alone b p hb
              rw [if_neg, this]
              rintro rfl
              rw [he] at this; cases this
          | some q =>
            have hqa := h.alone a q hcur
            have hqw : q ≠ w := fun hh => hne (by rw [hh])
            have hlq : upd s.loc w [a] q = [a] := by simp only [upd, if_neg hqw, hqa]
            simp only [rem, hc, if_true, hlq, List.cons_ne_nil, if_false]
            split at hb
            · rename_i hba
              simp only [Option.some.injEq] at hb
              subst hb hba
              simp only [upd, if_neg (Ne.symm hqw), if_true]
            · rename_i hba
              have h1 := h.alone b p hb
              have hpq : p ≠ q := by
                rintro rfl
                rw [h1] at hqa
                exact hba (List.cons.inj hqa).1
              have hpw : p ≠ w := by
                rintro rfl
                rw [he] at h1; cases h1
              simp only [upd, if_neg hpq, if_neg hpw, h1]

theorem run_alone {c : Cfg P} (hc : c.single = true) {s : Sp P} (h : Alone s) (ops : List (Op P)) : Alone (run c s ops).1 := by
  induction ops generalizing s with
  | nil => exact h
  | cons o os ih => exact ih (h.step hc o)

/-- C31: in a single-occupancy space two agents never have the same location, whatever calls were made (repeated `add`s included). -/
theorem C31_exclusive (c : Cfg P) (hc : c.single = true) (zero : P) (ops : List (Op P)) (a b : Nat) (p : P)
    (h1 : locationOf c (run c (Sp.empty zero) ops).1 a = .loc (some p)) (h2 : locationOf c (run c (Sp.empty zero) ops).1 b = .loc (some p)) : a = b := by
  have h := run_alone hc (s := Sp.empty zero) ⟨by simp [Sp.empty]⟩ ops
  have key : ∀ a, locationOf c (run c (Sp.empty zero) ops).1 a = .loc (some p) → (run c (Sp.empty zero) ops).1.agents a = some (some p) := by
    intro a ha
    simp only [locationOf, step, Res.loc.injEq] at ha
    cases hs : (run c (Sp.empty zero) ops).1.agents a with
    | none => rw [hs] at ha; cases ha
    | some o => rw [hs] at ha; simp only [Option.getD_some] at ha; rw [ha]
  have e1 := h.alone a p (key a h1)
  have e2 := h.alone b p (key b h2)
  rw [e1] at e2
  exact (List.cons.inj e2).1

/-- C31: moving to a location where `get_agents` finds someone, other than the agent's own location, returns `None` and changes nothing that
`get_agents`, `get_location` and `contains` return. -/
theorem C31_occupied (c : Cfg P) (hc : c.single = true) (s : Sp P) (a : Nat) (pt : P) (hin : (step c s (.contains a)).2 = .bool true)
    (hocc : agentsAt c s (c.tr pt s.wpt) ≠ .agents []) (hself : locationOf c s a ≠ .loc (some (c.tr pt s.wpt))) :
    (step c s (.move a pt)).2 = .loc none ∧
    ∀ b p, let s' := (step c s (.move a pt)).1
      agentsAt c s' p = agentsAt c s p ∧ locationOf c s' b = locationOf c s b ∧ (step c s' (.contains b)).2 = (step c s (.contains b)).2 := by
  simp only [step, agentsAt, locationOf] at *
  cases ha : s.agents a with
  | none => simp [ha] at hin
  | some cur =>
    have h1 : ¬ cur = some (c.tr pt s.wpt) := by rw [ha] at hself; simpa using hself
    have h2 : s.loc (c.tr pt s.wpt) ≠ [] := by simpa using hocc
    have e : move c s a pt = ({ s with wpt := c.tr pt s.wpt }, .loc none) := by
      simp only [move, ha, if_neg h1, put, hc, if_true, if_neg h2]
    rw [e]
    exact ⟨rfl, fun _ _ => ⟨rfl, rfl, rfl⟩⟩

example : let c := grid ⟨0, 10, 0, 10, 0, 0⟩ false true
    let s := (run c newGrid [.add 1, .add 2, .move 1 ⟨3, 3, 0⟩, .move 2 ⟨4, 4, 0⟩]).1
    (step c s (.contains 2)).2 = .bool true ∧ agentsAt c s (c.tr ⟨3, 3, 0⟩ s.wpt) = .agents [1] ∧
    locationOf c s 2 = .loc (some ⟨4, 4, 0⟩) ∧ (step c s (.move 2 ⟨3, 3, 0⟩)).2 = .loc none := by decide +kernel

/-! ### C32 -/

/-- C32: after `remove(a)` the agent has no location, is not in the space, and no query lists it; the other agents are where they were. The
history does not add an agent already in the space (`C32_double_add` otherwise). -/
theorem C32_removed_partial (c : Cfg P) (zero : P) (ops : List (Op P)) (ha : AddsOnlyNew [] ops) (a : Nat) :
    let s := (run c (Sp.empty zero) ops).1
    let s' := (step c s (.remove a)).1
    locationOf c s' a = .loc none ∧ (step c s' (.contains a)).2 = .bool false ∧
    (∀ p l, agentsAt c s' p = .agents l → a ∉ l) ∧ (∀ p, (step c s' (.getAgent p)).2 ≠ .agent (some a)) ∧
    ∀ b, b ≠ a → locationOf c s' b = locationOf c s b := by
  obtain ⟨t, h⟩ := run_coupled (coupled_empty c zero) ops ha
  intro s s'
  have h' := (h.step (.remove a) (by simp) id (by simp)).1
  have hnone : s'.agents a = none := by
    show (remove c s a).1.agents a = none
    unfold remove
    split
    · assumption
    · simp [upd]
    · simp [upd]
  have hlist : ∀ p, a ∉ s'.loc p := by
    intro p hm
    have e := h'.loc p
    change s'.loc p = _ at e
    rw [e, mem_at, h'.placed] at hm
    change s'.agents a = _ at hm
    rw [hnone] at hm; cases hm
  refine ⟨by simp [locationOf, step, hnone], by simp [step, hnone], ?_, ?_, ?_⟩
  · intro p l hl
    simp only [agentsAt, step, Res.agents.injEq] at hl
    rw [← hl]; exact hlist p
  · intro p hp
    simp only [step, Res.agent.injEq] at hp
    exact hlist p (List.mem_of_head? hp)
  · intro b hb
    show Res.loc ((remove c s a).1.agents b |>.getD none) = Res.loc ((s.agents b).getD none)
    unfold remove
    split
    · rfl
    · simp [upd, hb]
    · simp [upd, hb]

/-- C32: moving an agent that is not in the space raises, and the space is as before. -/
theorem C32_unknown (c : Cfg P) (s : Sp P) (a : Nat) (pt : P) (h : (step c s (.contains a)).2 = .bool false) :
    step c s (.move a pt) = (s, .error) := by
  simp only [step] at *
  have : s.agents a = none := by
    cases hs : s.agents a with
    | none => rfl
    | some x => simp [hs] at h
  unfold move; rw [this]

example : (step (grid ⟨0, 10, 0, 10, 0, 0⟩ true false) (run (grid ⟨0, 10, 0, 10, 0, 0⟩ true false) newGrid exOps).1 (.contains 3)).2 = .bool false := by
  decide +kernel

/-- C32 is violated after a repeated `add`: the removed agent is still listed. -/
theorem C32_double_add : ∃ (ops : List (Op Pt)), let c := grid ⟨0, 10, 0, 10, 0, 0⟩ false false
    agentsAt c (step c (run c newGrid ops).1 (.remove 7)).1 ⟨1, 1, 0⟩ = .agents [7] :=
  ⟨[.add 7, .move 7 ⟨1, 1, 0⟩, .add 7], by decide +kernel⟩

end

end Repast.Space
