import Verif.Space.Refs

/-
C56: loops over the agents that a space returned as a list of its own: `get_agents` of a space with single occupancy (occupancy.h:158-168) and `get_agents_within` (spacemodule.cpp:1798-1823, 2288-2313;
SpatialTree.h:157-168, 257-268). The list has pointers to the agents, without references (no `Py_INCREF`).
-/
namespace Repast.Space
variable {P : Type} [DecidableEq P]

/-- core.h:76-95, coremodule.cpp:36-50: `for o in result: body`. `list` are the pointers that are left. `own o` are the references to `o` that are not counted by the space (the context, variables of the
program), apart from the one to the visited agent, that the loop has. `none`: an agent is used that is freed. Otherwise the agents that were visited. -/
def snapLoop (uid : Nat → Nat) (c : Cfg P) (own : Nat → Int) (body : Nat → List (Op P)) : List Nat → Ob P → Option (List Nat × Ob P)
  | [], b => some ([], b)
  | o :: list, b => if b.refs o + own o ≤ 0 then none else
    (snapLoop uid c own body list (b.run uid c (body o)).1).map fun r => (o :: r.1, r.2)

/-! ### lemmas -/

theorem Ob.run_append (uid : Nat → Nat) (c : Cfg P) (b : Ob P) (l1 l2 : List (Op P)) : (b.run uid c (l1 ++ l2)).1 = ((b.run uid c l1).1.run uid c l2).1 := by
  induction l1 generalizing b with
  | nil => rfl
  | cons o l1 ih => exact ih _

theorem run_app (c : Cfg P) (s : Sp P) (l1 l2 : List (Op P)) : (run c s (l1 ++ l2)).1 = (run c (run c s l1).1 l2).1 := by
  induction l1 generalizing s with
  | nil => rfl
  | cons o l1 ih => exact ih _

theorem step_stays (c : Cfg P) (s : Sp P) (o : Op P) (x : Nat) (hx : (s.agents x).isSome = true) (hr : o ≠ .remove x) : ((step c s o).1.agents x).isSome = true := by
  have up : ∀ a v, (upd s.agents a (some v) x).isSome = true := by
    intro a v
    unfold upd
    split
    · rfl
    · exact hx
  cases o with
  | add a => exact up a none
  | remove a =>
    show ((remove c s a).1.agents x).isSome = true
    rw [remove_entries]
    unfold upd
    rw [if_neg (fun e => hr (by rw [e]))]
    exact hx
  | move a pt =>
    unfold step move
    cases hs : s.agents a with
    | none => simp only [hs]; exact hx
    | some cur =>
      simp only [hs]
      split
      · exact hx
      · split
        · exact hx
        · cases cur <;> exact up a _
  | _ => exact hx

theorem run_stays (c : Cfg P) (ops : List (Op P)) (s : Sp P) (x : Nat) (hx : (s.agents x).isSome = true) (hr : ∀ o ∈ ops, o ≠ .remove x) : ((run c s ops).1.agents x).isSome = true := by
  induction ops generalizing s with
  | nil => exact hx
  | cons o ops ih => exact ih _ (step_stays c s o x hx (hr o (List.mem_cons_self ..))) (fun o' h => hr o' (List.mem_cons_of_mem _ h))

theorem addsOnlyNew_left {k : List Nat} (l1 l2 : List (Op P)) (h : AddsOnlyNew k (l1 ++ l2)) : AddsOnlyNew k l1 := by
  induction l1 generalizing k with
  | nil => trivial
  | cons o l1 ih =>
    cases o with
    | add a => exact ⟨h.1, ih h.2⟩
    | remove a => exact ih (k := k.filter fun b => decide (b ≠ a)) h
    | _ => exact ih (k := k) h

/-! ### C56 -/

/-- C56 (partial), lists of their own: `list` are different agents that are in the space after the calls `ops`, e.g. those that `get_agents_within` returned. If the body of the loop removes no agent but the
visited one, every agent is visited, once, in the order of the list, wherever the body moves agents and whatever it adds, even if only the space has references to the agents. -/
theorem C56_list_partial (uid : Nat → Nat) (c : Cfg P) (zero : P) (ops : List (Op P)) (list : List Nat) (body : Nat → List (Op P)) (own : Nat → Int) (hown : ∀ o, 0 ≤ own o)
    (h1 : OneEach uid (Passed (ops ++ list.flatMap body))) (ha : AddsOnlyNew [] (ops ++ list.flatMap body)) (hn : list.Nodup) (hp : ∀ o ∈ list, Passed ops o)
    (hin : ∀ o ∈ list, (((Ob.empty zero).run uid c ops).1.step uid c (.contains o)).2 = .bool true)
    (hbody : ∀ o ∈ list, ∀ a, .remove a ∈ body o → a = o) :
    snapLoop uid c own body list ((Ob.empty zero).run uid c ops).1 = some (list, ((Ob.empty zero).run uid c (ops ++ list.flatMap body)).1) := by
  have key : ∀ (list : List Nat) (ops : List (Op P)), OneEach uid (Passed (ops ++ list.flatMap body)) → AddsOnlyNew [] (ops ++ list.flatMap body) → list.Nodup → 
      (∀ o ∈ list, Passed ops o) → (∀ o ∈ list, ((run c (Sp.empty zero) ops).1.agents o).isSome = true) → (∀ o ∈ list, ∀ a, .remove a ∈ body o → a = o) →
      snapLoop uid c own body list ((Ob.empty zero).run uid c ops).1 = some (list, ((Ob.empty zero).run uid c (ops ++ list.flatMap body)).1) := by
    intro list
    induction list with
    | nil => intro ops _ _ _ _ _ _; simp [snapLoop]
    | cons o list ih =>
      intro ops h1 ha hn hp hin hb
      rw [List.flatMap_cons, ← List.append_assoc] at h1 ha
      have sub : ∀ a, Passed ops a → Passed (ops ++ body o ++ list.flatMap body) a := by
        rintro a ⟨x, hx, e⟩
        exact ⟨x, List.mem_append_left _ (List.mem_append_left _ hx), e⟩
      have hc := (Counted.run (uid := uid) (S := Passed ops) (fun a b h h' => h1 a b (sub a h) (sub b h')) (c := c) (b := Ob.empty zero) (d := fun _ => 0) ops (Same.empty uid _ zero) (coupled_empty c zero)
        (addsOnlyNew_left _ _ (addsOnlyNew_left _ _ ha)) (fun o ho a e => ⟨o, ho, e⟩) (fun _ => rfl)).1 o
      have hlive : 1 ≤ ((Ob.empty zero).run uid c ops).1.refs o := by
        rw [hc]
        have := hin o (List.mem_cons_self ..)
        unfold held
        revert this
        rcases (run c (Sp.empty zero) ops).1.agents o with _ | _ | p
        · intro h; cases h
        · intro; simp
        · intro; simp
      have hne := (List.nodup_cons.1 hn).1
      have := ih (ops ++ body o) h1 ha (List.nodup_cons.1 hn).2
        (fun x hx => by obtain ⟨y, hy, e⟩ := hp x (List.mem_cons_of_mem _ hx); exact ⟨y, List.mem_append_left _ hy, e⟩)
        (fun x hx => by
          rw [run_app]
          refine run_stays c _ _ x (hin x (List.mem_cons_of_mem _ hx)) (fun op hop e => ?_)
          subst e
          exact hne ((hb o (List.mem_cons_self ..) x hop) ▸ hx))
        (fun x hx => hb x (List.mem_cons_of_mem _ hx))
      unfold snapLoop
      rw [if_neg (by have := hown o; omega), ← Ob.run_append, this, List.flatMap_cons, ← List.append_assoc]
      rfl
  refine key list ops h1 ha hn hp (fun o ho => ?_) hbody
  have hs := (Same.run (uid := uid) (S := Passed ops) (fun a b h h' => h1 a b
    (by obtain ⟨x, hx, e⟩ := h; exact ⟨x, List.mem_append_left _ hx, e⟩) (by obtain ⟨x, hx, e⟩ := h'; exact ⟨x, List.mem_append_left _ hx, e⟩))
    (c := c) ops (Same.empty uid _ zero) (fun o ho a e => ⟨o, ho, e⟩)).1.agents o (hp o ho)
  have hi : Res.bool (((Ob.empty zero).run uid c ops).1.agents (uid o)).isSome = (.bool true : Res P) := hin o ho
  rw [hs, Option.isSome_map] at hi
  exact Res.bool.inj hi

/-- C56, single occupancy: a loop over `get_agents` visits the agent that is at the location, whatever the body does, also if it moves others to the location or removes agents. -/
theorem C56_single_partial (uid : Nat → Nat) (c : Cfg P) (hc : c.single = true) (zero : P) (ops : List (Op P)) (h1 : OneEach uid (Passed ops)) (ha : AddsOnlyNew [] ops) (pt : P) (body : Nat → List (Op P))
    (own : Nat → Int) (hown : ∀ o, 0 ≤ own o) :
    let b := ((Ob.empty zero).run uid c ops).1
    ∃ l b', (b.step uid c (.getAgents pt)).2 = .agents l ∧ l.length ≤ 1 ∧ snapLoop uid c own body l b = some (l, b') := by
  intro b
  have hs := (Same.run h1 (c := c) ops (Same.empty uid _ zero) (fun o ho a e => ⟨o, ho, e⟩)).1
  obtain ⟨hd, hocc⟩ := Counted.run h1 (c := c) (b := Ob.empty zero) (d := fun _ => 0) ops (Same.empty uid _ zero) (coupled_empty c zero) ha (fun o ho a e => ⟨o, ho, e⟩) (fun _ => rfl)
  have el : b.loc = (run c (Sp.empty zero) ops).1.loc := hs.loc
  have hr : (b.step uid c (.getAgents pt)).2 = .agents (b.loc pt) := rfl
  cases hl : b.loc pt with
  | nil => exact ⟨[], b, by rw [hr, hl], by simp, rfl⟩
  | cons o rest =>
    have hm : o ∈ (run c (Sp.empty zero) ops).1.loc pt := by rw [← el, hl]; exact List.mem_cons_self ..
    have ho := hocc.mem.1 hm
    have h2 := hocc.alone hc ho
    rw [← el, hl] at h2
    rw [h2] at hl
    have hlive : b.refs o = 2 := by
      have : b.refs o = _ := hd o
      rw [this]
      unfold held
      rw [ho]
      rfl
    refine ⟨[o], (b.run uid c (body o)).1, by rw [hr, hl], by simp, ?_⟩
    unfold snapLoop
    rw [if_neg (by have := hown o; omega)]
    rfl

/-- Agent 10 is removed when it is visited, agent 11 moves. -/
example : let body : Nat → List (Op Pt) := fun o => if o = 10 then [.remove 10] else [.move o ⟨5, 5, 0⟩]
    let ops : List (Op Pt) := [.add 10, .add 11, .move 10 ⟨1, 1, 0⟩, .move 11 ⟨2, 2, 0⟩]
    AddsOnlyNew [] (ops ++ [10, 11].flatMap body) ∧ (∀ o ∈ [10, 11], Passed ops o) ∧ (∀ o ∈ [10, 11], ∀ a, Op.remove a ∈ body o → a = o) ∧
    (∀ o ∈ [10, 11], (((Ob.empty ⟨0, 0, 0⟩).run exUid (grid ⟨0, 10, 0, 10, 0, 0⟩ false false) ops).1.step exUid (grid ⟨0, 10, 0, 10, 0, 0⟩ false false) (.contains o)).2 = .bool true) := by
  refine ⟨by simp [AddsOnlyNew], ?_, ?_, by decide +kernel⟩
  · intro o ho
    rcases List.mem_cons.1 ho with rfl | ho
    · exact ⟨.add 10, by simp, rfl⟩
    · rw [List.mem_singleton.1 ho]; exact ⟨.add 11, by simp, rfl⟩
  · intro o ho a h
    simp at ho
    rcases ho with rfl | rfl <;> simp at h ⊢ <;> exact h

/-- C56 is violated for lists of their own: nothing but the space has references to the agent `x`, the list has `o` and then `x`, and the body of the loop removes `x` when `o` is visited:
then `x` is used though it is freed. This is so for every space and every history. -/
theorem C56_violation_freed (uid : Nat → Nat) (c : Cfg P) (zero : P) (ops : List (Op P)) (h1 : OneEach uid (Passed ops)) (ha : AddsOnlyNew [] ops) (o x : Nat) (hx : Passed ops x)
    (list : List Nat) (body : Nat → List (Op P)) (hb : body o = [.remove x]) (own : Nat → Int) (ho : own x = 0) :
    snapLoop uid c own body (o :: x :: list) ((Ob.empty zero).run uid c ops).1 = none := by
  have h1' : OneEach uid (Passed (ops ++ [.remove x])) := by
    have e : ∀ a, Passed (ops ++ [.remove x]) a → Passed ops a := by
      rintro a ⟨y, hy, e⟩
      rcases List.mem_append.1 hy with hy | hy
      · exact ⟨y, hy, e⟩
      · rw [List.mem_singleton.1 hy] at e; cases e; exact hx
    exact fun a b h h' => h1 a b (e a h) (e b h')
  have ha' : ∀ (k : List Nat) (l : List (Op P)), AddsOnlyNew k l → AddsOnlyNew k (l ++ [.remove x]) := by
    intro k l
    induction l generalizing k with
    | nil => intro _; trivial
    | cons y l ih =>
      intro h
      cases y with
      | add a => exact ⟨h.1, ih _ h.2⟩
      | remove a => exact ih _ h
      | _ => exact ih k h
  have hc := (Counted.run h1' (c := c) (b := Ob.empty zero) (d := fun _ => 0) (ops ++ [.remove x]) (Same.empty uid _ zero) (coupled_empty c zero) (ha' _ _ ha) (fun o ho a e => ⟨o, ho, e⟩) (fun _ => rfl)).1 x
  have hz : held (run c (Sp.empty zero) (ops ++ [.remove x])).1 x = 0 := by
    rw [run_app]
    show held (remove c (run c (Sp.empty zero) ops).1 x).1 x = 0
    unfold held
    rw [remove_entries]
    unfold upd
    rw [if_pos rfl]
  rw [hz] at hc
  rw [Ob.run_append] at hc
  unfold snapLoop
  rw [hb]
  split
  · rfl
  · unfold snapLoop
    rw [if_pos (by rw [hc, ho]; simp)]
    rfl

/-- Agents 10 and 11 are in the space; 11 is removed when 10 is visited. -/
example : snapLoop exUid (grid ⟨0, 10, 0, 10, 0, 0⟩ false false) (fun _ => 0) (fun o => if o = 10 then [.remove 11] else []) [10, 11]
    ((Ob.empty ⟨0, 0, 0⟩).run exUid (grid ⟨0, 10, 0, 10, 0, 0⟩ false false) [.add 10, .add 11, .move 10 ⟨1, 1, 0⟩, .move 11 ⟨2, 2, 0⟩]).1 = none := by
  refine C56_violation_freed exUid _ _ _ ?_ (by simp [AddsOnlyNew]) 10 11 ⟨.add 11, by simp, rfl⟩ [] _ rfl _ rfl
  rintro a b ⟨o, ho, e⟩ ⟨o', ho', e'⟩ h
  simp only [List.mem_cons, List.not_mem_nil, or_false] at ho ho'
  rcases ho with rfl | rfl | rfl | rfl <;> cases e <;> rcases ho' with rfl | rfl | rfl | rfl <;> cases e' <;> simp [exUid] at h ⊢

end Repast.Space
