import Verif.Network.RankArrive
import Verif.Network.NetSim

/-! The former rank of an agent adds the edges that it keeps with it again (network.py:476-545 `_agent_moving_rank`, network.py:450-474 `_post_agents_moved_rank`). Used for C54. -/
namespace Repast.Network
open Repast.Dict Repast.Context

variable {S A : Type} {d : Bool} {Q : Pend A}

theorem addEdge_addNode (g : Graph A) (o u v : Obj) (a : Attr A) (h : u = o ∧ v ∈ g.nodes ∨ v = o ∧ u ∈ g.nodes) : (g.addNode o).addEdge u v a = g.addEdge u v a := by
  have key : ((g.addNode o).addNode u).addNode v = (g.addNode u).addNode v := by
    rcases h with ⟨rfl, hv⟩ | ⟨rfl, hu⟩
    · have : (g.addNode u).addNode u = g.addNode u := if_pos ((mem_addNode _ _ _).2 (.inr rfl))
      rw [this]
    · have e1 : (g.addNode v).addNode u = g.addNode v := if_pos ((mem_addNode _ _ _).2 (.inl hu))
      have e2 : (g.addNode v).addNode v = g.addNode v := if_pos ((mem_addNode _ _ _).2 (.inr rfl))
      have e3 : g.addNode u = g := if_pos hu
      rw [e1, e2, e3]
  unfold Graph.addEdge
  simp only [key]

/-- The ghost of an agent that has moved becomes a node with its first edge. -/
def Net.reveal (N : Net A) (o : Obj) : Net A := { N.add o with toRef := N.toRef ++ [o] }

theorem addEdge_reveal {N : Net A} {r : Nat} {lr : Obj → Nat} {o u v : Obj} (a : Attr A) (ho : o ∉ N.g.nodes) (hlo : lr o ≠ r)
    (h : u = o ∧ v ∈ N.g.nodes ∧ lr v = r ∨ v = o ∧ u ∈ N.g.nodes ∧ lr u = r) : (N.reveal o).addEdge r lr u v a = N.addEdge r lr u v a := by
  have hm : o ∈ (N.reveal o).g.nodes := (mem_addNode N.g o o).2 (.inr rfl)
  have hput : (N.reveal o).put u v a = (N.noteRef o).put u v a := by
    unfold Net.put
    have e : (N.reveal o).g.addEdge u v a = N.g.addEdge u v a := addEdge_addNode N.g o u v a (h.imp (fun x => ⟨x.1, x.2.1⟩) (fun x => ⟨x.1, x.2.1⟩))
    rw [e]
    have : N.noteRef o = { N with toRef := N.toRef ++ [o] } := if_neg ho
    rw [this]
    rfl
  have h1 : (N.reveal o).noteRef o = N.reveal o := if_pos hm
  unfold Net.addEdge
  rcases h with ⟨rfl, -, hv⟩ | ⟨rfl, -, hu⟩
  · rw [if_neg (fun c => hlo c.1), if_pos ⟨hlo, hv⟩, if_neg (fun c => hlo c.1), if_pos ⟨hlo, hv⟩, h1, hput]
  · rw [if_pos ⟨hu, hlo⟩, if_pos ⟨hu, hlo⟩, h1, hput]

theorem COk.reveal {c : Cx S A} (h : COk d Q c) {m : Nat} {g : Gh S} (hg : get c.ghosts m = some g) (hm : Q.hid m = true) (hmv : Q.mv m) :
    COk d { Q with hid := fun x => Q.hid x && !decide (x = m), toRef := Q.toRef ++ [g.obj] } { c with nets := [c.net.reveal g.obj] } ∧
      ({ c with nets := [c.net.reveal g.obj] } : Cx S A).v = { c.v with net := { c.v.net with has := fun x => c.v.net.has x || decide (x = m) } } := by
  have hgo := h.gho m g hg
  have hno : c.net.v.has g.obj.uid = false := by
    have := h.has_iff m
    rw [hm, Bool.not_true, Bool.and_false] at this
    rw [hgo.1]; exact this
  have hN := h.net.add hno
  have hmem : ∀ x, x ∈ (c.net.reveal g.obj).g.nodes ↔ x ∈ c.net.g.nodes ∨ x = g.obj := mem_addNode c.net.g g.obj
  have hfind : c.find m = some g.obj := by unfold Cx.find; rw [hgo.2.2.2, hg]; rfl
  refine ⟨?_, ?_⟩
  · exact { h with
      nets := rfl
      net := { hN with toRef := by show _ ++ _ = _ ++ _; rw [h.net.toRef] }
      hid := by
        intro u hu
        simp only [Bool.and_eq_true] at hu
        exact h.hid u hu.1
      nodes := by
        intro o
        show o ∈ (c.net.reveal g.obj).g.nodes ↔ c.find o.uid = some o ∧ (Q.hid o.uid && !decide (o.uid = m)) = false
        rw [hmem, h.nodes]
        constructor
        · rintro (⟨h1, h2⟩ | rfl)
          · exact ⟨h1, by rw [h2]; rfl⟩
          · rw [hgo.1]; exact ⟨hfind, by simp⟩
        · rintro ⟨h1, h2⟩
          by_cases e : o.uid = m
          · rw [e, hfind] at h1
            exact .inr (Option.some.inj h1).symm
          · refine .inl ⟨h1, ?_⟩
            simpa [e] using h2
      fresh := by
        intro o ho
        rcases (hmem o).1 ho with h1 | rfl
        · exact h.fresh o h1
        · exact h.ghoFresh m g hg
      toRef := by
        intro o ho
        rcases List.mem_append.1 ho with h1 | h1
        · exact h.toRef o h1
        · rw [List.mem_singleton] at h1
          subst h1
          exact ⟨by rw [hgo.1]; exact hmv, hgo.2.1, h.ghoFresh m g hg⟩ }
  · show ({ c.v with net := (c.net.add g.obj).v } : RV S A) = _
    rw [add_v h.net hno, hgo.1]
    rfl

/-- What the former rank sees when it has added the edges again. -/
def NV.readd (d : Bool) (N : NV A) (m : Nat) (M : List (Nat × Nat × Attr A)) : NV A :=
  { N with
    has := fun x => N.has x || (decide (x = m) && !M.isEmpty)
    edge := fun x y => match M.find? (fun e => decide (SameN d e.1 e.2.1 x y)) with
      | some e => some (merge [] e.2.2)
      | none => N.edge x y
    new := M.map fun e => (e.1, e.2.1) }

theorem COk.noMoved {c : Cx S A} (h : COk d Q c) : COk d { Q with moved := [] } { c with nets := [{ c.net with movedEdges := [] }] } ∧
    ({ c with nets := [{ c.net with movedEdges := [] }] } : Cx S A).v = c.v :=
  ⟨{ h with nets := rfl, net := { h.net with moved := rfl } }, rfl⟩

theorem COk.readd {c : Cx S A} (h : COk d Q c) {m : Nat} (hhid : Q.hid m = true ↔ Q.moved ≠ []) (hmv : Q.mv m) (hnew : c.v.net.new = []) (hrem : c.v.net.rem = [])
    (hM : ∀ e ∈ Q.moved, e.1 = m ∧ e.2.1 ≠ m ∧ (c.v.loc e.2.1).isSome = true ∨ e.2.1 = m ∧ e.1 ≠ m ∧ (c.v.loc e.1).isSome = true)
    (honce : Q.moved.Pairwise fun e e' => ¬ SameN d e.1 e.2.1 e'.1 e'.2.1) :
    ∃ c' t, c.readdEdges 0 = some c' ∧ COk d { Q with hid := fun x => Q.hid x && !decide (x = m), moved := [], toRef := t } c' ∧ c'.v = { c.v with net := c.v.net.readd d m Q.moved } := by
  unfold Cx.readdEdges
  rw [h.get0, Option.bind_some, h.net.moved]
  cases hQ : Q.moved with
  | nil =>
    have hz : Q.hid m = false := by
      cases hh : Q.hid m with
      | false => rfl
      | true => exact absurd hQ (hhid.1 hh)
    have hh : (fun x => Q.hid x && !decide (x = m)) = Q.hid := by
      funext x
      by_cases e : x = m
      · rw [e, hz]; rfl
      · simp [e]
    obtain ⟨h1, h2⟩ := h.noMoved
    refine ⟨{ c with nets := [{ c.net with movedEdges := [] }] }, Q.toRef, ?_, ?_, ?_⟩
    · show (some c).bind _ = _
      rw [Option.bind_some, h.withNet]; rfl
    · rw [hh]; exact h1
    · rw [h2]
      have : c.v.net.readd d m [] = c.v.net := by
        unfold NV.readd
        simp only [List.isEmpty_nil, Bool.not_true, Bool.and_false, Bool.or_false, List.map_nil, List.find?_nil]
        rw [← hnew]
      rw [this]
  | cons e0 M0 =>
    rw [← hQ]
    have hne : Q.moved ≠ [] := by rw [hQ]; exact List.cons_ne_nil _ _
    have hm := hhid.2 hne
    obtain ⟨g, hg⟩ := Option.isSome_iff_exists.1 (h.hid m hm)
    have hgo := h.gho m g hg
    have hfind : c.find m = some g.obj := by unfold Cx.find; rw [hgo.2.2.2, hg]; rfl
    obtain ⟨r1, r2⟩ := h.reveal hg hm hmv
    have hnom : g.obj ∉ c.net.g.nodes := by
      intro hh
      have := (h.nodes _).1 hh
      rw [hgo.1, hm] at this; cases this.2
    have hhasm : c.v.net.has m = false := by
      have := h.has_iff m
      rw [hm, Bool.not_true, Bool.and_false] at this; exact this
    have hlocm : c.v.loc m = none := by
      show (get c.locals m).map _ = none
      rw [hgo.2.2.2]; rfl
    have hedge : ∀ x y, x = m ∨ y = m → c.v.net.edge x y = none := by
      intro x y hxy
      cases hh : c.v.net.edge x y with
      | none => rfl
      | some a =>
        obtain ⟨a1, b1, e1, e2, hab⟩ := (e_some h.net.inv h.net.uniq _ _ _).1 hh
        have hends := attr_ends h.net.inv hab
        have hz : c.v.net.has m = true := by
          rcases hxy with q | q
          · exact (Repast.Network.has_iff h.net.uniq _).2 ⟨a1, hends.1, e1.trans q⟩
          · exact (Repast.Network.has_iff h.net.uniq _).2 ⟨b1, hends.2, e2.trans q⟩
        rw [hhasm] at hz; cases hz
    let Q' : Pend A := { Q with hid := fun x => Q.hid x && !decide (x = m), toRef := Q.toRef ++ [g.obj] }
    have hlocal : ∀ x, (c.v.loc x).isSome = true → c.v.net.has x = true := by
      intro x hx
      rw [h.has_iff, hx, h.vis (by simpa [Cx.v] using hx)]; rfl
    have hstep : ∀ pre e suf, Q.moved = pre ++ e :: suf → ∀ c1 : Cx S A, COk d Q' c1 → c1.v = { c.v with net := { c.v.net with
          has := fun x => c.v.net.has x || decide (x = m), edge := (c.v.net.readd d m pre).edge, new := (c.v.net.readd d m pre).new } } →
        ∃ c', c1.addEdge 0 e.1 e.2.1 e.2.2 = some c' ∧ COk d Q' c' ∧ c'.v = { c.v with net := c.v.net.readd d m (pre ++ [e]) } := by
      intro pre e suf hl c1 hc1 hv1
      have he := hM e (by rw [hl]; simp)
      have hon := pairwise_split honce hl
      have hhas : c1.v.net.has e.1 = true ∧ c1.v.net.has e.2.1 = true ∧ c1.v.cross e.1 e.2.1 = true := by
        rw [hv1]
        unfold RV.cross
        show (c.v.net.has e.1 || decide (e.1 = m)) = true ∧ (c.v.net.has e.2.1 || decide (e.2.1 = m)) = true ∧ ((c.v.loc e.1).isSome != (c.v.loc e.2.1).isSome) = true
        rcases he with ⟨q1, q2, q3⟩ | ⟨q1, q2, q3⟩
        · rw [hlocal _ q3, q3, q1, hlocm]; simp
        · rw [hlocal _ q3, q3, q1, hlocm]; simp
      obtain ⟨c', e1, h1, h2⟩ := hc1.addEdge hhas.1 hhas.2.1 e.2.2 (by rw [hv1]; show ∀ p ∈ c.v.net.rem, _; rw [hrem]; simp)
      refine ⟨c', e1, h1, ?_⟩
      rw [h2, hhas.2.2, if_pos rfl, hv1]
      have g1 : (fun x y => if SameN d e.1 e.2.1 x y then some (merge (((c.v.net.readd d m pre).edge x y).getD []) e.2.2) else (c.v.net.readd d m pre).edge x y) = (c.v.net.readd d m (pre ++ [e])).edge := by
        funext x y
        have q : ∀ l, (c.v.net.readd d m l).edge x y = match l.find? (fun e => decide (SameN d e.1 e.2.1 x y)) with
          | some e => some (merge [] e.2.2)
          | none => c.v.net.edge x y := fun _ => rfl
        rw [q, q, find?_snoc]
        by_cases hs : SameN d e.1 e.2.1 x y
        · have hn : pre.find? (fun e => decide (SameN d e.1 e.2.1 x y)) = none := by
            rw [List.find?_eq_none]
            intro e' he' hh
            exact hon e' he' ((of_decide_eq_true hh : SameN d e'.1 e'.2.1 x y).trans hs.symm)
          rw [if_pos hs, hn]
          have : c.v.net.edge x y = none := by
            apply hedge
            unfold SameN at hs
            rcases he with ⟨q1, -⟩ | ⟨q1, -⟩ <;> rcases hs with ⟨q3, q4⟩ | ⟨-, q3, q4⟩ <;> omega
          rw [this]
          simp [hs]
        · rw [if_neg hs]
          cases pre.find? (fun e => decide (SameN d e.1 e.2.1 x y)) with
          | some y => rfl
          | none => simp [hs]
      have g2 : ins (c.v.net.readd d m pre).new (e.1, e.2.1) = (c.v.net.readd d m (pre ++ [e])).new := by
        show ins (pre.map fun e => (e.1, e.2.1)) (e.1, e.2.1) = (pre ++ [e]).map fun e => (e.1, e.2.1)
        unfold ins
        rw [if_neg, List.map_append]
        · rfl
        · intro hh
          obtain ⟨e', he', q⟩ := List.mem_map.1 hh
          simp only [Prod.mk.injEq] at q
          exact hon e' he' (.inl q)
      have g3 : (fun x => c.v.net.has x || decide (x = m)) = (c.v.net.readd d m (pre ++ [e])).has := by
        funext x
        show _ = (c.v.net.has x || (decide (x = m) && !(pre ++ [e]).isEmpty))
        rw [show (pre ++ [e]).isEmpty = false by cases pre <;> rfl, Bool.not_false, Bool.and_true]
      show ({ c.v with net := { c.v.net with
          has := fun x => c.v.net.has x || decide (x = m)
          edge := fun x y => if SameN d e.1 e.2.1 x y then some (merge (((c.v.net.readd d m pre).edge x y).getD []) e.2.2) else (c.v.net.readd d m pre).edge x y
          new := ins (c.v.net.readd d m pre).new (e.1, e.2.1) } } : RV S A) = _
      rw [g1, g2, g3]
      rfl
    obtain ⟨c2, e2, p2⟩ := foldM_sim (f := fun (c : Cx S A) (e : Nat × Nat × Attr A) => c.addEdge 0 e.1 e.2.1 e.2.2)
      (fun pre c' => (pre = [] ∧ c' = c) ∨ (pre ≠ [] ∧ COk d Q' c' ∧ c'.v = { c.v with net := c.v.net.readd d m pre })) Q.moved (by
      intro pre e suf hl c1 hc1
      rcases hc1 with ⟨rfl, rfl⟩ | ⟨hp, hc1, hv1⟩
      · obtain ⟨c', q1, q2, q3⟩ := hstep [] e suf hl _ r1 (by
          rw [r2]
          have : (c1.v.net.readd d m []).new = c1.v.net.new := by rw [hnew]; rfl
          rw [this]
          rfl)
        refine ⟨c', ?_, .inr ⟨by simp, q2, q3⟩⟩
        rw [← q1]
        have he := hM e (by rw [hl]; simp)
        have hfl : ∀ x, (c1.v.loc x).isSome = true → ∃ o, c1.find x = some o ∧ o ∈ c1.net.g.nodes ∧ c1.lrank o = c1.rank := by
          intro x hx
          obtain ⟨y, hy⟩ := Option.isSome_iff_exists.1 (show (get c1.locals x).isSome = true by simpa [Cx.v] using hx)
          exact ⟨y.1, by unfold Cx.find; rw [hy]; rfl, h.local_node hy, (h.loc x y.1 y.2 hy).2⟩
        unfold Cx.addEdge
        show ((c1.find e.1).bind fun u => (c1.find e.2.1).bind fun v => c1.withNet 0 fun N => some (N.addEdge c1.rank c1.lrank u v e.2.2)) =
          ((c1.find e.1).bind fun u => (c1.find e.2.1).bind fun v => ({ c1 with nets := [c1.net.reveal g.obj] } : Cx S A).withNet 0 fun N => some (N.addEdge c1.rank c1.lrank u v e.2.2))
        rcases he with ⟨q4, q5, q6⟩ | ⟨q4, q5, q6⟩
        · obtain ⟨o, f1, f2, f3⟩ := hfl _ q6
          rw [q4, hfind, f1, Option.bind_some, Option.bind_some, Option.bind_some, Option.bind_some, h.withNet, r1.withNet]
          show some _ = some _
          rw [← addEdge_reveal e.2.2 hnom hgo.2.1 (.inl ⟨rfl, f2, f3⟩)]
          rfl
        · obtain ⟨o, f1, f2, f3⟩ := hfl _ q6
          rw [q4, hfind, f1, Option.bind_some, Option.bind_some, Option.bind_some, Option.bind_some, h.withNet, r1.withNet]
          show some _ = some _
          rw [← addEdge_reveal e.2.2 hnom hgo.2.1 (.inr ⟨rfl, f2, f3⟩)]
          rfl
      · obtain ⟨c', q1, q2, q3⟩ := hstep pre e suf hl c1 hc1 (by
          rw [hv1]
          have : (c.v.net.readd d m pre).has = fun x => c.v.net.has x || decide (x = m) := by
            funext x
            show (c.v.net.has x || (decide (x = m) && !pre.isEmpty)) = _
            rw [show pre.isEmpty = false by simpa using hp]; simp
          rw [← this]
          rfl)
        exact ⟨c', q1, .inr ⟨by simp, q2, q3⟩⟩) c (.inl ⟨rfl, rfl⟩)
    obtain ⟨-, h1, h2⟩ := p2.resolve_left (fun q => hne q.1)
    obtain ⟨h3, h4⟩ := h1.noMoved
    refine ⟨_, Q.toRef ++ [g.obj], ?_, h3, h4.trans h2⟩
    rw [e2, Option.bind_some, h1.withNet]; rfl

end Repast.Network
