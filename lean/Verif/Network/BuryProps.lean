import Verif.Network.BuryRemove

/-!
C25, C26 and C43 for contexts with one network, on any number of ranks, in histories in which agents are removed. The histories are those of `LegalRunRm` (BurySpec.lean): those of
`LegalRun` with removals of agents that have no pending edges to other ranks.
-/
namespace Repast.Network
open Repast.Dict Repast.Context

variable {S A : Type} {d : Bool} {n : Nat} {X : Sp S A × (Nat → Bool)}

/-- The ranks have what the specification says, and what is left of removed agents. -/
structure Bury (d : Bool) (n : Nat) (X : Sp S A × (Nat → Bool)) (w b : World S A) (P : Nat → Corpse S) : Prop where
  inv : SInv NoHid d n X.1
  sim : Sim d still n b X.1
  rel : ∀ r < n, Rel X.2 (P r) (w r) (b r)
  due : Due n X.2 P

theorem Bury.step {w b : World S A} {P : Nat → Corpse S} (h : Bury d n X w b P) (hn : 0 < n) {op : WOp S A} (hl : LegalRm d n X op) :
    ∃ w' b' P', wstep n w op = some w' ∧ Bury d n (bstep d n X op) w' b' P' ∧ (op = .synch true → ∀ r < n, (P' r).Bare) := by
  by_cases hop : ∃ r u, op = .remove r u
  · obtain ⟨r, u, rfl⟩ := hop
    obtain ⟨hr, hu, hi⟩ := hl
    obtain ⟨b', w', P', h1, h2, h3, h4⟩ := remove_lift h.inv hr hu hi h.sim h.due h.rel
    exact ⟨w', b', P', h1, ⟨h.inv.bury hi, h2, h3, h4⟩, fun e => by cases e⟩
  · have hop : ∀ r u, op ≠ .remove r u := fun r u e => hop ⟨r, u, e⟩
    have hm : Mourn X.2 op := by
      cases op <;> first | trivial | exact hl.2
    obtain ⟨b', w', P', h1, h2, h3, h4, h5, -⟩ := step_lift h.inv hn (Legal.of hl hop) hm h.sim h.due h.rel
    refine ⟨w', b', P', h1, ?_, h5⟩
    rw [bstep_of hop]
    exact ⟨h.inv.step (Legal.of hl hop), h2, h3, h4⟩

theorem Bury.run (hn : 0 < n) (ops : List (WOp S A)) : ∀ {X : Sp S A × (Nat → Bool)} {w b : World S A} {P : Nat → Corpse S}, Bury d n X w b P → LegalRunRm d n X ops →
    ∃ w' b' P', wrun n w ops = some w' ∧ Bury d n (ops.foldl (bstep d n) X) w' b' P' := by
  induction ops with
  | nil => intro X w b P h _; exact ⟨w, b, P, rfl, h⟩
  | cons op ops ih =>
    intro X w b P h hl
    obtain ⟨w1, b1, P1, e1, h1, -⟩ := h.step hn hl.1
    obtain ⟨w2, b2, P2, e2, h2⟩ := ih h1 hl.2
    refine ⟨w2, b2, P2, ?_, h2⟩
    unfold wrun at *
    rw [List.foldlM_cons, e1]
    exact e2

/-- Nothing was removed. -/
abbrev alive : Nat → Bool := fun _ => false

theorem Bury.init (d : Bool) (n : Nat) : Bury d n (Sp.init, alive) (World.init [d] : World S A) (World.init [d]) (fun r => ((World.init [d] : World S A) r).dead alive) where
  inv := SInv.init d n
  sim := init_sim d n
  rel := fun r _ => Rel.init rfl (by intro u o s h; cases h) (by intro u g h; cases h)
  due := Due.bare fun r _ => dead_bare rfl

theorem LegalRunRm.append {X : Sp S A × (Nat → Bool)} {ops ops' : List (WOp S A)} : LegalRunRm d n X (ops ++ ops') ↔ LegalRunRm d n X ops ∧ LegalRunRm d n (ops.foldl (bstep d n) X) ops' := by
  induction ops generalizing X with
  | nil => simp [LegalRunRm]
  | cons o ops ih => simp only [List.cons_append, LegalRunRm, ih, List.foldl_cons, and_assoc]

/-! ### What is observed -/

theorem Bury.agent {w b : World S A} {P : Nat → Corpse S} (h : Bury d n X w b P) {r : Nat} (hr : r < n) (u : Nat) : (w r).agent u = (X.1 r).loc u := by
  rw [← h.sim.agent hr]
  unfold Cx.agent
  rw [(h.rel r hr).locals]

theorem Bury.has_live {w b : World S A} {P : Nat → Corpse S} (h : Bury d n X w b P) {r : Nat} (hr : r < n) {u : Nat} (hu : (X.1 r).net.has u = true) : X.2 u = false := by
  rw [← (h.sim r hr).2] at hu
  have hu : ((b r).net.node u).isSome = true := hu
  obtain ⟨o, ho⟩ := Option.isSome_iff_exists.1 hu
  obtain ⟨h1, h2⟩ := (node_iff (h.sim r hr).1.net.uniq u o).1 ho
  rw [← h2]
  exact (h.rel r hr).node (by rw [(h.sim r hr).1.nets]; simp) h1

theorem Bury.loc_live {w b : World S A} {P : Nat → Corpse S} (h : Bury d n X w b P) {r : Nat} (hr : r < n) {u : Nat} (hu : ((X.1 r).loc u).isSome = true) : X.2 u = false := by
  rw [← h.agent hr] at hu
  obtain ⟨s, hs⟩ := Option.isSome_iff_exists.1 hu
  obtain ⟨o, ho, -⟩ := Option.map_eq_some_iff.1 hs
  exact (h.rel r hr).live ho

theorem Rel.find_eq {D : Nat → Bool} {P : Corpse S} {c b : Cx S A} (h : Rel D P c b) {u : Nat} (hu : D u = false) : c.find u = b.find u := by
  unfold Cx.find
  rw [h.locals, h.ghost_eq hu]

/-- The edges between agents that were not removed. -/
theorem Bury.edge {w b : World S A} {P : Nat → Corpse S} (h : Bury d n X w b P) {r : Nat} (hr : r < n) {u v : Nat} (hu : X.2 u = false) (hv : X.2 v = false) :
    (w r).edgeAttr 0 u v = (X.1 r).net.edge u v := by
  rw [← h.sim.edge hr]
  have hR := h.rel r hr
  have hC := (h.sim r hr).1
  unfold Cx.edgeAttr
  rw [hR.find_eq hu, hR.find_eq hv]
  have hlen : (w r).nets.length = 1 := by rw [← hR.length, hC.nets]; rfl
  obtain ⟨N, hN⟩ := List.length_eq_one_iff.1 hlen
  have h1 : (w r).nets[0]? = some N := by rw [hN]; rfl
  have h2 : (b r).nets[0]? = some (N.clean X.2) := by rw [hC.nets, hR.netEq hN]; rfl
  rw [h1, h2]
  cases hx : (b r).find u with
  | none => rfl
  | some x =>
    cases hy : (b r).find v with
    | none => rfl
    | some y =>
      show N.g.attr x y = (N.g.clean X.2).attr x y
      unfold Graph.attr
      rw [clean_slot _ (hR.find hx).2 (hR.find hy).2]
      rfl

theorem Bury.ghost {w b : World S A} {P : Nat → Corpse S} (h : Bury d n X w b P) {r : Nat} (hr : r < n) {u : Nat} (hu : X.2 u = false) : (w r).ghostAgent u = ((X.1 r).gho u).map (·.1) := by
  rw [← h.sim.ghost hr]
  unfold Cx.ghostAgent
  rw [(h.rel r hr).ghost_eq hu]

/-- Nothing is left of removed agents: there is no ghost, and no node and no edge. -/
theorem Bury.gone {w b : World S A} {P : Nat → Corpse S} (h : Bury d n X w b P) (hP : ∀ r < n, (P r).Bare) {r : Nat} (hr : r < n) {u : Nat} (hu : X.2 u = true) :
    (w r).agent u = none ∧ (w r).ghostAgent u = none ∧ u ∉ (w r).nodeIds 0 ∧ ∀ v, (w r).edgeAttr 0 u v = none ∧ (w r).edgeAttr 0 v u = none := by
  have hR := h.rel r hr
  have hg : get (w r).ghosts u = none := by
    cases hg : get (w r).ghosts u with
    | none => rfl
    | some g =>
      have := (hR.ghosts u g).2 ⟨hu, hg⟩
      rw [(hP r hr).ghosts] at this; cases this
  have hf : (w r).find u = none := by
    unfold Cx.find
    rw [hR.loc u hu, hg]; rfl
  refine ⟨?_, ?_, ?_, ?_⟩
  · unfold Cx.agent; rw [hR.loc u hu]; rfl
  · unfold Cx.ghostAgent; rw [hg]; rfl
  · unfold Cx.nodeIds
    cases hN : (w r).nets[0]? with
    | none => simp
    | some N =>
      intro hm
      obtain ⟨o, ho, e⟩ := List.mem_map.1 hm
      have := hR.pure (hP r hr) hN
      have h1 : o ∈ (N.g.dead X.2).1 := mem_dead.2 ⟨ho, by rw [e]; exact hu⟩
      rw [this] at h1; cases h1
  · intro v
    unfold Cx.edgeAttr
    rw [hf]
    constructor
    · cases (w r).nets[0]? <;> rfl
    · cases (w r).nets[0]? <;> cases (w r).find v <;> rfl

/-- After `synchronize` the ranks have exactly what the specification says. -/
theorem Bury.edge_bare {w b : World S A} {P : Nat → Corpse S} (h : Bury d n X w b P) (hP : ∀ r < n, (P r).Bare) {r : Nat} (hr : r < n) (u v : Nat) : (w r).edgeAttr 0 u v = (X.1 r).net.edge u v := by
  by_cases hu : X.2 u = true
  · rw [((h.gone hP hr hu).2.2.2 v).1]
    cases he : (X.1 r).net.edge u v with
    | none => rfl
    | some a =>
      have := h.has_live hr ((h.inv.one r hr).ends u v (by rw [he]; rfl)).1
      rw [hu] at this; cases this
  · by_cases hv : X.2 v = true
    · rw [((h.gone hP hr hv).2.2.2 u).2]
      cases he : (X.1 r).net.edge u v with
      | none => rfl
      | some a =>
        have := h.has_live hr ((h.inv.one r hr).ends u v (by rw [he]; rfl)).2.1
        rw [hv] at this; cases this
    · exact h.edge hr (by simpa using hu) (by simpa using hv)

theorem Bury.ghost_bare {w b : World S A} {P : Nat → Corpse S} (h : Bury d n X w b P) (hP : ∀ r < n, (P r).Bare) {r : Nat} (hr : r < n) (u : Nat) : (w r).ghostAgent u = ((X.1 r).gho u).map (·.1) := by
  by_cases hu : X.2 u = true
  · rw [(h.gone hP hr hu).2.1]
    cases he : (X.1 r).gho u with
    | none => rfl
    | some a =>
      obtain ⟨h1, -, h2⟩ := h.inv.gho r hr u a.1 a.2 he
      have := h.loc_live h1 h2
      rw [hu] at this; cases this
  · exact h.ghost hr (by simpa using hu)

/-! ### The properties -/

theorem wrun_snoc {w w0 w1 : World S A} {ops : List (WOp S A)} {op : WOp S A} (h : wrun n w ops = some w0) (h1 : wstep n w0 op = some w1) : wrun n w (ops ++ [op]) = some w1 := by
  rw [wrun_append, h, Option.bind_some]
  show (wstep n w0 _ >>= fun w => some w) = _
  rw [h1]; rfl

theorem wrun_snoc2 {w w0 w1 w2 : World S A} {ops : List (WOp S A)} {op op' : WOp S A} (h : wrun n w ops = some w0) (h1 : wstep n w0 op = some w1) (h2 : wstep n w1 op' = some w2) :
    wrun n w (ops ++ [op, op']) = some w2 := by
  rw [wrun_append, h, Option.bind_some]
  show (wstep n w0 _ >>= fun w => wrun n w [_]) = _
  rw [h1]
  show (wstep n w1 _ >>= fun w => some w) = _
  rw [h2]; rfl

/-- An agent that was removed stays removed. -/
theorem removed_mem (ops : List (WOp S A)) : ∀ (X : Sp S A × (Nat → Bool)) (u : Nat), X.2 u = true ∨ (∃ r, WOp.remove r u ∈ ops) → (ops.foldl (bstep d n) X).2 u = true := by
  induction ops with
  | nil =>
    rintro X u (h | ⟨r, h⟩)
    · exact h
    · cases h
  | cons op ops ih =>
    intro X u h
    refine ih _ u ?_
    rcases h with h | ⟨r, h⟩
    · left
      cases op with
      | remove r x => show (X.2 u || _) = true; rw [h]; rfl
      | _ => exact h
    · rcases List.mem_cons.1 h with h | h
      · left; subst h; show (X.2 u || decide (u = u)) = true; simp
      · exact .inr ⟨r, h⟩

/-- **C26.** In a history that is covered nothing is raised, and after `synchronize` no rank has a removed agent, a ghost of it, its node in the network or an edge of it. -/
theorem C26_network_partial (d : Bool) {n : Nat} (hn : 0 < n) (ops : List (WOp S A)) (hl : LegalRunRm d n (Sp.init, alive) (ops ++ [.synch true])) :
    ∃ w, wrun n (World.init [d]) (ops ++ [.synch true]) = some w ∧
      ∀ r u, .remove r u ∈ ops → ∀ k < n, (w k).agent u = none ∧ (w k).ghostAgent u = none ∧ u ∉ (w k).nodeIds 0 ∧ ∀ v, (w k).edgeAttr 0 u v = none ∧ (w k).edgeAttr 0 v u = none := by
  obtain ⟨hl0, hls, -⟩ := LegalRunRm.append.1 hl
  obtain ⟨w0, b0, P0, e0, h0⟩ := (Bury.init d n).run hn ops hl0
  obtain ⟨w1, b1, P1, e1, h1, hP⟩ := h0.step hn hls
  refine ⟨w1, wrun_snoc e0 e1, ?_⟩
  intro r u hm k hk
  exact h1.gone (hP rfl) hk (removed_mem ops (Sp.init, alive) u (.inr ⟨r, hm⟩))

/-- Only what is removed counts as removed. -/
theorem removed_of (ops : List (WOp S A)) : ∀ (X : Sp S A × (Nat → Bool)) (u : Nat), X.2 u = false → (∀ r, WOp.remove r u ∉ ops) → (ops.foldl (bstep d n) X).2 u = false := by
  induction ops with
  | nil => intro X u h _; exact h
  | cons op ops ih =>
    intro X u h hm
    refine ih _ u ?_ fun r hr => hm r (List.mem_cons_of_mem _ hr)
    cases op with
    | remove r x =>
      have hx : u ≠ x := fun e => hm r (by rw [e]; exact List.mem_cons_self)
      show (X.2 u || decide (u = x)) = false
      simp [h, hx]
    | _ => exact h

/-- **C26.** The removal of an agent is no concern of the others: on each rank the other agents, their ghosts and the edges between them are what they were. The removed agent is at once no agent
of any rank; its ghosts stay until `synchronize`. -/
theorem C26_network_others_partial (d : Bool) {n : Nat} (hn : 0 < n) (ops : List (WOp S A)) (r u : Nat) (hl : LegalRunRm d n (Sp.init, alive) (ops ++ [.remove r u])) :
    ∃ w0 w, wrun n (World.init [d]) ops = some w0 ∧ wrun n (World.init [d]) (ops ++ [.remove r u]) = some w ∧ ((w0 r).agent u).isSome = true ∧
      (∀ k < n, (w k).agent u = none) ∧
      (∀ k < n, ∀ x, x ≠ u → (w k).agent x = (w0 k).agent x) ∧
      ∀ k < n, ∀ x, x ≠ u → (∀ j, .remove j x ∉ ops) → (w k).ghostAgent x = (w0 k).ghostAgent x ∧
        ∀ y, y ≠ u → (∀ j, .remove j y ∉ ops) → (w k).edgeAttr 0 x y = (w0 k).edgeAttr 0 x y := by
  obtain ⟨hl0, hls, -⟩ := LegalRunRm.append.1 hl
  obtain ⟨w0, b0, P0, e0, h0⟩ := (Bury.init d n).run hn ops hl0
  obtain ⟨w1, b1, P1, e1, h1, -⟩ := h0.step hn hls
  have live : ∀ x, x ≠ u → (∀ j, .remove j x ∉ ops) → (ops.foldl (bstep d n) ((Sp.init, alive) : Sp S A × (Nat → Bool))).2 x = false ∧
      (bstep d n (ops.foldl (bstep d n) ((Sp.init, alive) : Sp S A × (Nat → Bool))) (.remove r u)).2 x = false := by
    intro x hx hm
    have h := removed_of (d := d) (n := n) ops ((Sp.init, alive) : Sp S A × (Nat → Bool)) x rfl hm
    refine ⟨h, ?_⟩
    show (_ || decide (x = u)) = false
    simp only [h, hx, decide_false, Bool.or_false]
  refine ⟨w0, w1, e0, wrun_snoc e0 e1, ?_, ?_, ?_, ?_⟩
  · rw [h0.agent hls.1]; exact hls.2.1
  · intro k hk
    rw [h1.agent hk]
    exact if_pos rfl
  · intro k hk x hx
    rw [h1.agent hk, h0.agent hk]
    exact if_neg hx
  · intro k hk x hx hm
    obtain ⟨l1, l2⟩ := live x hx hm
    refine ⟨?_, ?_⟩
    · rw [h1.ghost hk l2, h0.ghost hk l1]
      exact congrArg (Option.map fun g : S × Nat => g.1) (if_neg hx)
    · intro y hy hmy
      obtain ⟨m1, m2⟩ := live y hy hmy
      rw [h1.edge hk l2 m2, h0.edge hk l1 m1]
      exact if_neg (by rintro (h | h); exact hx h; exact hy h)

/-- **C25.** After `synchronize` each ghost has the state of the agent that it stands for; in particular there is such an agent, on exactly one rank: also if agents are removed. -/
theorem C25_network_removals_partial (d : Bool) {n : Nat} (hn : 0 < n) (ops : List (WOp S A)) (hl : LegalRunRm d n (Sp.init, alive) (ops ++ [.synch true])) :
    ∃ w, wrun n (World.init [d]) (ops ++ [.synch true]) = some w ∧
      ∀ k < n, ∀ u s, (w k).ghostAgent u = some s → ∃ r < n, r ≠ k ∧ (w r).agent u = some s ∧ ∀ r' < n, ((w r').agent u).isSome = true → r' = r := by
  obtain ⟨hl0, hls, -⟩ := LegalRunRm.append.1 hl
  obtain ⟨w0, b0, P0, e0, h0⟩ := (Bury.init d n).run hn ops hl0
  obtain ⟨w1, b1, P1, e1, h1, hP⟩ := h0.step hn hls
  refine ⟨w1, wrun_snoc e0 e1, ?_⟩
  intro k hk u s hg
  rw [h1.ghost_bare (hP rfl) hk] at hg
  obtain ⟨⟨s', r⟩, hg1, rfl⟩ := Option.map_eq_some_iff.1 hg
  obtain ⟨a, b, c⟩ := h1.inv.gho k hk u s' r hg1
  refine ⟨r, a, b, ?_, ?_⟩
  · rw [h1.agent a]
    exact h0.inv.synch_ghost hk hg1
  · intro r' hr' hh
    rw [h1.agent hr'] at hh
    exact h1.inv.own r' hr' r a u hh c

/-- **C43.** Two ranks that own the two ends of an edge agree about it after `synchronize`, also if agents are removed. -/
theorem C43_agree_removals_partial (d : Bool) {n : Nat} (hn : 0 < n) (ops : List (WOp S A)) (hl : LegalRunRm d n (Sp.init, alive) (ops ++ [.synch true])) :
    ∃ w, wrun n (World.init [d]) (ops ++ [.synch true]) = some w ∧
      ∀ r < n, ∀ k < n, ∀ u v, ((w r).agent u).isSome = true → ((w k).agent v).isSome = true →
        (w r).edgeAttr 0 u v = (w k).edgeAttr 0 u v ∧ (w r).edgeAttr 0 v u = (w k).edgeAttr 0 v u := by
  obtain ⟨hl0, hls, -⟩ := LegalRunRm.append.1 hl
  obtain ⟨w0, b0, P0, e0, h0⟩ := (Bury.init d n).run hn ops hl0
  obtain ⟨w1, b1, P1, e1, h1, hP⟩ := h0.step hn hls
  refine ⟨w1, wrun_snoc e0 e1, ?_⟩
  intro r hr k hk u v hu hv
  rw [h1.agent hr] at hu
  rw [h1.agent hk] at hv
  rw [h1.edge_bare (hP rfl) hr, h1.edge_bare (hP rfl) hr, h1.edge_bare (hP rfl) hk, h1.edge_bare (hP rfl) hk]
  by_cases hne : r = k
  · rw [hne]; exact ⟨rfl, rfl⟩
  · have c := fun j x y => synch_clean (d := d) (n := n) (V := (ops.foldl (bstep d n) ((Sp.init, alive) : Sp S A × (Nat → Bool))).1) j x y
    have h2 := h1.inv.two r hr k hk hne
    exact ⟨h2.agree u v (.inl ⟨hu, hv⟩) (c _ _ _).1 (c _ _ _).1 (c _ _ _).2 (c _ _ _).2, h2.agree v u (.inr ⟨hu, hv⟩) (c _ _ _).1 (c _ _ _).1 (c _ _ _).2 (c _ _ _).2⟩

/-- **C43.** An edge that is added is there after `synchronize` on the ranks that own its ends, also if agents were removed. -/
theorem C43_added_removals_partial (d : Bool) {n : Nat} (hn : 0 < n) (ops : List (WOp S A)) (r u v : Nat) (a : Attr A) (hl : LegalRunRm d n (Sp.init, alive) (ops ++ [.addEdge r 0 u v a, .synch true])) :
    ∃ w0 w, wrun n (World.init [d]) ops = some w0 ∧ wrun n (World.init [d]) (ops ++ [.addEdge r 0 u v a, .synch true]) = some w ∧
      ∀ k < n, ((w k).agent u).isSome = true ∨ ((w k).agent v).isSome = true → (w k).edgeAttr 0 u v = some (merge (((w0 r).edgeAttr 0 u v).getD []) a) := by
  obtain ⟨hl0, hla, hls, -⟩ := LegalRunRm.append.1 hl
  obtain ⟨w0, b0, P0, e0, h0⟩ := (Bury.init d n).run hn ops hl0
  obtain ⟨w1, b1, P1, e1, h1, -⟩ := h0.step hn hla
  obtain ⟨w2, b2, P2, e2, h2, hP⟩ := h1.step hn hls
  refine ⟨w0, w2, e0, wrun_snoc2 e0 e1 e2, ?_⟩
  intro k hk hown
  rw [h2.agent hk, h2.agent hk] at hown
  have hla' : Legal d n _ (.addEdge r 0 u v a) := hla
  rw [h2.edge_bare (hP rfl) hk, h0.edge hla'.1 (h0.has_live hla'.1 hla'.2.2.1) (h0.has_live hla'.1 hla'.2.2.2.1)]
  exact h0.inv.added_edge hla hls hk hown

/-- **C43.** The attributes that are given to `update_edge` are there after `synchronize` on the ranks that own the ends, also if agents were removed. -/
theorem C43_updated_removals_partial (d : Bool) {n : Nat} (hn : 0 < n) (ops : List (WOp S A)) (r u v : Nat) (a : Attr A) (hl : LegalRunRm d n (Sp.init, alive) (ops ++ [.updateEdge r 0 u v a, .synch true])) :
    ∃ w0 w b, wrun n (World.init [d]) ops = some w0 ∧ (w0 r).edgeAttr 0 u v = some b ∧ wrun n (World.init [d]) (ops ++ [.updateEdge r 0 u v a, .synch true]) = some w ∧
      ∀ k < n, ((w k).agent u).isSome = true ∨ ((w k).agent v).isSome = true → (w k).edgeAttr 0 u v = some (merge b a) := by
  obtain ⟨hl0, hla, hls, -⟩ := LegalRunRm.append.1 hl
  obtain ⟨w0, b0, P0, e0, h0⟩ := (Bury.init d n).run hn ops hl0
  obtain ⟨w1, b1, P1, e1, h1, -⟩ := h0.step hn hla
  obtain ⟨w2, b2, P2, e2, h2, hP⟩ := h1.step hn hls
  have hla' : Legal d n _ (.updateEdge r 0 u v a) := hla
  obtain ⟨hr, -, hedge, -⟩ := hla'
  obtain ⟨b, hb⟩ := Option.isSome_iff_exists.1 hedge
  obtain ⟨hu, hv, -⟩ := (h0.inv.one r hr).ends u v hedge
  refine ⟨w0, w2, b, e0, ?_, wrun_snoc2 e0 e1 e2, ?_⟩
  · rw [h0.edge hr (h0.has_live hr hu) (h0.has_live hr hv)]; exact hb
  intro k hk hown
  rw [h2.agent hk, h2.agent hk] at hown
  rw [h2.edge_bare (hP rfl) hk]
  exact h0.inv.updated_edge hla hls hk hown hb

/-- **C43.** An edge that is removed is on no rank after `synchronize`, also if agents were removed. -/
theorem C43_removed_removals_partial (d : Bool) {n : Nat} (hn : 0 < n) (ops : List (WOp S A)) (r u v : Nat) (hl : LegalRunRm d n (Sp.init, alive) (ops ++ [.removeEdge r 0 u v, .synch true])) :
    ∃ w, wrun n (World.init [d]) (ops ++ [.removeEdge r 0 u v, .synch true]) = some w ∧ ∀ k < n, (w k).edgeAttr 0 u v = none := by
  obtain ⟨hl0, hla, hls, -⟩ := LegalRunRm.append.1 hl
  obtain ⟨w0, b0, P0, e0, h0⟩ := (Bury.init d n).run hn ops hl0
  obtain ⟨w1, b1, P1, e1, h1, -⟩ := h0.step hn hla
  obtain ⟨w2, b2, P2, e2, h2, hP⟩ := h1.step hn hls
  refine ⟨w2, wrun_snoc2 e0 e1 e2, ?_⟩
  intro k hk
  rw [h2.edge_bare (hP rfl) hk]
  exact h0.inv.removed_edge hla hls hk

/-- **C43.** The other edges of a rank are what they were before `synchronize`: those between agents that were not removed, if nothing is pending. -/
theorem C43_kept_removals_partial (d : Bool) {n : Nat} (hn : 0 < n) (ops : List (WOp S A)) (r u : Nat) (hl : LegalRunRm d n (Sp.init, alive) (ops ++ [.synch true] ++ [.remove r u, .synch true])) :
    ∃ w0 w, wrun n (World.init [d]) (ops ++ [.synch true]) = some w0 ∧ wrun n (World.init [d]) (ops ++ [.synch true] ++ [.remove r u, .synch true]) = some w ∧
      ∀ k < n, ∀ x y, x ≠ u → y ≠ u → (w k).edgeAttr 0 x y = (w0 k).edgeAttr 0 x y := by
  obtain ⟨hl0', hla, hls, -⟩ := LegalRunRm.append.1 hl
  obtain ⟨hl0, hl1, -⟩ := LegalRunRm.append.1 hl0'
  obtain ⟨w0, b0, P0, e0, h0⟩ := (Bury.init d n).run hn ops hl0
  obtain ⟨w1, b1, P1, e1, h1, hP1⟩ := h0.step hn hl1
  rw [List.foldl_append] at hla hls
  simp only [List.foldl_cons, List.foldl_nil] at hla hls
  obtain ⟨w2, b2, P2, e2, h2, -⟩ := h1.step hn hla
  obtain ⟨w3, b3, P3, e3, h3, hP3⟩ := h2.step hn hls
  refine ⟨w1, w3, wrun_snoc e0 e1, wrun_snoc2 (wrun_snoc e0 e1) e2 e3, ?_⟩
  intro k hk x y hx hy
  rw [h3.edge_bare (hP3 rfl) hk, h1.edge_bare (hP1 rfl) hk]
  refine (h2.inv.kept_edge hls (fun j x y => ?_) hk x y).trans (bury_live_edge hx hy)
  exact synch_clean (d := d) (n := n) (V := (ops.foldl (bstep d n) ((Sp.init, alive) : Sp S A × (Nat → Bool))).1) j x y

/-- **C43.** After `synchronize` the ends of each edge of a rank are on the rank, as agents or as ghosts, one of them as agent: also if agents are removed. -/
theorem C43_ends_removals_partial (d : Bool) {n : Nat} (hn : 0 < n) (ops : List (WOp S A)) (hl : LegalRunRm d n (Sp.init, alive) (ops ++ [.synch true])) :
    ∃ w, wrun n (World.init [d]) (ops ++ [.synch true]) = some w ∧ ∀ k < n, ∀ u v, ((w k).edgeAttr 0 u v).isSome = true →
      (∀ x, x = u ∨ x = v → ((w k).agent x).isSome = true ∨ ((w k).ghostAgent x).isSome = true) ∧ (((w k).agent u).isSome = true ∨ ((w k).agent v).isSome = true) := by
  obtain ⟨hl0, hls, -⟩ := LegalRunRm.append.1 hl
  obtain ⟨w0, b0, P0, e0, h0⟩ := (Bury.init d n).run hn ops hl0
  obtain ⟨w1, b1, P1, e1, h1, hP⟩ := h0.step hn hls
  refine ⟨w1, wrun_snoc e0 e1, ?_⟩
  intro k hk u v he
  rw [h1.edge_bare (hP rfl) hk] at he
  obtain ⟨c1, c2, c3⟩ := (h1.inv.one k hk).ends u v he
  refine ⟨?_, by rw [h1.agent hk, h1.agent hk]; exact c3⟩
  intro x hx
  have hh : ((bstep d n (ops.foldl (bstep d n) (Sp.init, alive)) (.synch true)).1 k).net.has x = true := by rcases hx with rfl | rfl <;> assumption
  rw [(h1.inv.one k hk).has, Bool.and_eq_true, Bool.or_eq_true] at hh
  rw [h1.agent hk, h1.ghost_bare (hP rfl) hk, Option.isSome_map]
  exact hh.1

/-- The histories without removals are among those that are covered here. -/
theorem LegalRun.rm (ops : List (WOp S A)) : ∀ {V : Sp S A}, LegalRun d n V ops → LegalRunRm d n (V, alive) ops := by
  induction ops with
  | nil => intros; trivial
  | cons op ops ih =>
    intro V h
    have hop : ∀ r u, op ≠ .remove r u := by rintro r u rfl; exact h.1
    refine ⟨?_, by rw [bstep_of hop]; exact ih h.2⟩
    cases op <;> first | exact h.1 | exact ⟨h.1, rfl⟩ | exact ⟨h.1, fun _ => rfl⟩ | exact absurd rfl (hop _ _)

end Repast.Network
