import Verif.Mixed.RoamProps

/-! C24, C54: `move_agents` in a context with a shared space and networks. -/
namespace Repast.Mixed
open Repast.Dict Repast.Context Repast.Network Repast.Space Repast.Topology Repast.Tree

variable {S A P Q : Type} [Proj P Q] {G : Geo Q}

/-! ### Specification -/

/-- What `move_agents` does to the agents: `ms r` is the list that rank `r` passes, of agents and ranks, `w` are the contexts before, and `w'` those after it; `inside` tells which locations are in the bounds of a rank. -/
structure MovesDone (n : Nat) (inside : Nat → Q → Prop) (ms : Nat → List (Nat × Nat)) (w w' : World S A P) : Prop where
  /-- agents that are moved were local, are with their state on the rank to which they are moved and on no other, and have no location -/
  moved : ∀ r < n, ∀ m ∈ ms r, m.2 < n ∧ ∃ s, (w r).agent m.1 = some s ∧ (∀ i < n, (w' i).agent m.1 = if i = m.2 then some s else none) ∧
    (w' m.2).placed 0 m.1 = some (none : Option Q) ∧ ∀ i < n, ∀ q : Q, (w' i).placed 0 m.1 ≠ some (some q)
  /-- the others keep state and location, and are on the rank in whose bounds they are -/
  others : ∀ r < n, ∀ u s, (w r).agent u = some s → u ∉ (ms r).map (·.1) → ∃ l : Option Q, (w r).placed 0 u = some l ∧ ∃ r' < n, (∀ i < n, (w' i).agent u = if i = r' then some s else none) ∧
    (w' r').placed 0 u = some l ∧ (∀ q, l = some q → inside r' q) ∧ (l = none → r' = r)
  /-- there are no other agents -/
  noMore : ∀ r < n, ∀ u s, (w' r).agent u = some s → ∃ r0 < n, (w r0).agent u = some s

/-- What `move_agents` does when the agent `m` is moved from the rank `r` to the rank `k`: `w0` are the contexts before, and `w` those after it. -/
structure Carried (n : Nat) (w0 : World S A P) (r k m : Nat) (w : World S A P) : Prop where
  hr : r < n
  hk : k < n
  was : ((w0 r).agent m).isSome = true
  /-- the agent with its state is on its new rank, and on no other -/
  agent : ∀ i < n, (w i).agent m = if i = k then (w0 r).agent m else none
  /-- it is at no location -/
  nowhere : ∀ i < n, ∀ q : Q, (w i).placed 0 m ≠ some (some q)
  /-- the other agents stay where they are -/
  others : ∀ i < n, ∀ u, u ≠ m → (w i).agent u = (w0 i).agent u ∧ (((w i).agent u).isSome = true → (w i).placed 0 u = ((w0 i).placed 0 u : Option (Option Q)))
  /-- its edges, with their attributes, are on each rank that owns one of the ends -/
  edges : ∀ i < n, ∀ x, i = k ∨ ((w i).agent x).isSome = true → (w i).edgeAttr 0 m x = (w0 r).edgeAttr 0 m x ∧ (w i).edgeAttr 0 x m = (w0 r).edgeAttr 0 x m
  /-- and on no other -/
  gone : ∀ i < n, ∀ x, i ≠ k → (w i).agent x = none → (w i).edgeAttr 0 m x = none ∧ (w i).edgeAttr 0 x m = none
  /-- the other edges do not change -/
  rest : ∀ i < n, ∀ x y, x ≠ m → y ≠ m → (w i).edgeAttr 0 x y = (w0 i).edgeAttr 0 x y

/-! ### Proof -/

theorem mixed_moved {K : Kind G P} (hre : Readd K) {nf : Bool} {dirs : List Bool} {ops : List (WOp S A Q)} {ms : Nat → List (Nat × Nat)} {w w' : World S A P}
    (hl : LegalRun G nf [] (World.start [K.new] dirs : World S A P) (ops ++ [.move ms])) (e : wrun G.n nf (World.start [K.new] dirs) ops = some w) (e' : moveAgents G.n nf ms w = some w') :
    MovesDone G.n (fun r q => G.inside r q = true) ms w w' := by
  obtain ⟨us, ag, h, h0, hx⟩ := WJ.before hre ops _ _ _ _ (WJ.init K dirs) hl e
  obtain ⟨hok, h'⟩ := h.moveAgents hre h0 (fun he => h.apart (hx he)) e'
  have only : ∀ {u r s l}, (agMoved ms ag u).map (home G) = some (r, s, l) → ∀ i < G.n, (w' i).agent u = if i = r then some s else none := by
    intro u r s l hu i hi
    split
    · rename_i e; subst e
      exact (h'.agent hi u s).2 ⟨l, hu⟩
    · rename_i e
      exact (h'.no_agent hi).2 (loOf_none hu (fun e' => e e'.symm))
  refine ⟨?_, ?_, ?_⟩
  · intro r hr m hm
    obtain ⟨hk, s, l, hau⟩ := hok.loc r hr m hm
    have h1 := agMoved_moved hau (hok.nodup r hr) hm
    have h2 : (agMoved ms ag m.1).map (home G) = some (m.2, s, none) := by rw [h1]; rfl
    refine ⟨hk, s, (h.agent hr _ _).2 ⟨l, hau⟩, only h2, h'.placed h2, ?_⟩
    intro i hi q hq
    by_cases hik : i = m.2
    · subst hik
      rw [h'.placed h2] at hq
      cases hq
    · obtain ⟨g, eg, hg⟩ := (h'.j i hi).sp
      have := hg.gh _ rfl m.1 (by
        have hn : loOf (fun u => (agMoved ms ag u).map (home G)) i m.1 = none := loOf_none h2 (fun e => hik e.symm)
        simp only [hn]; rfl)
      rw [placed_one eg] at hq
      rw [hq] at this
      cases this
  · intro r hr u s hu hm
    obtain ⟨l, hau⟩ := (h.agent hr u s).1 hu
    have h2 : (agMoved ms ag u).map (home G) = some ((home G (r, s, l)).1, s, l) := by
      rw [agMoved_stays hau hm, Option.map_some]
      cases l <;> rfl
    refine ⟨l, h.placed hau, _, h'.lt u _ h2, only h2, h'.placed h2, ?_, ?_⟩
    · rintro q rfl
      exact (K.owner_spec (h.valid hau)).2.1
    · rintro rfl; rfl
  · intro r hr u s hu
    obtain ⟨l, hau'⟩ := (h'.agent hr u s).1 hu
    obtain ⟨x, h1, h2⟩ := Option.map_eq_some_iff.1 hau'
    cases hau : ag u with
    | none => rw [(agMoved_none u).2 hau] at h1; cases h1
    | some y =>
      obtain ⟨r0, s0, l0⟩ := y
      have hr0 := h.lt u _ hau
      have hs : x.2.1 = s0 := by
        by_cases hm : u ∈ (ms r0).map (·.1)
        · obtain ⟨m, hm', rfl⟩ := List.mem_map.1 hm
          rw [agMoved_moved hau (hok.nodup r0 hr0) hm'] at h1
          cases h1; rfl
        · rw [agMoved_stays hau hm] at h1
          cases h1; rfl
      have hs' : s = x.2.1 := by
        obtain ⟨a, b, c⟩ := x
        cases c <;> (simp only [home, Prod.mk.injEq] at h2; exact h2.2.1.symm)
      exact ⟨r0, hr0, (h.agent hr0 u s).2 ⟨l0, by rw [hs', hs]; exact hau⟩⟩

/-- An agent with edges that is moved with `move_agents`. -/
theorem carry_moves (K : Kind G P) (hre : Readd K) (h0 : G.buf = 0) (d nf : Bool) (ds : List (Deed S A Q)) (r k m : Nat) (hd : DeedsOk G nf (World.start [K.new] [d] : World S A P) ds)
    (hl : LegalRun G nf [] (World.start [K.new] [d] : World S A P) (ds.flatMap Deed.ops ++ [.move (oneMove r k m)])) (hc : Covered d G.n (ds.flatMap Deed.netOps ++ [.move (oneMove r k m)])) :
    ∃ w0 w, wrun G.n nf (World.start [K.new] [d] : World S A P) (ds.flatMap Deed.ops) = some w0 ∧ moveAgents G.n nf (oneMove r k m) w0 = some w ∧ Carried (Q := Q) G.n w0 r k m w := by
  obtain ⟨hl1, hl2⟩ := hl.append
  obtain ⟨w0, ag, V, mv, Qp, e0, h, hT⟩ := deeds_sim hre h0 ds [] _ _ _ _ _ _ (Between.init K d) hd hl1 (Cov.append.1 hc)
  obtain ⟨r', k', m', heq, can, -⟩ := hT
  have heq : r = r' ∧ k = k' ∧ m = m' := by
    have h1 := congrFun heq r
    simp only [oneMove, if_true] at h1
    split at h1
    · simp only [List.cons.injEq, Prod.mk.injEq, and_true] at h1
      rename_i e
      exact ⟨e, h1.2, h1.1⟩
    · cases h1
  obtain ⟨rfl, rfl, rfl⟩ := heq
  obtain ⟨w1, V1, Q1, e1, h1, i1, hM, s1, -⟩ := h.carry (nf := nf) hre h0 (hl2 w0 e0).1 can
  have hr := can.hr
  have s0 : ∀ i < G.n, ∀ u, (w0 i).agent u = (V i).loc u := fun i hi u => h.sim.agent hi u
  have s2 : ∀ i < G.n, ∀ u, (w1 i).agent u = (V1 i).loc u := fun i hi u => s1.agent hi u
  have t0 : ∀ i < G.n, ∀ x y, (w0 i).edgeAttr 0 x y = (V i).net.edge x y := fun i hi x y => h.sim.edge hi x y
  have t2 : ∀ i < G.n, ∀ x y, (w1 i).edgeAttr 0 x y = (V1 i).net.edge x y := fun i hi x y => s1.edge hi x y
  obtain ⟨ed1, ed2, ed3⟩ := hM.edges h.inv can i1
  have done := mixed_moved hre hl e0 e1
  refine ⟨w0, w1, e0, e1, hr, can.hk, by rw [s0 r hr]; exact can.loc, ?_, ?_, ?_, ?_, ?_, ?_⟩
  · intro i hi
    rw [s2 i hi, s0 r hr, hM.loc i hi, if_pos rfl]
  · intro i hi q
    exact (done.moved r hr (m, k) (by simp [oneMove])).2.choose_spec.2.2.2 i hi q
  · intro i hi u hu
    have : (w1 i).agent u = (w0 i).agent u := by rw [s2 i hi, s0 i hi, hM.loc i hi, if_neg hu]
    refine ⟨this, ?_⟩
    intro hsome
    obtain ⟨t, ht⟩ := Option.isSome_iff_exists.1 hsome
    have ht' := ht
    rw [this] at ht
    obtain ⟨l, p1, i', hi', p2, p3, -, -⟩ := done.others i hi u t ht (by
      unfold oneMove
      split
      · simpa using hu
      · simp)
    have := p2 i hi
    rw [ht'] at this
    split at this
    · rename_i e; subst e; rw [p3, p1]
    · cases this
  · intro i hi x hx'
    rw [t2 i hi, t2 i hi, t0 r hr, t0 r hr]
    rw [s2 i hi] at hx'
    exact ed1 i hi x hx'
  · intro i hi x e hx'
    rw [s2 i hi] at hx'
    rw [t2 i hi, t2 i hi]
    exact ed2 i hi x e hx'
  · intro i hi x y hx' hy
    rw [t2 i hi, t0 i hi]
    exact ed3 i hi x y hx' hy

/-! ### Theorems -/

/-- C24 and C52 for `move_agents` with a shared grid and networks, in the histories of `LegalRun`: each agent that is moved is a local agent of the rank to which it is moved, with its state, and of no other; the others
keep state and location. Moved agents have no location afterwards. (Missing: that `move_agents` does not raise; grids with buffers, with which it does, see `C54_violation_buffered`.) -/
theorem C24_grid_networks_move_partial {t : Topo} {buf : Nat} (hs : Setting t buf) (single nf : Bool) (dirs : List Bool) (ops : List (WOp S A Pt)) (ms : Nat → List (Nat × Nat))
    (hl : LegalRun (gridGeo t single buf) nf [] (gridNets t single buf dirs) (ops ++ [.move ms])) (w w' : World S A GridSp)
    (e : wrun t.size nf (gridNets t single buf dirs) ops = some w) (e' : moveAgents t.size nf ms w = some w') : MovesDone t.size (fun r q => (t.bounds r).contains q = true) ms w w' :=
  mixed_moved (gridKind_readd hs single) hl e e'

/-- C24 and C52 for `move_agents` with a shared continuous space and networks. (Missing: as in `C24_grid_networks_move_partial`.) -/
theorem C24_cspace_networks_move_partial {g : CSCfg} (hs : CSetting g.topo g.buf) (nf : Bool) (dirs : List Bool) (ops : List (WOp S A CPt)) (ms : Nat → List (Nat × Nat))
    (hl : LegalRun (cspaceGeo g) nf [] (cspaceNets g dirs) (ops ++ [.move ms])) (w w' : World S A CSpaceSp)
    (e : wrun g.topo.size nf (cspaceNets g dirs) ops = some w) (e' : moveAgents g.topo.size nf ms w = some w') : MovesDone g.topo.size (fun r q => (g.topo.bounds r).containsC q = true) ms w w' :=
  mixed_moved (cspaceKind_readd hs) hl e e'

/-- C54 in a context with a shared grid and a network: an agent that is moved with `move_agents` has all its edges, with their attributes, on each rank that owns one of the ends; it has no location afterwards, and nothing
else changes. (Missing: grids with buffers, agents that are out of bounds at the call, and the cases that `Covered` excludes; the code violates the claim there, see `Violations`.) -/
theorem C54_grid_partial {t : Topo} (hs : Setting t 0) (single nf d : Bool) (ds : List (Deed S A Pt)) (r k m : Nat) (hd : DeedsOk (gridGeo t single 0) nf (gridNets t single 0 [d]) ds)
    (hl : LegalRun (gridGeo t single 0) nf [] (gridNets t single 0 [d]) (ds.flatMap Deed.ops ++ [.move (oneMove r k m)])) (hc : Covered d t.size (ds.flatMap Deed.netOps ++ [.move (oneMove r k m)])) :
    ∃ w0 w, wrun t.size nf (gridNets t single 0 [d]) (ds.flatMap Deed.ops) = some w0 ∧ moveAgents t.size nf (oneMove r k m) w0 = some w ∧ Carried (Q := Pt) t.size w0 r k m w :=
  carry_moves _ (gridKind_readd hs single) rfl d nf ds r k m hd hl hc

/-- C54 in a context with a shared continuous space and a network. (Missing: as in `C54_grid_partial`.) -/
theorem C54_cspace_partial {g : CSCfg} (hs : CSetting g.topo g.buf) (h0 : g.buf = 0) (nf d : Bool) (ds : List (Deed S A CPt)) (r k m : Nat) (hd : DeedsOk (cspaceGeo g) nf (cspaceNets g [d]) ds)
    (hl : LegalRun (cspaceGeo g) nf [] (cspaceNets g [d]) (ds.flatMap Deed.ops ++ [.move (oneMove r k m)])) (hc : Covered d g.topo.size (ds.flatMap Deed.netOps ++ [.move (oneMove r k m)])) :
    ∃ w0 w, wrun g.topo.size nf (cspaceNets g [d]) (ds.flatMap Deed.ops) = some w0 ∧ moveAgents g.topo.size nf (oneMove r k m) w0 = some w ∧ Carried (Q := CPt) g.topo.size w0 r k m w :=
  carry_moves _ (cspaceKind_readd hs) h0 d nf ds r k m hd hl hc

/-! ### Concrete cases -/

/-- The agent 1, with an edge to each of two other agents, walks to rank 1 and is then moved to rank 3. -/
example (nf d single : Bool) : DeedsOk (gridGeo (line 4 0).topo single 0) nf (gridNets (line 4 0).topo single 0 [d]) (settle ++ [walk1]) ∧
    LegalRun (gridGeo (line 4 0).topo single 0) nf [] (gridNets (line 4 0).topo single 0 [d]) ((settle ++ [walk1]).flatMap Deed.ops ++ [.move (oneMove 1 3 1)]) ∧
    Covered d 4 ((settle ++ [walk1]).flatMap Deed.netOps ++ [.move (oneMove 1 3 1)]) := by
  refine ⟨?_, ?_, ?_⟩
  · exact deedsOk_sound _ _ (by cases nf <;> cases d <;> cases single <;> decide +kernel)
  · exact (legalRun_sound _ _ _ (by cases nf <;> cases d <;> cases single <;> decide +kernel)).1
  · show Covered d 4 (chain ++ [.move (oneMove 0 1 1), .synch true, .move (oneMove 1 3 1)])
    cases d <;> exact covered_move (ids := [1, 2, 3]) (by decide +kernel) (by decide +kernel) (fun V' i1 can hM => moved_synch hM
      ⟨1, 3, 1, rfl, CanMove.synch (chain_on _ i1 can hM), fun V2 _ hM2 => trivial⟩)

/-- The agent 1 is moved to rank 1, and then to rank 3. -/
example (nf d single : Bool) : DeedsOk (gridGeo (line 4 0).topo single 0) nf (gridNets (line 4 0).topo single 0 [d]) (settle ++ [Deed.carry 0 1 1]) ∧
    LegalRun (gridGeo (line 4 0).topo single 0) nf [] (gridNets (line 4 0).topo single 0 [d]) ((settle ++ [Deed.carry 0 1 1]).flatMap Deed.ops ++ [.move (oneMove 1 3 1)]) ∧
    Covered d 4 ((settle ++ [Deed.carry 0 1 1]).flatMap Deed.netOps ++ [.move (oneMove 1 3 1)]) := by
  refine ⟨?_, ?_, ?_⟩
  · exact deedsOk_sound _ _ (by cases nf <;> cases d <;> cases single <;> decide +kernel)
  · exact (legalRun_sound _ _ _ (by cases nf <;> cases d <;> cases single <;> decide +kernel)).1
  · show Covered d 4 (chain ++ [.move (oneMove 0 1 1), .synch true, .move (oneMove 1 3 1)])
    cases d <;> exact covered_move (ids := [1, 2, 3]) (by decide +kernel) (by decide +kernel) (fun V' i1 can hM => moved_synch hM
      ⟨1, 3, 1, rfl, CanMove.synch (chain_on _ i1 can hM), fun V2 _ hM2 => trivial⟩)

/-- A continuous space on two ranks without a buffer. -/
def plane0 : CSCfg := ⟨{ nd := 2, px := 2, py := 1, pz := 1, periodic := false, box := ⟨0, 10, 0, 10, 0, 0⟩ }, false, 0, 4⟩

theorem plane0_setting : CSetting plane0.topo plane0.buf := by
  show CSetting { nd := 2, px := 2, py := 1, pz := 1, periodic := false, box := ⟨0, 10, 0, 10, 0, 0⟩ } 0
  refine ⟨⟨?_, ?_, ⟨by decide, by decide⟩, ?_, ?_⟩, by decide⟩
  · constructor <;> first | decide | (constructor <;> decide)
  · constructor <;> decide
  · intro _; simp [GoodGrid]
  · intro _; simp [BufFits, BufFits1]

/-- The agents 1 and 2 of rank 0 are linked and are in the space. -/
def csettle : List (Deed Nat Nat CPt) :=
  [.op (.add 0 1 5), .op (.add 0 2 6), .op (.gmove 0 0 1 ⟨2, 1/2, 0⟩), .op (.gmove 0 0 2 ⟨1, 7, 0⟩), .op (.addEdge 0 0 1 2 [(0, 3)]), .op (.synch true)]

example (nf d : Bool) : DeedsOk (cspaceGeo plane0) nf (cspaceNets plane0 [d]) csettle ∧
    LegalRun (cspaceGeo plane0) nf [] (cspaceNets plane0 [d]) (csettle.flatMap Deed.ops ++ [.move (oneMove 0 1 1)]) ∧
    Covered d 2 (csettle.flatMap Deed.netOps ++ [.move (oneMove 0 1 1)]) := by
  refine ⟨?_, ?_, ?_⟩
  · exact deedsOk_sound _ _ (by cases nf <;> cases d <;> decide +kernel)
  · exact (legalRun_sound _ _ _ (by cases nf <;> cases d <;> decide +kernel)).1
  · show Covered d 2 ([.add 0 1 5, .add 0 2 6, .addEdge 0 0 1 2 [(0, 3)], .synch true] ++ [.move (oneMove 0 1 1)])
    cases d <;> exact covered_move (ids := [1, 2]) (by decide +kernel) (by decide +kernel) (fun V' i1 can hM => trivial)

/-- Two agents with several networks; both are moved, and one that is out of bounds goes home. -/
def swap : List (WOp Nat Nat Pt) :=
  [.add 0 1 5, .add 1 2 6, .add 2 3 7, .gmove 0 0 1 ⟨2, 0, 0⟩, .gmove 1 0 2 ⟨7, 0, 0⟩, .synch true, .gmove 2 0 3 ⟨1, 0, 0⟩]

/-- Rank 0 sends agent 1 to rank 1, and rank 1 sends agent 2 to rank 0. -/
def swapped : Nat → List (Nat × Nat) := fun r => if r = 0 then [(1, 1)] else if r = 1 then [(2, 0)] else []

example (nf single d d' : Bool) : LegalRun (gridGeo (line 3 0).topo single 0) nf [] (gridNets (line 3 0).topo single 0 [d, d']) (swap ++ [.move swapped]) ∧
    (wrun 3 nf (gridNets (line 3 0).topo single 0 [d, d']) (swap ++ [.move swapped])).isSome = true :=
  legalRun_sound _ _ _ (by cases nf <;> cases single <;> cases d <;> cases d' <;> decide +kernel)

/-! ### Violations -/

/-- Agent 1 of rank 0 and agent 2 of rank 2 have an edge that rank 2 made; agent 1 then leaves the bounds of rank 0. -/
def strayed : List (WOp Nat Nat Pt) :=
  [.add 0 1 5, .add 2 2 6, .gmove 0 0 1 ⟨2, 0, 0⟩, .gmove 2 0 2 ⟨12, 0, 0⟩, .request (fun r => if r = 2 then [(1, 0)] else []), .addEdge 2 0 1 2 [(0, 7)], .synch true, .gmove 0 0 1 ⟨7, 0, 0⟩]

/-- **C54 is violated**: `move_agents` raises if an agent with an edge has left the bounds of its rank, though nobody is to be moved; `synchronize` does not. It moves the agent to the rank where it is now, but does not tell
the networks of the other ranks (context.py:541-544). -/
theorem C54_violation_out_of_bounds (nf d single : Bool) : wrun 3 nf (gridNets (line 3 0).topo single 0 [d] : World Nat Nat GridSp) (strayed ++ [.move fun _ => []]) = none ∧
    ((wrun 3 nf (gridNets (line 3 0).topo single 0 [d] : World Nat Nat GridSp) (strayed ++ [.synch true])).map fun w => (w 1).edgeAttr 0 1 2) = some (some [(0, 7)]) := by
  refine ⟨Option.isNone_iff_eq_none.1 ?_, ?_⟩ <;> (cases nf <;> cases d <;> cases single <;> decide +kernel)

/-- **C54, C24 are violated**: `move_agents` raises if the agent is a ghost in the buffer of the rank to which it is moved, and has no edges there: the network looks for the edges of the ghost, which is not one of its
nodes (network.py:575-577). -/
theorem C54_violation_buffered (nf d single : Bool) :
    (wrun 2 nf (gridNets (line 2 1).topo single 1 [d] : World Nat Nat GridSp) [.add 0 1 5, .gmove 0 0 1 ⟨4, 0, 0⟩, .synch true]).isSome = true ∧
    wrun 2 nf (gridNets (line 2 1).topo single 1 [d] : World Nat Nat GridSp) [.add 0 1 5, .gmove 0 0 1 ⟨4, 0, 0⟩, .synch true, .move (oneMove 0 1 1)] = none := by
  refine ⟨?_, Option.isNone_iff_eq_none.1 ?_⟩ <;> (cases nf <;> cases d <;> cases single <;> decide +kernel)

end Repast.Mixed
