import Verif.Mixed.Roam
import Verif.Mixed.Props
import Verif.Network.NetMoveExample

/-
C69 for contexts with a shared space without a buffer and one network, on any number of ranks: histories of additions, state changes, moves, edges, requests and synchronizations in which agents
leave their ranks one at a time, with `synchronize` in between.

With buffers C69 is violated (`Verif/Mixed/Violations`).
-/
namespace Repast.Mixed
open Repast.Dict Repast.Context Repast.Network Repast.Space Repast.Topology Repast.Tree

variable {S A : Type}

/-! ### Grids -/

/-- **C69.** In a context with a shared grid without a buffer and a network: an agent with edges moves over the border, and `synchronize` does not raise; the agent is then on its new rank with its
state and its location, and its edges, with their attributes, are on each rank that owns one of the ends. The history before may be any in which agents leave their ranks one at a time.
(Missing: buffers, with which this is false; several agents that leave in the same tick; several networks and spaces; removals; the histories that `Covered` excludes.) -/
theorem C69_walk_grid_partial {t : Topo} (hs : Setting t 0) (single nf d : Bool) (ds : List (Deed S A Pt)) (r k m : Nat) (pt : Pt) (hd : DeedsOk (gridGeo t single 0) nf (gridNets t single 0 [d]) (ds ++ [Deed.walk r k m pt]))
    (hl : LegalRun (gridGeo t single 0) nf [] (gridNets t single 0 [d]) ((ds ++ [Deed.walk r k m pt]).flatMap Deed.ops)) (hc : Covered d t.size ((ds ++ [Deed.walk r k m pt]).flatMap Deed.netOps)) :
    ∃ w0 w, wrun t.size nf (gridNets t single 0 [d]) (ds.flatMap Deed.ops) = some w0 ∧ wrun t.size nf (gridNets t single 0 [d]) ((ds ++ [Deed.walk r k m pt]).flatMap Deed.ops) = some w ∧
      Walked t.size w0 r k m ((gridGeo t single 0).dest pt) w :=
  walk_moves (gridKind hs single) (gridKind_readd hs single) rfl d nf ds r k m pt hd hl hc

/-- **C69, C43.** In such a history, after `synchronize` two ranks that own the two ends of an edge agree about the edge, and each ghost has the state of its agent. (Missing as for
`C69_walk_grid_partial`.) -/
theorem C69_agree_grid_partial {t : Topo} (hs : Setting t 0) (single nf d : Bool) (ds : List (Deed S A Pt)) (hd : DeedsOk (gridGeo t single 0) nf (gridNets t single 0 [d]) (ds ++ [Deed.op (.synch true)]))
    (hl : LegalRun (gridGeo t single 0) nf [] (gridNets t single 0 [d]) ((ds ++ [Deed.op (.synch true)]).flatMap Deed.ops)) (hc : Covered d t.size ((ds ++ [Deed.op (.synch true)]).flatMap Deed.netOps)) :
    ∃ w, wrun t.size nf (gridNets t single 0 [d]) ((ds ++ [Deed.op (.synch true)]).flatMap Deed.ops) = some w ∧
      (∀ r < t.size, ∀ k < t.size, ∀ u v, ((w r).agent u).isSome = true → ((w k).agent v).isSome = true →
        (w r).edgeAttr 0 u v = (w k).edgeAttr 0 u v ∧ (w r).edgeAttr 0 v u = (w k).edgeAttr 0 v u) ∧
      ∀ k < t.size, ∀ u s, (w k).ghostAgent u = some s → ∃ r < t.size, r ≠ k ∧ (w r).agent u = some s :=
  deeds_agree (gridKind hs single) (gridKind_readd hs single) rfl d nf ds hd hl hc

/-! ### Continuous spaces -/

/-- **C69**, with a shared continuous space without a buffer, as `C69_walk_grid_partial`. -/
theorem C69_walk_cspace_partial {g : CSCfg} (hs : CSetting g.topo g.buf) (h0 : g.buf = 0) (nf d : Bool) (ds : List (Deed S A CPt)) (r k m : Nat) (pt : CPt)
    (hd : DeedsOk (cspaceGeo g) nf (cspaceNets g [d]) (ds ++ [Deed.walk r k m pt])) (hl : LegalRun (cspaceGeo g) nf [] (cspaceNets g [d]) ((ds ++ [Deed.walk r k m pt]).flatMap Deed.ops))
    (hc : Covered d g.topo.size ((ds ++ [Deed.walk r k m pt]).flatMap Deed.netOps)) :
    ∃ w0 w, wrun g.topo.size nf (cspaceNets g [d]) (ds.flatMap Deed.ops) = some w0 ∧ wrun g.topo.size nf (cspaceNets g [d]) ((ds ++ [Deed.walk r k m pt]).flatMap Deed.ops) = some w ∧
      Walked g.topo.size w0 r k m ((cspaceGeo g).dest pt) w :=
  walk_moves (cspaceKind hs) (cspaceKind_readd hs) h0 d nf ds r k m pt hd hl hc

/-- **C69, C43**, with a shared continuous space without a buffer, as `C69_agree_grid_partial`. -/
theorem C69_agree_cspace_partial {g : CSCfg} (hs : CSetting g.topo g.buf) (h0 : g.buf = 0) (nf d : Bool) (ds : List (Deed S A CPt)) (hd : DeedsOk (cspaceGeo g) nf (cspaceNets g [d]) (ds ++ [Deed.op (.synch true)]))
    (hl : LegalRun (cspaceGeo g) nf [] (cspaceNets g [d]) ((ds ++ [Deed.op (.synch true)]).flatMap Deed.ops)) (hc : Covered d g.topo.size ((ds ++ [Deed.op (.synch true)]).flatMap Deed.netOps)) :
    ∃ w, wrun g.topo.size nf (cspaceNets g [d]) ((ds ++ [Deed.op (.synch true)]).flatMap Deed.ops) = some w ∧
      (∀ r < g.topo.size, ∀ k < g.topo.size, ∀ u v, ((w r).agent u).isSome = true → ((w k).agent v).isSome = true →
        (w r).edgeAttr 0 u v = (w k).edgeAttr 0 u v ∧ (w r).edgeAttr 0 v u = (w k).edgeAttr 0 v u) ∧
      ∀ k < g.topo.size, ∀ u s, (w k).ghostAgent u = some s → ∃ r < g.topo.size, r ≠ k ∧ (w r).agent u = some s :=
  deeds_agree (cspaceKind hs) (cspaceKind_readd hs) h0 d nf ds hd hl hc

/-! ### Concrete cases -/

variable {P Q : Type} [Proj P Q] {G : Geo Q}

/-- A test for `DeedOk`. -/
def deedOk (G : Geo Q) (w : World S A P) : Deed S A Q → Bool
  | .op (.gmove r pid u pt) => decide (r < G.n) && (pid == 0 && (((w r).agent u).isSome && G.inside r (G.dest pt)))
  | .op (.move _) => false
  | .op _ => true
  | .walk _ k _ pt => G.inside k (G.dest pt)
  | .carry _ _ _ => true

theorem deedOk_sound {w : World S A P} {d : Deed S A Q} (h : deedOk G w d = true) : DeedOk G w d := by
  cases d with
  | walk r k m pt => exact h
  | carry r k m => trivial
  | op o =>
    cases o with
    | gmove r pid u pt =>
      simp only [deedOk, Bool.and_eq_true, decide_eq_true_eq, beq_iff_eq] at h
      exact h
    | move ms => simp [deedOk] at h
    | _ => trivial

/-- A test for `DeedsOk`. -/
def deedsOk (G : Geo Q) (nf : Bool) : World S A P → List (Deed S A Q) → Bool
  | _, [] => true
  | w, d :: ds => deedOk G w d && (match wrun G.n nf w d.ops with | some w' => deedsOk G nf w' ds | none => false)

theorem deedsOk_sound {nf : Bool} : ∀ (ds : List (Deed S A Q)) (w : World S A P), deedsOk G nf w ds = true → DeedsOk G nf w ds := by
  intro ds
  induction ds with
  | nil => intro w _; trivial
  | cons d ds ih =>
    intro w h
    simp only [deedsOk, Bool.and_eq_true] at h
    refine ⟨deedOk_sound h.1, ?_⟩
    intro w' e
    rw [e] at h
    exact ih w' h.2

/-- A movement that is allowed still is after another `synchronize`. -/
theorem CanMove.synch {d : Bool} {n : Nat} {V : Sp S A} {mv : Nat → Prop} {r k m : Nat} (can : CanMove d n V mv r k m) : CanMove d n (sstep d n V (.synch true)) mv r k m := by
  have ho : ∀ i < n, (sstep d n V (.synch true) i).net.edge = (V i).net.edge ∧ (sstep d n V (.synch true) i).net.has = (V i).net.has ∧ (sstep d n V (.synch true) i).gho = (V.states i).gho :=
    fun i hi => synch_out (fun j hj => (can.clean j hj).2.2) hi (by
      intro j hj p hp
      rw [(can.clean j hj).1, (can.clean j hj).2.1] at hp
      simp at hp)
  have hl := fun i (hi : i < n) => synch_lists (d := d) (V := V) (fun j hj => (can.clean j hj).2.2) hi
  have hg : ∀ i < n, ∀ u, ((sstep d n V (.synch true) i).gho u).isSome = ((V i).gho u).isSome := by
    intro i hi u
    rw [(ho i hi).2.2, states_isSome]
  have hsyn : ∀ i < n, (sstep d n V (.synch true) i).net.syn = (V i).net.syn := by
    intro i hi
    rw [(hl i hi).2.2.2.1, (can.clean i hi).1]; rfl
  refine ⟨can.hr, can.hk, can.ne, can.loc, ?_, fun i hi => ⟨(hl i hi).1, (hl i hi).2.1, (hl i hi).2.2.1⟩, by rw [(ho r can.hr).1]; exact can.self, ?_, ?_, by rw [hsyn r can.hr]; exact can.mine, ?_⟩
  · have := hg k can.hk m
    rw [can.gho] at this
    cases hh : (sstep d n V (.synch true) k).gho m with
    | none => rfl
    | some z => rw [hh] at this; cases this
  · intro x hx hgx
    rw [(ho r can.hr).1] at hx
    rw [hg r can.hr] at hgx
    rw [(hl r can.hr).2.2.2.2]
    exact can.far x hx hgx
  · intro i hi hir x y he hm
    rw [(ho i hi).1] at he
    obtain ⟨p, hp, hs⟩ := can.wrote i hi hir x y he hm
    rw [(can.clean i hi).1] at hp
    exact ⟨p, .inr (by rw [hsyn i hi]; exact hp.resolve_left (by simp)), hs⟩
  · intro i hi hgi
    rw [hg i hi] at hgi
    rw [(ho i hi).1]
    exact can.used i hi hgi

/-- Nothing is to be synchronized after a movement. -/
theorem moved_synch {d : Bool} {n : Nat} {V V' : Sp S A} {mv : Nat → Prop} {r k m : Nat} (hM : Moved d n V r k m V') {os : List (Network.WOp S A)} {T : (Nat → Prop) → Sp S A → Prop}
    (h : Cov d n mv (sstep d n V' (.synch true)) os T) : Cov d n mv V' (.synch true :: os) T := by
  refine ⟨fun _ => ⟨?_, ?_⟩, ?_, h⟩
  · rintro j hj k hk x y ⟨p, hp, -⟩
    rw [(hM.clean j hj).1, (hM.clean j hj).2.1] at hp
    simp at hp
  · intro j hj p hp
    rw [(hM.clean j hj).2.2] at hp; cases hp
  · intro j hj p hp
    rw [(hM.clean j hj).2.2] at hp; cases hp

theorem line4_setting : Setting (line 4 0).topo 0 := by
  show Setting { nd := 1, px := 4, py := 1, pz := 1, periodic := false, box := ⟨0, 20, 0, 0, 0, 0⟩ } 0
  refine ⟨?_, ?_, ⟨by decide, by decide⟩, ?_, ?_⟩
  · constructor <;> first | decide | (constructor <;> decide)
  · constructor <;> decide
  · intro h; cases h
  · intro h; cases h

/-- The agents 1 and 2 of rank 0 and 3 of rank 2 are linked, each pair with an edge, and are on the grid. -/
def settle : List (Deed Nat Nat Pt) :=
  [.op (.add 0 1 5), .op (.add 0 2 6), .op (.add 2 3 7), .op (.gmove 0 0 1 ⟨2, 0, 0⟩), .op (.gmove 0 0 2 ⟨1, 0, 0⟩), .op (.gmove 2 0 3 ⟨11, 0, 0⟩), .op (.request (fun r => if r = 2 then [(1, 0)] else [])),
    .op (.addEdge 0 0 1 2 [(0, 3)]), .op (.addEdge 2 0 3 1 [(0, 4)]), .op (.synch true)]

/-- The agent 1 walks from rank 0 to rank 1. -/
def walk1 : Deed Nat Nat Pt := .walk 0 1 1 ⟨7, 0, 0⟩

/-- And on to rank 3. -/
def walk2 : Deed Nat Nat Pt := .walk 1 3 1 ⟨16, 0, 0⟩

/-- The agent 1 walks from rank 0 to rank 1, and on to rank 3. -/
example (nf d single : Bool) : DeedsOk (gridGeo (line 4 0).topo single 0) nf (gridNets (line 4 0).topo single 0 [d]) (settle ++ [walk1] ++ [walk2]) ∧
    LegalRun (gridGeo (line 4 0).topo single 0) nf [] (gridNets (line 4 0).topo single 0 [d]) ((settle ++ [walk1] ++ [walk2]).flatMap Deed.ops) ∧
    Covered d 4 ((settle ++ [walk1] ++ [walk2]).flatMap Deed.netOps) := by
  refine ⟨?_, ?_, ?_⟩
  · exact deedsOk_sound _ _ (by cases nf <;> cases d <;> cases single <;> decide +kernel)
  · exact (legalRun_sound _ _ _ (by cases nf <;> cases d <;> cases single <;> decide +kernel)).1
  · show Covered d 4 (chain ++ [.move (oneMove 0 1 1), .synch true, .move (oneMove 1 3 1), .synch true])
    cases d <;> exact covered_move (ids := [1, 2, 3]) (by decide +kernel) (by decide +kernel) (fun V' i1 can hM => moved_synch hM
      ⟨1, 3, 1, rfl, CanMove.synch (chain_on _ i1 can hM), fun V2 _ hM2 => moved_synch hM2 trivial⟩)

/-- What the ranks have after a history. -/
def roamed {α : Type} (nf d : Bool) (ds : List (Deed Nat Nat Pt)) (f : World Nat Nat GridSp → α) : Option α :=
  (wrun 4 nf (gridNets (line 4 0).topo false 0 [d]) (ds.flatMap Deed.ops)).map f

/-- The agent and its edges, with the other two, are on rank 3 at the end; ranks 0 and 2 have one edge each, and rank 1 none. -/
example (nf d : Bool) : roamed nf d (settle ++ [walk1] ++ [walk2]) (fun w => [(w 3).agent 1, (w 3).agent 2, (w 3).agent 3]) = some [some 5, none, none] ∧
    roamed nf d (settle ++ [walk1] ++ [walk2]) (fun w => (w 3).placed 0 1) = some (some (some (⟨16, 0, 0⟩ : Pt))) ∧
    roamed nf d (settle ++ [walk1] ++ [walk2]) (fun w => [0, 1, 2, 3].map fun r => (w r).edgeAttr 0 1 2) = some [some [(0, 3)], none, none, some [(0, 3)]] ∧
    roamed nf d (settle ++ [walk1] ++ [walk2]) (fun w => [0, 1, 2, 3].map fun r => (w r).edgeAttr 0 3 1) = some [none, none, some [(0, 4)], some [(0, 4)]] := by
  cases nf <;> cases d <;> decide +kernel

end Repast.Mixed
