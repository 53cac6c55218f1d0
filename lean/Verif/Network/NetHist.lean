import Verif.Network.NetMoved

/-! Histories in which agents are moved. Used for C54. -/
namespace Repast.Network
open Repast.Dict Repast.Context

variable {S A : Type} {d : Bool} {n : Nat} {V : Sp S A} {Q : Nat → Pend A}

/-- A history that is covered, in which agents are moved one at a time, and after which `P` holds: `V` is what the ranks see, and `mv` are the agents that have moved. -/
def Cov (d : Bool) (n : Nat) : (Nat → Prop) → Sp S A → List (WOp S A) → ((Nat → Prop) → Sp S A → Prop) → Prop
  | mv, V, [], P => P mv V
  | mv, V, .move ms :: os, P => ∃ r k m, ms = oneMove r k m ∧ CanMove d n V mv r k m ∧ ∀ V', SInv NoHid d n V' → Moved d n V r k m V' → Cov d n (fun u => mv u ∨ u = m) V' os P
  | mv, V, o :: os, P => Legal d n V o ∧ Settled mv n V o ∧ Cov d n mv (sstep d n V o) os P

/-- A history that is covered, in which agents are moved one at a time. -/
def Covered (d : Bool) (n : Nat) (ops : List (WOp S A)) : Prop := Cov d n (fun _ => False) Sp.init ops fun _ _ => True

theorem Cov.append {mv : Nat → Prop} {ops os : List (WOp S A)} {P : (Nat → Prop) → Sp S A → Prop} :
    Cov d n mv V (ops ++ os) P ↔ Cov d n mv V ops fun mv V => Cov d n mv V os P := by
  induction ops generalizing mv V with
  | nil => exact Iff.rfl
  | cons o ops ih => cases o <;> simp only [List.cons_append, Cov, ih]

theorem Cov.cons {mv : Nat → Prop} {o : WOp S A} {os : List (WOp S A)} {P : (Nat → Prop) → Sp S A → Prop} (h : Legal d n V o) (hs : Settled mv n V o) (hc : Cov d n mv (sstep d n V o) os P) :
    Cov d n mv V (o :: os) P := by
  cases o with
  | move ms => exact h.elim
  | _ => exact ⟨h, hs, hc⟩

theorem Cov.head {mv : Nat → Prop} {o : WOp S A} {os : List (WOp S A)} {P : (Nat → Prop) → Sp S A → Prop} (ho : ∀ ms, o ≠ .move ms) (hc : Cov d n mv V (o :: os) P) :
    Legal d n V o ∧ Settled mv n V o ∧ Cov d n mv (sstep d n V o) os P := by
  cases o with
  | move ms => exact absurd rfl (ho ms)
  | _ => exact hc

/-- A history without movements. -/
theorem LegalRun.cov {ops : List (WOp S A)} {P : (Nat → Prop) → Sp S A → Prop} (h : LegalRun d n V ops) (hP : P (fun _ => False) (ops.foldl (sstep d n) V)) : Cov d n (fun _ => False) V ops P := by
  induction ops generalizing V with
  | nil => exact hP
  | cons o ops ih =>
    refine Cov.cons h.1 ?_ (ih h.2 hP)
    unfold Settled
    split
    · intro _ _ _ _ hh; exact hh
    · trivial

/-- What is pending between the operations of a history. -/
def Rest (n : Nat) (mv : Nat → Prop) (Q : Nat → Pend A) : Prop := ∀ i < n, (Q i).mv = mv ∧ (Q i).hid = (fun _ => false) ∧ (Q i).moved = [] ∧ (Q i).noLonger = []

theorem Rest.after {mv : Nat → Prop} (h : Rest n mv Q) (op : WOp S A) : Rest n mv (after Q op) := by
  intro i hi
  unfold Repast.Network.after
  split
  · exact h i hi
  · exact h i hi

/-- A history that is covered raises nothing, and does what the specification says. -/
theorem cov_sim (hn : 0 < n) (ops : List (WOp S A)) : ∀ (mv : Nat → Prop) (V : Sp S A) (w : World S A) (Q : Nat → Pend A) (P : (Nat → Prop) → Sp S A → Prop),
    SInv NoHid d n V → Rest n mv Q → Sim d Q n w V → Cov d n mv V ops P →
    ∃ w' V' mv' Q', wrun n w ops = some w' ∧ Sim d Q' n w' V' ∧ SInv NoHid d n V' ∧ Rest n mv' Q' ∧ P mv' V' := by
  induction ops with
  | nil => intro mv V w Q P hI hQ hS hP; exact ⟨w, V, mv, Q, rfl, hS, hI, hQ, hP⟩
  | cons o ops ih =>
    intro mv V w Q P hI hQ hS hc
    have key : (∀ ms, o ≠ .move ms) → ∃ w' V' mv' Q', wrun n w (o :: ops) = some w' ∧ Sim d Q' n w' V' ∧ SInv NoHid d n V' ∧ Rest n mv' Q' ∧ P mv' V' := by
      intro ho
      obtain ⟨hl, hs, hc⟩ := hc.head ho
      obtain ⟨w1, e1, s1⟩ := step_sim hI (fun r hr => (hQ r hr).2.1) hn (fun r hr => (hQ r hr).1) hl hs hS
      obtain ⟨w2, V2, mv2, Q2, e2, rest⟩ := ih mv _ w1 _ P (hI.step hl) (hQ.after o) s1 hc
      refine ⟨w2, V2, mv2, Q2, ?_, rest⟩
      unfold wrun at *
      rw [List.foldlM_cons, e1]
      exact e2
    cases o with
    | move ms =>
      obtain ⟨r, k, m, rfl, can, hc⟩ := hc
      obtain ⟨w1, V1, Q1, e1, s1, i1, m1, q1⟩ := move_sim hI hQ can hS
      obtain ⟨w2, V2, mv2, Q2, e2, rest⟩ := ih _ V1 w1 Q1 P i1 q1 s1 (hc V1 i1 m1)
      refine ⟨w2, V2, mv2, Q2, ?_, rest⟩
      unfold wrun at *
      rw [List.foldlM_cons]
      show (moveAgents n (oneMove r k m) w >>= _) = _
      rw [e1]
      exact e2
    | _ => exact key (fun _ h => nomatch h)

theorem rest_still : Rest n (fun _ => False) (still (A := A)) := fun _ _ => ⟨rfl, rfl, rfl, rfl⟩

theorem covered_sim (hn : 0 < n) (ops : List (WOp S A)) (P : (Nat → Prop) → Sp S A → Prop) (h : Cov d n (fun _ => False) Sp.init ops P) {o : Nat} :
    ∃ w V mv Q, wrun n (World.init [d] o) ops = some w ∧ Sim d Q n w V ∧ SInv NoHid d n V ∧ Rest n mv Q ∧ P mv V :=
  cov_sim hn ops _ _ _ _ P (SInv.init d n) rest_still (init_sim d n) h

/-- The edges of an agent after it has moved, and the other edges. -/
theorem Moved.edges {mv : Nat → Prop} {r k m : Nat} {V' : Sp S A} (i0 : SInv NoHid d n V) (can : CanMove d n V mv r k m) (i1 : SInv NoHid d n V') (hM : Moved d n V r k m V') :
    (∀ i < n, ∀ x, i = k ∨ ((V' i).loc x).isSome = true → (V' i).net.edge m x = (V r).net.edge m x ∧ (V' i).net.edge x m = (V r).net.edge x m) ∧
      (∀ i < n, ∀ x, i ≠ k → (V' i).loc x = none → (V' i).net.edge m x = none ∧ (V' i).net.edge x m = none) ∧
      ∀ i < n, ∀ x y, x ≠ m → y ≠ m → (V' i).net.edge x y = (V i).net.edge x y := by
  have hr := can.hr
  have hlm := can.loc
  refine ⟨?_, ?_, ?_⟩
  · intro i hi x hx
    by_cases e : i = k
    · subst e
      exact ⟨hM.edgeK _ _ (.inl rfl), hM.edgeK _ _ (.inr rfl)⟩
    · have hx := hx.resolve_left e
      rw [hM.loc i hi] at hx
      have hxm : x ≠ m := by rintro rfl; rw [if_pos rfl, if_neg e] at hx; cases hx
      rw [if_neg hxm] at hx
      by_cases er : i = r
      · subst er
        exact ⟨hM.edgeR _ _ (.inl rfl) (.inl ⟨rfl, hx⟩), hM.edgeR _ _ (.inr rfl) (.inr ⟨rfl, hx⟩)⟩
      · rw [hM.edgeI i hi er e, hM.edgeI i hi er e]
        have hnd : ∀ j < n, ∀ x y, ¬ (V j).net.Dirty d x y ∧ ¬ (V j).net.Gone d x y := by
          intro j hj x y
          constructor
          · rintro ⟨p, hp, -⟩
            rw [(can.clean j hj).1, (can.clean j hj).2.1] at hp
            simp at hp
          · rintro ⟨p, hp, -⟩
            rw [(can.clean j hj).2.2] at hp
            simp at hp
        have h2 := i0.two i hi r hr er
        exact ⟨h2.agree _ _ (.inr ⟨hx, hlm⟩) (hnd _ hi _ _).1 (hnd _ hr _ _).1 (hnd _ hi _ _).2 (hnd _ hr _ _).2,
          h2.agree _ _ (.inl ⟨hx, hlm⟩) (hnd _ hi _ _).1 (hnd _ hr _ _).1 (hnd _ hi _ _).2 (hnd _ hr _ _).2⟩
  · intro i hi x e hx
    have hlx : (V' i).loc m = none := by rw [hM.loc i hi, if_pos rfl, if_neg e]
    constructor
    · cases hh : (V' i).net.edge m x with
      | none => rfl
      | some z =>
        have := ((i1.one i hi).ends _ _ (by rw [hh]; rfl)).2.2
        rw [hlx, hx] at this
        simp at this
    · cases hh : (V' i).net.edge x m with
      | none => rfl
      | some z =>
        have := ((i1.one i hi).ends _ _ (by rw [hh]; rfl)).2.2
        rw [hlx, hx] at this
        simp at this
  · intro i hi x y hx hy
    exact hM.rest i hi x y (Ne.symm hx) (Ne.symm hy)

/-- **C54.** In a history that is covered, in which agents have moved before, `move_agents` of an agent with edges raises nothing. The agent is then on its new rank, with its state, and on no other;
its edges, with their attributes, are on each rank that owns one of the ends, and on no other; the other edges and agents do not change; and each ghost has the state of its agent. -/
theorem C54_moved_partial (d : Bool) {n : Nat} (hn : 0 < n) (ops : List (WOp S A)) (r k m : Nat) (hl : Covered d n (ops ++ [.move (oneMove r k m)])) :
    ∃ w0 w, wrun n (World.init [d]) ops = some w0 ∧ wrun n (World.init [d]) (ops ++ [.move (oneMove r k m)]) = some w ∧ ((w0 r).agent m).isSome = true ∧
      (∀ i < n, (w i).agent m = if i = k then (w0 r).agent m else none) ∧
      (∀ i < n, ∀ u, u ≠ m → (w i).agent u = (w0 i).agent u) ∧
      (∀ i < n, ∀ x, i = k ∨ ((w i).agent x).isSome = true → (w i).edgeAttr 0 m x = (w0 r).edgeAttr 0 m x ∧ (w i).edgeAttr 0 x m = (w0 r).edgeAttr 0 x m) ∧
      (∀ i < n, ∀ x, i ≠ k → (w i).agent x = none → (w i).edgeAttr 0 m x = none ∧ (w i).edgeAttr 0 x m = none) ∧
      (∀ i < n, ∀ x y, x ≠ m → y ≠ m → (w i).edgeAttr 0 x y = (w0 i).edgeAttr 0 x y) ∧
      (∀ i < n, ∀ u s, (w i).ghostAgent u = some s → ∃ j < n, j ≠ i ∧ (w j).agent u = some s) := by
  obtain ⟨w0, V, mv, Q, e0, s0, i0, q0, r', k', m', hmv, can, -⟩ := covered_sim hn ops _ (Cov.append.1 hl)
  have heq : r' = r ∧ k' = k ∧ m' = m := by
    have h1 := congrFun hmv r
    have h2 := congrFun hmv r'
    unfold oneMove at h1 h2
    rw [if_pos rfl] at h1
    split at h1
    · simp only [List.cons.injEq, Prod.mk.injEq, and_true] at h1
      rename_i e
      exact ⟨e.symm, h1.2.symm, h1.1.symm⟩
    · cases h1
  obtain ⟨rfl, rfl, rfl⟩ := heq
  obtain ⟨w, V', Q', e1, s1, i1, hM, -⟩ := move_sim i0 q0 can s0
  have hr := can.hr
  have hlm := can.loc
  refine ⟨w0, w, e0, ?_, by rw [s0.agent hr]; exact hlm, ?_, ?_, ?_, ?_, ?_, ?_⟩
  · rw [wrun_append, e0, Option.bind_some]
    show (moveAgents n (oneMove r' k' m') w0 >>= fun w => some w) = _
    rw [e1]; rfl
  · intro i hi
    rw [s1.agent hi, s0.agent hr, hM.loc i hi, if_pos rfl]
  · intro i hi u hu
    rw [s1.agent hi, s0.agent hi, hM.loc i hi, if_neg hu]
  · intro i hi x hx
    rw [s1.edge hi, s1.edge hi, s0.edge hr, s0.edge hr]
    rw [s1.agent hi] at hx
    exact (hM.edges i0 can i1).1 i hi x hx
  · intro i hi x e hx
    rw [s1.agent hi] at hx
    rw [s1.edge hi, s1.edge hi]
    exact (hM.edges i0 can i1).2.1 i hi x e hx
  · intro i hi x y hx hy
    rw [s1.edge hi, s0.edge hi]
    exact (hM.edges i0 can i1).2.2 i hi x y hx hy
  · intro i hi u s hg
    rw [s1.ghost hi] at hg
    obtain ⟨⟨s', j⟩, hg1, rfl⟩ := Option.map_eq_some_iff.1 hg
    obtain ⟨a, b, c⟩ := i1.gho i hi u s' j hg1
    exact ⟨j, a, b, by rw [s1.agent a]; exact hM.fresh i hi u s' j hg1⟩

/-- **C54, C43.** In a history that is covered, in which agents have moved, after `synchronize` two ranks that own the two ends of an edge agree about the edge, and each ghost has the state of its agent. -/
theorem C54_agree_partial (d : Bool) {n : Nat} (hn : 0 < n) (ops : List (WOp S A)) (hl : Covered d n (ops ++ [.synch true])) :
    ∃ w, wrun n (World.init [d]) (ops ++ [.synch true]) = some w ∧
      (∀ r < n, ∀ k < n, ∀ u v, ((w r).agent u).isSome = true → ((w k).agent v).isSome = true →
        (w r).edgeAttr 0 u v = (w k).edgeAttr 0 u v ∧ (w r).edgeAttr 0 v u = (w k).edgeAttr 0 v u) ∧
      ∀ k < n, ∀ u s, (w k).ghostAgent u = some s → ∃ r < n, r ≠ k ∧ (w r).agent u = some s := by
  obtain ⟨w0, V, mv, Q, e0, s0, i0, q0, hls, hset, -⟩ := covered_sim hn ops _ (Cov.append.1 hl)
  obtain ⟨w, e1, s1⟩ := step_sim i0 (fun r hr => (q0 r hr).2.1) hn (fun r hr => (q0 r hr).1) hls hset s0
  have i1 := i0.step hls
  refine ⟨w, ?_, ?_, ?_⟩
  · rw [wrun_append, e0, Option.bind_some]
    show (wstep n w0 _ >>= fun w => some w) = _
    rw [e1]; rfl
  · intro r hr k hk u v hu hv
    rw [s1.agent hr] at hu
    rw [s1.agent hk] at hv
    rw [s1.edge hr, s1.edge hr, s1.edge hk, s1.edge hk]
    by_cases hne : r = k
    · rw [hne]; exact ⟨rfl, rfl⟩
    · have c := fun j x y => synch_clean (d := d) (n := n) (V := V) j x y
      have h2 := i1.two r hr k hk hne
      exact ⟨h2.agree u v (.inl ⟨hu, hv⟩) (c _ _ _).1 (c _ _ _).1 (c _ _ _).2 (c _ _ _).2, h2.agree v u (.inr ⟨hu, hv⟩) (c _ _ _).1 (c _ _ _).1 (c _ _ _).2 (c _ _ _).2⟩
  · intro k hk u s hg
    rw [s1.ghost hk] at hg
    obtain ⟨⟨s', r⟩, hg1, rfl⟩ := Option.map_eq_some_iff.1 hg
    obtain ⟨a, b, c⟩ := i1.gho k hk u s' r hg1
    exact ⟨r, a, b, by rw [s1.agent a]; exact i0.synch_ghost hk hg1⟩

theorem two_steps (hn : 0 < n) {ops : List (WOp S A)} {o : WOp S A} (ho : ∀ ms, o ≠ .move ms) (hl : Covered d n (ops ++ [o, .synch true])) :
    ∃ w0 w V Q Q2, wrun n (World.init [d]) ops = some w0 ∧ wrun n (World.init [d]) (ops ++ [o, .synch true]) = some w ∧ Sim d Q n w0 V ∧ SInv NoHid d n V ∧ Legal d n V o ∧
      Legal d n (sstep d n V o) (.synch true) ∧ Sim d Q2 n w (sstep d n (sstep d n V o) (.synch true)) := by
  obtain ⟨w0, V, mv, Q, e0, s0, i0, q0, hc⟩ := covered_sim hn ops _ (Cov.append.1 hl)
  obtain ⟨hla, hsa, hls, hss, -⟩ := hc.head ho
  obtain ⟨w1, e1, s1⟩ := step_sim i0 (fun r hr => (q0 r hr).2.1) hn (fun r hr => (q0 r hr).1) hla hsa s0
  have q1 := q0.after o
  obtain ⟨w2, e2, s2⟩ := step_sim (i0.step hla) (fun r hr => (q1 r hr).2.1) hn (fun r hr => (q1 r hr).1) hls hss s1
  refine ⟨w0, w2, V, Q, _, e0, ?_, s0, i0, hla, hls, s2⟩
  rw [wrun_append, e0, Option.bind_some]
  show (wstep n w0 _ >>= fun w => wrun n w [_]) = _
  rw [e1]
  show (wstep n w1 _ >>= fun w => some w) = _
  rw [e2]; rfl

/-- **C54, C43.** In a history that is covered, in which agents have moved, an edge that a rank adds has its attributes on each rank that owns one of the ends, after the next `synchronize`. -/
theorem C54_added_partial (d : Bool) {n : Nat} (hn : 0 < n) (ops : List (WOp S A)) (r u v : Nat) (a : Attr A) (hl : Covered d n (ops ++ [.addEdge r 0 u v a, .synch true])) :
    ∃ w0 w, wrun n (World.init [d]) ops = some w0 ∧ wrun n (World.init [d]) (ops ++ [.addEdge r 0 u v a, .synch true]) = some w ∧
      ∀ k < n, ((w k).agent u).isSome = true ∨ ((w k).agent v).isSome = true → (w k).edgeAttr 0 u v = some (merge (((w0 r).edgeAttr 0 u v).getD []) a) := by
  obtain ⟨w0, w, V, Q, Q2, e0, e2, s0, i0, hla, hls, s2⟩ := two_steps hn (o := .addEdge r 0 u v a) (fun _ h => nomatch h) hl
  refine ⟨w0, w, e0, e2, ?_⟩
  intro k hk hown
  rw [s2.agent hk, s2.agent hk] at hown
  rw [s2.edge hk, s0.edge hla.1]
  exact i0.added_edge hla hls hk hown

/-- **C54, C43.** In a history that is covered, in which agents have moved, an edge that a rank updates has the new attributes on each rank that owns one of the ends, after the next `synchronize`. -/
theorem C54_updated_partial (d : Bool) {n : Nat} (hn : 0 < n) (ops : List (WOp S A)) (r u v : Nat) (a : Attr A) (hl : Covered d n (ops ++ [.updateEdge r 0 u v a, .synch true])) :
    ∃ w0 w b, wrun n (World.init [d]) ops = some w0 ∧ (w0 r).edgeAttr 0 u v = some b ∧ wrun n (World.init [d]) (ops ++ [.updateEdge r 0 u v a, .synch true]) = some w ∧
      ∀ k < n, ((w k).agent u).isSome = true ∨ ((w k).agent v).isSome = true → (w k).edgeAttr 0 u v = some (merge b a) := by
  obtain ⟨w0, w, V, Q, Q2, e0, e2, s0, i0, hla, hls, s2⟩ := two_steps hn (o := .updateEdge r 0 u v a) (fun _ h => nomatch h) hl
  obtain ⟨b, hb⟩ := Option.isSome_iff_exists.1 hla.2.2.1
  refine ⟨w0, w, b, e0, by rw [s0.edge hla.1]; exact hb, e2, ?_⟩
  intro k hk hown
  rw [s2.agent hk, s2.agent hk] at hown
  rw [s2.edge hk]
  exact i0.updated_edge hla hls hk hown hb

/-- **C54, C43.** In a history that is covered, in which agents have moved, an edge that a rank removes is on no rank after the next `synchronize`. -/
theorem C54_removed_partial (d : Bool) {n : Nat} (hn : 0 < n) (ops : List (WOp S A)) (r u v : Nat) (hl : Covered d n (ops ++ [.removeEdge r 0 u v, .synch true])) :
    ∃ w, wrun n (World.init [d]) (ops ++ [.removeEdge r 0 u v, .synch true]) = some w ∧ ∀ k < n, (w k).edgeAttr 0 u v = none := by
  obtain ⟨w0, w, V, Q, Q2, e0, e2, s0, i0, hla, hls, s2⟩ := two_steps hn (o := .removeEdge r 0 u v) (fun _ h => nomatch h) hl
  refine ⟨w, e2, ?_⟩
  intro k hk
  rw [s2.edge hk]
  exact i0.removed_edge hla hls hk

/-- **C54, C43.** In a history that is covered, in which agents have moved, the edges that a rank has when it calls `clear_edges` are on no rank after the next `synchronize`. -/
theorem C54_cleared_partial (d : Bool) {n : Nat} (hn : 0 < n) (ops : List (WOp S A)) (r : Nat) (hl : Covered d n (ops ++ [.clearEdges r 0, .synch true])) :
    ∃ w0 w, wrun n (World.init [d]) ops = some w0 ∧ wrun n (World.init [d]) (ops ++ [.clearEdges r 0, .synch true]) = some w ∧
      ∀ u v, ((w0 r).edgeAttr 0 u v).isSome = true → ∀ k < n, (w k).edgeAttr 0 u v = none := by
  obtain ⟨w0, w, V, Q, Q2, e0, e2, s0, i0, hla, hls, s2⟩ := two_steps hn (o := .clearEdges r 0) (fun _ h => nomatch h) hl
  refine ⟨w0, w, e0, e2, ?_⟩
  intro u v hb k hk
  rw [s0.edge hla.1] at hb
  rw [s2.edge hk]
  exact i0.cleared_edge hla hls hb hk

/-! ### What can be done after `move_agents` -/

/-- Each rank, other than that of the agent, that has an edge with the agent is one that may change it. -/
theorem Moved.wrote {V' : Sp S A} {mv : Nat → Prop} {r k m : Nat} (hM : Moved d n V r k m V') (i0 : SInv NoHid d n V) (i1 : SInv NoHid d n V') (can : CanMove d n V mv r k m) {i : Nat} (hi : i < n) (hik : i ≠ k)
    {x y : Nat} (hm : m = x ∨ m = y) (he : ((V' i).net.edge x y).isSome = true) : (V' i).net.Wrote d x y := by
  by_cases e : i = r
  · subst e
    have hc : x = m ∧ ((V i).loc y).isSome = true ∨ y = m ∧ ((V i).loc x).isSome = true := by
      cases Classical.em (x = m ∧ ((V i).loc y).isSome = true ∨ y = m ∧ ((V i).loc x).isSome = true) with
      | inl h => exact h
      | inr h => rw [hM.edgeR' x y hm h] at he; cases he
    rw [hM.edgeR x y hm hc] at he
    have hne : ¬ (x = m ∧ y = m) := by rintro ⟨rfl, rfl⟩; rw [can.self] at he; cases he
    rcases hc with ⟨q1, q2⟩ | ⟨q1, q2⟩
    · exact ⟨(x, y), .inr ((hM.synR _).2 (.inr ⟨he, .inl ⟨q1, fun c => hne ⟨q1, c⟩, q2⟩⟩)), SameN.refl _ _ _⟩
    · cases d with
      | true => exact ⟨(x, y), .inr ((hM.synR _).2 (.inr ⟨he, .inr ⟨rfl, q1, fun c => hne ⟨c, q1⟩, q2⟩⟩)), SameN.refl _ _ _⟩
      | false =>
        refine ⟨(y, x), .inr ((hM.synR _).2 (.inr ⟨?_, .inl ⟨q1, fun c => hne ⟨c, q1⟩, q2⟩⟩)), .inr ⟨rfl, rfl, rfl⟩⟩
        show ((V i).net.edge y x).isSome = true
        rw [(i0.one i hi).sym rfl]; exact he
  · rw [hM.edgeI i hi e hik] at he
    obtain ⟨p, hp, hs⟩ := can.wrote i hi e x y he hm
    rw [(can.clean i hi).1] at hp
    exact ⟨p, .inr ((hM.synI i hi e p).2 (hp.resolve_left (by simp))), hs⟩

/-- **C54.** After `move_agents` each rank that owns an agent that the moved agent has an edge with can update the edge, without an exception, and after the next `synchronize` that rank and the
new rank of the moved agent have the new attributes. -/
theorem C54_used_partial (d : Bool) {n : Nat} (hn : 0 < n) (ops : List (WOp S A)) (r k m : Nat) (hl : Covered d n (ops ++ [.move (oneMove r k m)])) (i x : Nat) (hi : i < n) (hik : i ≠ k) (a : Attr A)
    (u v : Nat) (huv : u = m ∧ v = x ∨ u = x ∧ v = m) :
    ∃ w0 w, wrun n (World.init [d]) ops = some w0 ∧ wrun n (World.init [d]) (ops ++ [.move (oneMove r k m)]) = some w ∧
      ∀ b, ((w i).agent x).isSome = true → (w0 r).edgeAttr 0 u v = some b → ∃ w', wrun n w [.updateEdge i 0 u v a, .synch true] = some w' ∧
        (w' i).edgeAttr 0 u v = some (merge b a) ∧ (w' k).edgeAttr 0 u v = some (merge b a) := by
  obtain ⟨w0, w', e0', e1', -, -, -, hold, -⟩ := C54_moved_partial d hn ops r k m hl
  obtain ⟨w0', V, mv, Q, e0, s0, i0, q0, r', k', m', hmv, can, -⟩ := covered_sim hn ops _ (Cov.append.1 hl)
  have heq : r' = r ∧ k' = k ∧ m' = m := by
    have h1 := congrFun hmv r
    unfold oneMove at h1
    rw [if_pos rfl] at h1
    split at h1
    · simp only [List.cons.injEq, Prod.mk.injEq, and_true] at h1
      rename_i e
      exact ⟨e.symm, h1.2.symm, h1.1.symm⟩
    · cases h1
  obtain ⟨rfl, rfl, rfl⟩ := heq
  obtain ⟨w, V', Q', e1, s1, i1, hM, q1⟩ := move_sim i0 q0 can s0
  have ew : w0' = w0 := Option.some.inj (e0.symm.trans e0')
  subst ew
  have er : wrun n (World.init [d]) (ops ++ [.move (oneMove r' k' m')]) = some w := by
    rw [wrun_append, e0, Option.bind_some]
    show (moveAgents n (oneMove r' k' m') w0' >>= fun w => some w) = _
    rw [e1]; rfl
  have ew : w' = w := Option.some.inj (e1'.symm.trans er)
  subst ew
  refine ⟨w0', w', e0, er, ?_⟩
  intro b hx hb
  have hm : m' = u ∨ m' = v := huv.elim (fun q => .inl q.1.symm) (fun q => .inr q.2.symm)
  -- the edge is on both ranks
  have hbi : (V' i).net.edge u v = some b := by
    have := hold i hi x (.inr hx)
    rcases huv with ⟨rfl, rfl⟩ | ⟨rfl, rfl⟩
    · rw [← s1.edge hi, this.1]; exact hb
    · rw [← s1.edge hi, this.2]; exact hb
  have hx' : ((V' i).loc x).isSome = true := by rw [← s1.agent hi]; exact hx
  have hmk : ((V' k').loc m').isSome = true := by rw [hM.loc _ can.hk, if_pos rfl, if_pos rfl]; exact can.loc
  have hla : Legal d n V' (.updateEdge i 0 u v a) := ⟨hi, rfl, by rw [hbi]; rfl, fun _ => hM.wrote i0 i1 can hi hik hm (by rw [hbi]; rfl)⟩
  have hc := hM.clean
  have hrem : ∀ j < n, (sstep d n V' (.updateEdge i 0 u v a) j).net.rem = [] := by
    intro j hj
    by_cases e : j = i
    · subst e
      show (V'.setNet j _ j).net.rem = []
      rw [setNet_self]; exact (hc j hj).2.2
    · show (V'.setNet i _ j).net.rem = []
      rw [setNet_other e]; exact (hc j hj).2.2
  have hls : Legal d n (sstep d n V' (.updateEdge i 0 u v a)) (.synch true) := by
    intro _
    refine ⟨?_, ?_⟩
    · have hd : ∀ j < n, ∀ x y, (sstep d n V' (.updateEdge i 0 u v a) j).net.Dirty d x y → j = i := by
        rintro j hj x y ⟨p, hp, -⟩
        apply Classical.byContradiction
        intro e
        have : sstep d n V' (.updateEdge i 0 u v a) j = V' j := setNet_other e
        rw [this, (hc j hj).1, (hc j hj).2.1] at hp
        simp at hp
      intro p hp q hq x y h1 h2
      rw [hd p hp _ _ h1, hd q hq _ _ h2]
    · intro j hj p hp
      rw [hrem j hj] at hp; cases hp
  obtain ⟨w1, f1, t1⟩ := step_sim i1 (fun r hr => (q1 r hr).2.1) hn (fun r hr => (q1 r hr).1) hla trivial s1
  have q2 := Rest.after (n := n) q1 (.updateEdge i 0 u v a : WOp S A)
  obtain ⟨w2, f2, t2⟩ := step_sim (i1.step hla) (fun r hr => (q2 r hr).2.1) hn (fun r hr => (q2 r hr).1) hls (by
    intro j hj p hp
    rw [hrem j hj] at hp; cases hp) t1
  refine ⟨w2, ?_, ?_, ?_⟩
  · show (wstep n w' _ >>= fun w => wrun n w [_]) = _
    rw [f1]
    show (wstep n w1 _ >>= fun w => some w) = _
    rw [f2]; rfl
  · rw [t2.edge hi]
    refine i1.updated_edge hla hls hi ?_ hbi
    have hlc : ∀ j, (sstep d n (sstep d n V' (.updateEdge i 0 u v a)) (.synch true) j).loc = (V' j).loc := by
      intro j
      show (V'.setNet i _ j).loc = _
      unfold Sp.setNet Sp.set; split <;> simp_all
    rw [hlc]
    rcases huv with ⟨rfl, rfl⟩ | ⟨rfl, rfl⟩
    · exact .inr hx'
    · exact .inl hx'
  · rw [t2.edge can.hk]
    refine i1.updated_edge hla hls can.hk ?_ hbi
    have hlc : ∀ j, (sstep d n (sstep d n V' (.updateEdge i 0 u v a)) (.synch true) j).loc = (V' j).loc := by
      intro j
      show (V'.setNet i _ j).loc = _
      unfold Sp.setNet Sp.set; split <;> simp_all
    rw [hlc]
    rcases huv with ⟨rfl, rfl⟩ | ⟨rfl, rfl⟩
    · exact .inl hmk
    · exact .inr hmk

end Repast.Network
