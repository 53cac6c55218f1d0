import Verif.Network.NetRun

/-!
C43 for the uses of a network that `Legal` describes: edges between ranks are mirrored.
-/
namespace Repast.Network
open Repast.Dict Repast.Context

variable {S A : Type} {H : Hid} {d : Bool} {n : Nat} {V : Sp S A} {Q : Nat → Pend A}

/-! ### What the user sees -/

theorem Sim.edge {w : World S A} (hw : Sim d Q n w V) {r : Nat} (hr : r < n) (u v : Nat) : (w r).edgeAttr 0 u v = (V r).net.edge u v := by
  obtain ⟨hc, hv⟩ := hw r hr
  rw [← hv]
  show _ = (w r).net.e u v
  have hno : ∀ x o, (Q r).hid x = true → (w r).find x = some o → o ∉ (w r).net.g.nodes := by
    intro x o hx ho hm
    have := (hc.nodes o).1 hm
    rw [hc.find_uid ho, hx] at this
    cases this.2
  unfold Cx.edgeAttr Net.e
  rw [hc.get0]
  have hnone : ∀ a b : Obj, a ∉ (w r).net.g.nodes ∨ b ∉ (w r).net.g.nodes → (w r).net.g.attr a b = none := by
    intro a b hab
    cases hh : (w r).net.g.attr a b with
    | none => rfl
    | some t =>
      have := attr_ends hc.net.inv hh
      exact (hab.elim (· this.1) (· this.2)).elim
  by_cases hu : (Q r).hid u = true
  · rw [hc.node_hid hu]
    cases hx : (w r).find u <;> cases hy : (w r).find v <;> try rfl
    exact hnone _ _ (.inl (hno _ _ hu hx))
  · by_cases hv : (Q r).hid v = true
    · rw [hc.node_hid hv]
      cases hx : (w r).find u <;> cases hy : (w r).find v <;> cases (w r).net.node u <;> try rfl
      all_goals exact hnone _ _ (.inr (hno _ _ hv hy))
    · rw [hc.find_node (by simpa using hu), hc.find_node (by simpa using hv)]
      cases (w r).net.node u <;> cases (w r).net.node v <;> rfl

theorem Sim.agent {w : World S A} (hw : Sim d Q n w V) {r : Nat} (hr : r < n) (u : Nat) : (w r).agent u = (V r).loc u := by
  rw [← (hw r hr).2]; rfl

theorem Sim.ghost {w : World S A} (hw : Sim d Q n w V) {r : Nat} (hr : r < n) (u : Nat) : (w r).ghostAgent u = ((V r).gho u).map (·.1) := by
  rw [← (hw r hr).2]
  show _ = ((get (w r).ghosts u).map fun g => (g.st, (w r).lrank g.obj)).map (·.1)
  unfold Cx.ghostAgent
  cases get (w r).ghosts u <;> rfl

/-! ### The edges after `synchronize` -/

theorem states_far (r : Nat) (p : Nat × Nat) : (V.states r).far p = (V r).far p := by
  unfold RV.far Sp.states
  simp only [Option.map_map]
  rfl

theorem SInv.removals_edge (h : SInv H d n V) {r k : Nat} (hr : r < n) (hk : k < n) (hne : r ≠ k) {u v : Nat} (hp : Peer V r k u v) :
    ((V k).net.Gone d u v → (V.removals d n r).net.edge u v = none) ∧ (¬ (V k).net.Gone d u v → (V.removals d n r).net.edge u v = (V r).net.edge u v) := by
  have he : (V.removals d n r).net.edge u v = if (V.remIn n r).any (fun m => decide (SameN d m.2.1 m.2.2 u v)) then none else (V r).net.edge u v := rfl
  rw [he]
  constructor
  · rintro ⟨p, hp', hs⟩
    have hf := h.far_noted hk (.inr (.inr (.inr hp')))
    have := h.peer_far hk hr (Ne.symm hne) hf (hp.swap.same hs.symm)
    rw [if_pos (List.any_eq_true.2 ⟨(k, p), mem_remIn.2 ⟨hk, hp', this⟩, by simpa using hs⟩)]
  · intro hg
    rw [if_neg]
    intro hh
    obtain ⟨m, hm, e⟩ := List.any_eq_true.1 hh
    have e : SameN d m.2.1 m.2.2 u v := of_decide_eq_true e
    have hI := h.remIn hm
    have hr' := (mem_remIn.1 hm).1
    have : m.1 = k := h.peer_uniq hr' hk hr hI.2.1 (Ne.symm hne) (hI.2.2.2.1.same e) hp.swap
    refine hg ?_
    rw [← this]
    exact ⟨m.2, (mem_remIn.1 hm).2.1, e⟩

/-- The edges between two ranks. -/
theorem SInv.synch_edge (h : SInv H d n V) (hl : Legal d n V (.synch true)) {r k : Nat} (hr : r < n) (hk : k < n) (hne : r ≠ k) {u v : Nat} (hp : Peer V r k u v) :
    ((V r).net.Dirty d u v → (sstep d n V (.synch true) r).net.edge u v = (V r).net.edge u v) ∧
    ((V k).net.Dirty d u v → (sstep d n V (.synch true) r).net.edge u v = (V k).net.edge u v) ∧
    (¬ (V r).net.Dirty d u v → ¬ (V k).net.Dirty d u v → (V r).net.Gone d u v ∨ (V k).net.Gone d u v → (sstep d n V (.synch true) r).net.edge u v = none) ∧
    (¬ (V r).net.Dirty d u v → ¬ (V k).net.Dirty d u v → ¬ (V r).net.Gone d u v → ¬ (V k).net.Gone d u v → (sstep d n V (.synch true) r).net.edge u v = (V r).net.edge u v) := by
  obtain ⟨h1, h2⟩ := hl rfl
  have hs := h.states
  have hR : SInv H d n (V.states.removals d n) := hs.removals (fun r hr p hp => by rw [states_far]; exact (h2 r hr p hp).2)
  have hp2 : Peer (V.states.removals d n) k r u v := hp.swap
  have hc := hR.copies_edge hk hr (Ne.symm hne) hp2
  have hrm := hs.removals_edge hr hk hne (u := u) (v := v) hp
  have hD : (V k).net.Dirty d u v → (sstep d n V (.synch true) r).net.edge u v = (V k).net.edge u v := by
    intro hd
    exact (hc.1 hd).trans (hs.removals_dirty hk hd)
  refine ⟨?_, hD, ?_, ?_⟩
  · intro hd
    by_cases hd' : (V k).net.Dirty d u v
    · rw [hD hd']; exact (h1 r hr k hk u v hd hd').symm
    · exact (hc.2 hd').trans (hs.removals_dirty hr hd)
  · intro hd hd' hg
    refine (hc.2 hd').trans ?_
    by_cases hg' : (V k).net.Gone d u v
    · exact hrm.1 hg'
    · refine (hrm.2 hg').trans ?_
      obtain ⟨p, hp', hs'⟩ := hg.resolve_right hg'
      show (V r).net.edge u v = none
      rw [← (h.one r hr).edge_same hs']
      exact ((h.one r hr).rem p hp').1
  · intro hd hd' _ hg'
    exact (hc.2 hd').trans (hrm.2 hg')

/-- The other edges do not change. -/
theorem SInv.synch_local (h : SInv H d n V) (hl : Legal d n V (.synch true)) {r : Nat} (hr : r < n) {u v : Nat} (hu : ((V r).loc u).isSome = true) (hv : ((V r).loc v).isSome = true) :
    (sstep d n V (.synch true) r).net.edge u v = (V r).net.edge u v := by
  obtain ⟨h1, h2⟩ := hl rfl
  have hs := h.states
  have hR : SInv H d n (V.states.removals d n) := hs.removals (fun r hr p hp => by rw [states_far]; exact (h2 r hr p hp).2)
  have hno : ∀ k < n, k ≠ r → ∀ x y, SameN d x y u v → ¬ Peer V k r x y := by
    intro k hk hkr x y hs hp
    rcases hp.same hs with ⟨a, -⟩ | ⟨a, -⟩
    · exact hkr (h.own k hk r hr u a hu)
    · exact hkr (h.own k hk r hr v a hv)
  have e1 : (sstep d n V (.synch true) r).net.edge u v = (V.states.removals d n r).net.edge u v := by
    show (match ((V.states.removals d n).edgesIn n r).find? (fun m => decide (SameN d m.2.1 m.2.2.1 u v)) with
        | some m => some m.2.2.2
        | none => (V.states.removals d n r).net.edge u v) = _
    cases hf : ((V.states.removals d n).edgesIn n r).find? (fun m => decide (SameN d m.2.1 m.2.2.1 u v)) with
    | none => rfl
    | some m =>
      have g1 := List.mem_of_find?_eq_some hf
      have g2 : SameN d m.2.1 m.2.2.1 u v := by simpa using List.find?_some hf
      obtain ⟨-, -, hne, -, hp, -⟩ := hR.edgesIn g1
      exact absurd hp (hno m.1 (mem_edgesIn.1 g1).1 hne _ _ g2)
  rw [e1]
  show (if (V.states.remIn n r).any (fun m => decide (SameN d m.2.1 m.2.2 u v)) then none else (V r).net.edge u v) = _
  rw [if_neg]
  intro hh
  obtain ⟨m, hm, e⟩ := List.any_eq_true.1 hh
  have e : SameN d m.2.1 m.2.2 u v := of_decide_eq_true e
  obtain ⟨-, hne, -, hp, -⟩ := hs.remIn hm
  exact absurd hp (hno m.1 (mem_remIn.1 hm).1 hne _ _ e)

/-- After `synchronize` there is nothing left to do. -/
theorem synch_clean (k x y : Nat) : ¬ (sstep d n V (.synch true) k).net.Dirty d x y ∧ ¬ (sstep d n V (.synch true) k).net.Gone d x y := by
  constructor
  · rintro ⟨p, hp, -⟩; rcases hp with hp | hp <;> cases hp
  · rintro ⟨p, hp, -⟩; cases hp

theorem SInv.synch_ghost (h : SInv H d n V) {k : Nat} (hk : k < n) {u : Nat} {s : S} {r : Nat} (hg : (sstep d n V (.synch true) k).gho u = some (s, r)) : (V r).loc u = some s := by
  have e : (sstep d n V (.synch true) k).gho u = match ((V.states.removals d n).agentsIn n k).find? (fun m => decide (m.2.1 = u)) with
      | some m => some (m.2.2, m.1)
      | none => if (V.states.remIn n k).any (fun m => decide (u = m.2.1 ∨ u = m.2.2)) then none else (V.states k).gho u := rfl
  rw [e] at hg
  split at hg
  · rename_i m hf
    have g1 := List.mem_of_find?_eq_some hf
    have g2 : m.2.1 = u := by simpa using List.find?_some hf
    obtain ⟨-, p, -, -, -, -, h5⟩ := mem_agentsIn.1 g1
    simp only [Option.some.injEq, Prod.mk.injEq] at hg
    rw [g2, hg.1, hg.2] at h5
    exact h5
  · split at hg
    · cases hg
    · obtain ⟨g, hg1, hg2⟩ := Option.map_eq_some_iff.1 hg
      simp only [Prod.mk.injEq] at hg2
      obtain ⟨a, b, c⟩ := h.gho k hk u g.1 g.2 hg1
      obtain ⟨q1, q2⟩ := hg2
      subst q2
      obtain ⟨s', hs'⟩ := Option.isSome_iff_exists.1 c
      rw [hs'] at q1 ⊢
      simpa using q1

/-! ### The theorems -/

theorem LegalRun.append {V : Sp S A} {ops ops' : List (WOp S A)} : LegalRun d n V (ops ++ ops') ↔ LegalRun d n V ops ∧ LegalRun d n (ops.foldl (sstep d n) V) ops' := by
  induction ops generalizing V with
  | nil => simp [LegalRun]
  | cons o ops ih => simp only [List.cons_append, LegalRun, ih, List.foldl_cons, and_assoc]

theorem wrun_append {w : World S A} {ops ops' : List (WOp S A)} : wrun n w (ops ++ ops') = (wrun n w ops).bind fun w => wrun n w ops' := by
  unfold wrun; rw [List.foldlM_append]; rfl

/-- **C43.** In a history that is covered nothing is raised, and after `synchronize` two ranks that own the two ends of an edge agree about the edge: both have it, with the same
attributes, or neither has it. -/
theorem C43_agree_partial (d : Bool) {n : Nat} (hn : 0 < n) (ops : List (WOp S A)) (hl : LegalRun d n Sp.init (ops ++ [.synch true])) :
    ∃ w, wrun n (World.init [d]) (ops ++ [.synch true]) = some w ∧
      ∀ r < n, ∀ k < n, ∀ u v, ((w r).agent u).isSome = true → ((w k).agent v).isSome = true →
        (w r).edgeAttr 0 u v = (w k).edgeAttr 0 u v ∧ (w r).edgeAttr 0 v u = (w k).edgeAttr 0 v u := by
  obtain ⟨w, e, hs, hI⟩ := run_sim hn _ Sp.init (World.init [d]) (SInv.init d n) (init_sim d n) hl
  refine ⟨w, e, ?_⟩
  intro r hr k hk u v hu hv
  rw [hs.agent hr] at hu
  rw [hs.agent hk] at hv
  rw [hs.edge hr, hs.edge hr, hs.edge hk, hs.edge hk]
  by_cases hne : r = k
  · rw [hne]; exact ⟨rfl, rfl⟩
  · rw [List.foldl_append] at hI hu hv ⊢
    simp only [List.foldl_cons, List.foldl_nil] at hI hu hv ⊢
    have c := fun j x y => synch_clean (d := d) (n := n) (V := ops.foldl (sstep d n) (Sp.init : Sp S A)) j x y
    have h2 := hI.two r hr k hk hne
    exact ⟨h2.agree u v (.inl ⟨hu, hv⟩) (c _ _ _).1 (c _ _ _).1 (c _ _ _).2 (c _ _ _).2, h2.agree v u (.inr ⟨hu, hv⟩) (c _ _ _).1 (c _ _ _).1 (c _ _ _).2 (c _ _ _).2⟩

theorem SInv.added_edge {V0 : Sp S A} (i0 : SInv NoHid d n V0) {r u v : Nat} {a : Attr A} (hla : Legal d n V0 (.addEdge r 0 u v a)) (hls : Legal d n (sstep d n V0 (.addEdge r 0 u v a)) (.synch true)) {k : Nat} (hk : k < n)
    (hown : ((sstep d n (sstep d n V0 (.addEdge r 0 u v a)) (.synch true) k).loc u).isSome = true ∨ ((sstep d n (sstep d n V0 (.addEdge r 0 u v a)) (.synch true) k).loc v).isSome = true) :
    (sstep d n (sstep d n V0 (.addEdge r 0 u v a)) (.synch true) k).net.edge u v = some (merge (((V0 r).net.edge u v).getD []) a) := by
  have i1 := i0.step hla
  obtain ⟨hr, -, hhu, hhv, hloc, -⟩ := hla
  -- the edge that rank `r` has before `synchronize`
  have he : (sstep d n V0 (.addEdge r 0 u v a) r).net.edge u v = some (merge (((V0 r).net.edge u v).getD []) a) := by
    show (V0.setNet r _ r).net.edge u v = _
    rw [setNet_self]
    show (if SameN d u v u v then _ else _) = _
    rw [if_pos (SameN.refl _ _ _)]
  have hlc : ∀ j, (sstep d n (sstep d n V0 (.addEdge r 0 u v a)) (.synch true) j).loc = (sstep d n V0 (.addEdge r 0 u v a) j).loc := fun _ => rfl
  have hlc' : ∀ j, (sstep d n V0 (.addEdge r 0 u v a) j).loc = (V0 j).loc := by
    intro j
    show (V0.setNet r _ j).loc = _
    unfold Sp.setNet Sp.set; split <;> simp_all
  rw [hlc, hlc'] at hown
  by_cases hkr : k = r
  · subst hkr
    cases hcr : (V0 k).cross u v with
    | false =>
      have hb : ((V0 k).loc u).isSome = true ∧ ((V0 k).loc v).isSome = true := by
        unfold RV.cross at hcr
        rcases hloc with hh | hh
        · rw [hh] at hcr; exact ⟨hh, by simpa using hcr.symm⟩
        · rw [hh] at hcr; exact ⟨by simpa using hcr, hh⟩
      rw [← he]
      exact i1.synch_local hls hk (by rw [hlc']; exact hb.1) (by rw [hlc']; exact hb.2)
    | true =>
      have hf := i0.far hk (p := (u, v)) hhu hhv hcr
      have hd : (sstep d n V0 (.addEdge k 0 u v a) k).net.Dirty d u v := by
        refine ⟨(u, v), .inl ?_, SameN.refl _ _ _⟩
        show _ ∈ (V0.setNet k _ k).net.new
        rw [setNet_self]
        show _ ∈ (if (V0 k).cross u v = true then _ else _)
        rw [if_pos hcr, mem_ins]; exact .inr rfl
      have hp : Peer (sstep d n V0 (.addEdge k 0 u v a)) k ((V0 k).far (u, v)) u v := by
        have := hf.peer; unfold Peer; rw [hlc', hlc']; exact this
      rw [← he]
      exact (i1.synch_edge hls hk hf.lt (Ne.symm hf.ne) hp).1 hd
  · -- the rank of the other end
    have hcr : (V0 r).cross u v = true ∧ Peer V0 r k u v := by
      have hnl : ∀ x, ((V0 k).loc x).isSome = true → ((V0 r).loc x).isSome = false := by
        intro x hx
        cases hh : ((V0 r).loc x).isSome with
        | false => rfl
        | true => exact absurd (i0.own k hk r hr x hx hh) hkr
      unfold RV.cross Peer
      rcases hown with ho | ho
      · have := hnl u ho
        rcases hloc with hh | hh
        · rw [this] at hh; cases hh
        · rw [this, hh]; exact ⟨rfl, .inr ⟨rfl, ho⟩⟩
      · have := hnl v ho
        rcases hloc with hh | hh
        · rw [this, hh]; exact ⟨rfl, .inl ⟨rfl, ho⟩⟩
        · rw [this] at hh; cases hh
    have hd : (sstep d n V0 (.addEdge r 0 u v a) r).net.Dirty d u v := by
      refine ⟨(u, v), .inl ?_, SameN.refl _ _ _⟩
      show _ ∈ (V0.setNet r _ r).net.new
      rw [setNet_self]
      show _ ∈ (if (V0 r).cross u v = true then _ else _)
      rw [if_pos hcr.1, mem_ins]; exact .inr rfl
    have hp : Peer (sstep d n V0 (.addEdge r 0 u v a)) k r u v := by
      have := hcr.2.swap; unfold Peer; rw [hlc', hlc']; exact this
    rw [← he]
    exact (i1.synch_edge hls hk hr hkr hp).2.1 hd

/-- **C43.** An edge that a rank adds, and that it then synchronizes, has its attributes on that rank and on the rank of the other end. -/
theorem C43_added_partial (d : Bool) {n : Nat} (hn : 0 < n) (ops : List (WOp S A)) (r u v : Nat) (a : Attr A) (hl : LegalRun d n Sp.init (ops ++ [.addEdge r 0 u v a, .synch true])) :
    ∃ w0 w, wrun n (World.init [d]) ops = some w0 ∧ wrun n (World.init [d]) (ops ++ [.addEdge r 0 u v a, .synch true]) = some w ∧
      ∀ k < n, ((w k).agent u).isSome = true ∨ ((w k).agent v).isSome = true → (w k).edgeAttr 0 u v = some (merge (((w0 r).edgeAttr 0 u v).getD []) a) := by
  obtain ⟨hl0, hla, hls, -⟩ := LegalRun.append.1 hl
  obtain ⟨w0, e0, s0, i0⟩ := run_sim hn ops Sp.init (World.init [d]) (SInv.init d n) (init_sim d n) hl0
  obtain ⟨w1, e1, s1⟩ := step_still i0 hn hla s0
  have i1 := i0.step hla
  obtain ⟨w2, e2, s2⟩ := step_still i1 hn hls s1
  have i2 := i1.step hls
  refine ⟨w0, w2, e0, ?_, ?_⟩
  · rw [wrun_append, e0, Option.bind_some]
    show (wstep n w0 _ >>= fun w => wrun n w [_]) = _
    rw [e1]
    show (wstep n w1 _ >>= fun w => some w) = _
    rw [e2]; rfl
  · intro k hk hown
    rw [s2.agent hk, s2.agent hk] at hown
    rw [s2.edge hk]
    rw [s0.edge hla.1]
    exact i0.added_edge hla hls hk hown

theorem SInv.updated_edge {V0 : Sp S A} (i0 : SInv NoHid d n V0) {r u v : Nat} {a b : Attr A} (hla : Legal d n V0 (.updateEdge r 0 u v a)) (hls : Legal d n (sstep d n V0 (.updateEdge r 0 u v a)) (.synch true)) {k : Nat} (hk : k < n)
    (hown : ((sstep d n (sstep d n V0 (.updateEdge r 0 u v a)) (.synch true) k).loc u).isSome = true ∨ ((sstep d n (sstep d n V0 (.updateEdge r 0 u v a)) (.synch true) k).loc v).isSome = true)
    (hb : (V0 r).net.edge u v = some b) : (sstep d n (sstep d n V0 (.updateEdge r 0 u v a)) (.synch true) k).net.edge u v = some (merge b a) := by
  have i1 := i0.step hla
  obtain ⟨hr, -, hedge, hwr⟩ := hla
  obtain ⟨hhu, hhv, hloc⟩ := (i0.one r hr).ends u v hedge
  have he : (sstep d n V0 (.updateEdge r 0 u v a) r).net.edge u v = some (merge b a) := by
    show (V0.setNet r _ r).net.edge u v = _
    rw [setNet_self]
    show (if SameN d u v u v then _ else _) = _
    rw [if_pos (SameN.refl _ _ _), hb]; rfl
  have hlc : ∀ j, (sstep d n (sstep d n V0 (.updateEdge r 0 u v a)) (.synch true) j).loc = (sstep d n V0 (.updateEdge r 0 u v a) j).loc := fun _ => rfl
  have hlc' : ∀ j, (sstep d n V0 (.updateEdge r 0 u v a) j).loc = (V0 j).loc := by
    intro j
    show (V0.setNet r _ j).loc = _
    unfold Sp.setNet Sp.set; split <;> simp_all
  rw [hlc, hlc'] at hown
  have hdirty : (V0 r).cross u v = true → (sstep d n V0 (.updateEdge r 0 u v a) r).net.Dirty d u v := by
    intro hcr
    refine ⟨(V0 r).net.key u v, .inr ?_, (NV.key_wrote (hwr hcr)).2⟩
    show _ ∈ (V0.setNet r _ r).net.upd
    rw [setNet_self]
    show _ ∈ (if (V0 r).cross u v = true then _ else _)
    rw [if_pos hcr, mem_ins]; exact .inr rfl
  by_cases hkr : k = r
  · subst hkr
    cases hcr : (V0 k).cross u v with
    | false =>
      have hb : ((V0 k).loc u).isSome = true ∧ ((V0 k).loc v).isSome = true := by
        unfold RV.cross at hcr
        rcases hloc with hh | hh
        · rw [hh] at hcr; exact ⟨hh, by simpa using hcr.symm⟩
        · rw [hh] at hcr; exact ⟨by simpa using hcr, hh⟩
      rw [← he]
      exact i1.synch_local hls hk (by rw [hlc']; exact hb.1) (by rw [hlc']; exact hb.2)
    | true =>
      have hf := i0.far hk (p := (u, v)) hhu hhv hcr
      have hp : Peer (sstep d n V0 (.updateEdge k 0 u v a)) k ((V0 k).far (u, v)) u v := by
        have := hf.peer; unfold Peer; rw [hlc', hlc']; exact this
      rw [← he]
      exact (i1.synch_edge hls hk hf.lt (Ne.symm hf.ne) hp).1 (hdirty hcr)
  · have hcr : (V0 r).cross u v = true ∧ Peer V0 r k u v := by
      have hnl : ∀ x, ((V0 k).loc x).isSome = true → ((V0 r).loc x).isSome = false := by
        intro x hx
        cases hh : ((V0 r).loc x).isSome with
        | false => rfl
        | true => exact absurd (i0.own k hk r hr x hx hh) hkr
      unfold RV.cross Peer
      rcases hown with ho | ho
      · have := hnl u ho
        rcases hloc with hh | hh
        · rw [this] at hh; cases hh
        · rw [this, hh]; exact ⟨rfl, .inr ⟨rfl, ho⟩⟩
      · have := hnl v ho
        rcases hloc with hh | hh
        · rw [this, hh]; exact ⟨rfl, .inl ⟨rfl, ho⟩⟩
        · rw [this] at hh; cases hh
    have hp : Peer (sstep d n V0 (.updateEdge r 0 u v a)) k r u v := by
      have := hcr.2.swap; unfold Peer; rw [hlc', hlc']; exact this
    rw [← he]
    exact (i1.synch_edge hls hk hr hkr hp).2.1 (hdirty hcr.1)

/-- **C43.** An edge that a rank updates, and that it then synchronizes, has the new attributes on both ranks. -/
theorem C43_updated_partial (d : Bool) {n : Nat} (hn : 0 < n) (ops : List (WOp S A)) (r u v : Nat) (a : Attr A) (hl : LegalRun d n Sp.init (ops ++ [.updateEdge r 0 u v a, .synch true])) :
    ∃ w0 w b, wrun n (World.init [d]) ops = some w0 ∧ (w0 r).edgeAttr 0 u v = some b ∧ wrun n (World.init [d]) (ops ++ [.updateEdge r 0 u v a, .synch true]) = some w ∧
      ∀ k < n, ((w k).agent u).isSome = true ∨ ((w k).agent v).isSome = true → (w k).edgeAttr 0 u v = some (merge b a) := by
  obtain ⟨hl0, hla, hls, -⟩ := LegalRun.append.1 hl
  obtain ⟨w0, e0, s0, i0⟩ := run_sim hn ops Sp.init (World.init [d]) (SInv.init d n) (init_sim d n) hl0
  obtain ⟨w1, e1, s1⟩ := step_still i0 hn hla s0
  have i1 := i0.step hla
  obtain ⟨w2, e2, s2⟩ := step_still i1 hn hls s1
  have i2 := i1.step hls
  obtain ⟨hr, -, hedge, hwr⟩ := id hla
  obtain ⟨b, hb⟩ := Option.isSome_iff_exists.1 hedge
  refine ⟨w0, w2, b, e0, by rw [s0.edge hr]; exact hb, ?_, ?_⟩
  · rw [wrun_append, e0, Option.bind_some]
    show (wstep n w0 _ >>= fun w => wrun n w [_]) = _
    rw [e1]
    show (wstep n w1 _ >>= fun w => some w) = _
    rw [e2]; rfl
  · intro k hk hown
    rw [s2.agent hk, s2.agent hk] at hown
    rw [s2.edge hk]
    exact i0.updated_edge hla hls hk hown hb

theorem SInv.removed_edge {V0 : Sp S A} (i0 : SInv NoHid d n V0) {r u v : Nat} (hla : Legal d n V0 (.removeEdge r 0 u v)) (hls : Legal d n (sstep d n V0 (.removeEdge r 0 u v)) (.synch true)) {k : Nat} (hk : k < n) :
    (sstep d n (sstep d n V0 (.removeEdge r 0 u v)) (.synch true) k).net.edge u v = none := by
  have i1 := i0.step hla
  have i2 := i1.step hls
  obtain ⟨hr, -, hedge, -, hwr⟩ := hla
  obtain ⟨hhu, hhv, hloc⟩ := (i0.one r hr).ends u v hedge
  have he : (sstep d n V0 (.removeEdge r 0 u v) r).net.edge u v = none := by
    show (V0.setNet r _ r).net.edge u v = _
    rw [setNet_self]
    unfold NV.removeEdge; split <;> exact if_pos (SameN.refl _ _ _)
  have hlc : ∀ j, (sstep d n (sstep d n V0 (.removeEdge r 0 u v)) (.synch true) j).loc = (sstep d n V0 (.removeEdge r 0 u v) j).loc := fun _ => rfl
  have hlc' : ∀ j, (sstep d n V0 (.removeEdge r 0 u v) j).loc = (V0 j).loc := by
    intro j
    show (V0.setNet r _ j).loc = _
    unfold Sp.setNet Sp.set; split <;> simp_all
  have hother : ∀ j, j ≠ r → sstep d n V0 (.removeEdge r 0 u v) j = V0 j := fun j hj => setNet_other hj
  cases hcr : (V0 r).cross u v with
  | false =>
    have hb : ((V0 r).loc u).isSome = true ∧ ((V0 r).loc v).isSome = true := by
      unfold RV.cross at hcr
      rcases hloc with hh | hh
      · rw [hh] at hcr; exact ⟨hh, by simpa using hcr.symm⟩
      · rw [hh] at hcr; exact ⟨by simpa using hcr, hh⟩
    by_cases hkr : k = r
    · subst hkr
      rw [← he]
      exact i1.synch_local hls hk (by rw [hlc']; exact hb.1) (by rw [hlc']; exact hb.2)
    · cases hx : (sstep d n (sstep d n V0 (.removeEdge r 0 u v)) (.synch true) k).net.edge u v with
      | none => rfl
      | some z =>
        exfalso
        have := ((i2.one k hk).ends u v (by rw [hx]; rfl)).2.2
        rw [hlc, hlc'] at this
        rcases this with hh | hh
        · exact hkr (i0.own k hk r hr u hh hb.1)
        · exact hkr (i0.own k hk r hr v hh hb.2)
  | true =>
    have hf := i0.far hr (p := (u, v)) hhu hhv hcr
    obtain ⟨⟨p, hp, hs⟩, hno⟩ := hwr hcr
    have hpeer : ∀ j < n, j ≠ r → (((V0 j).loc u).isSome = true ∨ ((V0 j).loc v).isSome = true) → j = (V0 r).far (u, v) := by
      intro j hj hjr hh
      have hpj : Peer V0 r j u v := by
        rcases hf.peer with ⟨a, b⟩ | ⟨a, b⟩ <;> rcases hh with hh | hh
        · exact absurd (i0.own j hj r hr u hh a) hjr
        · exact .inl ⟨a, hh⟩
        · exact .inr ⟨a, hh⟩
        · exact absurd (i0.own j hj r hr v hh a) hjr
      exact (i0.peer_far hr hj (Ne.symm hjr) hf hpj).symm
    have hp1 : Peer (sstep d n V0 (.removeEdge r 0 u v)) r ((V0 r).far (u, v)) u v := by
      have := hf.peer; unfold Peer; rw [hlc', hlc']; exact this
    have hnd : ¬ (sstep d n V0 (.removeEdge r 0 u v) ((V0 r).far (u, v))).net.Dirty d u v := by
      rw [hother _ hf.ne]
      intro hd
      exact hno _ hf.lt hf.ne ((i0.one _ hf.lt).dirty_wrote hd)
    have hnr : ¬ (sstep d n V0 (.removeEdge r 0 u v) r).net.Dirty d u v := by
      intro hd
      have := (i1.one r hr).wrote_edge ((i1.one r hr).dirty_wrote hd)
      rw [he] at this; cases this
    have hg : (sstep d n V0 (.removeEdge r 0 u v) r).net.Gone d u v := by
      refine ⟨(V0 r).net.key u v, ?_, (NV.key_wrote ⟨p, .inr hp, hs⟩).2⟩
      show _ ∈ (V0.setNet r _ r).net.rem
      rw [setNet_self]
      unfold NV.removeEdge
      rw [hcr, if_pos rfl]
      simp
    by_cases hkr : k = r
    · subst hkr
      exact (i1.synch_edge hls hk hf.lt (Ne.symm hf.ne) hp1).2.2.1 hnr hnd (.inl hg)
    · by_cases hkf : k = (V0 r).far (u, v)
      · subst hkf
        exact (i1.synch_edge hls hf.lt hr hf.ne hp1.swap).2.2.1 hnd hnr (.inr hg)
      · cases hx : (sstep d n (sstep d n V0 (.removeEdge r 0 u v)) (.synch true) k).net.edge u v with
        | none => rfl
        | some z =>
          exfalso
          have := ((i2.one k hk).ends u v (by rw [hx]; rfl)).2.2
          rw [hlc, hlc'] at this
          exact hkf (hpeer k hk hkr this)

/-- **C43.** An edge that a rank removes is on no rank after the next `synchronize`. -/
theorem C43_removed_partial (d : Bool) {n : Nat} (hn : 0 < n) (ops : List (WOp S A)) (r u v : Nat) (hl : LegalRun d n Sp.init (ops ++ [.removeEdge r 0 u v, .synch true])) :
    ∃ w, wrun n (World.init [d]) (ops ++ [.removeEdge r 0 u v, .synch true]) = some w ∧ ∀ k < n, (w k).edgeAttr 0 u v = none := by
  obtain ⟨hl0, hla, hls, -⟩ := LegalRun.append.1 hl
  obtain ⟨w0, e0, s0, i0⟩ := run_sim hn ops Sp.init (World.init [d]) (SInv.init d n) (init_sim d n) hl0
  obtain ⟨w1, e1, s1⟩ := step_still i0 hn hla s0
  have i1 := i0.step hla
  obtain ⟨w2, e2, s2⟩ := step_still i1 hn hls s1
  have i2 := i1.step hls
  refine ⟨w2, ?_, ?_⟩
  · rw [wrun_append, e0, Option.bind_some]
    show (wstep n w0 _ >>= fun w => wrun n w [_]) = _
    rw [e1]
    show (wstep n w1 _ >>= fun w => some w) = _
    rw [e2]; rfl
  · intro k hk
    rw [s2.edge hk]
    exact i0.removed_edge hla hls hk

theorem SInv.cleared_edge {V0 : Sp S A} (i0 : SInv NoHid d n V0) {r u v : Nat} (hla : Legal d n V0 (.clearEdges r 0)) (hls : Legal d n (sstep d n V0 (.clearEdges r 0)) (.synch true))
    (hedge : ((V0 r).net.edge u v).isSome = true) {k : Nat} (hk : k < n) :
    (sstep d n (sstep d n V0 (.clearEdges r 0)) (.synch true) k).net.edge u v = none := by
  have i1 := i0.step hla
  have i2 := i1.step hls
  obtain ⟨hr, -, hwr⟩ := hla
  have hwr := hwr u v hedge
  obtain ⟨hhu, hhv, hloc⟩ := (i0.one r hr).ends u v hedge
  have he : (sstep d n V0 (.clearEdges r 0) r).net.edge u v = none := by
    show (V0.setNet r _ r).net.edge u v = _
    rw [setNet_self]; rfl
  have hlc : ∀ j, (sstep d n (sstep d n V0 (.clearEdges r 0)) (.synch true) j).loc = (sstep d n V0 (.clearEdges r 0) j).loc := fun _ => rfl
  have hlc' : ∀ j, (sstep d n V0 (.clearEdges r 0) j).loc = (V0 j).loc := by
    intro j
    show (V0.setNet r _ j).loc = _
    unfold Sp.setNet Sp.set; split <;> simp_all
  have hother : ∀ j, j ≠ r → sstep d n V0 (.clearEdges r 0) j = V0 j := fun j hj => setNet_other hj
  cases hcr : (V0 r).cross u v with
  | false =>
    have hb : ((V0 r).loc u).isSome = true ∧ ((V0 r).loc v).isSome = true := by
      unfold RV.cross at hcr
      rcases hloc with hh | hh
      · rw [hh] at hcr; exact ⟨hh, by simpa using hcr.symm⟩
      · rw [hh] at hcr; exact ⟨by simpa using hcr, hh⟩
    by_cases hkr : k = r
    · subst hkr
      rw [← he]
      exact i1.synch_local hls hk (by rw [hlc']; exact hb.1) (by rw [hlc']; exact hb.2)
    · cases hx : (sstep d n (sstep d n V0 (.clearEdges r 0)) (.synch true) k).net.edge u v with
      | none => rfl
      | some z =>
        exfalso
        have := ((i2.one k hk).ends u v (by rw [hx]; rfl)).2.2
        rw [hlc, hlc'] at this
        rcases this with hh | hh
        · exact hkr (i0.own k hk r hr u hh hb.1)
        · exact hkr (i0.own k hk r hr v hh hb.2)
  | true =>
    have hf := i0.far hr (p := (u, v)) hhu hhv hcr
    obtain ⟨⟨p, hp, hs⟩, hno⟩ := hwr hcr
    have hpeer : ∀ j < n, j ≠ r → (((V0 j).loc u).isSome = true ∨ ((V0 j).loc v).isSome = true) → j = (V0 r).far (u, v) := by
      intro j hj hjr hh
      have hpj : Peer V0 r j u v := by
        rcases hf.peer with ⟨a, b⟩ | ⟨a, b⟩ <;> rcases hh with hh | hh
        · exact absurd (i0.own j hj r hr u hh a) hjr
        · exact .inl ⟨a, hh⟩
        · exact .inr ⟨a, hh⟩
        · exact absurd (i0.own j hj r hr v hh a) hjr
      exact (i0.peer_far hr hj (Ne.symm hjr) hf hpj).symm
    have hp1 : Peer (sstep d n V0 (.clearEdges r 0)) r ((V0 r).far (u, v)) u v := by
      have := hf.peer; unfold Peer; rw [hlc', hlc']; exact this
    have hnd : ¬ (sstep d n V0 (.clearEdges r 0) ((V0 r).far (u, v))).net.Dirty d u v := by
      rw [hother _ hf.ne]
      intro hd
      exact hno _ hf.lt hf.ne ((i0.one _ hf.lt).dirty_wrote hd)
    have hnr : ¬ (sstep d n V0 (.clearEdges r 0) r).net.Dirty d u v := by
      intro hd
      have := (i1.one r hr).wrote_edge ((i1.one r hr).dirty_wrote hd)
      rw [he] at this; cases this
    have hg : (sstep d n V0 (.clearEdges r 0) r).net.Gone d u v := by
      refine ⟨p, ?_, hs⟩
      show _ ∈ (V0.setNet r _ r).net.rem
      rw [setNet_self]
      exact (mem_insAll _).2 (.inr hp)
    by_cases hkr : k = r
    · subst hkr
      exact (i1.synch_edge hls hk hf.lt (Ne.symm hf.ne) hp1).2.2.1 hnr hnd (.inl hg)
    · by_cases hkf : k = (V0 r).far (u, v)
      · subst hkf
        exact (i1.synch_edge hls hf.lt hr hf.ne hp1.swap).2.2.1 hnd hnr (.inr hg)
      · cases hx : (sstep d n (sstep d n V0 (.clearEdges r 0)) (.synch true) k).net.edge u v with
        | none => rfl
        | some z =>
          exfalso
          have := ((i2.one k hk).ends u v (by rw [hx]; rfl)).2.2
          rw [hlc, hlc'] at this
          exact hkf (hpeer k hk hkr this)

/-- **C43.** The edges that a rank has when it calls `clear_edges` are gone on that rank at once, and are on no rank after the next `synchronize`. -/
theorem C43_cleared_partial (d : Bool) {n : Nat} (hn : 0 < n) (ops : List (WOp S A)) (r : Nat) (hl : LegalRun d n Sp.init (ops ++ [.clearEdges r 0, .synch true])) :
    ∃ w0 w1 w, wrun n (World.init [d]) ops = some w0 ∧ wrun n (World.init [d]) (ops ++ [.clearEdges r 0]) = some w1 ∧
      wrun n (World.init [d]) (ops ++ [.clearEdges r 0, .synch true]) = some w ∧ (∀ u v, (w1 r).edgeAttr 0 u v = none) ∧
      ∀ u v, ((w0 r).edgeAttr 0 u v).isSome = true → ∀ k < n, (w k).edgeAttr 0 u v = none := by
  obtain ⟨hl0, hla, hls, -⟩ := LegalRun.append.1 hl
  obtain ⟨w0, e0, s0, i0⟩ := run_sim hn ops Sp.init (World.init [d]) (SInv.init d n) (init_sim d n) hl0
  obtain ⟨w1, e1, s1⟩ := step_still i0 hn hla s0
  have i1 := i0.step hla
  obtain ⟨w2, e2, s2⟩ := step_still i1 hn hls s1
  have i2 := i1.step hls
  refine ⟨w0, w1, w2, e0, ?_, ?_, ?_, ?_⟩
  · rw [wrun_append, e0, Option.bind_some]
    show (wstep n w0 _ >>= fun w => some w) = _
    rw [e1]; rfl
  · rw [wrun_append, e0, Option.bind_some]
    show (wstep n w0 _ >>= fun w => wrun n w [_]) = _
    rw [e1]
    show (wstep n w1 _ >>= fun w => some w) = _
    rw [e2]; rfl
  · intro u v
    rw [s1.edge hla.1]
    show ((List.foldl (sstep d n) Sp.init ops).setNet r _ r).net.edge u v = _
    rw [setNet_self]; rfl
  · intro u v hb k hk
    rw [s0.edge hla.1] at hb
    rw [s2.edge hk]
    exact i0.cleared_edge hla hls hb hk

/-- `synchronize` changes no edges if nothing is pending. -/
theorem SInv.kept_edge {W : Sp S A} (i1 : SInv NoHid d n W) (hls : Legal d n W (.synch true)) (hc : ∀ j x y, ¬ (W j).net.Dirty d x y ∧ ¬ (W j).net.Gone d x y) {k : Nat} (hk : k < n) (u v : Nat) :
    (sstep d n W (.synch true) k).net.edge u v = (W k).net.edge u v := by
  have i2 := i1.step hls
  have hlc : ∀ j, (sstep d n W (.synch true) j).loc = (W j).loc := fun _ => rfl
  -- the ranks of the ends
  have key : ((W k).net.edge u v).isSome = true ∨ ((sstep d n W (.synch true) k).net.edge u v).isSome = true →
      (sstep d n W (.synch true) k).net.edge u v = (W k).net.edge u v := by
    intro hh
    have : ∃ j < n, (j = k ∧ ((W k).loc u).isSome = true ∧ ((W k).loc v).isSome = true) ∨
        (k ≠ j ∧ Peer W k j u v) := by
      have find : ∀ U : Sp S A, SInv NoHid d n U → (U k).loc = (W k).loc → (∀ j, (U j).loc = (W j).loc) → ((U k).net.edge u v).isSome = true →
          ∃ j < n, (j = k ∧ ((W k).loc u).isSome = true ∧ ((W k).loc v).isSome = true) ∨ (k ≠ j ∧ Peer W k j u v) := by
        intro U hW hk' hj' hE
        obtain ⟨b1, b2, b3⟩ := (hW.one k hk).ends u v hE
        cases hcr : (U k).cross u v with
        | false =>
          unfold RV.cross at hcr
          rw [hk'] at hcr b3
          refine ⟨k, hk, .inl ⟨rfl, ?_⟩⟩
          rcases b3 with hh | hh
          · rw [hh] at hcr; exact ⟨hh, by simpa using hcr.symm⟩
          · rw [hh] at hcr; exact ⟨by simpa using hcr, hh⟩
        | true =>
          have hf := hW.far hk (p := (u, v)) b1 b2 hcr
          refine ⟨_, hf.lt, .inr ⟨Ne.symm hf.ne, ?_⟩⟩
          have := hf.peer
          unfold Peer at this ⊢
          rw [hj', hj'] at this; exact this
      rcases hh with hh | hh
      · exact find _ i1 rfl (fun _ => rfl) hh
      · exact find _ i2 rfl (fun _ => rfl) hh
    obtain ⟨j, hj, ⟨-, a, b⟩ | ⟨hne, hp⟩⟩ := this
    · exact i1.synch_local hls hk a b
    · exact (i1.synch_edge hls hk hj hne hp).2.2.2 (hc _ _ _).1 (hc _ _ _).1 (hc _ _ _).2 (hc _ _ _).2
  cases h1 : (W k).net.edge u v with
  | some z => rw [← h1]; exact key (.inl (by rw [h1]; rfl))
  | none =>
    cases h2 : (sstep d n W (.synch true) k).net.edge u v with
    | none => rfl
    | some z => rw [← h1, ← h2]; exact key (.inr (by rw [h2]; rfl))

/-- **C43.** An edge that is neither added, updated nor removed since the last `synchronize` does not change. -/
theorem C43_kept_partial (d : Bool) {n : Nat} (hn : 0 < n) (ops : List (WOp S A)) (hl : LegalRun d n Sp.init (ops ++ [.synch true, .synch true])) :
    ∃ w0 w, wrun n (World.init [d]) (ops ++ [.synch true]) = some w0 ∧ wrun n (World.init [d]) (ops ++ [.synch true, .synch true]) = some w ∧
      ∀ k < n, ∀ u v, (w k).edgeAttr 0 u v = (w0 k).edgeAttr 0 u v := by
  obtain ⟨hl0, hla, hls, -⟩ := LegalRun.append.1 hl
  obtain ⟨w0, e0, s0, i0⟩ := run_sim hn ops Sp.init (World.init [d]) (SInv.init d n) (init_sim d n) hl0
  obtain ⟨w1, e1, s1⟩ := step_still i0 hn hla s0
  have i1 := i0.step hla
  obtain ⟨w2, e2, s2⟩ := step_still i1 hn hls s1
  refine ⟨w1, w2, ?_, ?_, ?_⟩
  · rw [wrun_append, e0, Option.bind_some]
    show (wstep n w0 _ >>= fun w => some w) = _
    rw [e1]; rfl
  · rw [wrun_append, e0, Option.bind_some]
    show (wstep n w0 _ >>= fun w => wrun n w [_]) = _
    rw [e1]
    show (wstep n w1 _ >>= fun w => some w) = _
    rw [e2]; rfl
  · intro k hk u v
    rw [s2.edge hk, s1.edge hk]
    exact i1.kept_edge hls (fun j x y => synch_clean j x y) hk u v

/-- **C25.** After `synchronize` each ghost has the state of the agent that it stands for; in particular there is such an agent, on exactly one rank. -/
theorem C25_network_partial (d : Bool) {n : Nat} (hn : 0 < n) (ops : List (WOp S A)) (hl : LegalRun d n Sp.init (ops ++ [.synch true])) :
    ∃ w, wrun n (World.init [d]) (ops ++ [.synch true]) = some w ∧
      ∀ k < n, ∀ u s, (w k).ghostAgent u = some s → ∃ r < n, r ≠ k ∧ (w r).agent u = some s ∧ ∀ r' < n, ((w r').agent u).isSome = true → r' = r := by
  obtain ⟨hl0, hls, -⟩ := LegalRun.append.1 hl
  obtain ⟨w0, e0, s0, i0⟩ := run_sim hn ops Sp.init (World.init [d]) (SInv.init d n) (init_sim d n) hl0
  obtain ⟨w1, e1, s1⟩ := step_still i0 hn hls s0
  have i1 := i0.step hls
  refine ⟨w1, ?_, ?_⟩
  · rw [wrun_append, e0, Option.bind_some]
    show (wstep n w0 _ >>= fun w => some w) = _
    rw [e1]; rfl
  · intro k hk u s hg
    rw [s1.ghost hk] at hg
    obtain ⟨⟨s', r⟩, hg1, rfl⟩ := Option.map_eq_some_iff.1 hg
    obtain ⟨a, b, c⟩ := i1.gho k hk u s' r hg1
    refine ⟨r, a, b, ?_, ?_⟩
    · rw [s1.agent a]
      exact i0.synch_ghost hk hg1
    · intro r' hr' hh
      rw [s1.agent hr'] at hh
      exact i1.own r' hr' r a u hh c

/-- **C43, C25.** In a history that is covered each end of an edge of a rank is a local agent or a ghost, and one end is a local agent. -/
theorem C43_ends_partial (d : Bool) {n : Nat} (hn : 0 < n) (ops : List (WOp S A)) (hl : LegalRun d n Sp.init ops) :
    ∃ w, wrun n (World.init [d]) ops = some w ∧ ∀ k < n, ∀ u v, ((w k).edgeAttr 0 u v).isSome = true →
      (∀ x, x = u ∨ x = v → ((w k).agent x).isSome = true ∨ ((w k).ghostAgent x).isSome = true) ∧ (((w k).agent u).isSome = true ∨ ((w k).agent v).isSome = true) := by
  obtain ⟨w, e, hs, hI⟩ := run_sim hn ops Sp.init (World.init [d]) (SInv.init d n) (init_sim d n) hl
  refine ⟨w, e, ?_⟩
  intro k hk u v he
  rw [hs.edge hk] at he
  obtain ⟨a, b, c⟩ := (hI.one k hk).ends u v he
  rw [hs.agent hk, hs.agent hk]
  refine ⟨?_, c⟩
  intro x hx
  have hh : (ops.foldl (sstep d n) Sp.init k).net.has x = true := by
    rcases hx with rfl | rfl
    · exact a
    · exact b
  rw [(hI.one k hk).has, Bool.and_eq_true, Bool.or_eq_true] at hh
  replace hh := hh.1
  rw [hs.agent hk, hs.ghost hk]
  simpa using hh

end Repast.Network
