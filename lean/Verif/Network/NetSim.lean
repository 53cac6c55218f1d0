import Verif.Network.NetWorld

/-! The model does what the specification for C43 says. -/
namespace Repast.Network
open Repast.Dict Repast.Context

variable {S A : Type} {H : Hid} {d : Bool} {n : Nat} {V : Sp S A} {Q : Nat → Pend A}

/-- The ranks see what the specification says. -/
def Sim (d : Bool) (Q : Nat → Pend A) (n : Nat) (w : World S A) (V : Sp S A) : Prop := ∀ r < n, COk d (Q r) (w r) ∧ (w r).v = V r

theorem SInv.ghost_of_tag (h : SInv H d n V) {r k u : Nat} (hr : r < n) (ht : (V r).tag u k = true) : ∃ s, (V k).gho u = some (s, r) := by
  obtain ⟨hk, hl, hg⟩ := (h.tag r hr u k).1 ht
  obtain ⟨⟨s, j⟩, hg⟩ := Option.isSome_iff_exists.1 hg
  obtain ⟨a, b, c⟩ := h.gho k hk u s j hg
  rw [h.own r hr j a u hl c]
  exact ⟨s, hg⟩

/-! ### States -/

theorem preSynch_sim (h : SInv H d n V) {mv : Nat → Prop} (hQ : ∀ r < n, (Q r).mv = mv) {w : World S A} (hw : Sim d Q n w V) :
    ∃ w', preSynchNet n 0 w = some w' ∧ Sim d (fun r => { Q r with toRef := [] }) n w' V := by
  have hsend : ∀ r < n, ∃ c' l, (w r).sendRefs n 0 = some (c', l) ∧ COk d { Q r with toRef := [] } c' ∧ c'.v = V r ∧ ∀ m ∈ l, mv m.2 ∧ ∃ s, (V r).gho m.2 = some (s, m.1) := by
    intro r hr
    obtain ⟨hc, hv⟩ := hw r hr
    obtain ⟨c', l, e, h1, h2, h3⟩ := hc.sendRefs (n := n) (by intro u s k hg; rw [hv] at hg; exact (h.gho r hr u s k hg).1)
    rw [hv] at h2 h3
    rw [hQ r hr] at h3
    exact ⟨c', l, e, h1, h2, h3⟩
  let out : Nat → List (Nat × Nat) := fun r => sent ((w r).sendRefs n 0)
  refine exchange_some (out := out) (P := fun r c => COk d { Q r with toRef := [] } c ∧ c.v = V r) (Q := fun r c => COk d { Q r with toRef := [] } c ∧ c.v = V r) ?_ ?_
  · intro r hr
    obtain ⟨c', l, e, h1, h2, h3⟩ := hsend r hr
    exact ⟨c', by rw [e]; show some (c', l) = some (c', sent _); rw [e]; rfl, h1, h2⟩
  · intro k hk c hc
    refine foldM_sim (f := fun (c : Cx S A) (m : Nat × Nat) => c.tag m.1 m.2) (fun _ c => COk d { Q k with toRef := [] } c ∧ c.v = V k) (recv n out k) ?_ c hc
    intro pre m suf hl c hc
    have hm : m ∈ recv n out k := by rw [hl]; simp
    obtain ⟨m1, m2⟩ := mem_recv.1 hm
    obtain ⟨c', l, e, h1, h2, h3⟩ := hsend m.1 m1
    have hm' : (k, m.2) ∈ l := by
      have : out m.1 = l := by show sent _ = l; rw [e]; rfl
      rw [← this]; exact m2
    obtain ⟨hmv, s, hs⟩ := h3 _ hm'
    have hg := h.gho m.1 m1 m.2 s k hs
    obtain ⟨c', e, t1, t2⟩ := hc.1.retag (u := m.2) (k := m.1) (by show (Q k).mv m.2; rw [hQ k hk]; exact hmv) (by
      rw [hc.2]; exact (h.tag k hk m.2 m.1).2 ⟨m1, hg.2.2, by rw [hs]; rfl⟩)
    exact ⟨c', e, t1, t2.trans hc.2⟩

theorem updateGhosts_sim (h : SInv H d n V) {w : World S A} (hw : Sim d Q n w V) : ∃ w', updateGhosts n w = some w' ∧ Sim d Q n w' V.states := by
  obtain ⟨w1, e1, s1⟩ : ∃ w', exchange n (fun c => c.sendRemovedAgents n) (fun c m => c.dropGhost m.2) w = some w' ∧ Sim d Q n w' V := by
    refine exchange_some (out := fun _ => []) (P := fun r c => COk d (Q r) c ∧ c.v = V r) (Q := fun r c => COk d (Q r) c ∧ c.v = V r) ?_ ?_
    · intro r hr
      exact ⟨w r, (hw r hr).1.sendRemovedAgents n, hw r hr⟩
    · intro r hr c hc
      rw [recv_nil]
      exact ⟨c, rfl, hc⟩
  have hsend : ∀ r < n, ∃ l, (w1 r).sendStates n = some (w1 r, l) ∧ ∀ k u s, (k, u, s) ∈ l ↔ (V r).tag u k = true ∧ (V r).loc u = some s := by
    intro r hr
    obtain ⟨hc, hv⟩ := s1 r hr
    have := hc.sendStates (n := n) (by intro u k ht; rw [hv] at ht; exact ((h.tag r hr u k).1 ht).1)
    rw [hv] at this
    exact this
  let out : Nat → List (Nat × Nat × S) := fun r => sent ((w1 r).sendStates n)
  have hout : ∀ r < n, (w1 r).sendStates n = some (w1 r, out r) ∧ ∀ k u s, (k, u, s) ∈ out r ↔ (V r).tag u k = true ∧ (V r).loc u = some s := by
    intro r hr
    obtain ⟨l, hl, hm⟩ := hsend r hr
    have : out r = l := by show sent _ = l; rw [hl]; rfl
    rw [this]; exact ⟨hl, hm⟩
  unfold updateGhosts
  rw [e1, Option.bind_some]
  refine exchange_some (out := out) (P := fun r c => COk d (Q r) c ∧ c.v = V r) (Q := fun r c => COk d (Q r) c ∧ c.v = V.states r) ?_ ?_
  · intro r hr
    exact ⟨w1 r, (hout r hr).1, s1 r hr⟩
  · intro k hk c hc
    let F : List (Nat × Nat × S) → RV S A := fun pre => { V k with gho := fun x => if pre.any (fun m => decide (m.2.1 = x)) then (V.states k).gho x else (V k).gho x }
    have hst : ∀ x, (V.states k).gho x = ((V k).gho x).map fun g => (((V g.2).loc x).getD g.1, g.2) := fun _ => rfl
    obtain ⟨c', e, hc', hv'⟩ := foldM_sim (f := fun (c : Cx S A) (m : Nat × Nat × S) => c.updateGhost m.2.1 m.2.2) (fun pre c => COk d (Q k) c ∧ c.v = F pre) (recv n out k) (by
      intro pre m suf hl c hc
      have hm : m ∈ recv n out k := by rw [hl]; simp
      obtain ⟨h1, h2⟩ := mem_recv.1 hm
      obtain ⟨ht, hloc⟩ := ((hout m.1 h1).2 _ _ _).1 h2
      obtain ⟨g, hg⟩ := h.ghost_of_tag h1 ht
      have hF : (F pre).gho m.2.1 = (if pre.any (fun m' => decide (m'.2.1 = m.2.1)) then some (m.2.2, m.1) else some (g, m.1)) := by
        show (if _ then _ else _) = _
        rw [hst, hg]; simp [hloc]
      obtain ⟨c', e, hc', hv'⟩ := hc.1.updateGhost (u := m.2.1) (by rw [hc.2, hF]; split <;> rfl) m.2.2
      refine ⟨c', e, hc', ?_⟩
      rw [hv', hc.2]
      refine congrArg (fun g => ({ V k with gho := g } : RV S A)) ?_
      funext x
      by_cases hx : x = m.2.1
      · subst hx
        rw [if_pos rfl, hF]
        have : (pre ++ [m]).any (fun m' => decide (m'.2.1 = m.2.1)) = true := by simp
        rw [if_pos this, hst, hg]
        simp only [Option.map_some, hloc, Option.getD_some]
        split <;> rfl
      · rw [if_neg hx]
        have : (pre ++ [m]).any (fun m' => decide (m'.2.1 = x)) = pre.any (fun m' => decide (m'.2.1 = x)) := by
          rw [List.any_append]; simp [Ne.symm hx]
        rw [this]) c ⟨hc.1, by rw [hc.2]; show V k = F []; rfl⟩
    refine ⟨c', e, hc', ?_⟩
    rw [hv']
    refine congrArg (fun g => ({ V k with gho := g } : RV S A)) ?_
    funext x
    show (if _ then _ else _) = _
    split
    · rfl
    · rename_i hh
      show _ = (V.states k).gho x
      rw [hst]
      cases hg : (V k).gho x with
      | none => rfl
      | some g =>
        exfalso
        obtain ⟨a, b, c⟩ := h.gho k hk x g.1 g.2 hg
        obtain ⟨s, hs⟩ := Option.isSome_iff_exists.1 c
        have ht : (V g.2).tag x k = true := (h.tag g.2 a x k).2 ⟨hk, c, by rw [hg]; rfl⟩
        exact hh (List.any_eq_true.2 ⟨(g.2, x, s), mem_recv.2 ⟨a, ((hout g.2 a).2 _ _ _).2 ⟨ht, hs⟩⟩, by simp⟩)

/-! ### Removals -/

theorem ite_snoc {α : Type} (P : Prop) [Decidable P] (b : Bool) (z : Option α) : (if P then none else if b = true then none else z) = if (b || (decide P || false)) = true then none else z := by
  by_cases hP : P <;> cases b <;> simp [hP]

theorem SInv.remIn_once (h : SInv H d n V) {k : Nat} : (V.remIn n k).Pairwise fun m m' => ¬ SameN d m.2.1 m.2.2 m'.2.1 m'.2.2 := by
  unfold Sp.remIn
  refine recv_pairwise ?_ ?_
  · intro r hr
    rw [List.pairwise_map]
    exact (h.one r hr).once.imp fun hh _ _ => hh
  · intro r hr r' hr' hne m m' hm hm' hs
    have h1 : (r, m) ∈ V.remIn n k := mem_recv.2 ⟨hr, hm⟩
    have h2 : (r', m') ∈ V.remIn n k := mem_recv.2 ⟨hr', hm'⟩
    have a := h.remIn h1
    have b := h.remIn h2
    exact hne (h.peer_uniq hr hr' a.2.2.1 a.2.1 b.2.1 (a.2.2.2.1.same hs) b.2.2.2.1)

/-- The agent of a removed edge is a ghost on the other rank. -/
theorem SInv.rem_ghost (h : SInv H d n V) {r : Nat} (hr : r < n) {p : Nat × Nat} (hp : p ∈ (V r).net.rem) : ((V ((V r).far p)).gho ((V r).near p)).isSome = true := by
  have hf := h.far_noted hr (.inr (.inr (.inr hp)))
  have he := ((h.two r hr _ hf.lt (Ne.symm hf.ne)).rem p hp hf.peer).1
  have h1 := h.one _ hf.lt
  have hh := h1.ends _ _ he
  have hn : (V ((V r).far p)).net.has ((V r).near p) = true := by
    rcases ((V r).ends p ((V r).near p)).2 (.inl rfl) with e | e
    · rw [e]; exact hh.1
    · rw [e]; exact hh.2.1
  rw [h1.has, Bool.and_eq_true, Bool.or_eq_true] at hn
  rcases hn.1 with hn | hn
  · exact absurd (h.own _ hf.lt r hr _ hn hf.near) hf.ne
  · exact hn

theorem removals_sim (h : SInv H d n V)
    (hreq : ∀ r < n, ∀ p ∈ (V r).net.rem, (V ((V r).far p)).req ((V r).near p) = false)
    (hone : ∀ r < n, ∀ p ∈ (V r).net.rem, ∀ x y, ((V ((V r).far p)).net.edge x y).isSome = true → (x = (V r).near p ∨ y = (V r).near p) → SameN d p.1 p.2 x y)
    (hmv : ∀ r < n, ∀ p ∈ (V r).net.rem, ¬ (Q r).mv ((V r).near p) ∧ ¬ (Q ((V r).far p)).mv ((V r).near p))
    {w : World S A} (hw : Sim d Q n w V) : ∃ w', exchange n (fun c => c.sendRemoved n 0) (fun c m => c.recvRemoved 0 m.2) w = some w' ∧ Sim d Q n w' (V.removals d n) := by
  let F : Nat → List (Nat × Nat × Nat) → RV S A := fun k pre =>
    { V k with
      tag := fun u j => (V k).tag u j && !((V k).net.rem.any fun p => decide (u = (V k).near p ∧ j = (V k).far p))
      gho := fun x => if pre.any (fun m => decide (x = m.2.1 ∨ x = m.2.2)) then none else (V k).gho x
      net := { (V k).net with
        has := fun x => (V k).net.has x && !(decide (((V k).gho x).isSome = true) && pre.any (fun m => decide (x = m.2.1 ∨ x = m.2.2)))
        edge := fun x y => if pre.any (fun m => decide (SameN d m.2.1 m.2.2 x y)) then none else (V k).net.edge x y
        rem := [] } }
  refine exchange_some (out := fun r => (V r).net.rem.map fun p => ((V r).far p, p.1, p.2)) (P := fun r c => COk d (Q r) c ∧ c.v = F r []) (Q := fun r c => COk d (Q r) c ∧ c.v = V.removals d n r) ?_ ?_
  · intro r hr
    obtain ⟨hc, hv⟩ := hw r hr
    have := hc.sendRemoved (n := n) (by
      rw [hv]
      intro p hp
      have hf := h.far_noted hr (.inr (.inr (.inr hp)))
      exact ⟨hf.lt, (h.tag r hr _ _).2 ⟨hf.lt, hf.near, h.rem_ghost hr hp⟩, (hmv r hr p hp).1⟩) (by
      rw [hv]
      unfold List.Nodup
      rw [List.pairwise_map]
      refine (h.one r hr).once.imp_of_mem ?_
      intro p q hp hq hs e
      simp only [Prod.mk.injEq] at e
      have hfq := h.far_noted hr (.inr (.inr (.inr hq)))
      have heq := ((h.two r hr _ hfq.lt (Ne.symm hfq.ne)).rem q hq hfq.peer).1
      refine hs (hone r hr p hp q.1 q.2 (by rw [e.2]; exact heq) ?_)
      rw [e.1]
      have := ((V r).ends q ((V r).near q)).2 (.inl rfl)
      exact this.imp Eq.symm Eq.symm)
    rw [hv] at this
    obtain ⟨c', e, hc', hv'⟩ := this
    refine ⟨c', e, hc', ?_⟩
    rw [hv']
    show _ = F r []
    simp [F]
  · intro k hk c hc
    show ∃ c', (V.remIn n k).foldlM _ c = some c' ∧ COk d (Q k) c' ∧ c'.v = V.removals d n k
    refine foldM_sim (f := fun (c : Cx S A) (m : Nat × Nat × Nat) => c.recvRemoved 0 m.2) (fun pre c => COk d (Q k) c ∧ c.v = F k pre) (V.remIn n k) ?_ c hc
    intro pre m suf hl c hc
    have hm : m ∈ V.remIn n k := by rw [hl]; simp
    have hpre : ∀ m' ∈ pre, m' ∈ V.remIn n k := by intro m' hm'; rw [hl]; simp [hm']
    have honce := pairwise_split h.remIn_once hl
    obtain ⟨hF, hne, -, hp, he, hnw, hol, hnl⟩ := h.remIn hm
    obtain ⟨m1, m2, m3⟩ := mem_remIn.1 hm
    have hng : ((V k).gho ((V m.1).near m.2)).isSome = true := by have := h.rem_ghost m1 m2; rw [m3] at this; exact this
    have hone' : ∀ m' ∈ V.remIn n k, ∀ x y, ((V k).net.edge x y).isSome = true → (x = (V m'.1).near m'.2 ∨ y = (V m'.1).near m'.2) → SameN d m'.2.1 m'.2.2 x y := by
      intro m' hm' x y hxy hh
      obtain ⟨a, b, c⟩ := mem_remIn.1 hm'
      exact hone m'.1 a m'.2 b x y (by rw [c]; exact hxy) hh
    have hends := ((V m.1).ends m.2 ((V m.1).near m.2)).2 (.inl rfl)
    have hfree : ∀ m' ∈ pre, ¬ ((V m.1).near m.2 = m'.2.1 ∨ (V m.1).near m.2 = m'.2.2) := by
      intro m' hm' hh
      have e := h.remGhost (hpre m' hm') hh hng
      exact honce m' hm' (hone' m' (hpre m' hm') _ _ he (by rw [← e]; exact hends.imp Eq.symm Eq.symm))
    have hgpre : ((F k pre).gho ((V m.1).near m.2)).isSome = true := by
      show (if _ then _ else _ : Option _).isSome = true
      rw [if_neg]
      · exact hng
      · intro hh
        obtain ⟨m', hm', e⟩ := List.any_eq_true.1 hh
        exact hfree m' hm' (of_decide_eq_true e)
    have hghost : ∀ z, z = m.2.1 ∨ z = m.2.2 → ((F k pre).gho z).isSome = true → z = (V m.1).near m.2 ∧ ((V k).gho z).isSome = true := by
      intro z hz hzg
      have hzg : ((if pre.any (fun m => decide (z = m.2.1 ∨ z = m.2.2)) then none else (V k).gho z : Option (S × Nat))).isSome = true := hzg
      split at hzg
      · cases hzg
      · exact ⟨h.remGhost hm hz hzg, hzg⟩
    have heFe : ∀ x y, ((F k pre).net.edge x y).isSome = true → ((V k).net.edge x y).isSome = true := by
      intro x y hx
      have hx : ((if pre.any (fun m => decide (SameN d m.2.1 m.2.2 x y)) then none else (V k).net.edge x y : Option (Attr A))).isSome = true := hx
      split at hx
      · cases hx
      · exact hx
    obtain ⟨c', e, hc', hv'⟩ := hc.1.recvRemoved (u := m.2.1) (v := m.2.2) (by
        rw [hc.2]
        have hno : (V m.1).near m.2 = m.2.1 ∧ (V m.1).other m.2 = m.2.2 ∨ (V m.1).near m.2 = m.2.2 ∧ (V m.1).other m.2 = m.2.1 := by
          unfold RV.near RV.other; split
          · exact .inl ⟨rfl, rfl⟩
          · exact .inr ⟨rfl, rfl⟩
        rcases hno with ⟨a, b⟩ | ⟨a, b⟩
        · rw [a] at hgpre; rw [b] at hol; exact .inr ⟨hgpre, hol⟩
        · rw [a] at hgpre; rw [b] at hol; exact .inl ⟨hol, hgpre⟩)
      (by
        rw [hc.2]
        show (if _ then _ else _ : Option _).isSome = true
        rw [if_neg]
        · exact he
        · intro hh
          obtain ⟨m', hm', e⟩ := List.any_eq_true.1 hh
          exact honce m' hm' (of_decide_eq_true e))
      (by
        rw [hc.2]
        intro x y z hx hz hzg hzx
        obtain ⟨a, b⟩ := hghost z hz hzg
        refine hone' m hm x y (heFe x y hx) ?_
        rw [← a]; exact hzx.imp Eq.symm Eq.symm)
      (by
        rw [hc.2]
        intro z hz hzg
        obtain ⟨a, b⟩ := hghost z hz hzg
        have := hreq m.1 m1 m.2 m2
        rw [m3, ← a] at this
        exact this)
      (by
        rw [hc.2]
        intro z hz hzg
        obtain ⟨a, b⟩ := hghost z hz hzg
        have := (hmv m.1 m1 m.2 m2).2
        rw [m3, ← a] at this
        exact this)
      (by
        rw [hc.2]
        intro p hp hs
        exact hnw ⟨p, hp, hs.symm⟩)
      (by rw [hc.2])
    refine ⟨c', e, hc', ?_⟩
    rw [hv', hc.2]
    have eg : (fun x => if x = m.2.1 ∨ x = m.2.2 then none else (F k pre).gho x) = (F k (pre ++ [m])).gho := by
      funext x
      show (if _ then _ else if _ then _ else _) = (if _ then _ else _)
      rw [List.any_append]
      exact ite_snoc _ _ _
    have eh : (fun x => (F k pre).net.has x && !decide ((x = m.2.1 ∨ x = m.2.2) ∧ ((F k pre).gho x).isSome = true)) = (F k (pre ++ [m])).net.has := by
      funext x
      have e1 : (F k pre).net.has x = ((V k).net.has x && !(decide (((V k).gho x).isSome = true) && pre.any (fun m => decide (x = m.2.1 ∨ x = m.2.2)))) := rfl
      have e2 : (F k (pre ++ [m])).net.has x = ((V k).net.has x && !(decide (((V k).gho x).isSome = true) && (pre ++ [m]).any (fun m => decide (x = m.2.1 ∨ x = m.2.2)))) := rfl
      have e3 : (F k pre).gho x = if pre.any (fun m => decide (x = m.2.1 ∨ x = m.2.2)) then none else (V k).gho x := rfl
      rw [e1, e2, e3, List.any_append]
      cases pre.any (fun m => decide (x = m.2.1 ∨ x = m.2.2)) <;> cases ((V k).gho x) <;> cases (V k).net.has x <;> simp
    have ee : (fun x y => if SameN d m.2.1 m.2.2 x y then none else (F k pre).net.edge x y) = (F k (pre ++ [m])).net.edge := by
      funext x y
      show (if _ then _ else if _ then _ else _) = (if _ then _ else _)
      rw [List.any_append]
      exact ite_snoc _ _ _
    rw [eg, eh, ee]

/-! ### Copies -/

theorem SInv.agentsIn_once (h : SInv H d n V) {k : Nat} : (V.agentsIn n k).Pairwise fun m m' => m.2.1 ≠ m'.2.1 := by
  unfold Sp.agentsIn
  refine recv_pairwise ?_ ?_
  · intro r hr
    refine (sendAgents_once _ _).imp ?_
    intro m m' hh e1 e2 e3
    exact hh ⟨e1.trans e2.symm, e3⟩
  · intro r hr r' hr' hne m m' hm hm' e
    obtain ⟨-, -, -, -, -, h1⟩ := (mem_sendAgents _ _ _).1 hm
    obtain ⟨-, -, -, -, -, h2⟩ := (mem_sendAgents _ _ _).1 hm'
    simp only at e h1 h2
    exact hne (h.own r hr r' hr' m.1 (by rw [h1]; rfl) (by rw [e, h2]; rfl))

theorem find?_snoc {M : Type} {p : M → Bool} {pre : List M} {m : M} : (pre ++ [m]).find? p = match pre.find? p with | some x => some x | none => if p m then some m else none := by
  rw [List.find?_append]
  cases pre.find? p with
  | some x => rfl
  | none =>
    show List.find? p [m] = _
    by_cases hp : p m = true
    · simp [hp]
    · simp [hp]

theorem copies_sim (h : SInv H d n V) (hQH : ∀ r < n, (Q r).hid = H r) (hH : ∀ r < n, ∀ p ∈ (V r).net.new, H ((V r).far p) ((V r).near p) = false) (hrem : ∀ r < n, (V r).net.rem = [])
    (hconf : ∀ r < n, ∀ k < n, ∀ u v, (V r).net.Dirty d u v → (V k).net.Dirty d u v → (V r).net.edge u v = (V k).net.edge u v)
    {w : World S A} (hw : Sim d Q n w V) :
    ∃ w', (let q := (List.range n).map fun r => (w r).sendSync n 0
      let x : Nat → Option (Cx S A × Sync S A) := fun r => q[r]?.bind id
      (each n (fun r => (x r).map (·.1)) w).bind fun w =>
        (each n (fun r => (recv n (fun s => sentAgents (x s)) r).foldlM (fun c m => c.recvVertex 0 m) (w r)) w).bind fun w =>
          each n (fun r => (recv n (fun s => sentEdges (x s)) r).foldlM (fun c m => c.recvEdge 0 m.2) (w r)) w) = some w' ∧ Sim d Q n w' (V.copies d n) := by
  have hC := h.copies hH hrem hconf
  let G : Nat → List (Nat × Nat × S) → RV S A := fun k pre =>
    { V k with
      tag := fun u j => (V k).tag u j || ((V k).net.new.any fun p => decide (u = (V k).near p ∧ j = (V k).far p))
      gho := fun x => match pre.find? (fun m => decide (m.2.1 = x)) with
        | some m => some (m.2.2, m.1)
        | none => (V k).gho x
      net := { (V k).net with
        has := fun x => (V k).net.has x || pre.any (fun m => decide (m.2.1 = x))
        new := []
        upd := []
        syn := (V k).net.new.foldl ins (V k).net.syn } }
  let E : Nat → List (Nat × Nat × Nat × Attr A) → RV S A := fun k pre =>
    { V.copies d n k with
      net := { (V.copies d n k).net with
        edge := fun x y => match pre.find? (fun m => decide (SameN d m.2.1 m.2.2.1 x y)) with
          | some m => some m.2.2.2
          | none => (V k).net.edge x y } }
  have hsend : ∀ r < n, ∃ c, (w r).sendSync n 0 = some (c, ⟨(V r).sendAgents (V r).net.new, (V r).sendEdges (V r).net.new ++ (V r).sendEdges (V r).net.upd⟩) ∧ COk d (Q r) c ∧ c.v = G r [] := by
    intro r hr
    obtain ⟨hc, hv⟩ := hw r hr
    have := hc.sendSync (n := n) (by
      rw [hv]
      intro p hp
      exact (h.far_noted hr (hp.elim .inl (fun hh => .inr (.inr (.inl hh))))).lt)
    rw [hv] at this
    obtain ⟨c', e, hc', hv'⟩ := this
    refine ⟨c', e, hc', ?_⟩
    rw [hv']
    show _ = G r []
    simp [G]
  obtain ⟨w1, e1, s1⟩ := each_some (n := n) (f := fun r => (((List.range n).map fun r => (w r).sendSync n 0)[r]?.bind id).map (·.1)) (w := w) (P := fun r c => COk d (Q r) c ∧ c.v = G r []) (by
    intro r hr
    obtain ⟨c, e, hc⟩ := hsend r hr
    rw [get_map_range _ hr, e]
    exact ⟨c, rfl, hc⟩)
  have hA : ∀ k, recv n (fun s => sentAgents (((List.range n).map fun r => (w r).sendSync n 0)[s]?.bind id)) k = V.agentsIn n k := by
    intro k
    refine recv_congr ?_ k
    intro r hr
    obtain ⟨c, e, hc⟩ := hsend r hr
    rw [get_map_range _ hr, e]; rfl
  have hE : ∀ k, recv n (fun s => sentEdges (((List.range n).map fun r => (w r).sendSync n 0)[s]?.bind id)) k = V.edgesIn n k := by
    intro k
    refine recv_congr ?_ k
    intro r hr
    obtain ⟨c, e, hc⟩ := hsend r hr
    rw [get_map_range _ hr, e]; rfl
  obtain ⟨w2, e2, s2⟩ := each_some (n := n) (f := fun k => (V.agentsIn n k).foldlM (fun c m => c.recvVertex 0 m) (w1 k)) (w := w1) (P := fun k c => COk d (Q k) c ∧ c.v = G k (V.agentsIn n k)) (by
    intro k hk
    refine foldM_sim (f := fun (c : Cx S A) m => c.recvVertex 0 m) (fun pre c => COk d (Q k) c ∧ c.v = G k pre) (V.agentsIn n k) ?_ _ (s1 k hk).2
    intro pre m suf hl c hc
    have hm : m ∈ V.agentsIn n k := by rw [hl]; simp
    have honce := pairwise_split h.agentsIn_once hl
    obtain ⟨h1, p, hp, h2, h3, h4, h5⟩ := mem_agentsIn.1 hm
    have hf := h.far_noted h1 (.inl hp)
    have hnk : m.1 ≠ k := by rw [← h2]; exact Ne.symm hf.ne
    have hls : ((V m.1).loc m.2.1).isSome = true := by rw [h5]; rfl
    have hfind : pre.find? (fun m' => decide (m'.2.1 = m.2.1)) = none := by
      rw [List.find?_eq_none]
      intro m' hm' e
      exact honce m' hm' (of_decide_eq_true e)
    obtain ⟨c', e, hc', hv'⟩ := hc.1.recvVertex (u := m.2.1) (k := m.1) (by
        rw [hc.2]
        show (V k).loc m.2.1 = none
        cases hh : (V k).loc m.2.1 with
        | none => rfl
        | some s => exact absurd (h.own m.1 h1 k hk m.2.1 hls (by rw [hh]; rfl)) hnk)
      (by
        rw [hc.2]
        show (match pre.find? (fun m' => decide (m'.2.1 = m.2.1)) with | some m => some (m.2.2, m.1) | none => (V k).gho m.2.1) = none
        rw [hfind]
        cases hh : (V k).gho m.2.1 with
        | none => rfl
        | some g =>
          have := (h.tag m.1 h1 m.2.1 k).2 ⟨hk, hls, by rw [hh]; rfl⟩
          rw [h4] at this; cases this)
      (by
        have hrk : c.rank = k := by
          have := congrArg RV.rank hc.2
          exact this.trans (h.rank k hk)
        rw [hrk]; exact hnk) m.2.2
    refine ⟨c', e, hc', ?_⟩
    rw [hv', hc.2]
    have eg : (fun x => if x = m.2.1 then some (m.2.2, m.1) else (G k pre).gho x) = (G k (pre ++ [m])).gho := by
      funext x
      have e1 : ∀ l, (G k l).gho x = match l.find? (fun m => decide (m.2.1 = x)) with
        | some m => some (m.2.2, m.1)
        | none => (V k).gho x := fun _ => rfl
      rw [e1, e1, find?_snoc]
      by_cases hx : x = m.2.1
      · subst hx
        rw [if_pos rfl, hfind]; simp
      · rw [if_neg hx]
        cases pre.find? (fun m => decide (m.2.1 = x)) with
        | some y => rfl
        | none => simp [Ne.symm hx]
    have eh : (fun x => (G k pre).net.has x || decide (x = m.2.1)) = (G k (pre ++ [m])).net.has := by
      funext x
      show (((V k).net.has x || pre.any (fun m => decide (m.2.1 = x))) || decide (x = m.2.1)) = ((V k).net.has x || (pre ++ [m]).any (fun m => decide (m.2.1 = x)))
      rw [List.any_append, Bool.or_assoc]
      congr 2
      by_cases hx : x = m.2.1
      · subst hx; simp
      · simp [hx, Ne.symm hx]
    rw [eg, eh])
  have hGH : ∀ k, G k (V.agentsIn n k) = E k [] := fun k => rfl
  obtain ⟨w3, e3, s3⟩ := each_some (n := n) (f := fun k => (V.edgesIn n k).foldlM (fun (c : Cx S A) (m : Nat × Nat × Nat × Attr A) => c.recvEdge 0 m.2) (w2 k)) (w := w2)
      (P := fun k c => COk d (Q k) c ∧ c.v = E k (V.edgesIn n k)) (by
    intro k hk
    refine foldM_sim (f := fun (c : Cx S A) (m : Nat × Nat × Nat × Attr A) => c.recvEdge 0 m.2) (fun pre c => COk d (Q k) c ∧ c.v = E k pre) (V.edgesIn n k) ?_ _ (by
      have := (s2 k hk).2; rw [hGH] at this; exact this)
    intro pre m suf hl c hc
    have hm : m ∈ V.edgesIn n k := by rw [hl]; simp
    have hpre : ∀ m' ∈ pre, m' ∈ V.edgesIn n k := by intro m' hm'; rw [hl]; simp [hm']
    obtain ⟨hF, hfar, hnk, -, hp, hdirty, hedge⟩ := h.edgesIn hm
    obtain ⟨m1, m2, -, -⟩ := mem_edgesIn.1 hm
    have hce : ((V.copies d n k).net.edge m.2.1 m.2.2.1).isSome = true := by
      rw [(h.copies_edge m1 hk hnk hp).1 hdirty, hedge]; rfl
    have hCk := hC.one k hk
    obtain ⟨a1, a2, -⟩ := hCk.ends _ _ hce
    have hloc : (V.copies d n k).loc = (V k).loc := rfl
    have hnl : ∀ x, ((V m.1).loc x).isSome = true → ((V k).loc x).isSome = false := by
      intro x hx
      cases hh : ((V k).loc x).isSome with
      | false => rfl
      | true => exact absurd (h.own m.1 m1 k hk x hx hh) hnk
    have hvis : (Q k).hid m.2.1 = false ∧ (Q k).hid m.2.2.1 = false := by
      rw [hQH k hk]
      rw [hCk.has, Bool.and_eq_true, Bool.not_eq_true'] at a1 a2
      exact ⟨a1.2, a2.2⟩
    have hg : ((V.copies d n k).loc m.2.1).isSome = true ∧ ((V.copies d n k).gho m.2.2.1).isSome = true ∨ ((V.copies d n k).gho m.2.1).isSome = true ∧ ((V.copies d n k).loc m.2.2.1).isSome = true := by
      rw [hloc]
      rw [hCk.has, hloc, Bool.and_eq_true, Bool.or_eq_true] at a1 a2
      replace a1 := a1.1; replace a2 := a2.1
      rcases hp with ⟨b1, b2⟩ | ⟨b1, b2⟩
      · refine .inr ⟨a1.resolve_left ?_, b2⟩
        rw [hnl _ b1]; simp
      · refine .inl ⟨b2, a2.resolve_left ?_⟩
        rw [hnl _ b1]; simp
    obtain ⟨c', e, hc', hv'⟩ := hc.1.recvEdge (u := m.2.1) (v := m.2.2.1) hvis m.2.2.2 (by rw [hc.2]; exact hg)
      (by
        rw [hc.2]
        intro p hp' hs
        have hp' : p ∈ (V.copies d n k).net.new ∨ p ∈ (V.copies d n k).net.syn := hp'
        rcases hs with ⟨b1, b2⟩ | ⟨hd, b1, b2⟩
        · exact Prod.ext b1.symm b2.symm
        · exfalso
          have hmw : (m.2.1, m.2.2.1) ∈ (V.copies d n m.1).net.syn := by
            refine (mem_foldl_ins _ _ _).2 ?_
            rcases m2 with m2 | m2
            · exact .inr m2
            · exact ((h.one m.1 m1).upd _ m2).symm
          have hpe : p = (m.2.2.1, m.2.1) := Prod.ext b2.symm b1.symm
          have := hC.orient hd m.1 m1 k hk _ (.inr hmw)
          rw [hpe] at hp'
          exact hp'.elim this.1 this.2)
      (by rw [hc.2]; exact hrem k hk)
    refine ⟨c', e, hc', ?_⟩
    rw [hv', hc.2]
    have ee : (fun x y => if SameN d m.2.1 m.2.2.1 x y then some (merge (((E k pre).net.edge x y).getD []) m.2.2.2) else (E k pre).net.edge x y) = (E k (pre ++ [m])).net.edge := by
      funext x y
      have e1 : ∀ l, (E k l).net.edge x y = match l.find? (fun m => decide (SameN d m.2.1 m.2.2.1 x y)) with
          | some m => some m.2.2.2
          | none => (V k).net.edge x y := fun _ => rfl
      rw [e1, e1, find?_snoc]
      by_cases hs : SameN d m.2.1 m.2.2.1 x y
      · rw [if_pos hs]
        have hpx := hp.same hs
        obtain ⟨-, d1, d2⟩ := h.sender m1 hk hnk hpx hm hs
        have hok := (h.one m.1 m1).ok _ _ _ hedge
        cases hf : pre.find? (fun m => decide (SameN d m.2.1 m.2.2.1 x y)) with
        | some m' =>
          have g1 := hpre m' (List.mem_of_find?_eq_some hf)
          have g2 : SameN d m'.2.1 m'.2.2.1 x y := by simpa using List.find?_some hf
          obtain ⟨-, -, d3⟩ := h.sender m1 hk hnk hpx g1 g2
          rw [d2] at d3
          simp only [Option.some.injEq] at d3
          simp only [Option.getD_some, d3]
          rw [merge_self (by rw [← d3]; exact hok)]
        | none =>
          simp only [hs, decide_true, if_true]
          congr 1
          cases hk' : (V k).net.edge x y with
          | none => exact merge_new m.2.2.2 [] hok
          | some b =>
            refine merge_replace ?_ hok
            show Dict.keys b <+: _
            by_cases hdk : (V k).net.Dirty d x y
            · have := hconf m.1 m1 k hk x y d1 hdk
              rw [d2, hk'] at this
              simp only [Option.some.injEq] at this
              rw [this]; exact List.prefix_refl _
            · exact (h.two m.1 m1 k hk hnk).before x y hpx d1 hdk b m.2.2.2 hk' d2
      · rw [if_neg hs]
        cases pre.find? (fun m => decide (SameN d m.2.1 m.2.2.1 x y)) with
        | some y => rfl
        | none => simp [hs]
    rw [ee])
  refine ⟨w3, ?_, fun r hr => (s3 r hr).2⟩
  simp only []
  rw [e1, Option.bind_some]
  simp only [hA, hE]
  rw [e2, Option.bind_some, e3]

end Repast.Network
