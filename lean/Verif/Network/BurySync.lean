import Verif.Network.BuryRank

/-!
`synchronize`, if agents were removed: the ghosts of removed agents are dropped, with their nodes and edges; then there is nothing of dead agents left that matters.
-/
namespace Repast.Network
open Repast.Dict Repast.Context

variable {S A : Type} {D : Nat → Bool} {P : Corpse S}

theorem foldlM_lift {α β M : Type} (R : α → β → Prop) {f : α → M → Option α} {g : β → M → Option β} (l : List M)
    (hstep : ∀ m ∈ l, ∀ a b b', R a b → g b m = some b' → ∃ a', f a m = some a' ∧ R a' b') :
    ∀ a b b', R a b → l.foldlM g b = some b' → ∃ a', l.foldlM f a = some a' ∧ R a' b' := by
  induction l with
  | nil => intro a b b' h e; cases e; exact ⟨a, rfl, h⟩
  | cons m l ih =>
    intro a b b' h e
    rw [List.foldlM_cons] at e
    obtain ⟨b1, e1, e2⟩ := Option.bind_eq_some_iff.1 e
    obtain ⟨a1, f1, r1⟩ := hstep m (by simp) a b b1 h e1
    obtain ⟨a2, f2, r2⟩ := ih (fun m hm => hstep m (by simp [hm])) a1 b1 b' r1 e2
    refine ⟨a2, ?_, r2⟩
    rw [List.foldlM_cons, f1]
    exact f2

/-- There is nothing of dead agents. -/
structure Corpse.Bare (P : Corpse S) : Prop where
  removed : P.removed = []
  ghosts : P.ghosts = []
  nets : ∀ x ∈ P.nets, x = ([], [])

theorem filter_not_nil {α : Type} {l : List α} {p : α → Bool} (h : l.filter p = []) : l.filter (fun x => !p x) = l := by
  rw [List.filter_eq_self]
  intro x hx
  have := List.filter_eq_nil_iff.1 h x hx
  simpa using this

theorem clean_pure {g : Graph A} (h : g.dead D = ([], [])) : g.clean D = g := by
  unfold Graph.dead at h
  unfold Graph.clean
  have h1 : g.nodes.filter (fun o => D o.uid) = [] := congrArg Prod.fst h
  have h2 : g.edges.filter (fun e => !liveK D e.1) = [] := congrArg Prod.snd h
  rw [filter_not_nil h1]
  have := filter_not_nil h2
  simp only [Bool.not_not] at this
  rw [this]

theorem pure_sub {g g' : Graph A} (h : g.dead D = ([], [])) (hn : ∀ o ∈ g'.nodes, o ∈ g.nodes) (he : ∀ e ∈ g'.edges, e ∈ g.edges) : g'.dead D = ([], []) := by
  unfold Graph.dead at *
  have h1 : g.nodes.filter (fun o => D o.uid) = [] := congrArg Prod.fst h
  have h2 : g.edges.filter (fun e => !liveK D e.1) = [] := congrArg Prod.snd h
  rw [List.filter_eq_nil_iff] at h1 h2
  refine Prod.ext ?_ ?_
  · exact List.filter_eq_nil_iff.2 fun o ho => h1 o (hn o ho)
  · exact List.filter_eq_nil_iff.2 fun e hm => h2 e (he e hm)

theorem Rel.pure {c b : Cx S A} (h : Rel D P c b) (hP : P.Bare) {pid : Nat} {N : Net A} (hN : c.nets[pid]? = some N) : N.g.dead D = ([], []) := by
  refine hP.nets _ ?_
  rw [← h.dead]
  exact List.mem_map_of_mem (f := fun N : Net A => N.g.dead D) (List.mem_of_getElem? hN)

/-! ### The ends of an edge -/

theorem Rel.ends {c b : Cx S A} (h : Rel D P c b) {u v : Nat} {e : Obj × Obj × Obj} (he : b.ends u v = some e) :
    c.ends u v = some e ∧ D e.1.uid = false ∧ D e.2.1.uid = false ∧ D e.2.2.uid = false := by
  unfold Cx.ends at he ⊢
  cases hg : get b.ghosts u with
  | none =>
    rw [hg] at he
    simp only [] at he
    rw [h.locals] at he
    obtain ⟨o, ho, he⟩ := Option.bind_eq_some_iff.1 he
    obtain ⟨g, hg2, rfl⟩ := Option.map_eq_some_iff.1 he
    have hu := h.live ho
    obtain ⟨h1, h2, h3⟩ := h.ghost hg2
    rw [h.ghost_eq hu] at hg
    rw [hg]
    simp only []
    rw [ho, Option.bind_some, h1]
    have e1 := h.locU u o.1 o.2 ho
    exact ⟨rfl, by rw [e1]; exact hu, by rw [h3]; exact h2, by rw [h3]; exact h2⟩
  | some g =>
    rw [hg] at he
    simp only [] at he
    rw [h.locals] at he
    obtain ⟨o, ho, rfl⟩ := Option.map_eq_some_iff.1 he
    have hv := h.live ho
    obtain ⟨h1, h2, h3⟩ := h.ghost hg
    rw [h1]
    simp only []
    rw [ho]
    have e1 := h.locU v o.1 o.2 ho
    exact ⟨rfl, by rw [h3]; exact h2, by rw [e1]; exact hv, by rw [h3]; exact h2⟩

/-! ### Removed edges -/

theorem Rel.sendRemoved {c b : Cx S A} (h : Rel D P c b) {n pid : Nat} {y : Cx S A × List (Nat × Nat × Nat)} (hb : b.sendRemoved n pid = some y) :
    ∃ c', c.sendRemoved n pid = some (c', y.2) ∧ Rel D P c' y.1 := by
  unfold Cx.sendRemoved at *
  obtain ⟨M, hM, hb⟩ := Option.bind_eq_some_iff.1 hb
  obtain ⟨N, hN, rfl⟩ := h.net hM
  obtain ⟨x, hx, hb⟩ := Option.bind_eq_some_iff.1 hb
  obtain ⟨b2, h2, rfl⟩ := Option.map_eq_some_iff.1 hb
  rw [hN, Option.bind_some]
  obtain ⟨⟨c1, l1⟩, f1, r1, e1⟩ := foldlM_lift (fun (a b : Cx S A × List (Nat × Nat × Nat)) => Rel D P a.1 b.1 ∧ a.2 = b.2)
    (f := fun (acc : Cx S A × List (Nat × Nat × Nat)) e =>
      let gho := if e.2 then e.1.2 else e.1.1
      let loc := if e.2 then e.1.1 else e.1.2
      if c.lrank gho < n then (acc.1.untag (c.lrank gho) loc.uid).map fun c' => (c', acc.2 ++ [(c.lrank gho, e.1.1.uid, e.1.2.uid)]) else none)
    N.toRemove (by
      intro e _ a a2 b' hR hb'
      rw [h.lrank] at hb'
      simp only [] at hb' ⊢
      generalize (if e.2 = true then e.1.2 else e.1.1) = gho at hb' ⊢
      generalize (if e.2 = true then e.1.1 else e.1.2) = loc at hb' ⊢
      by_cases hk : c.lrank gho < n
      · rw [if_pos hk] at hb' ⊢
        obtain ⟨b1, hb1, rfl⟩ := Option.map_eq_some_iff.1 hb'
        obtain ⟨c1, hc1, r1⟩ := hR.1.untag hb1
        rw [hc1]
        exact ⟨_, rfl, r1, by rw [hR.2]⟩
      · rw [if_neg hk] at hb'; cases hb') (c, []) (b, []) x ⟨h, rfl⟩ hx
  simp only [] at r1 e1
  subst e1
  obtain ⟨c2, f2, r2⟩ := r1.withNet_plain h2 fun N _ => ⟨rfl, rfl⟩
  refine ⟨c2, ?_, r2⟩
  rw [f1, Option.bind_some, f2]
  rfl

theorem Rel.removeGhost {c b b' : Cx S A} (h : Rel D P c b) {u : Nat} (hu : D u = false) (hb : b.removeGhost u = some b') : ∃ c', c.removeGhost u = some c' ∧ Rel D P c' b' := by
  unfold Cx.removeGhost at *
  by_cases hr : u ∈ c.req
  · rw [if_pos (by rw [h.req]; exact hr)] at hb
    rw [if_pos hr]; cases hb; exact ⟨c, rfl, h⟩
  · rw [if_neg (by rw [h.req]; exact hr)] at hb
    rw [if_neg hr]
    obtain ⟨g, hg, rfl⟩ := Option.map_eq_some_iff.1 hb
    obtain ⟨h1, -, h3⟩ := h.ghost hg
    rw [h1]
    refine ⟨_, rfl, ?_⟩
    simp only []
    by_cases h0 : (g.ref - 1 : Int) = 0
    · simp only [h0, if_true]; exact h.delGhost hu
    · subst h3
      simp only [h0, if_false]
      exact h.setGhost (g := { g with ref := g.ref - 1 }) hu

theorem Rel.netRemove {c b b' : Cx S A} (h : Rel D P c b) (hP : P.Bare) {pid : Nat} {o : Obj} (hb : (b.withNet pid fun N => N.remove o) = some b') :
    ∃ c', (c.withNet pid fun N => N.remove o) = some c' ∧ Rel D P c' b' := by
  refine h.withNet hb fun N N2 hN h2 => ?_
  have hp := h.pure hP hN
  unfold Net.remove at *
  obtain ⟨g', hg, rfl⟩ := Option.map_eq_some_iff.1 h2
  have hg : (N.g.clean D).removeNode o = some g' := hg
  rw [clean_pure hp] at hg
  rw [hg]
  have hp' : g'.dead D = ([], []) := by
    rw [(removeNode_some hg).2]
    exact pure_sub hp (fun o ho => (List.mem_filter.1 ho).1) (fun e he => (List.mem_filter.1 he).1)
  refine ⟨_, rfl, ?_, by rw [hp']; exact hp.symm⟩
  show _ = ({ N.scrub D with g := g'.clean D } : Net A)
  rw [clean_pure hp']; rfl

theorem Rel.dropEdge {c b b' : Cx S A} (h : Rel D P c b) (hP : P.Bare) {pid : Nat} {u v g : Obj} (hu : D u.uid = false) (hv : D v.uid = false) (hg : D g.uid = false)
    (hb : b.dropEdge pid u v g = some b') : ∃ c', c.dropEdge pid u v g = some c' ∧ Rel D P c' b' := by
  unfold Cx.dropEdge at *
  obtain ⟨b1, h1, hb⟩ := Option.bind_eq_some_iff.1 hb
  obtain ⟨c1, f1, r1⟩ := h.withNet (f' := fun N => (N.g.removeEdge u v).map fun g => { N with g := g }) h1 fun N N2 hN h2 => by
    obtain ⟨g', hg', rfl⟩ := Option.map_eq_some_iff.1 h2
    obtain ⟨e1, e2⟩ := clean_removeEdge (D := D) N.g hu hv
    have hg' : (N.g.clean D).removeEdge u v = some g' := hg'
    rw [e1] at hg'
    obtain ⟨g2, hg2, rfl⟩ := Option.map_eq_some_iff.1 hg'
    rw [hg2]
    exact ⟨_, rfl, rfl, e2 g2 hg2⟩
  rw [f1, Option.bind_some]
  obtain ⟨x, hx, hb⟩ := Option.bind_eq_some_iff.1 hb
  obtain ⟨M, hM, hx⟩ := Option.bind_eq_some_iff.1 hx
  obtain ⟨N, hN, rfl⟩ := r1.net hM
  have hx : N.hasAnyEdge g = some x := by
    unfold Net.hasAnyEdge at *
    have e : (N.clean D).g = N.g := clean_pure (r1.pure hP hN)
    rw [e] at hx; exact hx
  rw [hN, Option.bind_some, hx, Option.bind_some]
  obtain ⟨b2, h2, hb⟩ := Option.bind_eq_some_iff.1 hb
  have key : ∃ c2, (if x = true then some c1 else (c1.removeGhost g.uid).bind fun c => c.withNet pid fun N => N.remove g) = some c2 ∧ Rel D P c2 b2 := by
    split at h2
    · rename_i hxt; rw [if_pos hxt]; cases h2; exact ⟨c1, rfl, r1⟩
    · rename_i hxt
      rw [if_neg hxt]
      obtain ⟨b3, h3, h2⟩ := Option.bind_eq_some_iff.1 h2
      obtain ⟨c3, f3, r3⟩ := r1.removeGhost hg h3
      rw [f3, Option.bind_some]
      exact r3.netRemove hP h2
  obtain ⟨c2, f2, r2⟩ := key
  rw [f2, Option.bind_some]
  refine r2.withNet hb fun N N2 hN h2 => ?_
  obtain ⟨e1, e2⟩ := clean_removeKey (D := D) N hu hv
  rw [e1] at h2
  obtain ⟨N', h3, rfl⟩ := Option.map_eq_some_iff.1 h2
  exact ⟨N', h3, rfl, by rw [e2 N' h3]⟩

theorem Rel.recvRemoved {c b b' : Cx S A} (h : Rel D P c b) (hP : P.Bare) {pid : Nat} {m : Nat × Nat} (hb : b.recvRemoved pid m = some b') :
    ∃ c', c.recvRemoved pid m = some c' ∧ Rel D P c' b' := by
  unfold Cx.recvRemoved at *
  obtain ⟨e, he, hb⟩ := Option.bind_eq_some_iff.1 hb
  obtain ⟨e1, e2, e3, e4⟩ := h.ends he
  rw [e1, Option.bind_some]
  exact h.dropEdge hP e2 e3 e4 hb

/-! ### New and updated edges -/

/-- The same context up to the dead, the same messages, and no messages about dead agents. -/
structure RelS (D : Nat → Bool) (P : Corpse S) (x y : Cx S A × Sync S A) : Prop where
  rel : Rel D P x.1 y.1
  eq : x.2 = y.2
  live : ∀ m ∈ y.2.agents, D m.2.1 = false

theorem RelS.sendNew {x y y' : Cx S A × Sync S A} (h : RelS D P x y) {n pid : Nat} {e : EKey × GEdge} (he : liveK D e.1 = true) (hb : Cx.sendNew n pid y e = some y') :
    ∃ x', Cx.sendNew n pid x e = some x' ∧ RelS D P x' y' := by
  obtain ⟨hr, hq, hl⟩ := h
  unfold Cx.sendNew at *
  simp only [] at hb ⊢
  rw [hr.lrank] at hb
  split at hb
  · rename_i hk
    rw [if_pos hk]
    obtain ⟨M, hM, hb⟩ := Option.bind_eq_some_iff.1 hb
    obtain ⟨N, hN, rfl⟩ := hr.net hM
    rw [hN, Option.bind_some]
    obtain ⟨b1, h1, hb⟩ := Option.bind_eq_some_iff.1 hb
    obtain ⟨c1, f1, r1⟩ := hr.withNet_plain h1 fun N _ => by
      refine ⟨?_, rfl⟩
      show ({ N.clean D with ghosted := Assoc.set (N.ghosted.filter fun e => liveK D e.1) e.1 e.2 } : Net A) =
        { N.clean D with ghosted := (Assoc.set N.ghosted e.1 e.2).filter fun e => liveK D e.1 }
      rw [Assoc.set_filter _ (liveK D) he]
    rw [f1, Option.bind_some]
    obtain ⟨z, hz, rfl⟩ := Option.map_eq_some_iff.1 hb
    have hgt : b1.ghostedTo (x.1.lrank e.2.ghostA) e.2.localA.uid = c1.ghostedTo (x.1.lrank e.2.ghostA) e.2.localA.uid := by unfold Cx.ghostedTo; rw [r1.ghosted]
    rw [hgt] at hz
    have hd : (N.clean D).g.dict e.2.dict = N.g.dict e.2.dict := rfl
    split at hz
    · rename_i ht
      rw [if_pos ht]
      cases hz
      refine ⟨_, rfl, r1, ?_, hl⟩
      simp only []
      rw [hq, hd]
    · rename_i ht
      rw [if_neg ht]
      obtain ⟨o, ho, hz⟩ := Option.bind_eq_some_iff.1 hz
      obtain ⟨b2, h2, rfl⟩ := Option.map_eq_some_iff.1 hz
      obtain ⟨c2, f2, r2⟩ := r1.tag h2
      rw [← r1.locals, ho, Option.bind_some, f2]
      refine ⟨_, rfl, r2, ?_, ?_⟩
      · simp only []
        rw [hq, hd]
      · intro m hm
        rcases List.mem_append.1 hm with hm | hm
        · exact hl m hm
        · rw [List.mem_singleton] at hm
          subst hm
          exact r1.live (by rw [← r1.locals]; exact ho)
  · cases hb

theorem RelS.sendUpdated {x y y' : Cx S A × Sync S A} (h : RelS D P x y) {n pid : Nat} {key : EKey} (hb : Cx.sendUpdated n pid y key = some y') :
    ∃ x', Cx.sendUpdated n pid x key = some x' ∧ RelS D P x' y' := by
  obtain ⟨hr, hq, hl⟩ := h
  unfold Cx.sendUpdated at *
  obtain ⟨M, hM, hb⟩ := Option.bind_eq_some_iff.1 hb
  obtain ⟨N, hN, rfl⟩ := hr.net hM
  rw [hN, Option.bind_some]
  obtain ⟨e, he, hb⟩ := Option.bind_eq_some_iff.1 hb
  have he : Assoc.get (N.ghosted.filter fun e => liveK D e.1) key = some e := he
  have hk : liveK D key = true := by
    cases hk : liveK D key with
    | true => rfl
    | false => rw [Assoc.get_filter_neg _ (liveK D) hk] at he; cases he
  rw [Assoc.get_filter _ (liveK D) hk] at he
  rw [he, Option.bind_some]
  simp only [] at hb ⊢
  rw [hr.lrank] at hb
  split at hb
  · rename_i hn
    rw [if_pos hn]
    cases hb
    refine ⟨_, rfl, hr, ?_, hl⟩
    simp only []
    rw [hq]; rfl
  · cases hb

theorem Rel.sendSync {c b : Cx S A} (h : Rel D P c b) {n pid : Nat} (hnew : ∀ N, c.nets[pid]? = some N → ∀ e ∈ N.newEdges, liveK D e.1 = true) {y : Cx S A × Sync S A}
    (hb : b.sendSync n pid = some y) : ∃ c', c.sendSync n pid = some (c', y.2) ∧ Rel D P c' y.1 ∧ ∀ m ∈ y.2.agents, D m.2.1 = false := by
  unfold Cx.sendSync at *
  obtain ⟨M, hM, hb⟩ := Option.bind_eq_some_iff.1 hb
  obtain ⟨N, hN, rfl⟩ := h.net hM
  rw [hN, Option.bind_some]
  obtain ⟨x, hx, hb⟩ := Option.bind_eq_some_iff.1 hb
  obtain ⟨x2, hx2, hb⟩ := Option.bind_eq_some_iff.1 hb
  obtain ⟨b3, h3, rfl⟩ := Option.map_eq_some_iff.1 hb
  obtain ⟨x', f1, r1⟩ := foldlM_lift (RelS D P) (f := Cx.sendNew n pid) N.newEdges (fun e he a b b' hR hb' => hR.sendNew (hnew N hN e he) hb')
    (c, ⟨[], []⟩) (b, ⟨[], []⟩) x ⟨h, rfl, by simp⟩ hx
  obtain ⟨x2', f2, r2⟩ := foldlM_lift (RelS D P) (f := Cx.sendUpdated n pid) N.toUpdate (fun e he a b b' hR hb' => hR.sendUpdated hb') x' x x2 r1 hx2
  obtain ⟨c3, f3, r3⟩ := r2.rel.withNet_plain h3 fun N _ => ⟨rfl, rfl⟩
  refine ⟨c3, ?_, r3, r2.live⟩
  rw [f1, Option.bind_some, f2, Option.bind_some, f3, ← r2.eq]
  rfl

theorem Rel.recvVertex {c b b' : Cx S A} (h : Rel D P c b) {pid : Nat} {m : Nat × Nat × S} (hm : D m.2.1 = false) (hb : b.recvVertex pid m = some b') :
    ∃ c', c.recvVertex pid m = some c' ∧ Rel D P c' b' := by
  obtain ⟨h1, h2⟩ := h.newObj m.2.1
  unfold Cx.recvVertex at *
  simp only [] at hb ⊢
  rw [h1] at hb
  exact (h2.addGhost m.1 (o := (c.newObj m.2.1).1) hm m.2.2 1).withNet_plain hb fun N _ =>
    ⟨(clean_add N (u := (c.newObj m.2.1).1) hm).1.symm, (clean_add N (u := (c.newObj m.2.1).1) hm).2⟩

theorem Rel.recvEdge {c b b' : Cx S A} (h : Rel D P c b) {pid : Nat} {m : Nat × Nat × Attr A} (hb : b.recvEdge pid m = some b') :
    ∃ c', c.recvEdge pid m = some c' ∧ Rel D P c' b' := by
  unfold Cx.recvEdge at *
  obtain ⟨e, he, hb⟩ := Option.bind_eq_some_iff.1 hb
  obtain ⟨e1, e2, e3, e4⟩ := h.ends he
  rw [e1, Option.bind_some]
  exact h.withNet_plain hb fun N _ => ⟨(clean_put N e2 e3 m.2.2).1.symm, (clean_put N e2 e3 m.2.2).2⟩

/-! ### The references -/

theorem Rel.sendRefs {c b : Cx S A} (h : Rel D P c b) {n pid : Nat} (href : ∀ N, c.nets[pid]? = some N → N.toRef = []) {y : Cx S A × List (Nat × Nat)}
    (hb : b.sendRefs n pid = some y) : ∃ c', c.sendRefs n pid = some (c', y.2) ∧ Rel D P c' y.1 := by
  unfold Cx.sendRefs at *
  obtain ⟨M, hM, hb⟩ := Option.bind_eq_some_iff.1 hb
  obtain ⟨N, hN, rfl⟩ := h.net hM
  rw [hN, Option.bind_some]
  have e : (N.clean D).toRef = N.toRef := rfl
  rw [e, href N hN] at hb
  rw [href N hN]
  obtain ⟨x, hx, hb⟩ := Option.bind_eq_some_iff.1 hb
  cases hx
  obtain ⟨b2, h2, rfl⟩ := Option.map_eq_some_iff.1 hb
  obtain ⟨c2, f2, r2⟩ := h.withNet_plain h2 fun N _ => ⟨rfl, rfl⟩
  refine ⟨c2, ?_, r2⟩
  show (Option.map _ (c.withNet pid _)) = _
  rw [f2]; rfl

end Repast.Network
