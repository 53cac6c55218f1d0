import Verif.Network.BurySync

/-! All ranks, if agents were removed. -/
namespace Repast.Network
open Repast.Dict Repast.Context

variable {S A : Type} {D : Nat → Bool} {n : Nat}

/-! ### The ghosts of removed agents are dropped -/

/-- What a rank has of dead agents: ghosts, their nodes and edges. -/
structure Corpse.Ok (D : Nat → Bool) (P : Corpse S) : Prop where
  gho : ∀ u g, get P.ghosts u = some g → g.obj.uid = u ∧ D u = true ∧ ∀ x ∈ P.nets, g.obj ∈ x.1
  node : ∀ x ∈ P.nets, ∀ o ∈ x.1, ∃ g, get P.ghosts o.uid = some g ∧ g.obj = o
  edge : ∀ x ∈ P.nets, ∀ e ∈ x.2, e.1.1 ∈ x.1 ∨ e.1.2 ∈ x.1

def Corpse.drop (P : Corpse S) (u : Nat) (o : Obj) : Corpse S :=
  { P with
    ghosts := Dict.del P.ghosts u
    nets := P.nets.map fun x => (x.1.filter (fun y => decide (y ≠ o)), x.2.filter fun e => decide (e.1.1 ≠ o) && decide (e.1.2 ≠ o)) }

theorem Corpse.Ok.drop {P : Corpse S} (h : P.Ok D) {u : Nat} {g : Gh S} (hg : get P.ghosts u = some g) : (P.drop u g.obj).Ok D where
  gho := by
    intro x g' hx
    have hx : get (Dict.del P.ghosts u) x = some g' := hx
    rw [Dict.get_del] at hx
    split at hx
    · cases hx
    · rename_i hne
      obtain ⟨h1, h2, h3⟩ := h.gho x g' hx
      refine ⟨h1, h2, ?_⟩
      intro y hy
      obtain ⟨z, hz, rfl⟩ := List.mem_map.1 hy
      refine List.mem_filter.2 ⟨h3 z hz, ?_⟩
      have : g'.obj ≠ g.obj := by
        intro e
        have h4 := (h.gho u g hg).1
        rw [← e, h1] at h4
        exact hne h4.symm
      simpa using this
  node := by
    intro y hy o ho
    obtain ⟨z, hz, rfl⟩ := List.mem_map.1 hy
    obtain ⟨h1, h2⟩ := List.mem_filter.1 ho
    obtain ⟨g', h3, h4⟩ := h.node z hz o h1
    refine ⟨g', ?_, h4⟩
    show get (Dict.del P.ghosts u) o.uid = some g'
    rw [Dict.get_del, if_neg]
    · exact h3
    · rintro rfl
      rw [hg] at h3
      cases h3
      simp [h4] at h2
  edge := by
    intro y hy e he
    obtain ⟨z, hz, rfl⟩ := List.mem_map.1 hy
    obtain ⟨h1, h2⟩ := List.mem_filter.1 he
    simp only [Bool.and_eq_true] at h2
    exact (h.edge z hz e h1).imp (fun hm => List.mem_filter.2 ⟨hm, h2.1⟩) (fun hm => List.mem_filter.2 ⟨hm, h2.2⟩)

theorem mapM_map {α β : Type} {f : α → Option β} {h : α → β} {l : List α} (hf : ∀ x ∈ l, f x = some (h x)) : l.mapM f = some (l.map h) := by
  induction l with
  | nil => rfl
  | cons x l ih => rw [List.mapM_cons, hf x (by simp), ih (fun y hy => hf y (by simp [hy]))]; rfl

theorem Rel.dropGhost {P : Corpse S} {c b : Cx S A} (h : Rel D P c b) (hP : P.Ok D) {u : Nat} {g : Gh S} (hg : get P.ghosts u = some g) :
    ∃ c', c.dropGhost u = some c' ∧ Rel D (P.drop u g.obj) c' b := by
  have hPg : P.ghosts = c.ghosts.filter fun e => D e.1 := by rw [← h.dead]; rfl
  have hPn : P.nets = c.nets.map fun N => N.g.dead D := by rw [← h.dead]; rfl
  obtain ⟨h1, h2, h3⟩ := hP.gho u g hg
  have hgc : get c.ghosts u = some g := by
    rw [hPg, Dict.get_filter _ D h2] at hg; exact hg
  have hnd : ∀ N ∈ c.nets, g.obj ∈ N.g.nodes := by
    intro N hN
    have := h3 (N.g.dead D) (by rw [hPn]; exact List.mem_map_of_mem (f := fun N : Net A => N.g.dead D) hN)
    exact (List.mem_filter.1 this).1
  let rm : Net A → Net A := fun N => { N with g := { N.g with nodes := N.g.nodes.filter (fun x => decide (x ≠ g.obj)), edges := N.g.edges.filter fun e => decide (e.1.1 ≠ g.obj) && decide (e.1.2 ≠ g.obj) } }
  have hm : c.nets.mapM (fun N => N.remove g.obj) = some (c.nets.map rm) := by
    refine mapM_map fun N hN => ?_
    unfold Net.remove Graph.removeNode
    rw [if_pos (hnd N hN)]
    rfl
  have hgs : (Dict.del (Dict.set c.ghosts u { g with ref := g.ref + 1 }) u) = Dict.del c.ghosts u := by
    have key : ∀ (l : Dict (Gh S)) (x : Gh S), Dict.del (Dict.set l u x) u = Dict.del l u := by
      intro l x
      unfold Dict.del
      exact Dict.set_filter_neg l (fun k => decide (k ≠ u)) (by simp) x
    exact key _ _
  refine ⟨{ c with ghosts := Dict.del c.ghosts u, nets := c.nets.map rm }, ?_, ?_⟩
  · unfold Cx.dropGhost Cx.eachNet Cx.refGhost
    rw [hgc, Option.bind_some]
    simp only []
    rw [hm]
    simp only [Option.map_some, Option.bind_some]
    unfold Cx.deleteGhost
    rw [show get (Dict.set c.ghosts u { g with ref := g.ref + 1 }) u = some { g with ref := g.ref + 1 } by simp]
    simp only [Option.map_some]
    rw [hgs]
  · have hlive : (!D u) = false := by rw [h2]; rfl
    exact {
      eq := by
        rw [h.eq]
        have e1 : (Dict.del c.ghosts u).filter (fun e => !D e.1) = c.ghosts.filter (fun e => !D e.1) := by
          rw [Dict.del_filter _ (fun u => !D u), Dict.del_none _ (Dict.get_filter_neg _ (fun u => !D u) hlive)]
        have e2 : (c.nets.map rm).map (Net.clean D) = c.nets.map (Net.clean D) := by
          rw [List.map_map]
          refine List.map_congr_left fun N _ => ?_
          show ({ N.scrub D with g := (rm N).g.clean D } : Net A) = { N.scrub D with g := N.g.clean D }
          have : (rm N).g.clean D = N.g.clean D := by
            unfold Graph.clean
            show ({ N.g with nodes := (N.g.nodes.filter _).filter _, edges := (N.g.edges.filter _).filter _ } : Graph A) = _
            rw [List.filter_filter, List.filter_filter]
            have hd : ∀ y : Obj, (!D y.uid) = true → y ≠ g.obj := by
              rintro y hy rfl
              rw [h1, h2] at hy; cases hy
            have e3 : N.g.nodes.filter (fun o => !D o.uid && decide (o ≠ g.obj)) = N.g.nodes.filter (fun o => !D o.uid) := by
              refine List.filter_congr fun o _ => ?_
              cases ho : !D o.uid with
              | false => rfl
              | true => simp [hd o ho]
            have e4 : N.g.edges.filter (fun e => liveK D e.1 && (decide (e.1.1 ≠ g.obj) && decide (e.1.2 ≠ g.obj))) = N.g.edges.filter (fun e => liveK D e.1) := by
              refine List.filter_congr fun e _ => ?_
              cases ho : liveK D e.1 with
              | false => rfl
              | true =>
                obtain ⟨l1, l2⟩ := liveK_iff.1 ho
                simp [hd e.1.1 (by rw [l1]; rfl), hd e.1.2 (by rw [l2]; rfl)]
            rw [e3, e4]
          rw [this]
        unfold Cx.clean
        rw [e1, e2]
      dead := by
        rw [← h.dead]
        unfold Corpse.drop Cx.dead
        simp only []
        rw [Dict.del_filter _ D, List.map_map, List.map_map]
        congr 1
        refine List.map_congr_left fun N _ => ?_
        unfold Graph.dead
        simp only [Function.comp]
        refine Prod.ext ?_ ?_
        · show (N.g.nodes.filter _).filter _ = (N.g.nodes.filter _).filter _
          rw [List.filter_filter, List.filter_filter]
          exact List.filter_congr fun o _ => Bool.and_comm _ _
        · show (N.g.edges.filter _).filter _ = (N.g.edges.filter _).filter _
          rw [List.filter_filter, List.filter_filter]
          exact List.filter_congr fun o _ => Bool.and_comm _ _
      loc := h.loc
      locU := h.locU
      ghoU := by
        intro x g' hx
        have hx : get (Dict.del c.ghosts u) x = some g' := hx
        rw [Dict.get_del] at hx
        split at hx
        · cases hx
        · exact h.ghoU x g' hx }

theorem Rel.dropGhosts (L : List (Nat × Nat)) : ∀ {P : Corpse S} {c b : Cx S A}, Rel D P c b → P.Ok D → L.Pairwise (fun m m' => m.2 ≠ m'.2) → (∀ m ∈ L, (get P.ghosts m.2).isSome = true) →
    ∃ c' P', L.foldlM (fun c m => c.dropGhost m.2) c = some c' ∧ Rel D P' c' b ∧ P'.Ok D ∧ P'.removed = P.removed ∧ ∀ u, (get P'.ghosts u).isSome = true → (get P.ghosts u).isSome = true ∧ ∀ m ∈ L, m.2 ≠ u := by
  induction L with
  | nil => intro P c b h hP _ _; exact ⟨c, P, rfl, h, hP, rfl, fun u hu => ⟨hu, by simp⟩⟩
  | cons m L ih =>
    intro P c b h hP hpw hL
    obtain ⟨g, hg⟩ := Option.isSome_iff_exists.1 (hL m (by simp))
    obtain ⟨c1, f1, r1⟩ := h.dropGhost hP hg
    obtain ⟨p1, p2⟩ := List.pairwise_cons.1 hpw
    obtain ⟨c2, P2, f2, r2, o2, e2, k2⟩ := ih r1 (hP.drop hg) p2 (by
      intro m' hm'
      show (get (Dict.del P.ghosts m.2) m'.2).isSome = true
      rw [Dict.get_del, if_neg (p1 m' hm')]
      exact hL m' (by simp [hm']))
    refine ⟨c2, P2, by rw [List.foldlM_cons, f1]; exact f2, r2, o2, e2, ?_⟩
    intro u hu
    obtain ⟨k3, k4⟩ := k2 u hu
    have k3 : (get (Dict.del P.ghosts m.2) u).isSome = true := k3
    rw [Dict.get_del] at k3
    split at k3
    · cases k3
    · rename_i hne
      refine ⟨k3, ?_⟩
      intro m' hm'
      rcases List.mem_cons.1 hm' with rfl | hm'
      · exact hne
      · exact k4 m' hm'

theorem Corpse.Ok.bare {P : Corpse S} (h : P.Ok D) (hr : P.removed = []) (hg : ∀ u, get P.ghosts u = none) : P.Bare := by
  have hn : ∀ x ∈ P.nets, x.1 = [] := by
    intro x hx
    rw [List.eq_nil_iff_forall_not_mem]
    intro o ho
    obtain ⟨g, hg', -⟩ := h.node x hx o ho
    rw [hg] at hg'; cases hg'
  refine ⟨hr, ?_, ?_⟩
  · cases he : P.ghosts with
    | nil => rfl
    | cons e l =>
      have := hg e.1
      rw [he, Dict.get_cons, if_pos rfl] at this
      cases this
  · intro x hx
    refine Prod.ext (hn x hx) ?_
    rw [List.eq_nil_iff_forall_not_mem]
    intro e he
    have := h.edge x hx e he
    rw [hn x hx] at this
    simp at this

/-! ### What is to be dropped -/

/-- The ghosts of removed agents are exactly those that their ranks will tell of. -/
structure Due (n : Nat) (D : Nat → Bool) (P : Nat → Corpse S) : Prop where
  ok : ∀ r < n, (P r).Ok D
  rem : ∀ r < n, ∀ e ∈ (P r).removed, D e.1 = true ∧ (Dict.keys e.2).Nodup ∧ ∀ k ∈ Dict.keys e.2, k < n ∧ (get (P k).ghosts e.1).isSome = true
  once : ∀ r < n, (P r).removed.Pairwise fun e e' => e.1 ≠ e'.1
  own : ∀ r < n, ∀ r' < n, r ≠ r' → ∀ e ∈ (P r).removed, ∀ e' ∈ (P r').removed, e.1 ≠ e'.1
  cover : ∀ k < n, ∀ u, (get (P k).ghosts u).isSome = true → ∃ r < n, ∃ e ∈ (P r).removed, e.1 = u ∧ k ∈ Dict.keys e.2

theorem each_inv {f : Nat → Option (Cx S A)} {w w' : World S A} (h : each n f w = some w') : ∀ r < n, f r = some (w' r) := by
  unfold each at h
  simp only [] at h
  split at h
  · rename_i hall
    cases h
    intro r hr
    have hm : f r ∈ (List.range n).map f := List.mem_map_of_mem (List.mem_range.2 hr)
    have := List.all_eq_true.1 hall _ hm
    obtain ⟨c, hc⟩ := Option.isSome_iff_exists.1 this
    have e : ((List.range n).map f)[r]? = some (f r) := by simp [hr]
    simp only [e, hc, Option.bind_some, id, Option.getD_some]
  · cases h

theorem exchange_inv {M : Type} {send : Cx S A → Option (Cx S A × List (Nat × M))} {recv1 : Cx S A → Nat × M → Option (Cx S A)} {w w' : World S A}
    (h : exchange n send recv1 w = some w') : ∃ out : Nat → List (Nat × M), ∀ r < n, ∃ c, send (w r) = some (c, out r) ∧ (recv n out r).foldlM recv1 c = some (w' r) := by
  unfold exchange at h
  simp only [] at h
  obtain ⟨w1, h1, h2⟩ := Option.bind_eq_some_iff.1 h
  refine ⟨fun r => sent (((List.range n).map fun r => send (w r))[r]?.bind id), ?_⟩
  intro r hr
  have e1 := each_inv h1 r hr
  have e2 := each_inv h2 r hr
  rw [get_map_range _ hr] at e1
  obtain ⟨y, hy, hy2⟩ := Option.map_eq_some_iff.1 e1
  refine ⟨w1 r, ?_, e2⟩
  simp only []
  rw [get_map_range _ hr, hy, ← hy2]; rfl

theorem exchange_lift {M : Type} {send : Cx S A → Option (Cx S A × List (Nat × M))} {recv1 : Cx S A → Nat × M → Option (Cx S A)} {w b b' : World S A} (R : Nat → Cx S A → Cx S A → Prop)
    (hb : exchange n send recv1 b = some b') (hs : ∀ r < n, ∀ y, send (b r) = some y → ∃ c, send (w r) = some (c, y.2) ∧ R r c y.1)
    (hr : ∀ r < n, ∀ m c b b', R r c b → recv1 b m = some b' → ∃ c', recv1 c m = some c' ∧ R r c' b') : ∃ w', exchange n send recv1 w = some w' ∧ ∀ r < n, R r (w' r) (b' r) := by
  obtain ⟨out, ho⟩ := exchange_inv hb
  refine exchange_some (n := n) (out := out) (Q := fun r c => R r c (b' r)) (P := fun r c => ∃ b1, R r c b1 ∧ (recv n out r).foldlM recv1 b1 = some (b' r)) ?_ ?_
  · intro r hr'
    obtain ⟨b1, h1, h2⟩ := ho r hr'
    obtain ⟨c, hc, hR⟩ := hs r hr' _ h1
    exact ⟨c, hc, b1, hR, h2⟩
  · rintro r hr' c ⟨b1, hR, h2⟩
    exact foldlM_lift (R r) (recv n out r) (fun m _ c b b' => hr r hr' m c b b') c b1 (b' r) hR h2

/-- The ghosts of removed agents are dropped. -/
theorem drop_phase {P : Nat → Corpse S} (hD : Due n D P) {w b : World S A} (hw : ∀ r < n, Rel D (P r) (w r) (b r)) :
    ∃ (w' : World S A) (P' : Nat → Corpse S), exchange n (fun c => c.sendRemovedAgents n) (fun c m => c.dropGhost m.2) w = some w' ∧ (∀ r < n, Rel D (P' r) (w' r) (b r)) ∧ ∀ r < n, (P' r).Bare := by
  have hrem : ∀ r < n, (w r).removed = (P r).removed := by intro r hr; rw [← (hw r hr).dead]; rfl
  have := exchange_some (n := n) (send := fun c : Cx S A => c.sendRemovedAgents n) (recv1 := fun c m => c.dropGhost m.2) (w := w)
    (out := fun r => (P r).removed.flatMap fun e => (Dict.keys e.2).map fun k => (k, e.1))
    (P := fun r c => Rel D { P r with removed := [] } c (b r))
    (Q := fun r c => ∃ P' : Corpse S, Rel D P' c (b r) ∧ P'.Bare) ?_ ?_
  · obtain ⟨w', e, h⟩ := this
    refine ⟨w', fun r => if hr : r < n then Classical.choose (h r hr) else P r, e, ?_, ?_⟩
    · intro r hr
      simp only [dif_pos hr]; exact (Classical.choose_spec (h r hr)).1
    · intro r hr
      simp only [dif_pos hr]; exact (Classical.choose_spec (h r hr)).2
  · intro r hr
    refine ⟨{ w r with removed := [] }, ?_, ?_⟩
    · unfold Cx.sendRemovedAgents
      simp only []
      rw [hrem r hr, if_pos]
      rw [List.all_eq_true]
      intro m hm
      obtain ⟨e, he, hm⟩ := List.mem_flatMap.1 hm
      obtain ⟨k, hk, rfl⟩ := List.mem_map.1 hm
      exact decide_eq_true ((hD.rem r hr e he).2.2 k hk).1
    · have h := hw r hr
      exact { eq := by rw [h.eq]; rfl, dead := by rw [← h.dead]; rfl, loc := h.loc, locU := h.locU, ghoU := h.ghoU }
  · intro k hk c hc
    obtain ⟨c', P', f, h1, h2, h3, h4⟩ := hc.dropGhosts (recv n (fun r => (P r).removed.flatMap fun e => (Dict.keys e.2).map fun k => (k, e.1)) k)
      ⟨(hD.ok k hk).gho, (hD.ok k hk).node, (hD.ok k hk).edge⟩ (by
        refine recv_pairwise ?_ ?_
        · intro r hr
          rw [List.flatMap_def, List.pairwise_flatten]
          constructor
          · intro l hl
            obtain ⟨e, he, rfl⟩ := List.mem_map.1 hl
            rw [List.pairwise_map]
            refine ((hD.rem r hr e he).2.1).imp ?_
            intro k1 k2 hne e1 e2
            exact (hne (e1.trans e2.symm)).elim
          · rw [List.pairwise_map]
            refine (hD.once r hr).imp ?_
            intro e e' hne x hx y hy _ _
            obtain ⟨_, -, rfl⟩ := List.mem_map.1 hx
            obtain ⟨_, -, rfl⟩ := List.mem_map.1 hy
            exact hne
        · intro r hr r' hr' hne m m' hm hm'
          obtain ⟨e, he, hm⟩ := List.mem_flatMap.1 hm
          obtain ⟨_, -, hm⟩ := List.mem_map.1 hm
          obtain ⟨e', he', hm'⟩ := List.mem_flatMap.1 hm'
          obtain ⟨_, -, hm'⟩ := List.mem_map.1 hm'
          cases hm; cases hm'
          exact hD.own r hr r' hr' hne e he e' he') (by
        intro m hm
        obtain ⟨hr, hm⟩ := mem_recv.1 hm
        obtain ⟨e, he, hm⟩ := List.mem_flatMap.1 hm
        obtain ⟨j, hj, hm⟩ := List.mem_map.1 hm
        obtain ⟨rfl, e2⟩ := Prod.mk.inj hm
        rw [← e2]
        exact ((hD.rem m.1 hr e he).2.2 j hj).2)
    refine ⟨c', f, P', h1, h2.bare h3 ?_⟩
    intro u
    cases hu : get P'.ghosts u with
    | none => rfl
    | some g =>
      obtain ⟨h5, h6⟩ := h4 u (by rw [hu]; rfl)
      obtain ⟨r, hr, e, he, e1, e2⟩ := hD.cover k hk u h5
      exact absurd e1 (h6 (r, e.1) (mem_recv.2 ⟨hr, List.mem_flatMap.2 ⟨e, he, List.mem_map.2 ⟨k, e2, rfl⟩⟩⟩))

/-! ### `synchronize` -/

theorem exchange_none_removed {b b' : World S A} (hb : ∀ r < n, (b r).removed = []) (h : exchange n (fun c => c.sendRemovedAgents n) (fun c m => c.dropGhost m.2) b = some b') :
    ∀ r < n, b' r = b r := by
  obtain ⟨out, ho⟩ := exchange_inv h
  have h1 : ∀ r < n, ∃ c, (b r).sendRemovedAgents n = some (c, out r) ∧ c = b r ∧ out r = [] := by
    intro r hr
    obtain ⟨c, hc, -⟩ := ho r hr
    refine ⟨c, hc, ?_⟩
    unfold Cx.sendRemovedAgents at hc
    rw [hb r hr] at hc
    have hc : some (({ b r with removed := [] } : Cx S A), ([] : List (Nat × Nat))) = some (c, out r) := hc
    obtain ⟨e1, e2⟩ := Prod.mk.inj (Option.some.inj hc)
    refine ⟨?_, e2.symm⟩
    rw [← e1, ← hb r hr]
  intro r hr
  obtain ⟨c, hc, hf⟩ := ho r hr
  obtain ⟨c', hc', e1, e2⟩ := h1 r hr
  rw [hc] at hc'
  obtain ⟨rfl, -⟩ := Prod.mk.inj (Option.some.inj hc')
  have : recv n out r = [] := by
    rw [recv_congr (out' := fun _ => []) (fun r hr => (h1 r hr).choose_spec.2.2) r]
    exact recv_nil r
  rw [this] at hf
  cases hf
  exact e1

/-- What a rank knows of pending edges is about the living. -/
structure Living (D : Nat → Bool) (c : Cx S A) : Prop where
  new : ∀ N ∈ c.nets, ∀ e ∈ N.newEdges, liveK D e.1 = true
  ref : ∀ N ∈ c.nets, N.toRef = []

theorem preSynch_lift {P : Nat → Corpse S} {w b b' : World S A} (hw : ∀ r < n, Rel D (P r) (w r) (b r)) (hl : ∀ r < n, Living D (b r)) {pid : Nat} (hb : preSynchNet n pid b = some b') :
    ∃ w', preSynchNet n pid w = some w' ∧ ∀ r < n, Rel D (P r) (w' r) (b' r) := by
  refine exchange_lift (fun r => Rel D (P r)) hb ?_ ?_
  · intro r hr y hy
    refine (hw r hr).sendRefs ?_ hy
    intro N hN
    have := (hl r hr).ref (N.clean D) (by rw [(hw r hr).eq]; exact List.mem_map_of_mem (List.mem_of_getElem? hN))
    exact this
  · intro r hr m c b b' hR h
    exact hR.tag h

theorem states_lift {P : Nat → Corpse S} {w b b' : World S A} (hw : ∀ r < n, Rel D (P r) (w r) (b r))
    (hb : exchange n (fun c : Cx S A => c.sendStates n) (fun c m => c.updateGhost m.2.1 m.2.2) b = some b') :
    ∃ w', exchange n (fun c : Cx S A => c.sendStates n) (fun c m => c.updateGhost m.2.1 m.2.2) w = some w' ∧ ∀ r < n, Rel D (P r) (w' r) (b' r) :=
  exchange_lift (fun r => Rel D (P r)) hb (fun r hr y hy => (hw r hr).sendStates hy) (fun r hr m c b b' hR h => hR.updateGhost h)

/-- The first part of `synchNet`. -/
theorem removed_lift {P : Nat → Corpse S} (hP : ∀ r < n, (P r).Bare) {w b b' : World S A} (hw : ∀ r < n, Rel D (P r) (w r) (b r)) {pid : Nat}
    (hb : exchange n (fun c : Cx S A => c.sendRemoved n pid) (fun c m => c.recvRemoved pid m.2) b = some b') :
    ∃ w', exchange n (fun c : Cx S A => c.sendRemoved n pid) (fun c m => c.recvRemoved pid m.2) w = some w' ∧ ∀ r < n, Rel D (P r) (w' r) (b' r) :=
  exchange_lift (fun r => Rel D (P r)) hb (fun r hr y hy => (hw r hr).sendRemoved hy) (fun r hr m c b b' hR h => hR.recvRemoved (hP r hr) h)

/-- The second part of `synchNet`. -/
def copyNet (n pid : Nat) (w : World S A) : Option (World S A) :=
  let q := (List.range n).map fun r => (w r).sendSync n pid
  let x : Nat → Option (Cx S A × Sync S A) := fun r => q[r]?.bind id
  (each n (fun r => (x r).map (·.1)) w).bind fun w =>
    (each n (fun r => (recv n (fun s => sentAgents (x s)) r).foldlM (fun c m => c.recvVertex pid m) (w r)) w).bind fun w =>
      each n (fun r => (recv n (fun s => sentEdges (x s)) r).foldlM (fun c m => c.recvEdge pid m.2) (w r)) w

theorem synchNet_eq (n pid : Nat) (w : World S A) : synchNet n pid w =
    (exchange n (fun c => c.sendRemoved n pid) (fun c m => c.recvRemoved pid m.2) w).bind fun w => copyNet n pid w := rfl

theorem copyNet_lift {P : Nat → Corpse S} {w b b' : World S A} (hw : ∀ r < n, Rel D (P r) (w r) (b r)) {pid : Nat}
    (hnew : ∀ r < n, ∀ N ∈ (b r).nets, ∀ e ∈ N.newEdges, liveK D e.1 = true) (hb : copyNet n pid b = some b') :
    ∃ w', copyNet n pid w = some w' ∧ ∀ r < n, Rel D (P r) (w' r) (b' r) := by
  unfold copyNet at hb
  simp only [] at hb
  obtain ⟨b1, h1, hb⟩ := Option.bind_eq_some_iff.1 hb
  obtain ⟨b2, h2, h3⟩ := Option.bind_eq_some_iff.1 hb
  have hsend : ∀ r < n, ∃ y : Cx S A × Sync S A, (b r).sendSync n pid = some y ∧ y.1 = b1 r ∧ ∃ c, (w r).sendSync n pid = some (c, y.2) ∧ Rel D (P r) c y.1 ∧ ∀ m ∈ y.2.agents, D m.2.1 = false := by
    intro r hr
    have := each_inv h1 r hr
    rw [get_map_range _ hr] at this
    obtain ⟨y, hy, e⟩ := Option.map_eq_some_iff.1 this
    refine ⟨y, hy, e, ?_⟩
    exact (hw r hr).sendSync (fun N hN => hnew r hr (N.clean D) (by rw [(hw r hr).eq]; exact List.mem_map_of_mem (List.mem_of_getElem? hN))) hy
  have hsa : ∀ r < n, sentAgents ((((List.range n).map fun r => (w r).sendSync n pid)[r]?).bind id) = sentAgents ((((List.range n).map fun r => (b r).sendSync n pid)[r]?).bind id) ∧
      sentEdges ((((List.range n).map fun r => (w r).sendSync n pid)[r]?).bind id) = sentEdges ((((List.range n).map fun r => (b r).sendSync n pid)[r]?).bind id) ∧
      ∀ m ∈ sentAgents ((((List.range n).map fun r => (b r).sendSync n pid)[r]?).bind id), D m.2.1 = false := by
    intro r hr
    obtain ⟨y, hy, -, c, hc, -, hl⟩ := hsend r hr
    rw [get_map_range _ hr, get_map_range _ hr, hy, hc]
    exact ⟨rfl, rfl, hl⟩
  obtain ⟨w1, f1, p1⟩ := each_some (n := n) (w := w) (f := fun r => ((((List.range n).map fun r => (w r).sendSync n pid)[r]?).bind id).map (·.1)) (P := fun r c => Rel D (P r) c (b1 r)) (by
    intro r hr
    obtain ⟨y, hy, e, c, hc, hR, -⟩ := hsend r hr
    rw [get_map_range _ hr, hc]
    exact ⟨c, rfl, e ▸ hR⟩)
  obtain ⟨w2, f2, p2⟩ := each_some (n := n) (w := w1) (f := fun r => (recv n (fun s => sentAgents ((((List.range n).map fun r => (w r).sendSync n pid)[s]?).bind id)) r).foldlM (fun c m => c.recvVertex pid m) (w1 r))
    (P := fun r c => Rel D (P r) c (b2 r)) (by
      intro r hr
      rw [recv_congr (fun s hs => (hsa s hs).1) r]
      refine foldlM_lift (Rel D (P r)) _ ?_ (w1 r) (b1 r) (b2 r) (p1 r hr).2 (each_inv h2 r hr)
      intro m hm c b b' hR h
      obtain ⟨m1, m2⟩ := mem_recv.1 hm
      exact hR.recvVertex ((hsa m.1 m1).2.2 (r, m.2) m2) h)
  obtain ⟨w3, f3, p3⟩ := each_some (n := n) (w := w2) (f := fun r => (recv n (fun s => sentEdges ((((List.range n).map fun r => (w r).sendSync n pid)[s]?).bind id)) r).foldlM (fun c m => c.recvEdge pid m.2) (w2 r))
    (P := fun r c => Rel D (P r) c (b' r)) (by
      intro r hr
      rw [recv_congr (fun s hs => (hsa s hs).2.1) r]
      refine foldlM_lift (Rel D (P r)) _ ?_ (w2 r) (b2 r) (b' r) (p2 r hr).2 (each_inv h3 r hr)
      intro m hm c b b' hR h
      exact hR.recvEdge h)
  refine ⟨w3, ?_, fun r hr => (p3 r hr).2⟩
  unfold copyNet
  simp only []
  rw [f1, Option.bind_some, f2, Option.bind_some]
  exact f3

/-! ### `request_agents` -/

theorem request_lift {P : Nat → Corpse S} {w b b' : World S A} (hw : ∀ r < n, Rel D (P r) (w r) (b r)) {rs : Nat → List (Nat × Nat)} (hrs : ∀ r < n, ∀ q ∈ rs r, D q.1 = false)
    (hb : requestAgents n rs b = some b') : ∃ w', requestAgents n rs w = some w' ∧ ∀ r < n, Rel D (P r) (w' r) (b' r) := by
  unfold requestAgents at hb
  simp only [] at hb
  obtain ⟨b1, h1, hb⟩ := Option.bind_eq_some_iff.1 hb
  obtain ⟨b2, h2, h3⟩ := Option.bind_eq_some_iff.1 hb
  have hask : ∀ r < n, ∃ y : Cx S A × List (Nat × Nat), (rs r).foldlM (Cx.sendRequest n) (b r, ([] : List (Nat × Nat))) = some y ∧ y.1 = b1 r ∧
      ∃ c, (rs r).foldlM (Cx.sendRequest n) (w r, ([] : List (Nat × Nat))) = some (c, y.2) ∧ Rel D (P r) c y.1 := by
    intro r hr
    have := each_inv h1 r hr
    rw [get_map_range _ hr] at this
    obtain ⟨y, hy, e⟩ := Option.map_eq_some_iff.1 this
    refine ⟨y, hy, e, ?_⟩
    obtain ⟨x, hx, hR, e2⟩ := foldlM_lift (fun (x y : Cx S A × List (Nat × Nat)) => Rel D (P r) x.1 y.1 ∧ x.2 = y.2) (f := Cx.sendRequest n) (rs r) (by
      intro q hq a b b' hR h
      obtain ⟨hR, e2⟩ := hR
      obtain ⟨c', hc', hR'⟩ := hR.sendRequest (hrs r hr q hq) (y := b') (l := b.2) h
      refine ⟨(c', b'.2), ?_, hR', rfl⟩
      rw [← hc', ← e2]) (w r, []) (b r, []) y ⟨hw r hr, rfl⟩ hy
    exact ⟨x.1, by rw [hx, ← e2], hR⟩
  have hsa : ∀ r < n, sent ((((List.range n).map fun r => (rs r).foldlM (Cx.sendRequest n) (w r, ([] : List (Nat × Nat))))[r]?).bind id) =
      sent ((((List.range n).map fun r => (rs r).foldlM (Cx.sendRequest n) (b r, ([] : List (Nat × Nat))))[r]?).bind id) := by
    intro r hr
    obtain ⟨y, hy, -, c, hc, -⟩ := hask r hr
    rw [get_map_range _ hr, get_map_range _ hr, hy, hc]; rfl
  obtain ⟨w1, f1, p1⟩ := each_some (n := n) (w := w) (f := fun r => ((((List.range n).map fun r => (rs r).foldlM (Cx.sendRequest n) (w r, ([] : List (Nat × Nat))))[r]?).bind id).map (·.1))
    (P := fun r c => Rel D (P r) c (b1 r)) (by
      intro r hr
      obtain ⟨y, hy, e, c, hc, hR⟩ := hask r hr
      rw [get_map_range _ hr, hc]
      exact ⟨c, rfl, e ▸ hR⟩)
  have hans : ∀ r < n, ∃ y : Cx S A × List (Nat × Nat × S),
      (recv n (fun s => sent ((((List.range n).map fun r => (rs r).foldlM (Cx.sendRequest n) (b r, ([] : List (Nat × Nat))))[s]?).bind id)) r).foldlM Cx.answer (b1 r, ([] : List (Nat × Nat × S))) = some y ∧ y.1 = b2 r ∧
      ∃ c, (recv n (fun s => sent ((((List.range n).map fun r => (rs r).foldlM (Cx.sendRequest n) (w r, ([] : List (Nat × Nat))))[s]?).bind id)) r).foldlM Cx.answer (w1 r, ([] : List (Nat × Nat × S))) = some (c, y.2) ∧
        Rel D (P r) c y.1 ∧ ∀ m ∈ y.2, D m.2.1 = false := by
    intro r hr
    have := each_inv h2 r hr
    rw [get_map_range _ hr] at this
    obtain ⟨y, hy, e⟩ := Option.map_eq_some_iff.1 this
    refine ⟨y, hy, e, ?_⟩
    rw [recv_congr hsa r]
    obtain ⟨x, hx, hR, e2, hl⟩ := foldlM_lift (fun (x y : Cx S A × List (Nat × Nat × S)) => Rel D (P r) x.1 y.1 ∧ x.2 = y.2 ∧ ∀ m ∈ y.2, D m.2.1 = false) (f := Cx.answer) _ (by
      intro q hq a b b' hR h
      obtain ⟨hR, e2, hl⟩ := hR
      obtain ⟨c', hc', hR'⟩ := hR.answer (y := b') (l := b.2) h
      refine ⟨(c', b'.2), by rw [← hc', ← e2], hR', rfl, ?_⟩
      unfold Cx.answer at h
      obtain ⟨b3, h3, h⟩ := Option.bind_eq_some_iff.1 h
      obtain ⟨o, ho, rfl⟩ := Option.map_eq_some_iff.1 h
      intro m hm
      rcases List.mem_append.1 hm with hm | hm
      · exact hl m hm
      · rw [List.mem_singleton] at hm
        subst hm
        exact hR'.live (by rw [← hR'.locals]; exact ho)) (w1 r, []) (b1 r, []) y ⟨(p1 r hr).2, rfl, by simp⟩ hy
    exact ⟨x.1, by rw [hx, ← e2], hR, hl⟩
  have hsb : ∀ r < n, sent ((((List.range n).map fun r => (recv n (fun s => sent ((((List.range n).map fun r => (rs r).foldlM (Cx.sendRequest n) (w r, ([] : List (Nat × Nat))))[s]?).bind id)) r).foldlM Cx.answer (w1 r, ([] : List (Nat × Nat × S))))[r]?).bind id) =
      sent ((((List.range n).map fun r => (recv n (fun s => sent ((((List.range n).map fun r => (rs r).foldlM (Cx.sendRequest n) (b r, ([] : List (Nat × Nat))))[s]?).bind id)) r).foldlM Cx.answer (b1 r, ([] : List (Nat × Nat × S))))[r]?).bind id) ∧
      ∀ m ∈ sent ((((List.range n).map fun r => (recv n (fun s => sent ((((List.range n).map fun r => (rs r).foldlM (Cx.sendRequest n) (b r, ([] : List (Nat × Nat))))[s]?).bind id)) r).foldlM Cx.answer (b1 r, ([] : List (Nat × Nat × S))))[r]?).bind id), D m.2.1 = false := by
    intro r hr
    obtain ⟨y, hy, -, c, hc, -, hl⟩ := hans r hr
    rw [get_map_range _ hr, get_map_range _ hr, hy, hc]
    exact ⟨rfl, hl⟩
  obtain ⟨w2, f2, p2⟩ := each_some (n := n) (w := w1)
    (f := fun r => ((((List.range n).map fun r => (recv n (fun s => sent ((((List.range n).map fun r => (rs r).foldlM (Cx.sendRequest n) (w r, ([] : List (Nat × Nat))))[s]?).bind id)) r).foldlM Cx.answer (w1 r, ([] : List (Nat × Nat × S))))[r]?).bind id).map (·.1))
    (P := fun r c => Rel D (P r) c (b2 r)) (by
      intro r hr
      obtain ⟨y, hy, e, c, hc, hR, -⟩ := hans r hr
      rw [get_map_range _ hr, hc]
      exact ⟨c, rfl, e ▸ hR⟩)
  obtain ⟨w3, f3, p3⟩ := each_some (n := n) (w := w2)
    (f := fun r => some ((recv n (fun s => sent ((((List.range n).map fun r => (recv n (fun s => sent ((((List.range n).map fun r => (rs r).foldlM (Cx.sendRequest n) (w r, ([] : List (Nat × Nat))))[s]?).bind id)) r).foldlM Cx.answer (w1 r, ([] : List (Nat × Nat × S))))[s]?).bind id)) r).foldl Cx.recvRequested (w2 r)))
    (P := fun r c => Rel D (P r) c (b' r)) (by
      intro r hr
      refine ⟨_, rfl, ?_⟩
      have e := Option.some.inj (each_inv h3 r hr)
      rw [recv_congr (fun s hs => (hsb s hs).1) r, ← e]
      have key : ∀ (l : List (Nat × Nat × S)), (∀ m ∈ l, D m.2.1 = false) → ∀ c b : Cx S A, Rel D (P r) c b → Rel D (P r) (l.foldl Cx.recvRequested c) (l.foldl Cx.recvRequested b) := by
        intro l
        induction l with
        | nil => intro _ c b h; exact h
        | cons m l ih => intro hl c b h; exact ih (fun m hm => hl m (by simp [hm])) _ _ (h.recvRequested (hl m (by simp)))
      refine key _ ?_ _ _ (p2 r hr).2
      intro m hm
      obtain ⟨m1, m2⟩ := mem_recv.1 hm
      exact (hsb m.1 m1).2 (r, m.2) m2)
  refine ⟨w3, ?_, fun r hr => (p3 r hr).2⟩
  unfold requestAgents
  simp only []
  rw [f1, Option.bind_some, f2, Option.bind_some]
  exact f3

end Repast.Network
