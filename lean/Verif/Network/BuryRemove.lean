import Verif.Network.BuryStep
import Verif.Network.BurySpec

/-! The removal of an agent from a context with a network. -/
namespace Repast.Network
open Repast.Dict Repast.Context

variable {S A : Type} {D : Nat → Bool} {n : Nat} {d : Bool} {V : Sp S A}

/-- Just `u`. -/
abbrev only (u : Nat) : Nat → Bool := fun x => decide (x = u)

theorem liveK_only {u : Nat} {k : EKey} : liveK (only u) k = true ↔ k.1.uid ≠ u ∧ k.2.uid ≠ u := by simp [liveK, only]

theorem Assoc.get_filter_some {α : Type} {l : Assoc.Assoc EKey α} {p : EKey → Bool} {k : EKey} {v : α} (h : Assoc.get (l.filter fun e => p e.1) k = some v) : p k = true ∧ Assoc.get l k = some v := by
  cases hp : p k with
  | true => rw [Assoc.get_filter _ p hp] at h; exact ⟨rfl, h⟩
  | false => rw [Assoc.get_filter_neg _ p hp] at h; cases h

theorem Graph.Inv.clean {g : Graph A} (h : g.Inv) (D : Nat → Bool) : (g.clean D).Inv where
  nodes := h.nodes.sublist List.filter_sublist
  keys := by
    show (Assoc.keys (g.edges.filter fun e => liveK D e.1)).Nodup
    rw [Assoc.keys_filter]
    exact List.Nodup.sublist List.filter_sublist h.keys
  ends := by
    intro k hk
    have hk : k ∈ Assoc.keys (g.edges.filter fun e => liveK D e.1) := hk
    rw [Assoc.keys_filter] at hk
    obtain ⟨h1, h2⟩ := List.mem_filter.1 hk
    obtain ⟨l1, l2⟩ := liveK_iff.1 h2
    obtain ⟨h3, h4⟩ := h.ends k h1
    exact ⟨List.mem_filter.2 ⟨h3, bnot_false l1⟩, List.mem_filter.2 ⟨h4, bnot_false l2⟩⟩
  single := by
    intro hd u v hne hk hk'
    have hk : (u, v) ∈ Assoc.keys (g.edges.filter fun e => liveK D e.1) := hk
    have hk' : (v, u) ∈ Assoc.keys (g.edges.filter fun e => liveK D e.1) := hk'
    rw [Assoc.keys_filter] at hk hk'
    exact h.single hd u v hne (List.mem_filter.1 hk).1 (List.mem_filter.1 hk').1
  slots := h.slots.sublist (List.filter_sublist.map _)
  bound := fun e he => h.bound e (List.mem_filter.1 he).1

theorem slot_clean {g : Graph A} (h : g.Inv) {u v : Obj} {i : Nat} (hs : (g.clean D).slot u v = some i) : g.slot u v = some i ∧ D u.uid = false ∧ D v.uid = false := by
  obtain ⟨h1, h2⟩ := slot_ends (h.clean D) hs
  have l1 : D u.uid = false := by simpa using (List.mem_filter.1 h1).2
  have l2 : D v.uid = false := by simpa using (List.mem_filter.1 h2).2
  rw [clean_slot _ l1 l2] at hs
  exact ⟨hs, l1, l2⟩

/-- Nothing is pending about the dead. -/
structure Net.Idle (D : Nat → Bool) (N : Net A) : Prop where
  new : ∀ k ∈ Assoc.keys N.newEdges, liveK D k = true
  upd : ∀ k ∈ N.toUpdate, liveK D k = true
  rem : ∀ k ∈ Assoc.keys N.toRemove, liveK D k = true

theorem NetOk.clean {r : Nat} {lr : Obj → Nat} {N : Net A} (h : NetOk d Pend.none r lr N) (hi : N.Idle D) : NetOk d Pend.none r lr (N.clean D) := by
  have hK : KeysOk (N.clean D) := fun k key hk => h.keys k key (Assoc.get_filter_some hk).2
  have hsyn : ∀ k, k ∈ Assoc.keys (N.clean D).ghosted ↔ k ∈ Assoc.keys N.ghosted ∧ liveK D k = true := by
    intro k
    show k ∈ Assoc.keys (N.ghosted.filter fun e => liveK D e.1) ↔ _
    rw [Assoc.keys_filter, List.mem_filter]
  have hE : ∀ e : EKey × GEdge, Entry r lr N e → liveK D e.1 = true → Entry r lr (N.clean D) e := by
    rintro e ⟨h1, h2⟩ hl
    obtain ⟨l1, l2⟩ := liveK_iff.1 hl
    refine ⟨?_, h2⟩
    show (N.g.clean D).slot _ _ = _
    rw [clean_slot _ l1 l2]; exact h1
  exact {
    inv := h.inv.clean D
    dir := h.dir
    moved := h.moved
    noLonger := h.noLonger
    toRef := h.toRef
    uniq := fun a ha b hb => h.uniq a (List.mem_filter.1 ha).1 b (List.mem_filter.1 hb).1
    keys := hK
    sym := by
      intro u v
      show Assoc.get (N.keys.filter fun e => liveK D e.1) (u, v) = Assoc.get (N.keys.filter fun e => liveK D e.1) (v, u)
      cases hl : liveK D (u, v) with
      | true => rw [Assoc.get_filter _ (liveK D) hl, Assoc.get_filter _ (liveK D) (liveK_swap hl)]; exact h.sym u v
      | false =>
        have : liveK D (v, u) = false := by
          cases hl' : liveK D (v, u) with
          | false => rfl
          | true => rw [liveK_swap hl'] at hl; cases hl
        rw [Assoc.get_filter_neg _ (liveK D) hl, Assoc.get_filter_neg _ (liveK D) this]
    hasKey := by
      intro hd u v he
      have he : ((N.g.clean D).slot u v).isSome = true := he
      obtain ⟨i, hi⟩ := Option.isSome_iff_exists.1 he
      obtain ⟨h1, l1, l2⟩ := slot_clean h.inv hi
      show (Assoc.get (N.keys.filter fun e => liveK D e.1) (u, v)).isSome = true
      rw [Assoc.get_filter _ (liveK D) (liveK_mk l1 l2)]
      exact h.hasKey hd u v (by show (N.g.slot u v).isSome = true; rw [h1]; rfl)
    new := fun e he => hE e (h.new e he) (hi.new e.1 (List.mem_map_of_mem he))
    newOk := h.newOk
    syn := fun e he => hE e (h.syn e (List.mem_filter.1 he).1) (List.mem_filter.1 he).2
    synOk := by
      show (Assoc.keys (N.ghosted.filter fun e => liveK D e.1)).Nodup
      rw [Assoc.keys_filter]
      exact List.Nodup.sublist List.filter_sublist h.synOk
    upd := fun k hk => (h.upd k hk).imp id fun h => (hsyn k).2 ⟨h, hi.upd k hk⟩
    rem := by
      intro e he
      obtain ⟨l1, l2⟩ := liveK_iff.1 (hi.rem e.1 (List.mem_map_of_mem he))
      obtain ⟨h1, h2, h3, h4, h5⟩ := h.rem e he
      refine ⟨List.mem_filter.2 ⟨h1, bnot_false l1⟩, List.mem_filter.2 ⟨h2, bnot_false l2⟩, h3, h4, ?_⟩
      show (N.g.clean D).slot _ _ = none
      rw [clean_slot _ l1 l2]; exact h5
    remOk := h.remOk
    canon := by
      intro k hk key he
      have hl : liveK D k = true := hk.elim (hi.new k) fun h => ((hsyn k).1 h).2
      have he' := he
      rw [clean_edgeKey N hl] at he'
      refine (h.canon k (hk.imp id fun h => ((hsyn k).1 h).1) key he').imp id fun h => (hsyn key).2 ⟨h, ?_⟩
      exact edgeKey_live hK hl he' }

theorem node_clean (N : Net A) (u x : Nat) : (N.clean (only u)).node x = if x = u then none else N.node x := by
  unfold Net.node
  show (N.g.nodes.filter fun o => !only u o.uid).find? _ = _
  rw [List.find?_filter]
  split
  · rename_i h
    subst h
    rw [List.find?_eq_none]
    intro o _
    simp [only]
  · rename_i h
    congr 1
    funext o
    by_cases ho : o.uid = x
    · simp [only, ho, h]
    · simp [ho]

theorem view_clean {N : Net A} {r : Nat} {lr : Obj → Nat} (hN : NetOk d Pend.none r lr N) (u : Nat) : (N.clean (only u)).v = N.v.bury u := by
  have h1 : (N.clean (only u)).v.has = (N.v.bury u).has := by
    funext x
    show ((N.clean (only u)).node x).isSome = ((N.node x).isSome && decide (x ≠ u))
    rw [node_clean]
    by_cases hx : x = u <;> simp [hx]
  have h2 : (N.clean (only u)).v.edge = (N.v.bury u).edge := by
    funext x y
    show (N.clean (only u)).e x y = if x = u ∨ y = u then none else N.e x y
    unfold Net.e
    rw [node_clean, node_clean]
    by_cases hx : x = u
    · simp [hx]
    by_cases hy : y = u
    · rw [if_pos hy]; simp [hy]
    · rw [if_neg hx, if_neg hy, if_neg (by simp [hx, hy])]
      cases ha : N.node x with
      | none => rfl
      | some a =>
        cases hb : N.node y with
        | none => rfl
        | some b =>
          have ea := ((node_iff hN.uniq x a).1 ha).2
          have eb := ((node_iff hN.uniq y b).1 hb).2
          show (N.g.clean (only u)).attr a b = N.g.attr a b
          unfold Graph.attr
          rw [clean_slot _ (by simp [ea, hx]) (by simp [eb, hy])]
          rfl
  have h3 : (N.clean (only u)).v.syn = (N.v.bury u).syn := by
    show (Assoc.keys (N.ghosted.filter fun e => liveK (only u) e.1)).map uu = ((Assoc.keys N.ghosted).map uu).filter _
    rw [Assoc.keys_filter, List.filter_map]
    congr 1
    refine List.filter_congr fun k _ => ?_
    rw [Bool.eq_iff_iff, liveK_only]
    simp [uu]
    exact ⟨fun ⟨a, b⟩ => ⟨decide_eq_false a, decide_eq_false b⟩, fun ⟨a, b⟩ => ⟨of_decide_eq_false a, of_decide_eq_false b⟩⟩
  show ({ has := (N.clean (only u)).v.has, edge := (N.clean (only u)).v.edge, new := N.v.new, upd := N.v.upd, rem := N.v.rem, syn := (N.clean (only u)).v.syn } : NV A) = _
  rw [h1, h2, h3]
  rfl

/-! ### The context of one rank -/

/-- Without the agent `u`. -/
def Cx.bury (u : Nat) (c : Cx S A) : Cx S A := { c.clean (only u) with locals := Dict.del c.locals u, ghosted := Dict.del c.ghosted u }

theorem COk.bury {c : Cx S A} (h : COk d Pend.none c) {u : Nat} (hi : ∀ p, p ∈ c.v.net.new ∨ p ∈ c.v.net.upd ∨ p ∈ c.v.net.rem → p.1 ≠ u ∧ p.2 ≠ u) :
    COk d Pend.none (c.bury u) ∧ (c.bury u).v = c.v.bury u := by
  have hid : c.net.Idle (only u) := {
    new := fun k hk => liveK_only.2 (hi (uu k) (.inl (List.mem_map_of_mem hk)))
    upd := fun k hk => liveK_only.2 (hi (uu k) (.inr (.inl (List.mem_map_of_mem hk))))
    rem := fun k hk => liveK_only.2 (hi (uu k) (.inr (.inr (List.mem_map_of_mem hk)))) }
  have hnets : (c.bury u).nets = [c.net.clean (only u)] := by
    show c.nets.map _ = _
    rw [h.nets]; rfl
  have hnet : (c.bury u).net = c.net.clean (only u) := by unfold Cx.net; rw [hnets]; rfl
  have hloc : ∀ x, get (c.bury u).locals x = if x = u then none else get c.locals x := by
    intro x
    show get (Dict.del c.locals u) x = _
    rw [Dict.get_del]
    by_cases hx : x = u
    · simp [hx]
    · rw [if_neg (fun e => hx e.symm), if_neg hx]
  have htag : ∀ x, get (c.bury u).ghosted x = if x = u then none else get c.ghosted x := by
    intro x
    show get (Dict.del c.ghosted u) x = _
    rw [Dict.get_del]
    by_cases hx : x = u
    · simp [hx]
    · rw [if_neg (fun e => hx e.symm), if_neg hx]
  have hgho : ∀ x, get (c.bury u).ghosts x = if x = u then none else get c.ghosts x := by
    intro x
    show get (c.ghosts.filter fun e => !only u e.1) x = _
    by_cases hx : x = u
    · rw [Dict.get_filter_neg _ (fun y => !only u y) (by simp [hx]), if_pos hx]
    · rw [Dict.get_filter _ (fun y => !only u y) (by simp [hx]), if_neg hx]
  have hfind : ∀ x, (c.bury u).find x = if x = u then none else c.find x := by
    intro x
    unfold Cx.find
    rw [hloc, hgho]
    by_cases hx : x = u <;> simp [hx]
  refine ⟨?_, ?_⟩
  · exact {
      nets := by rw [hnets, hnet]
      net := by rw [hnet]; exact h.net.clean hid
      removed := rfl
      loc := by
        intro x o s hx
        rw [hloc] at hx
        split at hx
        · cases hx
        · exact h.loc x o s hx
      gho := by
        intro x g hx
        rw [hgho] at hx
        split at hx
        · cases hx
        · obtain ⟨h1, h2, h3, h4⟩ := h.gho x g hx
          refine ⟨h1, h2, h3, ?_⟩
          rw [hloc, h4]; simp
      ghoFresh := by
        intro x g hx
        rw [hgho] at hx
        split at hx
        · cases hx
        · exact h.ghoFresh x g hx
      hid := by intro x hx; cases hx
      nodes := by
        intro o
        rw [hnet, hfind]
        show o ∈ c.net.g.nodes.filter _ ↔ _
        rw [List.mem_filter, h.nodes o]
        by_cases hx : o.uid = u <;> simp [hx]
      fresh := by
        intro o ho
        rw [hnet] at ho
        exact h.fresh o (List.mem_filter.1 ho).1
      tagOk := by
        show (Dict.keys (Dict.del c.ghosted u)).Nodup
        exact List.Nodup.sublist (List.filter_sublist.map _) h.tagOk
      tags := by
        intro x m hx
        rw [htag] at hx
        split at hx
        · cases hx
        · rename_i hne
          rw [hloc, if_neg hne]
          exact h.tags x m hx
      toRef := by intro o ho; cases ho }
  · have e1 : (c.bury u).v.loc = (c.v.bury u).loc := by
      funext x
      show (get (c.bury u).locals x).map _ = if x = u then none else (get c.locals x).map _
      rw [hloc]; split <;> rfl
    have e2 : (c.bury u).v.gho = (c.v.bury u).gho := by
      funext x
      show (get (c.bury u).ghosts x).map _ = if x = u then none else (get c.ghosts x).map _
      rw [hgho]; split <;> rfl
    have e3 : (c.bury u).v.net = (c.v.bury u).net := by
      show (c.bury u).net.v = c.net.v.bury u
      rw [hnet]; exact view_clean h.net u
    have e4 : (c.bury u).v.tag = (c.v.bury u).tag := by
      funext x k
      show (c.bury u).ghostedTo k x = (c.ghostedTo k x && decide (x ≠ u))
      unfold Cx.ghostedTo
      rw [htag]
      by_cases hx : x = u <;> simp [hx]
    show ({ rank := c.rank, loc := (c.bury u).v.loc, gho := (c.bury u).v.gho, net := (c.bury u).v.net, tag := (c.bury u).v.tag, req := c.v.req } : RV S A) = _
    rw [e1, e2, e3, e4]
    rfl

/-! ### All ranks -/

/-- The dead, with `u`. -/
abbrev with_ (D : Nat → Bool) (u : Nat) : Nat → Bool := fun x => D x || decide (x = u)

theorem with_iff {u x : Nat} : with_ D u x = true ↔ D x = true ∨ x = u := by simp [with_]

theorem liveK_with (u : Nat) (k : EKey) : liveK (with_ D u) k = (liveK (only u) k && liveK D k) := by
  unfold liveK
  simp only [with_, only, Bool.not_or]
  cases D k.1.uid <;> cases D k.2.uid <;> simp

theorem graph_clean_with (g : Graph A) (u : Nat) : g.clean (with_ D u) = (g.clean D).clean (only u) := by
  unfold Graph.clean
  simp only [List.filter_filter, liveK_with]
  congr 1
  refine List.filter_congr fun o _ => ?_
  simp only [with_, only, Bool.not_or]
  exact Bool.and_comm _ _

theorem net_clean_with (N : Net A) (u : Nat) : N.clean (with_ D u) = (N.clean D).clean (only u) := by
  unfold Net.clean Net.scrub
  simp only [graph_clean_with, List.filter_filter, liveK_with]

theorem clean_with (c : Cx S A) (u : Nat) : c.clean (with_ D u) = (c.clean D).clean (only u) := by
  unfold Cx.clean
  simp only [List.filter_filter, List.map_map]
  congr 1
  · refine List.filter_congr fun e _ => ?_
    simp only [with_, only, Bool.not_or]
    exact Bool.and_comm _ _
  · exact List.map_congr_left fun N _ => net_clean_with N u

/-- The rank does not own `u`. -/
theorem Rel.bury_other {P : Corpse S} {c b : Cx S A} (h : Rel D P c b) (hb : COk d Pend.none b) {u : Nat} (hu : get c.locals u = none) :
    Rel (with_ D u) (c.dead (with_ D u)) c (b.bury u) where
  eq := by
    rw [clean_with, ← h.eq]
    unfold Cx.bury
    have hg : get b.ghosted u = none := by
      cases hg : get b.ghosted u with
      | none => rfl
      | some m =>
        have := (hb.tags u m hg).1
        rw [h.locals, hu] at this; cases this
    rw [Dict.del_none _ hg, Dict.del_none _ (by rw [h.locals]; exact hu)]
    rfl
  dead := rfl
  loc := by
    intro x hx
    rcases with_iff.1 hx with hx | rfl
    · exact h.loc x hx
    · exact hu
  locU := h.locU
  ghoU := h.ghoU

theorem removeNode_clean {g g' : Graph A} {o : Obj} {u : Nat} (ho : o.uid = u) (hg : g.removeNode o = some g') : g'.clean (with_ D u) = (g.clean D).clean (only u) := by
  unfold Graph.removeNode at hg
  split at hg
  · cases hg
    rw [← graph_clean_with]
    unfold Graph.clean
    simp only [List.filter_filter]
    have h1 : ∀ x : Obj, (!with_ D u x.uid) = true → x ≠ o := by
      rintro x hx rfl
      simp [with_, ho] at hx
    congr 1
    · refine List.filter_congr fun x _ => ?_
      cases hx : !with_ D u x.uid with
      | false => rfl
      | true => simp [h1 x hx]
    · refine List.filter_congr fun e _ => ?_
      cases hx : liveK (with_ D u) e.1 with
      | false => rfl
      | true =>
        obtain ⟨l1, l2⟩ := liveK_iff.1 hx
        simp [h1 e.1.1 (bnot_false l1), h1 e.1.2 (bnot_false l2)]
  · cases hg

/-- The rank owns `u`, and removes it. -/
theorem Rel.remove {P : Corpse S} {c b : Cx S A} (h : Rel D P c b) (hb : COk d Pend.none b) {u : Nat} {o : Obj × S} (hu : get c.locals u = some o) :
    ∃ c', c.remove u = some c' ∧ Rel (with_ D u) (c'.dead (with_ D u)) c' (b.bury u) ∧
      c'.removed = (match get c.ghosted u with | some m => c.removed ++ [(u, m)] | none => c.removed) ∧ c'.ghosts = c.ghosts ∧
      ∃ N N', c.nets = [N] ∧ c'.nets = [N'] ∧ N.remove o.1 = some N' ∧ o.1 ∈ (N.clean D).g.nodes := by
  have hou : o.1.uid = u := h.locU u o.1 o.2 hu
  have hl : D u = false := h.live hu
  have hnd : o.1 ∈ b.net.g.nodes := by
    rw [hb.nodes, hou]
    refine ⟨?_, rfl⟩
    unfold Cx.find
    rw [h.locals, hu]; rfl
  have hlen : c.nets.length = 1 := by rw [← h.length, hb.nets]; rfl
  obtain ⟨N, hN⟩ := List.length_eq_one_iff.1 hlen
  have hbN : b.net = N.clean D := by
    unfold Cx.net
    rw [h.eq]
    show ((c.nets.map (Net.clean D))[0]?).getD _ = _
    rw [hN]; rfl
  rw [hbN] at hnd
  have hN' : o.1 ∈ N.g.nodes := (List.mem_filter.1 hnd).1
  obtain ⟨N', hrem⟩ : ∃ N', N.remove o.1 = some N' := by
    unfold Net.remove Graph.removeNode
    rw [if_pos hN']; exact ⟨_, rfl⟩
  have hcl : N'.clean (with_ D u) = (N.clean D).clean (only u) := by
    unfold Net.remove at hrem
    obtain ⟨g, hg, rfl⟩ := Option.map_eq_some_iff.1 hrem
    rw [← net_clean_with]
    unfold Net.clean
    show ({ N.scrub (with_ D u) with g := g.clean (with_ D u) } : Net A) = _
    rw [removeNode_clean hou hg, ← graph_clean_with]
  let c' : Cx S A := { c with
    ghosted := Dict.del c.ghosted u, locals := Dict.del c.locals u
    removed := (match get c.ghosted u with | some m => c.removed ++ [(u, m)] | none => c.removed)
    nets := [N'] }
  refine ⟨c', ?_, ?_, rfl, rfl, N, N', hN, rfl, hrem, hnd⟩
  · unfold Cx.remove
    rw [hu, Option.bind_some]
    unfold Cx.eachNet
    simp only [hN]
    rw [show ([N].mapM fun N => N.remove o.1) = some [N'] by rw [List.mapM_cons, hrem]; rfl]
    rfl
  · exact {
      eq := by
        have e1 : c'.ghosts.filter (fun e => !with_ D u e.1) = b.ghosts.filter fun e => !only u e.1 := by
          rw [h.eq]
          show c.ghosts.filter _ = (c.ghosts.filter _).filter _
          rw [List.filter_filter]
          refine List.filter_congr fun e _ => ?_
          simp only [with_, only, Bool.not_or]
          exact Bool.and_comm _ _
        have e2 : c'.nets.map (Net.clean (with_ D u)) = b.nets.map (Net.clean (only u)) := by
          rw [hb.nets, hbN]
          show [N'.clean (with_ D u)] = _
          rw [hcl]; rfl
        unfold Cx.bury Cx.clean
        rw [e1, e2, h.eq]
        rfl
      dead := rfl
      loc := by
        intro x hx
        show get (Dict.del c.locals u) x = none
        rw [Dict.get_del]
        split
        · rfl
        · rename_i hne
          rcases with_iff.1 hx with hx | hx
          · exact h.loc x hx
          · exact absurd hx.symm hne
      locU := by
        intro x o' s hx
        have hx : get (Dict.del c.locals u) x = some (o', s) := hx
        rw [Dict.get_del] at hx
        split at hx
        · cases hx
        · exact h.locU x o' s hx
      ghoU := h.ghoU }

/-! ### What is then to be dropped -/

theorem Rel.netEq {P : Corpse S} {c b : Cx S A} (h : Rel D P c b) {N : Net A} (hN : c.nets = [N]) : b.net = N.clean D := by
  unfold Cx.net
  rw [h.eq]
  show ((c.nets.map (Net.clean D))[0]?).getD _ = _
  rw [hN]; rfl

theorem dead_ghosts (c : Cx S A) (x : Nat) (g : Gh S) : get (c.dead D).ghosts x = some g ↔ D x = true ∧ get c.ghosts x = some g := by
  show get (c.ghosts.filter fun e => D e.1) x = some g ↔ _
  cases hx : D x with
  | true => rw [Dict.get_filter _ D hx]; simp
  | false => rw [Dict.get_filter_neg _ D hx]; simp

theorem Rel.ghosts {P : Corpse S} {c b : Cx S A} (h : Rel D P c b) (x : Nat) (g : Gh S) : get P.ghosts x = some g ↔ D x = true ∧ get c.ghosts x = some g := by
  rw [← h.dead]; exact dead_ghosts c x g

theorem mem_dead {g : Graph A} {o : Obj} : o ∈ (g.dead D).1 ↔ o ∈ g.nodes ∧ D o.uid = true := by
  show o ∈ g.nodes.filter _ ↔ _
  rw [List.mem_filter]

theorem Rel.ok_other {P : Corpse S} {c b : Cx S A} (h : Rel D P c b) (hb : COk d Pend.none b) (hP : P.Ok D) {u : Nat} (hD : D u = false) (hu : get c.locals u = none) :
    (c.dead (with_ D u)).Ok (with_ D u) := by
  have hlen : c.nets.length = 1 := by rw [← h.length, hb.nets]; rfl
  obtain ⟨N, hN⟩ := List.length_eq_one_iff.1 hlen
  have hbN := h.netEq hN
  have hPn : N.g.dead D ∈ P.nets := by
    rw [← h.dead]
    show _ ∈ c.nets.map _
    rw [hN]; simp
  have hnets : ∀ x, x ∈ (c.dead (with_ D u)).nets → x = N.g.dead (with_ D u) := by
    intro x hx
    have hx : x ∈ c.nets.map fun N => N.g.dead (with_ D u) := hx
    rw [hN] at hx; simpa using hx
  have hnode : ∀ o, o.uid = u → (o ∈ N.g.nodes ↔ ∃ g, get c.ghosts u = some g ∧ g.obj = o) := by
    intro o ho
    have h1 : o ∈ N.g.nodes ↔ o ∈ b.net.g.nodes := by
      rw [hbN]
      show _ ↔ o ∈ N.g.nodes.filter _
      rw [List.mem_filter, ho, hD]; simp
    rw [h1, hb.nodes, ho]
    unfold Cx.find
    rw [h.locals, hu, h.ghost_eq hD]
    simp only [Option.map_none, Option.none_or]
    exact ⟨fun h => Option.map_eq_some_iff.1 h.1, fun h => ⟨Option.map_eq_some_iff.2 h, rfl⟩⟩
  exact {
    gho := by
      intro x g hx
      obtain ⟨h1, h2⟩ := (dead_ghosts c x g).1 hx
      have huid := h.ghoU x g h2
      refine ⟨huid, h1, ?_⟩
      intro y hy
      rw [hnets y hy, mem_dead, huid]
      refine ⟨?_, h1⟩
      rcases with_iff.1 h1 with h3 | rfl
      · exact (mem_dead.1 ((hP.gho x g ((h.ghosts x g).2 ⟨h3, h2⟩)).2.2 _ hPn)).1
      · exact (hnode g.obj huid).2 ⟨g, h2, rfl⟩
    node := by
      intro x hx o ho
      rw [hnets x hx] at ho
      obtain ⟨h1, h2⟩ := mem_dead.1 ho
      rcases with_iff.1 h2 with h3 | h3
      · obtain ⟨g, h4, h5⟩ := hP.node _ hPn o (mem_dead.2 ⟨h1, h3⟩)
        exact ⟨g, (dead_ghosts c _ g).2 ⟨h2, ((h.ghosts _ g).1 h4).2⟩, h5⟩
      · obtain ⟨g, h4, h5⟩ := (hnode o h3).1 h1
        exact ⟨g, (dead_ghosts c _ g).2 ⟨h2, by rw [h3]; exact h4⟩, h5⟩
    edge := by
      intro x hx e he
      rw [hnets x hx] at he ⊢
      obtain ⟨h1, h2⟩ := List.mem_filter.1 he
      cases hl : liveK D e.1 with
      | false =>
        refine (hP.edge _ hPn e (List.mem_filter.2 ⟨h1, by rw [hl]; rfl⟩)).imp ?_ ?_
        · intro hm; obtain ⟨m1, m2⟩ := mem_dead.1 hm; exact mem_dead.2 ⟨m1, with_iff.2 (.inl m2)⟩
        · intro hm; obtain ⟨m1, m2⟩ := mem_dead.1 hm; exact mem_dead.2 ⟨m1, with_iff.2 (.inl m2)⟩
      | true =>
        have hg := hb.net.inv
        rw [hbN] at hg
        obtain ⟨m1, m2⟩ := hg.ends e.1 (List.mem_map_of_mem (List.mem_filter.2 ⟨h1, hl⟩))
        rw [liveK_with, hl, Bool.and_true] at h2
        have h2 : ¬ (e.1.1.uid ≠ u ∧ e.1.2.uid ≠ u) := by
          rw [← liveK_only]; simpa using h2
        by_cases hx : e.1.1.uid = u
        · exact .inl (mem_dead.2 ⟨(List.mem_filter.1 m1).1, with_iff.2 (.inr hx)⟩)
        · refine .inr (mem_dead.2 ⟨(List.mem_filter.1 m2).1, with_iff.2 (.inr ?_)⟩)
          by_cases hy : e.1.2.uid = u
          · exact hy
          · exact absurd ⟨hx, hy⟩ h2 }

theorem Rel.ok_remove {P : Corpse S} {c b c' : Cx S A} (h : Rel D P c b) (hb : COk d Pend.none b) (hP : P.Ok D) {u : Nat} {o : Obj × S} (hu : get c.locals u = some o)
    (hgs : c'.ghosts = c.ghosts) {N N' : Net A} (hN : c.nets = [N]) (hN' : c'.nets = [N']) (hrem : N.remove o.1 = some N') :
    (c'.dead (with_ D u)).Ok (with_ D u) := by
  have hD := h.live hu
  have hou : o.1.uid = u := h.locU u o.1 o.2 hu
  have hbN := h.netEq hN
  have hPn : N.g.dead D ∈ P.nets := by
    rw [← h.dead]
    show _ ∈ c.nets.map _
    rw [hN]; simp
  have hnets : ∀ x, x ∈ (c'.dead (with_ D u)).nets → x = N'.g.dead (with_ D u) := by
    intro x hx
    have hx : x ∈ c'.nets.map fun N => N.g.dead (with_ D u) := hx
    rw [hN'] at hx; simpa using hx
  have hg : N'.g.nodes = N.g.nodes.filter (fun x => decide (x ≠ o.1)) ∧ N'.g.edges = N.g.edges.filter fun e => decide (e.1.1 ≠ o.1) && decide (e.1.2 ≠ o.1) := by
    unfold Net.remove Graph.removeNode at hrem
    split at hrem
    · cases hrem; exact ⟨rfl, rfl⟩
    · cases hrem
  have hnd : ∀ x, x ∈ N'.g.nodes ↔ x ∈ N.g.nodes ∧ x ≠ o.1 := by intro x; rw [hg.1, List.mem_filter]; simp
  have hno : get c.ghosts u = none := by
    rw [← h.ghost_eq hD]
    cases hgh : get b.ghosts u with
    | none => rfl
    | some g =>
      have := (hb.gho u g hgh).2.2.2
      rw [h.locals, hu] at this; cases this
  have honly : ∀ x, x ∈ N.g.nodes → x.uid = u → x = o.1 := by
    intro x hx hxu
    have h1 : x ∈ b.net.g.nodes := by
      rw [hbN]
      exact List.mem_filter.2 ⟨hx, by rw [hxu, hD]; rfl⟩
    rw [hb.nodes, hxu] at h1
    have h2 := h1.1
    unfold Cx.find at h2
    rw [h.locals, hu] at h2
    cases h2; rfl
  exact {
    gho := by
      intro x g hx
      obtain ⟨h1, h2⟩ := (dead_ghosts c' x g).1 hx
      rw [hgs] at h2
      have huid := h.ghoU x g h2
      refine ⟨huid, h1, ?_⟩
      intro y hy
      rw [hnets y hy, mem_dead, huid, hnd]
      refine ⟨⟨?_, ?_⟩, h1⟩
      · rcases with_iff.1 h1 with h3 | rfl
        · exact (mem_dead.1 ((hP.gho x g ((h.ghosts x g).2 ⟨h3, h2⟩)).2.2 _ hPn)).1
        · rw [hno] at h2; cases h2
      · intro e
        rw [e, hou] at huid
        rw [← huid, hno] at h2; cases h2
    node := by
      intro x hx y hy
      rw [hnets x hx] at hy
      obtain ⟨h1, h2⟩ := mem_dead.1 hy
      obtain ⟨h1, hne⟩ := (hnd y).1 h1
      rcases with_iff.1 h2 with h3 | h3
      · obtain ⟨g, h4, h5⟩ := hP.node _ hPn y (mem_dead.2 ⟨h1, h3⟩)
        exact ⟨g, (dead_ghosts c' _ g).2 ⟨h2, by rw [hgs]; exact ((h.ghosts _ g).1 h4).2⟩, h5⟩
      · exact absurd (honly y h1 h3) hne
    edge := by
      intro x hx e he
      rw [hnets x hx] at he ⊢
      obtain ⟨h1, h2⟩ := List.mem_filter.1 he
      rw [hg.2] at h1
      obtain ⟨h1, h3⟩ := List.mem_filter.1 h1
      simp only [Bool.and_eq_true, decide_eq_true_eq] at h3
      cases hl : liveK D e.1 with
      | false =>
        refine (hP.edge _ hPn e (List.mem_filter.2 ⟨h1, by rw [hl]; rfl⟩)).imp ?_ ?_
        · intro hm; obtain ⟨m1, m2⟩ := mem_dead.1 hm; exact mem_dead.2 ⟨(hnd _).2 ⟨m1, h3.1⟩, with_iff.2 (.inl m2)⟩
        · intro hm; obtain ⟨m1, m2⟩ := mem_dead.1 hm; exact mem_dead.2 ⟨(hnd _).2 ⟨m1, h3.2⟩, with_iff.2 (.inl m2)⟩
      | true =>
        have hgi := hb.net.inv
        rw [hbN] at hgi
        obtain ⟨m1, m2⟩ := hgi.ends e.1 (List.mem_map_of_mem (List.mem_filter.2 ⟨h1, hl⟩))
        rw [liveK_with, hl, Bool.and_true] at h2
        have h2 : ¬ (e.1.1.uid ≠ u ∧ e.1.2.uid ≠ u) := by
          rw [← liveK_only]; simpa using h2
        refine absurd ⟨?_, ?_⟩ h2
        · intro hx; exact h3.1 (honly _ (List.mem_filter.1 m1).1 hx)
        · intro hx; exact h3.2 (honly _ (List.mem_filter.1 m2).1 hx) }

theorem mem_keys_of_get {α : Type} {m : Dict α} {k : Nat} (h : (get m k).isSome = true) : k ∈ Dict.keys m := by
  apply Classical.byContradiction
  intro hk
  rw [(Dict.get_eq_none _ _).2 hk] at h; cases h

theorem get_of_mem_keys {α : Type} {m : Dict α} {k : Nat} (h : k ∈ Dict.keys m) : (get m k).isSome = true := by
  cases hk : get m k with
  | some _ => rfl
  | none => exact absurd h ((Dict.get_eq_none _ _).1 hk)

/-- An agent is removed. -/
theorem remove_lift (h : SInv NoHid d n V) {r u : Nat} (hr : r < n) (hl : ((V r).loc u).isSome = true) (hi : Idle n V u) {b w : World S A} (hb : Sim d still n b V) {P : Nat → Corpse S} (hD : Due n D P)
    (hw : ∀ r < n, Rel D (P r) (w r) (b r)) :
    ∃ (b' w' : World S A) (P' : Nat → Corpse S), wstep n w (.remove r u) = some w' ∧ Sim d still n b' (V.bury u) ∧ (∀ k < n, Rel (with_ D u) (P' k) (w' k) (b' k)) ∧ Due n (with_ D u) P' := by
  have hlw : ∀ k < n, (get (w k).locals u).isSome = ((V k).loc u).isSome := by
    intro k hk
    rw [← (hb k hk).2]
    show _ = ((get (b k).locals u).map _).isSome
    rw [(hw k hk).locals]; simp
  have hgw : ∀ k < n, D u = false → (get (w k).ghosts u).isSome = ((V k).gho u).isSome := by
    intro k hk hd
    rw [← (hb k hk).2]
    show _ = ((get (b k).ghosts u).map _).isSome
    rw [(hw k hk).ghost_eq hd]; simp
  obtain ⟨o, ho⟩ := Option.isSome_iff_exists.1 ((hlw r hr).trans hl)
  have hDu : D u = false := (hw r hr).live ho
  obtain ⟨c', e, hR, hrem, hgs, N, N', hN, hN', hre, -⟩ := (hw r hr).remove (hb r hr).1 ho
  have hother : ∀ k < n, k ≠ r → get (w k).locals u = none := by
    intro k hk hne
    cases hg : get (w k).locals u with
    | none => rfl
    | some x =>
      have := h.own k hk r hr u (by rw [← hlw k hk, hg]; rfl) hl
      exact absurd this hne
  let w' : World S A := fun k => if k = r then c' else w k
  have hwr : w' r = c' := if_pos rfl
  have hwk : ∀ k, k ≠ r → w' k = w k := fun k hk => if_neg hk
  have hgho : ∀ k, (w' k).ghosts = (w k).ghosts := by
    intro k
    by_cases hk : k = r
    · rw [hk, hwr]; exact hgs
    · rw [hwk k hk]
  have hremr : ∀ k < n, ∀ x ∈ (w' k).removed, x ∈ (P k).removed ∨ k = r ∧ x.1 = u ∧ get (w r).ghosted u = some x.2 := by
    intro k hk x hx
    have hrk : (w k).removed = (P k).removed := by rw [← (hw k hk).dead]; rfl
    by_cases he : k = r
    · subst he
      rw [hwr, hrem] at hx
      cases hg : get (w k).ghosted u with
      | none => rw [hg] at hx; rw [← hrk]; exact .inl hx
      | some m =>
        rw [hg] at hx
        rcases List.mem_append.1 hx with hx | hx
        · rw [← hrk]; exact .inl hx
        · rw [List.mem_singleton] at hx
          subst hx
          exact .inr ⟨rfl, rfl, rfl⟩
    · rw [hwk k he, hrk] at hx; exact .inl hx
  have hold : ∀ k < n, ∀ x ∈ (P k).removed, x ∈ (w' k).removed := by
    intro k hk x hx
    have hrk : (w k).removed = (P k).removed := by rw [← (hw k hk).dead]; rfl
    by_cases he : k = r
    · subst he
      rw [hwr, hrem, hrk]
      cases hg : get (w k).ghosted u with
      | none => exact hx
      | some m => exact List.mem_append_left _ hx
    · rw [hwk k he, hrk]; exact hx
  have hkeep : ∀ k < n, ∀ x, (get (P k).ghosts x).isSome = true → (get ((w' k).dead (with_ D u)).ghosts x).isSome = true := by
    intro k hk x hx
    obtain ⟨g, hg⟩ := Option.isSome_iff_exists.1 hx
    obtain ⟨h1, h2⟩ := ((hw k hk).ghosts x g).1 hg
    rw [(dead_ghosts (w' k) x g).2 ⟨with_iff.2 (.inl h1), by rw [hgho]; exact h2⟩]; rfl
  have hne : ∀ k < n, ∀ x ∈ (P k).removed, x.1 ≠ u := by
    intro k hk x hx e
    have := (hD.rem k hk x hx).1
    rw [e, hDu] at this; cases this
  have htag : ∀ m, get (w r).ghosted u = some m → ∀ k, k ∈ Dict.keys m ↔ (V r).tag u k = true := by
    intro m hm k
    rw [← (hb r hr).2]
    show _ ↔ (b r).ghostedTo k u = true
    unfold Cx.ghostedTo
    rw [(hw r hr).ghosted, hm]
    exact ⟨get_of_mem_keys, mem_keys_of_get⟩
  refine ⟨fun k => (b k).bury u, w', fun k => (w' k).dead (with_ D u), ?_, ?_, ?_, ?_⟩
  · show at_ n r (fun c => c.remove u) w = _
    unfold at_
    rw [if_pos hr]
    simp only [e]
    rfl
  · intro k hk
    obtain ⟨h1, h2⟩ := (hb k hk).1.bury (u := u) (by rw [(hb k hk).2]; exact hi k hk)
    refine ⟨h1, ?_⟩
    rw [h2, (hb k hk).2]; rfl
  · intro k hk
    show Rel (with_ D u) ((w' k).dead (with_ D u)) (w' k) ((b k).bury u)
    by_cases hkr : k = r
    · subst hkr
      rw [hwr]; exact hR
    · rw [hwk k hkr]
      exact (hw k hk).bury_other (hb k hk).1 (hother k hk hkr)
  · exact {
      ok := by
        intro k hk
        by_cases hkr : k = r
        · subst hkr
          rw [hwr]
          exact (hw k hk).ok_remove (hb k hk).1 (hD.ok k hk) ho hgs hN hN' hre
        · rw [hwk k hkr]
          exact (hw k hk).ok_other (hb k hk).1 (hD.ok k hk) hDu (hother k hk hkr)
      rem := by
        intro k hk x hx
        rcases hremr k hk x hx with hx | ⟨rfl, h1, h2⟩
        · obtain ⟨h1, h2, h3⟩ := hD.rem k hk x hx
          exact ⟨with_iff.2 (.inl h1), h2, fun j hj => ⟨(h3 j hj).1, hkeep j (h3 j hj).1 _ (h3 j hj).2⟩⟩
        · refine ⟨with_iff.2 (.inr h1), ?_, ?_⟩
          · exact ((hb k hk).1.tags u x.2 (by rw [(hw k hk).ghosted]; exact h2)).2.1
          · intro j hj
            obtain ⟨t1, -, t3⟩ := (h.tag k hk u j).1 ((htag x.2 h2 j).1 hj)
            refine ⟨t1, ?_⟩
            rw [← hgw j t1 hDu] at t3
            obtain ⟨g, hg⟩ := Option.isSome_iff_exists.1 t3
            rw [h1, (dead_ghosts (w' j) u g).2 ⟨with_iff.2 (.inr rfl), by rw [hgho]; exact hg⟩]; rfl
      once := by
        intro k hk
        have hrk : (w k).removed = (P k).removed := by rw [← (hw k hk).dead]; rfl
        show (w' k).removed.Pairwise _
        by_cases hkr : k = r
        · subst hkr
          rw [hwr, hrem, hrk]
          cases hg : get (w k).ghosted u with
          | none => exact hD.once k hk
          | some m =>
            rw [List.pairwise_append]
            refine ⟨hD.once k hk, List.pairwise_singleton _ _, ?_⟩
            intro x hx y hy
            rw [List.mem_singleton] at hy
            subst hy
            exact hne k hk x hx
        · rw [hwk k hkr, hrk]; exact hD.once k hk
      own := by
        intro k hk j hj hkj x hx y hy
        rcases hremr k hk x hx with hx | ⟨e1, h1, h2⟩
        · rcases hremr j hj y hy with hy | ⟨e1, h3, h4⟩
          · exact hD.own k hk j hj hkj x hx y hy
          · rw [h3]; exact hne k hk x hx
        · rcases hremr j hj y hy with hy | ⟨e2, h3, h4⟩
          · rw [h1]; exact (hne j hj y hy).symm
          · exact absurd (e1.trans e2.symm) hkj
      cover := by
        intro k hk x hx
        obtain ⟨g, hg⟩ := Option.isSome_iff_exists.1 hx
        obtain ⟨h1, h2⟩ := (dead_ghosts (w' k) x g).1 hg
        rw [hgho] at h2
        rcases with_iff.1 h1 with h3 | rfl
        · obtain ⟨j, hj, y, hy, e1, e2⟩ := hD.cover k hk x (by rw [((hw k hk).ghosts x g).2 ⟨h3, h2⟩]; rfl)
          exact ⟨j, hj, y, hold j hj y hy, e1, e2⟩
        · have ht : (V r).tag x k = true := (h.tag r hr x k).2 ⟨hk, hl, by rw [← hgw k hk hDu, h2]; rfl⟩
          obtain ⟨m, hm⟩ : ∃ m, get (w r).ghosted x = some m := by
            rw [← (hb r hr).2] at ht
            have ht : (b r).ghostedTo k x = true := ht
            unfold Cx.ghostedTo at ht
            rw [(hw r hr).ghosted] at ht
            cases hm : get (w r).ghosted x with
            | none => rw [hm] at ht; cases ht
            | some m => exact ⟨m, rfl⟩
          refine ⟨r, hr, (x, m), ?_, rfl, (htag m hm k).2 ht⟩
          show _ ∈ (w' r).removed
          rw [hwr, hrem, hm]
          exact List.mem_append_right _ (List.mem_singleton.2 rfl) }

end Repast.Network
