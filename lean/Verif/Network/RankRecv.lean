import Verif.Network.RankSync

/-! What a rank does with the edges that it receives. Used for C43. -/
namespace Repast.Network
open Repast.Dict

variable {S A : Type} {d : Bool} {Q : Pend A} {r : Nat} {lr : Obj → Nat} {N : Net A}

theorem edgesOf_nil {g : Graph A} (h : g.Inv) {x : Obj} (hx : x ∈ g.nodes) (hno : ∀ u v, g.hasEdge u v = true → x ≠ u ∧ x ≠ v) : g.edgesOf x = some [] := by
  have key : ∀ e ∈ g.edges, e.1.1 ≠ x ∧ e.1.2 ≠ x := by
    intro e he
    have : g.slot e.1.1 e.1.2 = some e.2 := (slot_iff h _ _ _).2 ⟨e.1, he, .inl ⟨rfl, rfl⟩⟩
    have := hno e.1.1 e.1.2 (by unfold Graph.hasEdge; rw [this]; rfl)
    exact ⟨fun c => this.1 c.symm, fun c => this.2 c.symm⟩
  unfold Graph.edgesOf
  rw [if_pos hx]
  congr 1
  split
  · unfold Graph.outEdges Graph.inEdges
    rw [List.append_eq_nil_iff, List.filter_eq_nil_iff, List.filter_eq_nil_iff]
    exact ⟨fun e he => by simp [(key e he).1], fun e he => by simp [(key e he).2]⟩
  · unfold Graph.nbrEdges
    rw [List.filterMap_eq_nil_iff]
    intro e he
    rw [if_neg (key e he).1, if_neg (key e he).2]

/-- The edge of a ghost that has no other edge. -/
theorem NetOk.drop (h : NetOk d Q r lr N) {u v x : Obj} (he : N.g.hasEdge u v = true) (hc : Crosses r lr (u, v)) (hx : x = u ∨ x = v)
    (hone : ∀ a b, N.g.hasEdge a b = true → (x = a ∨ x = b) → Same d u v a b)
    (hno : ∀ k, k ∈ Assoc.keys N.newEdges ∨ k ∈ Assoc.keys N.ghosted → ¬ Same d u v k.1 k.2) (hrem : N.toRemove = []) :
    ∃ g g' ks, N.g.removeEdge u v = some g ∧ ({ N with g := g } : Net A).hasAnyEdge x = some false ∧ g.removeNode x = some g' ∧
      ({ N with g := g' } : Net A).removeKey u v = some { N with g := g', keys := ks } ∧ NetOk d Q r lr { N with g := g', keys := ks } ∧
      (∀ o, o ∈ g'.nodes ↔ o ∈ N.g.nodes ∧ o ≠ x) ∧
      ({ N with g := g', keys := ks } : Net A).v = { N.v with
        has := fun y => N.v.has y && !decide (y = x.uid)
        edge := fun y z => if SameN d u.uid v.uid y z then none else N.v.edge y z } := by
  obtain ⟨g, hg⟩ : ∃ g, N.g.removeEdge u v = some g := Option.isSome_iff_exists.1 (by rw [removeEdge_isSome, ← hasEdge_iff]; exact he)
  have hge := (removeEdge_some hg).2
  have hdg : g.directed = N.g.directed := by rw [hge]
  have hng : g.nodes = N.g.nodes := by rw [hge]
  have hgi := h.inv.removeEdge hg
  obtain ⟨i, hi⟩ := Option.isSome_iff_exists.1 he
  have hn := slot_ends h.inv hi
  have hxn : x ∈ N.g.nodes := by rcases hx with rfl | rfl <;> simp [hn]
  have hxg : x ∈ g.nodes := by rw [hng]; exact hxn
  have hsl : ∀ a b, g.slot a b = if Same d u v a b then none else N.g.slot a b := fun a b => by rw [slot_removeEdge h.inv hg, h.dir]
  have hno' : ∀ a b, g.hasEdge a b = true → x ≠ a ∧ x ≠ b := by
    intro a b hab
    unfold Graph.hasEdge at hab
    rw [hsl] at hab
    split at hab
    · cases hab
    · rename_i hs
      have hab' : N.g.hasEdge a b = true := hab
      exact ⟨fun e => hs (hone a b hab' (.inl e)), fun e => hs (hone a b hab' (.inr e))⟩
  obtain ⟨g', hg'⟩ : ∃ g', g.removeNode x = some g' := by unfold Graph.removeNode; rw [if_pos hxg]; exact ⟨_, rfl⟩
  have hg'e := (removeNode_some hg').2
  have hdg' : g'.directed = N.g.directed := by rw [hg'e]; exact hdg
  have hng' : ∀ o, o ∈ g'.nodes ↔ o ∈ N.g.nodes ∧ o ≠ x := by intro o; rw [hg'e]; simp [hng]
  have hsl' : ∀ a b, g'.slot a b = if Same d u v a b then none else N.g.slot a b := by
    intro a b
    rw [slot_removeNode hgi hg']
    split
    · rename_i hab
      rw [← hsl]
      cases hh : g.slot a b with
      | none => rfl
      | some j =>
        have := hno' a b (by unfold Graph.hasEdge; rw [hh]; rfl)
        exact absurd hab (by rintro (e | e) <;> simp_all)
    · exact hsl a b
  obtain ⟨ks, hk1, hk2⟩ := removeKey_ok (N := { N with g := g' }) (fun _ => h.sym) (u := u) (v := v)
    (fun hd => h.hasKey (by rw [← h.dir, ← hdg']; exact hd) u v he) (.inr hc.ne)
  have hok : NetOk d Q r lr { N with g := g', keys := ks } := by
    refine h.shrink (u := u) (v := v) (hgi.removeNode hg') hdg' (fun o ho => ((hng' o).1 ho).1) hsl' (by intro k; rw [← hdg']; exact hk2 k) h.moved h.noLonger h.toRef
      (fun e he => ⟨he, hno _ (.inl (List.mem_map_of_mem he))⟩) h.newOk (fun e he => ⟨he, hno _ (.inr (List.mem_map_of_mem he))⟩) h.synOk (fun k hk _ => hk)
      (fun k hk => ⟨hk, hno k (h.upd k hk)⟩) ?_ h.remOk
    intro e he'
    have : e ∈ N.toRemove := he'
    rw [hrem] at this; cases this
  refine ⟨g, g', ks, hg, ?_, hg', hk1, hok, hng', ?_⟩
  · unfold Net.hasAnyEdge
    rw [edgesOf_nil hgi hxg hno']; rfl
  · have hattr : ∀ a b, g'.attr a b = if Same d u v a b then none else N.g.attr a b :=
      fun a b => attr_of_slot (by rw [hg'e, hge]) a b _ (hsl' a b)
    have := e_removed h hok hn.1 hn.2 hattr
    unfold Net.v
    congr 1
    · funext y
      rw [Bool.eq_iff_iff, has_iff hok.uniq, Bool.and_eq_true, has_iff h.uniq]
      constructor
      · rintro ⟨o, ho, rfl⟩
        obtain ⟨h1, h2⟩ := (hng' o).1 ho
        refine ⟨⟨o, h1, rfl⟩, ?_⟩
        simp only [Bool.not_eq_true', decide_eq_false_iff_not]
        exact fun e => h2 (h.uniq _ h1 _ hxn e)
      · rintro ⟨⟨o, ho, rfl⟩, hne⟩
        simp only [Bool.not_eq_true', decide_eq_false_iff_not] at hne
        exact ⟨o, (hng' o).2 ⟨ho, fun e => hne (by rw [e])⟩, rfl⟩
    · funext y z; exact this y z

/-- The agents of an edge are in the network. -/
theorem COk.edge_vis {c : Cx S A} (h : COk d Q c) {u v : Nat} (he : (c.v.net.edge u v).isSome = true) : Q.hid u = false ∧ Q.hid v = false := by
  have he : (c.net.e u v).isSome = true := he
  unfold Net.e at he
  constructor
  · cases hh : Q.hid u with
    | false => rfl
    | true => rw [h.node_hid hh] at he; cases he
  · cases hh : Q.hid v with
    | false => rfl
    | true => rw [h.node_hid hh] at he; cases hu : c.net.node u <;> rw [hu] at he <;> cases he

/-- The ends of an edge that another rank has sent. -/
theorem COk.ends {c : Cx S A} (h : COk d Q c) {u v : Nat} (hv : Q.hid u = false ∧ Q.hid v = false)
    (hg : (c.v.loc u).isSome = true ∧ (c.v.gho v).isSome = true ∨ (c.v.gho u).isSome = true ∧ (c.v.loc v).isSome = true) :
    ∃ a b x, c.ends u v = some (a, b, x) ∧ a ∈ c.net.g.nodes ∧ b ∈ c.net.g.nodes ∧ a.uid = u ∧ b.uid = v ∧ (x = a ∧ (c.v.gho u).isSome = true ∨ x = b ∧ (c.v.gho v).isSome = true) ∧
      Crosses c.rank c.lrank (a, b) ∧ ∃ g, get c.ghosts x.uid = some g ∧ g.obj = x := by
  unfold Cx.ends
  rcases hg with ⟨h1, h2⟩ | ⟨h1, h2⟩
  · have h1' : (get c.locals u).isSome = true := by simpa [Cx.v] using h1
    have h2' : (get c.ghosts v).isSome = true := by simpa [Cx.v] using h2
    obtain ⟨⟨o, s⟩, ho⟩ := Option.isSome_iff_exists.1 h1'
    obtain ⟨g, hg⟩ := Option.isSome_iff_exists.1 h2'
    have hn : get c.ghosts u = none := by
      cases hh : get c.ghosts u with
      | none => rfl
      | some g' => rw [(h.gho u g' hh).2.2.2] at ho; cases ho
    have hl := h.loc u o s ho
    have hgg := h.gho v g hg
    refine ⟨o, g.obj, g.obj, by rw [hn, ho, hg]; rfl, h.local_node ho, h.ghost_node hv.2 hg, hl.1, hgg.1, .inr ⟨rfl, h2⟩, .inl ⟨hl.2, hgg.2.1⟩, g, by rw [hgg.1]; exact hg, rfl⟩
  · have h1' : (get c.locals v).isSome = true := by simpa [Cx.v] using h2
    have h2' : (get c.ghosts u).isSome = true := by simpa [Cx.v] using h1
    obtain ⟨⟨o, s⟩, ho⟩ := Option.isSome_iff_exists.1 h1'
    obtain ⟨g, hg⟩ := Option.isSome_iff_exists.1 h2'
    have hl := h.loc v o s ho
    have hgg := h.gho u g hg
    refine ⟨g.obj, o, g.obj, by rw [hg, ho]; rfl, h.ghost_node hv.1 hg, h.local_node ho, hgg.1, hl.1, .inl ⟨rfl, h1⟩, .inr ⟨hgg.2.1, hl.2⟩, g, by rw [hgg.1]; exact hg, rfl⟩

/-- An edge is received. -/
theorem COk.recvEdge {c : Cx S A} (h : COk d Q c) {u v : Nat} (hv : Q.hid u = false ∧ Q.hid v = false) (a : Attr A)
    (hg : (c.v.loc u).isSome = true ∧ (c.v.gho v).isSome = true ∨ (c.v.gho u).isSome = true ∧ (c.v.loc v).isSome = true)
    (hw : ∀ p, p ∈ c.v.net.new ∨ p ∈ c.v.net.syn → SameN d u v p.1 p.2 → p = (u, v)) (hrem : c.v.net.rem = []) :
    ∃ c', c.recvEdge 0 (u, v, a) = some c' ∧ COk d Q c' ∧ c'.v = { c.v with net := { c.v.net with
      edge := fun x y => if SameN d u v x y then some (merge ((c.v.net.edge x y).getD []) a) else c.v.net.edge x y } } := by
  obtain ⟨x, y, z, he, hx, hy, rfl, rfl, -⟩ := h.ends hv hg
  have hN := h.net.put hx hy a (by
    intro k hk hs
    have hke := h.net.keyEnds hk
    have : uu k = (x.uid, y.uid) := hw (uu k) (hk.imp (List.mem_map_of_mem (f := uu)) (List.mem_map_of_mem (f := uu))) ((sameN_uid h.net.uniq hx hy hke.1 hke.2).2 hs)
    simp only [uu, Prod.mk.injEq] at this
    exact Prod.ext (h.net.uniq _ hke.1 _ hx this.1) (h.net.uniq _ hke.2 _ hy this.2)) (by
    intro k hk
    have : (Assoc.keys c.net.toRemove).map uu = [] := hrem
    rw [List.map_eq_nil_iff] at this
    rw [this] at hk; cases hk)
  have hn : ∀ o, o ∈ (c.net.put x y a).g.nodes ↔ o ∈ c.net.g.nodes := by
    intro o
    rw [put_g, mem_addEdge]
    constructor
    · rintro (ho | rfl | rfl) <;> assumption
    · exact .inl
  obtain ⟨h3, h4⟩ := h.setNet hN hn
  refine ⟨_, ?_, h3, ?_⟩
  · unfold Cx.recvEdge
    rw [he, Option.bind_some, h.withNet]; rfl
  · rw [h4, put_v h.net hx hy a]; rfl

/-- The removal of an edge is received: the ghost, which has no other edge, is removed. -/
theorem COk.recvRemoved {c : Cx S A} (h : COk d Q c) {u v : Nat}
    (hg : (c.v.loc u).isSome = true ∧ (c.v.gho v).isSome = true ∨ (c.v.gho u).isSome = true ∧ (c.v.loc v).isSome = true)
    (he : (c.v.net.edge u v).isSome = true)
    (hone : ∀ x y z, (c.v.net.edge x y).isSome = true → (z = u ∨ z = v) → (c.v.gho z).isSome = true → (z = x ∨ z = y) → SameN d u v x y)
    (hreq : ∀ z, z = u ∨ z = v → (c.v.gho z).isSome = true → c.v.req z = false) (hmv : ∀ z, z = u ∨ z = v → (c.v.gho z).isSome = true → ¬ Q.mv z)
    (hw : ∀ p, p ∈ c.v.net.new ∨ p ∈ c.v.net.syn → ¬ SameN d u v p.1 p.2) (hrem : c.v.net.rem = []) :
    ∃ c', c.recvRemoved 0 (u, v) = some c' ∧ COk d Q c' ∧ c'.v = { c.v with
      gho := fun x => if x = u ∨ x = v then none else c.v.gho x
      net := { c.v.net with
        has := fun x => c.v.net.has x && !decide ((x = u ∨ x = v) ∧ (c.v.gho x).isSome = true)
        edge := fun x y => if SameN d u v x y then none else c.v.net.edge x y } } := by
  have hv := h.edge_vis he
  obtain ⟨x, y, z, hends, hx, hy, rfl, rfl, hz, hc, g, hgz, hgo⟩ := h.ends hv hg
  have hzn : z ∈ c.net.g.nodes := by rcases hz with ⟨rfl, -⟩ | ⟨rfl, -⟩ <;> assumption
  have hzg : (c.v.gho z.uid).isSome = true := by rcases hz with ⟨rfl, hh⟩ | ⟨rfl, hh⟩ <;> assumption
  have hzxy : z.uid = x.uid ∨ z.uid = y.uid := by rcases hz with ⟨rfl, -⟩ | ⟨rfl, -⟩ <;> simp
  have he' : c.net.g.hasEdge x y = true := by rw [hasEdge_iff, ← h.edge_attr hx hy]; exact he
  have hrem' : c.net.toRemove = [] := by
    have : (Assoc.keys c.net.toRemove).map uu = [] := hrem
    rw [List.map_eq_nil_iff] at this
    exact List.map_eq_nil_iff.1 this
  obtain ⟨G, G', ks, q1, q2, q3, q4, q5, q6, q7⟩ := h.net.drop (u := x) (v := y) (x := z) he' hc (by rcases hz with ⟨e, -⟩ | ⟨e, -⟩ <;> simp [e]) (by
    intro a b hab hza
    rw [hasEdge_iff] at hab
    obtain ⟨t, ht⟩ := Option.isSome_iff_exists.1 hab
    have hn := attr_ends h.net.inv ht
    refine (sameN_uid h.net.uniq hx hy hn.1 hn.2).1 (hone a.uid b.uid z.uid ?_ hzxy hzg (hza.imp (congrArg _) (congrArg _)))
    rw [h.edge_attr hn.1 hn.2, ht]; rfl) (by
    intro k hk hs
    have hke := h.net.keyEnds hk
    exact hw (uu k) (hk.imp (List.mem_map_of_mem (f := uu)) (List.mem_map_of_mem (f := uu))) ((sameN_uid h.net.uniq hx hy hke.1 hke.2).2 hs)) hrem'
  have hreqz : z.uid ∉ c.req := by simpa [Cx.v] using hreq z.uid hzxy hzg
  have hgg := h.gho z.uid g hgz
  have hother : ∀ w, (w = x.uid ∨ w = y.uid) → (get c.ghosts w).isSome = true → w = z.uid := by
    intro w hw hwg
    obtain ⟨g', hg'⟩ := Option.isSome_iff_exists.1 hwg
    have h1 := h.gho w g' hg'
    have h2 := h.ghost_node (by rcases hw with rfl | rfl; exact hv.1; exact hv.2) hg'
    have hwn : c.lrank g'.obj ≠ c.rank := h1.2.1
    have hzr : c.lrank z ≠ c.rank := by rw [← hgo]; exact hgg.2.1
    have : g'.obj = x ∨ g'.obj = y := by
      rcases hw with rfl | rfl
      · exact .inl (h.net.uniq _ h2 _ hx h1.1)
      · exact .inr (h.net.uniq _ h2 _ hy h1.1)
    rcases hc with ⟨c1, c2⟩ | ⟨c1, c2⟩
    · rcases this with e | e
      · rw [e] at hwn; exact absurd c1 hwn
      · rcases hz with ⟨e', -⟩ | ⟨e', -⟩
        · rw [e'] at hzr; exact absurd c1 hzr
        · rw [e', ← e, h1.1]
    · rcases this with e | e
      · rcases hz with ⟨e', -⟩ | ⟨e', -⟩
        · rw [e', ← e, h1.1]
        · rw [e'] at hzr; exact absurd c2 hzr
      · rw [e] at hwn; exact absurd c2 hwn
  let c' : Cx S A := { c with ghosts := del c.ghosts z.uid, nets := [{ c.net with g := G', keys := ks }] }
  have hgh : ∀ w, get c'.ghosts w = if z.uid = w then none else get c.ghosts w := fun w => get_del ..
  have hlz : get c.locals z.uid = none := hgg.2.2.2
  have hfind : ∀ w, c'.find w = if w = z.uid then none else c.find w := by
    intro w
    show ((get c.locals w).map (·.1)).or ((get c'.ghosts w).map (·.obj)) = _
    rw [hgh]
    by_cases e : w = z.uid
    · subst e; simp [hlz]
    · rw [if_neg (fun e' => e e'.symm), if_neg e]; rfl
  refine ⟨c', ?_, ?_, ?_⟩
  · unfold Cx.recvRemoved
    rw [hends, Option.bind_some]
    unfold Cx.dropEdge
    rw [h.withNet, q1]
    simp only [Option.map_some, Option.bind_some, List.getElem?_cons_zero, q2]
    have e1 : ({ c with nets := [{ c.net with g := G }] } : Cx S A).removeGhost z.uid = some { c with ghosts := del c.ghosts z.uid, nets := [{ c.net with g := G }] } := by
      unfold Cx.removeGhost
      simp only [hreqz, if_false, hgz, Option.map_some, hgg.2.2.1 (hmv z.uid hzxy hzg) hreqz]
      simp
    simp only [Bool.false_eq_true, if_false, e1, Option.bind_some, Cx.withNet, List.getElem?_cons_zero, Net.remove, q3, Option.map_some, List.set_cons_zero, q4]
    rfl
  · exact {
      nets := rfl
      net := q5
      removed := h.removed
      loc := h.loc
      gho := by
        intro w g' hw
        rw [hgh] at hw
        split at hw
        · cases hw
        · exact h.gho w g' hw
      hid := by
        intro w hw
        rw [hgh, if_neg]
        · exact h.hid w hw
        · rintro rfl
          have : Q.hid z.uid = false := by rcases hz with ⟨rfl, -⟩ | ⟨rfl, -⟩; exact hv.1; exact hv.2
          rw [this] at hw; cases hw
      ghoFresh := by
        intro w g' hw
        rw [hgh] at hw
        split at hw
        · cases hw
        · exact h.ghoFresh w g' hw
      nodes := by
        intro o
        show o ∈ G'.nodes ↔ _
        rw [q6, hfind, h.nodes]
        constructor
        · rintro ⟨h1, h2⟩
          rw [if_neg]
          · exact h1
          · intro e
            exact h2 (h.net.uniq _ ((h.nodes o).2 h1) _ hzn e)
        · split
          · intro hh; cases hh.1
          · rename_i hne
            intro hh
            exact ⟨hh, fun e => hne (by rw [e])⟩
      fresh := fun o ho => h.fresh o ((q6 o).1 ho).1
      tagOk := h.tagOk
      tags := h.tags
      toRef := h.toRef }
  · show ({ c.v with gho := fun w => (get c'.ghosts w).map fun g => (g.st, c.lrank g.obj), net := ({ c.net with g := G', keys := ks } : Net A).v } : RV S A) = _
    rw [q7]
    have hg1 : (fun w => (get c'.ghosts w).map fun g => (g.st, c.lrank g.obj)) = fun w => if w = x.uid ∨ w = y.uid then none else c.v.gho w := by
      funext w
      rw [hgh]
      by_cases e : z.uid = w
      · rw [if_pos e, if_pos (by rw [← e]; exact hzxy)]; rfl
      · rw [if_neg e]
        split
        · rename_i hw
          cases hh : get c.ghosts w with
          | none => rfl
          | some g' => exact absurd (hother w hw (by rw [hh]; rfl)).symm e
        · rfl
    have hg2 : (fun w => c.net.v.has w && !decide (w = z.uid)) = fun w => c.net.v.has w && !decide ((w = x.uid ∨ w = y.uid) ∧ (c.v.gho w).isSome = true) := by
      funext w
      have : w = z.uid ↔ ((w = x.uid ∨ w = y.uid) ∧ (c.v.gho w).isSome = true) := by
        constructor
        · rintro rfl; exact ⟨hzxy, hzg⟩
        · rintro ⟨h1, h2⟩
          exact hother w h1 (by simpa [Cx.v] using h2)
      simp only [this]
    rw [hg1, hg2]
    rfl

end Repast.Network
