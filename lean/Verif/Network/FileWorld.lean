import Verif.Network.FileRead

/-! C44: what all ranks do when they read a network file. -/
namespace Repast.Network
open Repast.Dict Repast.Context

variable {S A : Type} {d : Bool} {n : Nat}

/-! ### Views with given edges -/

theorem fill_some {T : Nat → Nat → Option (Attr A)} {ps : List (Nat × Nat)} {x y : Nat} {a : Attr A} (h : fill d T ps x y = some a) : (∃ p ∈ ps, SameN d p.1 p.2 x y) ∧ T x y = some a := by
  unfold fill at h
  split at h
  · rename_i hh
    obtain ⟨p, hp, hs⟩ := List.any_eq_true.1 hh
    exact ⟨⟨p, hp, of_decide_eq_true hs⟩, h⟩
  · cases h

theorem fill_of {T : Nat → Nat → Option (Attr A)} {ps : List (Nat × Nat)} {x y : Nat} (h : ∃ p ∈ ps, SameN d p.1 p.2 x y) : fill d T ps x y = T x y := by
  obtain ⟨p, hp, hs⟩ := h
  exact if_pos (List.any_eq_true.2 ⟨p, hp, decide_eq_true hs⟩)

theorem fill_none {T : Nat → Nat → Option (Attr A)} {ps : List (Nat × Nat)} {x y : Nat} (h : ∀ p ∈ ps, ¬ SameN d p.1 p.2 x y) : fill d T ps x y = none := by
  cases hh : fill d T ps x y with
  | none => rfl
  | some a =>
    obtain ⟨⟨p, hp, hs⟩, -⟩ := fill_some hh
    exact absurd hs (h p hp)

theorem Before.rfl' (a : Option (Attr A)) : Before a a := by
  intro x y h1 h2
  rw [h1] at h2
  obtain rfl := Option.some.inj h2
  exact List.prefix_rfl

/-- The edges of the ranks may be replaced, if there are none to be sent. -/
theorem SInv.refill {Q : Sp S A} (h : SInv NoHid d n Q) (he : ∀ r < n, (Q r).net.upd = [] ∧ (Q r).net.rem = [] ∧ (Q r).net.syn = []) {T : Nat → Nat → Option (Attr A)}
    (hsym : d = false → ∀ u v, T u v = T v u) (hok : ∀ u v a, T u v = some a → (Dict.keys a).Nodup) {ps nw : Nat → List (Nat × Nat)}
    (hends : ∀ r < n, ∀ p ∈ ps r, (Q r).net.has p.1 = true ∧ (Q r).net.has p.2 = true ∧ (((Q r).loc p.1).isSome = true ∨ ((Q r).loc p.2).isSome = true))
    (hpeer : ∀ r < n, ∀ k < n, r ≠ k → ∀ u v, Peer Q r k u v → fill d T (ps r) u v = fill d T (ps k) u v)
    (hnw : ∀ r < n, ∀ p ∈ nw r, p ∈ ps r ∧ (T p.1 p.2).isSome = true ∧ (Q r).cross p.1 p.2 = true)
    (hor : d = false → ∀ r < n, ∀ k < n, ∀ p ∈ nw r, (p.2, p.1) ∉ nw k) : SInv NoHid d n (fun r => (Q r).filled d T (ps r) (nw r)) where
  rank := h.rank
  own := h.own
  gho := h.gho
  tag := h.tag
  one := by
    intro r hr
    have h1 := h.one r hr
    obtain ⟨e1, e2, e3⟩ := he r hr
    exact {
      has := h1.has
      hid := h1.hid
      apart := h1.apart
      sym := by
        intro hd u v
        show fill d T (ps r) u v = fill d T (ps r) v u
        unfold fill
        rw [hsym hd u v]
        have : (fun p : Nat × Nat => decide (SameN d p.1 p.2 u v)) = fun p => decide (SameN d p.1 p.2 v u) := by
          funext p
          rw [decide_eq_decide]
          unfold SameN
          subst hd
          simp only [true_and]
          exact Or.comm
        rw [this]
      ends := by
        intro u v hh
        obtain ⟨a, ha⟩ := Option.isSome_iff_exists.1 hh
        obtain ⟨⟨p, hp, hs⟩, -⟩ := fill_some ha
        obtain ⟨a1, a2, a3⟩ := hends r hr p hp
        rcases hs with ⟨rfl, rfl⟩ | ⟨-, rfl, rfl⟩
        · exact ⟨a1, a2, a3⟩
        · exact ⟨a2, a1, a3.symm⟩
      ok := fun u v a ha => hok u v a (fill_some ha).2
      wrote := by
        intro p hp
        rcases hp with hp | hp
        · obtain ⟨a1, a2, a3⟩ := hnw r hr p hp
          refine ⟨?_, a3⟩
          show (fill d T (ps r) p.1 p.2).isSome = true
          rw [fill_of ⟨p, a1, SameN.refl _ _ _⟩]; exact a2
        · rw [show ((Q r).filled d T (ps r) (nw r)).net.syn = (Q r).net.syn from rfl, e3] at hp; cases hp
      upd := by intro p hp; rw [show ((Q r).filled d T (ps r) (nw r)).net.upd = (Q r).net.upd from rfl, e1] at hp; cases hp
      rem := by intro p hp; rw [show ((Q r).filled d T (ps r) (nw r)).net.rem = (Q r).net.rem from rfl, e2] at hp; cases hp
      once := h1.once }
  two := by
    intro r hr k hk hne
    obtain ⟨e1, e2, e3⟩ := he r hr
    exact {
      agree := fun u v hp _ _ _ _ => hpeer r hr k hk hne u v hp
      before := by
        intro u v hp _ _
        show Before (fill d T (ps k) u v) (fill d T (ps r) u v)
        rw [hpeer r hr k hk hne u v hp]
        exact Before.rfl' _
      syn := by intro p hp; rw [show ((Q r).filled d T (ps r) (nw r)).net.syn = (Q r).net.syn from rfl, e3] at hp; cases hp
      rem := by intro p hp; rw [show ((Q r).filled d T (ps r) (nw r)).net.rem = (Q r).net.rem from rfl, e2] at hp; cases hp }
  orient := by
    intro hd r hr k hk p hp
    have e3 := (he r hr).2.2
    have e3' := (he k hk).2.2
    refine ⟨?_, by rw [show ((Q k).filled d T (ps k) (nw k)).net.syn = (Q k).net.syn from rfl, e3']; simp⟩
    rcases hp with hp | hp
    · exact hor hd r hr k hk p hp
    · rw [show ((Q r).filled d T (ps r) (nw r)).net.syn = (Q r).net.syn from rfl, e3] at hp; cases hp

theorem SInv.bare {L : Nat → Nat → Option S} (h : ∀ r < n, ∀ k < n, ∀ u, (L r u).isSome = true → (L k u).isSome = true → r = k) : SInv NoHid d n (bare L : Sp S A) where
  rank := fun _ _ => rfl
  own := h
  gho := by intro k _ u s r hh; cases hh
  tag := by
    intro r _ u k
    constructor
    · intro hh; cases hh
    · rintro ⟨-, -, hh⟩; cases hh
  one := by
    intro r hr
    exact {
      has := by intro u; show _ = ((_ || false) && true); rw [Bool.or_false, Bool.and_true]; rfl
      hid := fun _ hh => by cases hh
      apart := fun _ _ => rfl
      sym := fun _ _ _ => rfl
      ends := by intro u v hh; cases hh
      ok := by intro u v a hh; cases hh
      wrote := by intro p hp; rcases hp with hp | hp <;> cases hp
      upd := by intro p hp; cases hp
      rem := by intro p hp; cases hp
      once := List.Pairwise.nil }
  two := by
    intro r hr k hk hne
    exact {
      agree := fun _ _ _ _ _ _ _ => rfl
      before := by rintro u v - ⟨p, hp, -⟩; rcases hp with hp | hp <;> cases hp
      syn := by intro p hp; cases hp
      rem := by intro p hp; cases hp }
  orient := by intro _ r _ k _ p hp; rcases hp with hp | hp <;> cases hp

/-! ### The edges to ghosts -/

/-- A context that would be a good one with the nodes `l`; its nodes are `m`. -/
structure Sup (d : Bool) (l m : List Obj) (c : Cx S A) (X : RV S A) : Prop where
  ok : COk d Pend.none (c.like l)
  view : (c.like l).v = X
  nets : c.nets = [c.net]
  nodes : c.net.g.nodes = m
  sub : ∀ o ∈ l, o ∈ m
  loc : ∀ u, (X.loc u).isSome = true → m.filter (fun o => decide (o.uid = u)) = l.filter (fun o => decide (o.uid = u))
  known : ∀ o ∈ m, X.net.has o.uid = true

theorem Dup.sup {c : Cx S A} {X : RV S A} (h : Dup d c X) : Sup d (c.net.g.nodes.filter c.live) c.net.g.nodes c X where
  ok := by rw [← pruned_like h.nets]; exact h.ok
  view := by rw [← pruned_like h.nets]; exact h.view
  nets := h.nets
  nodes := rfl
  sub := fun o ho => (List.mem_filter.1 ho).1
  loc := by
    intro u hu
    rw [List.filter_filter]
    refine List.filter_congr ?_
    intro o ho
    by_cases e : o.uid = u
    · have hl : (get c.locals o.uid).isSome = true := by
        rw [← h.view] at hu
        have : ((get c.locals u).map (·.2)).isSome = true := hu
        rw [Option.isSome_map] at this
        rw [e]; exact this
      have : c.live o = true := decide_eq_true (h.loc o ho hl)
      rw [this, decide_eq_true e]; rfl
    · rw [decide_eq_false e, Bool.false_and]
  known := by
    intro o ho
    obtain ⟨x, hx⟩ := Option.isSome_iff_exists.1 (h.known o ho)
    have hx' : c.pruned.find o.uid = some x := hx
    rw [← h.view]
    exact (has_iff h.ok.net.uniq _).2 ⟨x, (h.ok.find_iff.1 ⟨hx', rfl⟩).1, (h.ok.find_iff.1 ⟨hx', rfl⟩).2⟩

theorem Sup.net_like {l m : List Obj} {c : Cx S A} {X : RV S A} (h : Sup d l m c X) : (c.like l).net = c.net.withNodes l := by
  unfold Cx.net
  rw [like_nets, h.nets]
  rfl

theorem net_addEdge_nodes (r : Nat) (lr : Obj → Nat) (N : Net A) (l : List Obj) {u v : Obj} (a : Attr A) (hu : u ∈ N.g.nodes) (hv : v ∈ N.g.nodes) (hu' : u ∈ l) (hv' : v ∈ l) :
    (N.withNodes l).addEdge r lr u v a = (N.addEdge r lr u v a).withNodes l ∧ (N.addEdge r lr u v a).g.nodes = N.g.nodes := by
  obtain ⟨h1, h2⟩ := net_put_nodes N l a hu hv hu' hv'
  unfold Net.addEdge
  have e1 : N.noteRef v = N := if_pos hv
  have e2 : N.noteRef u = N := if_pos hu
  have e3 : (N.withNodes l).noteRef v = N.withNodes l := if_pos hv'
  have e4 : (N.withNodes l).noteRef u = N.withNodes l := if_pos hu'
  rw [e1, e2, e3, e4, h1]
  split
  · exact ⟨rfl, h2⟩
  · split
    · exact ⟨rfl, h2⟩
    · exact ⟨rfl, h2⟩

theorem Sup.addEdge {l m : List Obj} {c : Cx S A} {X : RV S A} {T : Nat → Nat → Option (Attr A)} (hsym : d = false → ∀ u v, T u v = T v u)
    (hok : ∀ u v a, T u v = some a → (Dict.keys a).Nodup) (hX : X.net.rem = []) {ps new : List (Nat × Nat)} (h : Sup d l m c (X.filled d T ps new)) {u v : Nat} {a : Attr A} (ha : T u v = some a)
    (hu : X.net.has u = true) (hw : X.net.has v = true) (hc : X.cross u v = true) :
    ∃ c', c.addEdge 0 u v a = some c' ∧ Sup d l m c' (X.filled d T (ps ++ [(u, v)]) (ins new (u, v))) := by
  have hu' : (c.like l).v.net.has u = true := by rw [h.view]; exact hu
  have hw' : (c.like l).v.net.has v = true := by rw [h.view]; exact hw
  obtain ⟨x, hx, hx1, hx2⟩ := h.ok.find_some hu'
  obtain ⟨y, hy, hy1, hy2⟩ := h.ok.find_some hw'
  rw [h.net_like] at hx1 hy1
  obtain ⟨c', e, hc', hv'⟩ := h.ok.addEdge hu' hw' a (by rw [h.view]; intro p hp; rw [show (X.filled d T ps new).net.rem = X.net.rem from rfl, hX] at hp; cases hp)
  have hx' : c.find u = some x := hx
  have hy' : c.find v = some y := hy
  obtain ⟨k1, k2⟩ := net_addEdge_nodes c.rank c.lrank c.net l a (by rw [h.nodes]; exact h.sub x hx1) (by rw [h.nodes]; exact h.sub y hy1) hx1 hy1
  have e1 : c.addEdge 0 u v a = some { c with nets := [c.net.addEdge c.rank c.lrank x y a] } := by
    unfold Cx.addEdge Cx.withNet
    rw [hx', hy', h.nets]; rfl
  have e2 : c' = ({ c with nets := [c.net.addEdge c.rank c.lrank x y a] } : Cx S A).like l := by
    have e3 : (c.like l).addEdge 0 u v a = some { c.like l with nets := [(c.net.withNodes l).addEdge c.rank c.lrank x y a] } := by
      unfold Cx.addEdge Cx.withNet
      rw [hx, hy]
      show (((c.nets.map fun N => N.withNodes l)[0]?).bind fun N => (some (N.addEdge c.rank c.lrank x y a)).map fun N => ({ c.like l with nets := (c.nets.map fun N => N.withNodes l).set 0 N } : Cx S A)) = _
      rw [h.nets]; rfl
    rw [e3] at e
    rw [← Option.some.inj e, k1]
    rfl
  refine ⟨_, e1, ?_⟩
  subst e2
  exact {
    ok := hc'
    view := by
      rw [hv', h.view]
      have := fill_add (d := d) hsym hok (ps := ps) ha
      unfold RV.filled
      simp only
      rw [← this]
      have hc2 : RV.cross ({ X with net := { X.net with edge := fill d T ps, new := new } } : RV S A) u v = true := hc
      rw [hc2]
      rfl
    nets := rfl
    nodes := k2.trans h.nodes
    sub := h.sub
    loc := h.loc
    known := h.known }

theorem Sup.createEdges {J : Json A} {l m : List Obj} {X : RV S A} {T : Nat → Nat → Option (Attr A)} (hsym : d = false → ∀ u v, T u v = T v u)
    (hok : ∀ u v a, T u v = some a → (Dict.keys a).Nodup) (hX : X.net.rem = []) (hnew : X.net.new = []) {ps : List (Nat × Nat)} {c : Cx S A} (h : Sup d l m c (X.filled d T ps [])) (es : List (Nat × Nat × Attr A))
    (hes : ∀ e ∈ es, J.Good e.2.2 ∧ T e.1 e.2.1 = some e.2.2 ∧ X.net.has e.1 = true ∧ X.net.has e.2.1 = true ∧ X.cross e.1 e.2.1 = true) :
    ∃ c' new, (es.map J.raw).foldlM (Cx.createEdge J) c = some c' ∧ Sup d l m c' (X.filled d T (ps ++ es.map pairOf) new) ∧ ∀ p, p ∈ new ↔ p ∈ es.map pairOf := by
  obtain ⟨c', e, new, h1, h2⟩ := foldM_sim (f := fun c e => Cx.createEdge J c (J.raw e)) (fun pre c => ∃ new, Sup d l m c (X.filled d T (ps ++ pre.map pairOf) new) ∧ ∀ p, p ∈ new ↔ p ∈ pre.map pairOf) es (by
    rintro pre e suf hl c ⟨new, h1, h2⟩
    obtain ⟨a1, a2, a3, a4, a5⟩ := hes e (by rw [hl]; simp)
    obtain ⟨c', e1, e2⟩ := h1.addEdge hsym hok hX a2 a3 a4 a5
    refine ⟨c', ?_, ins new (e.1, e.2.1), ?_, ?_⟩
    · show (J.read (J.text e.2.2)).bind _ = _
      rw [read_text a1]
      exact e1
    · rw [List.map_append, ← List.append_assoc]
      exact e2
    · intro p
      rw [mem_ins, h2, List.map_append, List.mem_append]
      simp [pairOf]) c ⟨[], by simpa using h, by simp⟩
  exact ⟨c', new, by rw [List.foldlM_map]; exact e, h1, h2⟩

/-- Nothing but new edges is to be sent. -/
theorem Sup.fit {l m : List Obj} {c : Cx S A} {X : RV S A} (h : Sup d l m c X) (hu : X.net.upd = []) (hr : X.net.rem = []) (ht : ∀ p ∈ X.net.new, X.tag (X.near p) (X.far p) = true) : Fit l m c where
  nets := h.nets
  nodes := h.nodes
  loc := by
    intro u o ho
    have h1 : (c.like l).find o.1.uid = some o.1 := by
      have h2 := h.ok.loc u o.1 o.2 ho
      unfold Cx.find
      rw [h2.1]
      show ((get c.locals u).map _).or _ = _
      rw [ho]; rfl
    have h2 := (h.ok.nodes o.1).2 ⟨h1, rfl⟩
    rw [h.net_like] at h2
    exact ⟨h.sub _ h2, h2⟩
  gho := by
    intro u g hg
    have h1 : (c.like l).find g.obj.uid = some g.obj := by
      have h2 := h.ok.gho u g hg
      unfold Cx.find
      rw [h2.1, h2.2.2.2]
      show Option.or _ ((get c.ghosts u).map _) = _
      rw [hg]; rfl
    have h2 := (h.ok.nodes g.obj).2 ⟨h1, rfl⟩
    rw [h.net_like] at h2
    exact ⟨h.sub _ h2, h2⟩
  toRef := by have := h.ok.net.toRef; rw [h.net_like] at this; exact this
  toRemove := by
    have : (c.like l).v.net.rem = [] := by rw [h.view]; exact hr
    have h2 : (Assoc.keys (c.like l).net.toRemove).map uu = [] := this
    rw [h.net_like] at h2
    exact keys_nil h2
  toUpdate := by
    have : (c.like l).v.net.upd = [] := by rw [h.view]; exact hu
    have h2 : (c.like l).net.toUpdate.map uu = [] := this
    rw [h.net_like] at h2
    exact List.map_eq_nil_iff.1 h2
  removed := h.ok.removed
  tagged := by
    intro e he
    have he' : e ∈ (c.like l).net.newEdges := by rw [h.net_like]; exact he
    obtain ⟨e1, e2, -⟩ := h.ok.entry (h.ok.net.new e he')
    have h3 : uu e.1 ∈ X.net.new := by
      rw [← h.view]
      exact List.mem_map_of_mem (List.mem_map_of_mem he')
    have h4 := ht _ h3
    rw [← h.view] at h4
    rw [← e1, ← e2] at h4
    have h5 : (c.like l).ghostedTo (c.lrank e.2.ghostA) e.2.localA.uid = true := h4
    rwa [like_ghostedTo] at h5

end Repast.Network
