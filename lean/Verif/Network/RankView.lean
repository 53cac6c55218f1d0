import Verif.Network.NetOps

/-! What the context of one rank, with one network, looks like if agents are identified by their unique ids. Used for C43. -/
namespace Repast.Network
open Repast.Dict

variable {S A : Type} {d : Bool} {Q : Pend A}

/-- The context of a rank, with unique ids. -/
structure RV (S A : Type) where
  rank : Nat
  /-- the states of the local agents -/
  loc : Nat → Option S
  /-- the states and owners of the ghosts -/
  gho : Nat → Option (S × Nat)
  net : NV A
  /-- agent `u` is ghosted on rank `k` -/
  tag : Nat → Nat → Bool
  req : Nat → Bool

def Cx.net (c : Cx S A) : Net A := (c.nets[0]?).getD (Net.empty true)

def Cx.v (c : Cx S A) : RV S A where
  rank := c.rank
  loc u := (get c.locals u).map (·.2)
  gho u := (get c.ghosts u).map fun g => (g.st, c.lrank g.obj)
  net := c.net.v
  tag u k := c.ghostedTo k u
  req u := decide (u ∈ c.req)

/-- What holds of the context of a rank in histories in which no agents are removed. The reference counts of agents that were moved are not known. -/
structure COk (d : Bool) (Q : Pend A) (c : Cx S A) : Prop where
  nets : c.nets = [c.net]
  net : NetOk d Q c.rank c.lrank c.net
  removed : c.removed = []
  loc : ∀ u o s, get c.locals u = some (o, s) → o.uid = u ∧ c.lrank o = c.rank
  gho : ∀ u g, get c.ghosts u = some g → g.obj.uid = u ∧ c.lrank g.obj ≠ c.rank ∧ (¬ Q.mv u → u ∉ c.req → g.ref = 1) ∧ get c.locals u = none
  ghoFresh : ∀ u g, get c.ghosts u = some g → g.obj.gen < c.fresh
  hid : ∀ u, Q.hid u = true → (get c.ghosts u).isSome = true
  nodes : ∀ o, o ∈ c.net.g.nodes ↔ c.find o.uid = some o ∧ Q.hid o.uid = false
  fresh : ∀ o ∈ c.net.g.nodes, o.gen < c.fresh
  tagOk : Dict.Ok c.ghosted
  tags : ∀ u m, get c.ghosted u = some m → (get c.locals u).isSome = true ∧ Dict.Ok m ∧ ∀ k i, get m k = some i → ¬ Q.mv u → i = 1
  toRef : ∀ o ∈ Q.toRef, Q.mv o.uid ∧ c.lrank o ≠ c.rank ∧ o.gen < c.fresh

/-- Exactly one end is local. -/
def RV.cross (V : RV S A) (u v : Nat) : Bool := (V.loc u).isSome != (V.loc v).isSome

theorem COk.init (d : Bool) (mv : Nat → Prop) (r : Nat) {o : Nat} : COk d ⟨mv, fun _ => false, [], [], []⟩ (Cx.init r [d] o : Cx S A) where
  toRef := by simp
  nets := rfl
  net := NetOk.empty d mv r _
  removed := rfl
  loc := by simp [Cx.init]
  gho := by simp [Cx.init]
  hid := by simp
  ghoFresh := by simp [Cx.init]
  nodes := by simp [Cx.init, Cx.net, Net.empty, Graph.empty, Cx.find]
  fresh := by simp [Cx.init, Cx.net, Net.empty, Graph.empty]
  tagOk := Dict.Ok.nil
  tags := by simp [Cx.init]

theorem COk.find_uid {c : Cx S A} (h : COk d Q c) {u : Nat} {o : Obj} (ho : c.find u = some o) : o.uid = u := by
  unfold Cx.find at ho
  rcases Option.or_eq_some_iff.1 ho with h1 | ⟨-, h1⟩
  · obtain ⟨⟨o', s⟩, h2, rfl⟩ := Option.map_eq_some_iff.1 h1
    exact (h.loc u o' s h2).1
  · obtain ⟨g, h2, rfl⟩ := Option.map_eq_some_iff.1 h1
    exact (h.gho u g h2).1

theorem COk.vis {c : Cx S A} (h : COk d Q c) {u : Nat} (hl : (get c.locals u).isSome = true) : Q.hid u = false := by
  cases hh : Q.hid u with
  | false => rfl
  | true =>
    obtain ⟨g, hg⟩ := Option.isSome_iff_exists.1 (h.hid u hh)
    rw [(h.gho u g hg).2.2.2] at hl; cases hl

theorem COk.vis_new {c : Cx S A} (h : COk d Q c) {u : Nat} (hg : get c.ghosts u = none) : Q.hid u = false := by
  cases hh : Q.hid u with
  | false => rfl
  | true => have := h.hid u hh; rw [hg] at this; cases this

theorem COk.find_iff {c : Cx S A} (h : COk d Q c) {u : Nat} {o : Obj} : c.find u = some o ∧ Q.hid u = false ↔ o ∈ c.net.g.nodes ∧ o.uid = u := by
  constructor
  · rintro ⟨ho, hv⟩
    have := h.find_uid ho
    exact ⟨(h.nodes o).2 (by rw [this]; exact ⟨ho, hv⟩), this⟩
  · rintro ⟨h1, rfl⟩; exact (h.nodes o).1 h1

theorem COk.find_node {c : Cx S A} (h : COk d Q c) {u : Nat} (hv : Q.hid u = false) : c.find u = c.net.node u := by
  apply option_ext'
  intro o
  have := h.find_iff (u := u) (o := o)
  rw [node_iff h.net.uniq, ← this]
  simp [hv]

theorem COk.node_hid {c : Cx S A} (h : COk d Q c) {u : Nat} (hv : Q.hid u = true) : c.net.node u = none := by
  apply option_ext'
  intro o
  rw [node_iff h.net.uniq, ← h.find_iff, hv]
  simp

theorem COk.has_iff {c : Cx S A} (h : COk d Q c) (u : Nat) : c.v.net.has u = (((c.v.loc u).isSome || (c.v.gho u).isSome) && !Q.hid u) := by
  show (c.net.node u).isSome = _
  cases hv : Q.hid u with
  | true => rw [h.node_hid hv]; simp
  | false =>
    rw [← h.find_node hv]
    unfold Cx.find Cx.v
    simp only []
    cases get c.locals u <;> cases get c.ghosts u <;> rfl

/-- The agent that the user gets for a unique id. -/
theorem COk.find_some {c : Cx S A} (h : COk d Q c) {u : Nat} (hu : c.v.net.has u = true) : ∃ o, c.find u = some o ∧ o ∈ c.net.g.nodes ∧ o.uid = u := by
  have hv : Q.hid u = false := by
    have := h.has_iff u
    rw [hu] at this
    cases hh : Q.hid u with
    | false => rfl
    | true => rw [hh] at this; simp at this
  have : (c.find u).isSome = true := by rw [h.find_node hv]; exact hu
  obtain ⟨o, ho⟩ := Option.isSome_iff_exists.1 this
  exact ⟨o, ho, h.find_iff.1 ⟨ho, hv⟩⟩

theorem COk.local_iff {c : Cx S A} (h : COk d Q c) {o : Obj} (ho : o ∈ c.net.g.nodes) : c.lrank o = c.rank ↔ (c.v.loc o.uid).isSome = true := by
  have hf := ((h.nodes o).1 ho).1
  unfold Cx.find at hf
  show _ ↔ ((get c.locals o.uid).map (·.2)).isSome = true
  rcases Option.or_eq_some_iff.1 hf with h1 | ⟨h0, h1⟩
  · obtain ⟨⟨o', s⟩, h2, e⟩ := Option.map_eq_some_iff.1 h1
    simp only at e
    subst e
    rw [h2]
    simp [(h.loc _ _ _ h2).2]
  · obtain ⟨g, h2, e⟩ := Option.map_eq_some_iff.1 h1
    subst e
    have := h.gho _ g h2
    rw [this.2.2.2]
    simp [this.2.1]

theorem COk.owner {c : Cx S A} (h : COk d Q c) {o : Obj} (ho : o ∈ c.net.g.nodes) {s : S} {k : Nat} (hg : c.v.gho o.uid = some (s, k)) : c.lrank o = k := by
  obtain ⟨g, h1, h2⟩ := Option.map_eq_some_iff.1 hg
  simp only [Prod.mk.injEq] at h2
  have h3 := h.gho _ g h1
  have hf := ((h.nodes o).1 ho).1
  unfold Cx.find at hf
  rw [h3.2.2.2, h1] at hf
  simp only [Option.map_none, Option.map_some, Option.none_or, Option.some.injEq] at hf
  rw [← hf]; exact h2.2

theorem COk.cross_iff {c : Cx S A} (h : COk d Q c) {a b : Obj} (ha : a ∈ c.net.g.nodes) (hb : b ∈ c.net.g.nodes) :
    crosses c.rank c.lrank a b = c.v.cross a.uid b.uid := by
  unfold crosses RV.cross
  have h1 := h.local_iff ha
  have h2 := h.local_iff hb
  rw [Bool.eq_iff_iff, decide_eq_true_eq, bne_iff_ne]
  simp only [ne_eq, h1, h2]
  cases (c.v.loc a.uid).isSome <;> cases (c.v.loc b.uid).isSome <;> simp

/-- Another network with the same nodes. -/
theorem COk.setNet {c : Cx S A} (h : COk d Q c) {N : Net A} (hN : NetOk d Q c.rank c.lrank N) (hn : ∀ o, o ∈ N.g.nodes ↔ o ∈ c.net.g.nodes) :
    COk d Q { c with nets := [N] } ∧ ({ c with nets := [N] } : Cx S A).v = { c.v with net := N.v } :=
  ⟨{ nets := rfl, net := hN, removed := h.removed, loc := h.loc, gho := h.gho, hid := h.hid, ghoFresh := h.ghoFresh, nodes := fun o => (hn o).trans (h.nodes o), fresh := fun o ho => h.fresh o ((hn o).1 ho),
     tagOk := h.tagOk, tags := h.tags, toRef := h.toRef }, rfl⟩

theorem COk.withNet {c : Cx S A} (h : COk d Q c) (f : Net A → Option (Net A)) : c.withNet 0 f = (f c.net).map fun N => { c with nets := [N] } := by
  unfold Cx.withNet
  rw [h.nets]
  rfl

theorem COk.get0 {c : Cx S A} (h : COk d Q c) : c.nets[0]? = some c.net := by rw [h.nets]; rfl

/-! ### Agents -/

theorem COk.add {c : Cx S A} (h : COk d Q c) {u : Nat} (hl : c.v.loc u = none) (hg : c.v.gho u = none) (s : S) :
    COk d Q (c.add u s) ∧ (c.add u s).v = { c.v with
      loc := fun x => if x = u then some s else c.v.loc x
      net := { c.v.net with has := fun x => c.v.net.has x || decide (x = u) } } := by
  have hno : c.net.v.has u = false := by
    have := h.has_iff u
    rw [hl, hg] at this; exact this
  have hl' : get c.locals u = none := by simpa [Cx.v] using hl
  have hg' : get c.ghosts u = none := by simpa [Cx.v] using hg
  have hnew : (⟨u, c.fresh⟩ : Obj) ∉ c.net.g.nodes := fun hm => Nat.lt_irrefl _ (h.fresh _ hm)
  have hN := (h.net.add (o := ⟨u, c.fresh⟩) hno)
  have hm : ∀ x, x ∈ (c.net.add ⟨u, c.fresh⟩).g.nodes ↔ x ∈ c.net.g.nodes ∨ x = ⟨u, c.fresh⟩ := mem_addNode c.net.g _
  have hlr : ∀ o, (c.add u s).lrank o = if o = ⟨u, c.fresh⟩ then c.rank else c.lrank o := fun _ => rfl
  have hlr' : ∀ o ∈ c.net.g.nodes, (c.add u s).lrank o = c.lrank o := by
    intro o ho; rw [hlr, if_neg]; rintro rfl; exact hnew ho
  have hlg : ∀ {x g}, get c.ghosts x = some g → (c.add u s).lrank g.obj = c.lrank g.obj := by
    intro x g hx
    rw [hlr, if_neg]
    intro e
    have := h.ghoFresh x g hx
    rw [e] at this; exact Nat.lt_irrefl _ this
  have hnet : (c.add u s).net = c.net.add ⟨u, c.fresh⟩ := by
    show ((c.nets.map _)[0]?).getD _ = _
    rw [h.nets]; rfl
  have hfind : ∀ x, (c.add u s).find x = if x = u then some ⟨u, c.fresh⟩ else c.find x := by
    intro x
    show ((get (set c.locals u _) x).map (·.1)).or ((get c.ghosts x).map (·.obj)) = _
    rw [get_set]
    by_cases e : x = u
    · subst e; simp [Cx.newObj]
    · rw [if_neg (fun e' => e e'.symm), if_neg e]; rfl
  constructor
  · exact {
      toRef := by
        intro o ho
        obtain ⟨a, b, e⟩ := h.toRef o ho
        exact ⟨a, by rw [hlr, if_neg]; exact b; rintro rfl; exact Nat.lt_irrefl _ e, Nat.lt_succ_of_lt e⟩
      nets := by
        rw [hnet]
        show c.nets.map _ = _
        rw [h.nets]; rfl
      net := by
        rw [hnet]
        -- the new object has no entries
        have : NetOk d Q c.rank (c.add u s).lrank c.net := h.net.congr hlr'
        exact this.add (o := ⟨u, c.fresh⟩) hno
      removed := h.removed
      loc := by
        intro x o t hx
        have hx : get (set c.locals u (⟨u, c.fresh⟩, s)) x = some (o, t) := hx
        rw [get_set] at hx
        split at hx
        · rename_i e
          simp only [Option.some.injEq, Prod.mk.injEq] at hx
          rw [← hx.1]
          exact ⟨e, by rw [hlr, if_pos rfl]; rfl⟩
        · have := h.loc x o t hx
          have hmem : o ∈ c.net.g.nodes := by
            refine (h.nodes o).2 ⟨?_, by rw [this.1]; exact h.vis (by rw [hx]; rfl)⟩
            unfold Cx.find; rw [this.1, hx]; rfl
          exact ⟨this.1, by rw [hlr' o hmem]; exact this.2⟩
      gho := by
        intro x g hx
        have hx : get c.ghosts x = some g := hx
        have := h.gho x g hx
        refine ⟨this.1, by rw [hlg hx]; exact this.2.1, this.2.2.1, ?_⟩
        show get (set c.locals u (⟨u, c.fresh⟩, s)) x = none
        rw [get_set, if_neg]
        · exact this.2.2.2
        · rintro rfl; rw [hx] at hg'; cases hg'
      hid := h.hid
      ghoFresh := fun x g hx => Nat.lt_succ_of_lt (h.ghoFresh x g hx)
      nodes := by
        intro o
        rw [hnet, hm, hfind, h.nodes]
        constructor
        · rintro (ho | rfl)
          · rw [if_neg]
            · exact ho
            · rintro rfl
              obtain ⟨ho, -⟩ := ho
              unfold Cx.find at ho; rw [hl', hg'] at ho; cases ho
          · exact ⟨by simp, h.vis_new hg'⟩
        · split
          · intro e; simp only [Option.some.injEq] at e; exact .inr e.1.symm
          · exact .inl
      fresh := by
        intro o ho
        rw [hnet, hm] at ho
        show o.gen < c.fresh + 1
        rcases ho with ho | rfl
        · exact Nat.lt_succ_of_lt (h.fresh o ho)
        · exact Nat.lt_succ_self _
      tagOk := h.tagOk
      tags := by
        intro x m hx
        have := h.tags x m hx
        refine ⟨?_, this.2⟩
        show (get (set c.locals u _) x).isSome = true
        rw [get_set]; split
        · rfl
        · exact this.1 }
  · unfold Cx.v
    congr 1
    · funext x
      show (get (set c.locals u (_, s)) x).map _ = _
      rw [get_set]
      by_cases e : x = u
      · subst e; simp
      · rw [if_neg (fun e' => e e'.symm), if_neg e]
    · funext x
      show (get c.ghosts x).map _ = (get c.ghosts x).map _
      cases hx : get c.ghosts x with
      | none => rfl
      | some g =>
        simp only [Option.map_some, hlg hx]
    · rw [hnet, add_v h.net (o := ⟨u, c.fresh⟩) hno]

theorem COk.setState {c : Cx S A} (h : COk d Q c) {u : Nat} (hl : (c.v.loc u).isSome = true) (s : S) :
    ∃ c', c.setState u s = some c' ∧ COk d Q c' ∧ c'.v = { c.v with loc := fun x => if x = u then some s else c.v.loc x } := by
  have hl' : (get c.locals u).isSome = true := by simpa [Cx.v] using hl
  obtain ⟨⟨o, s0⟩, hu⟩ := Option.isSome_iff_exists.1 hl'
  have hgl : ∀ x, get (set c.locals u (o, s)) x = if u = x then some (o, s) else get c.locals x := fun x => get_set ..
  have hfind : ∀ x, ({ c with locals := set c.locals u (o, s) } : Cx S A).find x = c.find x := by
    intro x
    show ((get (set c.locals u (o, s)) x).map (·.1)).or _ = _
    rw [hgl]
    split
    · rename_i e; subst e; unfold Cx.find; rw [hu]; rfl
    · rfl
  refine ⟨{ c with locals := set c.locals u (o, s) }, by simp [Cx.setState, hu], ?_, ?_⟩
  · exact {
      toRef := h.toRef
      nets := h.nets
      net := h.net
      removed := h.removed
      loc := by
        intro x o' t hx
        rw [hgl] at hx
        split at hx
        · rename_i e
          simp only [Option.some.injEq, Prod.mk.injEq] at hx
          rw [← hx.1, ← e]
          exact h.loc u o s0 hu
        · exact h.loc x o' t hx
      gho := by
        intro x g hx
        have := h.gho x g hx
        refine ⟨this.1, this.2.1, this.2.2.1, ?_⟩
        show get (set c.locals u (o, s)) x = none
        rw [hgl, if_neg]
        · exact this.2.2.2
        · rintro rfl; rw [hu] at this; exact absurd this.2.2.2 (by simp)
      hid := h.hid
      ghoFresh := h.ghoFresh
      nodes := by intro o'; rw [hfind]; exact h.nodes o'
      fresh := h.fresh
      tagOk := h.tagOk
      tags := by
        intro x m hx
        have := h.tags x m hx
        refine ⟨?_, this.2⟩
        show (get (set c.locals u (o, s)) x).isSome = true
        rw [hgl]; split
        · rfl
        · exact this.1 }
  · unfold Cx.v
    congr 1
    funext x
    show (get (set c.locals u (o, s)) x).map _ = _
    rw [hgl]
    by_cases e : x = u
    · subst e; simp
    · rw [if_neg (fun e' => e e'.symm), if_neg e]

/-! ### Edges -/

theorem COk.addEdge {c : Cx S A} (h : COk d Q c) {u v : Nat} (hu : c.v.net.has u = true) (hv : c.v.net.has v = true) (a : Attr A)
    (hrem : ∀ p ∈ c.v.net.rem, ¬ SameN d u v p.1 p.2) :
    ∃ c', c.addEdge 0 u v a = some c' ∧ COk d Q c' ∧ c'.v = { c.v with net := { c.v.net with
      edge := fun x y => if SameN d u v x y then some (merge ((c.v.net.edge x y).getD []) a) else c.v.net.edge x y
      new := if c.v.cross u v then ins c.v.net.new (u, v) else c.v.net.new } } := by
  obtain ⟨x, hx, hx1, rfl⟩ := h.find_some hu
  obtain ⟨y, hy, hy1, rfl⟩ := h.find_some hv
  have hr : ∀ k ∈ Assoc.keys c.net.toRemove, ¬ Same d x y k.1 k.2 := by
    intro k hk hs
    obtain ⟨e, he, rfl⟩ := List.mem_map.1 hk
    have := h.net.rem e he
    exact hrem (uu e.1) (List.mem_map_of_mem hk) ((sameN_uid h.net.uniq hx1 hy1 this.1 this.2.1).2 hs)
  obtain ⟨h1, h2⟩ := h.net.addEdge hx1 hy1 a hr
  have hn : ∀ o, o ∈ (c.net.addEdge c.rank c.lrank x y a).g.nodes ↔ o ∈ c.net.g.nodes := by
    intro o
    rw [addEdge_g, mem_addEdge]
    constructor
    · rintro (ho | rfl | rfl) <;> assumption
    · exact .inl
  obtain ⟨h3, h4⟩ := h.setNet h1 hn
  refine ⟨_, ?_, h3, ?_⟩
  · unfold Cx.addEdge
    rw [hx, hy, Option.bind_some, Option.bind_some, h.withNet]; rfl
  · rw [h4, h2, h.cross_iff hx1 hy1]; rfl

theorem COk.edge_attr {c : Cx S A} (h : COk d Q c) {x y : Obj} (hx : x ∈ c.net.g.nodes) (hy : y ∈ c.net.g.nodes) : c.v.net.edge x.uid y.uid = c.net.g.attr x y :=
  e_nodes h.net.uniq hx hy

theorem COk.updateEdge {c : Cx S A} (h : COk d Q c) {u v : Nat} (he : (c.v.net.edge u v).isSome = true) (a : Attr A)
    (hw : c.v.cross u v = true → ∃ p, (p ∈ c.v.net.new ∨ p ∈ c.v.net.syn) ∧ SameN d u v p.1 p.2) :
    ∃ c' p, c.updateEdge 0 u v a = some c' ∧ COk d Q c' ∧ SameN d u v p.1 p.2 ∧ c'.v = { c.v with net := { c.v.net with
      edge := fun x y => if SameN d u v x y then (c.v.net.edge x y).map (merge · a) else c.v.net.edge x y
      upd := if c.v.cross u v then ins c.v.net.upd p else c.v.net.upd } } := by
  obtain ⟨b, hb⟩ := Option.isSome_iff_exists.1 he
  obtain ⟨x, y, rfl, rfl, hab⟩ := (e_some h.net.inv h.net.uniq _ _ _).1 hb
  have hends := attr_ends h.net.inv hab
  have hx := ((h.nodes x).1 hends.1).1
  have hy := ((h.nodes y).1 hends.2).1
  obtain ⟨N', key, h1, h2, h3, h4, h5⟩ := h.net.updateEdge (u := x) (v := y) (by rw [hasEdge_iff, hab]; rfl) a (by
    intro hc
    rw [← crosses_iff, h.cross_iff hends.1 hends.2] at hc
    obtain ⟨p, hp, hs⟩ := hw hc
    have : ∃ k, (k ∈ Assoc.keys c.net.newEdges ∨ k ∈ Assoc.keys c.net.ghosted) ∧ uu k = p := by
      rcases hp with hp | hp
      · obtain ⟨k, hk, e⟩ := List.mem_map.1 hp; exact ⟨k, .inl hk, e⟩
      · obtain ⟨k, hk, e⟩ := List.mem_map.1 hp; exact ⟨k, .inr hk, e⟩
    obtain ⟨k, hk, rfl⟩ := this
    have hke := h.net.keyEnds hk
    exact ⟨k, hk, (sameN_uid h.net.uniq hends.1 hends.2 hke.1 hke.2).1 hs⟩)
  obtain ⟨h6, h7⟩ := h.setNet h2 h4
  refine ⟨_, key, ?_, h6, h3, ?_⟩
  · unfold Cx.updateEdge
    rw [hx, hy, Option.bind_some, Option.bind_some, h.withNet, h1]; rfl
  · rw [h7, h5, h.cross_iff hends.1 hends.2]; rfl

theorem COk.removeEdge_plain {c : Cx S A} (h : COk d Q c) {u v : Nat} (he : (c.v.net.edge u v).isSome = true) (hne : d = true ∨ u ≠ v) (hc : c.v.cross u v = false) :
    ∃ c', c.removeEdge 0 u v = some c' ∧ COk d Q c' ∧ c'.v = { c.v with net := { c.v.net with
      edge := fun x y => if SameN d u v x y then none else c.v.net.edge x y } } := by
  obtain ⟨b, hb⟩ := Option.isSome_iff_exists.1 he
  obtain ⟨x, y, rfl, rfl, hab⟩ := (e_some h.net.inv h.net.uniq _ _ _).1 hb
  have hends := attr_ends h.net.inv hab
  have hx := ((h.nodes x).1 hends.1).1
  have hy := ((h.nodes y).1 hends.2).1
  obtain ⟨N', h1, h2, h4, h5⟩ := h.net.removeEdge_plain (u := x) (v := y) (by rw [hasEdge_iff, hab]; rfl) (hne.imp id (fun hn e => hn (by rw [e]))) (by
    rw [← crosses_iff, h.cross_iff hends.1 hends.2, hc]; simp)
  obtain ⟨h6, h7⟩ := h.setNet h2 h4
  refine ⟨_, ?_, h6, ?_⟩
  · unfold Cx.removeEdge
    rw [hx, hy, Option.bind_some, Option.bind_some, h.withNet, h1]; rfl
  · rw [h7, h5]; rfl

theorem COk.removeEdge_cross {c : Cx S A} (h : COk d Q c) {u v : Nat} (he : (c.v.net.edge u v).isSome = true) (hc : c.v.cross u v = true) {p : Nat × Nat}
    (hp : p ∈ c.v.net.syn) (hs : SameN d u v p.1 p.2) (hrev : d = false → (p.2, p.1) ∉ c.v.net.new ∧ (p.2, p.1) ∉ c.v.net.syn) :
    ∃ c', c.removeEdge 0 u v = some c' ∧ COk d Q c' ∧ c'.v = { c.v with net := { c.v.net with
        edge := fun x y => if SameN d u v x y then none else c.v.net.edge x y
        new := c.v.net.new.filter (fun q => decide (q ≠ p))
        upd := c.v.net.upd.filter (fun q => decide (q ≠ p))
        syn := c.v.net.syn.filter (fun q => decide (q ≠ p))
        rem := c.v.net.rem ++ [p] } } := by
  obtain ⟨b, hb⟩ := Option.isSome_iff_exists.1 he
  obtain ⟨x, y, rfl, rfl, hab⟩ := (e_some h.net.inv h.net.uniq _ _ _).1 hb
  have hends := attr_ends h.net.inv hab
  have hx := ((h.nodes x).1 hends.1).1
  have hy := ((h.nodes y).1 hends.2).1
  obtain ⟨K, hK, rfl⟩ := List.mem_map.1 hp
  have hKe := h.net.keyEnds (.inr hK)
  obtain ⟨N', h1, h2, h4, h5⟩ := h.net.removeEdge_cross (u := x) (v := y) (by rw [hasEdge_iff, hab]; rfl) (by
      rw [← crosses_iff, h.cross_iff hends.1 hends.2, hc]) hK ((sameN_uid h.net.uniq hends.1 hends.2 hKe.1 hKe.2).1 hs) (by
      intro hd
      have := hrev hd
      exact ⟨fun hm => this.1 (List.mem_map_of_mem (f := uu) hm), fun hm => this.2 (List.mem_map_of_mem (f := uu) hm)⟩)
  obtain ⟨h6, h7⟩ := h.setNet h2 h4
  refine ⟨_, ?_, h6, ?_⟩
  · unfold Cx.removeEdge
    rw [hx, hy, Option.bind_some, Option.bind_some, h.withNet, h1]; rfl
  · rw [h7, h5]; rfl

theorem COk.clearEdges {c : Cx S A} (h : COk d Q c) (hrev : d = false → ∀ p ∈ c.v.net.syn, (p.2, p.1) ∉ c.v.net.new ∧ (p.2, p.1) ∉ c.v.net.syn)
    (hupd : ∀ p ∈ c.v.net.upd, p ∈ c.v.net.syn) :
    ∃ c', c.clearEdges 0 = some c' ∧ COk d Q c' ∧ c'.v = { c.v with net := { c.v.net with
      edge := fun _ _ => none, new := [], upd := [], syn := [], rem := c.v.net.syn.foldl ins c.v.net.rem } } := by
  obtain ⟨N', h1, h2, h4, h5⟩ := h.net.clearEdges (by
      intro hd k hk
      have := hrev hd (uu k) (List.mem_map_of_mem hk)
      exact ⟨fun hm => this.1 (List.mem_map_of_mem (f := uu) hm), fun hm => this.2 (List.mem_map_of_mem (f := uu) hm)⟩) (by
      intro k hk
      obtain ⟨j, hj, e⟩ := List.mem_map.1 (hupd (uu k) (List.mem_map_of_mem hk))
      have hke := h.net.keyEnds (h.net.upd k hk)
      have hje := h.net.keyEnds (.inr hj)
      have : j = k := by
        unfold uu at e
        simp only [Prod.mk.injEq] at e
        exact Prod.ext (h.net.uniq _ hje.1 _ hke.1 e.1) (h.net.uniq _ hje.2 _ hke.2 e.2)
      rw [← this]; exact hj)
  obtain ⟨h6, h7⟩ := h.setNet h2 h4
  refine ⟨_, ?_, h6, ?_⟩
  · unfold Cx.clearEdges
    rw [h.withNet, h1]; rfl
  · rw [h7, h5]; rfl

end Repast.Network
