import Verif.Network.NetRun

/-!
Contexts with superfluous nodes. If a rank requests an agent twice, it gets two objects; the first one stays in the network as a node without edges. `Cx.pruned` is the
context without such nodes. Used for C44.
-/
namespace Repast.Network
open Repast.Dict Repast.Context

variable {S A : Type} {d : Bool}

/-- The object is the one that the user gets for its unique id. -/
def Cx.live (c : Cx S A) (o : Obj) : Bool := decide (c.find o.uid = some o)

def Net.withNodes (N : Net A) (l : List Obj) : Net A := { N with g := { N.g with nodes := l } }

/-- All counts are 1. -/
def ones (m : Dict (Dict Int)) : Dict (Dict Int) := m.map fun e => (e.1, e.2.map fun x => (x.1, (1 : Int)))

def Cx.pruned (c : Cx S A) : Cx S A := { c with nets := [c.net.withNodes (c.net.g.nodes.filter c.live)], ghosted := ones c.ghosted }

/-- A context that is a good one without the superfluous nodes. -/
structure Dup (d : Bool) (c : Cx S A) (V : RV S A) : Prop where
  ok : COk d Pend.none c.pruned
  view : c.pruned.v = V
  nets : c.nets = [c.net]
  fresh : ∀ o ∈ c.net.g.nodes, o.gen < c.fresh
  loc : ∀ o ∈ c.net.g.nodes, (get c.locals o.uid).isSome = true → c.find o.uid = some o
  known : ∀ o ∈ c.net.g.nodes, (c.find o.uid).isSome = true

/-! ### Dictionaries -/

theorem get_mapVal {α β : Type} (f : α → β) (m : Dict α) (k : Nat) : get (m.map fun e => (e.1, f e.2)) k = (get m k).map f := by
  induction m with
  | nil => rfl
  | cons e m ih => rw [List.map_cons, get_cons, get_cons, ih]; simp only; split <;> rfl

theorem set_mapVal {α β : Type} (f : α → β) (m : Dict α) (k : Nat) (v : α) : (Dict.set m k v).map (fun e => (e.1, f e.2)) = Dict.set (m.map fun e => (e.1, f e.2)) k (f v) := by
  induction m with
  | nil => rfl
  | cons e m ih =>
    unfold Dict.set
    rw [List.map_cons]
    simp only
    split
    · rfl
    · rw [List.map_cons, ih]

theorem set_get {α : Type} {m : Dict α} {k : Nat} {v : α} (h : get m k = some v) : Dict.set m k v = m := by
  induction m with
  | nil => cases h
  | cons e m ih =>
    rw [get_cons] at h
    unfold Dict.set
    split
    · rename_i e'
      rw [if_pos e'] at h
      obtain rfl := Option.some.inj h
      rw [← e']
    · rename_i e'
      rw [if_neg e'] at h
      rw [ih h]

theorem get_ones (m : Dict (Dict Int)) (u : Nat) : get (ones m) u = (get m u).map fun x => x.map fun y => (y.1, (1 : Int)) := get_mapVal _ m u

theorem pruned_ghostedTo (c : Cx S A) (k u : Nat) : c.pruned.ghostedTo k u = c.ghostedTo k u := by
  unfold Cx.ghostedTo
  show (match get (ones c.ghosted) u with | some d => _ | none => _) = _
  rw [get_ones]
  cases get c.ghosted u with
  | none => rfl
  | some m =>
    simp only [Option.map_some]
    rw [get_mapVal (fun _ => (1 : Int)), Option.isSome_map]

theorem ones_id {m : Dict (Dict Int)} (h : ∀ u x, (u, x) ∈ m → ∀ k i, (k, i) ∈ x → i = 1) : ones m = m := by
  unfold ones
  conv => rhs; rw [← List.map_id m]
  refine List.map_congr_left ?_
  rintro ⟨u, x⟩ hu
  refine Prod.ext rfl ?_
  show x.map _ = x
  conv => rhs; rw [← List.map_id x]
  refine List.map_congr_left ?_
  rintro ⟨k, i⟩ hk
  rw [h u x hu k i hk]; rfl

/-- A good context has no superfluous nodes. -/
theorem COk.pruned {c : Cx S A} (h : COk d Pend.none c) : c.pruned = c := by
  unfold Cx.pruned
  have h1 : c.net.g.nodes.filter c.live = c.net.g.nodes := by
    rw [List.filter_eq_self]
    intro o ho
    exact decide_eq_true ((h.nodes o).1 ho).1
  have h2 : ones c.ghosted = c.ghosted := by
    refine ones_id ?_
    intro u x hu k i hk
    have h3 := h.tags u x (get_of_mem h.tagOk hu)
    exact h3.2.2 k i (get_of_mem h3.2.1 hk) id
  rw [h1, h2]
  show { c with nets := [c.net] } = c
  rw [← h.nets]

theorem COk.dup {c : Cx S A} (h : COk d Pend.none c) : Dup d c c.v := ⟨by rw [h.pruned]; exact h, by rw [h.pruned], h.nets, h.fresh, fun o ho _ => ((h.nodes o).1 ho).1, fun o ho => by rw [((h.nodes o).1 ho).1]; rfl⟩

theorem pruned_net (c : Cx S A) : c.pruned.net = c.net.withNodes (c.net.g.nodes.filter c.live) := rfl

/-! ### The owner tags agents -/

theorem Dup.tag {c : Cx S A} {V : RV S A} (h : Dup d c V) {u k : Nat} (hl : (V.loc u).isSome = true) :
    ∃ c', c.tag k u = some c' ∧ Dup d c' { V with tag := fun x j => V.tag x j || decide (x = u ∧ j = k) } ∧ c'.locals = c.locals := by
  have hV := h.view
  subst hV
  have hl' : (get c.locals u).isSome = true := by
    have : ((get c.locals u).map (·.2)).isSome = true := hl
    simpa using this
  cases ht : c.ghostedTo k u with
  | true =>
    unfold Cx.ghostedTo at ht
    cases hm : get c.ghosted u with
    | none => rw [hm] at ht; cases ht
    | some m =>
      rw [hm] at ht
      obtain ⟨i, hi⟩ := Option.isSome_iff_exists.1 ht
      have he : c.tag k u = some { c with ghosted := Dict.set c.ghosted u (Dict.set m k (i + 1)) } := by
        unfold Cx.tag
        rw [hm]
        simp only [hi]
      refine ⟨_, he, ?_, rfl⟩
      have hones : ones (Dict.set c.ghosted u (Dict.set m k (i + 1))) = ones c.ghosted := by
        unfold ones
        rw [set_mapVal (fun x : Dict Int => x.map fun y => (y.1, (1 : Int))), set_mapVal (fun _ : Int => (1 : Int))]
        rw [set_get (k := k) (by rw [get_mapVal (fun _ : Int => (1 : Int)), hi]; rfl)]
        refine set_get ?_
        have := get_ones c.ghosted u
        unfold ones at this
        rw [this, hm]; rfl
      have hc : ({ c with ghosted := Dict.set c.ghosted u (Dict.set m k (i + 1)) } : Cx S A).pruned = c.pruned := by
        unfold Cx.pruned
        simp only [hones]
        rfl
      have hv : ({ c.pruned.v with tag := fun x j => c.pruned.v.tag x j || decide (x = u ∧ j = k) } : RV S A) = c.pruned.v := by
        have : (fun x j => c.pruned.v.tag x j || decide (x = u ∧ j = k)) = c.pruned.v.tag := by
          funext x j
          by_cases hh : x = u ∧ j = k
          · obtain ⟨rfl, rfl⟩ := hh
            have : c.pruned.v.tag x j = true := by
              show c.pruned.ghostedTo j x = true
              rw [pruned_ghostedTo]
              unfold Cx.ghostedTo
              rw [hm]; exact ht
            rw [this]; rfl
          · rw [decide_eq_false hh, Bool.or_false]
        rw [this]
      exact ⟨by rw [hc]; exact h.ok, by rw [hc, hv], h.nets, h.fresh, h.loc, h.known⟩
  | false =>
    obtain ⟨c0, e0, ok0, v0, -, -⟩ := h.ok.tag (u := u) (k := k) hl (by rw [show c.pruned.v.tag u k = c.pruned.ghostedTo k u from rfl, pruned_ghostedTo]; exact ht)
    have hmain : ∃ G, c.tag k u = some { c with ghosted := G } ∧ c.pruned.tag k u = some { c.pruned with ghosted := ones G } := by
      unfold Cx.tag
      rw [show c.pruned.ghosted = ones c.ghosted from rfl, get_ones, show c.pruned.locals = c.locals from rfl]
      obtain ⟨o, ho⟩ := Option.isSome_iff_exists.1 hl'
      cases hm : get c.ghosted u with
      | none =>
        simp only [Option.map_none, ho]
        refine ⟨_, rfl, ?_⟩
        unfold ones
        rw [set_mapVal (fun x : Dict Int => x.map fun y => (y.1, (1 : Int)))]
        rfl
      | some m =>
        have hno : get m k = none := by
          unfold Cx.ghostedTo at ht
          rw [hm] at ht
          simpa using ht
        simp only [Option.map_some, hno]
        refine ⟨_, rfl, ?_⟩
        unfold ones
        rw [set_mapVal (fun x : Dict Int => x.map fun y => (y.1, (1 : Int))), set_mapVal (fun _ : Int => (1 : Int)), get_mapVal (fun _ : Int => (1 : Int)), hno]
        rfl
    obtain ⟨G, e1, e2⟩ := hmain
    rw [e2] at e0
    obtain rfl := Option.some.inj e0
    exact ⟨_, e1, ⟨ok0, v0, h.nets, h.fresh, h.loc, h.known⟩, rfl⟩

/-! ### Ghosts -/

/-- The agent `u` arrives from rank `k`. -/
def Cx.withGhost (c : Cx S A) (k u : Nat) (s : S) (l : List Obj) : Cx S A :=
  { c with
    fresh := c.fresh + 1
    lrank := fun x => if x = ⟨u, c.fresh⟩ then k else c.lrank x
    ghosts := Dict.set c.ghosts u ⟨⟨u, c.fresh⟩, s, ((1 + c.others : Nat) : Int)⟩
    req := if u ∈ c.req then c.req else c.req ++ [u]
    nets := [c.net.withNodes l] }

theorem recvRequested_eq {c : Cx S A} (hn : c.nets = [c.net]) (hf : ∀ o ∈ c.net.g.nodes, o.gen < c.fresh) (k u : Nat) (s : S) :
    c.recvRequested (k, u, s) = c.withGhost k u s (c.net.g.nodes ++ [⟨u, c.fresh⟩]) := by
  have hN : c.net.add ⟨u, c.fresh⟩ = c.net.withNodes (c.net.g.nodes ++ [⟨u, c.fresh⟩]) := by
    unfold Net.add Graph.addNode
    rw [if_neg (fun hm => Nat.lt_irrefl _ (hf _ hm))]
    rfl
  unfold Cx.recvRequested Cx.addGhostAll Cx.netsAdd
  have hn' : ((c.newObj u).2.addGhost k (c.newObj u).1 s ((1 + (c.newObj u).2.others : Nat) : Int)).nets = [c.net] := hn
  have hl : (c.newObj u).2.nets.length = 1 := by show c.nets.length = 1; rw [hn]; rfl
  simp only [hl] at hn' ⊢
  rw [hn']
  simp only [List.map_cons, List.map_nil]
  show Cx.addReq { (c.newObj u).2.addGhost k (c.newObj u).1 s ((1 + c.others : Nat) : Int) with nets := [c.net.add ⟨u, c.fresh⟩] } u = _
  rw [hN]
  unfold Cx.addReq Cx.withGhost
  by_cases hr : u ∈ c.req
  · rw [if_pos hr]
    exact if_pos hr
  · rw [if_neg hr]
    exact if_neg hr

theorem find_withGhost {c : Cx S A} {k u : Nat} {s : S} {l : List Obj} (hl : get c.locals u = none) (x : Nat) :
    (c.withGhost k u s l).find x = if x = u then some ⟨u, c.fresh⟩ else c.find x := by
  show ((get c.locals x).map (·.1)).or ((get (Dict.set c.ghosts u ⟨⟨u, c.fresh⟩, s, ((1 + c.others : Nat) : Int)⟩) x).map (·.obj)) = _
  rw [get_set]
  by_cases hx : x = u
  · subst hx; rw [if_pos rfl, if_pos rfl, hl]; rfl
  · rw [if_neg (Ne.symm hx), if_neg hx]; rfl

/-- The live nodes after a ghost was received. -/
theorem live_withGhost {c : Cx S A} {k u : Nat} {s : S} {l : List Obj} (hl : get c.locals u = none) (hf : ∀ o ∈ c.net.g.nodes, o.gen < c.fresh) :
    (c.net.g.nodes ++ [(⟨u, c.fresh⟩ : Obj)]).filter (c.withGhost k u s l).live = ((c.net.g.nodes.filter c.live).filter fun o => decide (o.uid ≠ u)) ++ [⟨u, c.fresh⟩] := by
  rw [List.filter_append, List.filter_filter]
  congr 1
  · refine List.filter_congr ?_
    intro o ho
    have := hf o ho
    unfold Cx.live
    rw [find_withGhost hl]
    by_cases hu : o.uid = u
    · rw [if_pos hu, decide_eq_false (p := o.uid ≠ u) (fun hh => hh hu), Bool.false_and]
      refine decide_eq_false ?_
      intro hh
      rw [← Option.some.inj hh] at this
      exact Nat.lt_irrefl _ this
    · rw [if_neg hu, decide_eq_true (show o.uid ≠ u from hu), Bool.true_and]
  · rw [List.filter_cons, if_pos]
    · rfl
    · unfold Cx.live
      rw [find_withGhost hl, if_pos rfl]
      simp

theorem pruned_withGhost {c : Cx S A} {k u : Nat} {s : S} (hl : get c.locals u = none) (hf : ∀ o ∈ c.net.g.nodes, o.gen < c.fresh) :
    (c.withGhost k u s (c.net.g.nodes ++ [⟨u, c.fresh⟩])).pruned = c.pruned.withGhost k u s ((c.pruned.net.g.nodes.filter fun o => decide (o.uid ≠ u)) ++ [⟨u, c.fresh⟩]) := by
  unfold Cx.pruned
  have : (c.withGhost k u s (c.net.g.nodes ++ [⟨u, c.fresh⟩])).net.g.nodes = c.net.g.nodes ++ [⟨u, c.fresh⟩] := rfl
  rw [this, live_withGhost hl hf]
  rfl

theorem Dup.fresh_withGhost {c : Cx S A} {V : RV S A} (h : Dup d c V) {u k : Nat} {s : S} :
    ∀ o ∈ (c.withGhost k u s (c.net.g.nodes ++ [⟨u, c.fresh⟩])).net.g.nodes, o.gen < (c.withGhost k u s (c.net.g.nodes ++ [⟨u, c.fresh⟩])).fresh := by
  intro o ho
  show o.gen < c.fresh + 1
  rcases List.mem_append.1 (show o ∈ c.net.g.nodes ++ [⟨u, c.fresh⟩] from ho) with ho | ho
  · have := h.fresh o ho; omega
  · rw [List.mem_singleton] at ho
    subst ho
    exact Nat.lt_succ_self _

theorem Dup.loc_withGhost {c : Cx S A} {V : RV S A} (h : Dup d c V) {u k : Nat} {s : S} (hl : get c.locals u = none) :
    ∀ o ∈ (c.withGhost k u s (c.net.g.nodes ++ [⟨u, c.fresh⟩])).net.g.nodes, (get (c.withGhost k u s (c.net.g.nodes ++ [⟨u, c.fresh⟩])).locals o.uid).isSome = true →
      (c.withGhost k u s (c.net.g.nodes ++ [⟨u, c.fresh⟩])).find o.uid = some o := by
  intro o ho hs
  rw [find_withGhost hl]
  have hs' : (get c.locals o.uid).isSome = true := hs
  rcases List.mem_append.1 (show o ∈ c.net.g.nodes ++ [⟨u, c.fresh⟩] from ho) with ho | ho
  · rw [if_neg]
    · exact h.loc o ho hs'
    · intro e; rw [e, hl] at hs'; cases hs'
  · rw [List.mem_singleton] at ho
    subst ho
    rw [hl] at hs'; cases hs'

theorem Dup.known_withGhost {c : Cx S A} {V : RV S A} (h : Dup d c V) {u k : Nat} {s : S} (hl : get c.locals u = none) :
    ∀ o ∈ (c.withGhost k u s (c.net.g.nodes ++ [⟨u, c.fresh⟩])).net.g.nodes, ((c.withGhost k u s (c.net.g.nodes ++ [⟨u, c.fresh⟩])).find o.uid).isSome = true := by
  intro o ho
  rw [find_withGhost hl]
  split
  · rfl
  · rename_i hne
    rcases List.mem_append.1 (show o ∈ c.net.g.nodes ++ [⟨u, c.fresh⟩] from ho) with ho | ho
    · exact h.known o ho
    · rw [List.mem_singleton] at ho
      subst ho
      exact absurd rfl hne

theorem Dup.recvNew {c : Cx S A} {V : RV S A} (h : Dup d c V) {u k : Nat} (hl : V.loc u = none) (hg : V.gho u = none) (hk : k ≠ V.rank) (s : S) :
    Dup d (c.recvRequested (k, u, s)) { V with
      gho := fun x => if x = u then some (s, k) else V.gho x
      net := { V.net with has := fun x => V.net.has x || decide (x = u) }
      req := fun x => V.req x || decide (x = u) } := by
  have hV := h.view
  subst hV
  have hl' : get c.locals u = none := Option.map_eq_none_iff.1 (show (get c.locals u).map (·.2) = none from hl)
  have hg' : get c.ghosts u = none := Option.map_eq_none_iff.1 (show (get c.ghosts u).map (fun g => (g.st, c.lrank g.obj)) = none from hg)
  have hnodes : (c.pruned.net.g.nodes.filter fun o => decide (o.uid ≠ u)) = c.pruned.net.g.nodes := by
    rw [List.filter_eq_self]
    intro o ho
    refine decide_eq_true ?_
    intro hu
    have hlv : c.live o = true := (List.mem_filter.1 (show o ∈ c.net.g.nodes.filter c.live from ho)).2
    have hfind : c.find o.uid = some o := of_decide_eq_true hlv
    unfold Cx.find at hfind
    rw [hu, hl', hg'] at hfind
    cases hfind
  have hc : (c.recvRequested (k, u, s)).pruned = c.pruned.recvRequested (k, u, s) := by
    rw [recvRequested_eq h.nets h.fresh, pruned_withGhost hl' h.fresh, hnodes, recvRequested_eq h.ok.nets h.ok.fresh]
    rfl
  have hr := h.ok.recvRequested (u := u) (k := k) hl hg hk s
  refine ⟨by rw [hc]; exact hr.1, by rw [hc]; exact hr.2, ?_, ?_, ?_, ?_⟩
  · rw [recvRequested_eq h.nets h.fresh]; rfl
  · rw [recvRequested_eq h.nets h.fresh]; exact h.fresh_withGhost
  · rw [recvRequested_eq h.nets h.fresh]; exact h.loc_withGhost hl'
  · rw [recvRequested_eq h.nets h.fresh]; exact h.known_withGhost hl'

/-- The view has no edges of the agent `u`, and nothing is to be sent. -/
structure RV.Apart (V : RV S A) (u : Nat) : Prop where
  from_ : ∀ x, V.net.edge u x = none
  to : ∀ x, V.net.edge x u = none
  new : V.net.new = []
  upd : V.net.upd = []
  rem : V.net.rem = []
  syn : V.net.syn = []

theorem keys_nil {κ β : Type} [DecidableEq κ] {l : Assoc.Assoc κ β} {γ : Type} {f : κ → γ} (h : (Assoc.keys l).map f = []) : l = [] := by
  cases l with
  | nil => rfl
  | cons e l => simp [Assoc.keys] at h

theorem COk.again {c : Cx S A} (h : COk d Pend.none c) {u k : Nat} (hg : (c.v.gho u).isSome = true) (hk : k ≠ c.rank) (s : S) (ha : c.v.Apart u) :
    COk d Pend.none (c.withGhost k u s ((c.net.g.nodes.filter fun o => decide (o.uid ≠ u)) ++ [⟨u, c.fresh⟩])) ∧
    (c.withGhost k u s ((c.net.g.nodes.filter fun o => decide (o.uid ≠ u)) ++ [⟨u, c.fresh⟩])).v = { c.v with
      gho := fun x => if x = u then some (s, k) else c.v.gho x
      net := { c.v.net with has := fun x => c.v.net.has x || decide (x = u) }
      req := fun x => c.v.req x || decide (x = u) } := by
  have hgh : (get c.ghosts u).isSome = true := by
    have : ((get c.ghosts u).map fun g => (g.st, c.lrank g.obj)).isSome = true := hg
    simpa using this
  obtain ⟨g, hgu⟩ := Option.isSome_iff_exists.1 hgh
  have hlu : get c.locals u = none := (h.gho u g hgu).2.2.2
  have hnew : c.net.newEdges = [] := keys_nil (f := uu) ha.new
  have hsyn : c.net.ghosted = [] := keys_nil (f := uu) ha.syn
  have hrem : c.net.toRemove = [] := keys_nil (f := uu) ha.rem
  have hupd : c.net.toUpdate = [] := by have := ha.upd; exact List.map_eq_nil_iff.1 this
  have hmem : ∀ o, o ∈ (c.net.g.nodes.filter fun o => decide (o.uid ≠ u)) ++ [(⟨u, c.fresh⟩ : Obj)] ↔ (o ∈ c.net.g.nodes ∧ o.uid ≠ u) ∨ o = ⟨u, c.fresh⟩ := by
    intro o; simp
  have hnofresh : (⟨u, c.fresh⟩ : Obj) ∉ c.net.g.nodes := fun hm => Nat.lt_irrefl _ (h.fresh _ hm)
  have hedge : ∀ a b, a ∈ c.net.g.nodes → b ∈ c.net.g.nodes → (a.uid = u ∨ b.uid = u) → c.net.g.attr a b = none := by
    intro a b h1 h2 h3
    have n1 := (node_iff h.net.uniq a.uid a).2 ⟨h1, rfl⟩
    have n2 := (node_iff h.net.uniq b.uid b).2 ⟨h2, rfl⟩
    have e : c.net.e a.uid b.uid = c.net.g.attr a b := by unfold Net.e; rw [n1, n2]; rfl
    rw [← e]
    rcases h3 with h3 | h3
    · rw [h3]; exact ha.from_ _
    · rw [h3]; exact ha.to _
  have hends : ∀ k ∈ Assoc.keys c.net.g.edges, k.1.uid ≠ u ∧ k.2.uid ≠ u := by
    rintro ⟨a, b⟩ hk
    have he := h.net.inv.ends _ hk
    have hsome : (c.net.g.attr a b).isSome = true := by
      unfold Graph.attr Graph.slot
      rw [Option.isSome_map]
      have : (Assoc.get c.net.g.edges (a, b)).isSome = true := (Assoc.get_isSome ..).2 hk
      obtain ⟨i, hi⟩ := Option.isSome_iff_exists.1 this
      rw [hi]; rfl
    constructor
    · intro hu
      rw [hedge a b he.1 he.2 (Or.inl hu)] at hsome; cases hsome
    · intro hu
      rw [hedge a b he.1 he.2 (Or.inr hu)] at hsome; cases hsome
  have huniq : ∀ a ∈ (c.net.g.nodes.filter fun o => decide (o.uid ≠ u)) ++ [(⟨u, c.fresh⟩ : Obj)], ∀ b ∈ (c.net.g.nodes.filter fun o => decide (o.uid ≠ u)) ++ [(⟨u, c.fresh⟩ : Obj)],
      a.uid = b.uid → a = b := by
    intro a h1 b h2 h3
    rw [hmem] at h1 h2
    rcases h1 with h1 | rfl <;> rcases h2 with h2 | rfl
    · exact h.net.uniq a h1.1 b h2.1 h3
    · exact absurd h3 h1.2
    · exact absurd h3.symm h2.2
    · rfl
  have hnode : ∀ x, (c.net.withNodes ((c.net.g.nodes.filter fun o => decide (o.uid ≠ u)) ++ [⟨u, c.fresh⟩])).node x = if x = u then some ⟨u, c.fresh⟩ else c.net.node x := by
    intro x
    apply option_ext'
    intro o
    rw [node_iff (N := c.net.withNodes _) huniq]
    show o ∈ _ ++ _ ∧ _ ↔ _
    rw [hmem]
    by_cases hx : x = u
    · subst hx
      rw [if_pos rfl]
      constructor
      · rintro ⟨h1 | rfl, h2⟩
        · exact absurd h2 h1.2
        · rfl
      · intro hh
        obtain rfl := Option.some.inj hh
        exact ⟨Or.inr rfl, rfl⟩
    · rw [if_neg hx, node_iff h.net.uniq]
      constructor
      · rintro ⟨h1 | rfl, h2⟩
        · exact ⟨h1.1, h2⟩
        · exact absurd h2.symm hx
      · rintro ⟨h1, h2⟩
        exact ⟨Or.inl ⟨h1, by rw [h2]; exact hx⟩, h2⟩
  refine ⟨?_, ?_⟩
  · exact {
      nets := rfl
      net := {
        inv := {
          nodes := by
            refine List.nodup_append.2 ⟨(List.filter_sublist).nodup h.net.inv.nodes, by simp, ?_⟩
            intro a h1 b h2 h3
            rw [List.mem_singleton] at h2
            rw [h3, h2] at h1
            exact hnofresh (List.mem_filter.1 h1).1
          keys := h.net.inv.keys
          ends := by
            intro k hk
            have h1 := h.net.inv.ends k hk
            have h2 := hends k hk
            exact ⟨(hmem _).2 (Or.inl ⟨h1.1, h2.1⟩), (hmem _).2 (Or.inl ⟨h1.2, h2.2⟩)⟩
          single := h.net.inv.single
          slots := h.net.inv.slots
          bound := h.net.inv.bound }
        dir := h.net.dir
        moved := h.net.moved
        noLonger := h.net.noLonger
        toRef := h.net.toRef
        uniq := huniq
        keys := h.net.keys
        sym := h.net.sym
        hasKey := h.net.hasKey
        new := by
          intro e he
          have : e ∈ c.net.newEdges := he
          rw [hnew] at this; cases this
        newOk := h.net.newOk
        syn := by
          intro e he
          have : e ∈ c.net.ghosted := he
          rw [hsyn] at this; cases this
        synOk := h.net.synOk
        upd := h.net.upd
        rem := by
          intro e he
          have : e ∈ c.net.toRemove := he
          rw [hrem] at this; cases this
        remOk := h.net.remOk
        canon := h.net.canon }
      removed := h.removed
      loc := by
        intro x o s' hx
        have := h.loc x o s' hx
        refine ⟨this.1, ?_⟩
        show (if o = ⟨u, c.fresh⟩ then k else c.lrank o) = c.rank
        rw [if_neg]
        · exact this.2
        · rintro rfl
          have hx' : get c.locals x = some (⟨u, c.fresh⟩, s') := hx
          have : u = x := this.1
          subst this
          rw [hlu] at hx'; cases hx'
      gho := by
        intro x g' hx
        have hx' : get (Dict.set c.ghosts u ⟨⟨u, c.fresh⟩, s, ((1 + c.others : Nat) : Int)⟩) x = some g' := hx
        rw [get_set] at hx'
        split at hx'
        · rename_i e
          obtain rfl := Option.some.inj hx'
          subst e
          refine ⟨rfl, ?_, fun _ hq => absurd ?_ hq, hlu⟩
          · show (if _ then k else _) ≠ c.rank
            rw [if_pos rfl]; exact hk
          · show u ∈ (if u ∈ c.req then c.req else c.req ++ [u])
            split
            · assumption
            · exact List.mem_append_right _ List.mem_cons_self
        · rename_i e
          have := h.gho x g' hx'
          refine ⟨this.1, ?_, fun hm hq => this.2.2.1 hm fun hq' => hq ?_, this.2.2.2⟩
          rotate_left
          · show x ∈ (if u ∈ c.req then c.req else c.req ++ [u])
            split
            · exact hq'
            · exact List.mem_append_left _ hq'
          show (if g'.obj = ⟨u, c.fresh⟩ then k else c.lrank g'.obj) ≠ c.rank
          rw [if_neg]
          · exact this.2.1
          · intro hh
            rw [hh] at this
            exact e this.1
      hid := fun _ hh => by cases hh
      ghoFresh := by
        intro x g' hx
        have hx' : get (Dict.set c.ghosts u ⟨⟨u, c.fresh⟩, s, ((1 + c.others : Nat) : Int)⟩) x = some g' := hx
        rw [get_set] at hx'
        split at hx'
        · obtain rfl := Option.some.inj hx'
          exact Nat.lt_succ_self _
        · exact Nat.lt_succ_of_lt (h.ghoFresh x g' hx')
      nodes := by
        intro o
        rw [find_withGhost hlu]
        show o ∈ _ ++ _ ↔ _
        rw [hmem]
        by_cases hx : o.uid = u
        · rw [if_pos hx]
          constructor
          · rintro (h1 | rfl)
            · exact absurd hx h1.2
            · exact ⟨rfl, rfl⟩
          · intro hh
            exact Or.inr (Option.some.inj hh.1).symm
        · rw [if_neg hx, ← h.nodes]
          constructor
          · rintro (h1 | rfl)
            · exact h1.1
            · exact absurd rfl hx
          · intro h1; exact Or.inl ⟨h1, hx⟩
      fresh := by
        intro o ho
        show o.gen < c.fresh + 1
        rcases (hmem o).1 ho with h1 | rfl
        · have := h.fresh o h1.1; omega
        · exact Nat.lt_succ_self _
      tagOk := h.tagOk
      tags := h.tags
      toRef := by simp [Pend.none] }
  · have hgho : (c.withGhost k u s ((c.net.g.nodes.filter fun o => decide (o.uid ≠ u)) ++ [⟨u, c.fresh⟩])).v.gho = fun x => if x = u then some (s, k) else c.v.gho x := by
      funext x
      show (get (Dict.set c.ghosts u ⟨⟨u, c.fresh⟩, s, ((1 + c.others : Nat) : Int)⟩) x).map (fun g => (g.st, if g.obj = ⟨u, c.fresh⟩ then k else c.lrank g.obj)) = _
      rw [get_set]
      by_cases hx : x = u
      · subst hx; rw [if_pos rfl, if_pos rfl]; simp
      · rw [if_neg (Ne.symm hx), if_neg hx]
        show _ = (get c.ghosts x).map _
        cases hgx : get c.ghosts x with
        | none => rfl
        | some g' =>
          simp only [Option.map_some]
          rw [if_neg]
          intro hh
          have := (h.gho x g' hgx).1
          rw [hh] at this
          exact hx this.symm
    have hhas : (c.net.withNodes ((c.net.g.nodes.filter fun o => decide (o.uid ≠ u)) ++ [⟨u, c.fresh⟩])).v.has = fun x => c.v.net.has x || decide (x = u) := by
      funext x
      show (Net.node _ x).isSome = ((c.net.node x).isSome || _)
      rw [hnode]
      by_cases hx : x = u
      · rw [if_pos hx, decide_eq_true hx, Bool.or_true]; rfl
      · rw [if_neg hx, decide_eq_false hx, Bool.or_false]
    have hed : (c.net.withNodes ((c.net.g.nodes.filter fun o => decide (o.uid ≠ u)) ++ [⟨u, c.fresh⟩])).v.edge = c.v.net.edge := by
      funext x y
      show ((Net.node _ x).bind fun a => (Net.node _ y).bind fun b => c.net.g.attr a b) = c.net.e x y
      rw [hnode, hnode]
      have hno : ∀ a b : Obj, (a = ⟨u, c.fresh⟩ ∨ b = ⟨u, c.fresh⟩) → c.net.g.attr a b = none := by
        intro a b hab
        unfold Graph.attr
        rw [Option.map_eq_none_iff]
        have hno' : ∀ a b : Obj, (a = ⟨u, c.fresh⟩ ∨ b = ⟨u, c.fresh⟩) → Assoc.get c.net.g.edges (a, b) = none := by
          intro a b hab
          cases hg' : Assoc.get c.net.g.edges (a, b) with
          | none => rfl
          | some i =>
            have hk := (Assoc.get_isSome c.net.g.edges (a, b)).1 (by rw [hg']; rfl)
            have h1 := h.net.inv.ends _ hk
            rcases hab with rfl | rfl
            · exact absurd h1.1 hnofresh
            · exact absurd h1.2 hnofresh
        unfold Graph.slot
        rw [hno' a b hab, hno' b a hab.symm]
        simp
      by_cases hx : x = u
      · rw [if_pos hx]
        have h1 : c.net.e x y = none := by rw [hx]; exact ha.from_ y
        rw [h1]
        simp only [Option.bind_some]
        rw [Option.bind_eq_none_iff]
        intro b _
        exact hno _ _ (Or.inl rfl)
      · rw [if_neg hx]
        by_cases hy : y = u
        · rw [if_pos hy]
          have h1 : c.net.e x y = none := by rw [hy]; exact ha.to x
          rw [h1, Option.bind_eq_none_iff]
          intro a _
          simp only [Option.bind_some]
          exact hno _ _ (Or.inr rfl)
        · rw [if_neg hy]; rfl
    have hreq : (c.withGhost k u s ((c.net.g.nodes.filter fun o => decide (o.uid ≠ u)) ++ [⟨u, c.fresh⟩])).v.req = fun x => c.v.req x || decide (x = u) := by
      funext x
      show decide (x ∈ if u ∈ c.req then c.req else c.req ++ [u]) = (decide (x ∈ c.req) || decide (x = u))
      by_cases hr : u ∈ c.req
      · rw [if_pos hr]
        by_cases hx : x = u
        · subst hx; simp [hr]
        · simp [hx]
      · rw [if_neg hr]; simp
    unfold Cx.v at hgho hreq ⊢
    simp only at hgho hreq ⊢
    rw [hgho, hreq]
    have hnet : (c.withGhost k u s ((c.net.g.nodes.filter fun o => decide (o.uid ≠ u)) ++ [⟨u, c.fresh⟩])).net.v = { c.net.v with has := fun x => c.net.v.has x || decide (x = u) } := by
      show (c.net.withNodes _).v = _
      unfold Net.v at hhas hed ⊢
      simp only at hhas hed ⊢
      rw [hhas, hed]
      rfl
    rw [hnet]
    rfl

theorem Dup.recvAgain {c : Cx S A} {V : RV S A} (h : Dup d c V) {u k : Nat} (hg : (V.gho u).isSome = true) (hk : k ≠ V.rank) (s : S) (ha : V.Apart u) :
    Dup d (c.recvRequested (k, u, s)) { V with
      gho := fun x => if x = u then some (s, k) else V.gho x
      net := { V.net with has := fun x => V.net.has x || decide (x = u) }
      req := fun x => V.req x || decide (x = u) } := by
  have hV := h.view
  subst hV
  have hgh : (get c.ghosts u).isSome = true := by
    have : ((get c.ghosts u).map fun g => (g.st, c.lrank g.obj)).isSome = true := hg
    simpa using this
  obtain ⟨g, hgu⟩ := Option.isSome_iff_exists.1 hgh
  have hlu : get c.locals u = none := (h.ok.gho u g hgu).2.2.2
  have hr := h.ok.again (u := u) (k := k) hg hk s ha
  rw [recvRequested_eq h.nets h.fresh]
  refine ⟨?_, ?_, rfl, h.fresh_withGhost, h.loc_withGhost hlu, h.known_withGhost hlu⟩
  · rw [pruned_withGhost hlu h.fresh]; exact hr.1
  · rw [pruned_withGhost hlu h.fresh]; exact hr.2

theorem Dup.answer {c : Cx S A} {V : RV S A} (h : Dup d c V) {u k : Nat} {s : S} (hl : V.loc u = some s) (acc : List (Nat × Nat × S)) :
    ∃ c', Cx.answer (c, acc) (k, u) = some (c', acc ++ [(k, u, s)]) ∧ Dup d c' { V with tag := fun x j => V.tag x j || decide (x = u ∧ j = k) } := by
  obtain ⟨c', h1, h2, h3⟩ := h.tag (u := u) (k := k) (by rw [hl]; rfl)
  refine ⟨c', ?_, h2⟩
  unfold Cx.answer
  simp only [h1, Option.bind_some]
  have : (get c.locals u).map (·.2) = some s := by
    have hv := h.view
    subst hv
    exact hl
  obtain ⟨o, ho, rfl⟩ := Option.map_eq_some_iff.1 this
  rw [h3, ho]; rfl

variable {n : Nat} {V : Sp S A}

/-- Agents may be requested several times, if there are no edges between ranks yet. -/
theorem request_dup (h : SInv NoHid d n V) {rs : Nat → List (Nat × Nat)}
    (hl : ∀ k < n, ∀ q ∈ rs k, q.2 < n ∧ q.2 ≠ k ∧ ((V q.2).loc q.1).isSome = true)
    (hap : ∀ k < n, ∀ u, (V k).loc u = none → (V k).Apart u)
    {w : World S A} (hw : Sim d still n w V) : ∃ w', requestAgents n rs w = some w' ∧ ∀ k < n, Dup d (w' k) (V.request n rs k) := by
  let F : Nat → List (Nat × Nat) → RV S A := fun k pre => { V k with req := fun x => (V k).req x || pre.any (fun q => decide (x = q.1) && ((V k).gho x).isSome) }
  have hsend : ∀ r < n, ∃ c, (rs r).foldlM (Cx.sendRequest n) (w r, ([] : List (Nat × Nat))) = some (c, V.asks rs r) ∧ COk d Pend.none c ∧ c.v = F r (rs r) := by
    intro r hr
    obtain ⟨⟨c, l⟩, e, h1, h2, h3⟩ := foldM_sim (f := Cx.sendRequest (S := S) (A := A) n)
      (fun pre t => COk d Pend.none t.1 ∧ t.1.v = F r pre ∧ t.2 = pre.flatMap fun q => if ((V r).gho q.1).isSome then [] else [(q.2, q.1)]) (rs r) (by
      rintro pre q suf hl' ⟨c, acc⟩ ⟨hc, hv, ha⟩
      simp only at hc hv ha
      have hq : q ∈ rs r := by rw [hl']; simp
      obtain ⟨c', e, hc', hv'⟩ := hc.sendRequest (n := n) q acc rfl (fun _ => ((hl r hr) q hq).1)
      refine ⟨_, e, hc', ?_, ?_⟩
      · rw [hv', hv]
        refine congrArg (fun t => ({ V r with req := t } : RV S A)) ?_
        funext x
        show (((V r).req x || pre.any (fun q => decide (x = q.1) && ((V r).gho x).isSome)) || _) = ((V r).req x || (pre ++ [q]).any (fun q => decide (x = q.1) && ((V r).gho x).isSome))
        rw [List.any_append, Bool.or_assoc]
        show _ = ((V r).req x || (_ || (_ || false)))
        rw [Bool.or_false]
      · have hg : c.v.gho = (V r).gho := by rw [hv]
        simp only []
        rw [ha, hg, List.flatMap_append]
        show _ = _ ++ (_ ++ [])
        rw [List.append_nil]) (w r, []) ⟨(hw r hr).1, by rw [(hw r hr).2]; show V r = F r []; simp [F], rfl⟩
    simp only at h1 h2 h3
    refine ⟨c, ?_, h1, h2⟩
    rw [e, h3]; rfl
  obtain ⟨w1, e1, s1⟩ := each_some (n := n) (f := fun r => (((List.range n).map fun r => (rs r).foldlM (Cx.sendRequest n) (w r, ([] : List (Nat × Nat))))[r]?.bind id).map (·.1)) (w := w)
      (P := fun r c => COk d Pend.none c ∧ c.v = F r (rs r)) (by
    intro r hr
    obtain ⟨c, e, hc⟩ := hsend r hr
    rw [get_map_range _ hr, e]
    exact ⟨c, rfl, hc⟩)
  have hA : ∀ k, recv n (fun s => sent (((List.range n).map fun r => (rs r).foldlM (Cx.sendRequest n) (w r, ([] : List (Nat × Nat))))[s]?.bind id)) k = V.asked n rs k := by
    intro k
    refine recv_congr ?_ k
    intro r hr
    obtain ⟨c, e, hc⟩ := hsend r hr
    rw [get_map_range _ hr, e]; rfl
  let G : Nat → List (Nat × Nat) → RV S A := fun k pre => { F k (rs k) with tag := fun x j => (V k).tag x j || pre.any (fun m => decide (m = (j, x))) }
  have hasked : ∀ k < n, ∀ m ∈ V.asked n rs k, m.1 < n ∧ m.1 ≠ k ∧ ((V k).loc m.2).isSome = true ∧ (V m.1).gho m.2 = none ∧ (m.2, k) ∈ rs m.1 := by
    intro k hk m hm
    obtain ⟨h1, h2, h3⟩ := mem_asked.1 hm
    have := (hl m.1 h1) _ h2
    exact ⟨h1, Ne.symm this.2.1, this.2.2, h3, h2⟩
  have hanswer : ∀ k < n, ∃ c, (V.asked n rs k).foldlM Cx.answer (w1 k, ([] : List (Nat × Nat × S))) = some (c, V.answers n rs k) ∧ Dup d c (G k (V.asked n rs k)) := by
    intro k hk
    obtain ⟨⟨c, l⟩, e, h1, h3⟩ := foldM_sim (f := Cx.answer (S := S) (A := A))
      (fun pre t => Dup d t.1 (G k pre) ∧ t.2 = pre.filterMap fun m => ((V k).loc m.2).map fun s => (m.1, m.2, s)) (V.asked n rs k) (by
      rintro pre m suf hl' ⟨c, acc⟩ ⟨hc, ha⟩
      simp only at hc ha
      have hm : m ∈ V.asked n rs k := by rw [hl']; simp
      obtain ⟨g1, g2, g3, g4, g5⟩ := hasked k hk m hm
      obtain ⟨s, hs⟩ := Option.isSome_iff_exists.1 g3
      obtain ⟨c', e, hc'⟩ := hc.answer (u := m.2) (k := m.1) (s := s) hs acc
      refine ⟨_, e, ?_, ?_⟩
      · refine cast (congrArg (Dup d c') ?_) hc'
        refine congrArg (fun t => ({ F k (rs k) with tag := t } : RV S A)) ?_
        funext x j
        show (((V k).tag x j || pre.any (fun m => decide (m = (j, x)))) || decide (x = m.2 ∧ j = m.1)) = ((V k).tag x j || (pre ++ [m]).any (fun m => decide (m = (j, x))))
        rw [List.any_append, Bool.or_assoc]
        have : decide (x = m.2 ∧ j = m.1) = [m].any (fun m => decide (m = (j, x))) := by
          simp only [List.any_cons, List.any_nil, Bool.or_false, decide_eq_decide]
          constructor
          · rintro ⟨rfl, rfl⟩; rfl
          · rintro rfl; exact ⟨rfl, rfl⟩
        rw [this]
      · simp only []
        rw [ha, List.filterMap_append]
        simp [hs]) (w1 k, []) ⟨cast (congrArg (Dup d (w1 k)) (by rw [(s1 k hk).2.2]; show F k (rs k) = G k []; simp [G]; rfl)) (s1 k hk).2.1.dup, rfl⟩
    simp only at h1 h3
    refine ⟨c, ?_, h1⟩
    rw [e, h3]; rfl
  obtain ⟨w2, e2, s2⟩ := each_some (n := n) (f := fun r => (((List.range n).map fun r => (V.asked n rs r).foldlM Cx.answer (w1 r, ([] : List (Nat × Nat × S))))[r]?.bind id).map (·.1)) (w := w1)
      (P := fun r c => Dup d c (G r (V.asked n rs r))) (by
    intro r hr
    obtain ⟨c, e, hc⟩ := hanswer r hr
    rw [get_map_range _ hr, e]
    exact ⟨c, rfl, hc⟩)
  let msgs : Nat → List (Nat × Nat × S) := fun k => recv n (V.answers n rs) k
  have hB : ∀ k, recv n (fun s => sent (((List.range n).map fun r => (V.asked n rs r).foldlM Cx.answer (w1 r, ([] : List (Nat × Nat × S))))[s]?.bind id)) k = msgs k := by
    intro k
    refine recv_congr ?_ k
    intro r hr
    obtain ⟨c, e, hc⟩ := hanswer r hr
    rw [get_map_range _ hr, e]; rfl
  have hmsg : ∀ k < n, ∀ m, m ∈ msgs k ↔ m.1 < n ∧ (m.2.1, m.1) ∈ rs k ∧ (V k).gho m.2.1 = none ∧ (V m.1).loc m.2.1 = some m.2.2 := by
    intro k hk m
    show m ∈ recv n (V.answers n rs) k ↔ _
    rw [mem_recv, mem_answers, mem_asked]
    constructor
    · rintro ⟨a, ⟨b, c, e⟩, f⟩; exact ⟨a, c, e, f⟩
    · rintro ⟨a, c, e, f⟩; exact ⟨a, ⟨hk, c, e⟩, f⟩
  let H : Nat → List (Nat × Nat × S) → RV S A := fun k pre => { G k (V.asked n rs k) with
    gho := fun x => match pre.find? (fun m => decide (m.2.1 = x)) with
      | some m => some (m.2.2, m.1)
      | none => (V k).gho x
    net := { (V k).net with has := fun x => (V k).net.has x || pre.any (fun m => decide (m.2.1 = x)) }
    req := fun x => (F k (rs k)).req x || pre.any (fun m => decide (m.2.1 = x)) }
  have hrecv : ∀ k < n, Dup d ((msgs k).foldl Cx.recvRequested (w2 k)) (H k (msgs k)) := by
    intro k hk
    refine foldl_sim (f := Cx.recvRequested (S := S) (A := A)) (fun pre c => Dup d c (H k pre)) (msgs k) ?_ (w2 k) ?_
    · intro pre m suf hl' c hc
      have hm : m ∈ msgs k := by rw [hl']; simp
      obtain ⟨g1, g2, g3, g4⟩ := (hmsg k hk m).1 hm
      have hrk := hl k hk _ g2
      have hlu : (V k).loc m.2.1 = none := by
        cases hh : (V k).loc m.2.1 with
        | none => rfl
        | some s => exact absurd (h.own m.1 g1 k hk m.2.1 hrk.2.2 (by rw [hh]; rfl)) hrk.2.1
      have hfind : ∀ m', pre.find? (fun m' => decide (m'.2.1 = m.2.1)) = some m' → m'.1 = m.1 ∧ m'.2.2 = m.2.2 := by
        intro m' hm'
        have h0 : m'.2.1 = m.2.1 := by simpa using List.find?_some hm'
        obtain ⟨k1, -, -, k4⟩ := (hmsg k hk m').1 (by rw [hl']; exact List.mem_append_left _ (List.mem_of_find?_eq_some hm'))
        rw [h0] at k4
        have h1 : m'.1 = m.1 := h.own m'.1 k1 m.1 g1 m.2.1 (by rw [k4]; rfl) (by rw [g4]; rfl)
        rw [h1, g4] at k4
        exact ⟨h1, (Option.some.inj k4).symm⟩
      have hrank : (H k pre).rank = k := h.rank k hk
      have hstep : Dup d (c.recvRequested (m.1, m.2.1, m.2.2)) { H k pre with
          gho := fun x => if x = m.2.1 then some (m.2.2, m.1) else (H k pre).gho x
          net := { (H k pre).net with has := fun x => (H k pre).net.has x || decide (x = m.2.1) }
          req := fun x => (H k pre).req x || decide (x = m.2.1) } := by
        have hk' : m.1 ≠ (H k pre).rank := by rw [hrank]; exact hrk.2.1
        cases hgp : (H k pre).gho m.2.1 with
        | none => exact hc.recvNew hlu hgp hk' m.2.2
        | some g =>
          refine hc.recvAgain (by rw [hgp]; rfl) hk' m.2.2 ?_
          have := hap k hk m.2.1 hlu
          exact ⟨this.from_, this.to, this.new, this.upd, this.rem, this.syn⟩
      refine cast (congrArg (Dup d _) ?_) hstep
      have eg : (fun x => if x = m.2.1 then some (m.2.2, m.1) else (H k pre).gho x) = (H k (pre ++ [m])).gho := by
        funext x
        have e1 : ∀ l, (H k l).gho x = match l.find? (fun m => decide (m.2.1 = x)) with
          | some m => some (m.2.2, m.1)
          | none => (V k).gho x := fun _ => rfl
        rw [e1, e1, find?_snoc]
        by_cases hx : x = m.2.1
        · subst hx
          rw [if_pos rfl]
          cases hf : pre.find? (fun m' => decide (m'.2.1 = m.2.1)) with
          | some m' => simp only [(hfind m' hf).1, (hfind m' hf).2]
          | none => simp
        · rw [if_neg hx]
          cases pre.find? (fun m => decide (m.2.1 = x)) with
          | some y => rfl
          | none => simp [Ne.symm hx]
      have hany : ∀ x, decide (x = m.2.1) = [m].any (fun m => decide (m.2.1 = x)) := by
        intro x
        by_cases hx : x = m.2.1
        · subst hx; simp
        · simp [hx, Ne.symm hx]
      have eh : (fun x => (H k pre).net.has x || decide (x = m.2.1)) = (H k (pre ++ [m])).net.has := by
        funext x
        show (((V k).net.has x || pre.any (fun m => decide (m.2.1 = x))) || decide (x = m.2.1)) = ((V k).net.has x || (pre ++ [m]).any (fun m => decide (m.2.1 = x)))
        rw [List.any_append, Bool.or_assoc, hany]
      have er : (fun x => (H k pre).req x || decide (x = m.2.1)) = (H k (pre ++ [m])).req := by
        funext x
        show (((F k (rs k)).req x || pre.any (fun m => decide (m.2.1 = x))) || decide (x = m.2.1)) = ((F k (rs k)).req x || (pre ++ [m]).any (fun m => decide (m.2.1 = x)))
        rw [List.any_append, Bool.or_assoc, hany]
      rw [eg, eh, er]
    · refine cast (congrArg (Dup d (w2 k)) ?_) (s2 k hk).2
      show G k (V.asked n rs k) = H k []
      simp only [H, List.find?_nil, List.any_nil, Bool.or_false]
      rfl
  obtain ⟨w3, e3, s3⟩ := each_some (n := n) (f := fun k => some ((msgs k).foldl Cx.recvRequested (w2 k))) (w := w2) (P := fun k c => Dup d c (H k (msgs k))) (by
    intro k hk
    exact ⟨_, rfl, hrecv k hk⟩)
  refine ⟨w3, ?_, ?_⟩
  · unfold requestAgents
    simp only []
    rw [e1, Option.bind_some]
    simp only [hA]
    rw [e2, Option.bind_some]
    simp only [hB]
    exact e3
  · intro k hk
    refine cast (congrArg (Dup d (w3 k)) ?_) (s3 k hk).2
    have hmem : ∀ x, (msgs k).any (fun m => decide (m.2.1 = x)) = true ↔ (V k).gho x = none ∧ (rs k).any (fun q => decide (q.1 = x)) = true := by
      intro x
      constructor
      · intro hh
        obtain ⟨m, hm, e⟩ := List.any_eq_true.1 hh
        have e : m.2.1 = x := of_decide_eq_true e
        obtain ⟨g1, g2, g3, g4⟩ := (hmsg k hk m).1 hm
        exact ⟨by rw [← e]; exact g3, List.any_eq_true.2 ⟨_, g2, by simp [e]⟩⟩
      · rintro ⟨h1, h2⟩
        obtain ⟨q, hq, e⟩ := List.any_eq_true.1 h2
        have e : q.1 = x := of_decide_eq_true e
        obtain ⟨a, b, c⟩ := (hl k hk) q hq
        obtain ⟨s, hs⟩ := Option.isSome_iff_exists.1 c
        exact List.any_eq_true.2 ⟨(q.2, q.1, s), (hmsg k hk _).2 ⟨a, hq, by rw [e]; exact h1, hs⟩, by simp [e]⟩
    have eg : (H k (msgs k)).gho = (V.request n rs k).gho := by
      funext x
      have e1 : (H k (msgs k)).gho x = match (msgs k).find? (fun m => decide (m.2.1 = x)) with
          | some m => some (m.2.2, m.1)
          | none => (V k).gho x := rfl
      have e2 : (V.request n rs k).gho x = if ((V k).gho x).isSome then (V k).gho x else
        match (rs k).find? (fun q => decide (q.1 = x)) with
        | some q => ((V q.2).loc x).map fun s => (s, q.2)
        | none => none := rfl
      rw [e1, e2]
      cases hf : (msgs k).find? (fun m => decide (m.2.1 = x)) with
      | some m =>
        have g0 := List.mem_of_find?_eq_some hf
        have e : m.2.1 = x := by simpa using List.find?_some hf
        obtain ⟨g1, g2, g3, g4⟩ := (hmsg k hk m).1 g0
        rw [e] at g2 g3 g4
        rw [g3]
        simp only [Option.isSome_none, Bool.false_eq_true, if_false]
        cases hq : (rs k).find? (fun q => decide (q.1 = x)) with
        | none => exact absurd (by simp) (List.find?_eq_none.1 hq _ g2)
        | some q =>
          have q1 := List.mem_of_find?_eq_some hq
          have q2 : q.1 = x := by simpa using List.find?_some hq
          obtain ⟨a, b, c⟩ := (hl k hk) q q1
          rw [q2] at c
          have : q.2 = m.1 := h.own q.2 a m.1 g1 x c (by rw [g4]; rfl)
          simp only [this, g4, Option.map_some]
      | none =>
        cases hg : (V k).gho x with
        | some g => simp
        | none =>
          simp only [Option.isSome_none, Bool.false_eq_true, if_false]
          cases hq : (rs k).find? (fun q => decide (q.1 = x)) with
          | none => rfl
          | some q =>
            exfalso
            have q1 := List.mem_of_find?_eq_some hq
            have q2 : q.1 = x := by simpa using List.find?_some hq
            have := (hmem x).2 ⟨hg, List.any_eq_true.2 ⟨q, q1, by simp [q2]⟩⟩
            obtain ⟨m, hm, e⟩ := List.any_eq_true.1 this
            exact List.find?_eq_none.1 hf m hm e
    have eh : (H k (msgs k)).net.has = (V.request n rs k).net.has := by
      funext x
      show ((V k).net.has x || (msgs k).any (fun m => decide (m.2.1 = x))) = ((V k).net.has x || (rs k).any (fun q => decide (q.1 = x)))
      rw [Bool.eq_iff_iff, Bool.or_eq_true, Bool.or_eq_true, hmem]
      constructor
      · rintro (a | a)
        · exact .inl a
        · exact .inr a.2
      · rintro (a | a)
        · exact .inl a
        · cases hg : (V k).gho x with
          | none => exact .inr ⟨rfl, a⟩
          | some g => left; rw [(h.one k hk).has, hg]; simp
    have er : (H k (msgs k)).req = (V.request n rs k).req := by
      funext x
      show (((V k).req x || (rs k).any (fun q => decide (x = q.1) && ((V k).gho x).isSome)) || (msgs k).any (fun m => decide (m.2.1 = x))) = ((V k).req x || (rs k).any (fun q => decide (q.1 = x)))
      rw [Bool.eq_iff_iff, Bool.or_eq_true, Bool.or_eq_true, Bool.or_eq_true, hmem]
      constructor
      · rintro ((a | a) | a)
        · exact .inl a
        · obtain ⟨q, hq, e⟩ := List.any_eq_true.1 a
          simp only [Bool.and_eq_true, decide_eq_true_eq] at e
          exact .inr (List.any_eq_true.2 ⟨q, hq, by simp [e.1]⟩)
        · exact .inr a.2
      · rintro (a | a)
        · exact .inl (.inl a)
        · cases hg : (V k).gho x with
          | none => exact .inr ⟨rfl, a⟩
          | some g =>
            obtain ⟨q, hq, e⟩ := List.any_eq_true.1 a
            have e : q.1 = x := of_decide_eq_true e
            exact .inl (.inr (List.any_eq_true.2 ⟨q, hq, by simp [e]⟩))
    have et : (H k (msgs k)).tag = (V.request n rs k).tag := by
      funext x j
      show ((V k).tag x j || (V.asked n rs k).any (fun m => decide (m = (j, x)))) = ((V k).tag x j || (decide (j < n) && (rs j).any fun q => decide (q = (x, k))))
      rw [Bool.eq_iff_iff, Bool.or_eq_true, Bool.or_eq_true]
      constructor
      · rintro (a | a)
        · exact .inl a
        · obtain ⟨m, hm, e⟩ := List.any_eq_true.1 a
          have e : m = (j, x) := of_decide_eq_true e
          subst e
          obtain ⟨h1, h2, -⟩ := mem_asked.1 hm
          refine .inr ?_
          rw [Bool.and_eq_true]
          exact ⟨decide_eq_true h1, List.any_eq_true.2 ⟨_, h2, by simp⟩⟩
      · rintro (a | a)
        · exact .inl a
        · rw [Bool.and_eq_true, decide_eq_true_eq] at a
          obtain ⟨q, hq, e⟩ := List.any_eq_true.1 a.2
          have e : q = (x, k) := of_decide_eq_true e
          subst e
          cases hg : (V j).gho x with
          | none => exact .inr (List.any_eq_true.2 ⟨(j, x), mem_asked.2 ⟨a.1, hq, hg⟩, by simp⟩)
          | some g => exact .inl ((h.tag k hk x j).2 ⟨a.1, ((hl j a.1) _ hq).2.2, by rw [hg]; rfl⟩)
    show ({ (V k) with gho := (H k (msgs k)).gho, net := { (V k).net with has := (H k (msgs k)).net.has }, req := (H k (msgs k)).req, tag := (H k (msgs k)).tag } : RV S A) = V.request n rs k
    rw [eg, eh, er, et]
    rfl

end Repast.Network
