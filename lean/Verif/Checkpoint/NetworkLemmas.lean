import Verif.Checkpoint.Network
import Verif.Network.NetProps

/-! C20: lemmas about saving and restoring a network on one rank. -/
namespace Repast.Network
open Repast.Dict Repast.Context

variable {S A : Type} {d : Bool}

/-! ### What is saved -/

/-- An edge of a node that was saved: the node, whether it is a successor of the node, the other agent and its rank, the attributes. -/
abbrev Item (A : Type) := Nat × Bool × Nat × Nat × Attr A

/-- The edge from a first to a second agent. -/
def Item.ends (i : Item A) : Nat × Nat := if i.2.1 then (i.1, i.2.2.1) else (i.2.2.1, i.1)

def SavedNode.items (x : SavedNode A) : List (Item A) := x.succ.map (fun e => (x.uid, true, e)) ++ x.pred.map (fun e => (x.uid, false, e))

theorem addNode_items (pid : Nat) (acc : Restoring S A) (x : SavedNode A) :
    Restoring.addNode pid acc x = x.items.foldlM (fun acc (i : Item A) => Restoring.addEdge pid i.1 i.2.1 acc i.2.2) acc := by
  unfold Restoring.addNode SavedNode.items
  rw [List.foldlM_append, List.foldlM_map]
  show _ = Option.bind _ _
  congr 1
  funext acc
  rw [List.foldlM_map]

theorem restore_items (pid : Nat) (c : Cx S A) (data : List (SavedNode A)) :
    c.restore pid data = (data.flatMap SavedNode.items).foldlM (fun acc (i : Item A) => Restoring.addEdge pid i.1 i.2.1 acc i.2.2) ⟨c, [], []⟩ := by
  unfold Cx.restore
  generalize (⟨c, [], []⟩ : Restoring S A) = acc
  induction data generalizing acc with
  | nil => rfl
  | cons x data ih =>
    rw [List.foldlM_cons, List.flatMap_cons, List.foldlM_append, addNode_items]
    show Option.bind _ _ = Option.bind _ _
    congr 1
    funext acc
    exact ih acc

/-- The rank of an agent, as a rank sees it. -/
def RV.ownerIs (V : RV S A) (u k : Nat) : Prop := (V.loc u).isSome = true ∧ k = V.rank ∨ ∃ s, V.gho u = some (s, k)

theorem COk.ownerIs {c : Cx S A} (h : COk d Pend.none c) {o : Obj} (ho : o ∈ c.net.g.nodes) : c.v.ownerIs o.uid (c.lrank o) := by
  by_cases e : c.lrank o = c.rank
  · exact .inl ⟨(h.local_iff ho).1 e, e⟩
  · exact .inr (h.gho_lrank ho e)

/-- What is saved are the edges of the local agents. -/
theorem COk.saved {c : Cx S A} (h : COk d Pend.none c) : ∃ data, c.saveNetwork 0 = some data ∧
    (∀ i ∈ data.flatMap SavedNode.items, (c.v.loc i.1).isSome = true ∧ c.v.net.edge i.ends.1 i.ends.2 = some i.2.2.2.2 ∧ c.v.ownerIs i.2.2.1 i.2.2.2.1 ∧ (i.2.1 = false → d = true)) ∧
    (∀ x y a, c.v.net.edge x y = some a → (c.v.loc x).isSome = true → ∃ k, ((x, true, y, k, a) : Item A) ∈ data.flatMap SavedNode.items) ∧
    (∀ x y a, d = true → c.v.net.edge x y = some a → (c.v.loc y).isSome = true → ∃ k, ((y, false, x, k, a) : Item A) ∈ data.flatMap SavedNode.items) := by
  have hd := h.net.dir
  have hI := h.net.inv
  -- the edges of the graph
  have hattr : ∀ e ∈ c.net.g.edges, ∀ u v, Same d e.1.1 e.1.2 u v → u ∈ c.net.g.nodes ∧ v ∈ c.net.g.nodes ∧ c.v.net.edge u.uid v.uid = some (c.net.g.dict e.2) := by
    intro e he u v hs
    have hsl : c.net.g.slot u v = some e.2 := (slot_iff hI u v e.2).2 ⟨e.1, he, by rw [hd]; exact hs⟩
    have hn := slot_ends hI hsl
    refine ⟨hn.1, hn.2, ?_⟩
    rw [h.edge_attr hn.1 hn.2]
    unfold Graph.attr; rw [hsl]; rfl
  have hedge : ∀ x y a, c.v.net.edge x y = some a → ∃ u v e, u ∈ c.net.g.nodes ∧ v ∈ c.net.g.nodes ∧ u.uid = x ∧ v.uid = y ∧ e ∈ c.net.g.edges ∧ Same d e.1.1 e.1.2 u v ∧
      a = c.net.g.dict e.2 := by
    intro x y a he
    obtain ⟨u, hu, he⟩ := Option.bind_eq_some_iff.1 (show (c.net.node x).bind _ = some a from he)
    obtain ⟨v, hv, he⟩ := Option.bind_eq_some_iff.1 he
    obtain ⟨hu1, hu2⟩ := (node_iff h.net.uniq _ _).1 hu
    obtain ⟨hv1, hv2⟩ := (node_iff h.net.uniq _ _).1 hv
    obtain ⟨i, hi, rfl⟩ := Option.map_eq_some_iff.1 (show (c.net.g.slot u v).map _ = some a from he)
    obtain ⟨k, hk, hs⟩ := (slot_iff hI u v i).1 hi
    exact ⟨u, v, (k, i), hu1, hv1, hu2, hv2, hk, by rw [← hd]; exact hs, rfl⟩
  refine ⟨_, by unfold Cx.saveNetwork; rw [h.get0]; rfl, ?_, ?_, ?_⟩
  · intro i hi
    obtain ⟨x, hx, hi⟩ := List.mem_flatMap.1 hi
    obtain ⟨nd, hnd, rfl⟩ := List.mem_map.1 hx
    obtain ⟨hn1, hn2⟩ := List.mem_filter.1 hnd
    have hloc := (h.local_iff hn1).1 (by simpa using hn2)
    unfold Cx.saveNode at hi
    rw [hd] at hi
    cases d with
    | true =>
      rw [if_pos rfl] at hi
      rcases List.mem_append.1 hi with hi | hi
      · obtain ⟨y, hy, rfl⟩ := List.mem_map.1 hi
        obtain ⟨e, he, rfl⟩ := List.mem_map.1 hy
        obtain ⟨he1, he2⟩ := List.mem_filter.1 he
        have he2 : e.1.1 = nd := by simpa using he2
        obtain ⟨-, b, c'⟩ := hattr e he1 nd e.1.2 (.inl ⟨he2, rfl⟩)
        exact ⟨hloc, c', h.ownerIs b, fun hh => by cases hh⟩
      · obtain ⟨y, hy, rfl⟩ := List.mem_map.1 hi
        obtain ⟨e, he, rfl⟩ := List.mem_map.1 hy
        obtain ⟨he1, he2⟩ := List.mem_filter.1 he
        have he2 : e.1.2 = nd := by simpa using he2
        obtain ⟨b, -, c'⟩ := hattr e he1 e.1.1 nd (.inl ⟨rfl, he2⟩)
        exact ⟨hloc, c', h.ownerIs b, fun _ => rfl⟩
    | false =>
      rw [if_neg (by simp)] at hi
      rcases List.mem_append.1 hi with hi | hi
      · obtain ⟨y, hy, rfl⟩ := List.mem_map.1 hi
        obtain ⟨e, he, rfl⟩ := List.mem_map.1 hy
        obtain ⟨e', he', he⟩ := List.mem_filterMap.1 he
        split at he
        · rename_i h1
          obtain rfl := Option.some.inj he
          obtain ⟨-, b, c'⟩ := hattr e' he' nd e'.1.2 (.inl ⟨h1, rfl⟩)
          exact ⟨hloc, c', h.ownerIs b, fun hh => by cases hh⟩
        · split at he
          · rename_i h1
            obtain rfl := Option.some.inj he
            obtain ⟨-, b, c'⟩ := hattr e' he' nd e'.1.1 (.inr ⟨rfl, rfl, h1⟩)
            exact ⟨hloc, c', h.ownerIs b, fun hh => by cases hh⟩
          · cases he
      · cases hi
  · intro x y a he hx
    obtain ⟨u, v, e, hu, hv, rfl, rfl, hee, hs, rfl⟩ := hedge x y a he
    refine ⟨c.lrank v, List.mem_flatMap.2 ⟨c.saveNode c.net u, List.mem_map_of_mem (List.mem_filter.2 ⟨hu, by simpa using (h.local_iff hu).2 hx⟩), ?_⟩⟩
    unfold Cx.saveNode
    rw [hd]
    cases d with
    | true =>
      rw [if_pos rfl]
      rcases hs with ⟨h1, h2⟩ | ⟨hh, -⟩
      · refine List.mem_append.2 (.inl (List.mem_map.2 ⟨(v.uid, c.lrank v, c.net.g.dict e.2), List.mem_map.2 ⟨e, List.mem_filter.2 ⟨hee, by simpa using h1⟩, by rw [h2]⟩, rfl⟩))
      · cases hh
    | false =>
      rw [if_neg (by simp)]
      by_cases h0 : e.1.1 = u
      · have h2 : e.1.2 = v := by
          rcases hs with ⟨h1, h2⟩ | ⟨-, h1, h2⟩
          · exact h2
          · rw [h2, ← h0, h1]
        refine List.mem_append.2 (.inl (List.mem_map.2 ⟨(v.uid, c.lrank v, c.net.g.dict e.2), List.mem_map.2 ⟨e, List.mem_filterMap.2 ⟨e, hee, if_pos h0⟩, by rw [h2]⟩, rfl⟩))
      · rcases hs with ⟨h1, -⟩ | ⟨-, h1, h2⟩
        · exact absurd h1 h0
        · refine List.mem_append.2 (.inl (List.mem_map.2 ⟨(v.uid, c.lrank v, c.net.g.dict e.2), List.mem_map.2 ⟨((u, e.1.1), e.2), List.mem_filterMap.2 ⟨e, hee, ?_⟩, by rw [h1]⟩, rfl⟩))
          rw [if_neg h0, if_pos h2]
  · intro x y a hd' he hy
    subst hd'
    obtain ⟨u, v, e, hu, hv, rfl, rfl, hee, hs, rfl⟩ := hedge x y a he
    refine ⟨c.lrank u, List.mem_flatMap.2 ⟨c.saveNode c.net v, List.mem_map_of_mem (List.mem_filter.2 ⟨hv, by simpa using (h.local_iff hv).2 hy⟩), ?_⟩⟩
    unfold Cx.saveNode
    rw [hd, if_pos rfl]
    rcases hs with ⟨h1, h2⟩ | ⟨hh, -⟩
    · refine List.mem_append.2 (.inr (List.mem_map.2 ⟨(u.uid, c.lrank u, c.net.g.dict e.2), List.mem_map.2 ⟨e, List.mem_filter.2 ⟨hee, by simpa using h2⟩, by rw [h1]⟩, rfl⟩))
    · cases hh

/-! ### Edges that are added one by one -/

/-- The edges `ps` of the network with the edges `T`. -/
def fill (d : Bool) (T : Nat → Nat → Option (Attr A)) (ps : List (Nat × Nat)) (x y : Nat) : Option (Attr A) :=
  if ps.any (fun p => decide (SameN d p.1 p.2 x y)) then T x y else none

/-- A rank that has some of the edges. -/
def RV.filled (X : RV S A) (d : Bool) (T : Nat → Nat → Option (Attr A)) (ps new : List (Nat × Nat)) : RV S A := { X with net := { X.net with edge := fill d T ps, new := new } }

theorem fill_add {T : Nat → Nat → Option (Attr A)} (hsym : d = false → ∀ u v, T u v = T v u) (hok : ∀ u v a, T u v = some a → (Dict.keys a).Nodup)
    {ps : List (Nat × Nat)} {u v : Nat} {a : Attr A} (ha : T u v = some a) :
    (fun x y => if SameN d u v x y then some (merge ((fill d T ps x y).getD []) a) else fill d T ps x y) = fill d T (ps ++ [(u, v)]) := by
  funext x y
  have hs : SameN d u v x y → T x y = some a := by
    rintro (⟨rfl, rfl⟩ | ⟨hd, rfl, rfl⟩)
    · exact ha
    · rw [hsym hd]; exact ha
  have hn := hok u v a ha
  unfold fill
  simp only [List.any_append, List.any_cons, List.any_nil, Bool.or_false]
  by_cases h : SameN d u v x y
  · rw [if_pos h, hs h]
    have h1 : merge a a = a := merge_self hn
    have h2 : merge [] a = a := by simpa using merge_new a [] (by simpa using hn)
    cases ps.any (fun p => decide (SameN d p.1 p.2 x y)) <;> simp [h, h1, h2]
  · rw [if_neg h, decide_eq_false h, Bool.or_false]

theorem COk.addFilled {c : Cx S A} (h : COk d Pend.none c) {X : RV S A} {T : Nat → Nat → Option (Attr A)} (hsym : d = false → ∀ u v, T u v = T v u)
    (hok : ∀ u v a, T u v = some a → (Dict.keys a).Nodup) (hX : X.net.rem = []) {ps new : List (Nat × Nat)} (hv : c.v = X.filled d T ps new) {u v : Nat} {a : Attr A} (ha : T u v = some a)
    (hu : X.net.has u = true) (hw : X.net.has v = true) :
    ∃ c' new', c.addEdge 0 u v a = some c' ∧ COk d Pend.none c' ∧ c'.v = X.filled d T (ps ++ [(u, v)]) new' ∧ (X.cross u v = false → new' = new) := by
  obtain ⟨c', e, hc, hv'⟩ := h.addEdge (u := u) (v := v) (by rw [hv]; exact hu) (by rw [hv]; exact hw) a (by rw [hv]; intro p hp; rw [show (X.filled d T ps new).net.rem = X.net.rem from rfl, hX] at hp; cases hp)
  refine ⟨c', if c.v.cross u v then ins c.v.net.new (u, v) else c.v.net.new, e, hc, ?_, ?_⟩
  · rw [hv']
    have := fill_add (d := d) hsym hok (ps := ps) ha
    rw [hv]
    unfold RV.filled
    simp only
    rw [← this]
  · intro hc
    rw [hv]
    rw [show (X.filled d T ps new).cross u v = X.cross u v from rfl, hc]
    rfl

/-! ### What one rank does -/

/-- The other agent is not on the rank. -/
def Item.remote (X : RV S A) (i : Item A) : Bool := (X.loc i.2.2.1).isNone

def Item.ghostEdge (i : Item A) : Bool × Nat × Nat × Attr A := if i.2.1 then (true, i.1, i.2.2.1, i.2.2.2.2) else (false, i.2.2.1, i.1, i.2.2.2.2)

def Item.request (X : RV S A) (m : Dict Nat) (i : Item A) : Dict Nat := if i.remote X then Dict.set m i.2.2.1 i.2.2.2.1 else m

theorem COk.restored {X : RV S A} {T : Nat → Nat → Option (Attr A)} (hsym : d = false → ∀ u v, T u v = T v u)
    (hok : ∀ u v a, T u v = some a → (Dict.keys a).Nodup) (hX : X.net.rem = []) (hg : ∀ u, X.gho u = none) (its : List (Item A)) :
    ∀ (acc : Restoring S A) (ps : List (Nat × Nat)), COk d Pend.none acc.cx → acc.cx.v = X.filled d T ps [] → (∀ i ∈ its, (X.loc i.1).isSome = true ∧ T i.ends.1 i.ends.2 = some i.2.2.2.2) →
      ∃ c', its.foldlM (fun acc (i : Item A) => Restoring.addEdge 0 i.1 i.2.1 acc i.2.2) acc =
          some ⟨c', its.foldl (Item.request X) acc.requests, acc.edges ++ (its.filter (Item.remote X)).map Item.ghostEdge⟩ ∧
        COk d Pend.none c' ∧ c'.v = X.filled d T (ps ++ (its.filter fun i => !i.remote X).map Item.ends) [] := by
  induction its with
  | nil => intro acc ps hc hv _; exact ⟨acc.cx, by simp, hc, by simpa using hv⟩
  | cons i its ih =>
    intro acc ps hc hv hits
    obtain ⟨hi1, hi2⟩ := hits i (by simp)
    have hhas : ∀ u, X.net.has u = (X.loc u).isSome := by
      intro u
      have := hc.has_iff u
      rw [hv] at this
      rw [show (X.filled d T ps []).net.has u = X.net.has u from rfl, show (X.filled d T ps []).loc u = X.loc u from rfl, show (X.filled d T ps []).gho u = X.gho u from rfl, hg] at this
      simpa [Pend.none] using this
    have hloc : (Dict.get acc.cx.locals i.1).isSome = true := by
      have : (acc.cx.v.loc i.1).isSome = true := by rw [hv]; exact hi1
      simpa [Cx.v] using this
    have hfind : acc.cx.find i.2.2.1 = none ↔ i.remote X = true := by
      rw [hc.find_node rfl, ← Option.isNone_iff_eq_none]
      have : (acc.cx.net.node i.2.2.1).isSome = (X.loc i.2.2.1).isSome := by
        rw [← hhas, show (acc.cx.net.node i.2.2.1).isSome = acc.cx.v.net.has i.2.2.1 from rfl, hv]; rfl
      unfold Item.remote
      cases h1 : acc.cx.net.node i.2.2.1 <;> cases h2 : X.loc i.2.2.1 <;> simp_all
    rw [List.foldlM_cons]
    cases hr : i.remote X with
    | true =>
      have e : Restoring.addEdge 0 i.1 i.2.1 acc i.2.2 = some ⟨acc.cx, Dict.set acc.requests i.2.2.1 i.2.2.2.1, acc.edges ++ [i.ghostEdge]⟩ := by
        unfold Restoring.addEdge
        rw [if_pos hloc, hfind.2 hr]; rfl
      rw [e]
      show ∃ c', Option.bind (some _) _ = _ ∧ _
      rw [Option.bind_some]
      obtain ⟨c', e', hc', hv'⟩ := ih ⟨acc.cx, Dict.set acc.requests i.2.2.1 i.2.2.2.1, acc.edges ++ [i.ghostEdge]⟩ ps hc hv (fun j hj => hits j (List.mem_cons_of_mem _ hj))
      refine ⟨c', ?_, hc', ?_⟩
      · rw [e']
        simp only [List.foldl_cons, Item.request, hr, if_true, List.filter_cons, List.map_cons, List.append_assoc, List.singleton_append]
      · rw [hv']; simp [hr]
    | false =>
      have hr' : (X.loc i.2.2.1).isSome = true := by
        unfold Item.remote at hr
        cases h2 : X.loc i.2.2.1 <;> simp_all
      have hends : X.net.has i.ends.1 = true ∧ X.net.has i.ends.2 = true ∧ X.cross i.ends.1 i.ends.2 = false := by
        rw [hhas, hhas]
        unfold Item.ends RV.cross
        cases i.2.1 <;> simp [hi1, hr']
      obtain ⟨c1, new', e1, hc1, hv1, hnew⟩ := hc.addFilled hsym hok hX hv hi2 hends.1 hends.2.1
      rw [hnew hends.2.2] at hv1
      have e : Restoring.addEdge 0 i.1 i.2.1 acc i.2.2 = some ⟨c1, acc.requests, acc.edges⟩ := by
        unfold Restoring.addEdge
        rw [if_pos hloc]
        cases hf : acc.cx.find i.2.2.1 with
        | none => rw [hfind.1 hf] at hr; cases hr
        | some o =>
          simp only
          have : (if i.2.1 = true then acc.cx.addEdge 0 i.1 i.2.2.1 i.2.2.2.2 else acc.cx.addEdge 0 i.2.2.1 i.1 i.2.2.2.2) = some c1 := by
            rw [← e1]; unfold Item.ends; split <;> rfl
          rw [this]; rfl
      rw [e]
      show ∃ c', Option.bind (some _) _ = _ ∧ _
      rw [Option.bind_some]
      obtain ⟨c', e', hc', hv'⟩ := ih ⟨c1, acc.requests, acc.edges⟩ (ps ++ [i.ends]) hc1 hv1 (fun j hj => hits j (List.mem_cons_of_mem _ hj))
      refine ⟨c', ?_, hc', ?_⟩
      · rw [e']; simp [Item.request, hr]
      · rw [hv']; simp [hr]

/-- The edges to ghosts. -/
theorem COk.ghostEdges {X : RV S A} {T : Nat → Nat → Option (Attr A)} (hsym : d = false → ∀ u v, T u v = T v u)
    (hok : ∀ u v a, T u v = some a → (Dict.keys a).Nodup) (hX : X.net.rem = []) (requests : Dict Nat) (its : List (Item A)) :
    ∀ (c : Cx S A) (ps new : List (Nat × Nat)), COk d Pend.none c → c.v = X.filled d T ps new →
      (∀ i ∈ its, i.2.1 = true ∧ (X.loc i.1).isSome = true ∧ X.net.has i.1 = true ∧ X.net.has i.2.2.1 = true ∧ (Dict.get requests i.2.2.1).isSome = true ∧ T i.ends.1 i.ends.2 = some i.2.2.2.2) →
      ∃ c' new', (its.map Item.ghostEdge).foldlM (Cx.ghostEdge 0 requests) c = some c' ∧ COk d Pend.none c' ∧ c'.v = X.filled d T (ps ++ its.map Item.ends) new' := by
  induction its with
  | nil => intro c ps new hc hv _; exact ⟨c, new, rfl, hc, by simpa using hv⟩
  | cons i its ih =>
    intro c ps new hc hv hits
    obtain ⟨h1, h2, h3, h4, h5, h6⟩ := hits i (by simp)
    have he : i.ends = (i.1, i.2.2.1) := by unfold Item.ends; rw [h1]; rfl
    rw [he] at h6
    obtain ⟨c1, new1, e1, hc1, hv1, -⟩ := hc.addFilled hsym hok hX hv h6 h3 h4
    obtain ⟨c', new', e', hc', hv'⟩ := ih c1 (ps ++ [(i.1, i.2.2.1)]) new1 hc1 hv1 (fun j hj => hits j (List.mem_cons_of_mem _ hj))
    refine ⟨c', new', ?_, hc', by rw [hv']; simp [he]⟩
    have hloc : (Dict.get c.locals i.1).isSome = true := by
      have : (c.v.loc i.1).isSome = true := by rw [hv]; exact h2
      simpa [Cx.v] using this
    have e : Cx.ghostEdge 0 requests c i.ghostEdge = some c1 := by
      unfold Cx.ghostEdge Item.ghostEdge
      rw [h1]
      simp only [if_true, h5, hloc, Bool.and_self]
      exact e1
    rw [List.map_cons, List.foldlM_cons, e]
    exact e'

end Repast.Network
