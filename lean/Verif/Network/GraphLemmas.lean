import Verif.Network.Graph

/-! Lemmas about the graphs of networkx. -/
namespace Repast.Network
open Repast.Dict

variable {A : Type}

/-- What holds of every graph object. -/
structure Graph.Inv (g : Graph A) : Prop where
  nodes : g.nodes.Nodup
  keys : Assoc.Ok g.edges
  ends : ∀ k ∈ Assoc.keys g.edges, k.1 ∈ g.nodes ∧ k.2 ∈ g.nodes
  single : g.directed = false → ∀ u v, u ≠ v → (u, v) ∈ Assoc.keys g.edges → (v, u) ∉ Assoc.keys g.edges
  slots : (g.edges.map (·.2)).Nodup
  bound : ∀ e ∈ g.edges, e.2 < g.dicts.length

/-- The same edge: both orientations are the same in an undirected graph. -/
def Same (directed : Bool) (a b u v : Obj) : Prop := a = u ∧ b = v ∨ directed = false ∧ a = v ∧ b = u

instance (d : Bool) (a b u v : Obj) : Decidable (Same d a b u v) := by unfold Same; infer_instance

theorem Same.symm {d : Bool} {a b u v : Obj} (h : Same d a b u v) : Same d u v a b := by
  unfold Same at *; grind

theorem isEntry_iff (d : Bool) (u v : Obj) (k : EKey) : Graph.isEntry d u v k = true ↔ Same d k.1 k.2 u v := by
  unfold Graph.isEntry Same
  obtain ⟨a, b⟩ := k
  cases d <;> simp

theorem Graph.Inv.empty (d : Bool) : (Graph.empty d : Graph A).Inv :=
  ⟨List.nodup_nil, List.nodup_nil, by simp [Graph.empty, Assoc.keys], by simp [Graph.empty, Assoc.keys], List.nodup_nil, by simp [Graph.empty]⟩

/-- The edge's entry. -/
theorem slot_iff {g : Graph A} (h : g.Inv) (u v : Obj) (i : Nat) : g.slot u v = some i ↔ ∃ k, (k, i) ∈ g.edges ∧ Same g.directed k.1 k.2 u v := by
  unfold Graph.slot
  constructor
  · intro hs
    split at hs
    · rename_i j hj
      simp only [Option.some.injEq] at hs
      subst hs
      exact ⟨(u, v), Assoc.mem_of_get hj, .inl ⟨rfl, rfl⟩⟩
    · split at hs
      · cases hs
      · rename_i hd
        exact ⟨(v, u), Assoc.mem_of_get hs, .inr ⟨by simpa using hd, rfl, rfl⟩⟩
  · rintro ⟨⟨a, b⟩, hm, hs⟩
    have hg := Assoc.get_of_mem h.keys hm
    rcases hs with ⟨h1, h2⟩ | ⟨hd, h1, h2⟩
    · simp only at h1 h2
      subst h1 h2
      rw [hg]
    · simp only at h1 h2
      subst h1 h2
      by_cases hab : a = b
      · subst hab; rw [hg]
      · have hmem : (a, b) ∈ Assoc.keys g.edges := List.mem_map.2 ⟨_, hm, rfl⟩
        have hno := h.single hd a b hab hmem
        have : Assoc.get g.edges (b, a) = none := by
          cases hb : Assoc.get g.edges (b, a) with
          | none => rfl
          | some j => exact absurd ((Assoc.get_isSome _ _).1 (by simp [hb])) hno
        rw [this, hd]
        simpa using hg

theorem slot_none_iff {g : Graph A} (h : g.Inv) (u v : Obj) : g.slot u v = none ↔ ∀ k ∈ Assoc.keys g.edges, ¬ Same g.directed k.1 k.2 u v := by
  constructor
  · intro hn k hk hs
    obtain ⟨⟨k', i⟩, hm, rfl⟩ := List.mem_map.1 hk
    have := (slot_iff h u v i).2 ⟨k', hm, hs⟩
    rw [hn] at this; cases this
  · intro hn
    cases hs : g.slot u v with
    | none => rfl
    | some i =>
      obtain ⟨k, hm, hk⟩ := (slot_iff h u v i).1 hs
      exact absurd hk (hn k (List.mem_map.2 ⟨_, hm, rfl⟩))

theorem slot_lt {g : Graph A} (h : g.Inv) {u v : Obj} {i : Nat} (hs : g.slot u v = some i) : i < g.dicts.length := by
  obtain ⟨k, hm, -⟩ := (slot_iff h u v i).1 hs
  exact h.bound _ hm

theorem slot_ends {g : Graph A} (h : g.Inv) {u v : Obj} {i : Nat} (hs : g.slot u v = some i) : u ∈ g.nodes ∧ v ∈ g.nodes := by
  obtain ⟨k, hm, hk⟩ := (slot_iff h u v i).1 hs
  have := h.ends k (List.mem_map.2 ⟨_, hm, rfl⟩)
  rcases hk with ⟨h1, h2⟩ | ⟨-, h1, h2⟩
  · exact ⟨h1 ▸ this.1, h2 ▸ this.2⟩
  · exact ⟨h2 ▸ this.2, h1 ▸ this.1⟩

theorem nodup_map_inj {α β : Type} {f : α → β} {l : List α} (h : (l.map f).Nodup) {a b : α} (ha : a ∈ l) (hb : b ∈ l) (e : f a = f b) : a = b := by
  induction l with
  | nil => cases ha
  | cons x l ih =>
    rw [List.map_cons, List.nodup_cons] at h
    rcases List.mem_cons.1 ha with h1 | h1 <;> rcases List.mem_cons.1 hb with h2 | h2
    · rw [h1, h2]
    · exact (h.1 (List.mem_map.2 ⟨b, h2, by rw [← h1, e]⟩)).elim
    · exact (h.1 (List.mem_map.2 ⟨a, h1, by rw [← h2, e]⟩)).elim
    · exact ih h.2 h1 h2

/-- Different edges have different dictionaries. -/
theorem slot_inj {g : Graph A} (h : g.Inv) {u v a b : Obj} {i : Nat} (h1 : g.slot u v = some i) (h2 : g.slot a b = some i) : Same g.directed a b u v := by
  obtain ⟨k, hm, hk⟩ := (slot_iff h u v i).1 h1
  obtain ⟨k', hm', hk'⟩ := (slot_iff h a b i).1 h2
  have := nodup_map_inj h.slots hm hm' rfl
  simp only [Prod.mk.injEq, and_true] at this
  subst this
  unfold Same at *
  grind

theorem slot_same {g : Graph A} (h : g.Inv) {u v a b : Obj} (hs : Same g.directed a b u v) : g.slot u v = g.slot a b := by
  cases h1 : g.slot a b with
  | none =>
    rw [slot_none_iff h] at h1 ⊢
    intro k hk hk'
    refine h1 k hk ?_
    unfold Same at *; grind
  | some i =>
    rw [slot_iff h] at h1 ⊢
    obtain ⟨k, hm, hk⟩ := h1
    exact ⟨k, hm, by unfold Same at *; grind⟩

/-! ### Adding nodes -/

theorem Graph.Inv.addNode {g : Graph A} (h : g.Inv) (u : Obj) : (g.addNode u).Inv := by
  unfold Graph.addNode
  split
  · exact h
  · rename_i hu
    refine ⟨?_, h.keys, ?_, h.single, h.slots, h.bound⟩
    · rw [List.nodup_append]
      exact ⟨h.nodes, by simp, fun a ha b hb => by simp only [List.mem_singleton] at hb; rintro rfl; exact hu (hb ▸ ha)⟩
    · intro k hk
      have := h.ends k hk
      simp [this.1, this.2]

theorem addNode_edges (g : Graph A) (u : Obj) : (g.addNode u).edges = g.edges ∧ (g.addNode u).dicts = g.dicts ∧ (g.addNode u).directed = g.directed := by
  unfold Graph.addNode; split <;> simp

theorem mem_addNode (g : Graph A) (u x : Obj) : x ∈ (g.addNode u).nodes ↔ x ∈ g.nodes ∨ x = u := by
  unfold Graph.addNode
  split
  · rename_i h
    constructor
    · exact .inl
    · rintro (h2 | rfl) <;> assumption
  · simp

theorem slot_addNode (g : Graph A) (x u v : Obj) : (g.addNode x).slot u v = g.slot u v := by
  unfold Graph.slot
  rw [(addNode_edges g x).1, (addNode_edges g x).2.2]

theorem attr_addNode (g : Graph A) (x u v : Obj) : (g.addNode x).attr u v = g.attr u v := by
  unfold Graph.attr
  rw [slot_addNode]
  unfold Graph.dict
  rw [(addNode_edges g x).2.1]

/-! ### Changing the dictionary of an edge -/

/-- The dictionary of an edge is updated. -/
def Graph.modify (g : Graph A) (i : Nat) (at_ : Attr A) : Graph A := { g with dicts := g.dicts.modify i (fun a => merge a at_) }

theorem Graph.Inv.modify {g : Graph A} (h : g.Inv) (i : Nat) (at_ : Attr A) : (g.modify i at_).Inv :=
  ⟨h.nodes, h.keys, h.ends, h.single, h.slots, by simpa [Graph.modify] using h.bound⟩

theorem dict_modify (g : Graph A) (i j : Nat) (at_ : Attr A) (hj : j < g.dicts.length) :
    (g.modify i at_).dict j = if i = j then merge (g.dict j) at_ else g.dict j := by
  unfold Graph.dict Graph.modify
  simp only [List.getElem?_modify]
  rw [List.getElem?_eq_getElem hj]
  by_cases h : i = j <;> simp [h]

theorem attr_modify {g : Graph A} (h : g.Inv) {a b : Obj} {i : Nat} (hs : g.slot a b = some i) (at_ : Attr A) (u v : Obj) :
    (g.modify i at_).attr u v = if Same g.directed a b u v then some (merge ((g.attr u v).getD []) at_) else g.attr u v := by
  have hsl : ∀ u v, (g.modify i at_).slot u v = g.slot u v := fun _ _ => rfl
  unfold Graph.attr
  rw [hsl]
  cases h1 : g.slot u v with
  | none =>
    rw [if_neg]
    · rfl
    · intro hc
      rw [slot_same h hc, hs] at h1
      cases h1
  | some j =>
    simp only [Option.map_some, Option.getD_some]
    rw [dict_modify _ _ _ _ (slot_lt h h1)]
    by_cases hij : i = j
    · subst hij
      rw [if_pos rfl, if_pos (slot_inj h h1 hs)]
    · rw [if_neg hij, if_neg]
      intro hc
      rw [slot_same h hc, hs] at h1
      simp only [Option.some.injEq] at h1
      exact hij h1

/-! ### Adding edges -/

theorem Graph.addEdge_def (g : Graph A) (u v : Obj) (at_ : Attr A) : g.addEdge u v at_ =
    match g.slot u v with
    | some i => ((g.addNode u).addNode v).modify i at_
    | none => { (g.addNode u).addNode v with edges := g.edges ++ [((u, v), g.dicts.length)], dicts := g.dicts ++ [merge [] at_] } := by
  unfold Graph.addEdge Graph.modify
  simp only [slot_addNode, (addNode_edges _ _).1, (addNode_edges _ _).2.1]
  cases g.slot u v <;> simp

theorem addEdge_directed (g : Graph A) (u v : Obj) (at_ : Attr A) : (g.addEdge u v at_).directed = g.directed := by
  rw [Graph.addEdge_def]
  cases g.slot u v <;> simp [Graph.modify, (addNode_edges _ _).2.2]

theorem mem_addEdge (g : Graph A) (u v x : Obj) (at_ : Attr A) : x ∈ (g.addEdge u v at_).nodes ↔ x ∈ g.nodes ∨ x = u ∨ x = v := by
  rw [Graph.addEdge_def]
  cases g.slot u v <;> simp [Graph.modify, mem_addNode, or_assoc]

theorem Graph.Inv.addEdge {g : Graph A} (h : g.Inv) (u v : Obj) (at_ : Attr A) : (g.addEdge u v at_).Inv := by
  rw [Graph.addEdge_def]
  have h2 := (h.addNode u).addNode v
  cases hs : g.slot u v with
  | some i => exact h2.modify i at_
  | none =>
    have hno := (slot_none_iff h u v).1 hs
    refine ⟨h2.nodes, ?_, ?_, ?_, ?_, ?_⟩
    · simp only [Assoc.Ok, Assoc.keys, List.map_append, List.map_cons, List.map_nil]
      rw [List.nodup_append]
      refine ⟨h.keys, by simp, ?_⟩
      rintro a ha b hb rfl
      simp only [List.mem_singleton] at hb
      subst hb
      exact hno _ ha (.inl ⟨rfl, rfl⟩)
    · intro k hk
      simp only [Assoc.keys, List.map_append, List.map_cons, List.map_nil, List.mem_append, List.mem_singleton] at hk
      simp only [mem_addNode]
      rcases hk with hk | rfl
      · have := h.ends k hk
        exact ⟨.inl (.inl this.1), .inl (.inl this.2)⟩
      · exact ⟨.inl (.inr rfl), .inr rfl⟩
    · intro hd a b hab hk hk'
      have hd' : g.directed = false := by simpa [(addNode_edges _ _).2.2] using hd
      simp only [Assoc.keys, List.map_append, List.map_cons, List.map_nil, List.mem_append, List.mem_singleton, Prod.mk.injEq] at hk hk'
      rcases hk with hk | hk <;> rcases hk' with hk' | hk'
      · exact h.single hd' a b hab hk hk'
      · exact hno _ hk (.inr ⟨hd', hk'.2, hk'.1⟩)
      · exact hno _ hk' (.inr ⟨hd', hk.2, hk.1⟩)
      · exact hab (hk.1.trans hk'.1.symm)
    · simp only [List.map_append, List.map_cons, List.map_nil]
      rw [List.nodup_append]
      refine ⟨h.slots, by simp, ?_⟩
      rintro a ha b hb rfl
      simp only [List.mem_singleton] at hb
      subst hb
      obtain ⟨e, he, hl⟩ := List.mem_map.1 ha
      have := h.bound e he
      omega
    · intro e he
      simp only [List.mem_append, List.mem_singleton, List.length_append, List.length_singleton] at he ⊢
      rcases he with he | rfl
      · have := h.bound e he; omega
      · simp

theorem slot_addEdge {g : Graph A} (h : g.Inv) (a b : Obj) (at_ : Attr A) (u v : Obj) :
    (g.addEdge a b at_).slot u v = if Same g.directed a b u v then some ((g.slot a b).getD g.dicts.length) else g.slot u v := by
  have hI := h.addEdge a b at_
  have hd := addEdge_directed g a b at_
  cases hs : g.slot a b with
  | some i =>
    have : (g.addEdge a b at_).slot u v = g.slot u v := by
      rw [Graph.addEdge_def, hs]
      show (((g.addNode a).addNode b).modify i at_).slot u v = _
      exact (slot_addNode _ _ _ _).trans (slot_addNode _ _ _ _)
    rw [this]
    split
    · rename_i hc
      rw [slot_same h hc, hs]; rfl
    · rfl
  | none =>
    have he : (g.addEdge a b at_).edges = g.edges ++ [((a, b), g.dicts.length)] := by rw [Graph.addEdge_def, hs]
    split
    · rename_i hc
      rw [slot_iff hI, hd, he]
      exact ⟨(a, b), by simp, hc⟩
    · rename_i hc
      cases h1 : g.slot u v with
      | none =>
        rw [slot_none_iff hI, hd, he]
        rw [slot_none_iff h] at h1
        intro k hk
        simp only [Assoc.keys, List.map_append, List.map_cons, List.map_nil, List.mem_append, List.mem_singleton] at hk
        rcases hk with hk | rfl
        · exact h1 k hk
        · exact hc
      | some j =>
        rw [slot_iff hI, hd, he]
        obtain ⟨k, hm, hk⟩ := (slot_iff h u v j).1 h1
        exact ⟨k, List.mem_append_left _ hm, hk⟩

theorem dict_addEdge (g : Graph A) (a b : Obj) (at_ : Attr A) (i : Nat) (hi : i < g.dicts.length) :
    (g.addEdge a b at_).dict i = if g.slot a b = some i then merge (g.dict i) at_ else g.dict i := by
  rw [Graph.addEdge_def]
  cases hs : g.slot a b with
  | some j =>
    show (((g.addNode a).addNode b).modify j at_).dict i = _
    have hl : i < ((g.addNode a).addNode b).dicts.length := by rw [(addNode_edges _ _).2.1, (addNode_edges _ _).2.1]; exact hi
    rw [dict_modify _ _ _ _ hl]
    unfold Graph.dict
    rw [(addNode_edges _ _).2.1, (addNode_edges _ _).2.1]
    simp only [Option.some.injEq]
  | none =>
    simp only [Graph.dict, reduceCtorEq, if_false]
    rw [List.getElem?_append_left hi]

theorem dicts_addEdge_le (g : Graph A) (a b : Obj) (at_ : Attr A) : g.dicts.length ≤ (g.addEdge a b at_).dicts.length := by
  rw [Graph.addEdge_def]
  cases g.slot a b <;> simp [Graph.modify, (addNode_edges _ _).2.1]

theorem attr_addEdge {g : Graph A} (h : g.Inv) (a b : Obj) (at_ : Attr A) (u v : Obj) :
    (g.addEdge a b at_).attr u v = if Same g.directed a b u v then some (merge ((g.attr u v).getD []) at_) else g.attr u v := by
  have hI := h.addEdge a b at_
  cases hs : g.slot a b with
  | some i =>
    have e : (g.addEdge a b at_) = ((g.addNode a).addNode b).modify i at_ := by rw [Graph.addEdge_def, hs]
    have hs' : ((g.addNode a).addNode b).slot a b = some i := by rw [slot_addNode, slot_addNode, hs]
    rw [e, attr_modify ((h.addNode a).addNode b) hs', (addNode_edges _ _).2.2, (addNode_edges _ _).2.2, attr_addNode, attr_addNode]
  | none =>
    unfold Graph.attr
    rw [slot_addEdge h, hs]
    split
    · rename_i hc
      rw [slot_same h hc, hs]
      simp only [Option.getD_none, Option.map_some, Option.map_none]
      unfold Graph.dict
      rw [Graph.addEdge_def, hs]
      simp
    · cases h1 : g.slot u v with
      | none => rfl
      | some j =>
        simp only [Option.map_some, Option.some.injEq]
        rw [dict_addEdge _ _ _ _ _ (slot_lt h h1), if_neg]
        rw [hs]; simp

/-! ### Removing -/

/-- Some of the edges remain. -/
theorem Graph.Inv.filter {g : Graph A} (h : g.Inv) (p : EKey × Nat → Bool) (q : Obj → Bool)
    (hq : ∀ e ∈ g.edges, p e = true → q e.1.1 = true ∧ q e.1.2 = true) :
    ({ g with nodes := g.nodes.filter q, edges := g.edges.filter p } : Graph A).Inv := by
  refine ⟨List.Pairwise.filter _ h.nodes, ?_, ?_, ?_, ?_, ?_⟩
  · exact List.Nodup.sublist (List.Sublist.map _ List.filter_sublist) h.keys
  · intro k hk
    obtain ⟨e, he, rfl⟩ := List.mem_map.1 hk
    rw [List.mem_filter] at he
    have h1 := h.ends _ (List.mem_map.2 ⟨e, he.1, rfl⟩)
    have h2 := hq e he.1 he.2
    simp [List.mem_filter, h1.1, h1.2, h2.1, h2.2]
  · intro hd u v huv hk hk'
    have hsub : ∀ x, x ∈ Assoc.keys (g.edges.filter p) → x ∈ Assoc.keys g.edges := by
      intro x hx
      obtain ⟨e, he, rfl⟩ := List.mem_map.1 hx
      exact List.mem_map.2 ⟨e, (List.mem_filter.1 he).1, rfl⟩
    exact h.single hd u v huv (hsub _ hk) (hsub _ hk')
  · exact List.Nodup.sublist (List.Sublist.map _ List.filter_sublist) h.slots
  · intro e he
    exact h.bound e (List.mem_filter.1 he).1

theorem Graph.Inv.filter' {g : Graph A} (h : g.Inv) (p : EKey × Nat → Bool) : ({ g with edges := g.edges.filter p } : Graph A).Inv := by
  have := h.filter p (fun _ => true) (by simp)
  rwa [List.filter_eq_self.2 (by simp)] at this

theorem slot_filter {g g' : Graph A} (h : g.Inv) (h' : g'.Inv) (hd : g'.directed = g.directed) (p : EKey × Nat → Bool) (he : g'.edges = g.edges.filter p) (u v : Obj)
    (keep : Prop) [Decidable keep] (hp : ∀ e ∈ g.edges, Same g.directed e.1.1 e.1.2 u v → (p e = true ↔ keep)) :
    g'.slot u v = if keep then g.slot u v else none := by
  cases hs : g'.slot u v with
  | some i =>
    rw [slot_iff h', hd, he] at hs
    obtain ⟨k, hm, hk⟩ := hs
    rw [List.mem_filter] at hm
    rw [if_pos ((hp _ hm.1 hk).1 hm.2)]
    exact ((slot_iff h u v i).2 ⟨k, hm.1, hk⟩).symm
  | none =>
    split
    · rename_i hk
      cases hs2 : g.slot u v with
      | none => rfl
      | some i =>
        rw [slot_iff h] at hs2
        obtain ⟨k, hm, hk2⟩ := hs2
        have : g'.slot u v = some i := (slot_iff h' u v i).2 ⟨k, by rw [he, List.mem_filter]; exact ⟨hm, (hp _ hm hk2).2 hk⟩, hd ▸ hk2⟩
        rw [hs] at this; cases this
    · rfl

theorem removeEdge_some {g g' : Graph A} {a b : Obj} (hr : g.removeEdge a b = some g') :
    g.hasEdge a b = true ∧ g' = { g with edges := g.edges.filter fun e => !Graph.isEntry g.directed a b e.1 } := by
  unfold Graph.removeEdge at hr
  split at hr
  · simp only [Option.some.injEq] at hr; exact ⟨by assumption, hr.symm⟩
  · cases hr

theorem Graph.Inv.removeEdge {g g' : Graph A} (h : g.Inv) {a b : Obj} (hr : g.removeEdge a b = some g') : g'.Inv := by
  rw [(removeEdge_some hr).2]; exact h.filter' _

theorem slot_removeEdge {g g' : Graph A} (h : g.Inv) {a b : Obj} (hr : g.removeEdge a b = some g') (u v : Obj) :
    g'.slot u v = if Same g.directed a b u v then none else g.slot u v := by
  have h' := h.removeEdge hr
  have e := (removeEdge_some hr).2
  have := slot_filter (keep := ¬ Same g.directed a b u v) h h' (by rw [e]) (fun e => !Graph.isEntry g.directed a b e.1) (by rw [e]) u v ?_
  · rw [this]; by_cases hc : Same g.directed a b u v <;> simp [hc]
  · intro x hx hs
    rw [Bool.not_eq_true', ← Bool.not_eq_true, isEntry_iff]
    constructor
    · intro h1 h2; apply h1; unfold Same at *; grind
    · intro h1 h2; apply h1; unfold Same at *; grind

theorem attr_of_slot {g g' : Graph A} (hd : g'.dicts = g.dicts) (u v : Obj) (keep : Prop) [Decidable keep]
    (hs : g'.slot u v = if keep then none else g.slot u v) : g'.attr u v = if keep then none else g.attr u v := by
  unfold Graph.attr
  rw [hs]
  split
  · rfl
  · unfold Graph.dict; rw [hd]

theorem attr_removeEdge {g g' : Graph A} (h : g.Inv) {a b : Obj} (hr : g.removeEdge a b = some g') (u v : Obj) :
    g'.attr u v = if Same g.directed a b u v then none else g.attr u v :=
  attr_of_slot (by rw [(removeEdge_some hr).2]) u v _ (slot_removeEdge h hr u v)

theorem removeNode_some {g g' : Graph A} {x : Obj} (hr : g.removeNode x = some g') : x ∈ g.nodes ∧
    g' = { g with nodes := g.nodes.filter (fun y => decide (y ≠ x)), edges := g.edges.filter fun e => decide (e.1.1 ≠ x) && decide (e.1.2 ≠ x) } := by
  unfold Graph.removeNode at hr
  split at hr
  · simp only [Option.some.injEq] at hr; exact ⟨by assumption, hr.symm⟩
  · cases hr

theorem Graph.Inv.removeNode {g g' : Graph A} (h : g.Inv) {x : Obj} (hr : g.removeNode x = some g') : g'.Inv := by
  rw [(removeNode_some hr).2]; exact h.filter _ _ (by simp)

theorem slot_removeNode {g g' : Graph A} (h : g.Inv) {x : Obj} (hr : g.removeNode x = some g') (u v : Obj) :
    g'.slot u v = if x = u ∨ x = v then none else g.slot u v := by
  have h' := h.removeNode hr
  have e := (removeNode_some hr).2
  have := slot_filter (keep := ¬ (x = u ∨ x = v)) h h' (by rw [e]) (fun e => decide (e.1.1 ≠ x) && decide (e.1.2 ≠ x)) (by rw [e]) u v ?_
  · rw [this]; by_cases hc : x = u ∨ x = v <;> simp [hc]
  · intro y hy hs
    unfold Same at hs
    simp only [Bool.and_eq_true, decide_eq_true_eq]
    grind

theorem attr_removeNode {g g' : Graph A} (h : g.Inv) {x : Obj} (hr : g.removeNode x = some g') (u v : Obj) :
    g'.attr u v = if x = u ∨ x = v then none else g.attr u v :=
  attr_of_slot (by rw [(removeNode_some hr).2]) u v _ (slot_removeNode h hr u v)

theorem Graph.Inv.clearEdges {g : Graph A} (h : g.Inv) : g.clearEdges.Inv := by
  have := h.filter' (fun _ => false)
  rw [show g.edges.filter (fun _ => false) = [] by simp] at this
  exact this

theorem attr_clearEdges (g : Graph A) (u v : Obj) : g.clearEdges.attr u v = none := by
  unfold Graph.attr Graph.slot Graph.clearEdges
  cases g.directed <;> simp

theorem hasEdge_iff (g : Graph A) (u v : Obj) : g.hasEdge u v = (g.attr u v).isSome := by simp [Graph.hasEdge, Graph.attr]

theorem removeEdge_isSome (g : Graph A) (u v : Obj) : (g.removeEdge u v).isSome = (g.attr u v).isSome := by
  rw [← hasEdge_iff]
  unfold Graph.removeEdge
  split <;> simp_all

theorem attr_same {g : Graph A} (h : g.Inv) {a b u v : Obj} (hs : Same g.directed a b u v) : g.attr u v = g.attr a b := by
  unfold Graph.attr; rw [slot_same h hs]

end Repast.Network
