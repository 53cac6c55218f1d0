import Verif.Network.RankSend
import Verif.Network.NetWorld

/-! The edges of a node, and removing several edges and nodes. Used for C54. -/
namespace Repast.Network
open Repast.Dict

variable {S A : Type} {d : Bool} {Q : Pend A} {r : Nat} {lr : Obj → Nat} {N : Net A}

theorem entry_slot {g : Graph A} (h : g.Inv) {e : EKey × Nat} (he : e ∈ g.edges) : g.slot e.1.1 e.1.2 = some e.2 :=
  (slot_iff h _ _ _).2 ⟨e.1, he, .inl ⟨rfl, rfl⟩⟩

/-- An edge of the node. -/
theorem edgesOf_mem {g : Graph A} (h : g.Inv) {u : Obj} {es : List (EKey × Nat)} (hes : g.edgesOf u = some es) {e : EKey × Nat} (he : e ∈ es) :
    g.slot e.1.1 e.1.2 = some e.2 ∧ (e.1.1 = u ∨ e.1.2 = u) ∧ (g.directed = false → e.1.1 = u) := by
  unfold Graph.edgesOf at hes
  split at hes
  · simp only [Option.some.injEq] at hes
    subst hes
    split at he
    · rename_i hd
      rcases List.mem_append.1 he with he | he
      · obtain ⟨h1, h2⟩ := List.mem_filter.1 he
        exact ⟨entry_slot h h1, .inl (by simpa using h2), by simp [hd]⟩
      · obtain ⟨h1, h2⟩ := List.mem_filter.1 he
        exact ⟨entry_slot h h1, .inr (by simpa using h2), by simp [hd]⟩
    · rename_i hd
      obtain ⟨e', h1, h2⟩ := List.mem_filterMap.1 he
      split at h2
      · rename_i h3
        simp only [Option.some.injEq] at h2
        subst h2
        exact ⟨entry_slot h h1, .inl h3, fun _ => h3⟩
      · split at h2
        · rename_i h3
          simp only [Option.some.injEq] at h2
          subst h2
          refine ⟨?_, .inl rfl, fun _ => rfl⟩
          rw [slot_same h (a := e'.1.1) (b := e'.1.2) (.inr ⟨by simpa using hd, rfl, h3⟩)]
          exact entry_slot h h1
        · cases h2
  · cases hes

/-- All edges of the node. -/
theorem edgesOf_all {g : Graph A} (h : g.Inv) {u : Obj} {es : List (EKey × Nat)} (hes : g.edgesOf u = some es) {a b : Obj} {i : Nat} (hs : g.slot a b = some i) (hu : a = u ∨ b = u) :
    ∃ e ∈ es, e.2 = i ∧ Same g.directed e.1.1 e.1.2 a b := by
  obtain ⟨k, hk, hsm⟩ := (slot_iff h _ _ _).1 hs
  unfold Graph.edgesOf at hes
  split at hes
  · simp only [Option.some.injEq] at hes
    subst hes
    cases hd : g.directed with
    | true =>
      rw [hd] at hsm
      simp only [if_true]
      have hkk : k = (a, b) := by
        rcases hsm with ⟨e1, e2⟩ | ⟨e, -⟩
        · exact Prod.ext e1 e2
        · cases e
      subst hkk
      refine ⟨((a, b), i), ?_, rfl, .inl ⟨rfl, rfl⟩⟩
      rcases hu with rfl | rfl
      · exact List.mem_append_left _ (List.mem_filter.2 ⟨hk, by simp⟩)
      · exact List.mem_append_right _ (List.mem_filter.2 ⟨hk, by simp⟩)
    | false =>
      rw [hd] at hsm
      simp only [Bool.false_eq_true, if_false]
      by_cases e1 : k.1 = u
      · refine ⟨(k, i), List.mem_filterMap.2 ⟨(k, i), hk, by simp [e1]⟩, rfl, hsm⟩
      · have e2 : k.2 = u := by unfold Same at hsm; grind
        refine ⟨((u, k.1), i), List.mem_filterMap.2 ⟨(k, i), hk, by simp [e1, e2]⟩, rfl, ?_⟩
        unfold Same at hsm ⊢; grind
  · cases hes

theorem nodup_sub {α β : Type} {f : α → β} {l : List α} (hl : (l.map f).Nodup) {p : α → Bool} : ((l.filter p).map f).Nodup := hl.sublist (List.Sublist.map f List.filter_sublist)

theorem filterMap_snd_sublist {α β : Type} (f : α × β → Option (α × β)) (hf : ∀ e e', f e = some e' → e'.2 = e.2) (l : List (α × β)) : ((l.filterMap f).map (·.2)).Sublist (l.map (·.2)) := by
  induction l with
  | nil => exact .slnil
  | cons e l ih =>
    rw [List.filterMap_cons]
    cases hh : f e with
    | none => exact ih.cons _
    | some e' =>
      simp only [List.map_cons]
      rw [hf e e' hh]
      exact ih.cons_cons _

/-- No edge is there twice. -/
theorem edgesOf_nodup {g : Graph A} (h : g.Inv) {u : Obj} {es : List (EKey × Nat)} (hes : g.edgesOf u = some es) (hself : g.slot u u = none) : (es.map (·.2)).Nodup := by
  unfold Graph.edgesOf at hes
  split at hes
  · simp only [Option.some.injEq] at hes
    subst hes
    split
    · rw [List.map_append, List.nodup_append]
      refine ⟨nodup_sub h.slots, nodup_sub h.slots, ?_⟩
      intro a ha b hb hab
      obtain ⟨e, he, rfl⟩ := List.mem_map.1 ha
      obtain ⟨e', he', rfl⟩ := List.mem_map.1 hb
      obtain ⟨h1, h2⟩ := List.mem_filter.1 he
      obtain ⟨h3, h4⟩ := List.mem_filter.1 he'
      have : e = e' := nodup_map_inj h.slots h1 h3 hab
      subst this
      have e1 : e.1.1 = u := by simpa using h2
      have e2 : e.1.2 = u := by simpa using h4
      have := entry_slot h h1
      rw [e1, e2, hself] at this; cases this
    · refine h.slots.sublist (filterMap_snd_sublist _ ?_ _)
      intro e e' he
      split at he
      · simp only [Option.some.injEq] at he; rw [he]
      · split at he
        · simp only [Option.some.injEq] at he; rw [← he]
        · cases he
  · cases hes

/-- A node with one edge. -/
theorem numEdges_one {g : Graph A} (h : g.Inv) {x : Obj} (hx : g.numEdges x = some 1) {a b a' b' : Obj} {i i' : Nat} (hs : g.slot a b = some i) (hs' : g.slot a' b' = some i')
    (ha : a = x ∨ b = x) (ha' : a' = x ∨ b' = x) : i = i' := by
  unfold Graph.numEdges at hx
  obtain ⟨es, hes, hl⟩ := Option.map_eq_some_iff.1 hx
  obtain ⟨e, he, h1, -⟩ := edgesOf_all h hes hs ha
  obtain ⟨e', he', h1', -⟩ := edgesOf_all h hes hs' ha'
  match es, hl with
  | [z], _ =>
    simp only [List.mem_singleton] at he he'
    rw [← h1, ← h1', he, he']

theorem numEdges_some {g : Graph A} {x : Obj} (hx : x ∈ g.nodes) : ∃ k, g.numEdges x = some k := by
  unfold Graph.numEdges Graph.edgesOf; rw [if_pos hx]; exact ⟨_, rfl⟩

/-- A statement about the network for each element of a list. -/
theorem foldM_withNet {X : Type} (f : Net A → X → Option (Net A)) (l : List X) : ∀ {c : Cx S A} {N : Net A}, c.nets = [N] →
    l.foldlM (fun c x => c.withNet 0 (fun N => f N x)) c = (l.foldlM f N).map fun N' => { c with nets := [N'] } := by
  induction l with
  | nil => intro c N h; simp only [List.foldlM_nil, Option.pure_def, Option.map_some]; rw [← h]
  | cons x l ih =>
    intro c N h
    rw [List.foldlM_cons, List.foldlM_cons]
    have : c.withNet 0 (fun N => f N x) = (f N x).map fun N' => { c with nets := [N'] } := by
      unfold Cx.withNet; rw [h]; rfl
    rw [this]
    cases f N x with
    | none => rfl
    | some N' =>
      simp only [Option.map_some, Option.bind_eq_bind, Option.bind_some]
      rw [ih (N := N') rfl]

/-- Edges are removed with their keys (network.py:531-533). -/
theorem removeEdges_ok (l : List EKey) : ∀ (N : Net A), N.g.Inv → (∀ u v, Assoc.get N.keys (u, v) = Assoc.get N.keys (v, u)) →
    (∀ k ∈ l, N.g.hasEdge k.1 k.2 = true ∧ k.1 ≠ k.2 ∧ (N.g.directed = false → (Assoc.get N.keys k).isSome = true)) → l.Pairwise (fun k k' => ¬ Same N.g.directed k.1 k.2 k'.1 k'.2) →
    ∃ g' ks, l.foldlM (fun (N : Net A) k => (N.g.removeEdge k.1 k.2).bind fun g => ({ N with g := g } : Net A).removeKey k.1 k.2) N = some { N with g := g', keys := ks } ∧
      g'.Inv ∧ g'.directed = N.g.directed ∧ g'.nodes = N.g.nodes ∧ g'.dicts = N.g.dicts ∧
      (∀ a b, g'.slot a b = if ∃ k ∈ l, Same N.g.directed k.1 k.2 a b then none else N.g.slot a b) ∧
      (∀ u v, Assoc.get ks (u, v) = Assoc.get ks (v, u)) ∧
      (∀ k, Assoc.get ks k = none ∨ Assoc.get ks k = Assoc.get N.keys k) ∧
      (∀ a b, (∀ k ∈ l, ¬ Same N.g.directed k.1 k.2 a b) → Assoc.get ks (a, b) = Assoc.get N.keys (a, b)) := by
  induction l with
  | nil => intro N h1 h2 _ _; exact ⟨N.g, N.keys, rfl, h1, rfl, rfl, rfl, by simp, h2, fun _ => .inr rfl, fun _ _ _ => rfl⟩
  | cons k l ih =>
    intro N h1 h2 h3 h4
    obtain ⟨hk1, hk2, hk3⟩ := h3 k List.mem_cons_self
    obtain ⟨g, hg⟩ : ∃ g, N.g.removeEdge k.1 k.2 = some g := Option.isSome_iff_exists.1 (by rw [removeEdge_isSome, ← hasEdge_iff]; exact hk1)
    have hge := (removeEdge_some hg).2
    have hdg : g.directed = N.g.directed := by rw [hge]
    obtain ⟨ks, hk, hks⟩ := removeKey_ok (N := { N with g := g }) (fun _ => h2) (u := k.1) (v := k.2) (fun hd => hk3 (by rw [← hdg]; exact hd)) (.inr hk2)
    have hsl := slot_removeEdge h1 hg
    rw [List.pairwise_cons] at h4
    have hsym : ∀ u v, Assoc.get ks (u, v) = Assoc.get ks (v, u) := by
      intro u v
      rw [hks, hks]
      have : ((u, v) = (k.1, k.2) ∨ (u, v) = (k.2, k.1)) ↔ ((v, u) = (k.1, k.2) ∨ (v, u) = (k.2, k.1)) := by simp only [Prod.mk.injEq]; grind
      simp only [this]
      rw [h2 u v]
    obtain ⟨g', ks', e1, e2, e3, e4, e5, e6, e7, e8, e9⟩ := ih { N with g := g, keys := ks } (h1.removeEdge hg) hsym (by
      intro k' hk'
      obtain ⟨q1, q2, q3⟩ := h3 k' (List.mem_cons_of_mem _ hk')
      have hns := h4.1 k' hk'
      refine ⟨?_, q2, ?_⟩
      · show (g.slot k'.1 k'.2).isSome = true
        rw [hsl, if_neg hns]; exact q1
      · intro hd
        have hd : g.directed = false := hd
        have hd' : N.g.directed = false := by rw [← hdg]; exact hd
        show (Assoc.get ks k').isSome = true
        rw [hks, if_neg]
        · exact q3 hd'
        · rintro ⟨-, e | e⟩
          · exact hns (.inl ⟨by rw [e], by rw [e]⟩)
          · exact hns (.inr ⟨hd', by rw [e], by rw [e]⟩)) (by
      show l.Pairwise (fun k k' => ¬ Same g.directed k.1 k.2 k'.1 k'.2)
      rw [hdg]; exact h4.2)
    have e6 : ∀ a b, g'.slot a b = if ∃ k ∈ l, Same g.directed k.1 k.2 a b then none else g.slot a b := e6
    have e9 : ∀ a b, (∀ k ∈ l, ¬ Same g.directed k.1 k.2 a b) → Assoc.get ks' (a, b) = Assoc.get ks (a, b) := e9
    refine ⟨g', ks', ?_, e2, e3.trans hdg, e4.trans (by rw [hge]), e5.trans (by rw [hge]), ?_, e7, ?_, ?_⟩
    · rw [List.foldlM_cons, hg]
      simp only [Option.bind_some]
      rw [hk]
      exact e1
    · intro a b
      rw [e6, hdg, hsl]
      by_cases c1 : Same N.g.directed k.1 k.2 a b
      · have c2 : ∃ k' ∈ k :: l, Same N.g.directed k'.1 k'.2 a b := ⟨k, List.mem_cons_self, c1⟩
        rw [if_pos c1, if_pos c2]; split <;> rfl
      · rw [if_neg c1]
        have : (∃ k' ∈ k :: l, Same N.g.directed k'.1 k'.2 a b) ↔ ∃ k' ∈ l, Same N.g.directed k'.1 k'.2 a b := by
          constructor
          · rintro ⟨k', hk', hs⟩
            rcases List.mem_cons.1 hk' with rfl | hk'
            · exact absurd hs c1
            · exact ⟨k', hk', hs⟩
          · rintro ⟨k', hk', hs⟩; exact ⟨k', List.mem_cons_of_mem _ hk', hs⟩
        simp only [this]
    · intro j
      have e8 : Assoc.get ks' j = none ∨ Assoc.get ks' j = Assoc.get ks j := e8 j
      rcases e8 with e8 | e8
      · exact .inl e8
      · rw [e8, hks]; split
        · exact .inl rfl
        · exact .inr rfl
    · intro a b hab
      rw [e9 a b (fun k' hk' => by rw [hdg]; exact hab k' (List.mem_cons_of_mem _ hk')), hks, if_neg]
      rintro ⟨hd, e | e⟩
      · simp only [Prod.mk.injEq] at e
        exact hab k List.mem_cons_self (.inl ⟨e.1.symm, e.2.symm⟩)
      · simp only [Prod.mk.injEq] at e
        exact hab k List.mem_cons_self (.inr ⟨by rw [← hdg]; exact hd, e.2.symm, e.1.symm⟩)

/-- Nodes are removed (network.py:535-536). -/
theorem removeNodes_ok (l : List Obj) : ∀ (N : Net A), N.g.Inv → (∀ x ∈ l, x ∈ N.g.nodes) → l.Nodup →
    ∃ g', l.foldlM (fun (N : Net A) u => N.remove u) N = some { N with g := g' } ∧
      g'.Inv ∧ g'.directed = N.g.directed ∧ (∀ x, x ∈ g'.nodes ↔ x ∈ N.g.nodes ∧ x ∉ l) ∧ g'.dicts = N.g.dicts ∧
      (∀ a b, g'.slot a b = if a ∈ l ∨ b ∈ l then none else N.g.slot a b) := by
  induction l with
  | nil => intro N h1 _ _; exact ⟨N.g, rfl, h1, rfl, by simp, rfl, by simp⟩
  | cons x l ih =>
    intro N h1 h2 h3
    rw [List.nodup_cons] at h3
    obtain ⟨g, hg⟩ : ∃ g, N.g.removeNode x = some g := by unfold Graph.removeNode; rw [if_pos (h2 x List.mem_cons_self)]; exact ⟨_, rfl⟩
    have hge := (removeNode_some hg).2
    have hn : ∀ y, y ∈ g.nodes ↔ y ∈ N.g.nodes ∧ y ≠ x := by intro y; rw [hge]; simp
    obtain ⟨g', e1, e2, e3, e4, e5, e6⟩ := ih { N with g := g } (h1.removeNode hg) (by
      intro y hy
      exact (hn y).2 ⟨h2 y (List.mem_cons_of_mem _ hy), by rintro rfl; exact h3.1 hy⟩) h3.2
    have e4 : ∀ y, y ∈ g'.nodes ↔ y ∈ g.nodes ∧ y ∉ l := e4
    have e6 : ∀ a b, g'.slot a b = if a ∈ l ∨ b ∈ l then none else g.slot a b := e6
    refine ⟨g', ?_, e2, e3.trans (by rw [hge]), ?_, e5.trans (by rw [hge]), ?_⟩
    · rw [List.foldlM_cons]
      unfold Net.remove
      rw [hg]
      exact e1
    · intro y; rw [e4, hn]; simp only [List.mem_cons, not_or]; grind
    · intro a b
      rw [e6, slot_removeNode h1 hg]
      simp only [List.mem_cons]
      grind

end Repast.Network
