import Verif.Network.NetProps

/-!
Agents that are removed, in contexts with a network. After `context.remove(agent)` the other ranks have the ghosts of the agent, with their nodes and edges, until the next
`synchronize`; `ghosted_edges` and `canonical_edge_keys` keep the edges of the agent for ever. `clean` is the context without all of this; the operations on other agents do
the same on a context and its clean version, and do not touch the rest.
-/
namespace Repast.Assoc
variable {κ α : Type} [DecidableEq κ]

theorem get_filter (d : Assoc κ α) (p : κ → Bool) {k : κ} (hk : p k = true) : get (d.filter fun e => p e.1) k = get d k := by
  induction d with
  | nil => rfl
  | cons e d ih =>
    rw [List.filter_cons]
    by_cases he : e.1 = k
    · rw [if_pos (by rw [he]; exact hk), get_cons, get_cons, if_pos he, if_pos he]
    · split
      · rw [get_cons, get_cons, if_neg he, if_neg he, ih]
      · rw [get_cons, if_neg he, ih]

theorem get_filter_neg (d : Assoc κ α) (p : κ → Bool) {k : κ} (hk : p k = false) : get (d.filter fun e => p e.1) k = none := by
  induction d with
  | nil => rfl
  | cons e d ih =>
    rw [List.filter_cons]
    split
    · rename_i h
      have : e.1 ≠ k := by intro he; rw [he, hk] at h; cases h
      rw [get_cons, if_neg this, ih]
    · exact ih

theorem set_filter (d : Assoc κ α) (p : κ → Bool) {k : κ} (hk : p k = true) (v : α) : (set d k v).filter (fun e => p e.1) = set (d.filter fun e => p e.1) k v := by
  induction d with
  | nil => simp [set, hk]
  | cons e d ih =>
    show (if e.1 = k then (k, v) :: d else e :: set d k v).filter _ = _
    by_cases he : e.1 = k
    · rw [if_pos he, List.filter_cons, if_pos hk, List.filter_cons, if_pos (by rw [he]; exact hk)]
      show _ = if e.1 = k then _ else _
      rw [if_pos he]
    · rw [if_neg he, List.filter_cons, List.filter_cons]
      split
      · show _ = if e.1 = k then _ else _
        rw [if_neg he, ih]
      · exact ih

theorem set_filter_neg (d : Assoc κ α) (p : κ → Bool) {k : κ} (hk : p k = false) (v : α) : (set d k v).filter (fun e => p e.1) = d.filter fun e => p e.1 := by
  induction d with
  | nil => simp [set, hk]
  | cons e d ih =>
    unfold set
    by_cases he : e.1 = k
    · rw [if_pos he, List.filter_cons, if_neg (by simp [hk]), List.filter_cons, if_neg (by rw [he]; simp [hk])]
    · rw [if_neg he, List.filter_cons, List.filter_cons, ih]

theorem del_filter (d : Assoc κ α) (p : κ → Bool) (k : κ) : (del d k).filter (fun e => p e.1) = del (d.filter fun e => p e.1) k := by
  unfold del
  rw [List.filter_filter, List.filter_filter]
  refine List.filter_congr fun e _ => Bool.and_comm _ _

theorem keys_filter (d : Assoc κ α) (p : κ → Bool) : keys (d.filter fun e => p e.1) = (keys d).filter p := by
  unfold keys
  rw [List.filter_map]; rfl

end Repast.Assoc

namespace Repast.Dict
variable {α : Type}

theorem get_filter (d : Dict α) (p : Nat → Bool) {k : Nat} (hk : p k = true) : get (d.filter fun e => p e.1) k = get d k := by
  induction d with
  | nil => rfl
  | cons e d ih =>
    rw [List.filter_cons]
    by_cases he : e.1 = k
    · rw [if_pos (by rw [he]; exact hk), get_cons, get_cons, if_pos he, if_pos he]
    · split
      · rw [get_cons, get_cons, if_neg he, if_neg he, ih]
      · rw [get_cons, if_neg he, ih]

theorem get_filter_neg (d : Dict α) (p : Nat → Bool) {k : Nat} (hk : p k = false) : get (d.filter fun e => p e.1) k = none := by
  induction d with
  | nil => rfl
  | cons e d ih =>
    rw [List.filter_cons]
    split
    · rename_i h
      have : e.1 ≠ k := by intro he; rw [he, hk] at h; cases h
      rw [get_cons, if_neg this, ih]
    · exact ih

theorem set_filter (d : Dict α) (p : Nat → Bool) {k : Nat} (hk : p k = true) (v : α) : (set d k v).filter (fun e => p e.1) = set (d.filter fun e => p e.1) k v := by
  induction d with
  | nil => simp [set, hk]
  | cons e d ih =>
    show (if e.1 = k then (k, v) :: d else e :: set d k v).filter _ = _
    by_cases he : e.1 = k
    · rw [if_pos he, List.filter_cons, if_pos hk, List.filter_cons, if_pos (by rw [he]; exact hk)]
      show _ = if e.1 = k then _ else _
      rw [if_pos he]
    · rw [if_neg he, List.filter_cons, List.filter_cons]
      split
      · show _ = if e.1 = k then _ else _
        rw [if_neg he, ih]
      · exact ih

theorem set_filter_neg (d : Dict α) (p : Nat → Bool) {k : Nat} (hk : p k = false) (v : α) : (set d k v).filter (fun e => p e.1) = d.filter fun e => p e.1 := by
  induction d with
  | nil => simp [set, hk]
  | cons e d ih =>
    unfold set
    by_cases he : e.1 = k
    · rw [if_pos he, List.filter_cons, if_neg (by simp [hk]), List.filter_cons, if_neg (by rw [he]; simp [hk])]
    · rw [if_neg he, List.filter_cons, List.filter_cons, ih]

theorem del_filter (d : Dict α) (p : Nat → Bool) (k : Nat) : (del d k).filter (fun e => p e.1) = del (d.filter fun e => p e.1) k := by
  unfold del
  rw [List.filter_filter, List.filter_filter]
  refine List.filter_congr fun e _ => Bool.and_comm _ _

theorem del_none (d : Dict α) {k : Nat} (h : get d k = none) : del d k = d := by
  unfold del
  rw [List.filter_eq_self]
  intro e he
  rw [get_eq_none] at h
  have : e.1 ≠ k := by rintro rfl; exact h (List.mem_map_of_mem he)
  simp [this]

end Repast.Dict

namespace Repast.Network
open Repast.Dict

variable {S A : Type} (D : Nat → Bool)

/-- The edge has no dead end. -/
def liveK (k : EKey) : Bool := !D k.1.uid && !D k.2.uid

/-- Without the dead agents. -/
def Graph.clean (g : Graph A) : Graph A := { g with nodes := g.nodes.filter (fun o => !D o.uid), edges := g.edges.filter fun e => liveK D e.1 }

/-- Without the edges of dead agents in `canonical_edge_keys` and `ghosted_edges`. -/
def Net.scrub (N : Net A) : Net A := { N with keys := N.keys.filter (fun e => liveK D e.1), ghosted := N.ghosted.filter fun e => liveK D e.1 }

def Net.clean (N : Net A) : Net A := { N.scrub D with g := N.g.clean D }

def Cx.clean (c : Cx S A) : Cx S A := { c with ghosts := c.ghosts.filter (fun e => !D e.1), removed := [], nets := c.nets.map (Net.clean D) }

/-- What a rank has of dead agents. -/
structure Corpse (S : Type) where
  removed : List (Nat × Dict Int)
  ghosts : Dict (Gh S)
  nets : List (List Obj × List (EKey × Nat))

def Graph.dead (g : Graph A) : List Obj × List (EKey × Nat) := (g.nodes.filter (fun o => D o.uid), g.edges.filter fun e => !liveK D e.1)

def Cx.dead (c : Cx S A) : Corpse S := ⟨c.removed, c.ghosts.filter (fun e => D e.1), c.nets.map fun N => N.g.dead D⟩

variable {D}

theorem liveK_iff {k : EKey} : liveK D k = true ↔ D k.1.uid = false ∧ D k.2.uid = false := by simp [liveK]
theorem liveK_mk {u v : Obj} (hu : D u.uid = false) (hv : D v.uid = false) : liveK D (u, v) = true := liveK_iff.2 ⟨hu, hv⟩

/-! ### Graphs -/

theorem clean_addNode (g : Graph A) {u : Obj} (hu : D u.uid = false) : (g.addNode u).clean D = (g.clean D).addNode u ∧ (g.addNode u).dead D = g.dead D := by
  unfold Graph.addNode Graph.clean Graph.dead
  have : u ∈ g.nodes.filter (fun o => !D o.uid) ↔ u ∈ g.nodes := by simp [hu]
  by_cases h : u ∈ g.nodes
  · simp [h, this.2 h]
  · simp [h, this, List.filter_append, hu]

theorem clean_slot (g : Graph A) {u v : Obj} (hu : D u.uid = false) (hv : D v.uid = false) : (g.clean D).slot u v = g.slot u v := by
  unfold Graph.slot Graph.clean
  simp only [Assoc.get_filter _ (liveK D) (liveK_mk hu hv), Assoc.get_filter _ (liveK D) (liveK_mk hv hu)]

theorem clean_addEdge (g : Graph A) {u v : Obj} (hu : D u.uid = false) (hv : D v.uid = false) (a : Attr A) :
    (g.addEdge u v a).clean D = (g.clean D).addEdge u v a ∧ (g.addEdge u v a).dead D = g.dead D := by
  have e1 := clean_addNode (D := D) (g.addNode u) hv
  have e2 := clean_addNode (D := D) g hu
  rw [Graph.addEdge_def, Graph.addEdge_def, ← e2.1, ← e1.1, clean_slot _ hu hv]
  have hd : ((g.addNode u).addNode v).dead D = g.dead D := by rw [e1.2, e2.2]
  have hn : (((g.addNode u).addNode v).dead D).1 = (g.dead D).1 := by rw [hd]
  have hl := liveK_mk hu hv
  cases hs : g.slot u v with
  | some i => exact ⟨rfl, hd⟩
  | none =>
    refine ⟨?_, Prod.ext hn ?_⟩
    · show (Graph.mk _ _ ((g.edges ++ [((u, v), g.dicts.length)]).filter _) _ : Graph A) = Graph.mk _ _ (g.edges.filter _ ++ _) _
      rw [List.filter_append]
      simp only [List.filter_cons, List.filter_nil, hl, if_true]
      rfl
    · show (g.edges ++ [((u, v), g.dicts.length)]).filter _ = g.edges.filter _
      simp [List.filter_append, hl]

theorem clean_removeEdge (g : Graph A) {u v : Obj} (hu : D u.uid = false) (hv : D v.uid = false) :
    (g.clean D).removeEdge u v = (g.removeEdge u v).map (Graph.clean D) ∧ ∀ g', g.removeEdge u v = some g' → g'.dead D = g.dead D := by
  unfold Graph.removeEdge Graph.hasEdge
  rw [clean_slot _ hu hv]
  have key : ∀ k : EKey, liveK D k = false → Graph.isEntry g.directed u v k = false := by
    intro k hk
    cases h : Graph.isEntry g.directed u v k with
    | false => rfl
    | true =>
      rw [isEntry_iff] at h
      rcases h with ⟨h1, h2⟩ | ⟨-, h1, h2⟩ <;> simp [liveK, h1, h2, hu, hv] at hk
  split
  · refine ⟨?_, ?_⟩
    · simp only [Option.map_some, Graph.clean, List.filter_filter, Bool.and_comm]
    · rintro g' h
      cases h
      simp only [Graph.dead, List.filter_filter]
      congr 1
      refine List.filter_congr fun e _ => ?_
      cases hk : liveK D e.1 <;> simp [key _, hk]
  · simp

/-! ### Networks -/

/-- The fields that are not of the graph. -/
theorem clean_edgeKey (N : Net A) {k : EKey} (hk : liveK D k = true) : (N.clean D).edgeKey k = N.edgeKey k := by
  unfold Net.edgeKey Net.clean Net.scrub Graph.clean
  simp only [Assoc.get_filter _ (liveK D) hk]

theorem liveK_swap {k : EKey} (hk : liveK D k = true) : liveK D (k.2, k.1) = true := by
  rw [liveK_iff] at *; exact ⟨hk.2, hk.1⟩

/-- The canonical key of a live edge is live. -/
theorem edgeKey_live {N : Net A} (h : KeysOk (N.clean D)) {k key : EKey} (hk : liveK D k = true) (he : N.edgeKey k = some key) : liveK D key = true := by
  rw [← clean_edgeKey N hk] at he
  unfold Net.edgeKey at he
  split at he
  · cases he; exact hk
  · rcases h _ _ he with rfl | rfl
    · exact hk
    · exact liveK_swap hk

theorem clean_addKey (N : Net A) {u v : Obj} (hu : D u.uid = false) (hv : D v.uid = false) : (N.addKey u v).clean D = (N.clean D).addKey u v ∧ (N.addKey u v).g = N.g := by
  unfold Net.addKey
  have : (N.clean D).g.directed = N.g.directed := rfl
  rw [this]
  split
  · exact ⟨rfl, rfl⟩
  · refine ⟨?_, rfl⟩
    unfold Net.clean Net.scrub
    simp only [Assoc.set_filter _ (liveK D) (liveK_mk hu hv), Assoc.set_filter _ (liveK D) (liveK_mk hv hu)]

theorem clean_put (N : Net A) {u v : Obj} (hu : D u.uid = false) (hv : D v.uid = false) (a : Attr A) :
    (N.put u v a).clean D = (N.clean D).put u v a ∧ (N.put u v a).g.dead D = N.g.dead D := by
  obtain ⟨e1, e2⟩ := clean_addEdge (D := D) N.g hu hv a
  unfold Net.put
  obtain ⟨h1, h2⟩ := clean_addKey (D := D) ({ N with g := N.g.addEdge u v a } : Net A) hu hv
  rw [h1, h2, e2]
  refine ⟨?_, rfl⟩
  have : ({ N with g := N.g.addEdge u v a } : Net A).clean D = ({ N.clean D with g := (N.clean D).g.addEdge u v a } : Net A) := by
    show ({ N.scrub D with g := (N.g.addEdge u v a).clean D } : Net A) = _
    rw [e1]; rfl
  rw [this]

theorem clean_add (N : Net A) {u : Obj} (hu : D u.uid = false) : (N.add u).clean D = (N.clean D).add u ∧ (N.add u).g.dead D = N.g.dead D := by
  obtain ⟨e1, e2⟩ := clean_addNode (D := D) N.g hu
  refine ⟨?_, e2⟩
  show ({ N.scrub D with g := (N.g.addNode u).clean D } : Net A) = _
  rw [e1]; rfl

theorem clean_noteRef (N : Net A) {u : Obj} (hu : D u.uid = false) : (N.noteRef u).clean D = (N.clean D).noteRef u ∧ (N.noteRef u).g = N.g := by
  unfold Net.noteRef
  have : u ∈ (N.clean D).g.nodes ↔ u ∈ N.g.nodes := by
    show u ∈ N.g.nodes.filter _ ↔ _
    simp [hu]
  by_cases h : u ∈ N.g.nodes
  · rw [if_pos h, if_pos (this.2 h)]; exact ⟨rfl, rfl⟩
  · rw [if_neg h, if_neg (mt this.1 h)]; exact ⟨rfl, rfl⟩

theorem clean_noteEdge (N : Net A) {u v : Obj} (hu : D u.uid = false) (hv : D v.uid = false) (l g : Obj) : (N.noteEdge u v l g).clean D = (N.clean D).noteEdge u v l g := by
  unfold Net.noteEdge
  rw [show (N.clean D).g = N.g.clean D from rfl, clean_slot _ hu hv]
  rfl

theorem clean_netAddEdge (r : Nat) (lr : Obj → Nat) (N : Net A) {u v : Obj} (hu : D u.uid = false) (hv : D v.uid = false) (a : Attr A) :
    (N.addEdge r lr u v a).clean D = (N.clean D).addEdge r lr u v a ∧ (N.addEdge r lr u v a).g.dead D = N.g.dead D := by
  unfold Net.addEdge
  split
  · rw [clean_noteEdge _ hu hv, (clean_put _ hu hv a).1, (clean_noteRef _ hv).1]
    exact ⟨rfl, by rw [show ((((N.noteRef v).put u v a).noteEdge u v u v).g) = ((N.noteRef v).put u v a).g from rfl, (clean_put _ hu hv a).2, (clean_noteRef (D := D) _ hv).2]⟩
  · split
    · rw [clean_noteEdge _ hu hv, (clean_put _ hu hv a).1, (clean_noteRef _ hu).1]
      exact ⟨rfl, by rw [show ((((N.noteRef u).put u v a).noteEdge u v v u).g) = ((N.noteRef u).put u v a).g from rfl, (clean_put _ hu hv a).2, (clean_noteRef (D := D) _ hu).2]⟩
    · exact clean_put _ hu hv a

theorem clean_setAttrs (N : Net A) {k : EKey} (hk : liveK D k = true) (a : Attr A) :
    (N.clean D).setAttrs k a = (N.setAttrs k a).map (Net.clean D) ∧ ∀ N', N.setAttrs k a = some N' → N'.g.dead D = N.g.dead D := by
  obtain ⟨hu, hv⟩ := liveK_iff.1 hk
  unfold Net.setAttrs
  split
  · exact ⟨rfl, by rintro N' h; cases h; rfl⟩
  · rw [show (N.clean D).g = N.g.clean D from rfl, clean_slot _ hu hv]
    cases N.g.slot k.1 k.2 with
    | none => simp
    | some i => exact ⟨rfl, by rintro N' h; cases h; rfl⟩

theorem clean_updateEdge (r : Nat) (lr : Obj → Nat) (N : Net A) (hK : KeysOk (N.clean D)) {u v : Obj} (hu : D u.uid = false) (hv : D v.uid = false) (a : Attr A) :
    (N.clean D).updateEdge r lr u v a = (N.updateEdge r lr u v a).map (Net.clean D) ∧ ∀ N', N.updateEdge r lr u v a = some N' → N'.g.dead D = N.g.dead D := by
  unfold Net.updateEdge
  rw [clean_edgeKey _ (liveK_mk hu hv)]
  cases hk : N.edgeKey (u, v) with
  | none => simp
  | some key =>
    obtain ⟨h1, h2⟩ := clean_setAttrs N (edgeKey_live hK (liveK_mk hu hv) hk) a
    simp only [Option.bind_some]
    rw [h1]
    cases hs : N.setAttrs key a with
    | none => simp
    | some N1 =>
      have := h2 N1 hs
      simp only [Option.map_some, Option.some.injEq]
      split
      · exact ⟨rfl, by rintro N' rfl; exact this⟩
      · exact ⟨rfl, by rintro N' rfl; exact this⟩

theorem clean_removeKey (N : Net A) {u v : Obj} (hu : D u.uid = false) (hv : D v.uid = false) :
    (N.clean D).removeKey u v = (N.removeKey u v).map (Net.clean D) ∧ ∀ N', N.removeKey u v = some N' → N'.g = N.g := by
  refine ⟨?_, fun N' h => removeKey_g h⟩
  simp only [Net.removeKey]
  rw [show (N.clean D).g.directed = N.g.directed from rfl, show (N.clean D).keys = N.keys.filter (fun e => liveK D e.1) from rfl]
  rw [Assoc.get_filter _ (liveK D) (liveK_mk hu hv), ← Assoc.del_filter, Assoc.get_filter _ (liveK D) (liveK_mk hv hu), ← Assoc.del_filter]
  by_cases h1 : N.g.directed = true
  · simp [h1]
  · by_cases h2 : (Assoc.get N.keys (u, v)).isSome = true
    · by_cases h3 : (Assoc.get (Assoc.del N.keys (u, v)) (v, u)).isSome = true
      · simp only [h1, h2, h3, if_true, Bool.false_eq_true, if_false]; rfl
      · simp only [h1, h2, h3, if_true, Bool.false_eq_true, if_false]; rfl
    · simp [h1, h2]

theorem clean_forget (r : Nat) (lr : Obj → Nat) (N : Net A) (hK : KeysOk (N.clean D)) {u v : Obj} (hu : D u.uid = false) (hv : D v.uid = false) :
    (N.clean D).forget r lr u v = (N.forget r lr u v).map (Net.clean D) ∧ ∀ N', N.forget r lr u v = some N' → N'.g = N.g := by
  refine ⟨?_, fun N' h => forget_g h⟩
  unfold Net.forget
  rw [clean_edgeKey _ (liveK_mk hu hv)]
  split
  · cases hk : N.edgeKey (u, v) with
    | none => rfl
    | some key =>
      have hl := edgeKey_live hK (liveK_mk hu hv) hk
      simp only [Option.bind_some]
      rw [show (N.clean D).ghosted = N.ghosted.filter (fun e => liveK D e.1) from rfl, Assoc.get_filter _ (liveK D) hl, ← Assoc.del_filter]
      split
      · rfl
      · rfl
  · rfl

theorem clean_netRemoveEdge (r : Nat) (lr : Obj → Nat) (N : Net A) (hK : KeysOk (N.clean D)) {u v : Obj} (hu : D u.uid = false) (hv : D v.uid = false) :
    (N.clean D).removeEdge r lr u v = (N.removeEdge r lr u v).map (Net.clean D) ∧ ∀ N', N.removeEdge r lr u v = some N' → N'.g.dead D = N.g.dead D := by
  obtain ⟨h1, h2⟩ := clean_removeEdge (D := D) N.g hu hv
  unfold Net.removeEdge
  rw [show (N.clean D).g = N.g.clean D from rfl, h1]
  cases hg : N.g.removeEdge u v with
  | none => simp
  | some g =>
    simp only [Option.map_some, Option.bind_some]
    have e : ({ N.clean D with g := g.clean D } : Net A) = ({ N with g := g } : Net A).clean D := rfl
    rw [e]
    have hK' : KeysOk (({ N with g := g } : Net A).clean D) := hK
    obtain ⟨h3, h4⟩ := clean_forget (D := D) r lr ({ N with g := g } : Net A) hK' hu hv
    rw [h3]
    cases hf : ({ N with g := g } : Net A).forget r lr u v with
    | none => simp
    | some N1 =>
      simp only [Option.map_some, Option.bind_some]
      obtain ⟨h5, h6⟩ := clean_removeKey (D := D) N1 hu hv
      refine ⟨h5, fun N' h => ?_⟩
      rw [h6 N' h, h4 N1 hf]
      exact h2 g hg

end Repast.Network
