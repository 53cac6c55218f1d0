import Verif.Network.GraphLemmas
import Verif.Network.Model
import Verif.Files.Free
import Verif.Util.List

/-! C42: the operations of a network on one rank. -/
namespace Repast.Network
open Repast.Dict

variable {A : Type}

/-! ### Specification -/

/-- The operations that change a network. -/
inductive NOp (A : Type) where
  | add (o : Obj)
  | addNodes (os : List Obj)
  | remove (o : Obj)
  | addEdge (u v : Obj) (at_ : Attr A)
  | updateEdge (u v : Obj) (at_ : Attr A)
  | removeEdge (u v : Obj)
  | clearEdges

/-- What a network is: a set of nodes, and for each pair of nodes possibly the attributes of the edge between them. -/
structure Pic (A : Type) where
  node : Obj → Bool
  link : Obj → Obj → Option (Attr A)

def Pic.empty : Pic A := ⟨fun _ => false, fun _ _ => none⟩

/-- What the operations mean. `d`: is the network directed? -/
def Pic.step (d : Bool) (p : Pic A) : NOp A → Pic A
  | .add o => { p with node := fun x => p.node x || decide (x = o) }
  | .addNodes os => { p with node := fun x => p.node x || decide (x ∈ os) }
  | .remove o => ⟨fun x => p.node x && decide (x ≠ o), fun u v => if o = u ∨ o = v then none else p.link u v⟩
  | .addEdge a b at_ =>
    ⟨fun x => p.node x || decide (x = a) || decide (x = b), fun u v => if Same d a b u v then some (merge ((p.link u v).getD []) at_) else p.link u v⟩
  | .updateEdge a b at_ => { p with link := fun u v => if Same d a b u v then (p.link u v).map (merge · at_) else p.link u v }
  | .removeEdge a b => { p with link := fun u v => if Same d a b u v then none else p.link u v }
  | .clearEdges => { p with link := fun _ _ => none }

def Pic.run (d : Bool) (p : Pic A) (ops : List (NOp A)) : Pic A := ops.foldl (Pic.step d) p

/-- The operation refers to nodes and edges that exist. -/
def Pic.Legal (p : Pic A) : NOp A → Prop
  | .remove o => p.node o = true
  | .updateEdge u v _ => (p.link u v).isSome = true
  | .removeEdge u v => (p.link u v).isSome = true
  | _ => True

def Pic.LegalRun (d : Bool) (p : Pic A) : List (NOp A) → Prop
  | [] => True
  | o :: ops => p.Legal o ∧ (p.step d o).LegalRun d ops

/-! ### The network -/

/-- A call of a method of the network. -/
def nstep (r : Nat) (lr : Obj → Nat) (N : Net A) : NOp A → Option (Net A)
  | .add o => some (N.add o)
  | .addNodes os => some (N.addNodes os)
  | .remove o => N.remove o
  | .addEdge u v at_ => some (N.addEdge r lr u v at_)
  | .updateEdge u v at_ => N.updateEdge r lr u v at_
  | .removeEdge u v => N.removeEdge r lr u v
  | .clearEdges => N.clearEdges r lr

/-- A history; `none` if one of the calls raises an exception. -/
def nrun (r : Nat) (lr : Obj → Nat) (N : Net A) (ops : List (NOp A)) : Option (Net A) := ops.foldlM (nstep r lr) N

/-- network.py:101-110 `node_count`, `edge_count`. -/
def Net.nodeCount (N : Net A) : Nat := N.g.nodes.length
def Net.edgeCount (N : Net A) : Nat := N.g.edges.length

/-- The graph shows the picture. -/
structure Shows (d : Bool) (p : Pic A) (g : Graph A) : Prop where
  inv : g.Inv
  dir : g.directed = d
  node : ∀ x, x ∈ g.nodes ↔ p.node x = true
  link : ∀ u v, g.attr u v = p.link u v

theorem put_g (N : Net A) (u v : Obj) (a : Attr A) : (N.put u v a).g = N.g.addEdge u v a := by
  unfold Net.put Net.addKey; split <;> rfl

theorem noteRef_g (N : Net A) (o : Obj) : (N.noteRef o).g = N.g := by unfold Net.noteRef; split <;> rfl

theorem addEdge_g (r : Nat) (lr : Obj → Nat) (N : Net A) (u v : Obj) (a : Attr A) : (N.addEdge r lr u v a).g = N.g.addEdge u v a := by
  unfold Net.addEdge
  split
  · simp [Net.noteEdge, put_g, noteRef_g]
  · split
    · simp [Net.noteEdge, put_g, noteRef_g]
    · exact put_g ..

theorem removeKey_g {N N' : Net A} {u v : Obj} (h : N.removeKey u v = some N') : N'.g = N.g := by
  unfold Net.removeKey at h
  split at h
  · simp only [Option.some.injEq] at h; rw [h]
  · split at h
    · simp only at h
      split at h
      · simp only [Option.some.injEq] at h; rw [← h]
      · cases h
    · cases h

theorem forget_g {r : Nat} {lr : Obj → Nat} {N N' : Net A} {u v : Obj} (h : N.forget r lr u v = some N') : N'.g = N.g := by
  unfold Net.forget at h
  split at h
  · obtain ⟨key, -, h⟩ := Option.bind_eq_some_iff.1 h
    split at h
    · simp only [Option.some.injEq] at h; rw [← h]
    · cases h
  · simp only [Option.some.injEq] at h; rw [h]

theorem removeEdge_g {r : Nat} {lr : Obj → Nat} {N N' : Net A} {u v : Obj} (h : N.removeEdge r lr u v = some N') : N.g.removeEdge u v = some N'.g := by
  unfold Net.removeEdge at h
  obtain ⟨g, hg, h⟩ := Option.bind_eq_some_iff.1 h
  obtain ⟨N1, h1, h⟩ := Option.bind_eq_some_iff.1 h
  rw [removeKey_g h, forget_g h1, hg]

theorem foldlM_keep {α β γ : Type} {f : β → α → Option β} (π : β → γ) (hf : ∀ b a b', f b a = some b' → π b' = π b) (l : List α) :
    ∀ b b', l.foldlM f b = some b' → π b' = π b := by
  induction l with
  | nil => intro b b' h; simp only [List.foldlM_nil, Option.pure_def, Option.some.injEq] at h; rw [h]
  | cons a l ih =>
    intro b b' h
    rw [List.foldlM_cons] at h
    obtain ⟨b1, h1, h⟩ := Option.bind_eq_some_iff.1 h
    rw [ih b1 b' h, hf b a b1 h1]

theorem clearEdges_g {r : Nat} {lr : Obj → Nat} {N N' : Net A} (h : N.clearEdges r lr = some N') : N'.g = N.g.clearEdges := by
  unfold Net.clearEdges at h
  obtain ⟨N1, h1, rfl⟩ := Option.map_eq_some_iff.1 h
  refine (foldlM_keep (·.g) ?_ _ _ _ h1)
  intro b a b' hb
  unfold Net.clearOne at hb
  obtain ⟨key, -, rfl⟩ := Option.map_eq_some_iff.1 hb
  rfl

theorem addNodes_g (N : Net A) (os : List Obj) : (N.addNodes os).g = os.foldl Graph.addNode N.g := by
  unfold Net.addNodes
  induction os generalizing N with
  | nil => rfl
  | cons o os ih => rw [List.foldl_cons, List.foldl_cons, ih]; rfl

theorem shows_addNode {d : Bool} {p : Pic A} {g : Graph A} (h : Shows d p g) (o : Obj) :
    Shows d { p with node := fun x => p.node x || decide (x = o) } (g.addNode o) where
  inv := h.inv.addNode o
  dir := by rw [(addNode_edges g o).2.2, h.dir]
  node := by intro x; rw [mem_addNode, h.node]; simp
  link := by intro u v; rw [attr_addNode, h.link]

theorem shows_addNodes {d : Bool} {p : Pic A} {g : Graph A} (h : Shows d p g) (os : List Obj) :
    Shows d { p with node := fun x => p.node x || decide (x ∈ os) } (os.foldl Graph.addNode g) := by
  induction os generalizing p g with
  | nil => simpa using h
  | cons o os ih =>
    have := ih (shows_addNode h o)
    simpa [List.foldl_cons, Bool.or_assoc] using this

theorem key_same {N : Net A} (hk : ∀ k key, Assoc.get N.keys k = some key → key = k ∨ key = (k.2, k.1)) {u v : Obj} {key : EKey}
    (h : N.edgeKey (u, v) = some key) : Same N.g.directed key.1 key.2 u v := by
  unfold Net.edgeKey at h
  split at h
  · simp only [Option.some.injEq] at h; subst h; exact .inl ⟨rfl, rfl⟩
  · rename_i hd
    rcases hk _ _ h with rfl | rfl
    · exact .inl ⟨rfl, rfl⟩
    · exact .inr ⟨by simpa using hd, rfl, rfl⟩

/-- The canonical key of an edge is one of its orientations. -/
def KeysOk (N : Net A) : Prop := ∀ k key, Assoc.get N.keys k = some key → key = k ∨ key = (k.2, k.1)

theorem keysOk_addKey {N : Net A} (h : KeysOk N) (u v : Obj) : KeysOk (N.addKey u v) := by
  unfold Net.addKey
  split
  · exact h
  · intro k key hk
    simp only [Assoc.get_set] at hk
    split at hk
    · rename_i e
      simp only [Option.some.injEq] at hk
      subst e hk; exact .inr rfl
    · split at hk
      · rename_i e
        simp only [Option.some.injEq] at hk
        subst e hk; exact .inl rfl
      · exact h k key hk

theorem keysOk_of_keys {N N' : Net A} (h : KeysOk N) (e : N'.keys = N.keys) : KeysOk N' := by unfold KeysOk; rw [e]; exact h

theorem noteRef_keys (N : Net A) (o : Obj) : (N.noteRef o).keys = N.keys := by unfold Net.noteRef; split <;> rfl

theorem put_keysOk {N : Net A} (h : KeysOk N) (u v : Obj) (a : Attr A) : KeysOk (N.put u v a) :=
  keysOk_addKey (N := { N with g := N.g.addEdge u v a }) (keysOk_of_keys h rfl) u v

theorem addEdge_keys (r : Nat) (lr : Obj → Nat) (N : Net A) (u v : Obj) (a : Attr A) : (N.addEdge r lr u v a).keys = (N.put u v a).keys := by
  have : ∀ o, ((N.noteRef o).put u v a).keys = (N.put u v a).keys := by
    intro o; unfold Net.put Net.addKey; simp only [noteRef_g, noteRef_keys]; split <;> simp
  unfold Net.addEdge
  split
  · exact this v
  · split
    · exact this u
    · rfl

theorem removeKey_keysOk {N N' : Net A} (h : KeysOk N) {u v : Obj} (hr : N.removeKey u v = some N') : KeysOk N' := by
  unfold Net.removeKey at hr
  split at hr
  · simp only [Option.some.injEq] at hr; exact hr ▸ h
  · split at hr
    · simp only at hr
      split at hr
      · simp only [Option.some.injEq] at hr
        subst hr
        intro k key hk
        simp only [Assoc.get_del] at hk
        split at hk
        · cases hk
        · split at hk
          · cases hk
          · exact h k key hk
      · cases hr
    · cases hr

theorem forget_keys {r : Nat} {lr : Obj → Nat} {N N' : Net A} {u v : Obj} (h : N.forget r lr u v = some N') : N'.keys = N.keys := by
  unfold Net.forget at h
  split at h
  · obtain ⟨key, -, h⟩ := Option.bind_eq_some_iff.1 h
    split at h
    · simp only [Option.some.injEq] at h; rw [← h]
    · cases h
  · simp only [Option.some.injEq] at h; rw [h]

theorem clearEdges_keys {r : Nat} {lr : Obj → Nat} {N N' : Net A} (h : N.clearEdges r lr = some N') : N'.keys = N.keys := by
  unfold Net.clearEdges at h
  obtain ⟨N1, h1, rfl⟩ := Option.map_eq_some_iff.1 h
  refine (foldlM_keep (·.keys) ?_ _ _ _ h1)
  intro b a b' hb
  unfold Net.clearOne at hb
  obtain ⟨key, -, rfl⟩ := Option.map_eq_some_iff.1 hb
  rfl

theorem addNodes_keys (N : Net A) (os : List Obj) : (N.addNodes os).keys = N.keys := by
  unfold Net.addNodes
  induction os generalizing N with
  | nil => rfl
  | cons o os ih => rw [List.foldl_cons, ih]; rfl

theorem merge_nil (a : Attr A) : merge a [] = a := rfl

theorem setAttrs_some {N N' : Net A} {key : EKey} {a : Attr A} (h : N.setAttrs key a = some N') :
    (a = [] ∧ N' = N) ∨ ∃ i, N.g.slot key.1 key.2 = some i ∧ N' = { N with g := N.g.modify i a } := by
  unfold Net.setAttrs at h
  split at h
  · rename_i he
    simp only [Option.some.injEq] at h
    exact .inl ⟨by simpa using he, h.symm⟩
  · obtain ⟨i, hi, rfl⟩ := Option.map_eq_some_iff.1 h
    exact .inr ⟨i, hi, rfl⟩

theorem updateEdge_some {r : Nat} {lr : Obj → Nat} {N N' : Net A} {u v : Obj} {a : Attr A} (h : N.updateEdge r lr u v a = some N') :
    ∃ key N1, N.edgeKey (u, v) = some key ∧ N.setAttrs key a = some N1 ∧ N'.g = N1.g ∧ N'.keys = N1.keys := by
  unfold Net.updateEdge at h
  obtain ⟨key, hk, h⟩ := Option.bind_eq_some_iff.1 h
  obtain ⟨N1, h1, rfl⟩ := Option.map_eq_some_iff.1 h
  refine ⟨key, N1, hk, h1, ?_⟩
  split <;> simp

theorem same_trans {d : Bool} {a b u v x y : Obj} (h1 : Same d a b u v) : (Same d a b x y ↔ Same d u v x y) := by
  unfold Same at *; grind

/-- One call. -/
theorem shows_step {d : Bool} {p : Pic A} {r : Nat} {lr : Obj → Nat} {N N' : Net A} (h : Shows d p N.g) (hk : KeysOk N) (o : NOp A) (hs : nstep r lr N o = some N') :
    Shows d (p.step d o) N'.g ∧ KeysOk N' := by
  cases o with
  | add o =>
    simp only [nstep, Option.some.injEq] at hs
    subst hs
    exact ⟨shows_addNode h o, hk⟩
  | addNodes os =>
    simp only [nstep, Option.some.injEq] at hs
    subst hs
    exact ⟨by rw [addNodes_g]; exact shows_addNodes h os, keysOk_of_keys hk (addNodes_keys N os)⟩
  | remove o =>
    simp only [nstep, Net.remove] at hs
    obtain ⟨g, hg, rfl⟩ := Option.map_eq_some_iff.1 hs
    have e := (removeNode_some hg).2
    refine ⟨⟨h.inv.removeNode hg, by rw [e]; exact h.dir, ?_, ?_⟩, keysOk_of_keys hk rfl⟩
    · intro x
      rw [e]
      simp [Pic.step, List.mem_filter, h.node]
    · intro u v
      rw [attr_removeNode h.inv hg, h.link]; rfl
  | addEdge u v a =>
    simp only [nstep, Option.some.injEq] at hs
    subst hs
    refine ⟨⟨?_, ?_, ?_, ?_⟩, keysOk_of_keys (put_keysOk hk u v a) (addEdge_keys ..)⟩
    · rw [addEdge_g]; exact h.inv.addEdge u v a
    · rw [addEdge_g, addEdge_directed, h.dir]
    · intro x; rw [addEdge_g, mem_addEdge, h.node]; simp [Pic.step, or_assoc]
    · intro x y; rw [addEdge_g, attr_addEdge h.inv, h.dir, h.link]; rfl
  | updateEdge u v a =>
    simp only [nstep] at hs
    obtain ⟨key, N1, hkey, hset, hg, hkk⟩ := updateEdge_some hs
    have hsame := key_same hk hkey
    rw [hg]
    rcases setAttrs_some hset with ⟨rfl, rfl⟩ | ⟨i, hi, rfl⟩
    · refine ⟨⟨h.inv, h.dir, h.node, ?_⟩, keysOk_of_keys hk hkk⟩
      intro x y
      rw [h.link]
      simp only [Pic.step, merge_nil, Option.map_id']
      split <;> rfl
    · refine ⟨⟨h.inv.modify i a, h.dir, h.node, ?_⟩, keysOk_of_keys hk hkk⟩
      intro x y
      rw [attr_modify h.inv hi, h.link]
      simp only [Pic.step]
      rw [h.dir] at hsame
      rw [h.dir]
      have hiff := same_trans (x := x) (y := y) hsame
      by_cases hc : Same d u v x y
      · rw [if_pos hc, if_pos (hiff.2 hc)]
        have : (p.link x y).isSome = true := by
          have hc2 : Same N.g.directed key.1 key.2 x y := by rw [h.dir]; exact hiff.2 hc
          rw [← h.link, Graph.attr, slot_same h.inv hc2, hi]; rfl
        obtain ⟨b, hb⟩ := Option.isSome_iff_exists.1 this
        rw [hb]; rfl
      · rw [if_neg hc, if_neg (fun x => hc (hiff.1 x))]
  | removeEdge u v =>
    simp only [nstep] at hs
    have hg := removeEdge_g hs
    have hd : N'.g.directed = N.g.directed := by rw [(removeEdge_some hg).2]
    refine ⟨⟨h.inv.removeEdge hg, by rw [hd, h.dir], ?_, ?_⟩, ?_⟩
    · intro x; rw [(removeEdge_some hg).2]; exact h.node x
    · intro x y; rw [attr_removeEdge h.inv hg, h.dir, h.link]; rfl
    · unfold Net.removeEdge at hs
      obtain ⟨g, -, hs⟩ := Option.bind_eq_some_iff.1 hs
      obtain ⟨N1, h1, hs⟩ := Option.bind_eq_some_iff.1 hs
      exact removeKey_keysOk (keysOk_of_keys (N := { N with g := g }) (keysOk_of_keys hk rfl) (forget_keys h1)) hs
  | clearEdges =>
    simp only [nstep] at hs
    have hg := clearEdges_g hs
    refine ⟨⟨by rw [hg]; exact h.inv.clearEdges, by rw [hg]; exact h.dir, by rw [hg]; exact h.node, ?_⟩, keysOk_of_keys hk (clearEdges_keys hs)⟩
    intro u v; rw [hg, attr_clearEdges]; rfl

theorem shows_run {d : Bool} {r : Nat} {lr : Obj → Nat} (ops : List (NOp A)) : ∀ {p : Pic A} {N N' : Net A}, Shows d p N.g → KeysOk N → nrun r lr N ops = some N' →
    Shows d (p.run d ops) N'.g ∧ KeysOk N' := by
  induction ops with
  | nil =>
    intro p N N' h hk hr
    simp only [nrun, List.foldlM_nil, Option.pure_def, Option.some.injEq] at hr
    subst hr; exact ⟨h, hk⟩
  | cons o ops ih =>
    intro p N N' h hk hr
    simp only [nrun, List.foldlM_cons] at hr
    obtain ⟨N1, h1, hr⟩ := Option.bind_eq_some_iff.1 hr
    obtain ⟨h2, hk2⟩ := shows_step h hk o h1
    exact ih h2 hk2 hr

theorem shows_empty (d : Bool) : Shows d Pic.empty (Net.empty d : Net A).g :=
  ⟨Graph.Inv.empty d, rfl, by simp [Net.empty, Graph.empty, Pic.empty], by
    intro u v
    cases d <;> simp [Net.empty, Graph.empty, Pic.empty, Graph.attr, Graph.slot]⟩

theorem keysOk_empty (d : Bool) : KeysOk (Net.empty d : Net A) := by simp [KeysOk, Net.empty]

/-! ### Counting edges -/

theorem length_eq_of_nodup {α : Type} [DecidableEq α] {l m : List α} (hl : l.Nodup) (hm : m.Nodup) (h : ∀ x, x ∈ l ↔ x ∈ m) : l.length = m.length :=
  Nat.le_antisymm (Repast.Files.length_le_of_nodup hl fun x hx => (h x).1 hx) (Repast.Files.length_le_of_nodup hm fun x hx => (h x).2 hx)

theorem outEdges_length {g : Graph A} (h : g.Inv) (hd : g.directed = true) (u : Obj) : (g.outEdges u).length = (g.nodes.filter fun x => g.hasEdge u x).length := by
  have : ((g.outEdges u).map (·.1.2)).length = (g.nodes.filter fun x => g.hasEdge u x).length := by
    refine length_eq_of_nodup ?_ (List.Pairwise.filter _ h.nodes) ?_
    · unfold Graph.outEdges
      have hk : ((g.edges.filter fun e => decide (e.1.1 = u)).map (·.1)).Nodup := List.Nodup.sublist (List.Sublist.map _ List.filter_sublist) h.keys
      rw [List.nodup_iff_pairwise_ne, List.pairwise_map] at hk ⊢
      refine List.Pairwise.imp_of_mem ?_ hk
      intro a b ha hb hab e
      rw [List.mem_filter] at ha hb
      simp only [decide_eq_true_eq] at ha hb
      exact hab (Prod.ext (ha.2.trans hb.2.symm) e)
    · intro x
      simp only [Graph.outEdges, List.mem_map, List.mem_filter, decide_eq_true_eq, Graph.hasEdge]
      constructor
      · rintro ⟨e, ⟨he, rfl⟩, rfl⟩
        refine ⟨(h.ends _ (List.mem_map.2 ⟨e, he, rfl⟩)).2, ?_⟩
        rw [(slot_iff h _ _ e.2).2 ⟨e.1, he, .inl ⟨rfl, rfl⟩⟩]; rfl
      · rintro ⟨-, hs⟩
        obtain ⟨i, hi⟩ := Option.isSome_iff_exists.1 hs
        obtain ⟨k, hm, hk⟩ := (slot_iff h _ _ i).1 hi
        rw [hd] at hk
        rcases hk with ⟨h1, h2⟩ | ⟨h1, -⟩
        · exact ⟨(k, i), ⟨hm, h1⟩, h2⟩
        · cases h1
  rw [← this, List.length_map]

theorem inEdges_length {g : Graph A} (h : g.Inv) (hd : g.directed = true) (u : Obj) : (g.inEdges u).length = (g.nodes.filter fun x => g.hasEdge x u).length := by
  have : ((g.inEdges u).map (·.1.1)).length = (g.nodes.filter fun x => g.hasEdge x u).length := by
    refine length_eq_of_nodup ?_ (List.Pairwise.filter _ h.nodes) ?_
    · unfold Graph.inEdges
      have hk : ((g.edges.filter fun e => decide (e.1.2 = u)).map (·.1)).Nodup := List.Nodup.sublist (List.Sublist.map _ List.filter_sublist) h.keys
      rw [List.nodup_iff_pairwise_ne, List.pairwise_map] at hk ⊢
      refine List.Pairwise.imp_of_mem ?_ hk
      intro a b ha hb hab e
      rw [List.mem_filter] at ha hb
      simp only [decide_eq_true_eq] at ha hb
      exact hab (Prod.ext e (ha.2.trans hb.2.symm))
    · intro x
      simp only [Graph.inEdges, List.mem_map, List.mem_filter, decide_eq_true_eq, Graph.hasEdge]
      constructor
      · rintro ⟨e, ⟨he, rfl⟩, rfl⟩
        refine ⟨(h.ends _ (List.mem_map.2 ⟨e, he, rfl⟩)).1, ?_⟩
        rw [(slot_iff h _ _ e.2).2 ⟨e.1, he, .inl ⟨rfl, rfl⟩⟩]; rfl
      · rintro ⟨-, hs⟩
        obtain ⟨i, hi⟩ := Option.isSome_iff_exists.1 hs
        obtain ⟨k, hm, hk⟩ := (slot_iff h _ _ i).1 hi
        rw [hd] at hk
        rcases hk with ⟨h1, h2⟩ | ⟨h1, -⟩
        · exact ⟨(k, i), ⟨hm, h2⟩, h1⟩
        · cases h1
  rw [← this, List.length_map]

theorem mem_nbrEdges {g : Graph A} {u : Obj} {e : EKey × Nat} : e ∈ g.nbrEdges u ↔ e.1.1 = u ∧ (e ∈ g.edges ∨ ((e.1.2, u), e.2) ∈ g.edges ∧ e.1.2 ≠ u) := by
  unfold Graph.nbrEdges
  rw [List.mem_filterMap]
  constructor
  · rintro ⟨x, hx, h⟩
    split at h
    · simp only [Option.some.injEq] at h
      subst h
      exact ⟨by assumption, .inl hx⟩
    · split at h
      · rename_i h1 h2
        simp only [Option.some.injEq] at h
        subst h
        refine ⟨rfl, .inr ⟨?_, h1⟩⟩
        obtain ⟨⟨a, b⟩, i⟩ := x
        simp only at h2 ⊢
        subst h2; exact hx
      · cases h
  · rintro ⟨h1, h2 | ⟨h2, h3⟩⟩
    · exact ⟨e, h2, by simp [h1]⟩
    · refine ⟨_, h2, ?_⟩
      simp only [h3, if_false, if_true]
      obtain ⟨⟨a, b⟩, i⟩ := e
      simp only at h1 ⊢
      rw [h1]

theorem nbrEdges_length {g : Graph A} (h : g.Inv) (hd : g.directed = false) (u : Obj) : (g.nbrEdges u).length = (g.nodes.filter fun x => g.hasEdge u x).length := by
  have : ((g.nbrEdges u).map (·.1.2)).length = (g.nodes.filter fun x => g.hasEdge u x).length := by
    refine length_eq_of_nodup ?_ (List.Pairwise.filter _ h.nodes) ?_
    · -- the indices of the dictionaries are distinct, and an end of an edge determines the index
      have hnd : ((g.nbrEdges u).map (·.2)).Nodup := by
        have : ∀ l : List (EKey × Nat), List.Sublist ((l.filterMap fun e => if e.1.1 = u then some e else if e.1.2 = u then some ((u, e.1.1), e.2) else none).map (·.2)) (l.map (·.2)) := by
          intro l
          induction l with
          | nil => simp
          | cons e l ih =>
            rw [List.filterMap_cons, List.map_cons]
            split
            · exact List.Sublist.cons _ ih
            · rename_i b hb
              have : b.2 = e.2 := by
                split at hb
                · simp only [Option.some.injEq] at hb; rw [hb]
                · split at hb
                  · simp only [Option.some.injEq] at hb; rw [← hb]
                  · cases hb
              rw [List.map_cons, this]
              exact List.Sublist.cons_cons _ ih
        exact List.Nodup.sublist (this g.edges) h.slots
      rw [List.nodup_iff_pairwise_ne, List.pairwise_map] at hnd ⊢
      refine List.Pairwise.imp_of_mem ?_ hnd
      intro a b ha hb hab e
      apply hab
      have sl : ∀ x ∈ g.nbrEdges u, g.slot u x.1.2 = some x.2 := by
        intro x hx
        obtain ⟨h1, h2⟩ := mem_nbrEdges.1 hx
        rw [slot_iff h]
        rcases h2 with h2 | ⟨h2, -⟩
        · exact ⟨x.1, h2, .inl ⟨h1, rfl⟩⟩
        · exact ⟨_, h2, .inr ⟨hd, rfl, rfl⟩⟩
      have h1 := sl a ha
      have h2 := sl b hb
      rw [e, h2] at h1
      simpa using h1.symm
    · intro x
      simp only [List.mem_map, List.mem_filter, Graph.hasEdge]
      constructor
      · rintro ⟨e, he, rfl⟩
        obtain ⟨h1, h2⟩ := mem_nbrEdges.1 he
        have : g.slot u e.1.2 = some e.2 := by
          rw [slot_iff h]
          rcases h2 with h2 | ⟨h2, -⟩
          · exact ⟨e.1, h2, .inl ⟨h1, rfl⟩⟩
          · exact ⟨_, h2, .inr ⟨hd, rfl, rfl⟩⟩
        exact ⟨(slot_ends h this).2, by rw [this]; rfl⟩
      · rintro ⟨-, hs⟩
        obtain ⟨i, hi⟩ := Option.isSome_iff_exists.1 hs
        obtain ⟨⟨a, b⟩, hm, hk⟩ := (slot_iff h _ _ i).1 hi
        refine ⟨((u, x), i), mem_nbrEdges.2 ⟨rfl, ?_⟩, rfl⟩
        rcases hk with ⟨h1, h2⟩ | ⟨-, h1, h2⟩
        · simp only at h1 h2; subst h1 h2; exact .inl hm
        · simp only at h1 h2
          subst h1 h2
          by_cases hab : a = b
          · subst hab; exact .inl hm
          · exact .inr ⟨hm, hab⟩
  rw [← this, List.length_map]

/-- C42, for any distribution of the agents over the ranks: if a history of calls raises no exception, then the nodes are those added and not removed, the edges are those
added and not removed since then - neither themselves, nor one of their nodes, nor by `clear_edges` -, with the attributes they were last given; in an undirected network
both orientations are the same edge. `num_edges` is the number of the neighbours, in a directed network the number of successors plus the number of predecessors;
`edge_count` and `edges` count each edge once. -/
theorem C42_edges (d : Bool) (r : Nat) (lr : Obj → Nat) (ops : List (NOp A)) (N : Net A) (hN : nrun r lr (Net.empty d) ops = some N) :
    let p := Pic.empty.run d ops
    N.g.nodes.Nodup ∧ (∀ x, x ∈ N.g.nodes ↔ p.node x = true) ∧
    (∀ u v, N.g.hasEdge u v = (p.link u v).isSome) ∧
    (∀ u v, N.g.attr u v = p.link u v) ∧
    (∀ u, N.g.numEdges u = if p.node u then
        some ((N.g.nodes.filter fun x => (p.link u x).isSome).length + if d then (N.g.nodes.filter fun x => (p.link x u).isSome).length else 0) else none) ∧
    (∃ es : List EKey, es.length = N.edgeCount ∧ es.Pairwise (fun k k' => ¬ Same d k.1 k.2 k'.1 k'.2) ∧
      ∀ u v, (p.link u v).isSome = true ↔ ∃ k ∈ es, Same d k.1 k.2 u v) := by
  intro p
  obtain ⟨h, -⟩ := shows_run ops (shows_empty d) (keysOk_empty d) hN
  have hhas : ∀ u v, N.g.hasEdge u v = (p.link u v).isSome := fun u v => by rw [hasEdge_iff, h.link]
  refine ⟨h.inv.nodes, h.node, hhas, h.link, ?_, ?_⟩
  · intro u
    unfold Graph.numEdges Graph.edgesOf
    have hf : ∀ u, (N.g.nodes.filter fun x => N.g.hasEdge u x) = N.g.nodes.filter fun x => (p.link u x).isSome := fun u => by simp only [hhas]
    have hf2 : (N.g.nodes.filter fun x => N.g.hasEdge x u) = N.g.nodes.filter fun x => (p.link x u).isSome := by simp only [hhas]
    by_cases hu : u ∈ N.g.nodes
    · rw [if_pos hu, if_pos ((h.node u).1 hu), h.dir]
      cases d with
      | true =>
        simp only [if_true, Option.map_some, List.length_append]
        rw [outEdges_length h.inv h.dir, inEdges_length h.inv h.dir, hf, hf2]
      | false =>
        simp only [Bool.false_eq_true, if_false, Option.map_some, Nat.add_zero]
        rw [nbrEdges_length h.inv h.dir, hf]
    · rw [if_neg hu, if_neg (fun x => hu ((h.node u).2 x))]; rfl
  · refine ⟨Assoc.keys N.g.edges, by simp [Assoc.keys, Net.edgeCount], ?_, ?_⟩
    · have hk := h.inv.keys
      unfold Assoc.Ok at hk
      rw [List.nodup_iff_pairwise_ne] at hk
      refine List.Pairwise.imp_of_mem ?_ hk
      rintro ⟨a, b⟩ ⟨a', b'⟩ hm hm' hne hs
      rcases hs with ⟨h1, h2⟩ | ⟨hd, h1, h2⟩
      · simp only at h1 h2; subst h1 h2; exact hne rfl
      · simp only at h1 h2
        subst h1 h2
        refine h.inv.single (h.dir.trans hd) a b ?_ hm hm'
        rintro rfl; exact hne rfl
    · intro u v
      rw [← hhas]
      unfold Graph.hasEdge
      constructor
      · intro hs
        obtain ⟨i, hi⟩ := Option.isSome_iff_exists.1 hs
        obtain ⟨k, hm, hk⟩ := (slot_iff h.inv _ _ i).1 hi
        exact ⟨k, List.mem_map.2 ⟨_, hm, rfl⟩, h.dir ▸ hk⟩
      · rintro ⟨k, hk, hs⟩
        obtain ⟨⟨k', i⟩, hm, rfl⟩ := List.mem_map.1 hk
        rw [(slot_iff h.inv u v i).2 ⟨k', hm, h.dir.symm ▸ hs⟩]; rfl

/-! ### Exceptions -/

/-- What holds of a network of local agents: nothing is ghosted, and each edge of an undirected network has its keys. -/
structure LocalOk (N : Net A) : Prop where
  ghosted : N.ghosted = []
  keys : KeysOk N
  has : N.g.directed = false → ∀ u v, N.g.hasEdge u v = true → (Assoc.get N.keys (u, v)).isSome = true

theorem localOk_empty (d : Bool) : LocalOk (Net.empty d : Net A) :=
  ⟨rfl, keysOk_empty d, by
    intro _ u v h
    cases d <;> simp [Net.empty, Graph.empty, Graph.hasEdge, Graph.slot] at h⟩

/-- The call does not ask for what goes wrong: see `C42_violation_self_loop`; and an update changes something. -/
def Plain (d : Bool) : NOp A → Prop
  | .removeEdge u v => d = true ∨ u ≠ v
  | .updateEdge _ _ a => a ≠ []
  | _ => True

theorem hasEdge_same {g : Graph A} (h : g.Inv) {a b u v : Obj} (hs : Same g.directed a b u v) : g.hasEdge u v = g.hasEdge a b := by
  unfold Graph.hasEdge; rw [slot_same h hs]

theorem local_step {d : Bool} {p : Pic A} {r : Nat} {lr : Obj → Nat} (hl : ∀ o, lr o = r) {N : Net A} (h : Shows d p N.g) (hk : LocalOk N) (o : NOp A)
    (hp : Plain d o) : ((nstep r lr N o).isSome = true ↔ p.Legal o) ∧ ∀ N', nstep r lr N o = some N' → LocalOk N' := by
  have hcr : ∀ u v, crosses r lr u v = false := by intro u v; simp [crosses, hl]
  have hhas : ∀ u v, N.g.hasEdge u v = (p.link u v).isSome := fun u v => by rw [hasEdge_iff, h.link]
  have hkk : ∀ {N'}, nstep r lr N o = some N' → KeysOk N' := fun hs => (shows_step h hk.keys o hs).2
  cases o with
  | add o =>
    refine ⟨by simp [nstep, Pic.Legal], fun N' hs => ⟨?_, hkk hs, ?_⟩⟩
    · simp only [nstep, Option.some.injEq] at hs; subst hs; exact hk.ghosted
    · simp only [nstep, Option.some.injEq] at hs
      subst hs
      intro hd u v hh
      simp only [Net.add, (addNode_edges _ _).2.2] at hd
      refine hk.has hd u v ?_
      simpa [Net.add, Graph.hasEdge, slot_addNode] using hh
  | addNodes os =>
    refine ⟨by simp [nstep, Pic.Legal], fun N' hs => ⟨?_, hkk hs, ?_⟩⟩
    · simp only [nstep, Option.some.injEq] at hs
      subst hs
      have : (N.addNodes os).ghosted = N.ghosted := by
        unfold Net.addNodes
        clear hp hkk hk h hhas
        induction os generalizing N with
        | nil => rfl
        | cons o os ih => rw [List.foldl_cons, ih]; rfl
      rw [this, hk.ghosted]
    · have hS := (shows_step h hk.keys _ hs).1
      intro hd u v hh
      simp only [nstep, Option.some.injEq] at hs
      subst hs
      rw [addNodes_keys]
      refine hk.has (by rw [h.dir, ← hS.dir, hd]) u v ?_
      rw [hasEdge_iff, hS.link] at hh
      rw [hhas]; exact hh
  | remove o =>
    refine ⟨?_, fun N' hs => ⟨?_, hkk hs, ?_⟩⟩
    · simp only [nstep, Net.remove, Option.isSome_map, Pic.Legal]
      rw [← h.node]
      unfold Graph.removeNode
      split <;> simp_all
    · simp only [nstep, Net.remove] at hs
      obtain ⟨g, hg, rfl⟩ := Option.map_eq_some_iff.1 hs
      exact hk.ghosted
    · have hS := (shows_step h hk.keys _ hs).1
      intro hd u v hh
      simp only [nstep, Net.remove] at hs
      obtain ⟨g, hg, rfl⟩ := Option.map_eq_some_iff.1 hs
      refine hk.has (by rw [h.dir, ← hS.dir, hd]) u v ?_
      rw [hasEdge_iff, hS.link] at hh
      rw [hhas]
      simp only [Pic.step] at hh
      split at hh
      · cases hh
      · exact hh
  | addEdge u v a =>
    refine ⟨by simp [nstep, Pic.Legal], fun N' hs => ⟨?_, hkk hs, ?_⟩⟩
    · simp only [nstep, Option.some.injEq] at hs
      subst hs
      simp only [Net.addEdge, hl, ne_eq, not_true_eq_false, and_false, false_and, if_false]
      unfold Net.put Net.addKey
      split <;> exact hk.ghosted
    · have hS := (shows_step h hk.keys _ hs).1
      intro hd x y hh
      have hd' : N.g.directed = false := by rw [h.dir, ← hS.dir, hd]
      simp only [nstep, Option.some.injEq] at hs
      subst hs
      rw [addEdge_keys]
      have hg : (N.g.addEdge u v a).directed = false := by rw [addEdge_directed]; exact hd'
      simp only [Net.put, Net.addKey, hg, Bool.false_eq_true, if_false, Assoc.get_set]
      split
      · rfl
      · split
        · rfl
        · rename_i h1 h2
          rw [addEdge_g, hasEdge_iff, attr_addEdge h.inv, if_neg] at hh
          · rw [← hasEdge_iff] at hh; exact hk.has hd' x y hh
          · rintro (⟨rfl, rfl⟩ | ⟨-, rfl, rfl⟩)
            · exact h2 rfl
            · exact h1 rfl
  | updateEdge u v a =>
    simp only [Plain] at hp
    refine ⟨?_, fun N' hs => ⟨?_, hkk hs, ?_⟩⟩
    · simp only [nstep, Pic.Legal]
      rw [← hhas]
      constructor
      · intro hs
        obtain ⟨N', hN'⟩ := Option.isSome_iff_exists.1 hs
        obtain ⟨key, N1, hkey, hset, -, -⟩ := updateEdge_some hN'
        rcases setAttrs_some hset with ⟨rfl, -⟩ | ⟨i, hi, -⟩
        · exact absurd rfl hp
        · rw [hasEdge_same h.inv (key_same hk.keys hkey)]
          simp [Graph.hasEdge, hi]
      · intro hh
        have hke : ∃ key, N.edgeKey (u, v) = some key := by
          unfold Net.edgeKey
          cases hd : N.g.directed with
          | true => simp
          | false => simpa using Option.isSome_iff_exists.1 (hk.has hd u v hh)
        obtain ⟨key, hkey⟩ := hke
        have hh2 : N.g.hasEdge key.1 key.2 = true := by rw [← hasEdge_same h.inv (key_same hk.keys hkey)]; exact hh
        obtain ⟨i, hi⟩ := Option.isSome_iff_exists.1 hh2
        have hne : a.isEmpty = false := by simpa using hp
        simp [Net.updateEdge, hkey, Net.setAttrs, hi, hne]
    · simp only [nstep] at hs
      unfold Net.updateEdge at hs
      obtain ⟨key, hkey, hs⟩ := Option.bind_eq_some_iff.1 hs
      obtain ⟨N1, h1, rfl⟩ := Option.map_eq_some_iff.1 hs
      rw [if_neg (by simp [hcr])]
      rcases setAttrs_some h1 with ⟨-, rfl⟩ | ⟨i, -, rfl⟩ <;> exact hk.ghosted
    · have hS := (shows_step h hk.keys _ hs).1
      intro hd x y hh
      simp only [nstep] at hs
      obtain ⟨key, N1, hkey, hset, hg, hks⟩ := updateEdge_some hs
      have hd' : N.g.directed = false := by rw [h.dir, ← hS.dir, hd]
      have e : N1.keys = N.keys := by rcases setAttrs_some hset with ⟨-, rfl⟩ | ⟨i, -, rfl⟩ <;> rfl
      rw [hks, e]
      refine hk.has hd' x y ?_
      rw [hasEdge_iff, hS.link] at hh
      rw [hhas]
      simp only [Pic.step] at hh
      split at hh
      · simpa using hh
      · exact hh
  | removeEdge u v =>
    simp only [Plain] at hp
    have hfor : ∀ g, ({ N with g := g } : Net A).forget r lr u v = some { N with g := g } := fun g => by simp [Net.forget, hcr]
    refine ⟨?_, fun N' hs => ⟨?_, hkk hs, ?_⟩⟩
    · simp only [nstep, Pic.Legal]
      rw [← hhas]
      constructor
      · intro hs
        obtain ⟨N', hN'⟩ := Option.isSome_iff_exists.1 hs
        exact (removeEdge_some (removeEdge_g hN')).1
      · intro hh
        obtain ⟨g, hg⟩ : ∃ g, N.g.removeEdge u v = some g := Option.isSome_iff_exists.1 (by rw [removeEdge_isSome, ← hasEdge_iff]; exact hh)
        have hdg : g.directed = N.g.directed := by rw [(removeEdge_some hg).2]
        unfold Net.removeEdge
        rw [hg, Option.bind_some, hfor, Option.bind_some]
        unfold Net.removeKey
        cases hd : N.g.directed with
        | true => simp [hdg, hd]
        | false =>
          have hne : u ≠ v := by
            rcases hp with hp | hp
            · rw [h.dir, hp] at hd; cases hd
            · exact hp
          have h1 := hk.has hd u v hh
          have h2 := hk.has hd v u (by rw [hasEdge_same h.inv (a := u) (b := v) (.inr ⟨hd, rfl, rfl⟩)]; exact hh)
          have hne' : (u, v) ≠ (v, u) := by intro e; simp only [Prod.mk.injEq] at e; exact hne e.1
          simp [hdg, hd, h1, h2, hne']
    · simp only [nstep, Net.removeEdge] at hs
      obtain ⟨g, hg, hs⟩ := Option.bind_eq_some_iff.1 hs
      rw [hfor, Option.bind_some] at hs
      unfold Net.removeKey at hs
      split at hs
      · simp only [Option.some.injEq] at hs; subst hs; exact hk.ghosted
      · split at hs
        · simp only at hs
          split at hs
          · simp only [Option.some.injEq] at hs; subst hs; exact hk.ghosted
          · cases hs
        · cases hs
    · have hS := (shows_step h hk.keys _ hs).1
      intro hd x y hh
      have hd' : N.g.directed = false := by rw [h.dir, ← hS.dir, hd]
      rw [hasEdge_iff, hS.link] at hh
      simp only [Pic.step] at hh
      split at hh
      · cases hh
      · rename_i hns
        have hx := hk.has hd' x y (by rw [hhas]; exact hh)
        simp only [nstep, Net.removeEdge] at hs
        obtain ⟨g, hg, hs⟩ := Option.bind_eq_some_iff.1 hs
        have hdg : g.directed = N.g.directed := by rw [(removeEdge_some hg).2]
        rw [hfor, Option.bind_some] at hs
        unfold Net.removeKey at hs
        simp only [hdg, hd', Bool.false_eq_true, if_false] at hs
        split at hs
        · split at hs
          · simp only [Option.some.injEq] at hs
            subst hs
            simp only [Assoc.get_del]
            have hdd : d = false := by rw [← h.dir]; exact hd'
            rw [if_neg, if_neg]
            · exact hx
            · intro e; simp only [Prod.mk.injEq] at e; exact hns (.inl e)
            · intro e; simp only [Prod.mk.injEq] at e; exact hns (.inr ⟨hdd, e.2, e.1⟩)
          · cases hs
        · cases hs
  | clearEdges =>
    have hcl : nstep r lr N .clearEdges = some { N with g := N.g.clearEdges, newEdges := [], ghosted := [] } := by
      simp [nstep, Net.clearEdges, hk.ghosted, Assoc.keys]
    refine ⟨by rw [hcl]; simp [Pic.Legal], fun N' hs => ⟨?_, hkk hs, ?_⟩⟩
    · rw [hcl] at hs; simp only [Option.some.injEq] at hs; subst hs; rfl
    · rw [hcl] at hs
      simp only [Option.some.injEq] at hs
      subst hs
      intro _ u v hh
      rw [hasEdge_iff, attr_clearEdges] at hh
      cases hh

theorem local_run {d : Bool} {r : Nat} {lr : Obj → Nat} (hl : ∀ o, lr o = r) (ops : List (NOp A)) (hp : ∀ o ∈ ops, Plain d o) :
    ∀ {p : Pic A} {N : Net A}, Shows d p N.g → LocalOk N → ((nrun r lr N ops).isSome = true ↔ p.LegalRun d ops) := by
  induction ops with
  | nil => intro p N _ _; simp [nrun, Pic.LegalRun]
  | cons o ops ih =>
    intro p N h hk
    obtain ⟨h1, h2⟩ := local_step hl h hk o (hp o (by simp))
    simp only [nrun, List.foldlM_cons, Pic.LegalRun]
    cases hs : nstep r lr N o with
    | none =>
      rw [hs] at h1
      simp only [Option.isSome_none, Bool.false_eq_true, false_iff] at h1
      simp [h1]
    | some N1 =>
      rw [hs] at h1
      simp only [Option.isSome_some, true_iff] at h1
      have := ih (fun o ho => hp o (by simp [ho])) (shows_step h hk.keys o hs).1 (h2 N1 hs)
      simp only [nrun] at this
      simp [h1, this]

/-- C42: a history of calls that concern only local agents raises an exception exactly if it refers to a node or an edge that does not exist at that moment: `remove` of
a node, `update_edge` and `remove_edge` of an edge. Missing (`_partial`): the removal of an edge from a node to itself in an undirected network always raises an exception,
`C42_violation_self_loop`; and so does the removal of edges to ghosts under circumstances stated in `C43_violation_remove_new`, `C43_violation_remove_mirrored`. -/
theorem C42_exceptions_partial (d : Bool) (r : Nat) (lr : Obj → Nat) (hl : ∀ o, lr o = r) (ops : List (NOp A)) (hp : ∀ o ∈ ops, Plain d o) :
    (nrun r lr (Net.empty d) ops).isSome = true ↔ Pic.empty.LegalRun d ops :=
  local_run hl ops hp (shows_empty d) (localOk_empty d)

/-- C42 is violated: in an undirected network an edge from a node to itself can be added, but not removed. -/
theorem C42_violation_self_loop (r : Nat) (o : Obj) :
    Pic.empty.LegalRun false ([.addEdge o o [], .removeEdge o o] : List (NOp A)) ∧
    nrun r (fun _ => r) (Net.empty false) ([.addEdge o o [], .removeEdge o o] : List (NOp A)) = none := by
  constructor
  · simp [Pic.LegalRun, Pic.Legal, Pic.step, Same]
  · simp [nrun, nstep, Net.addEdge, Net.put, Net.addKey, Net.removeEdge, Net.forget, crosses, Net.removeKey, Graph.removeEdge, Graph.addEdge, Net.empty, Graph.empty,
      Graph.slot, Graph.addNode, Graph.hasEdge, Assoc.get_cons]

/-- C42 is violated: in a directed network an edge from a node to itself is counted twice by `num_edges`, although it is one edge. -/
theorem C42_violation_num_edges (r : Nat) (o : Obj) :
    ∃ N : Net A, nrun r (fun _ => r) (Net.empty true) [.addEdge o o []] = some N ∧ N.edgeCount = 1 ∧ N.g.numEdges o = some 2 := by
  refine ⟨_, rfl, ?_, ?_⟩
  · simp [Net.edgeCount, Net.addEdge, Net.put, Net.addKey, Graph.addEdge, Net.empty, Graph.empty, Graph.slot, Graph.addNode]
  · simp [Graph.numEdges, Graph.edgesOf, Graph.outEdges, Graph.inEdges, Net.addEdge, Net.put, Net.addKey, Graph.addEdge, Net.empty, Graph.empty, Graph.slot,
      Graph.addNode]

/-- A history with all of the operations, of an undirected network of local agents and a ghost. -/
example :
    let a : Obj := ⟨0, 0⟩; let b : Obj := ⟨1, 1⟩; let c : Obj := ⟨2, 2⟩; let g : Obj := ⟨9, 3⟩
    let ops : List (NOp Nat) := [.add a, .addNodes [b, c], .addEdge a b [(0, 5)], .addEdge b a [(1, 6)], .addEdge c a [], .updateEdge b a [(0, 7)], .addEdge c g [(0, 1)], .remove c, .addEdge c b [],
      .addEdge a a [], .removeEdge b c]
    (nrun 0 (fun o => if o = g then 1 else 0) (Net.empty false) ops).map (fun N => (N.g.attr a b, N.g.attr a c, N.g.numEdges a, N.nodeCount, N.edgeCount)) =
      some (some [(0, 7), (1, 6)], none, some 2, 4, 2) ∧ (Pic.empty.run false ops).link b a = some [(0, 7), (1, 6)] := by decide +kernel

/-- A history that meets the hypotheses of `C42_exceptions_partial`, with a call that refers to an edge that was removed. -/
example :
    let a : Obj := ⟨0, 0⟩; let b : Obj := ⟨1, 1⟩
    let ops : List (NOp Nat) := [.addNodes [a, b], .addEdge a b [(0, 5)], .updateEdge b a [(0, 7)], .removeEdge b a]
    (∀ o ∈ ops, Plain false o) ∧ (nrun 0 (fun _ => 0) (Net.empty false) ops).isSome = true ∧
      nrun 0 (fun _ => 0) (Net.empty false) (ops ++ [.updateEdge a b [(0, 1)]]) = none := by
  refine ⟨?_, by decide +kernel, by decide +kernel⟩
  simp [Plain]

end Repast.Network
