import Verif.Network.GraphProps

/-! What one network looks like if agents are identified by their unique ids. Used for C43. -/
namespace Repast.Network
open Repast.Dict

variable {A : Type}

/-- The pairs of unique ids are the same edge. -/
def SameN (d : Bool) (a b u v : Nat) : Prop := a = u ∧ b = v ∨ d = false ∧ a = v ∧ b = u

instance (d : Bool) (a b u v : Nat) : Decidable (SameN d a b u v) := by unfold SameN; infer_instance

def uu (k : EKey) : Nat × Nat := (k.1.uid, k.2.uid)

/-- Insert into a list that represents a set. -/
def ins {α : Type} [DecidableEq α] (l : List α) (x : α) : List α := if x ∈ l then l else l ++ [x]

theorem mem_ins {α : Type} [DecidableEq α] (l : List α) (x y : α) : y ∈ ins l x ↔ y ∈ l ∨ y = x := by
  unfold ins; split <;> simp_all

/-- A network of a rank, with unique ids. -/
structure NV (A : Type) where
  has : Nat → Bool
  edge : Nat → Nat → Option (Attr A)
  /-- edges that the next `synchronize` sends -/
  new : List (Nat × Nat)
  upd : List (Nat × Nat)
  /-- edges whose removal the next `synchronize` sends -/
  rem : List (Nat × Nat)
  /-- edges that were sent -/
  syn : List (Nat × Nat)

/-- The node with a unique id. -/
def Net.node (N : Net A) (u : Nat) : Option Obj := N.g.nodes.find? (fun o => decide (o.uid = u))

def Net.e (N : Net A) (u v : Nat) : Option (Attr A) := (N.node u).bind fun a => (N.node v).bind fun b => N.g.attr a b

def Net.v (N : Net A) : NV A where
  has u := (N.node u).isSome
  edge := N.e
  new := (Assoc.keys N.newEdges).map uu
  upd := N.toUpdate.map uu
  rem := (Assoc.keys N.toRemove).map uu
  syn := (Assoc.keys N.ghosted).map uu

/-- `o1` is local and `o2` is a ghost, or the other way around. -/
def Crosses (r : Nat) (lr : Obj → Nat) (k : EKey) : Prop := lr k.1 = r ∧ lr k.2 ≠ r ∨ lr k.1 ≠ r ∧ lr k.2 = r

theorem crosses_iff (r : Nat) (lr : Obj → Nat) (u v : Obj) : crosses r lr u v = true ↔ Crosses r lr (u, v) := by simp [crosses, Crosses]

/-- An entry of `new_edges` or `ghosted_edges`. -/
def Entry (r : Nat) (lr : Obj → Nat) (N : Net A) (e : EKey × GEdge) : Prop :=
  N.g.slot e.1.1 e.1.2 = some e.2.dict ∧
  (lr e.1.1 = r ∧ lr e.1.2 ≠ r ∧ e.2.localA = e.1.1 ∧ e.2.ghostA = e.1.2 ∨ lr e.1.1 ≠ r ∧ lr e.1.2 = r ∧ e.2.localA = e.1.2 ∧ e.2.ghostA = e.1.1)

/-- What is pending after movements of agents: `mv` are the agents that were moved, `hid` the ghosts that are not yet in the network, the others are fields of the network. -/
structure Pend (A : Type) where
  mv : Nat → Prop
  hid : Nat → Bool
  moved : List (Nat × Nat × Attr A)
  noLonger : List (Nat × Nat)
  toRef : List Obj

/-- Nothing was moved. -/
def Pend.none : Pend A := ⟨fun _ => False, fun _ => false, [], [], []⟩

/-- What holds of the network of a rank. -/
structure NetOk (d : Bool) (Q : Pend A) (r : Nat) (lr : Obj → Nat) (N : Net A) : Prop where
  inv : N.g.Inv
  dir : N.g.directed = d
  moved : N.movedEdges = Q.moved
  noLonger : N.noLonger = Q.noLonger
  toRef : N.toRef = Q.toRef
  uniq : ∀ a ∈ N.g.nodes, ∀ b ∈ N.g.nodes, a.uid = b.uid → a = b
  keys : KeysOk N
  sym : ∀ u v, Assoc.get N.keys (u, v) = Assoc.get N.keys (v, u)
  hasKey : d = false → ∀ u v, N.g.hasEdge u v = true → (Assoc.get N.keys (u, v)).isSome = true
  new : ∀ e ∈ N.newEdges, Entry r lr N e
  newOk : Assoc.Ok N.newEdges
  syn : ∀ e ∈ N.ghosted, Entry r lr N e
  synOk : Assoc.Ok N.ghosted
  upd : ∀ k ∈ N.toUpdate, k ∈ Assoc.keys N.newEdges ∨ k ∈ Assoc.keys N.ghosted
  rem : ∀ e ∈ N.toRemove, e.1.1 ∈ N.g.nodes ∧ e.1.2 ∈ N.g.nodes ∧ Crosses r lr e.1 ∧ e.2 = decide (lr e.1.2 ≠ r) ∧ N.g.slot e.1.1 e.1.2 = none
  remOk : Assoc.Ok N.toRemove
  canon : ∀ k, k ∈ Assoc.keys N.newEdges ∨ k ∈ Assoc.keys N.ghosted → ∀ key, N.edgeKey k = some key → key ∈ Assoc.keys N.newEdges ∨ key ∈ Assoc.keys N.ghosted

theorem node_iff {N : Net A} (hu : ∀ a ∈ N.g.nodes, ∀ b ∈ N.g.nodes, a.uid = b.uid → a = b) (u : Nat) (o : Obj) : N.node u = some o ↔ o ∈ N.g.nodes ∧ o.uid = u := by
  unfold Net.node
  constructor
  · intro h
    exact ⟨List.mem_of_find?_eq_some h, by simpa using List.find?_some h⟩
  · rintro ⟨h1, h2⟩
    cases hf : N.g.nodes.find? (fun o => decide (o.uid = u)) with
    | none =>
      rw [List.find?_eq_none] at hf
      have := hf o h1
      simp [h2] at this
    | some x =>
      rw [hu x (List.mem_of_find?_eq_some hf) o h1 (by rw [h2]; simpa using List.find?_some hf)]

theorem has_iff {N : Net A} (hu : ∀ a ∈ N.g.nodes, ∀ b ∈ N.g.nodes, a.uid = b.uid → a = b) (u : Nat) : (N.node u).isSome = true ↔ ∃ o ∈ N.g.nodes, o.uid = u := by
  rw [Option.isSome_iff_exists]
  constructor
  · rintro ⟨o, ho⟩; exact ⟨o, (node_iff hu u o).1 ho⟩
  · rintro ⟨o, ho⟩; exact ⟨o, (node_iff hu u o).2 ho⟩

theorem attr_ends {g : Graph A} (h : g.Inv) {u v : Obj} {a : Attr A} (ha : g.attr u v = some a) : u ∈ g.nodes ∧ v ∈ g.nodes := by
  unfold Graph.attr at ha
  obtain ⟨i, hi, -⟩ := Option.map_eq_some_iff.1 ha
  exact slot_ends h hi

theorem e_some {N : Net A} (hi : N.g.Inv) (hu : ∀ a ∈ N.g.nodes, ∀ b ∈ N.g.nodes, a.uid = b.uid → a = b) (u v : Nat) (a : Attr A) :
    N.e u v = some a ↔ ∃ x y, x.uid = u ∧ y.uid = v ∧ N.g.attr x y = some a := by
  unfold Net.e
  simp only [Option.bind_eq_some_iff, node_iff hu]
  constructor
  · rintro ⟨x, ⟨-, h1⟩, y, ⟨-, h2⟩, h3⟩; exact ⟨x, y, h1, h2, h3⟩
  · rintro ⟨x, y, h1, h2, h3⟩
    have := attr_ends hi h3
    exact ⟨x, ⟨this.1, h1⟩, y, ⟨this.2, h2⟩, h3⟩

/-- The edge between two nodes. -/
theorem e_nodes {N : Net A} (hu : ∀ a ∈ N.g.nodes, ∀ b ∈ N.g.nodes, a.uid = b.uid → a = b) {x y : Obj} (hx : x ∈ N.g.nodes) (hy : y ∈ N.g.nodes) :
    N.e x.uid y.uid = N.g.attr x y := by
  unfold Net.e
  rw [(node_iff hu x.uid x).2 ⟨hx, rfl⟩, (node_iff hu y.uid y).2 ⟨hy, rfl⟩]; rfl

theorem option_ext' {α : Type} {a b : Option α} (h : ∀ x, a = some x ↔ b = some x) : a = b := Option.ext h

theorem sameN_uid {N : Net A} {d : Bool} (hu : ∀ a ∈ N.g.nodes, ∀ b ∈ N.g.nodes, a.uid = b.uid → a = b) {a b x y : Obj} (ha : a ∈ N.g.nodes) (hb : b ∈ N.g.nodes)
    (hx : x ∈ N.g.nodes) (hy : y ∈ N.g.nodes) : SameN d a.uid b.uid x.uid y.uid ↔ Same d a b x y := by
  unfold SameN Same
  constructor
  · rintro (⟨h1, h2⟩ | ⟨hd, h1, h2⟩)
    · exact .inl ⟨hu _ ha _ hx h1, hu _ hb _ hy h2⟩
    · exact .inr ⟨hd, hu _ ha _ hy h1, hu _ hb _ hx h2⟩
  · rintro (⟨rfl, rfl⟩ | ⟨hd, rfl, rfl⟩)
    · exact .inl ⟨rfl, rfl⟩
    · exact .inr ⟨hd, rfl, rfl⟩

/-- The same nodes. -/
theorem node_congr {N N' : Net A} (hu : ∀ a ∈ N.g.nodes, ∀ b ∈ N.g.nodes, a.uid = b.uid → a = b) (h : ∀ o, o ∈ N'.g.nodes ↔ o ∈ N.g.nodes) (u : Nat) : N'.node u = N.node u := by
  apply option_ext'
  intro o
  rw [node_iff hu, node_iff (by intro a ha b hb; exact hu a ((h a).1 ha) b ((h b).1 hb)), h]

/-- How the edges between unique ids change if the edges between objects change. -/
theorem e_congr {N N' : Net A} (hu : ∀ a ∈ N.g.nodes, ∀ b ∈ N.g.nodes, a.uid = b.uid → a = b) (h : ∀ o, o ∈ N'.g.nodes ↔ o ∈ N.g.nodes)
    {d : Bool} {a b : Obj} (ha : a ∈ N.g.nodes) (hb : b ∈ N.g.nodes) (f : Option (Attr A) → Option (Attr A))
    (he : ∀ x y, N'.g.attr x y = if Same d a b x y then f (N.g.attr x y) else N.g.attr x y) (u v : Nat) :
    N'.e u v = if SameN d a.uid b.uid u v then f (N.e u v) else N.e u v := by
  have key : ∀ x ∈ N.g.nodes, ∀ y ∈ N.g.nodes, x.uid = u → y.uid = v → N'.e u v = if SameN d a.uid b.uid u v then f (N.e u v) else N.e u v := by
    rintro x hx y hy rfl rfl
    rw [e_nodes hu hx hy]
    unfold Net.e
    rw [node_congr hu h, node_congr hu h, (node_iff hu x.uid x).2 ⟨hx, rfl⟩, (node_iff hu y.uid y).2 ⟨hy, rfl⟩]
    simp only [Option.bind_some, he]
    by_cases hs : Same d a b x y
    · rw [if_pos hs, if_pos ((sameN_uid hu ha hb hx hy).2 hs)]
    · rw [if_neg hs, if_neg (fun c => hs ((sameN_uid hu ha hb hx hy).1 c))]
  cases hx : N.node u with
  | none =>
    have e1 : N'.e u v = none := by unfold Net.e; rw [node_congr hu h, hx]; rfl
    have e2 : N.e u v = none := by unfold Net.e; rw [hx]; rfl
    rw [e1, e2, if_neg]
    rintro (⟨rfl, -⟩ | ⟨-, -, rfl⟩)
    · rw [(node_iff hu a.uid a).2 ⟨ha, rfl⟩] at hx; cases hx
    · rw [(node_iff hu b.uid b).2 ⟨hb, rfl⟩] at hx; cases hx
  | some x =>
    cases hy : N.node v with
    | none =>
      have e1 : N'.e u v = none := by unfold Net.e; rw [node_congr hu h, node_congr hu h, hy, hx]; rfl
      have e2 : N.e u v = none := by unfold Net.e; rw [hy, hx]; rfl
      rw [e1, e2, if_neg]
      rintro (⟨-, rfl⟩ | ⟨-, rfl, -⟩)
      · rw [(node_iff hu b.uid b).2 ⟨hb, rfl⟩] at hy; cases hy
      · rw [(node_iff hu a.uid a).2 ⟨ha, rfl⟩] at hy; cases hy
    | some y =>
      have h1 := (node_iff hu u x).1 hx
      have h2 := (node_iff hu v y).1 hy
      exact key x h1.1 y h2.1 h1.2 h2.2

end Repast.Network
