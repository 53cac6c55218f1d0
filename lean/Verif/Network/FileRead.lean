import Verif.Network.FileText
import Verif.Network.DupSynch
import Verif.Checkpoint.NetworkProps

/-! C44: what one rank does when it reads a network file. -/
namespace Repast.Network
open Repast.Dict Repast.Context

variable {S A : Type} {d : Bool} {n : Nat}

/-- The rank that a node is on: the one in the file; if there is one rank only, this one. -/
def rankOf (n : Nat) (x : GNode A × Nat) : Nat := if n = 1 then 0 else x.2

/-- The agent that is made from a node. -/
def made (make : Nat → Nat → Nat → Attr A → S) (x : GNode A × Nat) : S := make x.1.id (x.1.agentType.getD 0) x.2 x.1.attrs

/-- A graph, with an assignment of its nodes to ranks, that can be written and read: -/
structure Written (n : Nat) (J : Json A) (name : Text) (d : Bool) (nodes : List (GNode A × Nat)) (edges : List (Nat × Nat × Attr A)) : Prop where
  -- the name has no spaces or newlines
  name : ' ' ∉ name ∧ '\n' ∉ name
  -- nodes are distinct
  ids : (nodes.map (·.1.id)).Nodup
  -- no negative agent types
  types : ∀ x ∈ nodes, ∀ t, x.1.type = some t → 0 ≤ t
  -- the ranks exist, or there is only one
  ranks : n = 1 ∨ ∀ x ∈ nodes, x.2 < n
  -- the attributes have no nested dictionaries, and `loads` inverts `dumps`
  nodeAttrs : ∀ x ∈ nodes, J.Good x.1.attrs
  edgeAttrs : ∀ e ∈ edges, J.Good e.2.2
  -- edges are between nodes, and there is at most one edge between two nodes
  ends : ∀ e ∈ edges, (∃ x ∈ nodes, x.1.id = e.1) ∧ ∃ x ∈ nodes, x.1.id = e.2.1
  once : edges.Pairwise fun e f => ¬ SameN d e.1 e.2.1 f.1 f.2.1
  keys : ∀ e ∈ edges, (Dict.keys e.2.2).Nodup

/-- The agents of rank `r`. -/
def agentsOf (n : Nat) (make : Nat → Nat → Nat → Attr A → S) (nodes : List (GNode A × Nat)) (r u : Nat) : Option S :=
  (nodes.find? fun x => decide (x.1.id = u ∧ rankOf n x = r)).map (made make)

/-- The edges. -/
def edgeOf (d : Bool) (edges : List (Nat × Nat × Attr A)) (u v : Nat) : Option (Attr A) := (edges.find? fun e => decide (SameN d e.1 e.2.1 u v)).map (·.2.2)

variable {J : Json A} {name : Text} {nodes : List (GNode A × Nat)} {edges : List (Nat × Nat × Attr A)} {make : Nat → Nat → Nat → Attr A → S}

theorem agentsOf_isSome {r u : Nat} : (agentsOf n make nodes r u).isSome = true ↔ ∃ x ∈ nodes, x.1.id = u ∧ rankOf n x = r := by
  unfold agentsOf
  rw [Option.isSome_map, List.find?_isSome]
  simp

theorem eq_of_id (h : (nodes.map (·.1.id)).Nodup) {x y : GNode A × Nat} (hx : x ∈ nodes) (hy : y ∈ nodes) (he : x.1.id = y.1.id) : x = y := by
  induction nodes with
  | nil => cases hx
  | cons z zs ih =>
    rw [List.map_cons, List.nodup_cons] at h
    rcases List.mem_cons.1 hx with rfl | hx' <;> rcases List.mem_cons.1 hy with rfl | hy'
    · rfl
    · exact absurd (List.mem_map.2 ⟨y, hy', he.symm⟩) h.1
    · exact absurd (List.mem_map.2 ⟨x, hx', he⟩) h.1
    · exact ih h.2 hx' hy'

theorem agentsOf_some (h : (nodes.map (·.1.id)).Nodup) {r u : Nat} {s : S} : agentsOf n make nodes r u = some s ↔ ∃ x ∈ nodes, x.1.id = u ∧ rankOf n x = r ∧ made make x = s := by
  unfold agentsOf
  constructor
  · intro hh
    obtain ⟨x, hx, rfl⟩ := Option.map_eq_some_iff.1 hh
    have h1 : x.1.id = u ∧ rankOf n x = r := by simpa using List.find?_some hx
    exact ⟨x, List.mem_of_find?_eq_some hx, h1.1, h1.2, rfl⟩
  · rintro ⟨x, hx, h1, h2, rfl⟩
    cases hf : nodes.find? (fun x => decide (x.1.id = u ∧ rankOf n x = r)) with
    | none =>
      have := List.find?_eq_none.1 hf x hx
      simp [h1, h2] at this
    | some y =>
      have h3 : y.1.id = u ∧ rankOf n y = r := by simpa using List.find?_some hf
      rw [eq_of_id h hx (List.mem_of_find?_eq_some hf) (h1.trans h3.1.symm)]
      rfl

theorem Written.type (h : Written n J name d nodes edges) {x : GNode A × Nat} (hx : x ∈ nodes) : ∃ t, x.1.agentType = some t := by
  unfold GNode.agentType
  cases ht : x.1.type with
  | none => exact ⟨0, rfl⟩
  | some t => exact ⟨t.toNat, by simp only; rw [if_neg (Int.not_lt.2 (h.types x hx t ht))]⟩

theorem edgeOf_sym (d : Bool) (edges : List (Nat × Nat × Attr A)) (hd : d = false) (u v : Nat) : edgeOf d edges u v = edgeOf d edges v u := by
  unfold edgeOf
  congr 2
  funext e
  unfold SameN
  subst hd
  simp only [decide_eq_decide, true_and]
  exact Or.comm

theorem edgeOf_mem (h : edges.Pairwise fun e f => ¬ SameN d e.1 e.2.1 f.1 f.2.1) {u v : Nat} {a : Attr A} : edgeOf d edges u v = some a ↔ ∃ e ∈ edges, SameN d e.1 e.2.1 u v ∧ e.2.2 = a := by
  unfold edgeOf
  constructor
  · intro hh
    obtain ⟨e, he, rfl⟩ := Option.map_eq_some_iff.1 hh
    exact ⟨e, List.mem_of_find?_eq_some he, by simpa using List.find?_some he, rfl⟩
  · rintro ⟨e, he, hs, rfl⟩
    induction edges with
    | nil => cases he
    | cons f fs ih =>
      obtain ⟨h1, h2⟩ := List.pairwise_cons.1 h
      rw [List.find?_cons]
      by_cases hf : SameN d f.1 f.2.1 u v
      · rw [decide_eq_true hf]
        rcases List.mem_cons.1 he with rfl | he'
        · rfl
        · exact absurd (hf.trans hs.symm) (h1 e he')
      · rw [decide_eq_false hf]
        rcases List.mem_cons.1 he with rfl | he'
        · exact absurd hs hf
        · exact ih h2 he'

theorem Written.edge_keys (h : Written n J name d nodes edges) : ∀ u v a, edgeOf d edges u v = some a → (Dict.keys a).Nodup := by
  intro u v a hh
  obtain ⟨e, he, -, rfl⟩ := (edgeOf_mem h.once).1 hh
  exact h.keys e he

/-! ### The lines of the file -/

/-- What rank `r` does with a node. -/
def Reading.gnode (n : Nat) (J : Json A) (make : Nat → Nat → Nat → Attr A → S) (g : Reading S A) (x : GNode A × Nat) : Option (Reading S A) :=
  g.node n J make (x.1.id, x.1.agentType.getD 0, x.2, J.text x.1.attrs)

def Reading.gedge (J : Json A) (g : Reading S A) (e : Nat × Nat × Attr A) : Option (Reading S A) := g.edge J (e.1, e.2.1, J.text e.2.2)

theorem Written.nodeLines (h : Written n J name d nodes edges) : ∀ ns : List (GNode A × Nat), (∀ x ∈ ns, x ∈ nodes) → ∃ ls : List Text, ns.mapM J.nodeLine = some ls ∧ (∀ l ∈ ls, '\n' ∉ l) ∧
    ∀ g : Reading S A, ls.foldlM (Reading.line n J make) (true, g) = (ns.foldlM (Reading.gnode n J make) g).map fun g => (true, g) := by
  intro ns
  induction ns with
  | nil => intro _; exact ⟨[], rfl, by simp, fun g => rfl⟩
  | cons x ns ih =>
    intro hns
    obtain ⟨ls, h1, h2, h3⟩ := ih fun y hy => hns y (List.mem_cons_of_mem _ hy)
    have hx := hns x (List.mem_cons_self ..)
    obtain ⟨t, ht⟩ := h.type hx
    obtain ⟨l, hl, hp⟩ := parseNode_nodeLine (h.nodeAttrs x hx) ht
    obtain ⟨o1, o2, o3⟩ := nodeLine_ok (h.nodeAttrs x hx) hl
    refine ⟨l :: ls, ?_, ?_, ?_⟩
    · rw [List.mapM_cons, hl, h1]; rfl
    · intro l' hl'
      rcases List.mem_cons.1 hl' with rfl | hl'
      · exact o2
      · exact h2 l' hl'
    · intro g
      rw [List.foldlM_cons, List.foldlM_cons]
      have hline : Reading.line n J make (true, g) l = (g.gnode n J make x).map fun g => (true, g) := by
        unfold Reading.line Reading.gnode
        simp only [o1, if_true]
        rw [if_neg o3, hp, ht]
        rfl
      rw [hline]
      cases g.gnode n J make x with
      | none => rfl
      | some g' => exact h3 g'

theorem Written.edgeLines (h : Written n J name d nodes edges) : ∀ es : List (Nat × Nat × Attr A), (∀ e ∈ es, e ∈ edges) → (∀ l ∈ es.map J.edgeLine, '\n' ∉ l) ∧
    ∀ g : Reading S A, (es.map J.edgeLine).foldlM (Reading.line n J make) (false, g) = (es.foldlM (Reading.gedge J) g).map fun g => (false, g) := by
  intro es
  induction es with
  | nil => intro _; exact ⟨by simp, fun g => rfl⟩
  | cons e es ih =>
    intro hes
    obtain ⟨h2, h3⟩ := ih fun y hy => hes y (List.mem_cons_of_mem _ hy)
    have he := hes e (List.mem_cons_self ..)
    obtain ⟨o1, o2⟩ := edgeLine_ok (h.edgeAttrs e he)
    refine ⟨?_, ?_⟩
    · intro l hl
      rw [List.map_cons] at hl
      rcases List.mem_cons.1 hl with rfl | hl
      · exact o2
      · exact h2 l hl
    · intro g
      rw [List.map_cons, List.foldlM_cons, List.foldlM_cons]
      have hline : Reading.line n J make (false, g) (J.edgeLine e) = (g.gedge J e).map fun g => (false, g) := by
        unfold Reading.line Reading.gedge
        simp only [o1, Bool.false_eq_true, if_false]
        rw [parseEdge_edgeLine (h.edgeAttrs e he)]
        rfl
      rw [hline]
      cases g.gedge J e with
      | none => rfl
      | some g' => exact h3 g'

theorem headLine_newline {name : Text} (h : '\n' ∉ name) (d : Bool) : '\n' ∉ headLine name d := by
  unfold headLine
  intro hh
  rcases List.mem_append.1 hh with hh | hh
  · exact h hh
  · revert hh; cases d <;> decide

/-- The file, and what rank `r` reads. -/
theorem Written.lines (h : Written n J name d nodes edges) (make : Nat → Nat → Nat → Attr A → S) : ∃ t, J.writeFile name d nodes edges = some t ∧
    ∀ r, readLines n J make t r = (nodes.foldlM (Reading.gnode n J make) ⟨Cx.init r [d], [], [], [], []⟩).bind fun g => edges.foldlM (Reading.gedge J) g := by
  obtain ⟨ls, h1, h2, h3⟩ := h.nodeLines (make := make) nodes (fun _ hx => hx)
  obtain ⟨e2, e3⟩ := h.edgeLines (make := make) edges (fun _ hx => hx)
  refine ⟨_, by unfold Json.writeFile; rw [h1]; rfl, ?_⟩
  intro r
  unfold readLines
  rw [fileLines_unlines]
  · simp only [List.cons_append]
    rw [parseHead_headLine h.name.1, Option.bind_some, List.foldlM_append, h3]
    cases nodes.foldlM (Reading.gnode n J make) ⟨Cx.init r [d], [], [], [], []⟩ with
    | none => rfl
    | some g =>
      rw [Option.map_some]
      show Option.map _ (Option.bind (some (true, g)) _) = _
      rw [Option.bind_some, List.foldlM_cons]
      have : Reading.line n J make (true, g) "EDGES".toList = some (false, g) := by
        unfold Reading.line
        have hs : strip "EDGES".toList = "EDGES".toList := by decide
        simp only [hs, if_true]
      rw [this]
      show Option.map (fun x : Bool × Reading S A => x.2) (Option.bind (some (false, g)) _) = _
      rw [Option.bind_some]
      rw [e3, Option.map_map]
      show Option.map (fun g => g) _ = _
      rw [Option.map_id']
      rfl
  · intro l hl
    rw [List.cons_append, List.mem_cons, List.mem_append, List.mem_cons] at hl
    rcases hl with rfl | hl | rfl | hl
    · exact headLine_newline h.name.2 d
    · exact h2 l hl
    · decide
    · exact e2 l hl

/-! ### The nodes -/

theorem bare_set {L : Nat → Nat → Option S} {r u : Nat} {s : S} {X : RV S A} (hX : X = bare L r) {L' : Nat → Nat → Option S} (hL : ∀ x, L' r x = if x = u then some s else L r x) :
    ({ X with loc := fun x => if x = u then some s else X.loc x, net := { X.net with has := fun x => X.net.has x || decide (x = u) } } : RV S A) = bare L' r := by
  subst hX
  have h1 : (fun x => if x = u then some s else (bare (A := A) L r).loc x) = L' r := by
    funext x; rw [hL]; rfl
  have h2 : (fun x => (bare (A := A) L r).net.has x || decide (x = u)) = fun x => (L' r x).isSome := by
    funext x
    rw [hL]
    show ((L r x).isSome || _) = _
    by_cases hx : x = u <;> simp [hx]
  rw [h1, h2]
  rfl

/-- What a rank has read. -/
structure HasRead (n : Nat) (d : Bool) (make : Nat → Nat → Nat → Attr A → S) (r : Nat) (nodes : List (GNode A × Nat)) (g : Reading S A) : Prop where
  agents : ∀ u, u ∈ g.agents ↔ (agentsOf n make nodes r u).isSome = true
  remote : ∀ u k, get g.remote u = some k ↔ ∃ x ∈ nodes, x.1.id = u ∧ rankOf n x = k ∧ k ≠ r

theorem rankOf_iff {r : Nat} (hr : r < n) (x : GNode A × Nat) : (x.2 = r ∨ n = 1) ↔ rankOf n x = r := by
  unfold rankOf
  split
  · constructor
    · intro _; omega
    · intro _; omega
  · constructor
    · rintro (h | h)
      · exact h
      · contradiction
    · exact Or.inl

theorem Written.readNodes (h : Written n J name d nodes edges) {r : Nat} (hr : r < n) :
    ∃ g, nodes.foldlM (Reading.gnode n J make) ⟨Cx.init r [d], [], [], [], []⟩ = some g ∧ COk d Pend.none g.cx ∧ g.cx.v = bare (agentsOf n make nodes) r ∧ HasRead n d make r nodes g ∧
      g.requested = [] ∧ g.edges = [] := by
  refine foldM_sim (f := Reading.gnode n J make) (fun pre g => COk d Pend.none g.cx ∧ g.cx.v = bare (agentsOf n make pre) r ∧ HasRead n d make r pre g ∧ g.requested = [] ∧ g.edges = []) nodes ?_ _
    ⟨COk.init d _ r, rfl, ⟨by intro u; rw [agentsOf_isSome]; simp, by intro u k; simp⟩, rfl, rfl⟩
  rintro pre x suf hl g ⟨h1, h2, h3, h4, h5⟩
  have hx : x ∈ nodes := by rw [hl]; simp
  have hids : ∀ y ∈ pre, y.1.id ≠ x.1.id := by
    have := h.ids
    rw [hl, List.map_append, List.nodup_append] at this
    intro y hy
    exact this.2.2 _ (List.mem_map.2 ⟨y, hy, rfl⟩) _ (by rw [List.map_cons]; exact List.mem_cons_self ..)
  have hnone : ∀ k, agentsOf n make pre k x.1.id = none := by
    intro k
    cases hh : agentsOf n make pre k x.1.id with
    | none => rfl
    | some s =>
      obtain ⟨y, hy, h6, -⟩ := agentsOf_isSome.1 (by rw [hh]; rfl : (agentsOf n make pre k x.1.id).isSome = true)
      exact absurd h6 (hids y hy)
  have hrank : g.cx.rank = r := congrArg RV.rank h2
  unfold Reading.gnode Reading.node
  simp only [hrank]
  by_cases hloc : rankOf n x = r
  · rw [if_pos ((rankOf_iff hr x).2 hloc), read_text (h.nodeAttrs x hx)]
    have ha := h1.add (u := x.1.id) (by rw [h2]; exact hnone r) (by rw [h2]; rfl) (made make x)
    refine ⟨_, rfl, ha.1, ?_, ?_, h4, h5⟩
    · refine ha.2.trans (bare_set h2 ?_)
      intro y
      unfold agentsOf
      rw [find?_snoc]
      by_cases hy : y = x.1.id
      · subst hy
        rw [if_pos rfl]
        have : pre.find? (fun y => decide (y.1.id = x.1.id ∧ rankOf n y = r)) = none := by
          have := hnone r
          unfold agentsOf at this
          exact Option.map_eq_none_iff.1 this
        rw [this]
        simp only [hloc, and_self, decide_true, if_true, Option.map_some]
      · rw [if_neg hy]
        cases pre.find? (fun x => decide (x.1.id = y ∧ rankOf n x = r)) with
        | some z => rfl
        | none => simp [Ne.symm hy]
    · refine ⟨?_, ?_⟩
      · intro u
        show u ∈ g.agents ++ [x.1.id] ↔ _
        rw [List.mem_append, h3.agents, agentsOf_isSome, agentsOf_isSome, List.mem_singleton]
        constructor
        · rintro (⟨y, hy, hh⟩ | rfl)
          · exact ⟨y, List.mem_append_left _ hy, hh⟩
          · exact ⟨x, by simp, rfl, hloc⟩
        · rintro ⟨y, hy, hh⟩
          rcases List.mem_append.1 hy with hy | hy
          · exact .inl ⟨y, hy, hh⟩
          · rw [List.mem_singleton] at hy
            subst hy
            exact .inr hh.1.symm
      · intro u k
        show get g.remote u = some k ↔ _
        rw [h3.remote]
        constructor
        · rintro ⟨y, hy, hh⟩
          exact ⟨y, List.mem_append_left _ hy, hh⟩
        · rintro ⟨y, hy, hh⟩
          rcases List.mem_append.1 hy with hy | hy
          · exact ⟨y, hy, hh⟩
          · rw [List.mem_singleton] at hy
            subst hy
            exact absurd (hh.2.1.symm.trans hloc) hh.2.2
  · rw [if_neg (fun hh => hloc ((rankOf_iff hr x).1 hh))]
    have hn1 : n ≠ 1 := fun e => hloc ((rankOf_iff hr x).1 (.inr e))
    have hx2 : rankOf n x = x.2 := if_neg hn1
    have hsame : ∀ u, agentsOf n make (pre ++ [x]) r u = agentsOf n make pre r u := by
      intro u
      unfold agentsOf
      rw [find?_snoc]
      cases pre.find? (fun x => decide (x.1.id = u ∧ rankOf n x = r)) with
      | some z => rfl
      | none => simp [hloc]
    refine ⟨_, rfl, h1, ?_, ?_, h4, h5⟩
    · rw [h2]
      unfold bare
      rw [show agentsOf n make (pre ++ [x]) r = agentsOf n make pre r from funext hsame]
    · refine ⟨?_, ?_⟩
      · intro u
        rw [hsame]
        exact h3.agents u
      · intro u k
        show get (Dict.set g.remote x.1.id x.2) u = some k ↔ _
        rw [get_set]
        by_cases hu : x.1.id = u
        · rw [if_pos hu]
          constructor
          · intro hh
            obtain rfl := Option.some.inj hh
            exact ⟨x, by simp, hu, hx2, by rw [← hx2]; exact hloc⟩
          · rintro ⟨y, hy, h6, h7, h8⟩
            rcases List.mem_append.1 hy with hy | hy
            · exact absurd (h6.trans hu.symm) (hids y hy)
            · rw [List.mem_singleton] at hy
              subst hy
              rw [← h7, hx2]
        · rw [if_neg hu, h3.remote]
          constructor
          · rintro ⟨y, hy, hh⟩
            exact ⟨y, List.mem_append_left _ hy, hh⟩
          · rintro ⟨y, hy, hh⟩
            rcases List.mem_append.1 hy with hy | hy
            · exact ⟨y, hy, hh⟩
            · rw [List.mem_singleton] at hy
              subst hy
              exact absurd hh.1 hu

/-! ### The edges -/

/-- Is the agent on rank `r`? -/
def isAt (n : Nat) (nodes : List (GNode A × Nat)) (r u : Nat) : Bool := nodes.any fun x => decide (x.1.id = u ∧ rankOf n x = r)

theorem isAt_iff {r u : Nat} : isAt n nodes r u = true ↔ ∃ x ∈ nodes, x.1.id = u ∧ rankOf n x = r := by
  unfold isAt
  rw [List.any_eq_true]
  simp

theorem isAt_loc {r u : Nat} : (agentsOf n make nodes r u).isSome = isAt n nodes r u := by
  rw [Bool.eq_iff_iff, agentsOf_isSome, isAt_iff]

/-- Both ends are on rank `r`. -/
def bothAt (n : Nat) (nodes : List (GNode A × Nat)) (r : Nat) (e : Nat × Nat × Attr A) : Bool := isAt n nodes r e.1 && isAt n nodes r e.2.1

/-- One end is on rank `r`. -/
def oneAt (n : Nat) (nodes : List (GNode A × Nat)) (r : Nat) (e : Nat × Nat × Attr A) : Bool := isAt n nodes r e.1 != isAt n nodes r e.2.1

/-- The rank of a node. -/
def whereIs (n : Nat) (nodes : List (GNode A × Nat)) (u : Nat) : Nat := ((nodes.find? fun x => decide (x.1.id = u)).map (rankOf n)).getD 0

theorem whereIs_eq (h : (nodes.map (·.1.id)).Nodup) {x : GNode A × Nat} (hx : x ∈ nodes) : whereIs n nodes x.1.id = rankOf n x := by
  unfold whereIs
  cases hf : nodes.find? (fun y => decide (y.1.id = x.1.id)) with
  | none =>
    have := List.find?_eq_none.1 hf x hx
    simp at this
  | some y =>
    have h1 : y.1.id = x.1.id := by simpa using List.find?_some hf
    rw [eq_of_id h (List.mem_of_find?_eq_some hf) hx h1]; rfl

/-- What rank `r` requests for an edge. -/
def wants (n : Nat) (nodes : List (GNode A × Nat)) (r : Nat) (e : Nat × Nat × Attr A) : Nat × Nat :=
  if isAt n nodes r e.1 then (e.2.1, whereIs n nodes e.2.1) else (e.1, whereIs n nodes e.1)

/-- What is read of an edge. -/
def Json.raw (J : Json A) (e : Nat × Nat × Attr A) : Nat × Nat × Option Text := (e.1, e.2.1, J.text e.2.2)

def pairOf (e : Nat × Nat × Attr A) : Nat × Nat := (e.1, e.2.1)

theorem Written.remote (h : Written n J name d nodes edges) {r u : Nat} {g : Reading S A} (hg : HasRead n d make r nodes g) (hu : ∃ x ∈ nodes, x.1.id = u) (hl : isAt n nodes r u = false) :
    get g.remote u = some (whereIs n nodes u) := by
  obtain ⟨x, hx, rfl⟩ := hu
  rw [hg.remote]
  refine ⟨x, hx, rfl, (whereIs_eq h.ids hx).symm, ?_⟩
  rw [whereIs_eq h.ids hx]
  intro hr
  rw [isAt_iff.2 ⟨x, hx, rfl, hr⟩] at hl
  cases hl

theorem Written.readEdges (h : Written n J name d nodes edges) {r : Nat} {g0 : Reading S A} (h1 : COk d Pend.none g0.cx) (h2 : g0.cx.v = bare (agentsOf n make nodes) r) (h3 : HasRead n d make r nodes g0)
    (h4 : g0.requested = []) (h5 : g0.edges = []) :
    ∃ g, edges.foldlM (Reading.gedge J) g0 = some g ∧ COk d Pend.none g.cx ∧ g.cx.v = (bare (agentsOf n make nodes) r : RV S A).filled d (edgeOf d edges) ((edges.filter (bothAt n nodes r)).map pairOf) [] ∧
      HasRead n d make r nodes g ∧ g.requested = (edges.filter (oneAt n nodes r)).map (wants n nodes r) ∧ g.edges = (edges.filter (oneAt n nodes r)).map J.raw := by
  refine foldM_sim (f := Reading.gedge J) (fun pre g => COk d Pend.none g.cx ∧
      g.cx.v = (bare (agentsOf n make nodes) r : RV S A).filled d (edgeOf d edges) ((pre.filter (bothAt n nodes r)).map pairOf) [] ∧
      HasRead n d make r nodes g ∧ g.requested = (pre.filter (oneAt n nodes r)).map (wants n nodes r) ∧ g.edges = (pre.filter (oneAt n nodes r)).map J.raw) edges ?_ g0 ⟨h1, ?_, h3, h4, h5⟩
  · rintro pre e suf hl g ⟨g1, g2, g3, g4, g5⟩
    have he : e ∈ edges := by rw [hl]; simp
    have hag : ∀ u, u ∈ g.agents ↔ isAt n nodes r u = true := by intro u; rw [g3.agents, isAt_loc]
    have hT : edgeOf d edges e.1 e.2.1 = some e.2.2 := (edgeOf_mem h.once).2 ⟨e, he, SameN.refl _ _ _, rfl⟩
    obtain ⟨n1, n2⟩ := h.ends e he
    unfold Reading.gedge Reading.edge
    simp only [hag]
    rw [List.filter_append, List.filter_append]
    cases a1 : isAt n nodes r e.1 <;> cases a2 : isAt n nodes r e.2.1
    · rw [if_neg (by simp), if_neg (by simp), if_neg (by simp)]
      have b1 : bothAt n nodes r e = false := by unfold bothAt; rw [a1]; rfl
      have b2 : oneAt n nodes r e = false := by unfold oneAt; rw [a1, a2]; rfl
      refine ⟨g, rfl, g1, ?_, g3, ?_, ?_⟩
      · simpa [b1] using g2
      · simpa [b2] using g4
      · simpa [b2] using g5
    · rw [if_neg (by simp), if_neg (by simp), if_pos rfl, h.remote g3 n1 a1]
      have b1 : bothAt n nodes r e = false := by unfold bothAt; rw [a1]; rfl
      have b2 : oneAt n nodes r e = true := by unfold oneAt; rw [a1, a2]; rfl
      refine ⟨_, rfl, g1, ?_, ⟨g3.agents, g3.remote⟩, ?_, ?_⟩
      · simpa [b1] using g2
      · simp [b2, g4, wants, a1]
      · simp [b2, g5, Json.raw]
    · rw [if_neg (by simp), if_pos rfl, h.remote g3 n2 a2]
      have b1 : bothAt n nodes r e = false := by unfold bothAt; rw [a1, a2]; rfl
      have b2 : oneAt n nodes r e = true := by unfold oneAt; rw [a1, a2]; rfl
      refine ⟨_, rfl, g1, ?_, ⟨g3.agents, g3.remote⟩, ?_, ?_⟩
      · simpa [b1] using g2
      · simp [b2, g4, wants, a1]
      · simp [b2, g5, Json.raw]
    · rw [if_pos ⟨rfl, rfl⟩, read_text (h.edgeAttrs e he), Option.bind_some]
      have b1 : bothAt n nodes r e = true := by unfold bothAt; rw [a1, a2]; rfl
      have b2 : oneAt n nodes r e = false := by unfold oneAt; rw [a1, a2]; rfl
      obtain ⟨c', new', e1, e2, e3, e4⟩ := g1.addFilled (X := (bare (agentsOf n make nodes) r : RV S A)) (edgeOf_sym d edges) h.edge_keys rfl g2 hT (by show (agentsOf n make nodes r e.1).isSome = true; rw [isAt_loc]; exact a1)
        (by show (agentsOf n make nodes r e.2.1).isSome = true; rw [isAt_loc]; exact a2)
      have e5 : new' = [] := e4 (by
        show ((agentsOf n make nodes r e.1).isSome != (agentsOf n make nodes r e.2.1).isSome) = false
        rw [isAt_loc, isAt_loc, a1, a2]; rfl)
      refine ⟨{ g with cx := c' }, by rw [e1]; rfl, e2, ?_, ⟨g3.agents, g3.remote⟩, ?_, ?_⟩
      · rw [e3, e5]
        simp [b1, pairOf]
      · simpa [b2] using g4
      · simpa [b2] using g5
  · rw [h2]
    unfold RV.filled fill bare
    simp

end Repast.Network
