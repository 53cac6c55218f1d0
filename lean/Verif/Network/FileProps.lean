import Verif.Network.FileWorld

/-! C44: a network file that is written and read. -/
namespace Repast.Network
open Repast.Dict Repast.Context

variable {S A : Type} {d : Bool} {n : Nat} {J : Json A} {name : Text} {nodes : List (GNode A × Nat)} {edges : List (Nat × Nat × Attr A)} {make : Nat → Nat → Nat → Attr A → S}

/-! ### Where the nodes are -/

theorem isAt_uniq (h : (nodes.map (·.1.id)).Nodup) {r k u : Nat} (h1 : isAt n nodes r u = true) (h2 : isAt n nodes k u = true) : r = k := by
  obtain ⟨x, hx, hx1, rfl⟩ := isAt_iff.1 h1
  obtain ⟨y, hy, hy1, rfl⟩ := isAt_iff.1 h2
  rw [eq_of_id h hx hy (hx1.trans hy1.symm)]

theorem Written.lt (h : Written n J name d nodes edges) {x : GNode A × Nat} (hx : x ∈ nodes) (hn : 0 < n) : rankOf n x < n := by
  unfold rankOf
  split
  · exact hn
  · rename_i h1
    exact (h.ranks.resolve_left h1) x hx

theorem Written.at_ (h : Written n J name d nodes edges) {u : Nat} (hu : ∃ x ∈ nodes, x.1.id = u) : isAt n nodes (whereIs n nodes u) u = true := by
  obtain ⟨x, hx, rfl⟩ := hu
  exact isAt_iff.2 ⟨x, hx, rfl, (whereIs_eq h.ids hx).symm⟩

theorem Written.where_lt (h : Written n J name d nodes edges) {u : Nat} (hu : ∃ x ∈ nodes, x.1.id = u) (hn : 0 < n) : whereIs n nodes u < n := by
  obtain ⟨x, hx, rfl⟩ := hu
  rw [whereIs_eq h.ids hx]
  exact h.lt hx hn

theorem once_eq (h : edges.Pairwise fun e f => ¬ SameN d e.1 e.2.1 f.1 f.2.1) {e f : Nat × Nat × Attr A} (he : e ∈ edges) (hf : f ∈ edges) (hs : SameN d e.1 e.2.1 f.1 f.2.1) : e = f := by
  induction edges with
  | nil => cases he
  | cons g gs ih =>
    obtain ⟨h1, h2⟩ := List.pairwise_cons.1 h
    rcases List.mem_cons.1 he with rfl | he' <;> rcases List.mem_cons.1 hf with rfl | hf'
    · rfl
    · exact absurd hs (h1 f hf')
    · exact absurd hs.symm (h1 e he')
    · exact ih h2 he' hf'

/-! ### What the ranks have read -/

/-- The edges of rank `r` that the file has in its own part, and the others. -/
def owned (n : Nat) (nodes : List (GNode A × Nat)) (edges : List (Nat × Nat × Attr A)) (r : Nat) : List (Nat × Nat) := (edges.filter (bothAt n nodes r)).map pairOf
def shared (n : Nat) (nodes : List (GNode A × Nat)) (edges : List (Nat × Nat × Attr A)) (r : Nat) : List (Nat × Nat) := (edges.filter (oneAt n nodes r)).map pairOf
def asked (n : Nat) (nodes : List (GNode A × Nat)) (edges : List (Nat × Nat × Attr A)) (r : Nat) : List (Nat × Nat) := (edges.filter (oneAt n nodes r)).map (wants n nodes r)

/-- The views before agents are requested. -/
def atFirst (n : Nat) (d : Bool) (make : Nat → Nat → Nat → Attr A → S) (nodes : List (GNode A × Nat)) (edges : List (Nat × Nat × Attr A)) : Sp S A := fun r =>
  (bare (agentsOf n make nodes) r : RV S A).filled d (edgeOf d edges) (owned n nodes edges r) []

theorem mem_owned {r : Nat} {p : Nat × Nat} : p ∈ owned n nodes edges r ↔ ∃ e ∈ edges, bothAt n nodes r e = true ∧ pairOf e = p := by
  unfold owned
  simp only [List.mem_map, List.mem_filter, and_assoc]

theorem mem_shared {r : Nat} {p : Nat × Nat} : p ∈ shared n nodes edges r ↔ ∃ e ∈ edges, oneAt n nodes r e = true ∧ pairOf e = p := by
  unfold shared
  simp only [List.mem_map, List.mem_filter, and_assoc]

theorem mem_asked' {r : Nat} {q : Nat × Nat} : q ∈ asked n nodes edges r ↔ ∃ e ∈ edges, oneAt n nodes r e = true ∧ wants n nodes r e = q := by
  unfold asked
  simp only [List.mem_map, List.mem_filter, and_assoc]

theorem Written.atFirst_inv (h : Written n J name d nodes edges) : SInv NoHid d n (atFirst n d make nodes edges) := by
  refine (SInv.bare (L := agentsOf n make nodes) ?_).refill (fun _ _ => ⟨rfl, rfl, rfl⟩) (edgeOf_sym d edges) h.edge_keys ?_ ?_ ?_ ?_
  · intro r _ k _ u h1 h2
    rw [isAt_loc] at h1 h2
    exact isAt_uniq h.ids h1 h2
  · intro r _ p hp
    obtain ⟨e, -, hb, rfl⟩ := mem_owned.1 hp
    unfold bothAt at hb
    rw [Bool.and_eq_true] at hb
    refine ⟨?_, ?_, .inl ?_⟩
    · show (agentsOf n make nodes r e.1).isSome = true
      rw [isAt_loc]; exact hb.1
    · show (agentsOf n make nodes r e.2.1).isSome = true
      rw [isAt_loc]; exact hb.2
    · show (agentsOf n make nodes r e.1).isSome = true
      rw [isAt_loc]; exact hb.1
  · have key : ∀ r k, r ≠ k → ∀ u v, Peer (bare (agentsOf n make nodes) : Sp S A) r k u v → fill d (edgeOf d edges) (owned n nodes edges r) u v = none := by
      intro r k hne u v hp
      refine fill_none ?_
      intro p hpp hs
      obtain ⟨e, -, hb, rfl⟩ := mem_owned.1 hpp
      unfold bothAt at hb
      rw [Bool.and_eq_true] at hb
      rcases hp.same hs.symm with ⟨-, h2⟩ | ⟨-, h2⟩
      · have h2 : (agentsOf n make nodes k e.2.1).isSome = true := h2
        rw [isAt_loc] at h2
        exact hne (isAt_uniq h.ids hb.2 h2)
      · have h2 : (agentsOf n make nodes k e.1).isSome = true := h2
        rw [isAt_loc] at h2
        exact hne (isAt_uniq h.ids hb.1 h2)
    intro r _ k _ hne u v hp
    rw [key r k hne u v hp, key k r (Ne.symm hne) u v hp.swap]
  · intro r _ p hp; cases hp
  · intro _ r _ k _ p hp; cases hp

/-- What rank `r` requests for an edge to another rank. -/
theorem Written.wants_spec (h : Written n J name d nodes edges) {r : Nat} {e : Nat × Nat × Attr A} (he : e ∈ edges) (ho : oneAt n nodes r e = true) :
    isAt n nodes r (wants n nodes r e).1 = false ∧ isAt n nodes (wants n nodes r e).2 (wants n nodes r e).1 = true ∧ (∃ x ∈ nodes, x.1.id = (wants n nodes r e).1) ∧
    (wants n nodes r e).2 = whereIs n nodes (wants n nodes r e).1 ∧
    (isAt n nodes r e.1 = true ∧ isAt n nodes r e.2.1 = false ∧ (wants n nodes r e).1 = e.2.1 ∨ isAt n nodes r e.1 = false ∧ isAt n nodes r e.2.1 = true ∧ (wants n nodes r e).1 = e.1) := by
  obtain ⟨n1, n2⟩ := h.ends e he
  unfold oneAt at ho
  unfold wants
  cases a1 : isAt n nodes r e.1 <;> cases a2 : isAt n nodes r e.2.1
  · rw [a1, a2] at ho; cases ho
  · rw [if_neg (by simp)]
    exact ⟨a1, h.at_ n1, n1, rfl, .inr ⟨rfl, rfl, rfl⟩⟩
  · rw [if_pos rfl]
    exact ⟨a2, h.at_ n2, n2, rfl, .inl ⟨rfl, rfl, rfl⟩⟩
  · rw [a1, a2] at ho; cases ho

theorem Written.asked_ok (h : Written n J name d nodes edges) (hn : 0 < n) : ∀ k < n, ∀ q ∈ asked n nodes edges k, q.2 < n ∧ q.2 ≠ k ∧ ((atFirst n d make nodes edges q.2).loc q.1).isSome = true := by
  intro k _ q hq
  obtain ⟨e, he, ho, rfl⟩ := mem_asked'.1 hq
  obtain ⟨h1, h2, h3, h4, -⟩ := h.wants_spec he ho
  refine ⟨by rw [h4]; exact h.where_lt h3 hn, ?_, ?_⟩
  · intro hk
    rw [hk, h1] at h2
    cases h2
  · show (agentsOf n make nodes _ _).isSome = true
    rw [isAt_loc]; exact h2

theorem Written.atFirst_apart (h : Written n J name d nodes edges) : ∀ k < n, ∀ u, (atFirst n d make nodes edges k).loc u = none → (atFirst n d make nodes edges k).Apart u := by
  intro k _ u hu
  have hu : agentsOf n make nodes k u = none := hu
  have hne : isAt n nodes k u = false := by rw [← isAt_loc (make := make), hu]; rfl
  have hp : ∀ p ∈ owned n nodes edges k, p.1 ≠ u ∧ p.2 ≠ u := by
    intro p hp
    obtain ⟨e, -, hb, rfl⟩ := mem_owned.1 hp
    unfold bothAt at hb
    rw [Bool.and_eq_true] at hb
    constructor
    · intro e1
      have e1 : e.1 = u := e1
      rw [e1, hne] at hb; cases hb.1
    · intro e1
      have e1 : e.2.1 = u := e1
      rw [e1, hne] at hb; cases hb.2
  exact {
    from_ := by
      intro x
      refine fill_none ?_
      rintro p hpp (⟨h1, -⟩ | ⟨-, -, h1⟩)
      · exact (hp p hpp).1 h1
      · exact (hp p hpp).2 h1
    to := by
      intro x
      refine fill_none ?_
      rintro p hpp (⟨-, h1⟩ | ⟨-, h1, -⟩)
      · exact (hp p hpp).2 h1
      · exact (hp p hpp).1 h1
    new := rfl
    upd := rfl
    rem := rfl
    syn := rfl }

/-! ### What the ranks see before they synchronize -/

/-- The views when agents have been requested. -/
def gathered (n : Nat) (d : Bool) (make : Nat → Nat → Nat → Attr A → S) (nodes : List (GNode A × Nat)) (edges : List (Nat × Nat × Attr A)) : Sp S A :=
  (atFirst n d make nodes edges).request n (asked n nodes edges)

/-- The views when edges to ghosts have been added. -/
def joinedUp (n : Nat) (d : Bool) (make : Nat → Nat → Nat → Attr A → S) (nodes : List (GNode A × Nat)) (edges : List (Nat × Nat × Attr A)) (nw : Nat → List (Nat × Nat)) : Sp S A := fun r =>
  (gathered n d make nodes edges r).filled d (edgeOf d edges) (owned n nodes edges r ++ shared n nodes edges r) (nw r)

theorem Written.ghost (h : Written n J name d nodes edges) {r u : Nat} :
    ((gathered n d make nodes edges r).gho u).isSome = true ↔ ∃ q ∈ asked n nodes edges r, q.1 = u := by
  have e : (gathered n d make nodes edges r).gho u = match (asked n nodes edges r).find? (fun q => decide (q.1 = u)) with
      | some q => ((atFirst n d make nodes edges q.2).loc u).map fun s => (s, q.2)
      | none => none := rfl
  rw [e]
  constructor
  · intro hh
    split at hh
    · rename_i q hf
      exact ⟨q, List.mem_of_find?_eq_some hf, by simpa using List.find?_some hf⟩
    · cases hh
  · rintro ⟨q, hq, rfl⟩
    cases hf : (asked n nodes edges r).find? (fun q' => decide (q'.1 = q.1)) with
    | none =>
      have := List.find?_eq_none.1 hf q hq
      simp at this
    | some q' =>
      have h1 := List.mem_of_find?_eq_some hf
      have h2 : q'.1 = q.1 := by simpa using List.find?_some hf
      obtain ⟨f, hf1, hf2, rfl⟩ := mem_asked'.1 h1
      obtain ⟨-, h4, -⟩ := h.wants_spec hf1 hf2
      simp only [Option.isSome_map]
      show (agentsOf n make nodes _ _).isSome = true
      rw [isAt_loc, ← h2]; exact h4

theorem gathered_has {r u : Nat} : (gathered n d make nodes edges r).net.has u = ((agentsOf n make nodes r u).isSome || (asked n nodes edges r).any fun q => decide (q.1 = u)) := rfl

theorem gathered_loc {r u : Nat} : ((gathered n d make nodes edges r).loc u).isSome = isAt n nodes r u := by
  show (agentsOf n make nodes r u).isSome = _
  rw [isAt_loc]

theorem Written.shared_ends (h : Written n J name d nodes edges) {r : Nat} {e : Nat × Nat × Attr A} (he : e ∈ edges) (ho : oneAt n nodes r e = true) :
    (gathered n d make nodes edges r).net.has e.1 = true ∧ (gathered n d make nodes edges r).net.has e.2.1 = true ∧ (gathered n d make nodes edges r).cross e.1 e.2.1 = true ∧
      (isAt n nodes r e.1 = true ∨ isAt n nodes r e.2.1 = true) := by
  have hask : (asked n nodes edges r).any (fun q => decide (q.1 = (wants n nodes r e).1)) = true :=
    List.any_eq_true.2 ⟨_, mem_asked'.2 ⟨e, he, ho, rfl⟩, by simp⟩
  have hc : (gathered n d make nodes edges r).cross e.1 e.2.1 = true := by
    unfold RV.cross
    rw [gathered_loc, gathered_loc]; exact ho
  rw [gathered_has, gathered_has, isAt_loc, isAt_loc]
  obtain ⟨-, -, -, -, ⟨h1, h2, h3⟩ | ⟨h1, h2, h3⟩⟩ := h.wants_spec he ho
  · rw [h3] at hask
    rw [h1, h2, hask]; exact ⟨rfl, rfl, hc, .inl rfl⟩
  · rw [h3] at hask
    rw [h1, h2, hask]; exact ⟨rfl, rfl, hc, .inr rfl⟩

/-- A rank has all of the edges of its agents. -/
theorem Written.complete (h : Written n J name d nodes edges) {r u v : Nat} (hu : isAt n nodes r u = true ∨ isAt n nodes r v = true) :
    fill d (edgeOf d edges) (owned n nodes edges r ++ shared n nodes edges r) u v = edgeOf d edges u v := by
  cases hT : edgeOf d edges u v with
  | none =>
    cases hf : fill d (edgeOf d edges) (owned n nodes edges r ++ shared n nodes edges r) u v with
    | none => rfl
    | some a => rw [(fill_some hf).2] at hT; cases hT
  | some a =>
    rw [← hT]
    refine fill_of ?_
    obtain ⟨e, he, hs, rfl⟩ := (edgeOf_mem h.once).1 hT
    refine ⟨pairOf e, ?_, hs⟩
    have hl : isAt n nodes r e.1 = true ∨ isAt n nodes r e.2.1 = true := by
      rcases hs with ⟨h1, h2⟩ | ⟨-, h1, h2⟩
      · rw [h1, h2]; exact hu
      · rw [h1, h2]; exact hu.symm
    rw [List.mem_append, mem_owned, mem_shared]
    cases a1 : isAt n nodes r e.1 <;> cases a2 : isAt n nodes r e.2.1
    · rw [a1, a2] at hl; rcases hl with hl | hl <;> cases hl
    · exact .inr ⟨e, he, by unfold oneAt; rw [a1, a2]; rfl, rfl⟩
    · exact .inr ⟨e, he, by unfold oneAt; rw [a1, a2]; rfl, rfl⟩
    · exact .inl ⟨e, he, by unfold bothAt; rw [a1, a2]; rfl, rfl⟩

theorem Written.joinedUp_inv (h : Written n J name d nodes edges) (hn : 0 < n) {nw : Nat → List (Nat × Nat)} (hnw : ∀ r < n, ∀ p, p ∈ nw r ↔ p ∈ shared n nodes edges r) :
    SInv NoHid d n (joinedUp n d make nodes edges nw) := by
  have hG : SInv NoHid d n (gathered n d make nodes edges) := (h.atFirst_inv (make := make)).request (h.asked_ok hn)
  refine hG.refill (fun _ _ => ⟨rfl, rfl, rfl⟩) (edgeOf_sym d edges) h.edge_keys ?_ ?_ ?_ ?_
  · intro r _ p hp
    rw [gathered_loc, gathered_loc]
    rcases List.mem_append.1 hp with hp | hp
    · obtain ⟨e, -, hb, rfl⟩ := mem_owned.1 hp
      unfold bothAt at hb
      rw [Bool.and_eq_true] at hb
      rw [gathered_has, gathered_has, isAt_loc, isAt_loc]
      show (isAt n nodes r e.1 || _) = true ∧ (isAt n nodes r e.2.1 || _) = true ∧ (isAt n nodes r e.1 = true ∨ isAt n nodes r e.2.1 = true)
      rw [hb.1, hb.2]
      exact ⟨rfl, rfl, .inl rfl⟩
    · obtain ⟨e, he, ho, rfl⟩ := mem_shared.1 hp
      obtain ⟨h1, h2, -, h3⟩ := h.shared_ends (make := make) he ho
      exact ⟨h1, h2, h3⟩
  · intro r _ k _ _ u v hp
    have h1 : isAt n nodes r u = true ∨ isAt n nodes r v = true := by
      unfold Peer at hp
      simp only [gathered_loc] at hp
      exact hp.imp And.left And.left
    have h2 : isAt n nodes k u = true ∨ isAt n nodes k v = true := by
      unfold Peer at hp
      simp only [gathered_loc] at hp
      exact hp.symm.imp And.right And.right
    rw [h.complete h1, h.complete h2]
  · intro r hr p hp
    rw [hnw r hr] at hp
    obtain ⟨e, he, ho, rfl⟩ := mem_shared.1 hp
    refine ⟨List.mem_append_right _ hp, ?_, (h.shared_ends he ho).2.2.1⟩
    show (edgeOf d edges e.1 e.2.1).isSome = true
    rw [(edgeOf_mem h.once).2 ⟨e, he, SameN.refl _ _ _, rfl⟩]; rfl
  · intro hd r hr k hk p hp hp'
    rw [hnw r hr] at hp
    rw [hnw k hk] at hp'
    obtain ⟨e, he, ho, rfl⟩ := mem_shared.1 hp
    obtain ⟨f, hf, ho', hf'⟩ := mem_shared.1 hp'
    have h1 : f.1 = e.2.1 := congrArg Prod.fst hf'
    have h2 : f.2.1 = e.1 := congrArg Prod.snd hf'
    have := once_eq h.once he hf (.inr ⟨hd, h2.symm, h1.symm⟩)
    subst this
    unfold oneAt at ho
    rw [← h1] at ho
    simp at ho

theorem Written.tagged (h : Written n J name d nodes edges) (hn : 0 < n) {nw : Nat → List (Nat × Nat)} (hnw : ∀ r < n, ∀ p, p ∈ nw r ↔ p ∈ shared n nodes edges r) {r : Nat} (hr : r < n)
    {p : Nat × Nat} (hp : p ∈ nw r) : (joinedUp n d make nodes edges nw r).tag ((joinedUp n d make nodes edges nw r).near p) ((joinedUp n d make nodes edges nw r).far p) = true := by
  have hI := h.joinedUp_inv (make := make) hn hnw
  have hF := hI.far_noted hr (p := p) (.inl hp)
  rw [hI.tag r hr]
  refine ⟨hF.lt, hF.near, ?_⟩
  show ((gathered n d make nodes edges _).gho _).isSome = true
  rw [h.ghost]
  obtain ⟨e, he, -, rfl⟩ := mem_shared.1 ((hnw r hr p).1 hp)
  have hat : ∀ k x, ((joinedUp n d make nodes edges nw k).loc x).isSome = isAt n nodes k x := fun k x => gathered_loc (d := d) (edges := edges)
  have n1 := hF.near
  have n2 := hF.other
  have n3 := hF.ne
  rw [hat] at n1 n2
  generalize hk : (joinedUp n d make nodes edges nw r).far (pairOf e) = k at n2 n3
  have hone : oneAt n nodes k e = true ∧ (wants n nodes k e).1 = (joinedUp n d make nodes edges nw r).near (pairOf e) := by
    unfold RV.near RV.other at *
    simp only [hat] at n1 n2 ⊢
    unfold oneAt wants
    cases a1 : isAt n nodes r (pairOf e).1
    · rw [a1, if_neg (by simp)] at n1 n2
      have h1 : isAt n nodes k e.2.1 = false := by
        cases hh : isAt n nodes k e.2.1 with
        | false => rfl
        | true => exact absurd (isAt_uniq h.ids hh n1) n3
      have h2 : isAt n nodes k e.1 = true := n2
      simp [h1, h2, pairOf]
    · rw [a1, if_pos rfl] at n1 n2
      have h1 : isAt n nodes k e.1 = false := by
        cases hh : isAt n nodes k e.1 with
        | false => rfl
        | true => exact absurd (isAt_uniq h.ids hh n1) n3
      have h2 : isAt n nodes k e.2.1 = true := n2
      simp [h1, h2, pairOf]
  exact ⟨_, mem_asked'.2 ⟨e, he, hone.1, rfl⟩, hone.2⟩

theorem Written.asked_out (h : Written n J name d nodes edges) (hn : 0 < n) {r : Nat} (hr : ¬ r < n) : asked n nodes edges r = [] := by
  have hno : ∀ u, isAt n nodes r u = false := by
    intro u
    cases hh : isAt n nodes r u with
    | false => rfl
    | true =>
      obtain ⟨x, hx, -, rfl⟩ := isAt_iff.1 hh
      exact absurd (h.lt hx hn) hr
  unfold asked
  have : edges.filter (oneAt n nodes r) = [] := by
    rw [List.filter_eq_nil_iff]
    intro e _
    unfold oneAt
    rw [hno, hno]; simp
  rw [this]; rfl

/-- The file can be written and read. What the ranks have then, but for superfluous nodes, is what `synchronize` makes of `joinedUp`. -/
theorem Written.read (h : Written n J name d nodes edges) (hn : 0 < n) (make : Nat → Nat → Nat → Attr A → S) : ∃ t, J.writeFile name d nodes edges = some t ∧
    ∃ (w : World S A) (nw : Nat → List (Nat × Nat)) (l m : Nat → List Obj), readNetwork n J make t = some w ∧ (∀ r < n, ∀ p, p ∈ nw r ↔ p ∈ shared n nodes edges r) ∧
      Sim d still n (w.like l) (sstep d n (joinedUp n d make nodes edges nw) (.synch true)) ∧ (∀ r < n, Fit (l r) (m r) (w r)) ∧
      (∀ r < n, ∀ u, isAt n nodes r u = true → (m r).filter (fun o => decide (o.uid = u)) = (l r).filter (fun o => decide (o.uid = u))) ∧
      ∀ r < n, ∀ o ∈ m r, (gathered n d make nodes edges r).net.has o.uid = true := by
  obtain ⟨t, ht, hread⟩ := h.lines make
  refine ⟨t, ht, ?_⟩
  -- the files are read
  have h1 : ∀ r, ∃ g : Reading S A, r < n → readLines n J make t r = some g ∧ COk d Pend.none g.cx ∧ g.cx.v = atFirst n d make nodes edges r ∧ g.requested = asked n nodes edges r ∧
      g.edges = (edges.filter (oneAt n nodes r)).map J.raw := by
    intro r
    by_cases hr : r < n
    · obtain ⟨g0, e0, a1, a2, a3, a4, a5⟩ := h.readNodes (make := make) hr
      obtain ⟨g, e1, b1, b2, -, b4, b5⟩ := h.readEdges a1 a2 a3 a4 a5
      exact ⟨g, fun _ => ⟨by rw [hread, e0]; exact e1, b1, b2, b4, b5⟩⟩
    · exact ⟨⟨Cx.init 0 [], [], [], [], []⟩, fun hh => absurd hh hr⟩
  obtain ⟨g, hg⟩ := Classical.axiomOfChoice h1
  have hx : ∀ r < n, ((List.range n).map (readLines n J make t))[r]?.bind id = some (g r) := by
    intro r hr
    rw [get_map_range _ hr, (hg r hr).1]
  obtain ⟨w1, e1, s1⟩ := each_some (n := n) (f := fun r => (((List.range n).map (readLines n J make t))[r]?.bind id).map (·.cx)) (w := World.init []) (P := fun r c => COk d Pend.none c ∧ c.v = atFirst n d make nodes edges r) (by
    intro r hr
    exact ⟨(g r).cx, by simp only [hx r hr]; rfl, (hg r hr).2.1, (hg r hr).2.2.1⟩)
  have hrs : (fun r => ((((List.range n).map (readLines n J make t))[r]?.bind id).map (·.requested)).getD []) = asked n nodes edges := by
    funext r
    by_cases hr : r < n
    · simp only [hx r hr, Option.map_some, Option.getD_some]; exact (hg r hr).2.2.2.1
    · rw [h.asked_out hn hr]
      have : ((List.range n).map (readLines n J make t))[r]? = none := by simp; omega
      rw [this]; rfl
  -- agents are requested
  obtain ⟨w2, e2, s2⟩ := request_dup h.atFirst_inv (h.asked_ok hn) h.atFirst_apart (w := w1) (fun r hr => (s1 r hr).2)
  have h3 : ∀ r < n, Sup d ((w2 r).net.g.nodes.filter (w2 r).live) (w2 r).net.g.nodes (w2 r) ((gathered n d make nodes edges r).filled d (edgeOf d edges) (owned n nodes edges r) []) := fun r hr => (s2 r hr).sup
  -- edges are added
  have h4 : ∀ r, ∃ q : Cx S A × List (Nat × Nat), r < n → ((edges.filter (oneAt n nodes r)).map J.raw).foldlM (Cx.createEdge J) (w2 r) = some q.1 ∧
      Sup d ((w2 r).net.g.nodes.filter (w2 r).live) (w2 r).net.g.nodes q.1 ((gathered n d make nodes edges r).filled d (edgeOf d edges) (owned n nodes edges r ++ shared n nodes edges r) q.2) ∧
      ∀ p, p ∈ q.2 ↔ p ∈ shared n nodes edges r := by
    intro r
    by_cases hr : r < n
    · obtain ⟨c, new, a1, a2, a3⟩ := (h3 r hr).createEdges (J := J) (edgeOf_sym d edges) h.edge_keys rfl rfl (edges.filter (oneAt n nodes r)) (by
        intro e he
        obtain ⟨he, ho⟩ := List.mem_filter.1 he
        obtain ⟨b1, b2, b3, -⟩ := h.shared_ends (make := make) he ho
        exact ⟨h.edgeAttrs e he, (edgeOf_mem h.once).2 ⟨e, he, SameN.refl _ _ _, rfl⟩, b1, b2, b3⟩)
      exact ⟨(c, new), fun _ => ⟨a1, a2, a3⟩⟩
    · exact ⟨(Cx.init 0 [], []), fun hh => absurd hh hr⟩
  obtain ⟨q, hq⟩ := Classical.axiomOfChoice h4
  obtain ⟨w3, e3, s3⟩ := each_some (n := n) (f := fun r => (((((List.range n).map (readLines n J make t))[r]?.bind id).map (·.edges)).getD []).foldlM (Cx.createEdge J) (w2 r)) (w := w2)
    (P := fun r c => c = (q r).1) (by
    intro r hr
    refine ⟨(q r).1, ?_, rfl⟩
    simp only [hx r hr, Option.map_some, Option.getD_some, (hg r hr).2.2.2.2]
    exact (hq r hr).1)
  have hnw : ∀ r < n, ∀ p, p ∈ (q r).2 ↔ p ∈ shared n nodes edges r := fun r hr => (hq r hr).2.2
  have h5 : ∀ r < n, Sup d ((w2 r).net.g.nodes.filter (w2 r).live) (w2 r).net.g.nodes (w3 r) (joinedUp n d make nodes edges (fun r => (q r).2) r) := by
    intro r hr
    rw [(s3 r hr).2]
    exact (hq r hr).2.1
  have hI := h.joinedUp_inv (make := make) hn hnw
  have hfit : ∀ r < n, Fit ((w2 r).net.g.nodes.filter (w2 r).live) (w2 r).net.g.nodes (w3 r) := by
    intro r hr
    exact (h5 r hr).fit rfl rfl (fun p hp => h.tagged hn hnw hr hp)
  -- the ranks synchronize
  have hleg : Legal d n (joinedUp n d make nodes edges (fun r => (q r).2)) (.synch true) := by
    intro _
    refine ⟨?_, ?_⟩
    · have key : ∀ r < n, ∀ u v, (joinedUp n d make nodes edges (fun r => (q r).2) r).net.Dirty d u v → (joinedUp n d make nodes edges (fun r => (q r).2) r).net.edge u v = edgeOf d edges u v := by
        rintro r hr u v ⟨p, hp | hp, hs⟩
        · obtain ⟨e, he, ho, rfl⟩ := mem_shared.1 ((hnw r hr p).1 hp)
          have hl := (h.shared_ends (make := make) he ho).2.2.2
          refine h.complete ?_
          rcases hs with ⟨e1, e2⟩ | ⟨-, e1, e2⟩
          · rw [← e1, ← e2]; exact hl
          · rw [← e1, ← e2]; exact hl.symm
        · cases hp
      intro r hr k hk u v d1 d2
      rw [key r hr u v d1, key k hk u v d2]
    · intro r _ p hp; cases hp
  obtain ⟨w4, e4, s4⟩ := synch_sim hI (fun _ _ => rfl) (fun _ _ _ _ => rfl) hn (Q := still) (mv := fun _ => False) (fun _ _ => rfl) hleg (settled_none _ _ _) (w := w3.like fun r => (w2 r).net.g.nodes.filter (w2 r).live) (fun r hr => ⟨(h5 r hr).ok, (h5 r hr).view⟩)
  obtain ⟨k1, k2⟩ := synchronize_like hn (w := w3) hfit
  rw [k1] at e4
  obtain ⟨w, hw, rfl⟩ := Option.map_eq_some_iff.1 e4
  refine ⟨w, fun r => (q r).2, fun r => (w2 r).net.g.nodes.filter (w2 r).live, fun r => (w2 r).net.g.nodes, ?_, hnw, s4, k2 w hw, ?_, ?_⟩
  · unfold readNetwork
    simp only
    rw [e1, Option.bind_some, hrs, e2, Option.bind_some, e3, Option.bind_some, hw]
  · intro r hr u hu
    exact (h5 r hr).loc u (by show ((gathered n d make nodes edges r).loc u).isSome = true; rw [gathered_loc]; exact hu)
  · intro r hr
    exact (h5 r hr).known

/-! ### What the ranks see in the end -/

theorem joinedUp_loc {nw : Nat → List (Nat × Nat)} {r u : Nat} : (joinedUp n d make nodes edges nw r).loc u = agentsOf n make nodes r u := rfl

theorem joinedUp_at {nw : Nat → List (Nat × Nat)} {r u : Nat} : ((joinedUp n d make nodes edges nw r).loc u).isSome = isAt n nodes r u := gathered_loc (d := d) (edges := edges)

theorem synch_loc {V : Sp S A} {r u : Nat} : (sstep d n V (.synch true) r).loc u = (V r).loc u := rfl

/-- Edges that are not between two ranks, or are the same there already. -/
theorem Written.legal (h : Written n J name d nodes edges) {nw : Nat → List (Nat × Nat)} (hnw : ∀ r < n, ∀ p, p ∈ nw r ↔ p ∈ shared n nodes edges r) :
    Legal d n (joinedUp n d make nodes edges nw) (.synch true) := by
  intro _
  refine ⟨?_, ?_⟩
  · have key : ∀ r < n, ∀ u v, (joinedUp n d make nodes edges nw r).net.Dirty d u v → (joinedUp n d make nodes edges nw r).net.edge u v = edgeOf d edges u v := by
      rintro r hr u v ⟨p, hp | hp, hs⟩
      · obtain ⟨e, he, ho, rfl⟩ := mem_shared.1 ((hnw r hr p).1 hp)
        have hl := (h.shared_ends (make := make) he ho).2.2.2
        refine h.complete ?_
        rcases hs with ⟨e1, e2⟩ | ⟨-, e1, e2⟩
        · rw [← e1, ← e2]; exact hl
        · rw [← e1, ← e2]; exact hl.symm
      · cases hp
    intro r hr k hk u v d1 d2
    rw [key r hr u v d1, key k hk u v d2]
  · intro r _ p hp; cases hp

theorem Written.final_edge (h : Written n J name d nodes edges) (hn : 0 < n) {nw : Nat → List (Nat × Nat)} (hnw : ∀ r < n, ∀ p, p ∈ nw r ↔ p ∈ shared n nodes edges r) {r : Nat} (hr : r < n) (u v : Nat) :
    (sstep d n (joinedUp n d make nodes edges nw) (.synch true) r).net.edge u v = if isAt n nodes r u || isAt n nodes r v then edgeOf d edges u v else none := by
  have hI := h.joinedUp_inv (make := make) hn hnw
  have hl := h.legal (make := make) hnw
  have hI' : SInv NoHid d n (sstep d n (joinedUp n d make nodes edges nw) (.synch true)) := hI.step hl
  have hedge : ∀ k, (isAt n nodes k u = true ∨ isAt n nodes k v = true) → (joinedUp n d make nodes edges nw k).net.edge u v = edgeOf d edges u v := fun k hk => h.complete hk
  -- an end that is a node of another rank, or no node at all
  have hother : ∀ x y, isAt n nodes r x = true → isAt n nodes r y = false → (x = u ∧ y = v ∨ x = v ∧ y = u) →
      (sstep d n (joinedUp n d make nodes edges nw) (.synch true) r).net.edge u v = edgeOf d edges u v := by
    intro x y hx hy hxy
    have huv : isAt n nodes r u = true ∨ isAt n nodes r v = true := by
      rcases hxy with ⟨rfl, rfl⟩ | ⟨rfl, rfl⟩
      · exact .inl hx
      · exact .inr hx
    by_cases hk : ∃ k < n, isAt n nodes k y = true
    · obtain ⟨k, hk, hky⟩ := hk
      have hne : r ≠ k := by intro e; subst e; rw [hy] at hky; cases hky
      have hp : Peer (joinedUp n d make nodes edges nw) r k u v := by
        unfold Peer
        simp only [joinedUp_at]
        rcases hxy with ⟨rfl, rfl⟩ | ⟨rfl, rfl⟩
        · exact .inl ⟨hx, hky⟩
        · exact .inr ⟨hx, hky⟩
      have hkv : isAt n nodes k u = true ∨ isAt n nodes k v = true := by
        rcases hxy with ⟨rfl, rfl⟩ | ⟨rfl, rfl⟩
        · exact .inr hky
        · exact .inl hky
      obtain ⟨s1, s2, -, s4⟩ := hI.synch_edge hl hr hk hne hp
      by_cases d1 : (joinedUp n d make nodes edges nw r).net.Dirty d u v
      · rw [s1 d1]; exact hedge r huv
      · by_cases d2 : (joinedUp n d make nodes edges nw k).net.Dirty d u v
        · rw [s2 d2]; exact hedge k hkv
        · rw [s4 d1 d2 (by rintro ⟨p, hp, -⟩; cases hp) (by rintro ⟨p, hp, -⟩; cases hp)]; exact hedge r huv
    · have hnone : ∀ k < n, (sstep d n (joinedUp n d make nodes edges nw) (.synch true) k).loc y = none := by
        intro k hk'
        rw [synch_loc]
        cases hh : (joinedUp n d make nodes edges nw k).loc y with
        | none => rfl
        | some s => exact absurd ⟨k, hk', by rw [← joinedUp_at (make := make) (d := d) (edges := edges) (nw := nw), hh]; rfl⟩ hk
      have hab := (hI'.absent hnone hr).2
      have hen := (hI'.one r hr).edge_none hab
      have hT : edgeOf d edges u v = none := by
        cases hT : edgeOf d edges u v with
        | none => rfl
        | some a =>
          obtain ⟨e, he, hs, -⟩ := (edgeOf_mem h.once).1 hT
          obtain ⟨n1, n2⟩ := h.ends e he
          have hy' : ∃ x ∈ nodes, x.1.id = y := by
            rcases hs with ⟨e1, e2⟩ | ⟨-, e1, e2⟩ <;> rcases hxy with ⟨-, rfl⟩ | ⟨-, rfl⟩
            · rw [← e2]; exact n2
            · rw [← e1]; exact n1
            · rw [← e1]; exact n1
            · rw [← e2]; exact n2
          exact absurd ⟨_, h.where_lt hy' hn, h.at_ hy'⟩ hk
      rw [hT]
      rcases hxy with ⟨-, rfl⟩ | ⟨-, rfl⟩
      · exact (hen u).2
      · exact (hen v).1
  cases a1 : isAt n nodes r u <;> cases a2 : isAt n nodes r v
  · simp only [Bool.or_self]
    rw [if_neg (by simp)]
    cases hh : (sstep d n (joinedUp n d make nodes edges nw) (.synch true) r).net.edge u v with
    | none => rfl
    | some a =>
      have := ((hI'.one r hr).ends u v (by rw [hh]; rfl)).2.2
      rw [synch_loc, synch_loc, joinedUp_at, joinedUp_at, a1, a2] at this
      rcases this with h' | h' <;> cases h'
  · exact hother v u a2 a1 (.inr ⟨rfl, rfl⟩)
  · exact hother u v a1 a2 (.inl ⟨rfl, rfl⟩)
  · rw [hI.synch_local hl hr (by rw [joinedUp_at]; exact a1) (by rw [joinedUp_at]; exact a2)]
    exact hedge r (.inl a1)

theorem Written.final_ghost (h : Written n J name d nodes edges) (hn : 0 < n) {nw : Nat → List (Nat × Nat)} (hnw : ∀ r < n, ∀ p, p ∈ nw r ↔ p ∈ shared n nodes edges r) {r : Nat} (hr : r < n) (u : Nat) :
    (sstep d n (joinedUp n d make nodes edges nw) (.synch true) r).gho u = ((joinedUp n d make nodes edges nw).states r).gho u := by
  have e : (sstep d n (joinedUp n d make nodes edges nw) (.synch true) r).gho u = match (((joinedUp n d make nodes edges nw).states.removals d n).agentsIn n r).find? (fun m => decide (m.2.1 = u)) with
      | some m => some (m.2.2, m.1)
      | none => if ((joinedUp n d make nodes edges nw).states.remIn n r).any (fun m => decide (u = m.2.1 ∨ u = m.2.2)) then none else ((joinedUp n d make nodes edges nw).states r).gho u := rfl
  have hrem : ∀ k, (joinedUp n d make nodes edges nw).states.remIn n k = [] := fun k => recv_none (fun _ _ => rfl) k
  have hno : ((joinedUp n d make nodes edges nw).states.removals d n).agentsIn n r = [] := by
    rw [List.eq_nil_iff_forall_not_mem]
    intro m hm
    obtain ⟨h1, p, h2, h3, h4, h5, -⟩ := mem_agentsIn.1 hm
    have ht := h.tagged (make := make) hn hnw h1 (p := p) h2
    have hR : (joinedUp n d make nodes edges nw).states.removals d n m.1 = (joinedUp n d make nodes edges nw).states m.1 := by
      unfold Sp.removals
      simp only [hrem]
      have h0 : ((joinedUp n d make nodes edges nw).states m.1).net.rem = [] := rfl
      simp only [h0, List.any_nil, Bool.not_false, Bool.and_true, Bool.and_false]
      rfl
    rw [hR] at h3 h4 h5
    rw [states_far] at h3
    rw [← h3, ← h4] at h5
    have h5 : (joinedUp n d make nodes edges nw m.1).tag ((joinedUp n d make nodes edges nw m.1).near p) ((joinedUp n d make nodes edges nw m.1).far p) = false := h5
    rw [ht] at h5
    cases h5
  rw [e, hno, hrem]
  rfl

/-- C44: a graph that meets `Written` can be written and read. Each rank has the agents of its nodes, the edges of these with the same attributes, and the ghosts that are ends of these, with the states of
their owners. Missing: graphs that do not meet `Written`, and that the network has one node only for each ghost; see `C44_violation_twice`, `C44_violation_nested`, `C44_violation_name`. -/
theorem C44_read_partial (hn : 0 < n) (make : Nat → Nat → Nat → Attr A → S) (h : Written n J name d nodes edges) :
    ∃ t, J.writeFile name d nodes edges = some t ∧ ∃ w, readNetwork n J make t = some w ∧ ∀ r < n,
      (∀ u s, (w r).agent u = some s ↔ ∃ x ∈ nodes, x.1.id = u ∧ rankOf n x = r ∧ made make x = s) ∧
      (∀ u v a, (w r).edgeAttr 0 u v = some a ↔ ∃ e ∈ edges, SameN d e.1 e.2.1 u v ∧ e.2.2 = a ∧ ∃ x ∈ nodes, (x.1.id = u ∨ x.1.id = v) ∧ rankOf n x = r) ∧
      (∀ u s, (w r).ghostAgent u = some s ↔ ∃ x ∈ nodes, x.1.id = u ∧ rankOf n x ≠ r ∧ made make x = s ∧
        ∃ e ∈ edges, ∃ y ∈ nodes, rankOf n y = r ∧ (e.1 = u ∧ e.2.1 = y.1.id ∨ e.1 = y.1.id ∧ e.2.1 = u)) ∧
      (∀ u, u ∈ (w r).nodeIds 0 ↔ ((w r).agent u).isSome = true ∨ ((w r).ghostAgent u).isSome = true) ∧
      ∀ u, ((w r).agent u).isSome = true → ((w r).nodeIds 0).count u = 1 := by
  obtain ⟨t, ht, w, nw, l, m, hw, hnw, hs, hfit, hloc, hknown⟩ := h.read hn make
  refine ⟨t, ht, w, hw, ?_⟩
  intro r hr
  have hI := h.joinedUp_inv (make := make) hn hnw
  have hl := h.legal (make := make) hnw
  have hI' : SInv NoHid d n (sstep d n (joinedUp n d make nodes edges nw) (.synch true)) := hI.step hl
  have hag : ∀ u, (w r).agent u = agentsOf n make nodes r u := fun u => hs.agent hr u
  have hed : ∀ u v, (w r).edgeAttr 0 u v = if isAt n nodes r u || isAt n nodes r v then edgeOf d edges u v else none := by
    intro u v
    rw [← h.final_edge (make := make) hn hnw hr u v, ← hs.edge hr u v]
    unfold Cx.edgeAttr
    show _ = match (((w r).like (l r)).nets[0]?), (w r).find u, (w r).find v with
      | some N, some u, some v => N.g.attr u v
      | _, _, _ => none
    rw [like_nets]
    cases (w r).nets[0]? with
    | none => rfl
    | some N => cases (w r).find u <;> cases (w r).find v <;> rfl
  have hgh : ∀ u, (w r).ghostAgent u = ((sstep d n (joinedUp n d make nodes edges nw) (.synch true) r).gho u).map (·.1) := fun u => hs.ghost hr u
  have hghs : ∀ u, ((w r).ghostAgent u).isSome = true ↔ ∃ q ∈ asked n nodes edges r, q.1 = u := by
    intro u
    rw [hgh, Option.isSome_map, h.final_ghost (make := make) hn hnw hr, ← h.ghost (make := make)]
    show (Option.map _ ((gathered n d make nodes edges r).gho u)).isSome = true ↔ _
    rw [Option.isSome_map]
  have hnet : (w r).net.g.nodes = m r := (hfit r hr).nodes
  have hids : (w r).nodeIds 0 = (m r).map (·.uid) := by
    unfold Cx.nodeIds
    rw [(hfit r hr).get0, ← hnet]
  have hlnodes : ((w r).like (l r)).net.g.nodes = l r := by rw [(hfit r hr).net_like]; rfl
  have hok : COk d Pend.none ((w r).like (l r)) := (hs r hr).1
  have hcnt : ∀ u, ((w r).agent u).isSome = true → ((w r).nodeIds 0).count u = 1 := by
    intro u hu
    have hat : isAt n nodes r u = true := by rw [← isAt_loc (make := make), ← hag]; exact hu
    have hhas : ((w r).like (l r)).v.net.has u = true := by
      rw [hok.has_iff]
      have : (((w r).like (l r)).v.loc u).isSome = true := hu
      rw [this]; rfl
    obtain ⟨o, -, ho, hou⟩ := hok.find_some hhas
    rw [hids, List.count_eq_countP, List.countP_map]
    have e1 : List.countP ((fun x => x == u) ∘ fun o : Obj => o.uid) (m r) = (List.filter (fun o : Obj => decide (o.uid = u)) (m r)).length := by
      rw [List.countP_eq_length_filter]
      congr 1
    rw [e1, hloc r hr u hat]
    have hnd : (l r).Nodup := by rw [← hlnodes]; exact hok.net.inv.nodes
    rw [hlnodes] at ho
    have hall : ∀ x ∈ (l r).filter (fun o => decide (o.uid = u)), x = o := by
      intro x hx
      obtain ⟨h1, h2⟩ := List.mem_filter.1 hx
      exact hok.net.uniq x (by rw [hlnodes]; exact h1) o (by rw [hlnodes]; exact ho) ((of_decide_eq_true h2).trans hou.symm)
    have hmem : o ∈ (l r).filter (fun o => decide (o.uid = u)) := List.mem_filter.2 ⟨ho, decide_eq_true hou⟩
    have hnd' : ((l r).filter (fun o => decide (o.uid = u))).Nodup := hnd.sublist List.filter_sublist
    generalize (l r).filter (fun o => decide (o.uid = u)) = k at hall hmem hnd'
    match k, hall, hmem, hnd' with
    | [x], _, _, _ => rfl
    | x :: y :: k, hall, _, hnd' =>
      have h1 := hall x (by simp)
      have h2 := hall y (by simp)
      rw [h1, h2] at hnd'
      simp at hnd'
  refine ⟨?_, ?_, ?_, ?_, hcnt⟩
  · intro u s
    rw [hag, agentsOf_some h.ids]
  · intro u v a
    rw [hed]
    constructor
    · intro hh
      split at hh
      · rename_i hat
        obtain ⟨e, he, hs', ha⟩ := (edgeOf_mem h.once).1 hh
        refine ⟨e, he, hs', ha, ?_⟩
        rw [Bool.or_eq_true, isAt_iff, isAt_iff] at hat
        rcases hat with ⟨x, hx, h1, h2⟩ | ⟨x, hx, h1, h2⟩
        · exact ⟨x, hx, .inl h1, h2⟩
        · exact ⟨x, hx, .inr h1, h2⟩
      · cases hh
    · rintro ⟨e, he, hs', ha, x, hx, h1, h2⟩
      rw [if_pos]
      · exact (edgeOf_mem h.once).2 ⟨e, he, hs', ha⟩
      · rw [Bool.or_eq_true, isAt_iff, isAt_iff]
        rcases h1 with h1 | h1
        · exact .inl ⟨x, hx, h1, h2⟩
        · exact .inr ⟨x, hx, h1, h2⟩
  · intro u s
    constructor
    · intro hh
      obtain ⟨q, hq, rfl⟩ := (hghs u).1 (by rw [hh]; rfl)
      obtain ⟨e, he, ho, rfl⟩ := mem_asked'.1 hq
      obtain ⟨h1, h2, h3, h4, h5⟩ := h.wants_spec he ho
      rw [hgh] at hh
      obtain ⟨⟨s', k⟩, hg, rfl⟩ := Option.map_eq_some_iff.1 hh
      have hlk := hI.synch_ghost hr hg
      rw [joinedUp_loc, agentsOf_some h.ids] at hlk
      obtain ⟨x, hx, hx1, hx2, hx3⟩ := hlk
      refine ⟨x, hx, hx1, ?_, hx3, e, he, ?_⟩
      · intro hxr
        rw [isAt_iff.2 ⟨x, hx, hx1, hxr⟩] at h1
        cases h1
      · rcases h5 with ⟨a1, a2, a3⟩ | ⟨a1, a2, a3⟩
        · obtain ⟨y, hy, hy1, hy2⟩ := isAt_iff.1 a1
          exact ⟨y, hy, hy2, .inr ⟨hy1.symm, a3.symm⟩⟩
        · obtain ⟨y, hy, hy1, hy2⟩ := isAt_iff.1 a2
          exact ⟨y, hy, hy2, .inl ⟨a3.symm, hy1.symm⟩⟩
    · rintro ⟨x, hx, rfl, hxr, rfl, e, he, y, hy, hyr, hxy⟩
      have hyat : isAt n nodes r y.1.id = true := isAt_iff.2 ⟨y, hy, rfl, hyr⟩
      have hxat : isAt n nodes r x.1.id = false := by
        cases hh : isAt n nodes r x.1.id with
        | false => rfl
        | true =>
          obtain ⟨z, hz, hz1, hz2⟩ := isAt_iff.1 hh
          rw [eq_of_id h.ids hz hx hz1] at hz2
          exact absurd hz2 hxr
      have ho : oneAt n nodes r e = true ∧ (wants n nodes r e).1 = x.1.id := by
        unfold oneAt wants
        rcases hxy with ⟨e1, e2⟩ | ⟨e1, e2⟩
        · simp [e1, e2, hxat, hyat]
        · simp [e1, e2, hxat, hyat]
      obtain ⟨s, hsome⟩ := Option.isSome_iff_exists.1 ((hghs x.1.id).2 ⟨_, mem_asked'.2 ⟨e, he, ho.1, rfl⟩, ho.2⟩)
      rw [hsome]
      rw [hgh] at hsome
      obtain ⟨⟨s', k⟩, hg, rfl⟩ := Option.map_eq_some_iff.1 hsome
      have hlk := hI.synch_ghost hr hg
      rw [joinedUp_loc, agentsOf_some h.ids] at hlk
      obtain ⟨z, hz, hz1, -, hz3⟩ := hlk
      rw [eq_of_id h.ids hz hx hz1] at hz3
      rw [← hz3]
  · intro u
    constructor
    · intro hu
      rw [hids] at hu
      obtain ⟨o, ho, rfl⟩ := List.mem_map.1 hu
      have := hknown r hr o ho
      rw [gathered_has, Bool.or_eq_true] at this
      rcases this with h1 | h1
      · exact .inl (by rw [hag]; exact h1)
      · obtain ⟨q, hq, hq'⟩ := List.any_eq_true.1 h1
        exact .inr ((hghs _).2 ⟨q, hq, of_decide_eq_true hq'⟩)
    · intro hu
      rw [hids, List.mem_map]
      rcases hu with hu | hu
      · obtain ⟨s, hs'⟩ := Option.isSome_iff_exists.1 hu
        obtain ⟨o, ho, -⟩ := Option.map_eq_some_iff.1 hs'
        exact ⟨o.1, ((hfit r hr).loc u o ho).1, (hok.loc u o.1 o.2 ho).1⟩
      · obtain ⟨s, hs'⟩ := Option.isSome_iff_exists.1 hu
        obtain ⟨g, hg, -⟩ := Option.map_eq_some_iff.1 hs'
        exact ⟨g.obj, ((hfit r hr).gho u g hg).1, (hok.gho u g hg).1⟩

theorem five : PlainText ((someJson [[(0, .num 5)]]).dumps [(0, .num 5)]) ∧ (someJson [[(0, .num 5)]]).loads ((someJson [[(0, .num 5)]]).dumps [(0, .num 5)]) = some [(0, .num 5)] :=
  ⟨⟨"\"0\": 5".toList, by decide +kernel, by decide, by decide, by decide⟩, by decide +kernel⟩

/-- Two nodes on rank 0, one of which has an edge to a node on rank 1. -/
example (d : Bool) : Written 2 (someJson [[(0, .num 5)]]) "net".toList d joined [(1, 3, [(0, .num 5)]), (1, 2, [])] where
  name := by decide
  ids := by decide
  types := by decide
  ranks := .inr (by decide)
  nodeAttrs := by
    intro x hx
    simp only [joined, List.mem_cons, List.not_mem_nil, or_false] at hx
    rcases hx with rfl | rfl | rfl
    · exact fun h => by cases h
    · exact fun h => by cases h
    · exact fun _ => five
  edgeAttrs := by
    intro x hx
    simp only [List.mem_cons, List.not_mem_nil, or_false] at hx
    rcases hx with rfl | rfl
    · exact fun _ => five
    · exact fun h => by cases h
  ends := by decide
  once := by cases d <;> decide
  keys := by decide

end Repast.Network
