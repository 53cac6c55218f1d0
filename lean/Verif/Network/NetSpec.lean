import Verif.Network.RankSend
import Verif.Network.Merge

/-!
The specification for C43: what each rank sees, in terms of unique ids (`RV` and `NV`), how the operations of a model change it, and which uses of a network it covers.
-/
namespace Repast.Network
open Repast.Dict Repast.Context

variable {S A : Type}

/-- What the ranks see. -/
abbrev Sp (S A : Type) := Nat → RV S A

def Sp.set (V : Sp S A) (r : Nat) (X : RV S A) : Sp S A := fun k => if k = r then X else V k

def Sp.setNet (V : Sp S A) (r : Nat) (N : NV A) : Sp S A := V.set r { V r with net := N }

/-- At the beginning there is nothing. -/
def Sp.init : Sp S A := fun r => { rank := r, loc := fun _ => none, gho := fun _ => none, net := { has := fun _ => false, edge := fun _ _ => none, new := [], upd := [], rem := [], syn := [] },
                                   tag := fun _ _ => false, req := fun _ => false }

/-! ### Operations of one rank -/

def NV.addEdge (d : Bool) (N : NV A) (cross : Bool) (u v : Nat) (a : Attr A) : NV A :=
  { N with
    edge := fun x y => if SameN d u v x y then some (merge ((N.edge x y).getD []) a) else N.edge x y
    new := if cross then ins N.new (u, v) else N.new }

/-- The orientation in which a rank has added the edge between `u` and `v`. -/
def NV.key (N : NV A) (u v : Nat) : Nat × Nat := if (u, v) ∈ N.new ∨ (u, v) ∈ N.syn then (u, v) else (v, u)

def NV.updateEdge (d : Bool) (N : NV A) (cross : Bool) (u v : Nat) (a : Attr A) : NV A :=
  { N with
    edge := fun x y => if SameN d u v x y then (N.edge x y).map (merge · a) else N.edge x y
    upd := if cross then ins N.upd (N.key u v) else N.upd }

def NV.removeEdge (d : Bool) (N : NV A) (cross : Bool) (u v : Nat) : NV A :=
  if cross then
    { N with
      edge := fun x y => if SameN d u v x y then none else N.edge x y
      new := N.new.filter (fun q => decide (q ≠ N.key u v))
      upd := N.upd.filter (fun q => decide (q ≠ N.key u v))
      syn := N.syn.filter (fun q => decide (q ≠ N.key u v))
      rem := N.rem ++ [N.key u v] }
  else { N with edge := fun x y => if SameN d u v x y then none else N.edge x y }

/-- The edges to ghosts that were sent are removed from the other ranks. -/
def NV.clearEdges (N : NV A) : NV A := { N with edge := fun _ _ => none, new := [], upd := [], syn := [], rem := N.syn.foldl ins N.rem }

/-! ### Collective operations -/

/-- `request_agents` -/
def Sp.request (n : Nat) (rs : Nat → List (Nat × Nat)) (V : Sp S A) : Sp S A := fun k =>
  { V k with
    gho := fun u => if ((V k).gho u).isSome then (V k).gho u else
      match (rs k).find? (fun q => decide (q.1 = u)) with
      | some q => ((V q.2).loc u).map fun s => (s, q.2)
      | none => none
    net := { (V k).net with has := fun u => (V k).net.has u || (rs k).any fun q => decide (q.1 = u) }
    req := fun u => (V k).req u || (rs k).any fun q => decide (q.1 = u)
    tag := fun u j => (V k).tag u j || (decide (j < n) && (rs j).any fun q => decide (q = (u, k))) }

/-- The states of the ghosts are updated. -/
def Sp.states (V : Sp S A) : Sp S A := fun k => { V k with gho := fun u => ((V k).gho u).map fun g => (((V g.2).loc u).getD g.1, g.2) }

/-- The removed edges that rank `k` is told of, with the ranks that removed them. -/
def Sp.remIn (n : Nat) (V : Sp S A) (k : Nat) : List (Nat × Nat × Nat) := recv n (fun r => (V r).net.rem.map fun p => ((V r).far p, p.1, p.2)) k

/-- Edges that were removed by one rank are removed by the other, with their ghosts. -/
def Sp.removals (d : Bool) (n : Nat) (V : Sp S A) : Sp S A := fun k =>
  { V k with
    tag := fun u j => (V k).tag u j && !((V k).net.rem.any fun p => decide (u = (V k).near p ∧ j = (V k).far p))
    gho := fun x => if (V.remIn n k).any (fun m => decide (x = m.2.1 ∨ x = m.2.2)) then none else (V k).gho x
    net := { (V k).net with
      has := fun x => (V k).net.has x && !(decide (((V k).gho x).isSome = true) && (V.remIn n k).any (fun m => decide (x = m.2.1 ∨ x = m.2.2)))
      edge := fun x y => if (V.remIn n k).any (fun m => decide (SameN d m.2.1 m.2.2 x y)) then none else (V k).net.edge x y
      rem := [] } }

/-- The agents that rank `k` is sent. -/
def Sp.agentsIn (n : Nat) (V : Sp S A) (k : Nat) : List (Nat × Nat × S) := recv n (fun r => (V r).sendAgents (V r).net.new) k

/-- The edges that rank `k` is sent. -/
def Sp.edgesIn (n : Nat) (V : Sp S A) (k : Nat) : List (Nat × Nat × Nat × Attr A) := recv n (fun r => (V r).sendEdges (V r).net.new ++ (V r).sendEdges (V r).net.upd) k

/-- New and updated edges are copied to the other rank. -/
def Sp.copies (d : Bool) (n : Nat) (V : Sp S A) : Sp S A := fun k =>
  { V k with
    tag := fun u j => (V k).tag u j || ((V k).net.new.any fun p => decide (u = (V k).near p ∧ j = (V k).far p))
    gho := fun x => match (V.agentsIn n k).find? (fun m => decide (m.2.1 = x)) with
      | some m => some (m.2.2, m.1)
      | none => (V k).gho x
    net := { (V k).net with
      has := fun x => (V k).net.has x || (V.agentsIn n k).any (fun m => decide (m.2.1 = x))
      edge := fun x y => match (V.edgesIn n k).find? (fun m => decide (SameN d m.2.1 m.2.2.1 x y)) with
        | some m => some m.2.2.2
        | none => (V k).net.edge x y
      new := []
      upd := []
      syn := (V k).net.new.foldl ins (V k).net.syn } }

/-- What an operation does. -/
def sstep (d : Bool) (n : Nat) (V : Sp S A) : WOp S A → Sp S A
  | .add r u s => V.set r { V r with
      loc := fun x => if x = u then some s else (V r).loc x
      net := { (V r).net with has := fun x => (V r).net.has x || decide (x = u) } }
  | .setState r u s => V.set r { V r with loc := fun x => if x = u then some s else (V r).loc x }
  | .addEdge r _ u v a => V.setNet r ((V r).net.addEdge d ((V r).cross u v) u v a)
  | .updateEdge r _ u v a => V.setNet r ((V r).net.updateEdge d ((V r).cross u v) u v a)
  | .removeEdge r _ u v => V.setNet r ((V r).net.removeEdge d ((V r).cross u v) u v)
  | .clearEdges r _ => V.setNet r (V r).net.clearEdges
  | .request rs => V.request n rs
  | .synch true => Sp.copies d n (Sp.removals d n V.states)
  | _ => V

/-! ### The uses of a network that are covered -/

/-- The rank has added the edge, or changed its attributes, since the last `synchronize`. -/
def NV.Dirty (d : Bool) (N : NV A) (u v : Nat) : Prop := ∃ p, (p ∈ N.new ∨ p ∈ N.upd) ∧ SameN d p.1 p.2 u v

/-- The rank has removed the edge since the last `synchronize`. -/
def NV.Gone (d : Bool) (N : NV A) (u v : Nat) : Prop := ∃ p ∈ N.rem, SameN d p.1 p.2 u v

/-- The rank has added the edge. -/
def NV.Wrote (d : Bool) (N : NV A) (u v : Nat) : Prop := ∃ p, (p ∈ N.new ∨ p ∈ N.syn) ∧ SameN d p.1 p.2 u v

/-- The uses of a network that are covered, if what the ranks see is `V`. -/
def Legal (d : Bool) (n : Nat) (V : Sp S A) : WOp S A → Prop
  -- unique ids are unique
  | .add r u _ => r < n ∧ ∀ k < n, (V k).loc u = none
  | .setState r u _ => r < n ∧ ((V r).loc u).isSome = true
  -- one of the agents is local; the edge was not just removed; an undirected edge between two ranks is always added with the same orientation
  | .addEdge r pid u v _ => r < n ∧ pid = 0 ∧ (V r).net.has u = true ∧ (V r).net.has v = true ∧ (((V r).loc u).isSome = true ∨ ((V r).loc v).isSome = true) ∧
      (∀ k < n, ¬ (V k).net.Gone d u v) ∧ (d = false → u ≠ v → ∀ k < n, (v, u) ∉ (V k).net.new ∧ (v, u) ∉ (V k).net.syn)
  -- the rank has added the edge itself if it is between two ranks
  | .updateEdge r pid u v _ => r < n ∧ pid = 0 ∧ ((V r).net.edge u v).isSome = true ∧ ((V r).cross u v = true → (V r).net.Wrote d u v)
  -- an edge between two ranks was added by this rank only, and synchronized since
  | .removeEdge r pid u v => r < n ∧ pid = 0 ∧ ((V r).net.edge u v).isSome = true ∧ (d = true ∨ u ≠ v) ∧
      ((V r).cross u v = true → (∃ p ∈ (V r).net.syn, SameN d p.1 p.2 u v) ∧ ∀ k < n, k ≠ r → ¬ (V k).net.Wrote d u v)
  -- the edges between two ranks were added by this rank only, and synchronized since
  | .clearEdges r pid => r < n ∧ pid = 0 ∧ ∀ u v, ((V r).net.edge u v).isSome = true → (V r).cross u v = true →
      (∃ p ∈ (V r).net.syn, SameN d p.1 p.2 u v) ∧ ∀ k < n, k ≠ r → ¬ (V k).net.Wrote d u v
  -- agents of other ranks
  | .request rs => ∀ k < n, ((rs k).map (·.1)).Nodup ∧ ∀ q ∈ rs k, q.2 < n ∧ q.2 ≠ k ∧ ((V q.2).loc q.1).isSome = true
  -- no conflicting changes; the removed edge is the only one of its ghost on the other rank, and the ghost is not there on request
  | .synch ghosts => ghosts = true →
      (∀ r < n, ∀ k < n, ∀ u v, (V r).net.Dirty d u v → (V k).net.Dirty d u v → (V r).net.edge u v = (V k).net.edge u v) ∧
      ∀ r < n, ∀ p ∈ (V r).net.rem, (V ((V r).far p)).req ((V r).near p) = false ∧
        ∀ x y, ((V ((V r).far p)).net.edge x y).isSome = true → (x = (V r).near p ∨ y = (V r).near p) → SameN d p.1 p.2 x y
  | _ => False

/-- A history that is covered. -/
def LegalRun (d : Bool) (n : Nat) : Sp S A → List (WOp S A) → Prop
  | _, [] => True
  | V, o :: os => Legal d n V o ∧ LegalRun d n (sstep d n V o) os

/-! ### An invariant of the specification -/

/-- `u` is an agent of rank `r` and `v` one of rank `k`, or the other way around. -/
def Peer (V : Sp S A) (r k u v : Nat) : Prop := ((V r).loc u).isSome = true ∧ ((V k).loc v).isSome = true ∨ ((V r).loc v).isSome = true ∧ ((V k).loc u).isSome = true

/-- The attributes `b` have the first of the keys of `a`. -/
def Before (b a : Option (Attr A)) : Prop := ∀ x y, b = some x → a = some y → Dict.keys x <+: Dict.keys y

/-- What holds of what one rank sees. `H` are the ghosts that are not in the network: that of an agent while it is moved, and otherwise none. -/
structure RInv (H : Nat → Bool) (d : Bool) (V : RV S A) : Prop where
  has : ∀ u, V.net.has u = (((V.loc u).isSome || (V.gho u).isSome) && !H u)
  hid : ∀ u, H u = true → (V.gho u).isSome = true
  apart : ∀ u, (V.loc u).isSome = true → V.gho u = none
  sym : d = false → ∀ u v, V.net.edge u v = V.net.edge v u
  ends : ∀ u v, (V.net.edge u v).isSome = true → V.net.has u = true ∧ V.net.has v = true ∧ ((V.loc u).isSome = true ∨ (V.loc v).isSome = true)
  ok : ∀ u v a, V.net.edge u v = some a → (Dict.keys a).Nodup
  wrote : ∀ p, p ∈ V.net.new ∨ p ∈ V.net.syn → (V.net.edge p.1 p.2).isSome = true ∧ V.cross p.1 p.2 = true
  upd : ∀ p, p ∈ V.net.upd → p ∈ V.net.new ∨ p ∈ V.net.syn
  rem : ∀ p, p ∈ V.net.rem → V.net.edge p.1 p.2 = none ∧ V.net.has p.1 = true ∧ V.net.has p.2 = true ∧ V.cross p.1 p.2 = true
  once : V.net.rem.Pairwise fun p q => ¬ SameN d p.1 p.2 q.1 q.2

/-- What holds of what two ranks see. While an agent is moved (`M`) the edges that it had with agents of other ranks are still to be copied to its new rank. -/
structure PInv (M : Bool) (d : Bool) (V : Sp S A) (r k : Nat) : Prop where
  agree : ∀ u v, Peer V r k u v → ¬ (V r).net.Dirty d u v → ¬ (V k).net.Dirty d u v → ¬ (V r).net.Gone d u v → ¬ (V k).net.Gone d u v → (V r).net.edge u v = (V k).net.edge u v
  before : ∀ u v, Peer V r k u v → (V r).net.Dirty d u v → ¬ (V k).net.Dirty d u v → Before ((V k).net.edge u v) ((V r).net.edge u v)
  syn : ∀ p ∈ (V r).net.syn, Peer V r k p.1 p.2 → ((V k).net.edge p.1 p.2).isSome = true ∨ (M = true ∧ p ∈ (V r).net.new)
  rem : ∀ p ∈ (V r).net.rem, Peer V r k p.1 p.2 → ((V k).net.edge p.1 p.2).isSome = true ∧ ¬ (V k).net.Wrote d p.1 p.2

/-- The ghosts of each rank that are not in the network, and whether an agent is being moved. -/
structure Hid where
  ghost : Nat → Nat → Bool
  moving : Bool

/-- No agent is being moved. -/
abbrev Hid.settled (H : Hid) : Hid := ⟨H.ghost, false⟩

instance : CoeFun Hid (fun _ => Nat → Nat → Bool) := ⟨Hid.ghost⟩

structure SInv (H : Hid) (d : Bool) (n : Nat) (V : Sp S A) : Prop where
  rank : ∀ r < n, (V r).rank = r
  own : ∀ r < n, ∀ k < n, ∀ u, ((V r).loc u).isSome = true → ((V k).loc u).isSome = true → r = k
  gho : ∀ k < n, ∀ u s r, (V k).gho u = some (s, r) → r < n ∧ r ≠ k ∧ ((V r).loc u).isSome = true
  tag : ∀ r < n, ∀ u k, (V r).tag u k = true ↔ k < n ∧ ((V r).loc u).isSome = true ∧ ((V k).gho u).isSome = true
  one : ∀ r < n, RInv (H r) d (V r)
  two : ∀ r < n, ∀ k < n, r ≠ k → PInv H.moving d V r k
  orient : d = false → ∀ r < n, ∀ k < n, ∀ p, p ∈ (V r).net.new ∨ p ∈ (V r).net.syn → (p.2, p.1) ∉ (V k).net.new ∧ (p.2, p.1) ∉ (V k).net.syn

theorem SameN.symm {d : Bool} {a b u v : Nat} (h : SameN d a b u v) : SameN d u v a b := by unfold SameN at *; grind
theorem SameN.trans {d : Bool} {a b u v x y : Nat} (h : SameN d a b u v) (h' : SameN d u v x y) : SameN d a b x y := by unfold SameN at *; grind
theorem SameN.refl (d : Bool) (a b : Nat) : SameN d a b a b := .inl ⟨rfl, rfl⟩

theorem NV.Dirty.same {d : Bool} {N : NV A} {u v x y : Nat} (h : N.Dirty d u v) (hs : SameN d u v x y) : N.Dirty d x y := h.imp fun _ hp => ⟨hp.1, hp.2.trans hs⟩
theorem NV.Gone.same {d : Bool} {N : NV A} {u v x y : Nat} (h : N.Gone d u v) (hs : SameN d u v x y) : N.Gone d x y := h.imp fun _ hp => ⟨hp.1, hp.2.trans hs⟩
theorem NV.Wrote.same {d : Bool} {N : NV A} {u v x y : Nat} (h : N.Wrote d u v) (hs : SameN d u v x y) : N.Wrote d x y := h.imp fun _ hp => ⟨hp.1, hp.2.trans hs⟩

theorem Peer.swap {V : Sp S A} {r k u v : Nat} (h : Peer V r k u v) : Peer V k r u v := by unfold Peer at *; grind

theorem Peer.same {V : Sp S A} {r k u v x y : Nat} {d : Bool} (h : Peer V r k u v) (hs : SameN d u v x y) : Peer V r k x y := by
  unfold Peer SameN at *; grind

/-- Another network of the rank `r`. -/
theorem SInv.setNet {H : Hid} {d : Bool} {n : Nat} {V : Sp S A} (h : SInv H d n V) {r : Nat} (hr : r < n) {N : NV A}
    (one : RInv (H r) d { V r with net := N })
    (two : ∀ k < n, k ≠ r → PInv H.moving d (V.setNet r N) r k ∧ PInv H.moving d (V.setNet r N) k r)
    (orient : d = false → ∀ p, p ∈ N.new ∨ p ∈ N.syn → ((p.2, p.1) ∉ N.new ∧ (p.2, p.1) ∉ N.syn) ∧ ∀ k < n, k ≠ r → (p.2, p.1) ∉ (V k).net.new ∧ (p.2, p.1) ∉ (V k).net.syn) :
    SInv H d n (V.setNet r N) := by
  have hV : ∀ k, V.setNet r N k = if k = r then { V r with net := N } else V k := fun _ => rfl
  have hloc : ∀ k, (V.setNet r N k).loc = (V k).loc := by intro k; rw [hV]; split <;> simp_all
  have hgho : ∀ k, (V.setNet r N k).gho = (V k).gho := by intro k; rw [hV]; split <;> simp_all
  have htag : ∀ k, (V.setNet r N k).tag = (V k).tag := by intro k; rw [hV]; split <;> simp_all
  have hrank : ∀ k, (V.setNet r N k).rank = (V k).rank := by intro k; rw [hV]; split <;> simp_all
  exact {
    rank := by intro k hk; rw [hrank]; exact h.rank k hk
    own := by intro k hk j hj u; rw [hloc, hloc]; exact h.own k hk j hj u
    gho := by intro k hk u s j; rw [hgho, hloc]; exact h.gho k hk u s j
    tag := by intro k hk u j; rw [hgho, hloc, htag]; exact h.tag k hk u j
    one := by
      intro k hk
      rw [hV]; split
      · rename_i e; subst e; exact one
      · exact h.one k hk
    two := by
      intro k hk j hj hne
      by_cases e : k = r
      · subst e; exact (two j hj (Ne.symm hne)).1
      · by_cases e' : j = r
        · subst e'; exact (two k hk e).2
        · have h1 : V.setNet r N k = V k := by rw [hV, if_neg e]
          have h2 : V.setNet r N j = V j := by rw [hV, if_neg e']
          have := h.two k hk j hj hne
          have hp : ∀ u v, Peer (V.setNet r N) k j u v → Peer V k j u v := by intro u v; unfold Peer; rw [h1, h2]; exact id
          exact ⟨fun u v hh => by rw [h1, h2]; exact this.agree u v (hp u v hh), fun u v hh => by rw [h1, h2]; exact this.before u v (hp u v hh),
            fun p hm hh => by rw [h1] at hm ⊢; rw [h2]; exact this.syn p hm (hp _ _ hh), fun p hm hh => by rw [h1] at hm; rw [h2]; exact this.rem p hm (hp _ _ hh)⟩
    orient := by
      intro hd k hk j hj p hp
      by_cases e : k = r
      · subst e
        rw [hV, if_pos rfl] at hp
        have := orient hd p hp
        by_cases e' : j = k
        · subst e'; rw [hV, if_pos rfl]; exact this.1
        · rw [hV, if_neg e']; exact this.2 j hj e'
      · rw [hV, if_neg e] at hp
        by_cases e' : j = r
        · subst e'
          rw [hV, if_pos rfl]
          refine ⟨fun hm => ?_, fun hm => ?_⟩
          · have := (orient hd (p.2, p.1) (.inl hm)).2 k hk e
            exact hp.elim this.1 this.2
          · have := (orient hd (p.2, p.1) (.inr hm)).2 k hk e
            exact hp.elim this.1 this.2
        · rw [hV, if_neg e']; exact h.orient hd k hk j hj p hp }

/-- There are no ghosts that are not in the network. -/
abbrev NoHid : Hid := ⟨fun _ _ => false, false⟩

theorem PInv.syn0 {d : Bool} {V : Sp S A} {r k : Nat} (h : PInv NoHid.moving d V r k) (p : Nat × Nat) (hp : p ∈ (V r).net.syn) (hpe : Peer V r k p.1 p.2) :
    ((V k).net.edge p.1 p.2).isSome = true := by
  rcases h.syn p hp hpe with h1 | h1
  · exact h1
  · cases h1.1

theorem SInv.init (d : Bool) (n : Nat) : SInv NoHid d n (Sp.init : Sp S A) where
  rank := fun _ _ => rfl
  own := by intro r _ k _ u hh; cases hh
  gho := by intro k _ u s r hh; cases hh
  tag := by intro r _ u k; simp [Sp.init]
  one := by
    intro r _
    exact { has := by simp [Sp.init], hid := by simp, apart := by simp [Sp.init], sym := by simp [Sp.init], ends := by simp [Sp.init], ok := by simp [Sp.init], wrote := by simp [Sp.init],
            upd := by simp [Sp.init], rem := by simp [Sp.init], once := by simp [Sp.init] }
  two := by
    intro r _ k _ _
    exact { agree := by simp [Sp.init], before := by intro u v hp; simp [Peer, Sp.init] at hp, syn := by simp [Sp.init], rem := by simp [Sp.init] }
  orient := by simp [Sp.init]

end Repast.Network
