import Verif.Network.NetRun

/-!
The specification for histories in which agents are removed from a context with a network (C25, C26, C43): `Sp.bury` is what the ranks should see once the agent is gone.
-/
namespace Repast.Network
open Repast.Dict Repast.Context

variable {S A : Type} {d : Bool} {n : Nat}

/-- Without the agent `u`. -/
def NV.bury (u : Nat) (N : NV A) : NV A :=
  { N with
    has := fun x => N.has x && decide (x ≠ u)
    edge := fun x y => if x = u ∨ y = u then none else N.edge x y
    syn := N.syn.filter fun p => decide (p.1 ≠ u) && decide (p.2 ≠ u) }

def RV.bury (u : Nat) (V : RV S A) : RV S A :=
  { V with
    loc := fun x => if x = u then none else V.loc x
    gho := fun x => if x = u then none else V.gho x
    net := V.net.bury u
    tag := fun x k => V.tag x k && decide (x ≠ u) }

def Sp.bury (u : Nat) (V : Sp S A) : Sp S A := fun k => (V k).bury u

/-- What an operation does, and which agents were removed. -/
def bstep (d : Bool) (n : Nat) (X : Sp S A × (Nat → Bool)) : WOp S A → Sp S A × (Nat → Bool)
  | .remove _ u => (X.1.bury u, fun x => X.2 x || decide (x = u))
  | op => (sstep d n X.1 op, X.2)

/-- No rank has added, changed or removed an edge of `u` with an agent of another rank since the last `synchronize`. -/
def Idle (n : Nat) (V : Sp S A) (u : Nat) : Prop := ∀ k < n, ∀ p, p ∈ (V k).net.new ∨ p ∈ (V k).net.upd ∨ p ∈ (V k).net.rem → p.1 ≠ u ∧ p.2 ≠ u

/-- The uses of a context with a network that are covered: those of `Legal`, and the removal of agents. -/
def LegalRm (d : Bool) (n : Nat) (X : Sp S A × (Nat → Bool)) : WOp S A → Prop
  -- a local agent without pending edges to other ranks
  | .remove r u => r < n ∧ ((X.1 r).loc u).isSome = true ∧ Idle n X.1 u
  -- unique ids of removed agents are not used again
  | .add r u s => Legal d n X.1 (.add r u s) ∧ X.2 u = false
  -- no agent was removed before
  | .clearEdges r pid => Legal d n X.1 (.clearEdges r pid) ∧ ∀ u, X.2 u = false
  | op => Legal d n X.1 op

/-- A history that is covered. -/
def LegalRunRm (d : Bool) (n : Nat) : Sp S A × (Nat → Bool) → List (WOp S A) → Prop
  | _, [] => True
  | X, o :: os => LegalRm d n X o ∧ LegalRunRm d n (bstep d n X o) os

/-! ### The invariant -/

variable {V : Sp S A}

theorem isSome_bury {α : Type} {f : Nat → Option α} {u x : Nat} : (if x = u then none else f x).isSome = true ↔ x ≠ u ∧ (f x).isSome = true := by
  split <;> simp_all

theorem bury_edge {N : NV A} {u x y : Nat} {a : Attr A} : (N.bury u).edge x y = some a ↔ (x ≠ u ∧ y ≠ u) ∧ N.edge x y = some a := by
  unfold NV.bury
  simp only []
  split
  · rename_i h; constructor
    · intro h; cases h
    · rintro ⟨⟨a, b⟩, -⟩; exact absurd h (by simp [a, b])
  · rename_i h
    simp only [not_or] at h
    exact ⟨fun e => ⟨h, e⟩, fun e => e.2⟩

theorem bury_syn {N : NV A} {u : Nat} {p : Nat × Nat} : p ∈ (N.bury u).syn ↔ p ∈ N.syn ∧ p.1 ≠ u ∧ p.2 ≠ u := by
  unfold NV.bury
  simp

theorem bury_live_edge {N : NV A} {u x y : Nat} (hx : x ≠ u) (hy : y ≠ u) : (N.bury u).edge x y = N.edge x y := by
  unfold NV.bury
  simp [hx, hy]

theorem RInv.bury {H : Nat → Bool} {V : RV S A} (h : RInv H d V) {u : Nat} (hH : H u = false) (hi : ∀ p, p ∈ V.net.new ∨ p ∈ V.net.upd ∨ p ∈ V.net.rem → p.1 ≠ u ∧ p.2 ≠ u) :
    RInv H d (V.bury u) := by
  have hcross : ∀ x y, x ≠ u → y ≠ u → (V.bury u).cross x y = V.cross x y := by
    intro x y hx hy
    unfold RV.cross RV.bury
    simp only [hx, hy, if_false]
  exact {
    has := by
      intro x
      show (V.net.has x && decide (x ≠ u)) = (((if x = u then none else V.loc x).isSome || (if x = u then none else V.gho x).isSome) && !H x)
      by_cases hx : x = u
      · simp [hx]
      · rw [h.has x]; simp [hx]
    hid := by
      intro x hx
      show (if x = u then none else V.gho x).isSome = true
      rw [if_neg (by rintro rfl; rw [hH] at hx; cases hx)]
      exact h.hid x hx
    apart := by
      intro x hx
      obtain ⟨h1, h2⟩ := isSome_bury.1 hx
      show (if x = u then none else V.gho x) = none
      rw [if_neg h1]; exact h.apart x h2
    sym := by
      intro hd x y
      show (if x = u ∨ y = u then none else V.net.edge x y) = (if y = u ∨ x = u then none else V.net.edge y x)
      rw [h.sym hd x y]
      by_cases hx : x = u <;> by_cases hy : y = u <;> simp [hx, hy]
    ends := by
      intro x y hxy
      obtain ⟨a, ha⟩ := Option.isSome_iff_exists.1 hxy
      obtain ⟨⟨hx, hy⟩, ha⟩ := bury_edge.1 ha
      obtain ⟨h1, h2, h3⟩ := h.ends x y (by rw [ha]; rfl)
      refine ⟨?_, ?_, h3.imp (fun h => isSome_bury.2 ⟨hx, h⟩) (fun h => isSome_bury.2 ⟨hy, h⟩)⟩
      · show (V.net.has x && decide (x ≠ u)) = true
        rw [h1]; simp [hx]
      · show (V.net.has y && decide (y ≠ u)) = true
        rw [h2]; simp [hy]
    ok := by
      intro x y a ha
      exact h.ok x y a (bury_edge.1 ha).2
    wrote := by
      intro p hp
      have hp' : (p ∈ V.net.new ∨ p ∈ V.net.syn) ∧ p.1 ≠ u ∧ p.2 ≠ u := by
        rcases hp with hp | hp
        · exact ⟨.inl hp, hi p (.inl hp)⟩
        · obtain ⟨h1, h2⟩ := bury_syn.1 hp
          exact ⟨.inr h1, h2⟩
      obtain ⟨h1, h2, h3⟩ := hp'
      obtain ⟨h4, h5⟩ := h.wrote p h1
      refine ⟨?_, by rw [hcross _ _ h2 h3]; exact h5⟩
      show ((V.net.bury u).edge p.1 p.2).isSome = true
      rw [bury_live_edge h2 h3]; exact h4
    upd := by
      intro p hp
      rcases h.upd p hp with h1 | h1
      · exact .inl h1
      · exact .inr (bury_syn.2 ⟨h1, hi p (.inr (.inl hp))⟩)
    rem := by
      intro p hp
      obtain ⟨hx, hy⟩ := hi p (.inr (.inr hp))
      obtain ⟨h1, h2, h3, h4⟩ := h.rem p hp
      refine ⟨?_, ?_, ?_, by rw [hcross _ _ hx hy]; exact h4⟩
      · show (V.net.bury u).edge p.1 p.2 = none
        rw [bury_live_edge hx hy]; exact h1
      · show (V.net.has p.1 && decide (p.1 ≠ u)) = true
        rw [h2]; simp [hx]
      · show (V.net.has p.2 && decide (p.2 ≠ u)) = true
        rw [h3]; simp [hy]
    once := h.once }

theorem bury_peer {u r k x y : Nat} (h : Peer (V.bury u) r k x y) : Peer V r k x y ∧ x ≠ u ∧ y ≠ u := by
  rcases h with ⟨a, b⟩ | ⟨a, b⟩
  · obtain ⟨a1, a2⟩ := isSome_bury.1 a
    obtain ⟨b1, b2⟩ := isSome_bury.1 b
    exact ⟨.inl ⟨a2, b2⟩, a1, b1⟩
  · obtain ⟨a1, a2⟩ := isSome_bury.1 a
    obtain ⟨b1, b2⟩ := isSome_bury.1 b
    exact ⟨.inr ⟨a2, b2⟩, b1, a1⟩

theorem SInv.bury (h : SInv NoHid d n V) {u : Nat} (hi : Idle n V u) : SInv NoHid d n (V.bury u) where
  rank := h.rank
  own := by
    intro r hr k hk x h1 h2
    exact h.own r hr k hk x (isSome_bury.1 h1).2 (isSome_bury.1 h2).2
  gho := by
    intro k hk x s r hx
    have hx : (if x = u then none else (V k).gho x) = some (s, r) := hx
    split at hx
    · cases hx
    · rename_i hne
      obtain ⟨h1, h2, h3⟩ := h.gho k hk x s r hx
      exact ⟨h1, h2, isSome_bury.2 ⟨hne, h3⟩⟩
  tag := by
    intro r hr x k
    show ((V r).tag x k && decide (x ≠ u)) = true ↔ k < n ∧ (if x = u then none else (V r).loc x).isSome = true ∧ (if x = u then none else (V k).gho x).isSome = true
    rw [Bool.and_eq_true, h.tag r hr x k, isSome_bury, isSome_bury, decide_eq_true_eq]
    exact ⟨fun ⟨⟨a, b, c⟩, e⟩ => ⟨a, ⟨e, b⟩, e, c⟩, fun ⟨a, ⟨e, b⟩, _, c⟩ => ⟨⟨a, b, c⟩, e⟩⟩
  one := fun r hr => (h.one r hr).bury rfl (hi r hr)
  two := by
    intro r hr k hk hne
    have h2 := h.two r hr k hk hne
    exact {
      agree := by
        intro x y hp d1 d2 g1 g2
        obtain ⟨hp, hx, hy⟩ := bury_peer hp
        show ((V r).net.bury u).edge x y = ((V k).net.bury u).edge x y
        rw [bury_live_edge hx hy, bury_live_edge hx hy]
        exact h2.agree x y hp d1 d2 g1 g2
      before := by
        intro x y hp d1 d2
        obtain ⟨hp, hx, hy⟩ := bury_peer hp
        show Before (((V k).net.bury u).edge x y) (((V r).net.bury u).edge x y)
        rw [bury_live_edge hx hy, bury_live_edge hx hy]
        exact h2.before x y hp d1 d2
      syn := by
        intro p hp hpe
        obtain ⟨hpe, hx, hy⟩ := bury_peer hpe
        refine (h2.syn p (bury_syn.1 hp).1 hpe).imp (fun h => ?_) (fun h => h)
        show (((V k).net.bury u).edge p.1 p.2).isSome = true
        rw [bury_live_edge hx hy]; exact h
      rem := by
        intro p hp hpe
        obtain ⟨hpe, hx, hy⟩ := bury_peer hpe
        obtain ⟨h3, h4⟩ := h2.rem p hp hpe
        refine ⟨?_, ?_⟩
        · show (((V k).net.bury u).edge p.1 p.2).isSome = true
          rw [bury_live_edge hx hy]; exact h3
        · rintro ⟨q, hq, hs⟩
          exact h4 ⟨q, hq.imp id (fun h => (bury_syn.1 h).1), hs⟩ }
  orient := by
    intro hd r hr k hk p hp
    obtain ⟨h1, h2⟩ := h.orient hd r hr k hk p (hp.imp id fun h => (bury_syn.1 h).1)
    exact ⟨h1, fun h => h2 (bury_syn.1 h).1⟩

theorem Legal.of {X : Sp S A × (Nat → Bool)} {op : WOp S A} (h : LegalRm d n X op) (hop : ∀ r u, op ≠ .remove r u) : Legal d n X.1 op := by
  cases op <;> first | exact h | exact h.1 | exact absurd rfl (hop _ _)

theorem bstep_of {X : Sp S A × (Nat → Bool)} {op : WOp S A} (hop : ∀ r u, op ≠ .remove r u) : bstep d n X op = (sstep d n X.1 op, X.2) := by
  cases op <;> first | rfl | exact absurd rfl (hop _ _)

theorem SInv.bstep {X : Sp S A × (Nat → Bool)} (h : SInv NoHid d n X.1) {op : WOp S A} (hl : LegalRm d n X op) : SInv NoHid d n (bstep d n X op).1 := by
  by_cases hop : ∃ r u, op = .remove r u
  · obtain ⟨r, u, rfl⟩ := hop
    exact h.bury hl.2.2
  · have hop : ∀ r u, op ≠ .remove r u := fun r u e => hop ⟨r, u, e⟩
    rw [bstep_of hop]
    exact h.step (Legal.of hl hop)

end Repast.Network
