import Verif.Network.NetProps
import Verif.Network.Violations

/-!
Histories that C43 covers. `LegalRun` is a proposition about all unique ids; it is decided by looking at the finitely many that a history adds.
-/
namespace Repast.Network
open Repast.Dict Repast.Context

variable {S A : Type} [DecidableEq A] {d : Bool} {n : Nat} {V : Sp S A}

/-- A test for `Legal`, if all agents are in `ids`. -/
def legalB (d : Bool) (n : Nat) (ids : List Nat) (V : Sp S A) : WOp S A → Bool
  | .add r u _ => decide (r < n) && (decide (u ∈ ids) && (List.range n).all fun k => ((V k).loc u).isNone)
  | .setState r u _ => decide (r < n) && ((V r).loc u).isSome
  | .addEdge r pid u v _ => decide (r < n) && (decide (pid = 0) && ((V r).net.has u && ((V r).net.has v && ((((V r).loc u).isSome || ((V r).loc v).isSome) &&
      (((List.range n).all fun k => (V k).net.rem.all fun p => !decide (SameN d p.1 p.2 u v)) &&
      (d || decide (u = v) || (List.range n).all fun k => !decide ((v, u) ∈ (V k).net.new) && !decide ((v, u) ∈ (V k).net.syn)))))))
  | .updateEdge r pid u v _ => decide (r < n) && (decide (pid = 0) && (((V r).net.edge u v).isSome &&
      (!(V r).cross u v || ((V r).net.new ++ (V r).net.syn).any fun p => decide (SameN d p.1 p.2 u v))))
  | .removeEdge r pid u v => decide (r < n) && (decide (pid = 0) && (((V r).net.edge u v).isSome && ((d || !decide (u = v)) &&
      (!(V r).cross u v || (((V r).net.syn.any fun p => decide (SameN d p.1 p.2 u v)) &&
        (List.range n).all fun k => decide (k = r) || ((V k).net.new ++ (V k).net.syn).all fun p => !decide (SameN d p.1 p.2 u v))))))
  | .clearEdges r pid => decide (r < n) && (decide (pid = 0) && ids.all fun u => ids.all fun v => !((V r).net.edge u v).isSome ||
      (!(V r).cross u v || (((V r).net.syn.any fun p => decide (SameN d p.1 p.2 u v)) &&
        (List.range n).all fun k => decide (k = r) || ((V k).net.new ++ (V k).net.syn).all fun p => !decide (SameN d p.1 p.2 u v))))
  | .request rs => (List.range n).all fun k => decide ((rs k).map (·.1)).Nodup && (rs k).all fun q => decide (q.2 < n) && (!decide (q.2 = k) && ((V q.2).loc q.1).isSome)
  | .synch ghosts => !ghosts ||
      (((List.range n).all fun r => (List.range n).all fun k => ((V r).net.new ++ (V r).net.upd).all fun p => ((V k).net.new ++ (V k).net.upd).all fun q =>
        !decide (SameN d p.1 p.2 q.1 q.2) || (decide ((V r).net.edge p.1 p.2 = (V k).net.edge p.1 p.2) && decide ((V r).net.edge p.2 p.1 = (V k).net.edge p.2 p.1))) &&
      ((List.range n).all fun r => (V r).net.rem.all fun p => !(V ((V r).far p)).req ((V r).near p) &&
        ids.all fun x => ids.all fun y => !((V ((V r).far p)).net.edge x y).isSome || (!decide (x = (V r).near p ∨ y = (V r).near p) || decide (SameN d p.1 p.2 x y))))
  | _ => false

def legalRunB (d : Bool) (n : Nat) (ids : List Nat) : Sp S A → List (WOp S A) → Bool
  | _, [] => true
  | V, o :: os => legalB d n ids V o && legalRunB d n ids (sstep d n V o) os

/-- All agents are in `ids`. -/
def Inside (n : Nat) (ids : List Nat) (V : Sp S A) : Prop := ∀ r < n, ∀ u, ((V r).loc u).isSome = true → u ∈ ids

omit [DecidableEq A] in
theorem Inside.has {ids : List Nat} (h : SInv NoHid d n V) (hi : Inside n ids V) {r : Nat} (hr : r < n) {u : Nat} (hu : (V r).net.has u = true) : u ∈ ids := by
  rw [(h.one r hr).has, Bool.and_eq_true, Bool.or_eq_true] at hu
  rcases hu.1 with hu | hu
  · exact hi r hr u hu
  · obtain ⟨⟨s, k⟩, e⟩ := Option.isSome_iff_exists.1 hu
    obtain ⟨a, -, c⟩ := h.gho r hr u s k e
    exact hi k a u c

theorem legalB_sound {ids : List Nat} (h : SInv NoHid d n V) (hi : Inside n ids V) {o : WOp S A} (hb : legalB d n ids V o = true) : Legal d n V o ∧ Inside n ids (sstep d n V o) := by
  cases o with
  | add r u s =>
    simp only [legalB, Bool.and_eq_true, decide_eq_true_eq, List.all_eq_true, List.mem_range, Option.isNone_iff_eq_none] at hb
    refine ⟨⟨hb.1, hb.2.2⟩, ?_⟩
    intro k hk x hx
    have : (sstep d n V (.add r u s) k).loc x = if k = r then (if x = u then some s else (V r).loc x) else (V k).loc x := by
      show (V.set r _ k).loc x = _
      unfold Sp.set; split <;> rfl
    rw [this] at hx
    split at hx
    · split at hx
      · rename_i e; rw [e]; exact hb.2.1
      · exact hi r (by omega) x hx
    · exact hi k hk x hx
  | setState r u s =>
    simp only [legalB, Bool.and_eq_true, decide_eq_true_eq] at hb
    refine ⟨hb, ?_⟩
    intro k hk x hx
    have : (sstep d n V (.setState r u s) k).loc x = if k = r then (if x = u then some s else (V r).loc x) else (V k).loc x := by
      show (V.set r _ k).loc x = _
      unfold Sp.set; split <;> rfl
    rw [this] at hx
    split at hx
    · split at hx
      · rename_i e; rw [e]; exact hi r hb.1 u hb.2
      · exact hi r (by omega) x hx
    · exact hi k hk x hx
  | addEdge r pid u v a =>
    simp only [legalB, Bool.and_eq_true, decide_eq_true_eq, List.all_eq_true, List.mem_range, Bool.or_eq_true, Bool.not_eq_true', decide_eq_false_iff_not] at hb
    obtain ⟨h1, h2, h3, h4, h5, h6, h7⟩ := hb
    refine ⟨⟨h1, h2, h3, h4, h5, ?_, ?_⟩, ?_⟩
    · rintro k hk ⟨p, hp, hs⟩; exact h6 k hk p hp hs
    · intro hd hne k hk
      rcases h7 with (hh | hh) | hh
      · rw [hh] at hd; cases hd
      · exact absurd hh hne
      · exact hh k hk
    · intro k hk x hx
      have : (sstep d n V (.addEdge r pid u v a) k).loc = (V k).loc := by
        show (V.setNet r _ k).loc = _
        unfold Sp.setNet Sp.set; split <;> simp_all
      rw [this] at hx; exact hi k hk x hx
  | updateEdge r pid u v a =>
    simp only [legalB, Bool.and_eq_true, decide_eq_true_eq, List.any_eq_true, List.mem_append, Bool.or_eq_true, Bool.not_eq_true'] at hb
    obtain ⟨h1, h2, h3, h4⟩ := hb
    refine ⟨⟨h1, h2, h3, ?_⟩, ?_⟩
    · intro hc
      rcases h4 with hh | ⟨p, hp, hs⟩
      · rw [hh] at hc; cases hc
      · exact ⟨p, hp, hs⟩
    · intro k hk x hx
      have : (sstep d n V (.updateEdge r pid u v a) k).loc = (V k).loc := by
        show (V.setNet r _ k).loc = _
        unfold Sp.setNet Sp.set; split <;> simp_all
      rw [this] at hx; exact hi k hk x hx
  | removeEdge r pid u v =>
    simp only [legalB, Bool.and_eq_true, decide_eq_true_eq, List.any_eq_true, List.all_eq_true, List.mem_range, List.mem_append, Bool.or_eq_true, Bool.not_eq_true', decide_eq_false_iff_not] at hb
    obtain ⟨h1, h2, h3, h4, h5⟩ := hb
    refine ⟨⟨h1, h2, h3, h4, ?_⟩, ?_⟩
    · intro hc
      rcases h5 with hh | ⟨⟨p, hp, hs⟩, h6⟩
      · rw [hh] at hc; cases hc
      · refine ⟨⟨p, hp, hs⟩, ?_⟩
        rintro k hk hne ⟨q, hq, hs'⟩
        rcases h6 k hk with hh | hh
        · exact hne hh
        · exact hh q hq hs'
    · intro k hk x hx
      have : (sstep d n V (.removeEdge r pid u v) k).loc = (V k).loc := by
        show (V.setNet r _ k).loc = _
        unfold Sp.setNet Sp.set; split <;> simp_all
      rw [this] at hx; exact hi k hk x hx
  | clearEdges r pid =>
    simp only [legalB, Bool.and_eq_true, decide_eq_true_eq, List.any_eq_true, List.all_eq_true, List.mem_range, List.mem_append, Bool.or_eq_true, Bool.not_eq_true', decide_eq_false_iff_not] at hb
    obtain ⟨h1, h2, h3⟩ := hb
    refine ⟨⟨h1, h2, ?_⟩, ?_⟩
    · intro u v he hc
      obtain ⟨c1, c2, -⟩ := (h.one r h1).ends u v he
      rcases h3 u (hi.has h h1 c1) v (hi.has h h1 c2) with hh | hh | ⟨⟨p, hp, hs⟩, h6⟩
      · rw [hh] at he; cases he
      · rw [hh] at hc; cases hc
      · refine ⟨⟨p, hp, hs⟩, ?_⟩
        rintro k hk hne ⟨q, hq, hs'⟩
        rcases h6 k hk with hh | hh
        · exact hne hh
        · exact hh q hq hs'
    · intro k hk x hx
      have : (sstep d n V (.clearEdges r pid) k).loc = (V k).loc := by
        show (V.setNet r _ k).loc = _
        unfold Sp.setNet Sp.set; split <;> simp_all
      rw [this] at hx; exact hi k hk x hx
  | request rs =>
    simp only [legalB, Bool.and_eq_true, decide_eq_true_eq, List.all_eq_true, List.mem_range, Bool.not_eq_true', decide_eq_false_iff_not] at hb
    exact ⟨hb, hi⟩
  | synch g =>
    cases g with
    | false => exact ⟨fun hh => (by cases hh), hi⟩
    | true =>
      simp only [legalB, Bool.and_eq_true, decide_eq_true_eq, List.all_eq_true, List.mem_range, List.mem_append, Bool.or_eq_true, Bool.not_eq_true', decide_eq_false_iff_not, Bool.not_true, Bool.false_eq_true, false_or] at hb
      obtain ⟨h1, h2⟩ := hb
      refine ⟨fun _ => ⟨?_, ?_⟩, hi⟩
      · rintro r hr k hk u v ⟨p, hp, hs⟩ ⟨q, hq, hs'⟩
        rcases h1 r hr k hk p hp q hq with hh | ⟨e1, e2⟩
        · exact absurd (hs.trans hs'.symm) hh
        · rcases hs with ⟨a, b⟩ | ⟨-, a, b⟩
          · rw [← a, ← b]; exact e1
          · rw [a, b] at e2
            first | exact e2 | (rw [a, b] at e1; exact e1) | (rw [← a, ← b]; assumption)
      · intro r hr p hp
        obtain ⟨e1, e2⟩ := h2 r hr p hp
        refine ⟨e1, ?_⟩
        intro x y he hxy
        obtain ⟨b1, b2, b3, b4⟩ := (h.one r hr).rem p hp
        have hf := (h.far hr b2 b3 b4).lt
        obtain ⟨c1, c2, -⟩ := (h.one _ hf).ends x y he
        rcases e2 x (hi.has h hf c1) y (hi.has h hf c2) with hh | hh | hh
        · rw [hh] at he; cases he
        · exact absurd hxy hh
        · exact hh
  | remove r u => cases hb
  | move ms => cases hb

theorem legalRunB_sound {ids : List Nat} {ops : List (WOp S A)} : ∀ {V : Sp S A}, SInv NoHid d n V → Inside n ids V → legalRunB d n ids V ops = true → LegalRun d n V ops := by
  induction ops with
  | nil => intros; trivial
  | cons o ops ih =>
    intro V h hi hb
    simp only [legalRunB, Bool.and_eq_true] at hb
    obtain ⟨hl, hi'⟩ := legalB_sound h hi hb.1
    exact ⟨hl, ih (h.step hl) hi' hb.2⟩

theorem legal_of {ids : List Nat} {ops : List (WOp S A)} (hb : legalRunB d n ids Sp.init ops = true) : LegalRun d n Sp.init ops :=
  legalRunB_sound (SInv.init d n) (by intro r _ u hu; cases hu) hb

/-! ### Examples -/

/-- Two ranks with two agents each. Rank 0 links its agents 1 and 2 to agents of rank 1, both ranks add an edge between 2 and 12; edges are updated, and one is removed. -/
def linked : List (WOp Nat Nat) :=
  [.add 0 1 5, .add 0 2 6, .add 1 11 7, .add 1 12 8, .request (fun r => if r = 0 then [(11, 1), (12, 1)] else []),
   .addEdge 0 0 1 11 [(0, 3)], .addEdge 0 0 2 12 [(0, 4)], .addEdge 0 0 1 2 [], .synch true, .setState 0 1 50, .updateEdge 0 0 1 11 [(0, 9)], .synch true]

example (d : Bool) : LegalRun d 2 Sp.init (linked ++ [.addEdge 1 0 2 12 [(0, 4)], .synch true]) := by
  cases d <;> exact legal_of (ids := [1, 2, 11, 12]) (by decide +kernel)

example (d : Bool) : LegalRun d 2 Sp.init (linked ++ [.updateEdge 0 0 2 12 [(1, 8)], .synch true]) := by
  cases d <;> exact legal_of (ids := [1, 2, 11, 12]) (by decide +kernel)

example (d : Bool) : LegalRun d 2 Sp.init (linked ++ [.removeEdge 0 0 1 11, .synch true]) := by
  cases d <;> exact legal_of (ids := [1, 2, 11, 12]) (by decide +kernel)

example (d : Bool) : LegalRun d 2 Sp.init (linked ++ [.updateEdge 0 0 2 12 [(0, 4)], .clearEdges 0 0, .synch true]) := by
  cases d <;> exact legal_of (ids := [1, 2, 11, 12]) (by decide +kernel)

/-- After that the network is used again. -/
example (d : Bool) : LegalRun d 2 Sp.init (linked ++ [.clearEdges 0 0, .synch true, .addEdge 0 0 11 1 [], .synch true]) := by
  cases d <;> exact legal_of (ids := [1, 2, 11, 12]) (by decide +kernel)

example (d : Bool) : LegalRun d 2 Sp.init (linked ++ [.synch true, .synch true]) := by
  cases d <;> exact legal_of (ids := [1, 2, 11, 12]) (by decide +kernel)

/-- The histories of the violations are not covered. -/
example (d : Bool) : ¬ LegalRun d 2 Sp.init (linked ++ [.updateEdge 1 0 1 11 [(0, 4)], .synch true]) := by
  intro hl
  obtain ⟨-, hl, -⟩ := LegalRun.append.1 hl
  obtain ⟨-, -, -, hw⟩ := hl
  obtain ⟨p, hp, -⟩ := hw (by cases d <;> decide +kernel)
  cases d <;> rcases hp with hp | hp <;> revert hp <;> revert p <;> exact fun p hp => by cases hp

end Repast.Network
