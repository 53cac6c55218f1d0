import Verif.Network.NetHist
import Verif.Network.NetExample

/-! Histories that C54 covers. -/
namespace Repast.Network
open Repast.Dict Repast.Context

variable {S A : Type} {d : Bool} {n : Nat} {V : Sp S A}

/-- A test for `CanMove`, if all agents are in `ids` and none has moved. -/
def canMoveB (d : Bool) (n : Nat) (ids : List Nat) (V : Sp S A) (r k m : Nat) : Bool :=
  decide (r < n) && (decide (k < n) && (decide (k ≠ r) && (((V r).loc m).isSome && (((V k).gho m).isNone &&
    (((List.range n).all fun i => (V i).net.new.isEmpty && ((V i).net.upd.isEmpty && (V i).net.rem.isEmpty)) && (((V r).net.edge m m).isNone &&
    ((ids.all fun x => !(V r).req x || !(((V r).net.edge m x).isSome || ((V r).net.edge x m).isSome)) &&
    (((List.range n).all fun i => decide (i = r) || ids.all fun x => ids.all fun y => !((V i).net.edge x y).isSome || (!decide (m = x ∨ m = y) || (V i).net.syn.any fun p => decide (SameN d p.1 p.2 x y))) &&
    (((V r).net.syn.all fun p => decide (p.1 ≠ m ∧ p.2 ≠ m)) &&
    ((List.range n).all fun i => ((V i).gho m).isNone || ids.any fun x => ((V i).net.edge m x).isSome || ((V i).net.edge x m).isSome))))))))))

theorem canMoveB_sound {ids : List Nat} (h : SInv NoHid d n V) (hi : Inside n ids V) {r k m : Nat} (hb : canMoveB d n ids V r k m = true) : CanMove d n V (fun _ => False) r k m := by
  simp only [canMoveB, Bool.and_eq_true, decide_eq_true_eq, List.all_eq_true, List.any_eq_true, List.mem_range, Bool.or_eq_true, Bool.not_eq_true', decide_eq_false_iff_not, Option.isNone_iff_eq_none, List.isEmpty_iff] at hb
  obtain ⟨h1, h2, h3, h4, h5, h6, h7, h8, h9, h10, h11⟩ := hb
  refine ⟨h1, h2, h3, h4, h5, h6, h7, ?_, ?_, h10, ?_⟩
  · intro x hx _
    have hxi : x ∈ ids := by
      rcases hx with hx | hx
      · exact hi.has h h1 ((h.one r h1).ends _ _ hx).2.1
      · exact hi.has h h1 ((h.one r h1).ends _ _ hx).1
    refine ⟨(h8 x hxi).resolve_right ?_, fun c => c⟩
    intro hc
    have hc := Bool.or_eq_false_iff.1 hc
    rw [hc.1, hc.2] at hx
    simp at hx
  · intro i hin hir x y he hm
    obtain ⟨a, b, -⟩ := (h.one i hin).ends x y he
    rcases (h9 i hin).resolve_left hir x (hi.has h hin a) y (hi.has h hin b) with q | q | ⟨p, hp, hs⟩
    · rw [q] at he; cases he
    · exact absurd hm q
    · exact ⟨p, .inr hp, hs⟩
  · intro i hin hg
    rcases h11 i hin with q | ⟨x, -, q | q⟩
    · rw [q] at hg; cases hg
    · exact ⟨m, x, q, .inl rfl⟩
    · exact ⟨x, m, q, .inr rfl⟩

theorem legalRunB_inside [DecidableEq A] {ids : List Nat} {ops : List (WOp S A)} : ∀ {V : Sp S A}, SInv NoHid d n V → Inside n ids V → legalRunB d n ids V ops = true →
    SInv NoHid d n (ops.foldl (sstep d n) V) ∧ Inside n ids (ops.foldl (sstep d n) V) := by
  induction ops with
  | nil => intro V h hi _; exact ⟨h, hi⟩
  | cons o ops ih =>
    intro V h hi hb
    simp only [legalRunB, Bool.and_eq_true] at hb
    obtain ⟨hl, hi'⟩ := legalB_sound h hi hb.1
    exact ih (h.step hl) hi' hb.2

/-- A history without movements, and then one. -/
theorem covered_move [DecidableEq A] {ids : List Nat} {ops os : List (WOp S A)} {r k m : Nat} (hb : legalRunB d n ids Sp.init ops = true) (hc : canMoveB d n ids (ops.foldl (sstep d n) Sp.init) r k m = true)
    (hos : ∀ V', SInv NoHid d n V' → CanMove d n (ops.foldl (sstep d n) Sp.init) (fun _ => False) r k m → Moved d n (ops.foldl (sstep d n) Sp.init) r k m V' → Cov d n (fun u => False ∨ u = m) V' os fun _ _ => True) :
    Covered d n (ops ++ .move (oneMove r k m) :: os) := by
  obtain ⟨h1, h2⟩ := legalRunB_inside (SInv.init d n) (by intro r _ u hu; cases hu) hb
  have can := canMoveB_sound h1 h2 hc
  exact Cov.append.2 ((legal_of hb).cov ⟨r, k, m, rfl, can, fun V' i1 hM => hos V' i1 can hM⟩)

/-- An agent that has moved can be moved on to a third rank. -/
theorem CanMove.on {mv : Nat → Prop} {r k m : Nat} (h : SInv NoHid d n V) (can : CanMove d n V mv r k m) {V' : Sp S A} (h' : SInv NoHid d n V') (hM : Moved d n V r k m V') {k' : Nat} (hk' : k' < n) (hr : k' ≠ r) (hk : k' ≠ k)
    (hg : (V k').gho m = none) (hx : ∀ x, ((V r).net.edge m x).isSome = true ∨ ((V r).net.edge x m).isSome = true → (V k).req x = false ∧ ¬ mv x) :
    CanMove d n V' (fun u => mv u ∨ u = m) k k' m := by
  have hno : ∀ p ∈ (V k).net.syn, p.1 ≠ m ∧ p.2 ≠ m := by
    have hh : (V k).net.has m = false := by
      rw [(h.one k can.hk).has, can.gho, h.loc_once can.hr can.hk can.loc can.ne]; rfl
    intro p hp
    have he := ((h.one k can.hk).wrote p (.inr hp)).1
    constructor
    · intro c; rw [c, ((h.one k can.hk).edge_none hh p.2).1] at he; cases he
    · intro c; rw [c, ((h.one k can.hk).edge_none hh p.1).2] at he; cases he
  refine ⟨can.hk, hk', hk, ?_, ?_, hM.clean, ?_, ?_, ?_, ?_, ?_⟩
  · rw [hM.loc k can.hk, if_pos rfl, if_pos rfl]; exact can.loc
  · have := hM.ghoI k' hk' hr hk m
    rw [hg] at this
    cases hh : (V' k').gho m with
    | none => rfl
    | some z => rw [hh] at this; cases this
  · rw [hM.edgeK m m (.inl rfl)]; exact can.self
  · intro x he _
    rw [hM.edgeK m x (.inl rfl), hM.edgeK x m (.inr rfl)] at he
    obtain ⟨a, b⟩ := hx x he
    refine ⟨by rw [hM.req k can.hk]; exact a, ?_⟩
    rintro (c | rfl)
    · exact b c
    · rw [can.self] at he; simp at he
  · intro i hi hik x y he hm
    exact hM.wrote h h' can hi hik hm he
  · intro p hp
    exact hno p ((hM.synI k can.hk can.ne p).1 hp)
  · intro i hi hgi
    by_cases e : i = r
    · subst e
      obtain ⟨x, hxl, hxe⟩ := hM.ghoM.1 hgi
      rcases hxe with hxe | hxe
      · exact ⟨m, x, by rw [hM.edgeR m x (.inl rfl) (.inl ⟨rfl, hxl⟩)]; exact hxe, .inl rfl⟩
      · exact ⟨x, m, by rw [hM.edgeR x m (.inr rfl) (.inr ⟨rfl, hxl⟩)]; exact hxe, .inr rfl⟩
    · by_cases e2 : i = k
      · subst e2
        have : (V' i).gho m = none := (h'.one i hi).apart m (by rw [hM.loc i hi, if_pos rfl, if_pos rfl]; exact can.loc)
        rw [this] at hgi; cases hgi
      · rw [hM.ghoI i hi e e2] at hgi
        obtain ⟨x, y, he, hm⟩ := can.used i hi hgi
        exact ⟨x, y, by rw [hM.edgeI i hi e e2]; exact he, hm⟩

/-! ### Examples -/

/-- The agents 1 and 2 of rank 0 and 3 of rank 2 are linked, each pair with an edge. -/
def chain : List (WOp Nat Nat) :=
  [.add 0 1 5, .add 0 2 6, .add 2 3 7, .request (fun r => if r = 2 then [(1, 0)] else []), .addEdge 0 0 1 2 [(0, 3)], .addEdge 2 0 3 1 [(0, 4)], .synch true]

/-- The agent 1 moves from rank 0 to rank 1. -/
example (d : Bool) : Covered d 4 (chain ++ [.move (oneMove 0 1 1)]) := by
  cases d <;> exact covered_move (ids := [1, 2, 3]) (by decide +kernel) (by decide +kernel) (fun _ _ _ _ => trivial)

theorem chain_on (d : Bool) {V' : Sp Nat Nat} (i1 : SInv NoHid d 4 V') (can : CanMove d 4 (chain.foldl (sstep d 4) Sp.init) (fun _ => False) 0 1 1)
    (hM : Moved d 4 (chain.foldl (sstep d 4) Sp.init) 0 1 1 V') : CanMove d 4 V' (fun u => False ∨ u = 1) 1 3 1 := by
  refine can.on ?_ i1 hM (by decide) (by decide) (by decide) (by cases d <;> decide +kernel) ?_
  · cases d <;> exact (legalRunB_inside (ids := [1, 2, 3]) (SInv.init _ 4) (by intro r _ u hu; cases hu) (by decide +kernel)).1
  · intro x _
    refine ⟨?_, fun c => c⟩
    cases d <;> rfl

/-- The agent 1 moves from rank 0 to rank 1, and on to rank 3. -/
example (d : Bool) : Covered d 4 (chain ++ [.move (oneMove 0 1 1), .move (oneMove 1 3 1)]) := by
  cases d <;> exact covered_move (ids := [1, 2, 3]) (by decide +kernel) (by decide +kernel) (fun V' i1 can hM => ⟨1, 3, 1, rfl, chain_on _ i1 can hM, fun _ _ _ => trivial⟩)

/-- After the agent 1 has moved, rank 0 updates its edge with it. -/
example (d : Bool) : Covered d 4 (chain ++ [.move (oneMove 0 1 1), .updateEdge 0 0 1 2 [(0, 9)], .synch true]) := by
  have key : ∀ d, ∀ V', SInv NoHid d 4 V' → CanMove d 4 (chain.foldl (sstep d 4) Sp.init) (fun _ => False) 0 1 1 → Moved d 4 (chain.foldl (sstep d 4) Sp.init) 0 1 1 V' →
      Cov d 4 (fun u => False ∨ u = 1) V' [.updateEdge 0 0 1 2 [(0, 9)], .synch true] fun _ _ => True := by
    intro d V' i1 can hM
    have i0 : SInv NoHid d 4 (chain.foldl (sstep d 4) Sp.init) := by
      cases d <;> exact (legalRunB_inside (ids := [1, 2, 3]) (SInv.init _ 4) (by intro r _ u hu; cases hu) (by decide +kernel)).1
    have he : ((V' 0).net.edge 1 2).isSome = true := by
      rw [hM.edgeR 1 2 (.inl rfl) (.inl ⟨rfl, by cases d <;> decide +kernel⟩)]
      cases d <;> decide +kernel
    have hl : Legal d 4 V' (.updateEdge 0 0 1 2 [(0, 9)]) := ⟨by decide, rfl, he, fun _ => hM.wrote i0 i1 can (by decide) (by decide) (.inl rfl) he⟩
    have hother : ∀ j, j ≠ 0 → sstep d 4 V' (.updateEdge 0 0 1 2 [(0, 9)]) j = V' j := fun j hj => setNet_other hj
    have hrem : ∀ j < 4, (sstep d 4 V' (.updateEdge 0 0 1 2 [(0, 9)]) j).net.rem = [] := by
      intro j hj
      by_cases e : j = 0
      · subst e
        show (V'.setNet 0 _ 0).net.rem = []
        rw [setNet_self]; exact (hM.clean 0 hj).2.2
      · rw [hother j e]; exact (hM.clean j hj).2.2
    refine ⟨hl, trivial, ?_, ?_, trivial⟩
    · intro _
      refine ⟨?_, ?_⟩
      · have hd : ∀ j < 4, ∀ x y, (sstep d 4 V' (.updateEdge 0 0 1 2 [(0, 9)]) j).net.Dirty d x y → j = 0 := by
          rintro j hj x y ⟨p, hp, -⟩
          apply Classical.byContradiction
          intro e
          rw [hother j e, (hM.clean j hj).1, (hM.clean j hj).2.1] at hp
          simp at hp
        intro p hp q hq x y h1 h2
        rw [hd p hp _ _ h1, hd q hq _ _ h2]
      · intro j hj p hp
        rw [hrem j hj] at hp; cases hp
    · intro j hj p hp
      rw [hrem j hj] at hp; cases hp
  cases d <;> exact covered_move (ids := [1, 2, 3]) (by decide +kernel) (by decide +kernel) (key _)

/-- Nothing is changed after the agent 1 has moved. -/
example (d : Bool) : Covered d 4 (chain ++ [.move (oneMove 0 1 1), .synch true]) := by
  have key : ∀ d, ∀ V', SInv NoHid d 4 V' → CanMove d 4 (chain.foldl (sstep d 4) Sp.init) (fun _ => False) 0 1 1 → Moved d 4 (chain.foldl (sstep d 4) Sp.init) 0 1 1 V' →
      Cov d 4 (fun u => False ∨ u = 1) V' [.synch true] fun _ _ => True := by
    intro d V' i1 can hM
    refine ⟨fun _ => ⟨?_, ?_⟩, ?_, trivial⟩
    · rintro j hj k hk x y ⟨p, hp, -⟩
      rw [(hM.clean j hj).1, (hM.clean j hj).2.1] at hp
      simp at hp
    · intro j hj p hp
      rw [(hM.clean j hj).2.2] at hp; cases hp
    · intro j hj p hp
      rw [(hM.clean j hj).2.2] at hp; cases hp
  cases d <;> exact covered_move (ids := [1, 2, 3]) (by decide +kernel) (by decide +kernel) (key _)

/-- After the agent 1 has moved, rank 0 removes its edge with it. -/
example (d : Bool) : Covered d 4 (chain ++ [.move (oneMove 0 1 1), .removeEdge 0 0 1 2, .synch true]) := by
  have key : ∀ d, ∀ V', SInv NoHid d 4 V' → CanMove d 4 (chain.foldl (sstep d 4) Sp.init) (fun _ => False) 0 1 1 → Moved d 4 (chain.foldl (sstep d 4) Sp.init) 0 1 1 V' →
      Cov d 4 (fun u => False ∨ u = 1) V' [.removeEdge 0 0 1 2, .synch true] fun _ _ => True := by
    intro d V' i1 can hM
    have i0 : SInv NoHid d 4 (chain.foldl (sstep d 4) Sp.init) ∧ Inside 4 [1, 2, 3] (chain.foldl (sstep d 4) Sp.init) := by
      cases d <;> exact legalRunB_inside (ids := [1, 2, 3]) (SInv.init _ 4) (by intro r _ u hu; cases hu) (by decide +kernel)
    have he : ((V' 0).net.edge 1 2).isSome = true := by
      rw [hM.edgeR 1 2 (.inl rfl) (.inl ⟨rfl, by cases d <;> decide +kernel⟩)]
      cases d <;> decide +kernel
    have hsyn : (1, 2) ∈ (V' 0).net.syn := (hM.synR (1, 2)).2 (.inr ⟨by cases d <;> decide +kernel, .inl ⟨rfl, by decide, by cases d <;> decide +kernel⟩⟩)
    have hnw : ∀ k < 4, k ≠ 0 → ¬ (V' k).net.Wrote d 1 2 := by
      rintro k hk h0 ⟨p, hp, hs⟩
      rw [(hM.clean k hk).1] at hp
      have hp := (hM.synI k hk h0 p).1 (hp.resolve_left (by simp))
      have hall : ∀ k < 4, k ≠ 0 → ∀ p ∈ (chain.foldl (sstep d 4) Sp.init k).net.syn, ¬ SameN d p.1 p.2 1 2 := by
        cases d <;> decide +kernel
      exact hall k hk h0 p hp hs
    have hl : Legal d 4 V' (.removeEdge 0 0 1 2) := ⟨by decide, rfl, he, .inr (by decide), fun _ => ⟨⟨(1, 2), hsyn, SameN.refl _ _ _⟩, hnw⟩⟩
    have hother : ∀ j, j ≠ 0 → sstep d 4 V' (.removeEdge 0 0 1 2) j = V' j := fun j hj => setNet_other hj
    have hloc : ∀ j, (sstep d 4 V' (.removeEdge 0 0 1 2) j).loc = (V' j).loc := by
      intro j
      show (V'.setNet 0 _ j).loc = _
      unfold Sp.setNet Sp.set; split <;> simp_all
    have h1 : ((V' 0).loc 1).isSome = false := by rw [hM.loc 0 (by decide)]; rfl
    have h2 : ((V' 0).loc 2).isSome = true := by rw [hM.loc 0 (by decide)]; cases d <;> decide +kernel
    have hcr : (V' 0).cross 1 2 = true := by
      unfold RV.cross; rw [h1, h2]; rfl
    -- the pair that is noted
    have i2 := i1.step hl
    have hrem0 : ∀ p ∈ (sstep d 4 V' (.removeEdge 0 0 1 2) 0).net.rem, p = (V' 0).net.key 1 2 := by
      intro p hp
      have hp : p ∈ (V'.setNet 0 ((V' 0).net.removeEdge d ((V' 0).cross 1 2) 1 2) 0).net.rem := hp
      rw [setNet_self] at hp
      unfold NV.removeEdge at hp
      rw [hcr, if_pos rfl] at hp
      have hp : p ∈ (V' 0).net.rem ++ [(V' 0).net.key 1 2] := hp
      rw [(hM.clean 0 (by decide)).2.2] at hp
      simpa using hp
    have hkey : SameN d ((V' 0).net.key 1 2).1 ((V' 0).net.key 1 2).2 1 2 := (NV.key_wrote ⟨(1, 2), .inr hsyn, SameN.refl _ _ _⟩).2
    have hnear : ∀ p ∈ (sstep d 4 V' (.removeEdge 0 0 1 2) 0).net.rem, (sstep d 4 V' (.removeEdge 0 0 1 2) 0).near p = 2 ∧ (sstep d 4 V' (.removeEdge 0 0 1 2) 0).far p = 1 ∧ SameN d p.1 p.2 1 2 := by
      intro p hp
      have hs : SameN d p.1 p.2 1 2 := by rw [hrem0 p hp]; exact hkey
      have hf := i2.far_noted (by decide) (.inr (.inr (.inr hp)))
      have hn : (sstep d 4 V' (.removeEdge 0 0 1 2) 0).near p = 2 := by
        unfold RV.near
        rw [hloc]
        rcases hs with ⟨a, b⟩ | ⟨-, a, b⟩
        · rw [a, h1, if_neg (by simp)]; exact b
        · rw [if_pos (by rw [a]; exact h2)]; exact a
      refine ⟨hn, ?_, hs⟩
      have hp1 : Peer (sstep d 4 V' (.removeEdge 0 0 1 2)) 0 1 p.1 p.2 := by
        have : Peer (sstep d 4 V' (.removeEdge 0 0 1 2)) 0 1 1 2 := by
          refine .inr ⟨by rw [hloc]; exact h2, ?_⟩
          rw [hloc, hM.loc 1 (by decide), if_pos rfl, if_pos rfl]
          exact can.loc
        exact this.same hs.symm
      exact i2.peer_far (by decide) (by decide) (by decide) hf hp1
    refine ⟨hl, trivial, fun _ => ⟨?_, ?_⟩, ?_, trivial⟩
    · have hd : ∀ j < 4, ∀ x y, ¬ (sstep d 4 V' (.removeEdge 0 0 1 2) j).net.Dirty d x y := by
        rintro j hj x y ⟨p, hp, -⟩
        have : (sstep d 4 V' (.removeEdge 0 0 1 2) j).net.new = [] ∧ (sstep d 4 V' (.removeEdge 0 0 1 2) j).net.upd = [] := by
          by_cases e : j = 0
          · subst e
            show (V'.setNet 0 ((V' 0).net.removeEdge d ((V' 0).cross 1 2) 1 2) 0).net.new = [] ∧ (V'.setNet 0 ((V' 0).net.removeEdge d ((V' 0).cross 1 2) 1 2) 0).net.upd = []
            rw [setNet_self]
            unfold NV.removeEdge
            rw [hcr, if_pos rfl]
            simp [(hM.clean 0 hj).1, (hM.clean 0 hj).2.1]
          · rw [hother j e]; exact ⟨(hM.clean j hj).1, (hM.clean j hj).2.1⟩
        rw [this.1, this.2] at hp
        simp at hp
      intro p hp q hq x y h1 h2
      exact absurd h1 (hd p hp _ _)
    · intro j hj p hp
      by_cases e : j = 0
      · subst e
        obtain ⟨n1, n2, n3⟩ := hnear p hp
        rw [n1, n2, hother 1 (by decide)]
        refine ⟨by rw [hM.req 1 (by decide)]; cases d <;> rfl, ?_⟩
        intro x y hxy h2
        have hin : ∀ u, (V' 1).net.has u = true → u ∈ [1, 2, 3] := by
          intro u hu
          refine Inside.has (n := 4) i1 ?_ (by decide) hu
          intro j hj u hu
          rw [hM.loc j hj] at hu
          split at hu
          · rename_i e; rw [e]; decide
          · exact i0.2 j hj u hu
        obtain ⟨a, b, -⟩ := (i1.one 1 (by decide)).ends x y hxy
        have hv : ∀ x ∈ [1, 2, 3], ∀ y ∈ [1, 2, 3], ((if 1 = x ∨ 1 = y then (chain.foldl (sstep d 4) (Sp.init : Sp Nat Nat) 0).net.edge x y else (chain.foldl (sstep d 4) Sp.init 1).net.edge x y)).isSome = true → (x = 2 ∨ y = 2) → SameN d 1 2 x y := by
          cases d <;> decide +kernel
        refine n3.trans (hv x (hin x a) y (hin y b) ?_ h2)
        split
        · rename_i c; rw [← hM.edgeK x y c]; exact hxy
        · rename_i c
          rw [← hM.rest 1 (by decide) x y (fun q => c (.inl q)) (fun q => c (.inr q))]; exact hxy
      · rw [hother j e, (hM.clean j hj).2.2] at hp; cases hp
    · intro j hj p hp
      by_cases e : j = 0
      · subst e
        rw [(hnear p hp).1]; simp
      · rw [hother j e, (hM.clean j hj).2.2] at hp; cases hp
  cases d <;> exact covered_move (ids := [1, 2, 3]) (by decide +kernel) (by decide +kernel) (key _)

end Repast.Network
