import Verif.Network.NetSynch

/-!
What the ranks see while an agent is moved (`move_agents`, context.py:486-549): the agent has left its rank and is on its new one, and its edges are still to be copied there.
Used for C54.
-/
namespace Repast.Network
open Repast.Dict Repast.Context

variable {S A : Type} {H : Hid} {d : Bool} {n : Nat} {V : Sp S A}

/-- The agent `m`, with the state `s`, has moved from rank `r` to rank `k`. `hid`: it is now a ghost on `r`, which is not in the network yet. `drop` are the ghosts of `r` that were
deleted because their only edges were with the agent. `l i` are the edges with the agent that rank `i` will send to `k`. -/
def Sp.mid (V : Sp S A) (r k m : Nat) (s : S) (hid : Bool) (drop : Nat → Bool) (l : Nat → List (Nat × Nat)) : Sp S A := fun i =>
  if i = r then
    { V r with
      loc := fun x => if x = m then none else (V r).loc x
      gho := fun x => if x = m then (if hid then some (s, k) else none) else if drop x then none else (V r).gho x
      net := { (V r).net with
        has := fun x => (V r).net.has x && !decide (x = m) && !drop x
        edge := fun x y => if x = m ∨ y = m then none else (V r).net.edge x y }
      tag := fun x j => (V r).tag x j && !decide (x = m) }
  else if i = k then
    { V k with
      loc := fun x => if x = m then some s else (V k).loc x
      net := { (V k).net with has := fun x => (V k).net.has x || decide (x = m) }
      tag := fun x j => if x = m then (V r).tag m j || (hid && decide (j = r)) else (V k).tag x j && !(decide (j = r) && drop x) }
  else
    { V i with
      gho := fun x => if x = m then ((V i).gho m).map (fun g => (g.1, k)) else (V i).gho x
      net := { (V i).net with new := l i }
      tag := fun x j => (V i).tag x j && !(decide (j = r) && drop x) }

/-- The agent can be moved. -/
structure MidOk (d : Bool) (n : Nat) (V : Sp S A) (r k m : Nat) (s : S) (drop : Nat → Bool) (l : Nat → List (Nat × Nat)) : Prop where
  hr : r < n
  hk : k < n
  ne : k ≠ r
  loc : (V r).loc m = some s
  gho : (V k).gho m = none
  clean : ∀ i < n, (V i).net.new = [] ∧ (V i).net.upd = [] ∧ (V i).net.rem = []
  syn : ∀ p ∈ (V r).net.syn, p.1 ≠ m ∧ p.2 ≠ m
  dropReq : ∀ x, drop x = true → (V r).req x = false
  drop : ∀ x, drop x = true → ((V r).gho x).isSome = true ∧ ∀ y z, ((V r).net.edge y z).isSome = true → x = y ∨ x = z → m = y ∨ m = z
  new : ∀ i < n, i ≠ r → i ≠ k → ∀ p ∈ l i, p ∈ (V i).net.syn ∧ (m = p.1 ∨ m = p.2)
  all : ∀ i < n, i ≠ r → i ≠ k → ∀ x y, ((V i).net.edge x y).isSome = true → m = x ∨ m = y → ∃ p ∈ l i, SameN d p.1 p.2 x y

section
variable {r k m : Nat} {s : S} {hid : Bool} {drop : Nat → Bool} {l : Nat → List (Nat × Nat)}

theorem mid_r : (V.mid r k m s hid drop l) r =
    { V r with
      loc := fun x => if x = m then none else (V r).loc x
      gho := fun x => if x = m then (if hid then some (s, k) else none) else if drop x then none else (V r).gho x
      net := { (V r).net with
        has := fun x => (V r).net.has x && !decide (x = m) && !drop x
        edge := fun x y => if x = m ∨ y = m then none else (V r).net.edge x y }
      tag := fun x j => (V r).tag x j && !decide (x = m) } := by unfold Sp.mid; rw [if_pos rfl]

theorem mid_k (h : k ≠ r) : (V.mid r k m s hid drop l) k =
    { V k with
      loc := fun x => if x = m then some s else (V k).loc x
      net := { (V k).net with has := fun x => (V k).net.has x || decide (x = m) }
      tag := fun x j => if x = m then (V r).tag m j || (hid && decide (j = r)) else (V k).tag x j && !(decide (j = r) && drop x) } := by
  unfold Sp.mid; rw [if_neg h, if_pos rfl]

theorem mid_i {i : Nat} (h : i ≠ r) (h' : i ≠ k) : (V.mid r k m s hid drop l) i =
    { V i with
      gho := fun x => if x = m then ((V i).gho m).map (fun g => (g.1, k)) else (V i).gho x
      net := { (V i).net with new := l i }
      tag := fun x j => (V i).tag x j && !(decide (j = r) && drop x) } := by
  unfold Sp.mid; rw [if_neg h, if_neg h']

/-- Who is being moved, and which ghost is not in the network. -/
def midHid (r m : Nat) (hid : Bool) : Hid := ⟨fun i u => decide (i = r) && decide (u = m) && hid, true⟩

theorem midHid_other {i : Nat} (h : i ≠ r) : (midHid r m hid).ghost i = fun _ => false := by funext u; simp [midHid, h]

theorem SInv.loc_once (h : SInv H d n V) {i j u : Nat} (hi : i < n) (hj : j < n) (hl : ((V i).loc u).isSome = true) (hne : j ≠ i) : (V j).loc u = none := by
  cases hh : (V j).loc u with
  | none => rfl
  | some s => exact absurd (h.own j hj i hi u (by rw [hh]; rfl) hl) hne

theorem SInv.mid (h : SInv NoHid d n V) (ok : MidOk d n V r k m s drop l) : SInv (midHid r m hid) d n (V.mid r k m s hid drop l) := by
  have hlm : ((V r).loc m).isSome = true := by rw [ok.loc]; rfl
  have hlk : ∀ i < n, i ≠ r → (V i).loc m = none := fun i hi hne => h.loc_once ok.hr hi hlm hne
  have hgr : (V r).gho m = none := (h.one r ok.hr).apart m hlm
  have hkr := ok.ne
  have hkm : (V k).net.has m = false := by rw [(h.one k ok.hk).has, hlk k ok.hk hkr, ok.gho]; rfl
  have hke : ∀ x y, x = m ∨ y = m → (V k).net.edge x y = none := by
    rintro x y (rfl | rfl)
    · exact ((h.one k ok.hk).edge_none hkm y).1
    · exact ((h.one k ok.hk).edge_none hkm x).2
  have hdm : drop m = false := by
    cases hh : drop m with
    | false => rfl
    | true => have := (ok.drop m hh).1; rw [hgr] at this; cases this
  have hdl : ∀ x, ((V r).loc x).isSome = true → drop x = false := by
    intro x hx
    cases hh : drop x with
    | false => rfl
    | true => have := (ok.drop x hh).1; rw [(h.one r ok.hr).apart x hx] at this; cases this
  -- who is local
  have hloc : ∀ i < n, ∀ x, (V.mid r k m s hid drop l i).loc x = if x = m then (if i = k then some s else none) else (V i).loc x := by
    intro i hi x
    by_cases e : i = r
    · subst e; rw [mid_r]; simp only; split
      · rw [if_neg (Ne.symm hkr)]
      · rfl
    · by_cases e' : i = k
      · subst e'; rw [mid_k hkr]; simp
      · rw [mid_i e e']; simp only
        split
        · rename_i e2; rw [e2, hlk i hi e]
        · rfl
  have hsyn : ∀ i, (V.mid r k m s hid drop l i).net.syn = (V i).net.syn := by
    intro i
    by_cases e : i = r
    · subst e; rw [mid_r]
    · by_cases e' : i = k
      · subst e'; rw [mid_k hkr]
      · rw [mid_i e e']
  have hrem : ∀ i < n, (V.mid r k m s hid drop l i).net.rem = [] := by
    intro i hi
    by_cases e : i = r
    · subst e; rw [mid_r]; exact (ok.clean i hi).2.2
    · by_cases e' : i = k
      · subst e'; rw [mid_k hkr]; exact (ok.clean i hi).2.2
      · rw [mid_i e e']; exact (ok.clean i hi).2.2
  have hupd : ∀ i < n, (V.mid r k m s hid drop l i).net.upd = [] := by
    intro i hi
    by_cases e : i = r
    · subst e; rw [mid_r]; exact (ok.clean i hi).2.1
    · by_cases e' : i = k
      · subst e'; rw [mid_k hkr]; exact (ok.clean i hi).2.1
      · rw [mid_i e e']; exact (ok.clean i hi).2.1
  have hnew : ∀ i < n, (V.mid r k m s hid drop l i).net.new = if i = r ∨ i = k then [] else l i := by
    intro i hi
    by_cases e : i = r
    · subst e; rw [mid_r]; simp [(ok.clean i hi).1]
    · by_cases e' : i = k
      · subst e'; rw [mid_k hkr]; simp [(ok.clean i hi).1]
      · rw [mid_i e e', if_neg (by simp [e, e'])]
  have hnewsyn : ∀ i < n, ∀ p ∈ (V.mid r k m s hid drop l i).net.new, p ∈ (V i).net.syn ∧ (m = p.1 ∨ m = p.2) ∧ i ≠ r ∧ i ≠ k := by
    intro i hi p hp
    rw [hnew i hi] at hp
    split at hp
    · cases hp
    · rename_i e
      simp only [not_or] at e
      exact ⟨(ok.new i hi e.1 e.2 p hp).1, (ok.new i hi e.1 e.2 p hp).2, e.1, e.2⟩
  have hedge : ∀ i < n, ∀ x y, (V.mid r k m s hid drop l i).net.edge x y = if i = r ∧ (x = m ∨ y = m) then none else (V i).net.edge x y := by
    intro i hi x y
    by_cases e : i = r
    · subst e; rw [mid_r]; simp
    · rw [if_neg (by simp [e])]
      by_cases e' : i = k
      · subst e'; rw [mid_k hkr]
      · rw [mid_i e e']
  have hgs : ∀ i < n, ∀ x, ((V.mid r k m s hid drop l i).gho x).isSome = if i = r then (if x = m then hid else ((V r).gho x).isSome && !drop x) else ((V i).gho x).isSome := by
    intro i hi x
    by_cases e : i = r
    · subst e; rw [mid_r, if_pos rfl]; simp only
      split
      · cases hid <;> rfl
      · cases drop x <;> simp
    · rw [if_neg e]
      by_cases e' : i = k
      · subst e'; rw [mid_k hkr]
      · rw [mid_i e e']; simp only
        split
        · rename_i e2; rw [e2]; simp
        · rfl
  have hgo : ∀ i < n, ∀ x s' j, (V.mid r k m s hid drop l i).gho x = some (s', j) → x ≠ m ∧ (V i).gho x = some (s', j) ∨ x = m ∧ j = k ∧ i ≠ k := by
    intro i hi x s' j hx
    by_cases e : i = r
    · subst e
      rw [mid_r] at hx; simp only at hx
      split at hx
      · rename_i e2
        cases hid
        · cases hx
        · simp only [if_true, Option.some.injEq, Prod.mk.injEq] at hx
          exact .inr ⟨e2, hx.2.symm, Ne.symm hkr⟩
      · rename_i e2
        split at hx
        · cases hx
        · exact .inl ⟨e2, hx⟩
    · by_cases e' : i = k
      · subst e'
        rw [mid_k hkr] at hx; simp only at hx
        refine .inl ⟨?_, hx⟩
        rintro rfl; rw [ok.gho] at hx; cases hx
      · rw [mid_i e e'] at hx; simp only at hx
        split at hx
        · rename_i e2
          obtain ⟨g, -, hg⟩ := Option.map_eq_some_iff.1 hx
          simp only [Prod.mk.injEq] at hg
          exact .inr ⟨e2, hg.2.symm, e'⟩
        · rename_i e2; exact .inl ⟨e2, hx⟩
  have hdirty : ∀ i < n, ∀ x y, (V.mid r k m s hid drop l i).net.Dirty d x y → i ≠ r ∧ i ≠ k ∧ (x = m ∨ y = m) := by
    rintro i hi x y ⟨p, hp, hs⟩
    rw [hupd i hi] at hp
    rcases hp with hp | hp
    · obtain ⟨-, h2, h3, h4⟩ := hnewsyn i hi p hp
      refine ⟨h3, h4, ?_⟩
      unfold SameN at hs; grind
    · cases hp
  have hgone : ∀ i < n, ∀ x y, ¬ (V.mid r k m s hid drop l i).net.Gone d x y := by
    rintro i hi x y ⟨p, hp, -⟩; rw [hrem i hi] at hp; cases hp
  have hDold : ∀ i < n, ∀ x y, ¬ (V i).net.Dirty d x y := by
    rintro i hi x y ⟨p, hp, -⟩; rw [(ok.clean i hi).1, (ok.clean i hi).2.1] at hp; rcases hp with hp | hp <;> cases hp
  have hGold : ∀ i < n, ∀ x y, ¬ (V i).net.Gone d x y := by
    rintro i hi x y ⟨p, hp, -⟩; rw [(ok.clean i hi).2.2] at hp; cases hp
  have hpeer : ∀ i < n, ∀ j < n, ∀ x y, x ≠ m → y ≠ m → (Peer (V.mid r k m s hid drop l) i j x y ↔ Peer V i j x y) := by
    intro i hi j hj x y hx hy
    unfold Peer
    rw [hloc i hi, hloc i hi, hloc j hj, hloc j hj, if_neg hx, if_neg hy, if_neg hx, if_neg hy]
  have hpm : ∀ i < n, ∀ j < n, ∀ x y, (x = m ∨ y = m) → Peer (V.mid r k m s hid drop l) i j x y → i = k ∨ j = k := by
    intro i hi j hj x y hx hp
    unfold Peer at hp
    rw [hloc i hi, hloc i hi, hloc j hj, hloc j hj] at hp
    grind
  -- an edge with the agent is not on `k`, and on other ranks it will be sent
  have hEm : ∀ i < n, ∀ x y, (x = m ∨ y = m) → ¬ (V.mid r k m s hid drop l i).net.Dirty d x y → (V.mid r k m s hid drop l i).net.edge x y = none := by
    intro i hi x y hx hd
    rw [hedge i hi]
    by_cases e : i = r
    · rw [if_pos ⟨e, hx⟩]
    · rw [if_neg (by simp [e])]
      by_cases e' : i = k
      · rw [e']; exact hke x y hx
      · cases hh : (V i).net.edge x y with
        | none => rfl
        | some a =>
          obtain ⟨p, hp, hs⟩ := ok.all i hi e e' x y (by rw [hh]; rfl) (by grind)
          exact absurd ⟨p, .inl (by rw [hnew i hi, if_neg (by simp [e, e'])]; exact hp), hs⟩ hd
  exact {
    rank := by
      intro i hi
      by_cases e : i = r
      · subst e; rw [mid_r]; exact h.rank i hi
      · by_cases e' : i = k
        · subst e'; rw [mid_k hkr]; exact h.rank i hi
        · rw [mid_i e e']; exact h.rank i hi
    own := by
      intro i hi j hj u h1 h2
      rw [hloc i hi] at h1; rw [hloc j hj] at h2
      split at h1
      · rename_i e
        rw [if_pos e] at h2
        split at h1
        · rename_i e1
          split at h2
          · rename_i e2; rw [e1, e2]
          · cases h2
        · cases h1
      · rename_i e
        rw [if_neg e] at h2
        exact h.own i hi j hj u h1 h2
    gho := by
      intro i hi u s' j hg
      rcases hgo i hi u s' j hg with ⟨h1, h2⟩ | ⟨h1, h2, h3⟩
      · obtain ⟨g1, g2, g3⟩ := h.gho i hi u s' j h2
        exact ⟨g1, g2, by rw [hloc j g1, if_neg h1]; exact g3⟩
      · subst h2
        exact ⟨ok.hk, Ne.symm h3, by rw [hloc j ok.hk, if_pos h1, if_pos rfl]; rfl⟩
    tag := by
      intro i hi u j
      have ht := h.tag i hi u j
      by_cases hj : j < n
      · rw [hloc i hi, hgs j hj]
        by_cases e : i = r
        · subst e; rw [mid_r]; simp only [Bool.and_eq_true, Bool.not_eq_true', decide_eq_false_iff_not]
          by_cases e1 : u = m
          · rw [if_pos e1, if_neg (Ne.symm hkr)]; simp [e1]
          · rw [if_neg e1, ht]
            by_cases e2 : j = i
            · subst e2
              rw [if_pos rfl, if_neg e1]
              constructor
              · rintro ⟨⟨a, b, c⟩, -⟩; rw [(h.one j hj).apart u b] at c; cases c
              · rintro ⟨a, b, c⟩; rw [(h.one j hj).apart u b] at c; cases c
            · rw [if_neg e2]; simp [e1]
        · by_cases e' : i = k
          · subst e'
            rw [mid_k hkr]; simp only
            by_cases e1 : u = m
            · subst e1
              simp only [if_true, Bool.or_eq_true, h.tag r ok.hr]
              by_cases e2 : j = r
              · subst e2
                rw [if_pos rfl, hgr]; simp [hj]
              · rw [if_neg e2]; simp [e2, hlm]
            · rw [if_neg e1, if_neg e1, if_neg e1, Bool.and_eq_true, ht]
              by_cases e2 : j = r
              · subst e2; rw [if_pos rfl]; simp only [decide_true, Bool.true_and, Bool.and_eq_true]; constructor
                · rintro ⟨⟨a, b, c⟩, e⟩; exact ⟨a, b, c, e⟩
                · rintro ⟨a, b, c, e⟩; exact ⟨⟨a, b, c⟩, e⟩
              · rw [if_neg e2]; simp [e2]
          · rw [mid_i e e']; simp only
            rw [Bool.and_eq_true, ht]
            by_cases e1 : u = m
            · rw [if_pos e1, if_pos e1, if_neg e', e1, hlk i hi e]; simp
            · rw [if_neg e1, if_neg e1]
              by_cases e2 : j = r
              · subst e2; rw [if_pos rfl]; simp only [decide_true, Bool.true_and, Bool.and_eq_true]; constructor
                · rintro ⟨⟨a, b, c⟩, e⟩; exact ⟨a, b, c, e⟩
                · rintro ⟨a, b, c, e⟩; exact ⟨⟨a, b, c⟩, e⟩
              · rw [if_neg e2]; simp [e2]
      · constructor
        · intro hh
          exfalso
          by_cases e : i = r
          · subst e; rw [mid_r] at hh; simp only [Bool.and_eq_true] at hh
            exact hj (ht.1 hh.1).1
          · by_cases e' : i = k
            · subst e'
              rw [mid_k hkr] at hh; simp only at hh
              split at hh
              · simp only [Bool.or_eq_true, Bool.and_eq_true, decide_eq_true_eq] at hh
                rcases hh with hh | hh
                · exact hj ((h.tag r ok.hr m j).1 hh).1
                · exact hj (hh.2 ▸ ok.hr)
              · simp only [Bool.and_eq_true] at hh
                exact hj (ht.1 hh.1).1
            · rw [mid_i e e'] at hh; simp only [Bool.and_eq_true] at hh
              exact hj (ht.1 hh.1).1
        · rintro ⟨a, -⟩; exact absurd a hj
    one := by
      intro i hi
      have h1 := h.one i hi
      have hHas : ∀ u, (V.mid r k m s hid drop l i).net.has u =
          ((((V.mid r k m s hid drop l i).loc u).isSome || ((V.mid r k m s hid drop l i).gho u).isSome) && !(midHid r m hid).ghost i u) := by
        intro u
        rw [hloc i hi, hgs i hi]
        by_cases e : i = r
        · subst e; rw [mid_r]; simp only [h1.has, if_true, if_neg (Ne.symm hkr)]
          by_cases e1 : u = m
          · simp [e1, midHid]
          · rw [if_neg e1, if_neg e1]
            have := hdl u
            simp [e1, midHid]
            cases hh : drop u
            · simp
            · cases hh' : (V i).loc u
              · simp
              · rw [hh'] at this; rw [this rfl] at hh; cases hh
        · rw [midHid_other e, if_neg e]
          by_cases e' : i = k
          · subst e'; rw [mid_k hkr]; simp only [h1.has]
            by_cases e1 : u = m
            · simp [e1]
            · simp [e1]
          · rw [mid_i e e']; simp only [h1.has]
            split
            · rename_i e1; rw [e1, hlk i hi e]
            · rfl
      have hcr : ∀ x y, x ≠ m → y ≠ m → (V.mid r k m s hid drop l i).cross x y = (V i).cross x y := by
        intro x y hx hy; unfold RV.cross; rw [hloc i hi, hloc i hi, if_neg hx, if_neg hy]
      exact {
        has := hHas
        hid := by
          intro u hu
          rw [hgs i hi]
          by_cases e : i = r
          · simp [midHid, e] at hu; simp [e, hu]
          · rw [midHid_other e] at hu; cases hu
        apart := by
          intro u hu
          cases hg : (V.mid r k m s hid drop l i).gho u with
          | none => rfl
          | some g =>
            exfalso
            rw [hloc i hi] at hu
            rcases hgo i hi u g.1 g.2 hg with ⟨g1, g2⟩ | ⟨g1, -, g3⟩
            · rw [if_neg g1] at hu
              rw [h1.apart u hu] at g2; cases g2
            · rw [if_pos g1, if_neg g3] at hu; cases hu
        sym := by
          intro hd x y
          rw [hedge i hi, hedge i hi, h1.sym hd x y]
          have : (i = r ∧ (x = m ∨ y = m)) ↔ (i = r ∧ (y = m ∨ x = m)) := by grind
          simp only [this]
        ends := by
          intro x y hx
          rw [hedge i hi] at hx
          split at hx
          · cases hx
          · rename_i e
            obtain ⟨a, b, c⟩ := h1.ends x y hx
            rw [hloc i hi, hloc i hi]
            by_cases e1 : i = r
            · have hxm : x ≠ m ∧ y ≠ m := by grind
              rw [if_neg hxm.1, if_neg hxm.2]
              have hnd : drop x = false ∧ drop y = false := by
                subst e1
                constructor
                · cases hh : drop x with
                  | false => rfl
                  | true => have := (ok.drop x hh).2 x y hx (.inl rfl); grind
                · cases hh : drop y with
                  | false => rfl
                  | true => have := (ok.drop y hh).2 x y hx (.inr rfl); grind
              subst e1
              rw [mid_r]; simp only
              exact ⟨by simp [a, hxm.1, hnd.1], by simp [b, hxm.2, hnd.2], c⟩
            · have hmono : ∀ u, (V i).net.has u = true → (V.mid r k m s hid drop l i).net.has u = true := by
                intro u hu
                by_cases e' : i = k
                · subst e'; rw [mid_k hkr]; simp only; rw [hu]; rfl
                · rw [mid_i e1 e']; exact hu
              refine ⟨hmono x a, hmono y b, ?_⟩
              have hm : ∀ u, ((V i).loc u).isSome = true → (if u = m then (if i = k then some s else none) else (V i).loc u).isSome = true := by
                intro u hu
                split
                · rename_i e2; rw [e2, hlk i hi e1] at hu; cases hu
                · exact hu
              exact c.imp (hm x) (hm y)
        ok := by
          intro x y a hx
          rw [hedge i hi] at hx
          split at hx
          · cases hx
          · exact h1.ok x y a hx
        wrote := by
          intro p hp
          have hp' : p ∈ (V i).net.syn := by
            rcases hp with hp | hp
            · exact (hnewsyn i hi p hp).1
            · rw [hsyn] at hp; exact hp
          obtain ⟨a, b⟩ := h1.wrote p (.inr hp')
          rw [hedge i hi]
          by_cases e : i = r
          · subst e
            have hs := ok.syn p hp'
            rw [if_neg (by simp [hs.1, hs.2]), hcr _ _ hs.1 hs.2]; exact ⟨a, b⟩
          · rw [if_neg (by simp [e])]
            refine ⟨a, ?_⟩
            by_cases e' : i = k
            · subst e'
              have hs : p.1 ≠ m ∧ p.2 ≠ m := by
                constructor
                · intro c; rw [hke _ _ (.inl c)] at a; cases a
                · intro c; rw [hke _ _ (.inr c)] at a; cases a
              rw [hcr _ _ hs.1 hs.2]; exact b
            · have : ∀ x, (V.mid r k m s hid drop l i).loc x = (V i).loc x := by
                intro x; rw [mid_i e e']
              unfold RV.cross; rw [this, this]; exact b
        upd := by intro p hp; rw [hupd i hi] at hp; cases hp
        rem := by intro p hp; rw [hrem i hi] at hp; cases hp
        once := by rw [hrem i hi]; exact .nil }
    two := by
      intro i hi j hj hne
      have h2 := h.two i hi j hj hne
      exact {
        agree := by
          intro x y hp hd hd' _ _
          by_cases hx : x = m ∨ y = m
          · rw [hEm i hi x y hx hd, hEm j hj x y hx hd']
          · rw [hedge i hi, hedge j hj, if_neg (by simp [hx]), if_neg (by simp [hx])]
            simp only [not_or] at hx
            exact h2.agree x y ((hpeer i hi j hj x y hx.1 hx.2).1 hp) (hDold i hi x y) (hDold j hj x y) (hGold i hi x y) (hGold j hj x y)
        before := by
          intro x y hp hd hd' a b ha
          obtain ⟨-, -, hx⟩ := hdirty i hi x y hd
          rw [hEm j hj x y hx hd'] at ha; cases ha
        syn := by
          intro p hp hpe
          rw [hsyn] at hp
          by_cases hx : p.1 = m ∨ p.2 = m
          · right
            refine ⟨rfl, ?_⟩
            have e : i ≠ r := by
              rintro rfl
              have := ok.syn p hp; grind
            have e' : i ≠ k := by
              rintro rfl
              have := ((h.one i hi).wrote p (.inr hp)).1
              rw [hke _ _ hx] at this; cases this
            obtain ⟨q, hq, hs⟩ := ok.all i hi e e' p.1 p.2 ((h.one i hi).wrote p (.inr hp)).1 (by grind)
            have hq' := (ok.new i hi e e' q hq).1
            rw [hnew i hi, if_neg (by simp [e, e'])]
            rcases hs with ⟨e1, e2⟩ | ⟨hd, e1, e2⟩
            · have : q = p := Prod.ext e1 e2
              rw [← this]; exact hq
            · have := (h.orient hd i hi i hi p (.inr hp)).2
              have e3 : q = (p.2, p.1) := Prod.ext e1 e2
              rw [e3] at hq'; exact absurd hq' this
          · left
            rw [hedge j hj, if_neg (by simp [hx])]
            simp only [not_or] at hx
            exact h2.syn0 p hp ((hpeer i hi j hj _ _ hx.1 hx.2).1 hpe)
        rem := by intro p hp; rw [hrem i hi] at hp; cases hp }
    orient := by
      intro hd i hi j hj p hp
      have hp' : p ∈ (V i).net.syn := by
        rcases hp with hp | hp
        · exact (hnewsyn i hi p hp).1
        · rw [hsyn] at hp; exact hp
      have := (h.orient hd i hi j hj p (.inr hp')).2
      rw [hsyn j]
      exact ⟨fun c => this (hnewsyn j hj _ c).1, this⟩ }

end

end Repast.Network
