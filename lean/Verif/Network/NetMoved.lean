import Verif.Network.NetSettle

/-! The whole of `move_agents` with one agent (context.py:486-549): its edges are copied to its new rank, and the former rank adds the edges that it keeps. Used for C54. -/
namespace Repast.Network
open Repast.Dict Repast.Context

variable {S A : Type} {d : Bool} {n : Nat} {V : Sp S A} {Q : Nat → Pend A}

section
variable {r k m : Nat} {s : S} {hid : Bool} {drop : Nat → Bool} {l : Nat → List (Nat × Nat)} {M : List (Nat × Nat × Attr A)}

theorem mid_loc (hkr : k ≠ r) (i u : Nat) : (V.mid r k m s hid drop l i).loc u = if u = m then (if i = k then some s else if i = r then none else (V i).loc m) else (V i).loc u := by
  by_cases e : i = r
  · subst e
    rw [mid_r]
    show (if u = m then none else (V i).loc u) = _
    split
    · rw [if_neg (Ne.symm hkr), if_pos rfl]
    · rfl
  · by_cases e2 : i = k
    · subst e2
      rw [mid_k hkr]
      show (if u = m then some s else (V i).loc u) = _
      split
      · rw [if_pos rfl]
      · rfl
    · rw [mid_i e e2]
      show (V i).loc u = _
      split
      · rename_i c; rw [c]
      · rfl

theorem MidOk.lists (ok : MidOk d n V r k m s drop l) {i : Nat} (hi : i < n) : (V.mid r k m s hid drop l i).net.upd = [] ∧ (V.mid r k m s hid drop l i).net.rem = [] ∧
    (V.mid r k m s hid drop l i).net.syn = (V i).net.syn ∧ (V.mid r k m s hid drop l i).net.new = if i = r ∨ i = k then [] else l i := by
  have hc := ok.clean i hi
  by_cases e : i = r
  · subst e
    rw [mid_r]
    exact ⟨hc.2.1, hc.2.2, rfl, hc.1.trans (if_pos (.inl rfl)).symm⟩
  · by_cases e2 : i = k
    · subst e2
      rw [mid_k ok.ne, if_pos (.inr rfl)]
      exact ⟨hc.2.1, hc.2.2, rfl, hc.1⟩
    · rw [mid_i e e2, if_neg (fun c => c.elim e e2)]
      exact ⟨hc.2.1, hc.2.2, rfl, rfl⟩

theorem MidOk.sent (h : SInv NoHid d n V) (ok : MidOk d n V r k m s drop l) {i : Nat} (hi : i < n) {p : Nat × Nat} (hp : p ∈ (V.mid r k m s hid drop l i).net.new) :
    i ≠ r ∧ i ≠ k ∧ p ∈ l i ∧ (m = p.1 ∨ m = p.2) ∧ (V.mid r k m s hid drop l i).far p = k := by
  have h1 := h.mid (hid := hid) ok
  rw [(ok.lists hi).2.2.2] at hp
  split at hp
  · cases hp
  · rename_i e
    have er : i ≠ r := fun c => e (.inl c)
    have ek : i ≠ k := fun c => e (.inr c)
    obtain ⟨h2, h3⟩ := ok.new i hi er ek p hp
    refine ⟨er, ek, hp, h3, ?_⟩
    have hf := h1.far_noted hi (.inl (by rw [(ok.lists hi).2.2.2, if_neg e]; exact hp))
    have hml : (V i).loc m = none := h.loc_once ok.hr hi (by rw [ok.loc]; rfl) er
    have hmi : ((V.mid r k m s hid drop l i).loc m).isSome = false := by rw [mid_loc ok.ne, if_pos rfl, if_neg ek, if_neg er, hml]; rfl
    have hmk : ((V.mid r k m s hid drop l k).loc m).isSome = true := by rw [mid_loc ok.ne, if_pos rfl, if_pos rfl]; rfl
    have hpe := hf.peer
    rcases h3 with e1 | e1
    · rw [← e1] at hpe
      rcases hpe with ⟨a, -⟩ | ⟨-, b⟩
      · rw [hmi] at a; cases a
      · exact h1.own _ hf.lt _ ok.hk m b hmk
    · rw [← e1] at hpe
      rcases hpe with ⟨-, b⟩ | ⟨a, -⟩
      · exact h1.own _ hf.lt _ ok.hk m b hmk
      · rw [hmi] at a; cases a

theorem MidOk.dirty (h : SInv NoHid d n V) (ok : MidOk d n V r k m s drop l) {i : Nat} (hi : i < n) {x y : Nat} (hd : (V.mid r k m s hid drop l i).net.Dirty d x y) :
    i ≠ r ∧ i ≠ k ∧ (m = x ∨ m = y) ∧ Peer (V.mid r k m s hid drop l) i k x y := by
  obtain ⟨p, hp, hs⟩ := hd
  rw [(ok.lists hi).1] at hp
  have hp := hp.resolve_right (by simp)
  obtain ⟨h1, h2, -, h3, h4⟩ := ok.sent (hid := hid) h hi hp
  have hf := (h.mid (hid := hid) ok).far_noted hi (.inl hp)
  refine ⟨h1, h2, ?_, ?_⟩
  · unfold SameN at hs; omega
  · have := hf.peer.same hs
    rwa [h4] at this

/-- What the ranks see after the edges were redirected. -/
theorem MidOk.legal (h : SInv NoHid d n V) (ok : MidOk d n V r k m s drop l) : Legal d n (V.mid r k m s hid drop l) (.synch true) := by
  have h1 := h.mid (hid := hid) ok
  intro _
  constructor
  · intro i hi j hj x y d1 d2
    obtain ⟨i1, i2, -, p1⟩ := ok.dirty (hid := hid) h hi d1
    obtain ⟨j1, j2, -, p2⟩ := ok.dirty (hid := hid) h hj d2
    rw [h1.peer_uniq hi hj ok.hk i2 j2 p1 p2]
  · intro i hi p hp
    rw [(ok.lists hi).2.1] at hp; cases hp

theorem MidOk.hidden (h : SInv NoHid d n V) (ok : MidOk d n V r k m s drop l) : ∀ i < n, ∀ p ∈ ((V.mid r k m s hid drop l).states.removals d n i).net.new,
    (midHid r m hid) (((V.mid r k m s hid drop l).states.removals d n i).far p) (((V.mid r k m s hid drop l).states.removals d n i).near p) = false := by
  intro i hi p hp
  rw [removals_none (V := (V.mid r k m s hid drop l).states) (fun j hj => (ok.lists hj).2.1) hi] at hp ⊢
  rw [states_far, (ok.sent (hid := hid) h hi hp).2.2.2.2]
  show (decide (k = r) && _ && _) = false
  rw [decide_eq_false ok.ne]; rfl

/-! ### After the first `synchronize` -/

/-- What the ranks see after the edges with agents of other ranks were copied to the new rank. -/
def Sp.mid2 (d : Bool) (n : Nat) (V : Sp S A) (r k m : Nat) (s : S) (hid : Bool) (drop : Nat → Bool) (l : Nat → List (Nat × Nat)) : Sp S A := sstep d n (V.mid r k m s hid drop l) (.synch true)

theorem mid2_loc (hkr : k ≠ r) (i u : Nat) : (V.mid2 d n r k m s hid drop l i).loc u = if u = m then (if i = k then some s else if i = r then none else (V i).loc m) else (V i).loc u :=
  mid_loc (hid := hid) (drop := drop) (l := l) hkr i u

theorem SInv.mid2 (h : SInv NoHid d n V) (ok : MidOk d n V r k m s drop l) : SInv (midHid r m hid).settled d n (V.mid2 d n r k m s hid drop l) :=
  (h.mid ok).synch (ok.hidden h) (ok.legal h)

theorem MidOk.lists2 (ok : MidOk d n V r k m s drop l) {i : Nat} (hi : i < n) : (V.mid2 d n r k m s hid drop l i).net.new = [] ∧ (V.mid2 d n r k m s hid drop l i).net.upd = [] ∧
    (V.mid2 d n r k m s hid drop l i).net.rem = [] ∧ (∀ p, p ∈ (V.mid2 d n r k m s hid drop l i).net.syn ↔ p ∈ (V i).net.syn) ∧ (V.mid2 d n r k m s hid drop l i).req = (V i).req := by
  obtain ⟨h1, h2, h3, h4, h5⟩ := synch_lists (d := d) (V := V.mid r k m s hid drop l) (fun j hj => (ok.lists hj).2.1) hi
  refine ⟨h1, h2, h3, ?_, ?_⟩
  · intro p
    show p ∈ (sstep d n (V.mid r k m s hid drop l) (.synch true) i).net.syn ↔ _
    rw [h4, mem_foldl_ins, (ok.lists hi).2.2.1, (ok.lists hi).2.2.2]
    constructor
    · rintro (h | h)
      · exact h
      · split at h
        · cases h
        · rename_i e
          exact (ok.new i hi (fun c => e (.inl c)) (fun c => e (.inr c)) p h).1
    · exact .inl
  · show (sstep d n (V.mid r k m s hid drop l) (.synch true) i).req = _
    rw [h5]
    unfold Sp.mid
    split
    · rename_i e; rw [e]
    · split
      · rename_i e; rw [e]
      · rfl

theorem MidOk.out2 (h : SInv NoHid d n V) (ok : MidOk d n V r k m s drop l) {i : Nat} (hi : i < n) (hik : i ≠ k) :
    (V.mid2 d n r k m s hid drop l i).net.edge = (V.mid r k m s hid drop l i).net.edge ∧ (V.mid2 d n r k m s hid drop l i).net.has = (V.mid r k m s hid drop l i).net.has ∧
    (V.mid2 d n r k m s hid drop l i).gho = ((V.mid r k m s hid drop l).states i).gho := by
  refine synch_out (fun j hj => (ok.lists hj).2.1) hi ?_
  intro j hj p hp
  rw [(ok.lists hj).1] at hp
  rw [(ok.sent (hid := hid) h hj (hp.resolve_right (by simp))).2.2.2.2]
  exact Ne.symm hik

/-- Edges without the agent do not change. -/
theorem MidOk.rest2 (h : SInv NoHid d n V) (ok : MidOk d n V r k m s drop l) {i : Nat} (hi : i < n) {x y : Nat} (hx : m ≠ x) (hy : m ≠ y) :
    (V.mid2 d n r k m s hid drop l i).net.edge x y = (V i).net.edge x y := by
  refine (synch_keep (V := V.mid r k m s hid drop l) (fun j hj => (ok.lists hj).2.1) hi ?_).trans ?_
  · intro j hj hd
    exact (ok.dirty (hid := hid) h hj hd).2.2.1.elim hx hy
  · by_cases e : i = r
    · subst e
      rw [mid_r]
      show (if _ then _ else _) = _
      rw [if_neg (fun c => c.elim (Ne.symm hx) (Ne.symm hy))]
    · by_cases e2 : i = k
      · subst e2; rw [mid_k ok.ne]
      · rw [mid_i e e2]

/-- The agent whose edges are copied is on the rank `r` or on another one. -/
theorem SInv.where_ (h : SInv NoHid d n V) {i x : Nat} (hi : i < n) (hx : (V i).net.has x = true) : ∃ j < n, ((V j).loc x).isSome = true := by
  rw [(h.one i hi).has, Bool.and_eq_true, Bool.or_eq_true] at hx
  rcases hx.1 with hx | hx
  · exact ⟨i, hi, hx⟩
  · obtain ⟨⟨t, j⟩, hg⟩ := Option.isSome_iff_exists.1 hx
    obtain ⟨a, -, c⟩ := h.gho i hi x t j hg
    exact ⟨j, a, c⟩

/-- The new rank has no edges with the agent before. -/
theorem MidOk.before (h : SInv NoHid d n V) (ok : MidOk d n V r k m s drop l) (x y : Nat) (hm : m = x ∨ m = y) : (V k).net.edge x y = none := by
  have hh : (V k).net.has m = false := by
    rw [(h.one k ok.hk).has, ok.gho, h.loc_once ok.hr ok.hk (by rw [ok.loc]; rfl) ok.ne]; rfl
  rcases hm with rfl | rfl
  · exact ((h.one k ok.hk).edge_none hh y).1
  · exact ((h.one k ok.hk).edge_none hh x).2

/-- In a clean state two ranks agree. -/
theorem MidOk.agree (h : SInv NoHid d n V) (ok : MidOk d n V r k m s drop l) {i j x y : Nat} (hi : i < n) (hj : j < n) (hp : Peer V i j x y) : (V i).net.edge x y = (V j).net.edge x y := by
  by_cases e : i = j
  · rw [e]
  · have hd : ∀ i < n, ∀ x y, ¬ (V i).net.Dirty d x y := by
      rintro i hi x y ⟨p, hp, -⟩
      rw [(ok.clean i hi).1, (ok.clean i hi).2.1] at hp
      simp at hp
    have hg : ∀ i < n, ∀ x y, ¬ (V i).net.Gone d x y := by
      rintro i hi x y ⟨p, hp, -⟩
      rw [(ok.clean i hi).2.2] at hp
      simp at hp
    exact (h.two i hi j hj e).agree x y hp (hd i hi x y) (hd j hj x y) (hg i hi x y) (hg j hj x y)

/-- The edges between the agent and `y`, if `y` is not on the former rank. -/
theorem MidOk.edge2 (h : SInv NoHid d n V) (ok : MidOk d n V r k m s drop l) (hself : (V r).net.edge m m = none) {x y : Nat} (hm : m = x ∨ m = y) :
    (¬ (x = m ∧ ((V r).loc y).isSome = true ∨ y = m ∧ ((V r).loc x).isSome = true) → (V.mid2 d n r k m s hid drop l k).net.edge x y = (V r).net.edge x y) ∧
    ((x = m ∧ ((V r).loc y).isSome = true ∨ y = m ∧ ((V r).loc x).isSome = true) → (V.mid2 d n r k m s hid drop l k).net.edge x y = none) := by
  have h1 := h.mid (hid := hid) ok
  have hlm : ((V r).loc m).isSome = true := by rw [ok.loc]; rfl
  have hV1k : (V.mid r k m s hid drop l k).net.edge x y = none := by rw [mid_k ok.ne]; exact ok.before h x y hm
  constructor
  · intro hnot
    -- the other end
    obtain ⟨z, hz, hzm⟩ : ∃ z, (x = m ∧ y = z ∨ y = m ∧ x = z) ∧ z ≠ m := by
      rcases hm with e | e
      · exact ⟨y, .inl ⟨e.symm, rfl⟩, fun c => hnot (.inl ⟨e.symm, by rw [c]; exact hlm⟩)⟩
      · exact ⟨x, .inr ⟨e.symm, rfl⟩, fun c => hnot (.inr ⟨e.symm, by rw [c]; exact hlm⟩)⟩
    have hzr : (V r).loc z = none := by
      cases hh : (V r).loc z with
      | none => rfl
      | some t => exact absurd (by rcases hz with ⟨e1, e2⟩ | ⟨e1, e2⟩; (exact .inl ⟨e1, by rw [e2, hh]; rfl⟩); exact .inr ⟨e1, by rw [e2, hh]; rfl⟩) hnot
    by_cases hex : ∃ j < n, ((V j).loc z).isSome = true
    · obtain ⟨j, hj, hjz⟩ := hex
      have hjr : j ≠ r := by rintro rfl; rw [hzr] at hjz; cases hjz
      have hpV : Peer V r j x y := by
        rcases hz with ⟨e1, e2⟩ | ⟨e1, e2⟩
        · rw [e1, e2]; exact .inl ⟨hlm, hjz⟩
        · rw [e1, e2]; exact .inr ⟨hlm, hjz⟩
      by_cases hjk : j = k
      · subst hjk
        rw [ok.agree h ok.hr ok.hk hpV, ok.before h x y hm]
        refine (synch_keep (V := V.mid r j m s hid drop l) (fun j hj => (ok.lists hj).2.1) ok.hk ?_).trans hV1k
        intro i hi hd
        obtain ⟨-, i2, -, i4⟩ := ok.dirty (hid := hid) h hi hd
        have hzi : ((V.mid r j m s hid drop l i).loc z).isSome = true ∨ ((V.mid r j m s hid drop l i).loc m).isSome = true := by
          rcases hz with ⟨e1, e2⟩ | ⟨e1, e2⟩ <;> rw [e1, e2] at i4 <;> rcases i4 with ⟨a, b⟩ | ⟨a, b⟩
          · exact .inr a
          · exact .inl a
          · exact .inl a
          · exact .inr a
        rcases hzi with a | a
        · exact i2 (h1.own i hi j ok.hk z a (by rw [mid_loc ok.ne, if_neg hzm]; exact hjz))
        · exact i2 (h1.own i hi j ok.hk m a (by rw [mid_loc ok.ne, if_pos rfl, if_pos rfl]; rfl))
      · have hp1 : Peer (V.mid r k m s hid drop l) k j x y := by
          have a : ((V.mid r k m s hid drop l k).loc m).isSome = true := by rw [mid_loc ok.ne, if_pos rfl, if_pos rfl]; rfl
          have b : ((V.mid r k m s hid drop l j).loc z).isSome = true := by rw [mid_loc ok.ne, if_neg hzm]; exact hjz
          rcases hz with ⟨e1, e2⟩ | ⟨e1, e2⟩
          · rw [e1, e2]; exact .inl ⟨a, b⟩
          · rw [e1, e2]; exact .inr ⟨a, b⟩
        have hj1 : (V.mid r k m s hid drop l j).net.edge = (V j).net.edge := by rw [mid_i hjr hjk]
        have hsy := h1.synch_edge (ok.legal h) ok.hk hj (Ne.symm hjk) hp1
        rw [ok.agree h ok.hr hj hpV]
        by_cases hd : (V.mid r k m s hid drop l j).net.Dirty d x y
        · exact (hsy.2.1 hd).trans (by rw [hj1])
        · refine (hsy.2.2.2 (fun hd => (ok.dirty (hid := hid) h ok.hk hd).2.1 rfl) hd ?_ ?_).trans ?_
          · rintro ⟨p, hp, -⟩; rw [(ok.lists ok.hk).2.1] at hp; cases hp
          · rintro ⟨p, hp, -⟩; rw [(ok.lists hj).2.1] at hp; cases hp
          · rw [hV1k]
            cases hh : (V j).net.edge x y with
            | none => rfl
            | some t =>
              obtain ⟨p, hp, hs⟩ := ok.all j hj hjr hjk x y (by rw [hh]; rfl) hm
              refine absurd ⟨p, .inl ?_, hs⟩ hd
              rw [(ok.lists hj).2.2.2, if_neg (fun c => c.elim hjr hjk)]
              exact hp
    · have hno : ∀ i < n, (V i).net.has z = false := by
        intro i hi
        cases hh : (V i).net.has z with
        | false => rfl
        | true => exact absurd (h.where_ hi hh) hex
      have e1 : (V r).net.edge x y = none := by
        rcases hz with ⟨e1, e2⟩ | ⟨e1, e2⟩
        · rw [e2]; exact ((h.one r ok.hr).edge_none (hno r ok.hr) x).2
        · rw [e2]; exact ((h.one r ok.hr).edge_none (hno r ok.hr) y).1
      rw [e1]
      refine (synch_keep (V := V.mid r k m s hid drop l) (fun j hj => (ok.lists hj).2.1) ok.hk ?_).trans hV1k
      intro i hi hd
      obtain ⟨i1, i2, -, i4⟩ := ok.dirty (hid := hid) h hi hd
      have hml : (V i).loc m = none := h.loc_once ok.hr hi hlm i1
      have hmi : ((V.mid r k m s hid drop l i).loc m).isSome = false := by rw [mid_loc ok.ne, if_pos rfl, if_neg i2, if_neg i1, hml]; rfl
      have hzi : ((V.mid r k m s hid drop l i).loc z).isSome = true := by
        rcases hz with ⟨e1, e2⟩ | ⟨e1, e2⟩ <;> rw [e1, e2] at i4 <;> rcases i4 with ⟨a, b⟩ | ⟨a, b⟩
        · rw [hmi] at a; cases a
        · exact a
        · exact a
        · rw [hmi] at a; cases a
      rw [mid_loc ok.ne, if_neg hzm] at hzi
      exact hex ⟨i, hi, hzi⟩
  · intro hyes
    by_cases hxy : x = m ∧ y = m
    · obtain ⟨rfl, rfl⟩ := hxy
      refine (h1.synch_local (ok.legal h) ok.hk ?_ ?_).trans hV1k
      · rw [mid_loc ok.ne, if_pos rfl, if_pos rfl]; rfl
      · rw [mid_loc ok.ne, if_pos rfl, if_pos rfl]; rfl
    · refine (synch_keep (V := V.mid r k m s hid drop l) (fun j hj => (ok.lists hj).2.1) ok.hk ?_).trans hV1k
      intro i hi hd
      obtain ⟨i1, i2, -, i4⟩ := ok.dirty (hid := hid) h hi hd
      have hml : (V i).loc m = none := h.loc_once ok.hr hi hlm i1
      have hmi : ((V.mid r k m s hid drop l i).loc m).isSome = false := by rw [mid_loc ok.ne, if_pos rfl, if_neg i2, if_neg i1, hml]; rfl
      have key : ∀ z, z ≠ m → ((V r).loc z).isSome = true → ((V.mid r k m s hid drop l i).loc z).isSome = false := by
        intro z hz hl
        rw [mid_loc ok.ne, if_neg hz, h.loc_once ok.hr hi hl i1]; rfl
      rcases hyes with ⟨e1, e2⟩ | ⟨e1, e2⟩
      · have := key y (fun c => hxy ⟨e1, c⟩) e2
        rw [e1] at i4
        rcases i4 with ⟨a, b⟩ | ⟨a, b⟩
        · rw [hmi] at a; cases a
        · rw [this] at a; cases a
      · have := key x (fun c => hxy ⟨c, e1⟩) e2
        rw [e1] at i4
        rcases i4 with ⟨a, b⟩ | ⟨a, b⟩
        · rw [this] at a; cases a
        · rw [hmi] at a; cases a

/-! ### The former rank adds the edges that it keeps -/

theorem prefix_ind {T : Type} {P : List T → Prop} (L : List T) (h0 : P []) (hs : ∀ pre e suf, L = pre ++ e :: suf → P pre → P (pre ++ [e])) : P L := by
  obtain ⟨-, -, h⟩ := foldM_sim (f := fun (_ : Unit) (_ : T) => some ()) (fun pre _ => P pre) L (fun pre e suf hl t hp => ⟨(), rfl, hs pre e suf hl hp⟩) () h0
  exact h

theorem setNet_setNet {r : Nat} {N N' : NV A} : (V.setNet r N).setNet r N' = V.setNet r N' := by
  unfold Sp.setNet Sp.set
  funext i
  by_cases e : i = r <;> simp [e]

/-- What the ranks see after the former rank has added the edges with its agents again. -/
def Sp.mid3 (d : Bool) (n : Nat) (V : Sp S A) (r k m : Nat) (s : S) (hid : Bool) (drop : Nat → Bool) (l : Nat → List (Nat × Nat)) (M : List (Nat × Nat × Attr A)) : Sp S A :=
  (V.mid2 d n r k m s hid drop l).setNet r ((V.mid2 d n r k m s hid drop l r).net.readd d m M)

theorem MidOk.none2 (h : SInv NoHid d n V) (ok : MidOk d n V r k m s drop l) {x y : Nat} (hm : x = m ∨ y = m) : (V.mid2 d n r k m s hid drop l r).net.edge x y = none := by
  rw [(ok.out2 h ok.hr (Ne.symm ok.ne)).1, mid_r]
  exact if_pos hm

theorem SInv.mid3 (h : SInv NoHid d n V) (ok : MidOk d n V r k m s drop l) (hk : Kept d (V r) m hid M) : SInv NoHid d n (V.mid3 d n r k m s hid drop l M) := by
  let W := V.mid2 d n r k m s hid drop l
  have h2 : SInv (midHid r m hid).settled d n W := h.mid2 ok
  have hW : ∀ x y, x = m ∨ y = m → (W r).net.edge x y = none := fun x y hm => ok.none2 h hm
  let N : List (Nat × Nat × Attr A) → NV A := fun pre => { (W r).net with
    has := fun x => (W r).net.has x || (decide (x = m) && hid), edge := ((W r).net.readd d m pre).edge, new := ((W r).net.readd d m pre).new }
  have hhid : hid = !M.isEmpty := by
    cases hM : M with
    | nil =>
      cases hh : hid with
      | false => rfl
      | true => exact absurd hM (hk.hidIff.1 hh)
    | cons e M' => exact hk.hidIff.2 (by rw [hM]; simp)
  have hmr : ((V r).loc m).isSome = true := by rw [ok.loc]; rfl
  have hwl : ∀ x, x ≠ m → (W r).loc x = (V r).loc x := by
    intro x hx
    show (V.mid2 d n r k m s hid drop l r).loc x = _
    rw [mid2_loc ok.ne, if_neg hx]
  have hwm : (W r).loc m = none := by
    show (V.mid2 d n r k m s hid drop l r).loc m = _
    rw [mid2_loc ok.ne, if_pos rfl, if_neg (Ne.symm ok.ne), if_pos rfl]
  have key : SInv NoHid d n (W.setNet r (N M)) := by
    refine prefix_ind (P := fun pre => SInv NoHid d n (W.setNet r (N pre))) M ?_ ?_
    · have := h2.reveal ok.hr
      have e : N [] = { (W r).net with has := fun x => (W r).net.has x || (decide (x = m) && hid) } := by
        show ({ (W r).net with has := _, edge := (W r).net.edge, new := [] } : NV A) = _
        have : (W r).net.new = [] := (ok.lists2 ok.hr).1
        rw [← this]
      show SInv NoHid d n (W.setNet r (N []))
      rw [e]
      exact this
    · intro pre e suf hl hpre
      have heM : e ∈ M := by rw [hl]; simp
      have he := (hk.kept e heM).1
      have hon := pairwise_split hk.once hl
      have hh : hid = true := hk.hidIff.2 (by rw [hl]; simp)
      have hself : (W.setNet r (N pre)) r = { W r with net := N pre } := by unfold Sp.setNet Sp.set; rw [if_pos rfl]
      have hhas : ∀ x, x = m ∨ ((V r).loc x).isSome = true → ((W.setNet r (N pre)) r).net.has x = true := by
        intro x hx
        rw [hself]
        show ((W r).net.has x || (decide (x = m) && hid)) = true
        by_cases e : x = m
        · rw [hh]; simp [e]
        · have hx := hx.resolve_left e
          have : (W r).net.has x = true := by
            rw [(h2.one r ok.hr).has, hwl x e, hx]
            simp only [Bool.true_or, Bool.true_and]
            show (!(decide (r = r) && decide (x = m) && hid)) = true
            simp [e]
          rw [this]; rfl
      have hloc : ((W.setNet r (N pre)) r).loc = (W r).loc := by rw [hself]
      have hcross : ((W.setNet r (N pre)) r).cross e.1 e.2.1 = true := by
        unfold RV.cross
        rw [hloc]
        rcases he with ⟨q1, q2, q3⟩ | ⟨q1, q2, q3, -⟩
        · rw [q1, hwm, hwl _ q2, q3]; rfl
        · rw [q1, hwm, hwl _ q2, q3]; rfl
      have := hpre.addEdge (u := e.1) (v := e.2.1) ok.hr e.2.2 (hhas _ (he.imp (·.1) (·.2.2.1)))
        (by rcases he with ⟨q1, q2, q3⟩ | ⟨q1, q2, q3, -⟩; (exact hhas _ (.inr q3)); exact hhas _ (.inl q1))
        (by
          rw [hloc]
          rcases he with ⟨q1, q2, q3⟩ | ⟨q1, q2, q3, -⟩
          · rw [hwl _ q2]; exact .inr q3
          · rw [hwl _ q2]; exact .inl q3)
        (by
          rintro i hi ⟨p, hp, -⟩
          have : ((W.setNet r (N pre)) i).net.rem = [] := by
            by_cases e : i = r
            · subst e; rw [hself]; exact (ok.lists2 (hid := hid) hi).2.2.1
            · rw [setNet_other e]; exact (ok.lists2 hi).2.2.1
          rw [this] at hp; cases hp)
        (by
          intro hd hne i hi
          have q : e.1 = m ∧ e.2.1 ≠ m ∧ ((V r).loc e.2.1).isSome = true := by
            rcases he with q | ⟨-, -, -, q⟩
            · exact q
            · rw [hd] at q; cases q
          constructor
          · by_cases e' : i = r
            · subst e'
              rw [hself]
              intro hp
              obtain ⟨e'', he'', q4⟩ := List.mem_map.1 (show (e.2.1, e.1) ∈ pre.map fun e => (e.1, e.2.1) from hp)
              simp only [Prod.mk.injEq] at q4
              rcases (hk.kept e'' (by rw [hl]; exact List.mem_append_left _ he'')).1 with q5 | ⟨-, -, -, q5⟩
              · exact q.2.1 (q4.1.symm.trans q5.1)
              · rw [hd] at q5; cases q5
            · rw [setNet_other e']
              rw [(ok.lists2 hi).1]; simp
          · have hsy : ∀ p, p ∈ ((W.setNet r (N pre)) i).net.syn ↔ p ∈ (V i).net.syn := by
              by_cases e' : i = r
              · subst e'; rw [hself]; exact (ok.lists2 (hid := hid) hi).2.2.2.1
              · rw [setNet_other e']; exact (ok.lists2 hi).2.2.2.1
            rw [hsy]
            intro hp
            by_cases e' : i = r
            · subst e'
              exact (ok.syn _ hp).2 q.1
            · have hc := ((h.one i hi).wrote _ (.inr hp)).2
              unfold RV.cross at hc
              rw [h.loc_once ok.hr hi q.2.2 e', q.1, h.loc_once ok.hr hi hmr e'] at hc
              cases hc)
      have e2 : sstep d n (W.setNet r (N pre)) (.addEdge r 0 e.1 e.2.1 e.2.2) = W.setNet r (N (pre ++ [e])) := by
        show (W.setNet r (N pre)).setNet r (((W.setNet r (N pre)) r).net.addEdge d (((W.setNet r (N pre)) r).cross e.1 e.2.1) e.1 e.2.1 e.2.2) = _
        rw [setNet_setNet, hcross, setNet_self]
        refine congrArg (W.setNet r) ?_
        have g1 : (fun x y => if SameN d e.1 e.2.1 x y then some (merge ((((W r).net.readd d m pre).edge x y).getD []) e.2.2) else ((W r).net.readd d m pre).edge x y) = ((W r).net.readd d m (pre ++ [e])).edge := by
          funext x y
          have q : ∀ l, ((W r).net.readd d m l).edge x y = match l.find? (fun e => decide (SameN d e.1 e.2.1 x y)) with
            | some e => some (merge [] e.2.2)
            | none => (W r).net.edge x y := fun _ => rfl
          rw [q, q, find?_snoc]
          by_cases hs : SameN d e.1 e.2.1 x y
          · have hn : pre.find? (fun e => decide (SameN d e.1 e.2.1 x y)) = none := by
              rw [List.find?_eq_none]
              intro e' he' hh
              exact hon e' he' ((of_decide_eq_true hh : SameN d e'.1 e'.2.1 x y).trans hs.symm)
            rw [if_pos hs, hn]
            have : (W r).net.edge x y = none := by
              apply hW
              unfold SameN at hs
              rcases he with ⟨q1, -⟩ | ⟨q1, -⟩ <;> rcases hs with ⟨q3, q4⟩ | ⟨-, q3, q4⟩ <;> omega
            rw [this]
            simp [hs]
          · rw [if_neg hs]
            cases pre.find? (fun e => decide (SameN d e.1 e.2.1 x y)) with
            | some y => rfl
            | none => simp [hs]
        have g2 : ins ((W r).net.readd d m pre).new (e.1, e.2.1) = ((W r).net.readd d m (pre ++ [e])).new := by
          show ins (pre.map fun e => (e.1, e.2.1)) (e.1, e.2.1) = (pre ++ [e]).map fun e => (e.1, e.2.1)
          unfold ins
          rw [if_neg, List.map_append]
          · rfl
          · intro hh
            obtain ⟨e', he', q⟩ := List.mem_map.1 hh
            simp only [Prod.mk.injEq] at q
            exact hon e' he' (.inl q)
        show ({ (W r).net with
          has := fun x => (W r).net.has x || (decide (x = m) && hid)
          edge := fun x y => if SameN d e.1 e.2.1 x y then some (merge ((((W r).net.readd d m pre).edge x y).getD []) e.2.2) else ((W r).net.readd d m pre).edge x y
          new := ins ((W r).net.readd d m pre).new (e.1, e.2.1) } : NV A) = _
        rw [g1, g2]
      rw [e2] at this
      exact this
  have : N M = (W r).net.readd d m M := by
    show ({ (W r).net with has := fun x => (W r).net.has x || (decide (x = m) && hid), edge := _, new := _ } : NV A) = _
    rw [hhid]; rfl
  rw [this] at key
  exact key

theorem mid3_r : V.mid3 d n r k m s hid drop l M r = { V.mid2 d n r k m s hid drop l r with net := (V.mid2 d n r k m s hid drop l r).net.readd d m M } := by
  unfold Sp.mid3 Sp.setNet Sp.set; rw [if_pos rfl]

theorem mid3_i {i : Nat} (h : i ≠ r) : V.mid3 d n r k m s hid drop l M i = V.mid2 d n r k m s hid drop l i := setNet_other h

theorem mid3_loc (hkr : k ≠ r) (i u : Nat) : (V.mid3 d n r k m s hid drop l M i).loc u = if u = m then (if i = k then some s else if i = r then none else (V i).loc m) else (V i).loc u := by
  refine Eq.trans ?_ (mid2_loc (d := d) (n := n) (hid := hid) (drop := drop) (l := l) hkr i u)
  by_cases e : i = r
  · subst e; rw [mid3_r]
  · rw [mid3_i e]

theorem MidOk.lists3 (ok : MidOk d n V r k m s drop l) {i : Nat} (hi : i < n) : (V.mid3 d n r k m s hid drop l M i).net.new = (if i = r then M.map fun e => (e.1, e.2.1) else []) ∧
    (V.mid3 d n r k m s hid drop l M i).net.upd = [] ∧ (V.mid3 d n r k m s hid drop l M i).net.rem = [] ∧
    (∀ p, p ∈ (V.mid3 d n r k m s hid drop l M i).net.syn ↔ p ∈ (V i).net.syn) ∧ (V.mid3 d n r k m s hid drop l M i).req = (V i).req := by
  have hl := ok.lists2 (hid := hid) hi
  by_cases e : i = r
  · subst e; rw [mid3_r, if_pos rfl]; exact ⟨rfl, hl.2⟩
  · rw [mid3_i e, if_neg e]; exact hl

theorem MidOk.edge3 (h : SInv NoHid d n V) (ok : MidOk d n V r k m s drop l) (hk : Kept d (V r) m hid M) (x y : Nat) :
    (m ≠ x → m ≠ y → (V.mid3 d n r k m s hid drop l M r).net.edge x y = (V r).net.edge x y) ∧
    ((x = m ∧ ((V r).loc y).isSome = true ∨ y = m ∧ ((V r).loc x).isSome = true) → (V.mid3 d n r k m s hid drop l M r).net.edge x y = (V r).net.edge x y) ∧
    ((m = x ∨ m = y) → ¬ (x = m ∧ ((V r).loc y).isSome = true ∨ y = m ∧ ((V r).loc x).isSome = true) → (V.mid3 d n r k m s hid drop l M r).net.edge x y = none) := by
  have he : (V.mid3 d n r k m s hid drop l M r).net.edge x y = match M.find? (fun e => decide (SameN d e.1 e.2.1 x y)) with
      | some e => some (merge [] e.2.2)
      | none => (V.mid2 d n r k m s hid drop l r).net.edge x y := by rw [mid3_r]; rfl
  rw [he]
  cases hf : M.find? (fun e => decide (SameN d e.1 e.2.1 x y)) with
  | none =>
    have hno := List.find?_eq_none.1 hf
    refine ⟨fun hx hy => ok.rest2 h ok.hr hx hy, ?_, fun hm _ => ok.none2 h (hm.imp Eq.symm Eq.symm)⟩
    intro hc
    show (V.mid2 d n r k m s hid drop l r).net.edge x y = _
    rw [ok.none2 h (hc.imp (·.1) (·.1))]
    cases hh : (V r).net.edge x y with
    | none => rfl
    | some a =>
      obtain ⟨e, he, hs⟩ := hk.all x y (by rw [hh]; rfl) hc
      exact absurd (decide_eq_true hs) (hno e he)
  | some e =>
    have heM := List.mem_of_find?_eq_some hf
    have hs : SameN d e.1 e.2.1 x y := by have := List.find?_some hf; exact of_decide_eq_true this
    obtain ⟨q, qe⟩ := hk.kept e heM
    have hmer : merge [] e.2.2 = e.2.2 := (merge_new e.2.2 [] ((h.one r ok.hr).ok _ _ _ qe))
    have hval : (some (merge [] e.2.2) : Option (Attr A)) = (V r).net.edge x y := by
      rw [hmer, ← qe]; exact (h.one r ok.hr).edge_same hs
    refine ⟨fun _ _ => hval, fun _ => hval, ?_⟩
    intro hm hno
    refine absurd ?_ hno
    unfold SameN at hs
    rcases q with ⟨q1, q2, q3⟩ | ⟨q1, q2, q3, -⟩ <;> rcases hs with ⟨q4, q5⟩ | ⟨-, q4, q5⟩
    · exact .inl ⟨q4.symm.trans q1, by rw [← q5]; exact q3⟩
    · exact .inr ⟨q4.symm.trans q1, by rw [← q5]; exact q3⟩
    · exact .inr ⟨q5.symm.trans q1, by rw [← q4]; exact q3⟩
    · exact .inl ⟨q5.symm.trans q1, by rw [← q4]; exact q3⟩

theorem MidOk.sent3 (h : SInv NoHid d n V) (ok : MidOk d n V r k m s drop l) (hk : Kept d (V r) m hid M) {i : Nat} (hi : i < n) {p : Nat × Nat} (hp : p ∈ (V.mid3 d n r k m s hid drop l M i).net.new) :
    i = r ∧ (∃ e ∈ M, p = (e.1, e.2.1)) ∧ (V.mid3 d n r k m s hid drop l M i).far p = k := by
  have h3 := h.mid3 (hid := hid) ok hk
  have hf := h3.far_noted hi (.inl hp)
  rw [(ok.lists3 hi).1] at hp
  split at hp
  · rename_i e
    subst e
    obtain ⟨e, he, rfl⟩ := List.mem_map.1 hp
    refine ⟨rfl, ⟨e, he, rfl⟩, ?_⟩
    have hmi : ((V.mid3 d n i k m s hid drop l M i).loc m).isSome = false := by rw [mid3_loc ok.ne, if_pos rfl, if_neg (Ne.symm ok.ne), if_pos rfl]; rfl
    have hmk : ((V.mid3 d n i k m s hid drop l M k).loc m).isSome = true := by rw [mid3_loc ok.ne, if_pos rfl, if_pos rfl]; rfl
    have hpe := hf.peer
    have hlt := hf.lt
    rcases (hk.kept e he).1 with ⟨e1, -⟩ | ⟨e1, -⟩
    · rw [e1] at hpe hlt ⊢
      rcases hpe with ⟨a, -⟩ | ⟨-, b⟩
      · rw [hmi] at a; cases a
      · exact h3.own _ hlt _ ok.hk m b hmk
    · rw [e1] at hpe hlt ⊢
      rcases hpe with ⟨-, b⟩ | ⟨a, -⟩
      · exact h3.own _ hlt _ ok.hk m b hmk
      · rw [hmi] at a; cases a
  · cases hp

theorem MidOk.dirty3 (h : SInv NoHid d n V) (ok : MidOk d n V r k m s drop l) (hk : Kept d (V r) m hid M) {i : Nat} (hi : i < n) {x y : Nat} (hd : (V.mid3 d n r k m s hid drop l M i).net.Dirty d x y) :
    i = r ∧ (x = m ∧ y ≠ m ∧ ((V r).loc y).isSome = true ∨ y = m ∧ x ≠ m ∧ ((V r).loc x).isSome = true) := by
  obtain ⟨p, hp, hs⟩ := hd
  rw [(ok.lists3 hi).2.1] at hp
  have hp := hp.resolve_right (by simp)
  obtain ⟨e1, ⟨e, he, rfl⟩, -⟩ := ok.sent3 (hid := hid) h hk hi hp
  refine ⟨e1, ?_⟩
  have q := (hk.kept e he).1
  unfold SameN at hs
  rcases q with ⟨q1, q2, q3⟩ | ⟨q1, q2, q3, -⟩ <;> rcases hs with ⟨q4, q5⟩ | ⟨-, q4, q5⟩
  · exact .inl ⟨q4.symm.trans q1, by rw [← q5]; exact ⟨q2, q3⟩⟩
  · exact .inr ⟨q4.symm.trans q1, by rw [← q5]; exact ⟨q2, q3⟩⟩
  · exact .inr ⟨q5.symm.trans q1, by rw [← q4]; exact ⟨q2, q3⟩⟩
  · exact .inl ⟨q5.symm.trans q1, by rw [← q4]; exact ⟨q2, q3⟩⟩

theorem MidOk.legal3 (h : SInv NoHid d n V) (ok : MidOk d n V r k m s drop l) (hk : Kept d (V r) m hid M) : Legal d n (V.mid3 d n r k m s hid drop l M) (.synch true) := by
  intro _
  constructor
  · intro i hi j hj x y d1 d2
    rw [(ok.dirty3 h hk hi d1).1, (ok.dirty3 h hk hj d2).1]
  · intro i hi p hp
    rw [(ok.lists3 hi).2.2.1] at hp; cases hp

/-- What the ranks see after `move_agents`. -/
def Sp.mid4 (d : Bool) (n : Nat) (V : Sp S A) (r k m : Nat) (s : S) (hid : Bool) (drop : Nat → Bool) (l : Nat → List (Nat × Nat)) (M : List (Nat × Nat × Attr A)) : Sp S A :=
  sstep d n (V.mid3 d n r k m s hid drop l M) (.synch true)

theorem SInv.mid4 (h : SInv NoHid d n V) (ok : MidOk d n V r k m s drop l) (hk : Kept d (V r) m hid M) : SInv NoHid d n (V.mid4 d n r k m s hid drop l M) :=
  (h.mid3 ok hk).synch (fun _ _ _ _ => rfl) (ok.legal3 h hk)

theorem MidOk.out4 (h : SInv NoHid d n V) (ok : MidOk d n V r k m s drop l) (hk : Kept d (V r) m hid M) {i : Nat} (hi : i < n) (hik : i ≠ k) :
    (V.mid4 d n r k m s hid drop l M i).net.edge = (V.mid3 d n r k m s hid drop l M i).net.edge ∧ (V.mid4 d n r k m s hid drop l M i).net.has = (V.mid3 d n r k m s hid drop l M i).net.has ∧
    (V.mid4 d n r k m s hid drop l M i).gho = ((V.mid3 d n r k m s hid drop l M).states i).gho := by
  refine synch_out (fun j hj => (ok.lists3 hj).2.2.1) hi ?_
  intro j hj p hp
  rw [(ok.lists3 hj).2.1] at hp
  rw [(ok.sent3 (hid := hid) h hk hj (hp.resolve_right (by simp))).2.2]
  exact Ne.symm hik

theorem states_isSome (W : Sp S A) (i u : Nat) : ((W.states i).gho u).isSome = ((W i).gho u).isSome := by
  show (((W i).gho u).map _).isSome = _
  cases (W i).gho u <;> rfl

/-- What `move_agents` of the agent `m` from the rank `r` to the rank `k` does: `V` is what the ranks see before, and `V'` what they see afterwards. -/
structure Moved (d : Bool) (n : Nat) (V : Sp S A) (r k m : Nat) (V' : Sp S A) : Prop where
  /-- the agent with its state is on its new rank, and on no other -/
  loc : ∀ i < n, ∀ u, (V' i).loc u = if u = m then (if i = k then (V r).loc m else none) else (V i).loc u
  /-- its new rank has all of its edges, with their attributes -/
  edgeK : ∀ x y, m = x ∨ m = y → (V' k).net.edge x y = (V r).net.edge x y
  /-- its former rank has the edges with its agents, with their attributes, and no others with it -/
  edgeR : ∀ x y, m = x ∨ m = y → (x = m ∧ ((V r).loc y).isSome = true ∨ y = m ∧ ((V r).loc x).isSome = true) → (V' r).net.edge x y = (V r).net.edge x y
  edgeR' : ∀ x y, m = x ∨ m = y → ¬ (x = m ∧ ((V r).loc y).isSome = true ∨ y = m ∧ ((V r).loc x).isSome = true) → (V' r).net.edge x y = none
  /-- the edges of the other ranks, and those without the agent, are as before -/
  edgeI : ∀ i < n, i ≠ r → i ≠ k → ∀ x y, (V' i).net.edge x y = (V i).net.edge x y
  rest : ∀ i < n, ∀ x y, m ≠ x → m ≠ y → (V' i).net.edge x y = (V i).net.edge x y
  /-- the ghosts have the states of their agents -/
  fresh : ∀ i < n, ∀ u t j, (V' i).gho u = some (t, j) → (V' j).loc u = some t
  /-- the ghosts of the other ranks are as before -/
  ghoI : ∀ i < n, i ≠ r → i ≠ k → ∀ u, ((V' i).gho u).isSome = ((V i).gho u).isSome
  /-- the new rank has also ghosts of the agents that the agent has edges with -/
  ghoK : ∀ u, ((V' k).gho u).isSome = true ↔ ((V k).gho u).isSome = true ∨ (u ≠ m ∧ (V k).loc u = none ∧ (((V r).net.edge m u).isSome = true ∨ ((V r).net.edge u m).isSome = true))
  /-- the former rank has a ghost of the agent if it has edges with its agents -/
  ghoM : ((V' r).gho m).isSome = true ↔ ∃ x, ((V r).loc x).isSome = true ∧ (((V r).net.edge m x).isSome = true ∨ ((V r).net.edge x m).isSome = true)
  /-- and keeps the ghosts that were requested or have other edges -/
  ghoR : ∀ u, u ≠ m → ((V' r).gho u).isSome = true → ((V r).gho u).isSome = true
  ghoR' : ∀ u, u ≠ m → ((V r).gho u).isSome = true → ((V r).req u = true ∨ ∃ y z, ((V r).net.edge y z).isSome = true ∧ (u = y ∨ u = z) ∧ m ≠ y ∧ m ≠ z) → ((V' r).gho u).isSome = true
  clean : ∀ i < n, (V' i).net.new = [] ∧ (V' i).net.upd = [] ∧ (V' i).net.rem = []
  /-- the former rank has now added the edges with the agent -/
  synR : ∀ p, p ∈ (V' r).net.syn ↔ p ∈ (V r).net.syn ∨ ((V r).net.edge p.1 p.2).isSome = true ∧
    (p.1 = m ∧ p.2 ≠ m ∧ ((V r).loc p.2).isSome = true ∨ d = true ∧ p.2 = m ∧ p.1 ≠ m ∧ ((V r).loc p.1).isSome = true)
  synI : ∀ i < n, i ≠ r → ∀ p, p ∈ (V' i).net.syn ↔ p ∈ (V i).net.syn
  req : ∀ i < n, (V' i).req = (V i).req

theorem MidOk.edge4 (h : SInv NoHid d n V) (ok : MidOk d n V r k m s drop l) (hk : Kept d (V r) m hid M) (hself : (V r).net.edge m m = none) {x y : Nat} (hm : m = x ∨ m = y) :
    (V.mid4 d n r k m s hid drop l M k).net.edge x y = (V r).net.edge x y := by
  have h3 := h.mid3 (hid := hid) ok hk
  have hmk : ((V.mid3 d n r k m s hid drop l M k).loc m).isSome = true := by rw [mid3_loc ok.ne, if_pos rfl, if_pos rfl]; rfl
  have e2 := ok.edge2 (hid := hid) h hself hm
  have h3k : (V.mid3 d n r k m s hid drop l M k).net.edge x y = (V.mid2 d n r k m s hid drop l k).net.edge x y := by rw [mid3_i ok.ne]
  by_cases hc : x = m ∧ ((V r).loc y).isSome = true ∨ y = m ∧ ((V r).loc x).isSome = true
  · by_cases hxy : x = m ∧ y = m
    · obtain ⟨rfl, rfl⟩ := hxy
      exact ((h3.synch_local (ok.legal3 h hk) ok.hk hmk hmk).trans (h3k.trans (e2.2 hc))).trans hself.symm
    · have hp : Peer (V.mid3 d n r k m s hid drop l M) k r x y := by
        rcases hc with ⟨q1, q2⟩ | ⟨q1, q2⟩
        · refine .inl ⟨by rw [q1]; exact hmk, ?_⟩
          rw [mid3_loc ok.ne, if_neg (fun c => hxy ⟨q1, c⟩)]; exact q2
        · refine .inr ⟨by rw [q1]; exact hmk, ?_⟩
          rw [mid3_loc ok.ne, if_neg (fun c => hxy ⟨c, q1⟩)]; exact q2
      have hsy := h3.synch_edge (ok.legal3 h hk) ok.hk ok.hr ok.ne hp
      by_cases hd : (V.mid3 d n r k m s hid drop l M r).net.Dirty d x y
      · exact (hsy.2.1 hd).trans ((ok.edge3 h hk x y).2.1 hc)
      · refine (hsy.2.2.2 (fun hd => ok.ne (ok.dirty3 h hk ok.hk hd).1) hd ?_ ?_).trans ?_
        · rintro ⟨p, hp, -⟩; rw [(ok.lists3 ok.hk).2.2.1] at hp; cases hp
        · rintro ⟨p, hp, -⟩; rw [(ok.lists3 ok.hr).2.2.1] at hp; cases hp
        · rw [h3k, e2.2 hc]
          cases hh : (V r).net.edge x y with
          | none => rfl
          | some t =>
            obtain ⟨e, he, hs⟩ := hk.all x y (by rw [hh]; rfl) hc
            refine absurd ⟨(e.1, e.2.1), .inl ?_, hs⟩ hd
            rw [(ok.lists3 ok.hr).1, if_pos rfl]
            exact List.mem_map_of_mem he
  · refine (synch_keep (V := V.mid3 d n r k m s hid drop l M) (fun j hj => (ok.lists3 hj).2.2.1) ok.hk ?_).trans (h3k.trans (e2.1 hc))
    intro i hi hd
    exact hc ((ok.dirty3 h hk hi hd).2.imp (fun q => ⟨q.1, q.2.2⟩) (fun q => ⟨q.1, q.2.2⟩))

theorem MidOk.loc4 (h : SInv NoHid d n V) (ok : MidOk d n V r k m s drop l) {i : Nat} (hi : i < n) (u : Nat) :
    (V.mid4 d n r k m s hid drop l M i).loc u = if u = m then (if i = k then (V r).loc m else none) else (V i).loc u := by
  refine (mid3_loc (d := d) (n := n) (hid := hid) (drop := drop) (l := l) (M := M) ok.ne i u).trans ?_
  by_cases e : u = m
  · rw [if_pos e, if_pos e]
    by_cases e2 : i = k
    · rw [if_pos e2, if_pos e2, ok.loc]
    · rw [if_neg e2, if_neg e2]
      split
      · rfl
      · rename_i e3
        exact h.loc_once ok.hr hi (by rw [ok.loc]; rfl) e3
  · rw [if_neg e, if_neg e]

theorem MidOk.gho2 (h : SInv NoHid d n V) (ok : MidOk d n V r k m s drop l) {i : Nat} (hi : i < n) (hik : i ≠ k) (u : Nat) :
    ((V.mid2 d n r k m s hid drop l i).gho u).isSome = ((V.mid r k m s hid drop l i).gho u).isSome := by
  rw [(ok.out2 h hi hik).2.2, states_isSome]

theorem MidOk.gho4 (h : SInv NoHid d n V) (ok : MidOk d n V r k m s drop l) (hk : Kept d (V r) m hid M) {i : Nat} (hi : i < n) (hik : i ≠ k) (u : Nat) :
    ((V.mid4 d n r k m s hid drop l M i).gho u).isSome = ((V.mid r k m s hid drop l i).gho u).isSome := by
  rw [(ok.out4 h hk hi hik).2.2, states_isSome, ← ok.gho2 h hi hik]
  by_cases e : i = r
  · subst e; rw [mid3_r]
  · rw [mid3_i e]

theorem MidOk.moved (h : SInv NoHid d n V) (ok : MidOk d n V r k m s drop l) (hk : Kept d (V r) m hid M) (hself : (V r).net.edge m m = none) :
    Moved d n V r k m (V.mid4 d n r k m s hid drop l M) := by
  have h4 := h.mid4 (hid := hid) ok hk
  have hlm : ((V r).loc m).isSome = true := by rw [ok.loc]; rfl
  have hls : ∀ i, i < n → _ := fun i hi => synch_lists (d := d) (V := V.mid3 d n r k m s hid drop l M) (fun j hj => (ok.lists3 hj).2.2.1) (k := i) hi
  have hkM : ∀ x y, ((V r).net.edge x y).isSome = true → (x = m ∧ ((V r).loc y).isSome = true ∨ y = m ∧ ((V r).loc x).isSome = true) → M ≠ [] := by
    intro x y h1 h2 hM
    obtain ⟨e, he, -⟩ := hk.all x y h1 h2
    rw [hM] at he; cases he
  exact {
    loc := fun i hi u => ok.loc4 h hi u
    edgeK := fun x y hm => ok.edge4 h hk hself hm
    edgeR := fun x y hm hc => by rw [(ok.out4 h hk ok.hr (Ne.symm ok.ne)).1]; exact (ok.edge3 h hk x y).2.1 hc
    edgeR' := fun x y hm hc => by rw [(ok.out4 h hk ok.hr (Ne.symm ok.ne)).1]; exact (ok.edge3 h hk x y).2.2 hm hc
    edgeI := by
      intro i hi hr hik x y
      rw [(ok.out4 h hk hi hik).1, mid3_i hr, (ok.out2 h hi hik).1, mid_i hr hik]
    rest := by
      intro i hi x y hx hy
      by_cases e : i = r
      · subst e
        rw [(ok.out4 h hk ok.hr (Ne.symm ok.ne)).1]; exact (ok.edge3 h hk x y).1 hx hy
      · refine (synch_keep (V := V.mid3 d n r k m s hid drop l M) (fun j hj => (ok.lists3 hj).2.2.1) hi ?_).trans ?_
        · intro j hj hd
          exact (ok.dirty3 h hk hj hd).2.elim (fun q => hx q.1.symm) (fun q => hy q.1.symm)
        · rw [mid3_i e]; exact ok.rest2 h hi hx hy
    fresh := fun i hi u t j hg => (h.mid3 (hid := hid) ok hk).synch_ghost hi hg
    ghoI := by
      intro i hi hr hik u
      rw [ok.gho4 h hk hi hik, mid_i hr hik]
      show (if u = m then _ else _ : Option (S × Nat)).isSome = _
      split
      · rename_i e; rw [e]; cases (V i).gho m <;> rfl
      · rfl
    ghoK := by
      intro u
      have hV1 : ((V.mid r k m s hid drop l k).gho u).isSome = ((V k).gho u).isSome := by rw [mid_k ok.ne]
      constructor
      · intro hg
        rcases (synch_gho (V := V.mid3 d n r k m s hid drop l M) (fun j hj => (ok.lists3 hj).2.2.1) ok.hk u).1 hg with hg | ⟨i, hi, p, hp, hf, hn, -, hl⟩
        · rw [mid3_i ok.ne] at hg
          rcases (synch_gho (V := V.mid r k m s hid drop l) (fun j hj => (ok.lists hj).2.1) ok.hk u).1 hg with hg | ⟨i, hi, p, hp, hf, hn, -, hl⟩
          · rw [hV1] at hg; exact .inl hg
          · obtain ⟨i1, i2, i3, i4, i5⟩ := ok.sent (hid := hid) h hi hp
            have hml : (V i).loc m = none := h.loc_once ok.hr hi hlm i1
            have hum : u ≠ m := by
              rintro rfl
              rw [mid_loc ok.ne, if_pos rfl, if_neg i2, if_neg i1, hml] at hl; cases hl
            rw [mid_loc ok.ne, if_neg hum] at hl
            refine .inr ⟨hum, h.loc_once hi ok.hk hl (Ne.symm i2), ?_⟩
            have hw := ((h.one i hi).wrote p (.inr (ok.new i hi i1 i2 p i3).1)).1
            have hpu : p = (m, u) ∨ p = (u, m) := by
              have : p.1 = u ∨ p.2 = u := by
                unfold RV.near at hn
                split at hn
                · exact .inl hn
                · exact .inr hn
              rcases this with q | q <;> rcases i4 with q2 | q2
              · exact absurd (q.symm.trans q2.symm) hum
              · exact .inr (Prod.ext q q2.symm)
              · exact .inl (Prod.ext q2.symm q)
              · exact absurd (q.symm.trans q2.symm) hum
            rcases hpu with rfl | rfl
            · exact .inl (by rw [ok.agree h ok.hr hi (.inl ⟨hlm, hl⟩)]; exact hw)
            · exact .inr (by rw [ok.agree h ok.hr hi (.inr ⟨hlm, hl⟩)]; exact hw)
        · obtain ⟨rfl, ⟨e, he, rfl⟩, -⟩ := ok.sent3 (hid := hid) h hk hi hp
          have hum : u ≠ m := by
            rintro rfl
            rw [mid3_loc ok.ne, if_pos rfl, if_neg (Ne.symm ok.ne), if_pos rfl] at hl; cases hl
          rw [mid3_loc ok.ne, if_neg hum] at hl
          refine .inr ⟨hum, h.loc_once hi ok.hk hl ok.ne, ?_⟩
          obtain ⟨q, qe⟩ := hk.kept e he
          have : e.1 = u ∨ e.2.1 = u := by
            unfold RV.near at hn
            split at hn
            · exact .inl hn
            · exact .inr hn
          rcases q with ⟨q1, q2, q3⟩ | ⟨q1, q2, q3, -⟩ <;> rcases this with q5 | q5
          · exact absurd (q5.symm.trans q1) hum
          · rw [q1, q5] at qe; exact .inl (by rw [qe]; rfl)
          · rw [q1, q5] at qe; exact .inr (by rw [qe]; rfl)
          · exact absurd (q5.symm.trans q1) hum
      · rintro (hg | ⟨hum, hl, he⟩)
        · refine (synch_gho (V := V.mid3 d n r k m s hid drop l M) (fun j hj => (ok.lists3 hj).2.2.1) ok.hk u).2 (.inl ?_)
          rw [mid3_i ok.ne]
          refine (synch_gho (V := V.mid r k m s hid drop l) (fun j hj => (ok.lists hj).2.1) ok.hk u).2 (.inl ?_)
          rw [hV1]; exact hg
        · have hh : (V.mid4 d n r k m s hid drop l M k).net.has u = true := by
            rcases he with he | he
            · exact ((h4.one k ok.hk).ends m u (by rw [ok.edge4 h hk hself (.inl rfl)]; exact he)).2.1
            · exact ((h4.one k ok.hk).ends u m (by rw [ok.edge4 h hk hself (.inr rfl)]; exact he)).1
          rw [(h4.one k ok.hk).has, ok.loc4 h ok.hk, if_neg hum, hl] at hh
          simpa using hh
    ghoM := by
      rw [ok.gho4 h hk ok.hr (Ne.symm ok.ne), mid_r]
      show ((if m = m then (if hid = true then some (s, k) else none) else _ : Option (S × Nat))).isSome = true ↔ _
      rw [if_pos rfl]
      constructor
      · intro hh
        have hh : hid = true := by
          cases hc : hid with
          | true => rfl
          | false => rw [hc] at hh; cases hh
        obtain ⟨e, M', hM⟩ := List.exists_cons_of_ne_nil (hk.hidIff.1 hh)
        obtain ⟨q, qe⟩ := hk.kept e (by rw [hM]; simp)
        rcases q with ⟨q1, q2, q3⟩ | ⟨q1, q2, q3, -⟩
        · rw [q1] at qe; exact ⟨e.2.1, q3, .inl (by rw [qe]; rfl)⟩
        · rw [q1] at qe; exact ⟨e.1, q3, .inr (by rw [qe]; rfl)⟩
      · rintro ⟨x, hx, he⟩
        have : M ≠ [] := he.elim (fun he => hkM m x he (.inl ⟨rfl, hx⟩)) (fun he => hkM x m he (.inr ⟨rfl, hx⟩))
        rw [hk.hidIff.2 this]; rfl
    ghoR := by
      intro u hu hg
      rw [ok.gho4 h hk ok.hr (Ne.symm ok.ne), mid_r] at hg
      have hg : ((if u = m then (if hid = true then some (s, k) else none) else if drop u = true then none else (V r).gho u : Option (S × Nat))).isSome = true := hg
      rw [if_neg hu] at hg
      split at hg
      · cases hg
      · exact hg
    ghoR' := by
      intro u hu hg hc
      rw [ok.gho4 h hk ok.hr (Ne.symm ok.ne), mid_r]
      show ((if u = m then (if hid = true then some (s, k) else none) else if drop u = true then none else (V r).gho u : Option (S × Nat))).isSome = true
      rw [if_neg hu, if_neg]
      · exact hg
      · intro hd
        rcases hc with hc | ⟨y, z, h1, h2, h3, h4⟩
        · rw [ok.dropReq u hd] at hc; cases hc
        · exact ((ok.drop u hd).2 y z h1 h2).elim h3 h4
    clean := fun i hi => ⟨(hls i hi).1, (hls i hi).2.1, (hls i hi).2.2.1⟩
    synR := by
      intro p
      show p ∈ (sstep d n (V.mid3 d n r k m s hid drop l M) (.synch true) r).net.syn ↔ _
      rw [(hls r ok.hr).2.2.2.1, mem_foldl_ins, (ok.lists3 ok.hr).2.2.2.1, (ok.lists3 ok.hr).1, if_pos rfl]
      refine or_congr Iff.rfl ⟨?_, ?_⟩
      · intro hp
        obtain ⟨e, he, rfl⟩ := List.mem_map.1 hp
        obtain ⟨q, qe⟩ := hk.kept e he
        refine ⟨by show ((V r).net.edge e.1 e.2.1).isSome = true; rw [qe]; rfl, ?_⟩
        rcases q with q | ⟨q1, q2, q3, q4⟩
        · exact .inl q
        · exact .inr ⟨q4, q1, q2, q3⟩
      · rintro ⟨hp, hc⟩
        obtain ⟨e, he, hs⟩ := hk.all p.1 p.2 hp (hc.imp (fun q => ⟨q.1, q.2.2⟩) (fun q => ⟨q.2.1, q.2.2.2⟩))
        have q := (hk.kept e he).1
        refine List.mem_map.2 ⟨e, he, ?_⟩
        unfold SameN at hs
        rcases hs with ⟨q1, q2⟩ | ⟨hd, q1, q2⟩
        · exact Prod.ext q1 q2
        · rcases q with ⟨q3, q4, -⟩ | ⟨-, -, -, q3⟩
          · rcases hc with ⟨q5, q6, -⟩ | ⟨q5, -⟩
            · exact absurd (q1.symm.trans q3) q6
            · rw [hd] at q5; cases q5
          · rw [hd] at q3; cases q3
    synI := by
      intro i hi hir p
      show p ∈ (sstep d n (V.mid3 d n r k m s hid drop l M) (.synch true) i).net.syn ↔ _
      rw [(hls i hi).2.2.2.1, mem_foldl_ins, (ok.lists3 hi).2.2.2.1, (ok.lists3 hi).1, if_neg hir]
      simp
    req := by
      intro i hi
      show (sstep d n (V.mid3 d n r k m s hid drop l M) (.synch true) i).req = _
      rw [(hls i hi).2.2.2.2, (ok.lists3 hi).2.2.2.2] }

/-! ### What the ranks do -/

theorem MidOk.fresh3 (h : SInv NoHid d n V) (ok : MidOk d n V r k m s drop l) {i : Nat} (hi : i < n) : (V.mid3 d n r k m s hid drop l M).states i = V.mid3 d n r k m s hid drop l M i := by
  have hl : ∀ j, (V.mid3 d n r k m s hid drop l M j).loc = (V.mid r k m s hid drop l j).loc := by
    intro j
    by_cases e : j = r
    · subst e; rw [mid3_r]; rfl
    · rw [mid3_i e]; rfl
  have hg : (V.mid3 d n r k m s hid drop l M i).gho = (V.mid2 d n r k m s hid drop l i).gho := by
    by_cases e : i = r
    · subst e; rw [mid3_r]
    · rw [mid3_i e]
  have : (fun u => ((V.mid3 d n r k m s hid drop l M i).gho u).map fun g => (((V.mid3 d n r k m s hid drop l M g.2).loc u).getD g.1, g.2)) = (V.mid3 d n r k m s hid drop l M i).gho := by
    funext u
    rw [hg]
    cases hh : (V.mid2 d n r k m s hid drop l i).gho u with
    | none => rfl
    | some g =>
      have := (h.mid (hid := hid) ok).synch_ghost hi (s := g.1) (r := g.2) hh
      show some (((V.mid3 d n r k m s hid drop l M g.2).loc u).getD g.1, g.2) = some g
      rw [hl, this]; rfl
  show ({ V.mid3 d n r k m s hid drop l M i with gho := _ } : RV S A) = _
  rw [this]

theorem readd_nil {N : NV A} (h : N.new = []) (m : Nat) : N.readd d m [] = N := by
  unfold NV.readd
  simp only [List.isEmpty_nil, Bool.not_true, Bool.and_false, Bool.or_false, List.map_nil, List.find?_nil]
  rw [← h]

/-- `move_agents` with an agent that can be moved raises nothing, and does what the specification says. -/
theorem move_sim (h : SInv NoHid d n V) {mv : Nat → Prop} (hQ : ∀ i < n, (Q i).mv = mv ∧ (Q i).hid = (fun _ => false) ∧ (Q i).moved = [] ∧ (Q i).noLonger = [])
    {r k m : Nat} (can : CanMove d n V mv r k m) {w : World S A} (hw : Sim d Q n w V) :
    ∃ w' V' Q', moveAgents n (oneMove r k m) w = some w' ∧ Sim d Q' n w' V' ∧ SInv NoHid d n V' ∧ Moved d n V r k m V' ∧
      ∀ i < n, (Q' i).mv = (fun u => mv u ∨ u = m) ∧ (Q' i).hid = (fun _ => false) ∧ (Q' i).moved = [] ∧ (Q' i).noLonger = [] := by
  obtain ⟨w1, s, hid, drop, l, M, e1, s1, ok, hk⟩ := mid_sim h hQ can hw
  have hn : 0 < n := Nat.lt_of_le_of_lt (Nat.zero_le _) can.hr
  have hrem1 : ∀ j < n, (V.mid r k m s hid drop l j).net.rem = [] := fun j hj => (ok.lists hj).2.1
  -- the first `synchronize`
  obtain ⟨w2, e2, s2⟩ := synch_sim (Q := midPend Q mv r m hid M) (h.mid ok) (by
      intro i hi
      unfold midPend
      by_cases e : i = r
      · rw [if_pos e]; funext u
        show _ = (decide (i = r) && decide (u = m) && hid)
        rw [decide_eq_true e]; rfl
      · rw [if_neg e, midHid_other e]) (ok.hidden h) hn (mv := fun u => mv u ∨ u = m) (by
      intro i hi
      unfold midPend
      split <;> rfl) (ok.legal h) (by
      intro i hi p hp
      rw [hrem1 i hi] at hp; cases hp) s1
  -- the former rank adds the edges again
  let Q2 : Nat → Pend A := after (S := S) (midPend Q mv r m hid M) (.synch true)
  have hQr : Q2 r = ⟨fun u => mv u ∨ u = m, fun u => decide (u = m) && hid, M, [], []⟩ := by
    show ({ midPend Q mv r m hid M r with toRef := [] } : Pend A) = _
    unfold midPend; rw [if_pos rfl]
  have hQi : ∀ i, i ≠ r → Q2 i = ⟨fun u => mv u ∨ u = m, fun _ => false, [], [], []⟩ := by
    intro i hi
    show ({ midPend Q mv r m hid M i with toRef := [] } : Pend A) = _
    unfold midPend; rw [if_neg hi]
  obtain ⟨w3, e3, s3⟩ := each_some (f := fun i => (w2 i).readdEdges 0) (w := w2)
    (P := fun i c => COk d ⟨fun u => mv u ∨ u = m, fun _ => false, [], [], c.net.toRef⟩ c ∧ c.v = V.mid3 d n r k m s hid drop l M i) (by
    intro i hi
    obtain ⟨c2, v2⟩ := s2 i hi
    have hnew : (w2 i).v.net.new = [] := by rw [v2]; exact (ok.lists2 hi).1
    have hrem : (w2 i).v.net.rem = [] := by rw [v2]; exact (ok.lists2 hi).2.2.1
    by_cases e : i = r
    · subst e
      have c2 : COk d (Q2 i) (w2 i) := c2
      rw [hQr] at c2
      obtain ⟨c', t, a1, a2, a3⟩ := c2.readd (m := m) (by
          show (decide (m = m) && hid) = true ↔ M ≠ []
          rw [← hk.hidIff]; simp) (.inr rfl) hnew hrem (by
          intro e he
          have hloc : ∀ x, x ≠ m → (w2 i).v.loc x = (V i).loc x := by
            intro x hx
            rw [v2]
            show (V.mid2 d n i k m s hid drop l i).loc x = _
            rw [mid2_loc ok.ne, if_neg hx]
          rcases (hk.kept e he).1 with ⟨q1, q2, q3⟩ | ⟨q1, q2, q3, -⟩
          · exact .inl ⟨q1, q2, by rw [hloc _ q2]; exact q3⟩
          · exact .inr ⟨q1, q2, by rw [hloc _ q2]; exact q3⟩) hk.once
      refine ⟨c', a1, ?_, ?_⟩
      · have ht : c'.net.toRef = t := a2.net.toRef
        rw [ht]
        have hh : (fun x => (decide (x = m) && hid) && !decide (x = m)) = fun _ => false := by
          funext x
          by_cases e : x = m <;> simp [e]
        have a2 : COk d ⟨fun u => mv u ∨ u = m, fun x => (decide (x = m) && hid) && !decide (x = m), [], [], t⟩ c' := a2
        rw [hh] at a2
        exact a2
      · rw [a3, mid3_r, v2]
        rfl
    · have c2 : COk d (Q2 i) (w2 i) := c2
      rw [hQi i e] at c2
      obtain ⟨c', t, a1, a2, a3⟩ := c2.readd (m := m) (by simp) (.inr rfl) hnew hrem (by intro e he; cases he) (by exact List.Pairwise.nil)
      refine ⟨c', a1, ?_, ?_⟩
      · have ht : c'.net.toRef = t := a2.net.toRef
        rw [ht]
        exact a2
      · rw [a3, mid3_i e]
        show ({ (w2 i).v with net := (w2 i).v.net.readd d m [] } : RV S A) = _
        rw [readd_nil hnew]
        exact v2)
  -- and they are copied
  have h3 := h.mid3 (hid := hid) ok hk
  let Q3 : Nat → Pend A := fun i => ⟨fun u => mv u ∨ u = m, fun _ => false, [], [], (w3 i).net.toRef⟩
  have hl3 := ok.legal3 h hk rfl
  have hrem3 : ∀ i < n, ∀ p, p ∉ ((V.mid3 d n r k m s hid drop l M).states i).net.rem := by
    intro i hi p hp
    have hp : p ∈ (V.mid3 d n r k m s hid drop l M i).net.rem := hp
    rw [(ok.lists3 hi).2.2.1] at hp; cases hp
  obtain ⟨w4, e4, s4⟩ := synchNet_sim (Q := Q3) (V := (V.mid3 d n r k m s hid drop l M).states) h3.states (fun _ _ => rfl) (fun _ _ _ _ => rfl)
    (fun i hi p hp => absurd hp (hrem3 i hi p)) (fun i hi p hp => absurd hp (hrem3 i hi p)) (fun i hi p hp => absurd hp (hrem3 i hi p)) hl3.1
    (w := w3) (fun i hi => ⟨(s3 i hi).2.1, (s3 i hi).2.2.trans (ok.fresh3 h hi).symm⟩)
  refine ⟨w4, V.mid4 d n r k m s hid drop l M, Q3, ?_, s4, h.mid4 ok hk, ok.moved h hk can.self, fun _ _ => ⟨rfl, rfl, rfl, rfl⟩⟩
  have e5 : eachPid (postMoved n) w2 = some w4 := by
    rw [eachPid_one (sim_count s2 hn)]
    unfold postMoved
    rw [e3, Option.bind_some]
    exact e4
  rw [e1]
  unfold synchronize at e2
  rw [if_pos rfl] at e2
  rw [← e5, ← Option.bind_some (a := w2) (f := fun w => eachPid (postMoved n) w), ← e2]
  simp only [Option.bind_assoc]

end
end Repast.Network
