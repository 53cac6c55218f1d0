import Verif.Network.NetSpec

/-! The invariant of the specification for C43 is preserved by the operations of one rank. -/
namespace Repast.Network
open Repast.Dict Repast.Context

variable {S A : Type} {H : Hid} {d : Bool} {n : Nat} {V : Sp S A}

/-- An agent that is nowhere has no edges. -/
theorem SInv.absent (h : SInv H d n V) {u : Nat} (hu : ∀ k < n, (V k).loc u = none) {k : Nat} (hk : k < n) : (V k).gho u = none ∧ (V k).net.has u = false := by
  have hg : (V k).gho u = none := by
    cases hh : (V k).gho u with
    | none => rfl
    | some g =>
      obtain ⟨h1, -, h3⟩ := h.gho k hk u g.1 g.2 hh
      rw [hu g.2 h1] at h3; cases h3
  exact ⟨hg, by rw [(h.one k hk).has, hu k hk, hg]; rfl⟩

theorem RInv.edge_none {V : RV S A} {Hr : Nat → Bool} (h : RInv Hr d V) {u : Nat} (hu : V.net.has u = false) (v : Nat) : V.net.edge u v = none ∧ V.net.edge v u = none := by
  constructor
  · cases hh : V.net.edge u v with
    | none => rfl
    | some a => have := (h.ends u v (by rw [hh]; rfl)).1; rw [hu] at this; cases this
  · cases hh : V.net.edge v u with
    | none => rfl
    | some a => have := (h.ends v u (by rw [hh]; rfl)).2.1; rw [hu] at this; cases this

/-- The pairs that a rank has noted. -/
theorem RInv.noted {V : RV S A} {Hr : Nat → Bool} (h : RInv Hr d V) {p : Nat × Nat} (hp : p ∈ V.net.new ∨ p ∈ V.net.syn ∨ p ∈ V.net.upd ∨ p ∈ V.net.rem) :
    V.net.has p.1 = true ∧ V.net.has p.2 = true ∧ V.cross p.1 p.2 = true := by
  have key : p ∈ V.net.new ∨ p ∈ V.net.syn → V.net.has p.1 = true ∧ V.net.has p.2 = true ∧ V.cross p.1 p.2 = true := by
    intro hh
    have := h.wrote p hh
    have h2 := h.ends _ _ this.1
    exact ⟨h2.1, h2.2.1, this.2⟩
  rcases hp with hp | hp | hp | hp
  · exact key (.inl hp)
  · exact key (.inr hp)
  · exact key (h.upd p hp)
  · exact (h.rem p hp).2

theorem SInv.add (h : SInv NoHid d n V) {r u : Nat} (hr : r < n) (hu : ∀ k < n, (V k).loc u = none) (s : S) : SInv NoHid d n (sstep d n V (.add r u s)) := by
  have hab := fun k hk => h.absent hu (k := k) hk
  let V' := sstep d n V (.add r u s)
  have hV : ∀ k, V' k = if k = r then { V r with
      loc := fun x => if x = u then some s else (V r).loc x
      net := { (V r).net with has := fun x => (V r).net.has x || decide (x = u) } } else V k := fun _ => rfl
  have hloc : ∀ k x, (V' k).loc x = if k = r ∧ x = u then some s else (V k).loc x := by
    intro k x; rw [hV]
    by_cases e : k = r
    · subst e; simp
    · simp [e]
  have hgho : ∀ k, (V' k).gho = (V k).gho := by intro k; rw [hV]; split <;> simp_all
  have htag : ∀ k, (V' k).tag = (V k).tag := by intro k; rw [hV]; split <;> simp_all
  have hhas : ∀ k x, (V' k).net.has x = ((V k).net.has x || decide (k = r ∧ x = u)) := by
    intro k x; rw [hV]
    by_cases e : k = r
    · subst e; simp
    · simp [e]
  have hedge : ∀ k, (V' k).net.edge = (V k).net.edge := by intro k; rw [hV]; split <;> simp_all
  have hnew : ∀ k, (V' k).net.new = (V k).net.new := by intro k; rw [hV]; split <;> simp_all
  have hupd : ∀ k, (V' k).net.upd = (V k).net.upd := by intro k; rw [hV]; split <;> simp_all
  have hrem : ∀ k, (V' k).net.rem = (V k).net.rem := by intro k; rw [hV]; split <;> simp_all
  have hsyn : ∀ k, (V' k).net.syn = (V k).net.syn := by intro k; rw [hV]; split <;> simp_all
  have hD : ∀ k x y, (V' k).net.Dirty d x y ↔ (V k).net.Dirty d x y := by intro k x y; unfold NV.Dirty; rw [hnew, hupd]
  have hG : ∀ k x y, (V' k).net.Gone d x y ↔ (V k).net.Gone d x y := by intro k x y; unfold NV.Gone; rw [hrem]
  have hW : ∀ k x y, (V' k).net.Wrote d x y ↔ (V k).net.Wrote d x y := by intro k x y; unfold NV.Wrote; rw [hnew, hsyn]
  have hnu : ∀ k < n, ∀ x, (V k).net.has x = true → x ≠ u := by
    rintro k hk x hx rfl; rw [(hab k hk).2] at hx; cases hx
  have hcross : ∀ k < n, ∀ x y, (V k).net.has x = true → (V k).net.has y = true → (V' k).cross x y = (V k).cross x y := by
    intro k hk x y hx hy
    unfold RV.cross
    rw [hloc, hloc, if_neg (fun e => hnu k hk x hx e.2), if_neg (fun e => hnu k hk y hy e.2)]
  have hpeer : ∀ r' k, ∀ x y, x ≠ u → y ≠ u → Peer V' r' k x y → Peer V r' k x y := by
    intro r' k x y hx hy hp
    unfold Peer at *
    simpa [hloc, hx, hy] using hp
  show SInv NoHid d n V'
  exact {
    rank := by intro k hk; rw [hV]; split
               · rename_i e; rw [e]; exact h.rank r hr
               · exact h.rank k hk
    own := by
      intro k hk j hj x h1 h2
      rw [hloc] at h1 h2
      by_cases e : x = u
      · subst e
        rw [hu k hk] at h1; rw [hu j hj] at h2
        simp only [and_true] at h1 h2
        split at h1
        · split at h2
          · omega
          · cases h2
        · cases h1
      · simp only [e, and_false, if_false] at h1 h2
        exact h.own k hk j hj x h1 h2
    gho := by
      intro k hk x t j hx
      rw [hgho] at hx
      have := h.gho k hk x t j hx
      refine ⟨this.1, this.2.1, ?_⟩
      rw [hloc]; split
      · rfl
      · exact this.2.2
    tag := by
      intro k hk x j
      rw [htag, h.tag k hk, hgho, hloc]
      split
      · rename_i e
        rw [e.2, hu k hk]
        constructor
        · rintro ⟨-, hh, -⟩; cases hh
        · rintro ⟨hj, -, hh⟩; rw [(hab j hj).1] at hh; cases hh
      · rfl
    one := by
      intro k hk
      have h1 := h.one k hk
      exact {
        has := by
          intro x
          rw [hhas, hgho, hloc, h1.has]
          split
          · rename_i e
            obtain ⟨rfl, rfl⟩ := e
            have : NoHid k x = false := by
              cases hh : NoHid k x with
              | false => rfl
              | true => have := h1.hid x hh; rw [(hab k hk).1] at this; cases this
            simp [this]
          · rename_i e; simp [e]
        hid := by intro x hx; rw [hgho]; exact h1.hid x hx
        apart := by
          intro x hx
          rw [hgho]
          rw [hloc] at hx
          split at hx
          · rename_i e; rw [e.2]; exact (hab k hk).1
          · exact h1.apart x hx
        sym := by intro hd x y; rw [hedge]; exact h1.sym hd x y
        ends := by
          intro x y he
          rw [hedge] at he
          obtain ⟨a, b, c⟩ := h1.ends x y he
          refine ⟨by rw [hhas, a]; rfl, by rw [hhas, b]; rfl, ?_⟩
          rw [hloc, hloc, if_neg (fun e => hnu k hk x a e.2), if_neg (fun e => hnu k hk y b e.2)]
          exact c
        ok := by intro x y a; rw [hedge]; exact h1.ok x y a
        wrote := by
          intro p hp
          rw [hnew, hsyn] at hp
          have := h1.wrote p hp
          have h3 := h1.noted (hp.imp id .inl)
          rw [hedge, hcross k hk _ _ h3.1 h3.2.1]; exact this
        upd := by intro p hp; rw [hupd] at hp; rw [hnew, hsyn]; exact h1.upd p hp
        rem := by
          intro p hp
          rw [hrem] at hp
          obtain ⟨a, b, c, e⟩ := h1.rem p hp
          rw [hedge, hhas, hhas, hcross k hk _ _ b c]
          exact ⟨a, by rw [b]; rfl, by rw [c]; rfl, e⟩
        once := by rw [hrem]; exact h1.once }
    two := by
      intro k hk j hj hne
      have h2 := h.two k hk j hj hne
      exact {
        agree := by
          intro x y hp
          rw [hD, hD, hG, hG, hedge, hedge]
          by_cases e : x = u
          · rw [e, ((h.one k hk).edge_none (hab k hk).2 y).1, ((h.one j hj).edge_none (hab j hj).2 y).1]; intros; rfl
          · by_cases e' : y = u
            · rw [e', ((h.one k hk).edge_none (hab k hk).2 x).2, ((h.one j hj).edge_none (hab j hj).2 x).2]; intros; rfl
            · exact h2.agree x y (hpeer k j x y e e' hp)
        before := by
          intro x y hp
          rw [hD, hD, hedge, hedge]
          by_cases e : x = u
          · rw [e, ((h.one k hk).edge_none (hab k hk).2 y).1]; intro _ _ a b _ hb; cases hb
          · by_cases e' : y = u
            · rw [e', ((h.one k hk).edge_none (hab k hk).2 x).2]; intro _ _ a b _ hb; cases hb
            · exact h2.before x y (hpeer k j x y e e' hp)
        syn := by
          intro p hp hpe
          rw [hsyn] at hp
          have h3 := (h.one k hk).noted (.inr (.inl hp))
          rw [hedge]
          exact .inl (h2.syn0 p hp (hpeer k j _ _ (hnu k hk _ h3.1) (hnu k hk _ h3.2.1) hpe))
        rem := by
          intro p hp hpe
          rw [hrem] at hp
          have h3 := (h.one k hk).noted (.inr (.inr (.inr hp)))
          rw [hedge, hW]
          exact h2.rem p hp (hpeer k j _ _ (hnu k hk _ h3.1) (hnu k hk _ h3.2.1) hpe) }
    orient := by
      intro hd k hk j hj p
      rw [hnew, hnew, hsyn, hsyn]
      exact h.orient hd k hk j hj p }

theorem SInv.congr (h : SInv H d n V) {V' : Sp S A} (hrank : ∀ k < n, (V' k).rank = k) (hloc : ∀ k < n, ∀ x, ((V' k).loc x).isSome = ((V k).loc x).isSome)
    (hgho : ∀ k < n, ∀ x, ((V' k).gho x).map (·.2) = ((V k).gho x).map (·.2)) (htag : ∀ k < n, (V' k).tag = (V k).tag) (hnet : ∀ k < n, (V' k).net = (V k).net) : SInv H d n V' := by
  have hghs : ∀ k < n, ∀ x, ((V' k).gho x).isSome = ((V k).gho x).isSome := by
    intro k hk x
    have := congrArg Option.isSome (hgho k hk x)
    simpa using this
  have hcross : ∀ k < n, ∀ x y, (V' k).cross x y = (V k).cross x y := by intro k hk x y; unfold RV.cross; rw [hloc k hk, hloc k hk]
  have hpeer : ∀ k < n, ∀ j < n, ∀ x y, Peer V' k j x y → Peer V k j x y := by
    intro k hk j hj x y hp
    unfold Peer at *
    rw [hloc k hk, hloc j hj, hloc k hk, hloc j hj] at hp; exact hp
  exact {
    rank := hrank
    own := by intro k hk j hj x; rw [hloc k hk, hloc j hj]; exact h.own k hk j hj x
    gho := by
      intro k hk x s j hx
      have e := hgho k hk x
      rw [hx] at e
      obtain ⟨⟨s', j'⟩, h1, h2⟩ := Option.map_eq_some_iff.1 e.symm
      simp only at h2
      subst h2
      have := h.gho k hk x s' j' h1
      exact ⟨this.1, this.2.1, by rw [hloc j' this.1]; exact this.2.2⟩
    tag := by
      intro k hk x j
      rw [htag k hk, h.tag k hk, hloc k hk]
      constructor
      · rintro ⟨a, b, c⟩; exact ⟨a, b, by rw [hghs j a]; exact c⟩
      · rintro ⟨a, b, c⟩; exact ⟨a, b, by rw [← hghs j a]; exact c⟩
    one := by
      intro k hk
      have h1 := h.one k hk
      exact {
        has := by intro x; rw [hnet k hk, h1.has, hloc k hk, hghs k hk]
        hid := by intro x hx; rw [hghs k hk]; exact h1.hid x hx
        apart := by
          intro x hx
          rw [hloc k hk] at hx
          have := hghs k hk x
          rw [h1.apart x hx] at this
          simpa using this
        sym := by intro hd x y; rw [hnet k hk]; exact h1.sym hd x y
        ends := by intro x y; rw [hnet k hk, hloc k hk, hloc k hk]; exact h1.ends x y
        ok := by intro x y a; rw [hnet k hk]; exact h1.ok x y a
        wrote := by intro p; rw [hnet k hk, hcross k hk]; exact h1.wrote p
        upd := by intro p; rw [hnet k hk]; exact h1.upd p
        rem := by intro p; rw [hnet k hk, hcross k hk]; exact h1.rem p
        once := by rw [hnet k hk]; exact h1.once }
    two := by
      intro k hk j hj hne
      have h2 := h.two k hk j hj hne
      exact {
        agree := by intro x y hp; rw [hnet k hk, hnet j hj]; exact h2.agree x y (hpeer k hk j hj x y hp)
        before := by intro x y hp; rw [hnet k hk, hnet j hj]; exact h2.before x y (hpeer k hk j hj x y hp)
        syn := by intro p; rw [hnet k hk, hnet j hj]; exact fun a b => h2.syn p a (hpeer k hk j hj _ _ b)
        rem := by intro p; rw [hnet k hk, hnet j hj]; exact fun a b => h2.rem p a (hpeer k hk j hj _ _ b) }
    orient := by intro hd k hk j hj p; rw [hnet k hk, hnet j hj]; exact h.orient hd k hk j hj p }

theorem SInv.setState (h : SInv H d n V) {r u : Nat} (hr : r < n) (hu : ((V r).loc u).isSome = true) (s : S) : SInv H d n (sstep d n V (.setState r u s)) := by
  have hV : ∀ k, sstep d n V (.setState r u s) k = if k = r then { V r with loc := fun x => if x = u then some s else (V r).loc x } else V k := fun _ => rfl
  refine h.congr ?_ ?_ ?_ ?_ ?_
  · intro k hk; rw [hV]; split
    · rename_i e; rw [e]; exact h.rank r hr
    · exact h.rank k hk
  · intro k hk x; rw [hV]; split
    · rename_i e; rw [e]; simp only []; split
      · rename_i e'; rw [e', hu]; rfl
      · rfl
    · rfl
  · intro k hk x; rw [hV]; split
    · rename_i e; rw [e]
    · rfl
  · intro k hk; rw [hV]; split
    · rename_i e; rw [e]
    · rfl
  · intro k hk; rw [hV]; split
    · rename_i e; rw [e]
    · rfl

theorem SInv.states (h : SInv H d n V) : SInv H d n V.states := by
  refine h.congr h.rank (fun _ _ _ => rfl) ?_ (fun _ _ => rfl) (fun _ _ => rfl)
  intro k hk x
  show (((V k).gho x).map _).map _ = _
  cases (V k).gho x <;> rfl

/-! ### Edges -/

theorem Peer.cross (h : SInv H d n V) {r k u v : Nat} (hr : r < n) (hk : k < n) (hne : r ≠ k) (hp : Peer V r k u v) : (V r).cross u v = true := by
  have key : ∀ x, ((V k).loc x).isSome = true → ((V r).loc x).isSome = false := by
    intro x hx
    cases hh : ((V r).loc x).isSome with
    | false => rfl
    | true => exact absurd (h.own r hr k hk x hh hx) hne
  unfold RV.cross
  rcases hp with ⟨h1, h2⟩ | ⟨h1, h2⟩
  · rw [h1, key v h2]; rfl
  · rw [h1, key u h2]; rfl

theorem cross_same {V : RV S A} {u v x y : Nat} (hs : SameN d u v x y) : V.cross u v = V.cross x y := by
  unfold RV.cross
  rcases hs with ⟨rfl, rfl⟩ | ⟨-, rfl, rfl⟩
  · rfl
  · cases (V.loc u).isSome <;> cases (V.loc v).isSome <;> rfl

theorem peer_setNet {V : Sp S A} {r : Nat} {N : NV A} {i j x y : Nat} : Peer (V.setNet r N) i j x y ↔ Peer V i j x y := by
  have hloc : ∀ k, (V.setNet r N k).loc = (V k).loc := by intro k; unfold Sp.setNet Sp.set; split <;> simp_all
  unfold Peer; rw [hloc, hloc]

theorem setNet_self {V : Sp S A} {r : Nat} {N : NV A} : (V.setNet r N r).net = N := by unfold Sp.setNet Sp.set; rw [if_pos rfl]
theorem setNet_other {V : Sp S A} {r k : Nat} {N : NV A} (h : k ≠ r) : V.setNet r N k = V k := by unfold Sp.setNet Sp.set; rw [if_neg h]

theorem Before.of_eq {a b : Option (Attr A)} (h : b = a) : Before b a := by
  intro x y hx hy; rw [h] at hx; rw [hx] at hy; simp only [Option.some.injEq] at hy; rw [hy]; exact List.prefix_refl _

theorem Before.merge {a b : Option (Attr A)} (h : Before b a) (hn : a = none → b = none) (c : Attr A) : Before b (some (merge (a.getD []) c)) := by
  intro x y hx hy
  simp only [Option.some.injEq] at hy
  cases ha : a with
  | none => rw [hn ha] at hx; cases hx
  | some z =>
    rw [ha] at hy
    rw [← hy]
    exact (h x z hx ha).trans (merge_prefix _ _)

/-- Neither rank has changed the edge, or only this one has. -/
theorem SInv.clean (h : SInv H d n V) {r k u v : Nat} (hr : r < n) (hk : k < n) (hne : k ≠ r) (hp : Peer V r k u v) (hkd : ¬ (V k).net.Dirty d u v)
    (hg : ¬ (V r).net.Gone d u v) (hg' : ¬ (V k).net.Gone d u v) : Before ((V k).net.edge u v) ((V r).net.edge u v) ∧ ((V r).net.edge u v = none → (V k).net.edge u v = none) := by
  have h2 := h.two r hr k hk (Ne.symm hne)
  by_cases hd : (V r).net.Dirty d u v
  · refine ⟨h2.before u v hp hd hkd, ?_⟩
    intro hnone
    obtain ⟨p, hp', hs⟩ := hd
    have h1 := h.one r hr
    have := (h1.wrote p (hp'.elim .inl (h1.upd p))).1
    rcases hs with ⟨e1, e2⟩ | ⟨hd', e1, e2⟩
    · rw [e1, e2, hnone] at this; cases this
    · rw [e1, e2, h1.sym hd', hnone] at this; cases this
  · have := h2.agree u v hp hd hkd hg hg'
    exact ⟨Before.of_eq this.symm, fun e => by rw [← this, e]⟩

theorem RInv.edge_same {V : RV S A} {Hr : Nat → Bool} (h : RInv Hr d V) {u v x y : Nat} (hs : SameN d u v x y) : V.net.edge u v = V.net.edge x y := by
  rcases hs with ⟨rfl, rfl⟩ | ⟨hd, rfl, rfl⟩
  · rfl
  · exact h.sym hd _ _

theorem SInv.addEdge (h : SInv NoHid d n V) {r u v : Nat} (hr : r < n) (a : Attr A) (hu : (V r).net.has u = true) (hv : (V r).net.has v = true)
    (hl : ((V r).loc u).isSome = true ∨ ((V r).loc v).isSome = true) (hgone : ∀ k < n, ¬ (V k).net.Gone d u v)
    (hor : d = false → u ≠ v → ∀ k < n, (v, u) ∉ (V k).net.new ∧ (v, u) ∉ (V k).net.syn) : SInv NoHid d n (sstep d n V (.addEdge r 0 u v a)) := by
  have h1 := h.one r hr
  show SInv NoHid d n (V.setNet r ((V r).net.addEdge d ((V r).cross u v) u v a))
  have hmem : ∀ p, p ∈ ((V r).net.addEdge d ((V r).cross u v) u v a).new ↔ p ∈ (V r).net.new ∨ (V r).cross u v = true ∧ p = (u, v) := by
    intro p
    show p ∈ (if (V r).cross u v = true then ins (V r).net.new (u, v) else (V r).net.new) ↔ _
    split
    · rename_i hc; rw [mem_ins]; simp [hc]
    · rename_i hc; simp [hc]
  have hedge : ∀ x y, ((V r).net.addEdge d ((V r).cross u v) u v a).edge x y = if SameN d u v x y then some (merge (((V r).net.edge x y).getD []) a) else (V r).net.edge x y := fun _ _ => rfl
  have hsome : ∀ x y, ((V r).net.edge x y).isSome = true → (((V r).net.addEdge d ((V r).cross u v) u v a).edge x y).isSome = true := by
    intro x y hx; rw [hedge]; split
    · rfl
    · exact hx
  have hne : (V r).cross u v = true → u ≠ v := by
    rintro hc rfl; unfold RV.cross at hc; simp at hc
  have hD : ∀ x y, ((V r).net.addEdge d ((V r).cross u v) u v a).Dirty d x y ↔ (V r).net.Dirty d x y ∨ (V r).cross u v = true ∧ SameN d u v x y := by
    intro x y
    constructor
    · rintro ⟨p, hp, hs⟩
      rw [hmem] at hp
      rcases hp with (hp | ⟨hc, rfl⟩) | hp
      · exact .inl ⟨p, .inl hp, hs⟩
      · exact .inr ⟨hc, hs⟩
      · exact .inl ⟨p, .inr hp, hs⟩
    · rintro (⟨p, hp, hs⟩ | ⟨hc, hs⟩)
      · exact ⟨p, by rw [hmem]; exact hp.imp .inl id, hs⟩
      · exact ⟨(u, v), by rw [hmem]; exact .inl (.inr ⟨hc, rfl⟩), hs⟩
  have hW : ∀ x y, ((V r).net.addEdge d ((V r).cross u v) u v a).Wrote d x y → (V r).net.Wrote d x y ∨ SameN d u v x y := by
    rintro x y ⟨p, hp, hs⟩
    rw [hmem] at hp
    rcases hp with (hp | ⟨hc, rfl⟩) | hp
    · exact .inl ⟨p, .inl hp, hs⟩
    · exact .inr hs
    · exact .inl ⟨p, .inr hp, hs⟩
  refine h.setNet hr ?_ ?_ ?_
  · exact {
      has := h1.has
      hid := h1.hid
      apart := h1.apart
      sym := by
        intro hd x y
        show (NV.addEdge d _ _ u v a).edge x y = (NV.addEdge d _ _ u v a).edge y x
        rw [hedge, hedge, h1.sym hd x y]
        have : SameN d u v x y ↔ SameN d u v y x := by unfold SameN; grind
        simp only [this]
      ends := by
        intro x y hx
        have hx : (if SameN d u v x y then some (merge (((V r).net.edge x y).getD []) a) else (V r).net.edge x y).isSome = true := hx
        split at hx
        · rename_i hs
          rcases hs with ⟨rfl, rfl⟩ | ⟨-, rfl, rfl⟩
          · exact ⟨hu, hv, hl⟩
          · exact ⟨hv, hu, hl.symm⟩
        · exact h1.ends x y hx
      ok := by
        intro x y b hx
        have hx : (if SameN d u v x y then some (merge (((V r).net.edge x y).getD []) a) else (V r).net.edge x y) = some b := hx
        split at hx
        · simp only [Option.some.injEq] at hx
          rw [← hx]
          refine merge_ok a ?_
          cases he : (V r).net.edge x y with
          | none => exact List.nodup_nil
          | some z => exact h1.ok x y z he
        · exact h1.ok x y b hx
      wrote := by
        intro p hp
        have hp : (p ∈ (V r).net.new ∨ (V r).cross u v = true ∧ p = (u, v)) ∨ p ∈ (V r).net.syn := hp.imp (hmem p).1 id
        show (((V r).net.addEdge d ((V r).cross u v) u v a).edge p.1 p.2).isSome = true ∧ (V r).cross p.1 p.2 = true
        rcases hp with (hp | ⟨hc, rfl⟩) | hp
        · have := h1.wrote p (.inl hp); exact ⟨hsome _ _ this.1, this.2⟩
        · exact ⟨by rw [hedge, if_pos (SameN.refl _ _ _)]; rfl, hc⟩
        · have := h1.wrote p (.inr hp); exact ⟨hsome _ _ this.1, this.2⟩
      upd := by
        intro p hp
        exact (h1.upd p hp).imp (fun hh => (hmem p).2 (.inl hh)) id
      rem := by
        intro p hp
        have := h1.rem p hp
        refine ⟨?_, this.2⟩
        show ((V r).net.addEdge d ((V r).cross u v) u v a).edge p.1 p.2 = none
        rw [hedge, if_neg (fun hs => hgone r hr ⟨p, hp, hs.symm⟩)]
        exact this.1
      once := h1.once }
  · intro k hk hkr
    have h2 := h.two r hr k hk (Ne.symm hkr)
    have h3 := h.two k hk r hr hkr
    constructor
    · refine { agree := ?_, before := ?_, syn := ?_, rem := ?_ }
      · intro x y hp
        rw [setNet_self, setNet_other hkr, hD, hedge]
        rw [peer_setNet] at hp
        intro hd hkd hg hg'
        have hns : ¬ SameN d u v x y := by
          intro hs
          exact hd (.inr ⟨by rw [cross_same hs]; exact hp.cross h hr hk (Ne.symm hkr), hs⟩)
        rw [if_neg hns]
        exact h2.agree x y hp (fun c => hd (.inl c)) hkd hg hg'
      · intro x y hp
        rw [setNet_self, setNet_other hkr, hD, hedge]
        rw [peer_setNet] at hp
        intro hd hkd
        by_cases hs : SameN d u v x y
        · rw [if_pos hs]
          have := h.clean hr hk hkr hp hkd (fun c => hgone r hr (c.same hs.symm)) (fun c => hgone k hk (c.same hs.symm))
          exact this.1.merge this.2 a
        · rw [if_neg hs]
          exact h2.before x y hp (hd.resolve_right (fun c => hs c.2)) hkd
      · intro p hp hpe
        rw [setNet_self] at hp
        rw [peer_setNet] at hpe
        rw [setNet_other hkr]
        exact .inl (h2.syn0 p hp hpe)
      · intro p hp hpe
        rw [setNet_self] at hp
        rw [peer_setNet] at hpe
        rw [setNet_other hkr]
        exact h2.rem p hp hpe
    · refine { agree := ?_, before := ?_, syn := ?_, rem := ?_ }
      · intro x y hp
        rw [setNet_self, setNet_other hkr, hD, hedge]
        rw [peer_setNet] at hp
        intro hkd hd hg hg'
        have hns : ¬ SameN d u v x y := by
          intro hs
          exact hd (.inr ⟨by rw [cross_same hs]; exact hp.swap.cross h hr hk (Ne.symm hkr), hs⟩)
        rw [if_neg hns]
        exact h3.agree x y hp hkd (fun c => hd (.inl c)) hg hg'
      · intro x y hp
        rw [setNet_self, setNet_other hkr, hD, hedge]
        rw [peer_setNet] at hp
        intro hkd hd
        have hns : ¬ SameN d u v x y := by
          intro hs
          exact hd (.inr ⟨by rw [cross_same hs]; exact hp.swap.cross h hr hk (Ne.symm hkr), hs⟩)
        rw [if_neg hns]
        exact h3.before x y hp hkd (fun c => hd (.inl c))
      · intro p hp hpe
        rw [setNet_other hkr] at hp
        rw [peer_setNet] at hpe
        rw [setNet_self]
        exact .inl (hsome _ _ (h3.syn0 p hp hpe))
      · intro p hp hpe
        rw [setNet_other hkr] at hp
        rw [peer_setNet] at hpe
        rw [setNet_self]
        have := h3.rem p hp hpe
        refine ⟨hsome _ _ this.1, fun c => ?_⟩
        rcases hW _ _ c with c | c
        · exact this.2 c
        · exact hgone k hk ⟨p, hp, c.symm⟩
  · intro hd p hp
    have hp : (p ∈ (V r).net.new ∨ p ∈ (V r).net.syn) ∨ ((V r).cross u v = true ∧ p = (u, v)) := by
      rw [hmem] at hp
      rcases hp with (hp | hp) | hp
      · exact .inl (.inl hp)
      · exact .inr hp
      · exact .inl (.inr hp)
    have hno : ∀ k < n, (p.2, p.1) ∉ (V k).net.new ∧ (p.2, p.1) ∉ (V k).net.syn := by
      intro k hk
      rcases hp with hp | ⟨hc, rfl⟩
      · exact h.orient hd r hr k hk p hp
      · exact hor hd (hne hc) k hk
    refine ⟨⟨?_, (hno r hr).2⟩, fun k hk _ => hno k hk⟩
    rw [hmem]
    rintro (hh | ⟨hc, hh⟩)
    · exact (hno r hr).1 hh
    · simp only [Prod.mk.injEq] at hh
      rcases hp with hp | ⟨-, hpp⟩
      · have := hor hd (hne hc) r hr
        have e : p = (v, u) := Prod.ext hh.2 hh.1
        rw [e] at hp
        exact hp.elim this.1 this.2
      · rw [hpp] at hh
        simp only at hh
        exact hne hc hh.2

theorem NV.key_wrote {N : NV A} {u v : Nat} (h : N.Wrote d u v) : (N.key u v ∈ N.new ∨ N.key u v ∈ N.syn) ∧ SameN d (N.key u v).1 (N.key u v).2 u v := by
  obtain ⟨p, hp, hs⟩ := h
  unfold NV.key
  split
  · rename_i hh; exact ⟨hh, SameN.refl _ _ _⟩
  · rename_i hh
    rcases hs with ⟨h1, h2⟩ | ⟨hd, h1, h2⟩
    · exact absurd (by rw [← h1, ← h2]; exact hp) hh
    · have e : p = (v, u) := Prod.ext h1 h2
      rw [e] at hp
      exact ⟨hp, .inr ⟨hd, rfl, rfl⟩⟩

theorem RInv.dirty_wrote {V : RV S A} {Hr : Nat → Bool} (h : RInv Hr d V) {u v : Nat} (hd : V.net.Dirty d u v) : V.net.Wrote d u v := by
  obtain ⟨p, hp, hs⟩ := hd
  exact ⟨p, hp.elim .inl (h.upd p), hs⟩

theorem RInv.wrote_edge {V : RV S A} {Hr : Nat → Bool} (h : RInv Hr d V) {u v : Nat} (hd : V.net.Wrote d u v) : (V.net.edge u v).isSome = true := by
  obtain ⟨p, hp, hs⟩ := hd
  rw [← h.edge_same hs]; exact (h.wrote p hp).1

theorem RInv.wrote_cross {V : RV S A} {Hr : Nat → Bool} (h : RInv Hr d V) {u v : Nat} (hd : V.net.Wrote d u v) : V.cross u v = true := by
  obtain ⟨p, hp, hs⟩ := hd
  rw [← cross_same hs]; exact (h.wrote p hp).2

theorem Before.map {a b : Option (Attr A)} (h : Before b a) (c : Attr A) : Before b (a.map (Repast.Network.merge · c)) := by
  intro x y hx hy
  cases ha : a with
  | none => rw [ha] at hy; cases hy
  | some z =>
    rw [ha] at hy
    simp only [Option.map_some, Option.some.injEq] at hy
    rw [← hy]
    exact (h x z hx ha).trans (merge_prefix _ _)

theorem SInv.updateEdge (h : SInv NoHid d n V) {r u v : Nat} (hr : r < n) (a : Attr A) (hw : (V r).cross u v = true → (V r).net.Wrote d u v) :
    SInv NoHid d n (sstep d n V (.updateEdge r 0 u v a)) := by
  have h1 := h.one r hr
  show SInv NoHid d n (V.setNet r ((V r).net.updateEdge d ((V r).cross u v) u v a))
  have hmem : ∀ p, p ∈ ((V r).net.updateEdge d ((V r).cross u v) u v a).upd ↔ p ∈ (V r).net.upd ∨ (V r).cross u v = true ∧ p = (V r).net.key u v := by
    intro p
    show p ∈ (if (V r).cross u v = true then ins (V r).net.upd ((V r).net.key u v) else (V r).net.upd) ↔ _
    split
    · rename_i hc; rw [mem_ins]; simp [hc]
    · rename_i hc; simp [hc]
  have hedge : ∀ x y, ((V r).net.updateEdge d ((V r).cross u v) u v a).edge x y = if SameN d u v x y then ((V r).net.edge x y).map (merge · a) else (V r).net.edge x y := fun _ _ => rfl
  have hsome : ∀ x y, (((V r).net.updateEdge d ((V r).cross u v) u v a).edge x y).isSome = ((V r).net.edge x y).isSome := by
    intro x y; rw [hedge]; split
    · cases (V r).net.edge x y <;> rfl
    · rfl
  have hD : ∀ x y, ((V r).net.updateEdge d ((V r).cross u v) u v a).Dirty d x y ↔ (V r).net.Dirty d x y ∨ (V r).cross u v = true ∧ SameN d u v x y := by
    intro x y
    constructor
    · rintro ⟨p, hp, hs⟩
      rw [hmem] at hp
      rcases hp with hp | hp | ⟨hc, rfl⟩
      · exact .inl ⟨p, .inl hp, hs⟩
      · exact .inl ⟨p, .inr hp, hs⟩
      · exact .inr ⟨hc, (NV.key_wrote (hw hc)).2.symm.trans hs⟩
    · rintro (⟨p, hp, hs⟩ | ⟨hc, hs⟩)
      · exact ⟨p, by rw [hmem]; exact hp.imp id .inl, hs⟩
      · exact ⟨_, by rw [hmem]; exact .inr (.inr ⟨hc, rfl⟩), (NV.key_wrote (hw hc)).2.trans hs⟩
  have hgone : ∀ {k : Nat}, k < n → k ≠ r → ∀ {x y}, Peer V r k x y → SameN d u v x y → ¬ (V r).net.Gone d x y ∧ ¬ (V k).net.Gone d x y := by
    intro k hk hkr x y hp hs
    have hc : (V r).cross u v = true := by rw [cross_same hs]; exact hp.cross h hr hk (Ne.symm hkr)
    have hwr := (hw hc).same hs
    constructor
    · rintro ⟨p, hp, hs'⟩
      have := (h1.rem p hp).1
      rw [h1.edge_same hs'] at this
      have := h1.wrote_edge hwr
      simp_all
    · rintro ⟨p, hp', hs'⟩
      exact ((h.two k hk r hr hkr).rem p hp' (hp.swap.same hs'.symm)).2 (hwr.same hs'.symm)
  refine h.setNet hr ?_ ?_ ?_
  · exact {
      has := h1.has
      hid := h1.hid
      apart := h1.apart
      sym := by
        intro hd x y
        show (NV.updateEdge d _ _ u v a).edge x y = (NV.updateEdge d _ _ u v a).edge y x
        rw [hedge, hedge, h1.sym hd x y]
        have : SameN d u v x y ↔ SameN d u v y x := by unfold SameN; grind
        simp only [this]
      ends := by
        intro x y hx
        exact h1.ends x y ((hsome x y).symm.trans hx)
      ok := by
        intro x y b hx
        have hx : (if SameN d u v x y then ((V r).net.edge x y).map (merge · a) else (V r).net.edge x y) = some b := hx
        split at hx
        · obtain ⟨z, hz, rfl⟩ := Option.map_eq_some_iff.1 hx
          exact merge_ok a (h1.ok x y z hz)
        · exact h1.ok x y b hx
      wrote := by
        intro p hp
        have := h1.wrote p hp
        exact ⟨(hsome _ _).trans this.1, this.2⟩
      upd := by
        intro p hp
        rcases (hmem p).1 hp with hp | ⟨hc, rfl⟩
        · exact h1.upd p hp
        · exact (NV.key_wrote (hw hc)).1
      rem := by
        intro p hp
        have := h1.rem p hp
        refine ⟨?_, this.2⟩
        have e := hsome p.1 p.2
        rw [this.1] at e
        simpa using e
      once := h1.once }
  · intro k hk hkr
    have h2 := h.two r hr k hk (Ne.symm hkr)
    have h3 := h.two k hk r hr hkr
    constructor
    · refine { agree := ?_, before := ?_, syn := ?_, rem := ?_ }
      · intro x y hp
        rw [setNet_self, setNet_other hkr, hD, hedge]
        rw [peer_setNet] at hp
        intro hd hkd hg hg'
        have hns : ¬ SameN d u v x y := by
          intro hs
          exact hd (.inr ⟨by rw [cross_same hs]; exact hp.cross h hr hk (Ne.symm hkr), hs⟩)
        rw [if_neg hns]
        exact h2.agree x y hp (fun c => hd (.inl c)) hkd hg hg'
      · intro x y hp
        rw [setNet_self, setNet_other hkr, hD, hedge]
        rw [peer_setNet] at hp
        intro hd hkd
        by_cases hs : SameN d u v x y
        · rw [if_pos hs]
          have hg := hgone hk hkr hp hs
          exact (h.clean hr hk hkr hp hkd hg.1 hg.2).1.map a
        · rw [if_neg hs]
          exact h2.before x y hp (hd.resolve_right (fun c => hs c.2)) hkd
      · intro p hp hpe
        rw [setNet_self] at hp
        rw [peer_setNet] at hpe
        rw [setNet_other hkr]
        exact .inl (h2.syn0 p hp hpe)
      · intro p hp hpe
        rw [setNet_self] at hp
        rw [peer_setNet] at hpe
        rw [setNet_other hkr]
        exact h2.rem p hp hpe
    · refine { agree := ?_, before := ?_, syn := ?_, rem := ?_ }
      · intro x y hp
        rw [setNet_self, setNet_other hkr, hD, hedge]
        rw [peer_setNet] at hp
        intro hkd hd hg hg'
        have hns : ¬ SameN d u v x y := by
          intro hs
          exact hd (.inr ⟨by rw [cross_same hs]; exact hp.swap.cross h hr hk (Ne.symm hkr), hs⟩)
        rw [if_neg hns]
        exact h3.agree x y hp hkd (fun c => hd (.inl c)) hg hg'
      · intro x y hp
        rw [setNet_self, setNet_other hkr, hD, hedge]
        rw [peer_setNet] at hp
        intro hkd hd
        have hns : ¬ SameN d u v x y := by
          intro hs
          exact hd (.inr ⟨by rw [cross_same hs]; exact hp.swap.cross h hr hk (Ne.symm hkr), hs⟩)
        rw [if_neg hns]
        exact h3.before x y hp hkd (fun c => hd (.inl c))
      · intro p hp hpe
        rw [setNet_other hkr] at hp
        rw [peer_setNet] at hpe
        rw [setNet_self, hsome]
        exact .inl (h3.syn0 p hp hpe)
      · intro p hp hpe
        rw [setNet_other hkr] at hp
        rw [peer_setNet] at hpe
        rw [setNet_self, hsome]
        exact h3.rem p hp hpe
  · intro hd p hp
    exact ⟨h.orient hd r hr r hr p hp, fun k hk _ => h.orient hd r hr k hk p hp⟩

theorem SInv.removeEdge (h : SInv NoHid d n V) {r u v : Nat} (hr : r < n) (he : ((V r).net.edge u v).isSome = true)
    (hw : (V r).cross u v = true → (∃ p ∈ (V r).net.syn, SameN d p.1 p.2 u v) ∧ ∀ k < n, k ≠ r → ¬ (V k).net.Wrote d u v) :
    SInv NoHid d n (sstep d n V (.removeEdge r 0 u v)) := by
  have h1 := h.one r hr
  show SInv NoHid d n (V.setNet r ((V r).net.removeEdge d ((V r).cross u v) u v))
  have hedge : ∀ x y, ((V r).net.removeEdge d ((V r).cross u v) u v).edge x y = if SameN d u v x y then none else (V r).net.edge x y := by
    intro x y; unfold NV.removeEdge; split <;> rfl
  have hhas : ((V r).net.removeEdge d ((V r).cross u v) u v).has = (V r).net.has := by unfold NV.removeEdge; split <;> rfl
  have honly : (V r).cross u v = true → ∀ q, q ∈ (V r).net.new ∨ q ∈ (V r).net.syn → SameN d q.1 q.2 u v → q = (V r).net.key u v := by
    intro hc q hq hs
    obtain ⟨⟨p, hp, hps⟩, -⟩ := hw hc
    obtain ⟨hk, hks⟩ := NV.key_wrote ⟨p, .inr hp, hps⟩
    rcases hs.trans hks.symm with ⟨e1, e2⟩ | ⟨hd, e1, e2⟩
    · exact Prod.ext e1 e2
    · have := h.orient hd r hr r hr _ hk
      have e : q = (((V r).net.key u v).2, ((V r).net.key u v).1) := Prod.ext e1 e2
      rw [← e] at this
      exact (hq.elim this.1 this.2).elim
  have hkeep : ∀ q, (q ∈ ((V r).net.removeEdge d ((V r).cross u v) u v).new → q ∈ (V r).net.new) ∧ (q ∈ ((V r).net.removeEdge d ((V r).cross u v) u v).syn → q ∈ (V r).net.syn) ∧
      (q ∈ ((V r).net.removeEdge d ((V r).cross u v) u v).upd → q ∈ (V r).net.upd) ∧
      (q ∈ ((V r).net.removeEdge d ((V r).cross u v) u v).new ∨ q ∈ ((V r).net.removeEdge d ((V r).cross u v) u v).syn ∨ q ∈ ((V r).net.removeEdge d ((V r).cross u v) u v).upd → ¬ SameN d q.1 q.2 u v) ∧
      (¬ SameN d q.1 q.2 u v → (q ∈ (V r).net.new → q ∈ ((V r).net.removeEdge d ((V r).cross u v) u v).new) ∧ (q ∈ (V r).net.syn → q ∈ ((V r).net.removeEdge d ((V r).cross u v) u v).syn) ∧
        (q ∈ (V r).net.upd → q ∈ ((V r).net.removeEdge d ((V r).cross u v) u v).upd)) := by
    intro q
    unfold NV.removeEdge
    split
    · rename_i hc
      have hks := (NV.key_wrote (N := (V r).net) (d := d) (u := u) (v := v) (by obtain ⟨⟨p, hp, hps⟩, -⟩ := hw hc; exact ⟨p, .inr hp, hps⟩)).2
      simp only [List.mem_filter, decide_eq_true_eq]
      refine ⟨And.left, And.left, And.left, ?_, ?_⟩
      · intro hq hs
        rcases hq with hq | hq | hq
        · exact hq.2 (honly hc q (.inl hq.1) hs)
        · exact hq.2 (honly hc q (.inr hq.1) hs)
        · exact hq.2 (honly hc q (h1.upd q hq.1) hs)
      · intro hs
        have : q ≠ (V r).net.key u v := by rintro rfl; exact hs hks
        exact ⟨fun hh => ⟨hh, this⟩, fun hh => ⟨hh, this⟩, fun hh => ⟨hh, this⟩⟩
    · rename_i hc
      refine ⟨id, id, id, ?_, fun _ => ⟨id, id, id⟩⟩
      intro hq hs
      have : q ∈ (V r).net.new ∨ q ∈ (V r).net.syn := by
        rcases hq with hq | hq | hq
        · exact .inl hq
        · exact .inr hq
        · exact h1.upd q hq
      exact hc (by rw [← cross_same hs]; exact (h1.wrote q this).2)
  have hD : ∀ x y, ((V r).net.removeEdge d ((V r).cross u v) u v).Dirty d x y ↔ (V r).net.Dirty d x y ∧ ¬ SameN d u v x y := by
    intro x y
    constructor
    · rintro ⟨p, hp, hs⟩
      obtain ⟨a, b, c, e, -⟩ := hkeep p
      refine ⟨⟨p, hp.imp a c, hs⟩, fun hs' => e (hp.imp id .inr) (hs.trans hs'.symm)⟩
    · rintro ⟨⟨p, hp, hs⟩, hn⟩
      obtain ⟨-, -, -, -, e⟩ := hkeep p
      have e := e (fun c => hn (c.symm.trans hs))
      exact ⟨p, hp.imp e.1 e.2.2, hs⟩
  have hW : ∀ x y, ((V r).net.removeEdge d ((V r).cross u v) u v).Wrote d x y → (V r).net.Wrote d x y := by
    rintro x y ⟨p, hp, hs⟩
    obtain ⟨a, b, -⟩ := hkeep p
    exact ⟨p, hp.imp a b, hs⟩
  have hrem : ∀ p, p ∈ ((V r).net.removeEdge d ((V r).cross u v) u v).rem ↔ p ∈ (V r).net.rem ∨ (V r).cross u v = true ∧ p = (V r).net.key u v := by
    intro p
    unfold NV.removeEdge
    split
    · rename_i hc; simp [hc]
    · rename_i hc; simp [hc]
  have hkey : (V r).cross u v = true → (V r).net.key u v ∈ (V r).net.syn ∧ SameN d ((V r).net.key u v).1 ((V r).net.key u v).2 u v := by
    intro hc
    obtain ⟨⟨p, hp, hps⟩, -⟩ := hw hc
    have e := honly hc p (.inr hp) hps
    rw [← e]; exact ⟨hp, hps⟩
  have hG : ∀ x y, ((V r).net.removeEdge d ((V r).cross u v) u v).Gone d x y ↔ (V r).net.Gone d x y ∨ (V r).cross u v = true ∧ SameN d u v x y := by
    intro x y
    constructor
    · rintro ⟨p, hp, hs⟩
      rcases (hrem p).1 hp with hp | ⟨hc, rfl⟩
      · exact .inl ⟨p, hp, hs⟩
      · exact .inr ⟨hc, (hkey hc).2.symm.trans hs⟩
    · rintro (⟨p, hp, hs⟩ | ⟨hc, hs⟩)
      · exact ⟨p, (hrem p).2 (.inl hp), hs⟩
      · exact ⟨_, (hrem _).2 (.inr ⟨hc, rfl⟩), (hkey hc).2.trans hs⟩
  refine h.setNet hr ?_ ?_ ?_
  · exact {
      has := by intro x; rw [hhas]; exact h1.has x
      hid := h1.hid
      apart := h1.apart
      sym := by
        intro hd x y
        rw [hedge, hedge, h1.sym hd x y]
        have : SameN d u v x y ↔ SameN d u v y x := by unfold SameN; grind
        simp only [this]
      ends := by
        intro x y hx
        rw [hedge] at hx
        rw [hhas]
        split at hx
        · cases hx
        · exact h1.ends x y hx
      ok := by
        intro x y b hx
        rw [hedge] at hx
        split at hx
        · cases hx
        · exact h1.ok x y b hx
      wrote := by
        intro p hp
        obtain ⟨a, b, -, e, -⟩ := hkeep p
        rw [hedge, if_neg (fun c => e (hp.imp id .inl) c.symm)]
        exact h1.wrote p (hp.imp a b)
      upd := by
        intro p hp
        obtain ⟨a, b, c, e, f⟩ := hkeep p
        have f := f (e (.inr (.inr hp)))
        exact (h1.upd p (c hp)).imp f.1 f.2.1
      rem := by
        intro p hp
        rw [hedge, hhas]
        rcases (hrem p).1 hp with hp | ⟨hc, rfl⟩
        · have := h1.rem p hp
          refine ⟨?_, this.2⟩
          split
          · rfl
          · exact this.1
        · refine ⟨by rw [if_pos (hkey hc).2.symm], ?_⟩
          exact h1.noted (.inr (.inl (hkey hc).1))
      once := by
        unfold NV.removeEdge
        split
        · rename_i hc
          refine List.pairwise_append.2 ⟨h1.once, List.pairwise_singleton _ _, ?_⟩
          intro p hp q hq hs
          rw [List.mem_singleton] at hq
          subst hq
          have := (h1.rem p hp).1
          rw [h1.edge_same (hs.trans (hkey hc).2)] at this
          rw [this] at he; cases he
        · exact h1.once }
  · intro k hk hkr
    have h2 := h.two r hr k hk (Ne.symm hkr)
    have h3 := h.two k hk r hr hkr
    have hcr : ∀ {x y}, Peer V r k x y → SameN d u v x y → (V r).cross u v = true := by
      intro x y hp hs; rw [cross_same hs]; exact hp.cross h hr hk (Ne.symm hkr)
    constructor
    · refine { agree := ?_, before := ?_, syn := ?_, rem := ?_ }
      · intro x y hp
        rw [setNet_self, setNet_other hkr, hD, hG, hedge]
        rw [peer_setNet] at hp
        intro hd hkd hg hg'
        have hns : ¬ SameN d u v x y := fun hs => hg (.inr ⟨hcr hp hs, hs⟩)
        rw [if_neg hns]
        exact h2.agree x y hp (fun c => hd ⟨c, hns⟩) hkd (fun c => hg (.inl c)) hg'
      · intro x y hp
        rw [setNet_self, setNet_other hkr, hD, hedge]
        rw [peer_setNet] at hp
        intro hd hkd
        rw [if_neg hd.2]
        exact h2.before x y hp hd.1 hkd
      · intro p hp hpe
        rw [setNet_self] at hp
        rw [peer_setNet] at hpe
        rw [setNet_other hkr]
        exact .inl (h2.syn0 p ((hkeep p).2.1 hp) hpe)
      · intro p hp hpe
        rw [setNet_self] at hp
        rw [peer_setNet] at hpe
        rw [setNet_other hkr]
        rcases (hrem p).1 hp with hp | ⟨hc, rfl⟩
        · exact h2.rem p hp hpe
        · exact ⟨h2.syn0 _ (hkey hc).1 hpe, fun c => (hw hc).2 k hk hkr (c.same (hkey hc).2)⟩
    · refine { agree := ?_, before := ?_, syn := ?_, rem := ?_ }
      · intro x y hp
        rw [setNet_self, setNet_other hkr, hD, hG, hedge]
        rw [peer_setNet] at hp
        intro hkd hd hg' hg
        have hns : ¬ SameN d u v x y := fun hs => hg (.inr ⟨hcr hp.swap hs, hs⟩)
        rw [if_neg hns]
        exact h3.agree x y hp hkd (fun c => hd ⟨c, hns⟩) hg' (fun c => hg (.inl c))
      · intro x y hp
        rw [setNet_self, setNet_other hkr, hD, hedge]
        rw [peer_setNet] at hp
        intro hkd hd
        have hns : ¬ SameN d u v x y := fun hs => (hw (hcr hp.swap hs)).2 k hk hkr (((h.one k hk).dirty_wrote hkd).same hs.symm)
        rw [if_neg hns]
        exact h3.before x y hp hkd (fun c => hd ⟨c, hns⟩)
      · intro p hp hpe
        rw [setNet_other hkr] at hp
        rw [peer_setNet] at hpe
        rw [setNet_self, hedge, if_neg]
        · exact .inl (h3.syn0 p hp hpe)
        · intro hs
          exact (hw (hcr hpe.swap hs)).2 k hk hkr ⟨p, .inr hp, hs.symm⟩
      · intro p hp hpe
        rw [setNet_other hkr] at hp
        rw [peer_setNet] at hpe
        have := h3.rem p hp hpe
        rw [setNet_self, hedge, if_neg]
        · exact ⟨this.1, fun c => this.2 (hW _ _ c)⟩
        · intro hs
          obtain ⟨⟨q, hq, hqs⟩, -⟩ := hw (hcr hpe.swap hs)
          exact this.2 ⟨q, .inr hq, hqs.trans hs⟩
  · intro hd p hp
    obtain ⟨a, b, -⟩ := hkeep p
    have hp := hp.imp a b
    obtain ⟨a', b', -⟩ := hkeep (p.2, p.1)
    have := h.orient hd r hr r hr p hp
    exact ⟨⟨fun c => this.1 (a' c), fun c => this.2 (b' c)⟩, fun k hk _ => h.orient hd r hr k hk p hp⟩

theorem mem_insAll {α : Type} [DecidableEq α] (ks : List α) : ∀ {l : List α} {x : α}, x ∈ ks.foldl ins l ↔ x ∈ l ∨ x ∈ ks := by
  induction ks with
  | nil => intro l x; simp
  | cons k ks ih =>
    intro l x
    rw [List.foldl_cons, ih, mem_ins, List.mem_cons, or_assoc]

theorem foldl_ins_pairwise {α : Type} [DecidableEq α] {R : α → α → Prop} (ks : List α) : ∀ {l : List α}, l.Pairwise R → (∀ k ∈ ks, ∀ p, p ∈ l ∨ p ∈ ks → p = k ∨ R p k) →
    (ks.foldl ins l).Pairwise R := by
  induction ks with
  | nil => intro l h _; exact h
  | cons k ks ih =>
    intro l h hk
    rw [List.foldl_cons]
    refine ih ?_ ?_
    · unfold ins
      split
      · exact h
      · rename_i hm
        refine List.pairwise_append.2 ⟨h, List.pairwise_singleton _ _, ?_⟩
        intro p hp q hq
        rw [List.mem_singleton] at hq
        subst hq
        rcases hk q (List.mem_cons_self ..) p (.inl hp) with rfl | hR
        · exact (hm hp).elim
        · exact hR
    · intro j hj p hp
      refine hk j (List.mem_cons_of_mem _ hj) p ?_
      rw [mem_ins] at hp
      rcases hp with (hp | rfl) | hp
      · exact .inl hp
      · exact .inr (List.mem_cons_self ..)
      · exact .inr (List.mem_cons_of_mem _ hp)

theorem SInv.clearEdges (h : SInv NoHid d n V) {r : Nat} (hr : r < n)
    (hw : ∀ u v, ((V r).net.edge u v).isSome = true → (V r).cross u v = true → (∃ p ∈ (V r).net.syn, SameN d p.1 p.2 u v) ∧ ∀ k < n, k ≠ r → ¬ (V k).net.Wrote d u v) :
    SInv NoHid d n (sstep d n V (.clearEdges r 0)) := by
  have h1 := h.one r hr
  show SInv NoHid d n (V.setNet r (V r).net.clearEdges)
  have hrem : ∀ p, p ∈ (V r).net.clearEdges.rem ↔ p ∈ (V r).net.rem ∨ p ∈ (V r).net.syn := fun p => mem_insAll _
  have hsyn : ∀ p ∈ (V r).net.syn, ∀ k < n, k ≠ r → ¬ (V k).net.Wrote d p.1 p.2 := fun p hp => (hw p.1 p.2 (h1.wrote p (.inr hp)).1 (h1.wrote p (.inr hp)).2).2
  have hG : ∀ x y, (V r).net.clearEdges.Gone d x y ↔ (V r).net.Gone d x y ∨ ∃ p ∈ (V r).net.syn, SameN d p.1 p.2 x y := by
    intro x y
    constructor
    · rintro ⟨p, hp, hs⟩
      exact ((hrem p).1 hp).imp (fun hp => ⟨p, hp, hs⟩) (fun hp => ⟨p, hp, hs⟩)
    · rintro (⟨p, hp, hs⟩ | ⟨p, hp, hs⟩)
      · exact ⟨p, (hrem p).2 (.inl hp), hs⟩
      · exact ⟨p, (hrem p).2 (.inr hp), hs⟩
  have hedge : ∀ {k x y}, k < n → k ≠ r → Peer V r k x y → ¬ (V k).net.Dirty d x y → ¬ (V r).net.clearEdges.Gone d x y → ¬ (V k).net.Gone d x y → (V k).net.edge x y = none := by
    intro k x y hk hkr hp hkd hg hg'
    rw [hG] at hg
    have hno : (V r).net.edge x y = none := by
      cases hh : (V r).net.edge x y with
      | none => rfl
      | some a => exact (hg (.inr (hw x y (by rw [hh]; rfl) (hp.cross h hr hk (Ne.symm hkr))).1)).elim
    have hnd : ¬ (V r).net.Dirty d x y := by
      intro c
      obtain ⟨p, hp', hs⟩ := h1.dirty_wrote c
      have := (h1.wrote p hp').1
      rw [h1.edge_same hs, hno] at this; cases this
    rw [← (h.two r hr k hk (Ne.symm hkr)).agree x y hp hnd hkd (fun c => hg (.inl c)) hg']
    exact hno
  refine h.setNet hr ?_ ?_ ?_
  · exact {
      has := h1.has
      hid := h1.hid
      apart := h1.apart
      sym := fun _ _ _ => rfl
      ends := by intro x y hx; cases hx
      ok := by intro x y b hx; cases hx
      wrote := by rintro p (hp | hp) <;> cases hp
      upd := by intro p hp; cases hp
      rem := by
        intro p hp
        refine ⟨rfl, ?_⟩
        rcases (hrem p).1 hp with hp | hp
        · exact (h1.rem p hp).2
        · exact h1.noted (.inr (.inl hp))
      once := by
        refine foldl_ins_pairwise _ h1.once ?_
        intro k hk p hp
        by_cases hs : SameN d p.1 p.2 k.1 k.2
        · left
          rcases hp with hp | hp
          · have := (h1.rem p hp).1
            rw [h1.edge_same hs] at this
            have h2 := (h1.wrote k (.inr hk)).1
            rw [this] at h2; cases h2
          · rcases hs with ⟨e1, e2⟩ | ⟨hd, e1, e2⟩
            · exact Prod.ext e1 e2
            · have := (h.orient hd r hr r hr k (.inr hk)).2
              rw [show (k.2, k.1) = p from (Prod.ext e1 e2).symm] at this
              exact (this hp).elim
        · exact .inr hs }
  · intro k hk hkr
    have h2 := h.two r hr k hk (Ne.symm hkr)
    have h3 := h.two k hk r hr hkr
    constructor
    · refine { agree := ?_, before := ?_, syn := ?_, rem := ?_ }
      · intro x y hp
        rw [setNet_self, setNet_other hkr]
        rw [peer_setNet] at hp
        intro _ hkd hg hg'
        exact (hedge hk hkr hp hkd hg hg').symm
      · intro x y _
        rw [setNet_self]
        rintro ⟨p, hp | hp, -⟩ <;> cases hp
      · intro p hp
        rw [setNet_self] at hp; cases hp
      · intro p hp hpe
        rw [setNet_self] at hp
        rw [peer_setNet] at hpe
        rw [setNet_other hkr]
        rcases (hrem p).1 hp with hp | hp
        · exact h2.rem p hp hpe
        · exact ⟨h2.syn0 _ hp hpe, hsyn p hp k hk hkr⟩
    · refine { agree := ?_, before := ?_, syn := ?_, rem := ?_ }
      · intro x y hp
        rw [setNet_self, setNet_other hkr]
        rw [peer_setNet] at hp
        intro hkd _ hg' hg
        exact hedge hk hkr hp.swap hkd hg hg'
      · intro x y _
        rw [setNet_self]
        intro _ _ a b ha; cases ha
      · intro p hp hpe
        rw [setNet_other hkr] at hp
        rw [peer_setNet] at hpe
        exact ((hw p.1 p.2 (h3.syn0 p hp hpe) (hpe.swap.cross h hr hk (Ne.symm hkr))).2 k hk hkr ⟨p, .inr hp, SameN.refl _ _ _⟩).elim
      · intro p hp hpe
        rw [setNet_other hkr] at hp
        rw [peer_setNet] at hpe
        have := h3.rem p hp hpe
        obtain ⟨⟨q, hq, hs⟩, -⟩ := hw p.1 p.2 this.1 (hpe.swap.cross h hr hk (Ne.symm hkr))
        exact (this.2 ⟨q, .inr hq, hs⟩).elim
  · rintro hd p (hp | hp) <;> cases hp

end Repast.Network
