import Verif.Network.NetInv

/-! The invariant of the specification for C43 is preserved by `request_agents` and `synchronize`. -/
namespace Repast.Network
open Repast.Dict Repast.Context

variable {S A : Type} {H : Hid} {d : Bool} {n : Nat} {V : Sp S A}

/-- The other agent of an edge between ranks. -/
def RV.other (V : RV S A) (p : Nat × Nat) : Nat := if (V.loc p.1).isSome then p.2 else p.1

theorem RV.ends (V : RV S A) (p : Nat × Nat) (x : Nat) : x = p.1 ∨ x = p.2 ↔ x = V.near p ∨ x = V.other p := by
  unfold RV.near RV.other; split
  · rfl
  · exact Or.comm

structure FarOk (n : Nat) (V : Sp S A) (r : Nat) (p : Nat × Nat) : Prop where
  lt : (V r).far p < n
  ne : (V r).far p ≠ r
  near : ((V r).loc ((V r).near p)).isSome = true
  other : ((V ((V r).far p)).loc ((V r).other p)).isSome = true
  peer : Peer V r ((V r).far p) p.1 p.2

theorem RInv.local_vis {X : RV S A} {Hr : Nat → Bool} (h : RInv Hr d X) {u : Nat} (hu : (X.loc u).isSome = true) : Hr u = false := by
  cases hh : Hr u with
  | false => rfl
  | true => have := h.hid u hh; rw [h.apart u hu] at this; cases this

theorem RInv.local_has {X : RV S A} {Hr : Nat → Bool} (h : RInv Hr d X) {u : Nat} (hu : (X.loc u).isSome = true) : X.net.has u = true := by
  rw [h.has, hu, h.local_vis hu]; rfl

theorem SInv.far (h : SInv H d n V) {r : Nat} (hr : r < n) {p : Nat × Nat} (h1 : (V r).net.has p.1 = true) (h2 : (V r).net.has p.2 = true) (hc : (V r).cross p.1 p.2 = true) : FarOk n V r p := by
  have hI := h.one r hr
  have key : ∀ x, (V r).net.has x = true → ((V r).loc x).isSome = false → ∃ s k, (V r).gho x = some (s, k) ∧ k < n ∧ k ≠ r ∧ ((V k).loc x).isSome = true := by
    intro x hx hl
    rw [hI.has, hl, Bool.false_or, Bool.and_eq_true] at hx
    replace hx := hx.1
    obtain ⟨⟨s, k⟩, hg⟩ := Option.isSome_iff_exists.1 hx
    exact ⟨s, k, hg, h.gho r hr x s k hg⟩
  unfold RV.cross at hc
  cases e1 : ((V r).loc p.1).isSome with
  | true =>
    have e2 : ((V r).loc p.2).isSome = false := by rw [e1] at hc; simpa using hc
    obtain ⟨s, k, hg, hk, hkr, hl⟩ := key p.2 h2 e2
    have hf : (V r).far p = k := by unfold RV.far; simp [e1, hg]
    refine ⟨by rw [hf]; exact hk, by rw [hf]; exact hkr, by unfold RV.near; simp [e1], by rw [hf]; unfold RV.other; simp [e1, hl], ?_⟩
    rw [hf]; exact .inl ⟨e1, hl⟩
  | false =>
    have e2 : ((V r).loc p.2).isSome = true := by rw [e1] at hc; simpa using hc
    obtain ⟨s, k, hg, hk, hkr, hl⟩ := key p.1 h1 e1
    have hf : (V r).far p = k := by unfold RV.far; simp [e1, hg]
    refine ⟨by rw [hf]; exact hk, by rw [hf]; exact hkr, by unfold RV.near; simp [e1, e2], by rw [hf]; unfold RV.other; simp [e1, hl], ?_⟩
    rw [hf]; exact .inr ⟨e2, hl⟩

theorem SInv.peer_uniq (h : SInv H d n V) {r r' k u v : Nat} (hr : r < n) (hr' : r' < n) (hk : k < n) (hne : r ≠ k) (hne' : r' ≠ k) (hp : Peer V r k u v) (hp' : Peer V r' k u v) : r = r' := by
  rcases hp with ⟨a, b⟩ | ⟨a, b⟩ <;> rcases hp' with ⟨a', b'⟩ | ⟨a', b'⟩
  · exact h.own r hr r' hr' u a a'
  · exact absurd (h.own r hr k hk u a b') hne
  · exact absurd (h.own r hr k hk v a b') hne
  · exact h.own r hr r' hr' v a a'

theorem SInv.peer_far (h : SInv H d n V) {r k : Nat} (hr : r < n) (hk : k < n) (hne : r ≠ k) {p : Nat × Nat} (hf : FarOk n V r p) (hp : Peer V r k p.1 p.2) : (V r).far p = k :=
  h.peer_uniq hf.lt hk hr hf.ne (Ne.symm hne) hf.peer.swap hp.swap

theorem SInv.far_noted (h : SInv H d n V) {r : Nat} (hr : r < n) {p : Nat × Nat} (hp : p ∈ (V r).net.new ∨ p ∈ (V r).net.syn ∨ p ∈ (V r).net.upd ∨ p ∈ (V r).net.rem) : FarOk n V r p := by
  obtain ⟨a, b, c⟩ := (h.one r hr).noted hp
  exact h.far hr a b c

theorem SInv.request (h : SInv NoHid d n V) {rs : Nat → List (Nat × Nat)} (hl : ∀ k < n, ∀ q ∈ rs k, q.2 < n ∧ q.2 ≠ k ∧ ((V q.2).loc q.1).isSome = true) : SInv NoHid d n (V.request n rs) := by
  let V' := V.request n rs
  have hgho : ∀ k < n, ∀ u, (V' k).gho u = if ((V k).gho u).isSome then (V k).gho u else
      match (rs k).find? (fun q => decide (q.1 = u)) with
      | some q => ((V q.2).loc u).map fun s => (s, q.2)
      | none => none := fun _ _ _ => rfl
  have hsome : ∀ k < n, ∀ u, ((V' k).gho u).isSome = (((V k).gho u).isSome || (rs k).any fun q => decide (q.1 = u)) := by
    intro k hk u
    rw [hgho k hk]
    cases hg : (V k).gho u with
    | some g => simp
    | none =>
      simp only [Option.isSome_none, Bool.false_eq_true, if_false, Bool.false_or]
      cases hf : (rs k).find? (fun q => decide (q.1 = u)) with
      | none =>
        symm
        simp only [Option.isSome_none, List.any_eq_false, decide_eq_true_eq]
        intro q hq
        simpa using List.find?_eq_none.1 hf q hq
      | some q =>
        have h1 := List.mem_of_find?_eq_some hf
        have h2 : q.1 = u := by simpa using List.find?_some hf
        have h3 := (hl k hk q h1).2.2
        rw [h2] at h3
        obtain ⟨s, hs⟩ := Option.isSome_iff_exists.1 h3
        simp only [hs, Option.map_some, Option.isSome_some]
        symm
        exact List.any_eq_true.2 ⟨q, h1, by simp [h2]⟩
  have hhas : ∀ k u, (V' k).net.has u = ((V k).net.has u || (rs k).any fun q => decide (q.1 = u)) := fun _ _ => rfl
  have hcross : ∀ k x y, (V' k).cross x y = (V k).cross x y := fun _ _ _ => rfl
  show SInv NoHid d n V'
  exact {
    rank := h.rank
    own := h.own
    gho := by
      intro k hk u s r hh
      rw [hgho k hk] at hh
      split at hh
      · exact h.gho k hk u s r hh
      · split at hh
        · rename_i q hf
          have h1 := List.mem_of_find?_eq_some hf
          have h2 : q.1 = u := by simpa using List.find?_some hf
          have h3 := hl k hk q h1
          obtain ⟨s', hs, e⟩ := Option.map_eq_some_iff.1 hh
          simp only [Prod.mk.injEq] at e
          rw [← e.2, ← h2]; exact h3
        · cases hh
    tag := by
      intro r hr u k
      show ((V r).tag u k || (decide (k < n) && (rs k).any fun q => decide (q = (u, r)))) = true ↔ k < n ∧ ((V r).loc u).isSome = true ∧ _
      rw [Bool.or_eq_true, h.tag r hr]
      constructor
      · rintro (⟨a, b, c⟩ | hh)
        · exact ⟨a, b, by rw [hsome k a, c]; rfl⟩
        · simp only [Bool.and_eq_true, decide_eq_true_eq, List.any_eq_true] at hh
          obtain ⟨a, q, hq, rfl⟩ := hh
          refine ⟨a, (hl k a _ hq).2.2, ?_⟩
          rw [hsome k a, Bool.or_eq_true]
          exact .inr (List.any_eq_true.2 ⟨_, hq, by simp⟩)
      · rintro ⟨a, b, c⟩
        rw [hsome k a, Bool.or_eq_true] at c
        rcases c with c | c
        · exact .inl ⟨a, b, c⟩
        · obtain ⟨q, hq, e⟩ := List.any_eq_true.1 c
          simp only [decide_eq_true_eq] at e
          have h3 := hl k a q hq
          rw [e] at h3
          have : q = (u, r) := Prod.ext e (h.own q.2 h3.1 r hr u h3.2.2 b)
          rw [← this]
          simp only [a, decide_true, Bool.true_and]
          exact .inr (List.any_eq_true.2 ⟨_, hq, by simp⟩)
    one := by
      intro k hk
      have h1 := h.one k hk
      exact {
        has := by
          intro u
          rw [hhas, hsome k hk, h1.has]
          show _ = ((((V k).loc u).isSome || _) && _)
          cases ((V k).loc u).isSome <;> simp
        hid := by intro u hu; cases hu
        apart := by
          intro u hu
          have hu : ((V k).loc u).isSome = true := hu
          have hn : ((V' k).gho u).isSome = false := by
            rw [hsome k hk, h1.apart u hu]
            simp only [Option.isSome_none, Bool.false_or, List.any_eq_false, decide_eq_true_eq]
            intro q hq e
            have h3 := hl k hk q hq
            rw [e] at h3
            exact h3.2.1 (h.own q.2 h3.1 k hk u h3.2.2 hu)
          simpa using hn
        sym := h1.sym
        ends := by
          intro x y hx
          obtain ⟨a, b, c⟩ := h1.ends x y hx
          exact ⟨by rw [hhas, a]; rfl, by rw [hhas, b]; rfl, c⟩
        ok := h1.ok
        wrote := h1.wrote
        upd := h1.upd
        rem := by
          intro p hp
          obtain ⟨a, b, c, e⟩ := h1.rem p hp
          exact ⟨a, by rw [hhas, b]; rfl, by rw [hhas, c]; rfl, e⟩
        once := h1.once }
    two := fun r hr k hk hne => ⟨(h.two r hr k hk hne).agree, (h.two r hr k hk hne).before, (h.two r hr k hk hne).syn, (h.two r hr k hk hne).rem⟩
    orient := h.orient }

/-! ### Removals -/

theorem mem_remIn {k : Nat} {m : Nat × Nat × Nat} : m ∈ V.remIn n k ↔ m.1 < n ∧ m.2 ∈ (V m.1).net.rem ∧ (V m.1).far m.2 = k := by
  unfold Sp.remIn
  rw [mem_recv]
  refine and_congr_right fun _ => ?_
  rw [List.mem_map]
  constructor
  · rintro ⟨p, hp, e⟩
    simp only [Prod.mk.injEq] at e
    have : p = m.2 := Prod.ext (by rw [← e.2]) (by rw [← e.2])
    rw [← this]; exact ⟨hp, e.1⟩
  · rintro ⟨hp, e⟩; exact ⟨m.2, hp, by rw [e]⟩

/-- The removed edges that a rank is told of. -/
theorem SInv.remIn (h : SInv H d n V) {k : Nat} {m : Nat × Nat × Nat} (hm : m ∈ V.remIn n k) : FarOk n V m.1 m.2 ∧ m.1 ≠ k ∧ k < n ∧ Peer V m.1 k m.2.1 m.2.2 ∧
    ((V k).net.edge m.2.1 m.2.2).isSome = true ∧ ¬ (V k).net.Wrote d m.2.1 m.2.2 ∧ ((V k).loc ((V m.1).other m.2)).isSome = true ∧ ((V m.1).loc ((V m.1).near m.2)).isSome = true := by
  obtain ⟨h1, h2, h3⟩ := mem_remIn.1 hm
  have hf := h.far_noted h1 (.inr (.inr (.inr h2)))
  obtain ⟨a, b, c, e, f⟩ := hf
  have hp := (h.two m.1 h1 k (h3 ▸ a) (h3 ▸ Ne.symm b)).rem m.2 h2 (h3 ▸ f)
  exact ⟨⟨a, b, c, e, f⟩, h3 ▸ Ne.symm b, h3 ▸ a, h3 ▸ f, hp.1, hp.2, h3 ▸ e, c⟩

/-- The ghosts that a rank removes. -/
theorem SInv.remGhost (h : SInv H d n V) {k : Nat} {m : Nat × Nat × Nat} (hm : m ∈ V.remIn n k) {x : Nat} (hx : x = m.2.1 ∨ x = m.2.2) (hg : ((V k).gho x).isSome = true) : x = (V m.1).near m.2 := by
  rcases ((V m.1).ends m.2 x).1 hx with hx | hx
  · exact hx
  · obtain ⟨-, -, hk, -, -, -, hl, -⟩ := h.remIn hm
    rw [← hx] at hl
    rw [(h.one k hk).apart x hl] at hg; cases hg

theorem SInv.removals (h : SInv H d n V)
    (hone : ∀ r < n, ∀ p ∈ (V r).net.rem, ∀ x y, ((V ((V r).far p)).net.edge x y).isSome = true → (x = (V r).near p ∨ y = (V r).near p) → SameN d p.1 p.2 x y) : SInv H d n (V.removals d n) := by
  let V' := V.removals d n
  have hgho : ∀ k x, (V' k).gho x = if (V.remIn n k).any (fun m => decide (x = m.2.1 ∨ x = m.2.2)) then none else (V k).gho x := fun _ _ => rfl
  have hhas : ∀ k x, (V' k).net.has x = ((V k).net.has x && !(decide (((V k).gho x).isSome = true) && (V.remIn n k).any (fun m => decide (x = m.2.1 ∨ x = m.2.2)))) := fun _ _ => rfl
  have hedge : ∀ k x y, (V' k).net.edge x y = if (V.remIn n k).any (fun m => decide (SameN d m.2.1 m.2.2 x y)) then none else (V k).net.edge x y := fun _ _ _ => rfl
  have hkeep : ∀ k < n, ∀ x y, (V k).net.Wrote d x y → (V' k).net.edge x y = (V k).net.edge x y := by
    intro k hk x y hw
    rw [hedge, if_neg]
    intro hh
    obtain ⟨m, hm, e⟩ := List.any_eq_true.1 hh
    have e : SameN d m.2.1 m.2.2 x y := of_decide_eq_true e
    exact (h.remIn hm).2.2.2.2.2.1 (hw.same e.symm)
  have hpart : ∀ r < n, ∀ k < n, r ≠ k → ∀ {x y}, Peer V r k x y → ((V.remIn n k).any (fun m => decide (SameN d m.2.1 m.2.2 x y)) = true ↔ (V r).net.Gone d x y) := by
    intro r hr k hk hne x y hp
    constructor
    · intro hh
      obtain ⟨m, hm, e⟩ := List.any_eq_true.1 hh
      have e : SameN d m.2.1 m.2.2 x y := of_decide_eq_true e
      have hI := h.remIn hm
      have hr' := (mem_remIn.1 hm).1
      have : m.1 = r := h.peer_uniq hr' hr hk hI.2.1 hne (hI.2.2.2.1.same e) hp
      rw [← this]
      exact ⟨m.2, (mem_remIn.1 hm).2.1, e⟩
    · rintro ⟨p, hp', hs⟩
      have hf := h.far_noted hr (.inr (.inr (.inr hp')))
      have := h.peer_far hr hk hne hf (hp.same hs.symm)
      refine List.any_eq_true.2 ⟨(r, p), mem_remIn.2 ⟨hr, hp', this⟩, by simpa using hs⟩
  show SInv H d n V'
  exact {
    rank := h.rank
    own := h.own
    gho := by
      intro k hk u s r hh
      rw [hgho] at hh
      split at hh
      · cases hh
      · exact h.gho k hk u s r hh
    tag := by
      intro r hr u j
      show ((V r).tag u j && !((V r).net.rem.any fun p => decide (u = (V r).near p ∧ j = (V r).far p))) = true ↔ j < n ∧ ((V r).loc u).isSome = true ∧ _
      rw [Bool.and_eq_true, h.tag r hr, hgho]
      constructor
      · rintro ⟨⟨a, b, c⟩, e⟩
        refine ⟨a, b, ?_⟩
        rw [if_neg]
        · exact c
        · intro hh
          obtain ⟨m, hm, hx⟩ := List.any_eq_true.1 hh
          have hx : u = m.2.1 ∨ u = m.2.2 := of_decide_eq_true hx
          have hu := h.remGhost hm hx c
          obtain ⟨m1, m2, m3⟩ := mem_remIn.1 hm
          have hl := (h.remIn hm).2.2.2.2.2.2.2
          rw [← hu] at hl
          have hrr := h.own _ m1 r hr u hl b
          rw [hrr] at m2 m3 hu
          simp only [Bool.not_eq_true', List.any_eq_false, decide_eq_true_eq] at e
          exact e m.2 m2 ⟨hu, m3.symm⟩
      · rintro ⟨a, b, c⟩
        split at c
        · cases c
        · rename_i hh
          refine ⟨⟨a, b, c⟩, ?_⟩
          simp only [Bool.not_eq_true', List.any_eq_false, decide_eq_true_eq]
          rintro p hp ⟨e1, e2⟩
          exact hh (List.any_eq_true.2 ⟨(r, p), mem_remIn.2 ⟨hr, hp, e2.symm⟩, by simpa using ((V r).ends p u).2 (.inl e1)⟩)
    one := by
      intro k hk
      have h1 := h.one k hk
      exact {
        has := by
          intro u
          rw [hhas, hgho, h1.has]
          show _ = ((((V k).loc u).isSome || _) && !H k u)
          cases hl : ((V k).loc u).isSome with
          | true => rw [h1.apart u hl]; simp
          | false =>
            split
            · rename_i hh
              rw [hh]
              cases ((V k).gho u).isSome <;> simp
            · rename_i hh
              rw [Bool.eq_false_iff.2 hh]
              cases ((V k).gho u).isSome <;> simp
        hid := by
          intro u hu
          rw [hgho, if_neg]
          · exact h1.hid u hu
          · intro hh
            obtain ⟨m, hm, hm'⟩ := List.any_eq_true.1 hh
            have := h.remGhost hm (of_decide_eq_true hm') (h1.hid u hu)
            obtain ⟨m1, m2, m3⟩ := mem_remIn.1 hm
            have hf := h.far_noted m1 (.inr (.inr (.inr m2)))
            have he := ((h.two m.1 m1 _ hf.lt (Ne.symm hf.ne)).rem m.2 m2 hf.peer).1
            rw [m3] at he
            have hh := h1.ends _ _ he
            have hu' : (V k).net.has u = true := by
              rcases (of_decide_eq_true hm' : u = m.2.1 ∨ u = m.2.2) with e | e
              · rw [e]; exact hh.1
              · rw [e]; exact hh.2.1
            rw [h1.has, hu] at hu'
            simp at hu'
        apart := by
          intro u hu
          rw [hgho]
          split
          · rfl
          · exact h1.apart u hu
        sym := by
          intro hd x y
          rw [hedge, hedge, h1.sym hd x y]
          have : ∀ a b, SameN d a b x y ↔ SameN d a b y x := by intro a b; unfold SameN; grind
          simp only [this]
        ends := by
          intro x y hx
          rw [hedge] at hx
          split at hx
          · cases hx
          · rename_i hh
            obtain ⟨a, b, c⟩ := h1.ends x y hx
            have key : ∀ z, z = x ∨ z = y → (V k).net.has z = true → (V' k).net.has z = true := by
              intro z hz hzz
              rw [hhas, hzz, Bool.true_and, Bool.not_eq_true']
              refine Bool.eq_false_iff.2 (fun hc => ?_)
              rw [Bool.and_eq_true, decide_eq_true_eq] at hc
              obtain ⟨m, hm, hzm⟩ := List.any_eq_true.1 hc.2
              have hzm : z = m.2.1 ∨ z = m.2.2 := of_decide_eq_true hzm
              have hu := h.remGhost hm hzm hc.1
              obtain ⟨m1, m2, m3⟩ := mem_remIn.1 hm
              have := hone m.1 m1 m.2 m2 x y (by rw [m3]; exact hx) (by rw [← hu]; exact hz.imp Eq.symm Eq.symm)
              exact hh (List.any_eq_true.2 ⟨m, hm, by simpa using this⟩)
            exact ⟨key x (.inl rfl) a, key y (.inr rfl) b, c⟩
        ok := by
          intro x y a hx
          rw [hedge] at hx
          split at hx
          · cases hx
          · exact h1.ok x y a hx
        wrote := by
          intro p hp
          rw [hkeep k hk _ _ ⟨p, hp, SameN.refl _ _ _⟩]
          exact h1.wrote p hp
        upd := h1.upd
        rem := by intro p hp; cases hp
        once := List.Pairwise.nil }
    two := by
      intro r hr k hk hne
      have h2 := h.two r hr k hk hne
      exact {
        agree := by
          intro u v hp hd hd' _ _
          rw [hedge, hedge]
          have hp : Peer V r k u v := hp
          by_cases g1 : (V r).net.Gone d u v
          · rw [if_pos ((hpart r hr k hk hne hp).2 g1)]
            obtain ⟨p, hp', hs⟩ := g1
            rw [← (h.one r hr).edge_same hs, ((h.one r hr).rem p hp').1]
            split <;> rfl
          · by_cases g2 : (V k).net.Gone d u v
            · rw [if_pos ((hpart k hk r hr (Ne.symm hne) hp.swap).2 g2)]
              obtain ⟨p, hp', hs⟩ := g2
              rw [← (h.one k hk).edge_same hs, ((h.one k hk).rem p hp').1]
              split <;> rfl
            · rw [if_neg (fun c => g1 ((hpart r hr k hk hne hp).1 c)), if_neg (fun c => g2 ((hpart k hk r hr (Ne.symm hne) hp.swap).1 c))]
              exact h2.agree u v hp hd hd' g1 g2
        before := by
          intro u v hp hd hd'
          rw [hedge, hedge]
          split
          · intro x y hx; cases hx
          · split
            · intro x y _ hx; cases hx
            · exact h2.before u v hp hd hd'
        syn := by
          intro p hp hpe
          have hpe : Peer V r k p.1 p.2 := hpe
          rw [hedge, if_neg]
          · exact h2.syn p hp hpe
          · intro hh
            obtain ⟨q, hq, hs⟩ := (hpart r hr k hk hne hpe).1 hh
            have := ((h.one r hr).rem q hq).1
            rw [(h.one r hr).edge_same hs] at this
            have h3 := ((h.one r hr).wrote p (.inr hp)).1
            rw [this] at h3; cases h3
        rem := by intro p hp; cases hp }
    orient := h.orient }

/-! ### Copies -/

theorem mem_sendAgents (l : List (Nat × Nat)) : ∀ (X : RV S A) (m : Nat × Nat × S), m ∈ X.sendAgents l ↔ ∃ p ∈ l, X.far p = m.1 ∧ X.near p = m.2.1 ∧ X.tag m.2.1 m.1 = false ∧ X.loc m.2.1 = some m.2.2 := by
  induction l with
  | nil => intro X m; simp [RV.sendAgents]
  | cons q l ih =>
    intro X m
    rw [sendAgents_cons, List.mem_append, ih]
    have hfar : ∀ p, RV.far { X with tag := fun x j => X.tag x j || decide (x = X.near q ∧ j = X.far q) } p = X.far p := fun _ => rfl
    have hnear : ∀ p, RV.near { X with tag := fun x j => X.tag x j || decide (x = X.near q ∧ j = X.far q) } p = X.near p := fun _ => rfl
    simp only [hfar, hnear]
    have hq : m ∈ X.sendAgents [q] ↔ X.far q = m.1 ∧ X.near q = m.2.1 ∧ X.tag m.2.1 m.1 = false ∧ X.loc m.2.1 = some m.2.2 := by
      simp only [RV.sendAgents, List.append_nil]
      constructor
      · intro hm
        split at hm
        · rename_i s ht hs
          rw [List.mem_singleton] at hm
          subst hm
          exact ⟨rfl, rfl, ht, hs⟩
        · cases hm
      · rintro ⟨e1, e2, e3, e4⟩
        rw [← e1, ← e2] at e3
        rw [← e2] at e4
        rw [e3, e4]
        simp [e1, e2]
    rw [hq]
    simp only [List.mem_cons, Bool.or_eq_false_iff, decide_eq_false_iff_not]
    constructor
    · rintro (hh | ⟨p, hp, e1, e2, ⟨e3, -⟩, e4⟩)
      · exact ⟨q, .inl rfl, hh⟩
      · exact ⟨p, .inr hp, e1, e2, e3, e4⟩
    · rintro ⟨p, rfl | hp, e1, e2, e3, e4⟩
      · exact .inl ⟨e1, e2, e3, e4⟩
      · by_cases hh : X.far q = m.1 ∧ X.near q = m.2.1
        · exact .inl ⟨hh.1, hh.2, e3, e4⟩
        · exact .inr ⟨p, hp, e1, e2, ⟨e3, fun c => hh ⟨c.2.symm, c.1.symm⟩⟩, e4⟩

theorem sendAgents_once (l : List (Nat × Nat)) : ∀ (X : RV S A), (X.sendAgents l).Pairwise fun m m' => ¬ (m.1 = m'.1 ∧ m.2.1 = m'.2.1) := by
  induction l with
  | nil => intro X; exact List.Pairwise.nil
  | cons q l ih =>
    intro X
    rw [sendAgents_cons]
    refine List.pairwise_append.2 ⟨?_, ih _, ?_⟩
    · simp only [RV.sendAgents, List.append_nil]
      split
      · exact List.pairwise_singleton _ _
      · exact List.Pairwise.nil
    · rintro m hm m' hm' ⟨e1, e2⟩
      obtain ⟨p, hp, f1, f2, -⟩ := (mem_sendAgents _ _ _).1 hm
      rw [List.mem_singleton] at hp
      subst hp
      obtain ⟨-, -, -, -, f3, -⟩ := (mem_sendAgents _ _ _).1 hm'
      simp only [Bool.or_eq_false_iff, decide_eq_false_iff_not] at f3
      exact f3.2 ⟨by rw [← e2, f2], by rw [← e1, f1]⟩

theorem mem_agentsIn {k : Nat} {m : Nat × Nat × S} : m ∈ V.agentsIn n k ↔ m.1 < n ∧ ∃ p ∈ (V m.1).net.new, (V m.1).far p = k ∧ (V m.1).near p = m.2.1 ∧ (V m.1).tag m.2.1 k = false ∧ (V m.1).loc m.2.1 = some m.2.2 := by
  unfold Sp.agentsIn
  rw [mem_recv, mem_sendAgents]

theorem mem_edgesIn {k : Nat} {m : Nat × Nat × Nat × Attr A} : m ∈ V.edgesIn n k ↔ m.1 < n ∧ ((m.2.1, m.2.2.1) ∈ (V m.1).net.new ∨ (m.2.1, m.2.2.1) ∈ (V m.1).net.upd) ∧
    (V m.1).far (m.2.1, m.2.2.1) = k ∧ m.2.2.2 = ((V m.1).net.edge m.2.1 m.2.2.1).getD [] := by
  unfold Sp.edgesIn RV.sendEdges
  rw [mem_recv, ← List.map_append, List.mem_map]
  refine and_congr_right fun _ => ?_
  constructor
  · rintro ⟨p, hp, e⟩
    simp only [Prod.mk.injEq] at e
    have hpp : p = (m.2.1, m.2.2.1) := Prod.ext (by rw [← e.2]) (by rw [← e.2])
    rw [← hpp]
    refine ⟨List.mem_append.1 hp, e.1, ?_⟩
    rw [← e.2]
  · rintro ⟨hp, e1, e2⟩
    refine ⟨(m.2.1, m.2.2.1), List.mem_append.2 hp, ?_⟩
    rw [e1, ← e2]

/-- The edges that a rank is sent. -/
theorem SInv.edgesIn (h : SInv H d n V) {k : Nat} {m : Nat × Nat × Nat × Attr A} (hm : m ∈ V.edgesIn n k) : FarOk n V m.1 (m.2.1, m.2.2.1) ∧ (V m.1).far (m.2.1, m.2.2.1) = k ∧ m.1 ≠ k ∧ k < n ∧
    Peer V m.1 k m.2.1 m.2.2.1 ∧ (V m.1).net.Dirty d m.2.1 m.2.2.1 ∧ (V m.1).net.edge m.2.1 m.2.2.1 = some m.2.2.2 := by
  obtain ⟨h1, h2, h3, h4⟩ := mem_edgesIn.1 hm
  have hf := h.far_noted h1 (h2.elim .inl (fun hh => .inr (.inr (.inl hh))))
  obtain ⟨a, b, c, e, f⟩ := hf
  have hd : (V m.1).net.Dirty d m.2.1 m.2.2.1 := ⟨_, h2, SameN.refl _ _ _⟩
  have hs := (h.one m.1 h1).wrote_edge ((h.one m.1 h1).dirty_wrote hd)
  refine ⟨⟨a, b, c, e, f⟩, h3, h3 ▸ Ne.symm b, h3 ▸ a, h3 ▸ f, hd, ?_⟩
  obtain ⟨z, hz⟩ := Option.isSome_iff_exists.1 hs
  rw [h4, hz]; rfl

theorem SInv.sender (h : SInv H d n V) {r k : Nat} (hr : r < n) (hk : k < n) (hne : r ≠ k) {u v : Nat} (hp : Peer V r k u v) {m : Nat × Nat × Nat × Attr A} (hm : m ∈ V.edgesIn n k)
    (hs : SameN d m.2.1 m.2.2.1 u v) : m.1 = r ∧ (V r).net.Dirty d u v ∧ (V r).net.edge u v = some m.2.2.2 := by
  obtain ⟨a, b, c, -, e, f, g⟩ := h.edgesIn hm
  have h1 := (mem_edgesIn.1 hm).1
  have : m.1 = r := h.peer_uniq h1 hr hk c hne (e.same hs) hp
  rw [(h.one m.1 h1).edge_same hs] at g
  have f := f.same hs
  rw [this] at f g
  exact ⟨this, f, g⟩

theorem SInv.copies_edge (h : SInv H d n V) {r k : Nat} (hr : r < n) (hk : k < n) (hne : r ≠ k) {u v : Nat} (hp : Peer V r k u v) :
    ((V r).net.Dirty d u v → (V.copies d n k).net.edge u v = (V r).net.edge u v) ∧ (¬ (V r).net.Dirty d u v → (V.copies d n k).net.edge u v = (V k).net.edge u v) := by
  have he : (V.copies d n k).net.edge u v = match (V.edgesIn n k).find? (fun m => decide (SameN d m.2.1 m.2.2.1 u v)) with
        | some m => some m.2.2.2
        | none => (V k).net.edge u v := rfl
  rw [he]
  cases hf : (V.edgesIn n k).find? (fun m => decide (SameN d m.2.1 m.2.2.1 u v)) with
  | some m =>
    have h1 := List.mem_of_find?_eq_some hf
    have h2 : SameN d m.2.1 m.2.2.1 u v := by simpa using List.find?_some hf
    obtain ⟨-, a, b⟩ := h.sender hr hk hne hp h1 h2
    exact ⟨fun _ => b.symm, fun c => absurd a c⟩
  | none =>
    refine ⟨?_, fun _ => rfl⟩
    rintro ⟨p, hp', hs⟩
    exfalso
    have hfar := h.far_noted hr (hp'.elim .inl (fun hh => .inr (.inr (.inl hh))))
    have := h.peer_far hr hk hne hfar (hp.same hs.symm)
    have hm : (r, p.1, p.2, ((V r).net.edge p.1 p.2).getD []) ∈ V.edgesIn n k := mem_edgesIn.2 ⟨hr, hp', this, rfl⟩
    have := List.find?_eq_none.1 hf _ hm
    simp only [decide_eq_true_eq] at this
    exact this hs

theorem mem_foldl_ins {α : Type} [DecidableEq α] (l : List α) : ∀ (acc : List α) (x : α), x ∈ l.foldl ins acc ↔ x ∈ acc ∨ x ∈ l := by
  induction l with
  | nil => intro acc x; simp
  | cons y l ih => intro acc x; rw [List.foldl_cons, ih, mem_ins, List.mem_cons, or_assoc]

theorem SInv.copies (h : SInv H d n V) (hH : ∀ r < n, ∀ p ∈ (V r).net.new, H ((V r).far p) ((V r).near p) = false) (hrem : ∀ r < n, (V r).net.rem = [])
    (hconf : ∀ r < n, ∀ k < n, ∀ u v, (V r).net.Dirty d u v → (V k).net.Dirty d u v → (V r).net.edge u v = (V k).net.edge u v) : SInv H.settled d n (V.copies d n) := by
  let V' := V.copies d n
  have hgho : ∀ k x, (V' k).gho x = match (V.agentsIn n k).find? (fun m => decide (m.2.1 = x)) with
      | some m => some (m.2.2, m.1)
      | none => (V k).gho x := fun _ _ => rfl
  have hhas : ∀ k x, (V' k).net.has x = ((V k).net.has x || (V.agentsIn n k).any (fun m => decide (m.2.1 = x))) := fun _ _ => rfl
  have hedge : ∀ k x y, (V' k).net.edge x y = match (V.edgesIn n k).find? (fun m => decide (SameN d m.2.1 m.2.2.1 x y)) with
        | some m => some m.2.2.2
        | none => (V k).net.edge x y := fun _ _ _ => rfl
  have hmsg : ∀ k < n, ∀ m ∈ V.agentsIn n k, m.1 ≠ k ∧ ((V m.1).loc m.2.1).isSome = true := by
    intro k hk m hm
    obtain ⟨h1, p, hp, h2, h3, h4, h5⟩ := mem_agentsIn.1 hm
    have := h.far_noted h1 (.inl hp)
    exact ⟨h2 ▸ Ne.symm this.ne, by rw [h5]; rfl⟩
  have hsome : ∀ k x, ((V' k).gho x).isSome = (((V k).gho x).isSome || (V.agentsIn n k).any (fun m => decide (m.2.1 = x))) := by
    intro k x
    rw [hgho]
    cases hf : (V.agentsIn n k).find? (fun m => decide (m.2.1 = x)) with
    | some m =>
      have : (V.agentsIn n k).any (fun m => decide (m.2.1 = x)) = true := List.any_eq_true.2 ⟨m, List.mem_of_find?_eq_some hf, by simpa using List.find?_some hf⟩
      rw [this]; simp
    | none =>
      have : (V.agentsIn n k).any (fun m => decide (m.2.1 = x)) = false := by
        rw [List.any_eq_false]; exact fun m hm => List.find?_eq_none.1 hf m hm
      rw [this]; simp
  have hmono : ∀ k x y, ((V k).net.edge x y).isSome = true → ((V' k).net.edge x y).isSome = true := by
    intro k x y hx
    rw [hedge]; split
    · rfl
    · exact hx
  have hsyn : ∀ k p, p ∈ (V' k).net.syn ↔ p ∈ (V k).net.syn ∨ p ∈ (V k).net.new := fun k p => mem_foldl_ins _ _ _
  have hD : ∀ k x y, ¬ (V' k).net.Dirty d x y := by
    rintro k x y ⟨p, hp, -⟩
    rcases hp with hp | hp <;> cases hp
  have hnewtag : ∀ r < n, ∀ p ∈ (V r).net.new, ((V' ((V r).far p)).gho ((V r).near p)).isSome = true := by
    intro r hr p hp
    have hf := h.far_noted hr (.inl hp)
    rw [hsome, Bool.or_eq_true]
    cases ht : (V r).tag ((V r).near p) ((V r).far p) with
    | true => exact .inl ((h.tag r hr _ _).1 ht).2.2
    | false =>
      obtain ⟨s, hs⟩ := Option.isSome_iff_exists.1 hf.near
      exact .inr (List.any_eq_true.2 ⟨(r, (V r).near p, s), mem_agentsIn.2 ⟨hr, p, hp, rfl, rfl, ht, hs⟩, by simp⟩)
  have hHas : ∀ k < n, ∀ u, (V' k).net.has u = ((((V' k).loc u).isSome || ((V' k).gho u).isSome) && !H k u) := by
    intro k hk u
    rw [hhas, hsome, (h.one k hk).has]
    show _ = ((((V k).loc u).isSome || _) && _)
    cases hhu : H k u with
    | false => cases ((V k).loc u).isSome <;> simp
    | true =>
      have hg := (h.one k hk).hid u hhu
      have : (V.agentsIn n k).any (fun m => decide (m.2.1 = u)) = false := by
        rw [List.any_eq_false]
        intro m hm e
        obtain ⟨h1, p, hp, h2, h3, h4, h5⟩ := mem_agentsIn.1 hm
        rw [of_decide_eq_true e] at h4 h5
        have := (h.tag m.1 h1 u k).2 ⟨hk, by rw [h5]; rfl, hg⟩
        rw [h4] at this; cases this
      rw [this]; simp
  show SInv H.settled d n V'
  exact {
    rank := h.rank
    own := h.own
    gho := by
      intro k hk u s r hh
      rw [hgho] at hh
      split at hh
      · rename_i m hf
        have h1 := List.mem_of_find?_eq_some hf
        have h2 : m.2.1 = u := by simpa using List.find?_some hf
        simp only [Option.some.injEq, Prod.mk.injEq] at hh
        have h3 := hmsg k hk m h1
        have h4 := (mem_agentsIn.1 h1).1
        rw [hh.2, h2] at h3
        rw [hh.2] at h4
        exact ⟨h4, h3⟩
      · exact h.gho k hk u s r hh
    tag := by
      intro r hr u j
      show ((V r).tag u j || ((V r).net.new.any fun p => decide (u = (V r).near p ∧ j = (V r).far p))) = true ↔ j < n ∧ ((V r).loc u).isSome = true ∧ _
      rw [Bool.or_eq_true, h.tag r hr]
      constructor
      · rintro (⟨a, b, c⟩ | hh)
        · exact ⟨a, b, by rw [hsome, c]; rfl⟩
        · obtain ⟨p, hp, e⟩ := List.any_eq_true.1 hh
          obtain ⟨rfl, rfl⟩ := of_decide_eq_true e
          have hf := h.far_noted hr (.inl hp)
          exact ⟨hf.lt, hf.near, hnewtag r hr p hp⟩
      · rintro ⟨a, b, c⟩
        rw [hsome, Bool.or_eq_true] at c
        rcases c with c | c
        · exact .inl ⟨a, b, c⟩
        · obtain ⟨m, hm, e⟩ := List.any_eq_true.1 c
          have e : m.2.1 = u := of_decide_eq_true e
          obtain ⟨h1, p, hp, h2, h3, h4, h5⟩ := mem_agentsIn.1 hm
          have hl := (hmsg j a m hm).2
          rw [e] at hl
          have hrr := h.own m.1 h1 r hr u hl b
          rw [hrr] at hp h2 h3
          exact .inr (List.any_eq_true.2 ⟨p, hp, by simp [h2, h3, e]⟩)
    one := by
      intro k hk
      have h1 := h.one k hk
      exact {
        has := hHas k hk
        hid := by intro u hu; rw [hsome, h1.hid u hu]; rfl
        apart := by
          intro u hu
          have hu : ((V k).loc u).isSome = true := hu
          rw [hgho]
          split
          · rename_i m hf
            have g1 := List.mem_of_find?_eq_some hf
            have g2 : m.2.1 = u := by simpa using List.find?_some hf
            have g3 := hmsg k hk m g1
            rw [g2] at g3
            exact absurd (h.own m.1 (mem_agentsIn.1 g1).1 k hk u g3.2 hu) g3.1
          · exact h1.apart u hu
        sym := by
          intro hd x y
          rw [hedge, hedge, h1.sym hd x y]
          have : ∀ a b, SameN d a b x y ↔ SameN d a b y x := by intro a b; unfold SameN; grind
          simp only [this]
        ends := by
          intro x y hx
          rw [hedge] at hx
          split at hx
          · rename_i m hf
            have g1 := List.mem_of_find?_eq_some hf
            have g2 : SameN d m.2.1 m.2.2.1 x y := by simpa using List.find?_some hf
            obtain ⟨hF, hk', -, -, hp, -, -⟩ := h.edgesIn g1
            obtain ⟨m1, m2, -⟩ := mem_edgesIn.1 g1
            have ho : ((V k).loc ((V m.1).other (m.2.1, m.2.2.1))).isSome = true := by have := hF.other; rw [hk'] at this; exact this
            have hn : (V' k).net.has ((V m.1).near (m.2.1, m.2.2.1)) = true := by
              rw [hHas k hk, Bool.and_eq_true, Bool.or_eq_true]
              have hnew : ∀ hp : (m.2.1, m.2.2.1) ∈ (V m.1).net.new, ((V' k).gho ((V m.1).near (m.2.1, m.2.2.1))).isSome = true := by
                intro hp; have := hnewtag m.1 m1 _ hp; rw [hk'] at this; exact this
              have hvis : ∀ hp : (m.2.1, m.2.2.1) ∈ (V m.1).net.new, (!H k ((V m.1).near (m.2.1, m.2.2.1))) = true := by
                intro hp; have := hH m.1 m1 _ hp; rw [hk'] at this; rw [this]; rfl
              rcases m2 with m2 | m2
              · exact ⟨.inr (hnew m2), hvis m2⟩
              · rcases (h.one m.1 m1).upd _ m2 with m3 | m3
                · exact ⟨.inr (hnew m3), hvis m3⟩
                · rcases (h.two m.1 m1 k hk (by rw [← hk']; exact Ne.symm hF.ne)).syn _ m3 hp with this | ⟨-, m4⟩
                  case inr => exact ⟨.inr (hnew m4), hvis m4⟩
                  have hh := h1.ends _ _ this
                  have hz : (V k).net.has ((V m.1).near (m.2.1, m.2.2.1)) = true := by
                    unfold RV.near; split
                    · exact hh.1
                    · exact hh.2.1
                  rw [h1.has, Bool.and_eq_true, Bool.or_eq_true] at hz
                  refine ⟨?_, hz.2⟩
                  rcases hz.1 with hz | hz
                  · exact .inl hz
                  · exact .inr (by rw [hsome, hz]; rfl)
            have ho' : (V' k).net.has ((V m.1).other (m.2.1, m.2.2.1)) = true := by rw [hhas, h1.local_has ho]; rfl
            have hxy : (m.2.1, m.2.2.1) = (x, y) ∨ (m.2.1, m.2.2.1) = (y, x) := by
              rcases g2 with ⟨e1, e2⟩ | ⟨-, e1, e2⟩
              · exact .inl (Prod.ext e1 e2)
              · exact .inr (Prod.ext e1 e2)
            have hno : (V m.1).near (m.2.1, m.2.2.1) = x ∧ (V m.1).other (m.2.1, m.2.2.1) = y ∨ (V m.1).near (m.2.1, m.2.2.1) = y ∧ (V m.1).other (m.2.1, m.2.2.1) = x := by
              rcases hxy with e | e
              · rw [e]; unfold RV.near RV.other; split
                · exact .inl ⟨rfl, rfl⟩
                · exact .inr ⟨rfl, rfl⟩
              · rw [e]; unfold RV.near RV.other; split
                · exact .inr ⟨rfl, rfl⟩
                · exact .inl ⟨rfl, rfl⟩
            rcases hno with ⟨e1, e2⟩ | ⟨e1, e2⟩
            · rw [e1] at hn; rw [e2] at ho ho'
              exact ⟨hn, ho', .inr ho⟩
            · rw [e1] at hn; rw [e2] at ho ho'
              exact ⟨ho', hn, .inl ho⟩
          · obtain ⟨a, b, c⟩ := h1.ends x y hx
            exact ⟨by rw [hhas, a]; rfl, by rw [hhas, b]; rfl, c⟩
        ok := by
          intro x y a hx
          rw [hedge] at hx
          split at hx
          · rename_i m hf
            have g1 := List.mem_of_find?_eq_some hf
            simp only [Option.some.injEq] at hx
            rw [← hx]
            exact (h.one m.1 (mem_edgesIn.1 g1).1).ok _ _ _ (h.edgesIn g1).2.2.2.2.2.2
          · exact h1.ok x y a hx
        wrote := by
          intro p hp
          rcases hp with hp | hp
          · cases hp
          · have := h1.wrote p ((hsyn k p).1 hp).symm
            exact ⟨hmono k _ _ this.1, this.2⟩
        upd := by intro p hp; cases hp
        rem := by
          intro p hp
          have hp : p ∈ (V k).net.rem := hp
          rw [hrem k hk] at hp; cases hp
        once := h1.once }
    two := by
      intro r hr k hk hne
      have h2 := h.two r hr k hk hne
      exact {
        agree := by
          intro u v hp _ _ _ _
          have hp : Peer V r k u v := hp
          have c1 := h.copies_edge hr hk hne hp
          have c2 := h.copies_edge hk hr (Ne.symm hne) hp.swap
          show (V.copies d n r).net.edge u v = (V.copies d n k).net.edge u v
          by_cases d1 : (V r).net.Dirty d u v <;> by_cases d2 : (V k).net.Dirty d u v
          · rw [c1.1 d1, c2.1 d2]; exact (hconf r hr k hk u v d1 d2).symm
          · rw [c1.1 d1, c2.2 d2]
          · rw [c1.2 d1, c2.1 d2]
          · rw [c1.2 d1, c2.2 d2]
            have hG : ∀ j < n, ¬ (V j).net.Gone d u v := by
              rintro j hj ⟨p, hp, -⟩; rw [hrem j hj] at hp; cases hp
            exact h2.agree u v hp d1 d2 (hG r hr) (hG k hk)
        before := by intro u v _ hd; exact absurd hd (hD r u v)
        syn := by
          intro p hp hpe
          have hpe : Peer V r k p.1 p.2 := hpe
          have hnew : p ∈ (V r).net.new → ((V.copies d n k).net.edge p.1 p.2).isSome = true := by
            intro hp
            have c1 := (h.copies_edge hr hk hne hpe).1 ⟨p, .inl hp, SameN.refl _ _ _⟩
            rw [c1]; exact ((h.one r hr).wrote p (.inl hp)).1
          rcases (hsyn r p).1 hp with hp | hp
          · rcases h2.syn p hp hpe with h3 | ⟨-, h3⟩
            · exact .inl (hmono k _ _ h3)
            · exact .inl (hnew h3)
          · exact .inl (hnew hp)
        rem := by
          intro p hp
          have hp : p ∈ (V r).net.rem := hp
          rw [hrem r hr] at hp; cases hp }
    orient := by
      intro hd r hr k hk p hp
      have hp' : p ∈ (V r).net.new ∨ p ∈ (V r).net.syn := by
        rcases hp with hp | hp
        · cases hp
        · exact ((hsyn r p).1 hp).symm
      have := h.orient hd r hr k hk p hp'
      refine ⟨by rintro ⟨⟩, fun c => ?_⟩
      exact ((hsyn k _).1 c).elim this.2 this.1 }

theorem SInv.removals_dirty (h : SInv H d n V) {k : Nat} (hk : k < n) {x y : Nat} (hd : (V k).net.Dirty d x y) : (V.removals d n k).net.edge x y = (V k).net.edge x y := by
  show (if _ then _ else _) = _
  rw [if_neg]
  intro hh
  obtain ⟨m, hm, e⟩ := List.any_eq_true.1 hh
  have e : SameN d m.2.1 m.2.2 x y := of_decide_eq_true e
  exact (h.remIn hm).2.2.2.2.2.1 (((h.one k hk).dirty_wrote hd).same e.symm)

/-- The invariant is preserved. -/
theorem SInv.step (h : SInv NoHid d n V) {op : WOp S A} (hl : Legal d n V op) : SInv NoHid d n (sstep d n V op) := by
  cases op with
  | add r u s => exact h.add hl.1 hl.2 s
  | setState r u s => exact h.setState hl.1 hl.2 s
  | addEdge r pid u v a => obtain ⟨h1, rfl, h2, h3, h4, h5, h6⟩ := hl; exact h.addEdge h1 a h2 h3 h4 h5 h6
  | updateEdge r pid u v a => obtain ⟨h1, rfl, h2, h3⟩ := hl; exact h.updateEdge h1 a h3
  | removeEdge r pid u v => obtain ⟨h1, rfl, h2, h3, h4⟩ := hl; exact h.removeEdge h1 h2 h4
  | clearEdges r pid => obtain ⟨h1, rfl, h2⟩ := hl; exact h.clearEdges h1 h2
  | request rs => exact h.request (fun k hk => (hl k hk).2)
  | synch ghosts =>
    cases ghosts with
    | false => exact h
    | true =>
      obtain ⟨h1, h2⟩ := hl rfl
      have hs := h.states
      have hr : SInv NoHid d n (V.states.removals d n) := hs.removals (fun r hr p hp => by
        have hf : (V.states r).far p = (V r).far p := by
          unfold RV.far Sp.states
          simp only [Option.map_map]
          rfl
        have := (h2 r hr p hp).2
        rw [hf]; exact this)
      refine hr.copies (fun _ _ _ _ => rfl) (fun _ _ => rfl) ?_
      intro r hr' k hk u v d1 d2
      rw [hs.removals_dirty hr' d1, hs.removals_dirty hk d2]
      exact h1 r hr' k hk u v d1 d2
  | _ => exact hl.elim

end Repast.Network
