import Verif.Mixed.Sync
import Verif.Context.OneSpace

/-! The phases of `synchronize` on all ranks. -/
namespace Repast.Mixed
open Repast.Dict Repast.Context Repast.Network Repast.Space

variable {S A P Q : Type} [Proj P Q] {G : Geo Q}

/-! ### Collective steps -/

theorem meach_all {n : Nat} {f : Nat → Option (Mx S A P)} {w w' : World S A P} (e : each n f w = some w') : ∀ r < n, f r = some (w' r) := by
  unfold each at e
  simp only at e
  split at e
  · rename_i h
    cases e
    rw [List.all_eq_true] at h
    intro r hr
    have := h (f r) (List.mem_map.2 ⟨r, List.mem_range.2 hr, rfl⟩)
    obtain ⟨c, hc⟩ := Option.isSome_iff_exists.1 this
    simp [hr, hc]
  · cases e

theorem mexchange_all {M : Type} {n : Nat} {send : Mx S A P → Option (Mx S A P × List (Nat × M))} {recv1 : Mx S A P → Nat × M → Option (Mx S A P)} {w w' : World S A P}
    (e : exchange n send recv1 w = some w') : ∃ (w1 : World S A P) (out : Nat → List (Nat × M)), (∀ r < n, send (w r) = some (w1 r, out r)) ∧
      ∀ r < n, (recv n out r).foldlM recv1 (w1 r) = some (w' r) := by
  unfold exchange at e
  obtain ⟨w1, e1, e2⟩ := Option.bind_eq_some_iff.1 e
  refine ⟨w1, _, ?_, meach_all e2⟩
  intro r hr
  have h := meach_all e1 r hr
  obtain ⟨x, hx, hx2⟩ := Option.map_eq_some_iff.1 h
  simp only [hx]
  rw [nth_map hx, ← hx2]
  rfl

theorem onNets_keeps {f : Network.World S A → Option (Network.World S A)} {w w' : World S A P} (hf : ∀ v v', f v = some v' → ∀ r, Keeps (v r) (v' r)) (e : onNets f w = some w') :
    ∀ r, Keeps (w r).nc (w' r).nc ∧ (w' r).spaces = (w r).spaces := by
  obtain ⟨v, hv, rfl⟩ := Option.map_eq_some_iff.1 e
  intro r
  exact ⟨hf _ _ hv r, rfl⟩

theorem eachNet_inv {I : World S A P → Prop} {f : Nat → World S A P → Option (World S A P)} (h : ∀ pid w w', I w → f pid w = some w' → I w') {w w' : World S A P} (hi : I w)
    (e : eachNet f w = some w') : I w' :=
  Context.foldlM_inv (P := I) (fun b a b' hb hf => h a b b' hb hf) _ w w' hi e

theorem eachSpace_one {f : Nat → World S A P → Option (World S A P)} {w : World S A P} (h : (w 0).spaces.length = 1) : eachSpace f w = f 0 w := by
  unfold eachSpace
  rw [h]
  simp only [show List.range 1 = [0] from rfl, List.foldlM_cons, List.foldlM_nil]
  cases f 0 w <;> rfl

theorem eachProj_inv {I I' : World S A P → Prop} {nf : Bool} {sp net : Nat → World S A P → Option (World S A P)} (h1 : ∀ w, I w → (w 0).spaces.length = 1)
    (h2 : ∀ pid w w', I w → net pid w = some w' → I w') (h3 : ∀ pid w w', I' w → net pid w = some w' → I' w') (h4 : ∀ w w', I w → sp 0 w = some w' → I' w')
    {w w' : World S A P} (hi : I w) (e : eachProj nf sp net w = some w') : I' w' := by
  unfold eachProj at e
  split at e
  · obtain ⟨w1, e1, e2⟩ := Option.bind_eq_some_iff.1 e
    have := eachNet_inv h2 hi e1
    rw [eachSpace_one (h1 _ this)] at e2
    exact h4 _ _ this e2
  · obtain ⟨w1, e1, e2⟩ := Option.bind_eq_some_iff.1 e
    rw [eachSpace_one (h1 _ hi)] at e1
    exact eachNet_inv h3 (h4 _ _ hi e1) e2

/-! ### The invariant -/

/-- The agents of rank `r`. -/
def loOf (ag : Nat → Option (Nat × S × Option Q)) (r u : Nat) : Option (S × Option Q) := (ag u).bind fun x => if x.1 = r then some x.2 else none

theorem loOf_some {ag : Nat → Option (Nat × S × Option Q)} {r u : Nat} {y : S × Option Q} : loOf ag r u = some y ↔ ag u = some (r, y) := by
  unfold loOf
  cases h : ag u with
  | none => simp
  | some x =>
    obtain ⟨k, y'⟩ := x
    simp only [Option.bind_some, Option.some.injEq, Prod.mk.injEq]
    split <;> simp_all

theorem loOf_none {ag : Nat → Option (Nat × S × Option Q)} {r k u : Nat} {y : S × Option Q} (h : ag u = some (k, y)) (hne : k ≠ r) : loOf ag r u = none := by
  unfold loOf; simp [h, hne]

theorem loOf_dead {ag : Nat → Option (Nat × S × Option Q)} {r u : Nat} (h : ag u = none) : loOf ag r u = none := by
  unfold loOf; simp [h]

/-- All ranks: `ag` has the rank, the state and the location of each agent. -/
structure WJ (K : Kind G P) (w : World S A P) (ag : Nat → Option (Nat × S × Option Q)) (gh : Option (Nat → Nat → Option Q)) (used : Nat → Prop) (cl : Prop) : Prop where
  j : ∀ r < G.n, J K r (w r) (loOf ag r) (gh.map fun f => f r) used (fun u => ag u = none) cl
  lt : ∀ u x, ag u = some x → x.1 < G.n

variable {K : Kind G P} {w w' : World S A P} {ag : Nat → Option (Nat × S × Option Q)} {gh : Option (Nat → Nat → Option Q)} {used : Nat → Prop} {cl : Prop}

theorem WJ.one (h : WJ K w ag gh used cl) : (w 0).spaces.length = 1 := by
  obtain ⟨g, e, -⟩ := (h.j 0 K.n_pos).sp
  rw [e]; rfl

theorem WJ.is_used (h : WJ K w ag gh used cl) {u : Nat} {x : Nat × S × Option Q} (e : ag u = some x) : used u :=
  (h.j x.1 (h.lt u x e)).is_used (by rw [(loOf_some (y := x.2)).2 e]; rfl)

theorem WJ.valid (h : WJ K w ag gh used cl) {u r : Nat} {s : S} {q : Q} (e : ag u = some (r, s, some q)) : G.valid q := by
  obtain ⟨g, eg, hg⟩ := (h.j r (h.lt u _ e)).sp
  exact K.valid hg.ok (hg.lo u (some q) (by simp only [loOf_some.2 e]; rfl))

theorem WJ.keeps (h : WJ K w ag gh used cl) (hk : ∀ r, Keeps (w r).nc (w' r).nc ∧ (w' r).spaces = (w r).spaces) : WJ K w' ag gh used cl :=
  ⟨fun r hr => (h.j r hr).keeps (hk r).1 (hk r).2, h.lt⟩

theorem WJ.exchange {M : Type} (h : WJ K w ag gh used cl) {send : Mx S A P → Option (Mx S A P × List (Nat × M))} {recv1 : Mx S A P → Nat × M → Option (Mx S A P)}
    (h1 : ∀ c x, send c = some x → Keeps c.nc x.1.nc ∧ x.1.spaces = c.spaces) (h2 : ∀ c m c', recv1 c m = some c' → Keeps c.nc c'.nc ∧ c'.spaces = c.spaces)
    (e : Mixed.exchange G.n send recv1 w = some w') : WJ K w' ag gh used cl := by
  obtain ⟨w1, out, a, b⟩ := mexchange_all e
  refine ⟨?_, h.lt⟩
  intro r hr
  have k1 := h1 _ _ (a r hr)
  have k2 := Context.foldlM_inv (P := fun x : Mx S A P => Keeps (w1 r).nc x.nc ∧ x.spaces = (w1 r).spaces) (by
    intro b m b' hb hf
    have := h2 b m b' hf
    exact ⟨hb.1.trans this.1, this.2.trans hb.2⟩) _ _ _ ⟨Keeps.rfl, rfl⟩ (b r hr)
  exact (h.j r hr).keeps (k1.1.trans k2.1) (k2.2.trans k1.2)

/-! ### `_pre_synch_ghosts` -/

theorem onNet_keeps {c c' : Mx S A P} {f : Network.Cx S A → Option (Network.Cx S A)} (hf : ∀ n', f c.nc = some n' → Keeps c.nc n') (e : c.onNet f = some c') :
    Keeps c.nc c'.nc ∧ c'.spaces = c.spaces := by
  obtain ⟨n', hn, rfl⟩ := Option.map_eq_some_iff.1 e
  exact ⟨hf n' hn, rfl⟩

theorem refOne_keeps {n pid : Nat} {acc x : Mx S A P × List (Nat × Nat)} {o : Obj} (e : Mx.refOne n pid acc o = some x) : Keeps acc.1.nc x.1.nc ∧ x.1.spaces = acc.1.spaces := by
  unfold Mx.refOne at e
  obtain ⟨N, -, e⟩ := Option.bind_eq_some_iff.1 e
  split at e
  · obtain ⟨c, e1, e⟩ := Option.bind_eq_some_iff.1 e
    split at e
    · cases e
      refine ⟨?_, rfl⟩
      show Keeps acc.1.nc c
      split at e1
      · cases e1; exact refGhost_keeps _ _
      · obtain ⟨s, -, rfl⟩ := Option.map_eq_some_iff.1 e1
        exact addGhost_keeps _ _ _ _
    · cases e
  · cases e; exact ⟨Keeps.rfl, rfl⟩

theorem sendRefs_keeps {n pid : Nat} {c : Mx S A P} {x : Mx S A P × List (Nat × Nat)} (e : c.sendRefs n pid = some x) : Keeps c.nc x.1.nc ∧ x.1.spaces = c.spaces := by
  unfold Mx.sendRefs at e
  obtain ⟨N, -, e⟩ := Option.bind_eq_some_iff.1 e
  obtain ⟨y, e1, e⟩ := Option.bind_eq_some_iff.1 e
  obtain ⟨c2, e2, rfl⟩ := Option.map_eq_some_iff.1 e
  have k1 := Context.foldlM_inv (P := fun x : Mx S A P × List (Nat × Nat) => Keeps c.nc x.1.nc ∧ x.1.spaces = c.spaces) (by
    intro b m b' hb hf
    have := refOne_keeps hf
    exact ⟨hb.1.trans this.1, this.2.trans hb.2⟩) _ (c, []) _ ⟨Keeps.rfl, rfl⟩ e1
  have k2 := onNet_keeps (fun _ => withNet_keeps) e2
  exact ⟨k1.1.trans k2.1, k2.2.trans k1.2⟩

theorem WJ.preNet (h : WJ K w ag gh used cl) {pid : Nat} (e : preNet G.n pid w = some w') : WJ K w' ag gh used cl :=
  h.exchange (fun _ _ => sendRefs_keeps) (fun _ _ _ => onNet_keeps fun _ => tag_keeps) e

theorem WJ.preSpace (h : WJ K w ag gh used cl) (e : each G.n (fun r => (w r).preSpace 0) w = some w') : WJ K w' ag (some fun _ _ => none) used True :=
  ⟨fun r hr => (h.j r hr).preSpace (meach_all e r hr), h.lt⟩

theorem WJ.preSynch (h : WJ K w ag gh used cl) {nf : Bool} (e : preSynch G.n nf w = some w') : WJ K w' ag (some fun _ _ => none) used True :=
  eachProj_inv (I := fun w => WJ K w ag gh used cl) (I' := fun w => WJ K w ag (some fun _ _ => none) used True) (fun _ h => h.one) (fun _ _ _ h => h.preNet) (fun _ _ _ h => h.preNet)
    (fun _ _ h => h.preSpace) h e

theorem J.noBuf {r : Nat} {c : Mx S A P} {lo : Nat → Option (S × Option Q)} {gh : Option (Nat → Option Q)} {dead : Nat → Prop} (h : J K r c lo gh used dead cl) (h0 : G.buf = 0) :
    J K r c lo (some fun _ => none) used dead True := by
  obtain ⟨g, eg, hg⟩ := h.sp
  have hb0 := hg.buf0 h0
  refine ⟨h.rank, h.ok, h.loc, h.removed, g, eg, hg.ok, hg.lo, hg.buf, ?_, hg.nl, hg.bused, hg.used, hg.buf0, fun _ => hb0⟩
  rintro f ⟨⟩ u hu
  cases hw : Proj.where_ g.sp u with
  | none => rfl
  | some o =>
    cases o with
    | none => rfl
    | some q =>
      have := hg.buf u q hu hw
      rw [hb0] at this
      simp at this

theorem WJ.noBuf (h : WJ K w ag gh used cl) (h0 : G.buf = 0) : WJ K w ag (some fun _ _ => none) used True := ⟨fun r hr => (h.j r hr).noBuf h0, h.lt⟩

/-! ### The movement of agents that are out of bounds -/

/-- Agents at different locations. -/
def AgApart (ag : Nat → Option (Nat × S × Option Q)) : Prop := ∀ u v x y q, ag u = some x → ag v = some y → x.2.2 = some q → y.2.2 = some q → u = v

theorem AgApart.homes (h : AgApart ag) : AgApart fun u => (ag u).map (home G) := by
  intro u v x y q hx hy h1 h2
  obtain ⟨x', hx', rfl⟩ := Option.map_eq_some_iff.1 hx
  obtain ⟨y', hy', rfl⟩ := Option.map_eq_some_iff.1 hy
  rw [home_loc] at h1 h2
  exact h u v x' y' q hx' hy' h1 h2

theorem WJ.moveOob (hre : Readd K) (hx : G.excl → AgApart ag) (h : WJ K w ag (some fun _ _ => none) used True)
    {x : World S A P × (Nat → List Nat) × (Nat → List (Nat × Nat))} (e : moveOob G.n w = some x) :
    WJ K x.1 (fun u => (ag u).map (home G)) (some fun _ _ => none) used True := by
  have hown : ∀ {u r s q}, ag u = some (r, s, some q) → G.owner q < G.n ∧ G.inside (G.owner q) q = true ∧ (G.inside r q = true → r = G.owner q) := by
    intro u r s q e
    obtain ⟨a1, a2, a3⟩ := K.owner_spec (h.valid e)
    exact ⟨a1, a2, a3 r (h.lt u _ e)⟩
  unfold Mixed.moveOob at e
  simp only at e
  obtain ⟨w1, e1, e2⟩ := Option.bind_eq_some_iff.1 e
  obtain ⟨w2, e3, rfl⟩ := Option.map_eq_some_iff.1 e2
  have hg : ∀ r < G.n, ∃ y, (w r).gatherOob G.n = some y ∧ w1 r = y.1 := by
    intro r hr
    obtain ⟨y, hy, hy2⟩ := Option.map_eq_some_iff.1 (meach_all e1 r hr)
    exact ⟨y, nth_map hy, hy2.symm⟩
  -- the messages of the ranks
  obtain ⟨out, hout⟩ : ∃ out : Nat → List (Nat × OobMsg S Q), out = fun r => oobOut (((List.range G.n).map fun r => (w r).gatherOob G.n)[r]?.bind id : Option (Mx S A P × List (Nat × OobMsg S Q) × List (Nat × Nat))) := ⟨_, rfl⟩
  have ho : ∀ r < G.n, ∀ y, (w r).gatherOob G.n = some y → out r = y.2.1 := by
    intro r hr y hy
    rw [hout]
    simp [hr, hy, oobOut]
  have hproc : ∀ r < G.n, ∃ y, ((recv G.n out r).map (·.2)).foldlM Mx.processOne (w1 r, ([] : List Nat)) = some y ∧ w2 r = y.1 := by
    intro r hr
    obtain ⟨y, hy, hy2⟩ := Option.map_eq_some_iff.1 (meach_all e3 r hr)
    rw [hout]
    exact ⟨y, nth_map hy, hy2.symm⟩
  have hm : ∀ r < G.n, (out r |>.map fun m => m.2.uid).Nodup ∧ ∃ d : Nat → Option (Dict Int), ∀ k m, (k, m) ∈ out r ↔
      ∃ s q, loOf ag r m.uid = some (s, some q) ∧ G.inside r q = false ∧ k = G.owner q ∧ m = ⟨m.uid, some (s, d m.uid), 0, q⟩ := by
    intro r hr
    obtain ⟨y, hy, -⟩ := hg r hr
    obtain ⟨-, a, d, b⟩ := (h.j r hr).gather hy
    rw [ho r hr y hy]
    exact ⟨a, d, b⟩
  have hrecv : ∀ k < G.n, ∀ m : OobMsg S Q, m ∈ (recv G.n out k).map (·.2) →
      ∃ r s q d, m = ⟨m.uid, some (s, d), 0, q⟩ ∧ ag m.uid = some (r, s, some q) ∧ r ≠ k ∧ G.owner q = k := by
    intro k hk m hmm
    obtain ⟨⟨r, m'⟩, hrm, rfl⟩ := List.mem_map.1 hmm
    obtain ⟨hr, hmem⟩ := mem_recv.1 hrm
    obtain ⟨-, d, hd⟩ := hm r hr
    obtain ⟨s, q, a1, a2, a3, a4⟩ := (hd k m').1 hmem
    refine ⟨r, s, q, _, a4, loOf_some.1 a1, ?_, a3.symm⟩
    rintro rfl
    have := (hown (loOf_some.1 a1)).2.1
    rw [← a3, a2] at this
    cases this
  have hsend : ∀ u r s q, ag u = some (r, s, some q) → r ≠ G.owner q → ∃ d, (⟨u, some (s, d), 0, q⟩ : OobMsg S Q) ∈ (recv G.n out (G.owner q)).map (·.2) := by
    intro u r s q hu hne
    have hr := h.lt u _ hu
    obtain ⟨-, d, hd⟩ := hm r hr
    refine ⟨d u, List.mem_map.2 ⟨(r, ⟨u, some (s, d u), 0, q⟩), mem_recv.2 ⟨hr, (hd _ _).2 ⟨s, q, loOf_some.2 hu, ?_, rfl, rfl⟩⟩, rfl⟩⟩
    cases hi : G.inside r q with
    | false => rfl
    | true => exact absurd ((hown hu).2.2 hi) hne
  refine ⟨?_, ?_⟩
  · intro k hk
    obtain ⟨y, hy, hy2⟩ := hproc k hk
    obtain ⟨z, hz, hz2⟩ := hg k hk
    obtain ⟨jz, -⟩ := (h.j k hk).gather hz
    show J K k (w2 k) _ _ _ _ _
    rw [hy2]
    rw [hz2] at hy
    refine J.process hre _ _ _ (loOf (fun u => (ag u).map (home G)) k) _ _ (jz.congr (fun _ => rfl) (fun _ h => h) (fun u _ hd => ?_) (fun h => h)) ?_ ?_ ?_ ?_ hy
    · show (ag u).map (home G) = none
      rw [show ag u = none from hd]; rfl
    · -- no agent arrives twice
      refine recv_nodup (n := G.n) (send := out) (k := k) (fun m : OobMsg S Q => m.uid) ?_ ?_
      · intro r hr
        have := (hm r hr).1
        refine List.Nodup.sublist ?_ this
        exact List.Sublist.map _ List.filter_sublist
      · intro r hr r' hr' m m' h1 h2 he
        obtain ⟨-, d, hd⟩ := hm r hr
        obtain ⟨-, d', hd'⟩ := hm r' hr'
        obtain ⟨s, q, a1, -⟩ := (hd k m).1 h1
        obtain ⟨s', q', b1, -⟩ := (hd' k m').1 h2
        replace a1 := loOf_some.1 a1
        replace b1 := loOf_some.1 b1
        rw [he, b1] at a1
        simp only [Option.some.injEq, Prod.mk.injEq] at a1
        exact a1.1.symm
    · intro m hmm
      obtain ⟨r, s, q, d, a1, a2, a3, a4⟩ := hrecv k hk m hmm
      refine ⟨by rw [a1], ?_, by rw [a1]; exact h.valid a2, h.is_used a2, ?_, s, d, by rw [a1], ?_⟩
      · have : loOf ag k m.uid = none := loOf_none a2 a3
        simp [this]
      · rw [a2]; simp
      · rw [loOf_some, a2, a1]
        simp only [Option.map_some, home, a4]
    · intro u hu
      cases hau : ag u with
      | none =>
        have : loOf ag k u = none := loOf_dead hau
        rw [this, loOf_dead (by simp [hau])]
        simp
      | some y =>
        obtain ⟨r, s, l⟩ := y
        cases l with
        | none =>
          have h1 : loOf (fun u => (ag u).map (home G)) k u = loOf ag k u := by
            unfold loOf; simp [hau, home]
          rw [h1]
          split
          · rename_i hc
            obtain ⟨y, hy, q, hq, -⟩ := hc
            replace hy := loOf_some.1 hy
            rw [hau] at hy
            simp only [Option.some.injEq, Prod.mk.injEq] at hy
            rw [← hy.2] at hq
            cases hq
          · rfl
        | some q =>
          have hau' : (fun u => (ag u).map (home G)) u = some (G.owner q, s, some q) := by simp [hau, home]
          by_cases hrk : r = k
          · subst hrk
            have hl := loOf_some.2 hau
            by_cases hi : G.inside r q = true
            · have hrq := (hown hau).2.2 hi
              rw [if_neg]
              · rw [hl, loOf_some]
                exact hau'.trans (by rw [← hrq])
              · rintro ⟨y, hy, q', hq', hi'⟩
                rw [hl] at hy
                cases hy
                cases hq'
                rw [hi] at hi'
                cases hi'
            · rw [if_pos ⟨_, hl, q, rfl, by simpa using hi⟩]
              refine loOf_none hau' ?_
              intro e
              have := (hown hau).2.1
              rw [e] at this
              exact hi this
          · have hl : loOf ag k u = none := loOf_none hau hrk
            rw [hl]
            simp only [reduceCtorEq, false_and, exists_false, if_false]
            refine loOf_none hau' ?_
            intro e
            obtain ⟨d, hd⟩ := hsend u r s q hau (by rw [e]; exact hrk)
            rw [e] at hd
            exact hu (List.mem_map.2 ⟨_, hd, rfl⟩)
    · intro he u v q hu hv
      obtain ⟨x, hx1, hx2⟩ := Option.map_eq_some_iff.1 hu
      obtain ⟨y, hy1, hy2⟩ := Option.map_eq_some_iff.1 hv
      exact (hx he).homes (G := G) u v _ _ q (loOf_some.1 hx1) (loOf_some.1 hy1) hx2 hy2
  · intro u x hx
    obtain ⟨y, hy, rfl⟩ := Option.map_eq_some_iff.1 hx
    obtain ⟨r, s, l⟩ := y
    cases l with
    | none => exact h.lt u _ hy
    | some q => exact (hown hy).1

/-! ### Ghosts -/

theorem WJ.updateGhosts (h : WJ K w ag gh used cl) (hf : ∀ f, gh = some f → ∀ r u, ag u = none → f r u = none) (e : updateGhosts G.n w = some w') : WJ K w' ag gh used cl := by
  unfold Mixed.updateGhosts at e
  obtain ⟨w1, e1, e2⟩ := Option.bind_eq_some_iff.1 e
  have h1 : WJ K w1 ag gh used cl := by
    obtain ⟨v, out, a, b⟩ := mexchange_all e1
    refine ⟨?_, h.lt⟩
    have hout : ∀ r < G.n, (∀ m ∈ out r, ag m.2 = none) ∧ J K r (v r) (loOf ag r) (gh.map fun f => f r) used (fun u => ag u = none) cl := by
      intro r hr
      obtain ⟨x, hx, hx2⟩ := Option.map_eq_some_iff.1 (a r hr)
      unfold Network.Cx.sendRemovedAgents at hx
      simp only at hx
      split at hx
      · cases hx
        simp only [Prod.mk.injEq] at hx2
        obtain ⟨hv, ho⟩ := hx2
        refine ⟨?_, ?_⟩
        · intro m hm
          rw [← ho] at hm
          obtain ⟨d, hd, hm⟩ := List.mem_flatMap.1 hm
          obtain ⟨k, -, rfl⟩ := List.mem_map.1 hm
          exact ((h.j r hr).removed d hd).2
        · rw [← hv]
          have hj := h.j r hr
          exact ⟨hj.rank, hj.ok, hj.loc, by simp, hj.sp⟩
      · cases hx
    intro r hr
    have hms : ∀ m ∈ recv G.n out r, ag m.2 = none := by
      intro m hm
      obtain ⟨h1, h2⟩ := mem_recv.1 hm
      exact (hout m.1 h1).1 (r, m.2) h2
    have key : ∀ (ms : List (Nat × Nat)) (c c' : Mx S A P), (∀ m ∈ ms, ag m.2 = none) → J K r c (loOf ag r) (gh.map fun f => f r) used (fun u => ag u = none) cl →
        ms.foldlM (fun c m => c.dropGhost m.2) c = some c' → J K r c' (loOf ag r) (gh.map fun f => f r) used (fun u => ag u = none) cl := by
      intro ms
      induction ms with
      | nil => intro c c' _ h e; cases e; exact h
      | cons m ms ih =>
        intro c c' hd h e
        rw [List.foldlM_cons, Option.bind_eq_bind] at e
        obtain ⟨c1, e1, e2⟩ := Option.bind_eq_some_iff.1 e
        refine ih c1 c' (fun m hm => hd m (by simp [hm])) (h.dropGhost (loOf_dead (hd m (by simp))) ?_ e1) e2
        intro f hf1
        obtain ⟨f', hf2, rfl⟩ := Option.map_eq_some_iff.1 hf1
        exact hf f' hf2 r m.2 (hd m (by simp))
    exact key _ _ _ hms (hout r hr).2 (b r hr)
  refine h1.exchange ?_ (fun _ _ _ => onNet_keeps fun _ => updateGhost_keeps) e2
  intro c x hx
  obtain ⟨y, -, rfl⟩ := Option.map_eq_some_iff.1 hx
  exact ⟨Keeps.rfl, rfl⟩

open Classical in
/-- The locations of ghosts on rank `k`: those of the agents of other ranks in the buffer of `k`. -/
noncomputable def ghOf (G : Geo Q) (ag : Nat → Option (Nat × S × Option Q)) (k u : Nat) : Option Q :=
  (ag u).bind fun x => x.2.2.bind fun q => if 0 < G.buf ∧ x.1 ≠ k ∧ G.near k q then some q else none

theorem ghOf_some {k u : Nat} {q : Q} : ghOf G ag k u = some q ↔ 0 < G.buf ∧ ∃ r s, ag u = some (r, s, some q) ∧ r ≠ k ∧ G.near k q := by
  unfold ghOf
  cases ag u with
  | none => simp
  | some x =>
    obtain ⟨r, s, l⟩ := x
    cases l with
    | none => simp
    | some q' =>
      simp only [Option.bind_some, Option.some.injEq, Prod.mk.injEq]
      constructor
      · intro e
        split at e
        · rename_i hc
          cases e
          exact ⟨hc.1, r, s, ⟨rfl, rfl, rfl⟩, hc.2⟩
        · cases e
      · rintro ⟨h0, r', s', ⟨rfl, rfl, rfl⟩, h1, h2⟩
        rw [if_pos ⟨h0, h1, h2⟩]

theorem J.unclean {r : Nat} {c : Mx S A P} {lo : Nat → Option (S × Option Q)} {gh : Option (Nat → Option Q)} {dead : Nat → Prop} (h : J K r c lo gh used dead cl) :
    J K r c lo gh used dead False := h.congr (fun _ => rfl) (fun _ h => h) (fun _ _ h => h) False.elim

theorem WJ.synchSpace (hre : Readd K) (hx : G.excl → AgApart ag) (hin : ∀ u r s q, ag u = some (r, s, some q) → G.inside r q = true)
    (h : WJ K w ag (some fun _ _ => none) used cl) (e : synchSpace G.n 0 w = some w') : WJ K w' ag (some (ghOf G ag)) used False := by
  have hbuf : ∀ r < G.n, ∃ g, (w r).spaces = [g] ∧ Proj.bufSize g.sp = G.buf := by
    intro r hr
    obtain ⟨g, eg, hg⟩ := (h.j r hr).sp
    exact ⟨g, eg, K.bufSize hg.ok⟩
  unfold Mixed.synchSpace at e
  split at e
  · rename_i hall
    have h0 : 0 < G.buf := by
      rw [List.all_eq_true] at hall
      have := hall 0 (List.mem_range.2 K.n_pos)
      obtain ⟨g, eg, hg⟩ := hbuf 0 K.n_pos
      rw [eg] at this
      simp only [List.getElem?_cons_zero, decide_eq_true_eq, hg] at this
      exact this
    obtain ⟨v, out, a, b⟩ := mexchange_all e
    have hm : ∀ r < G.n, v r = w r ∧ (∀ k u q, (∃ s, (k, u, s, q) ∈ out r) ↔ (loOf ag r u).map (·.2) = some (some q) ∧ k < G.n ∧ k ≠ r ∧ G.near k q) ∧
        ∀ k, (((out r).filter (fun m => decide (m.1 = k))).map fun m => m.2.1).Nodup := by
      intro r hr
      obtain ⟨l, hl, hl2⟩ := Option.map_eq_some_iff.1 (a r hr)
      simp only [Prod.mk.injEq] at hl2
      obtain ⟨hv, rfl⟩ := hl2
      obtain ⟨m1, m2⟩ := (h.j r hr).msgs h0 hr (fun u s q hu => hin u r s q (loOf_some.1 hu)) hl
      exact ⟨hv.symm, m1, m2⟩
    have hloc : ∀ r u q, (loOf ag r u).map (·.2) = some (some q) ↔ ∃ s, ag u = some (r, s, some q) := by
      intro r u q
      rw [Option.map_eq_some_iff]
      constructor
      · rintro ⟨⟨s, l⟩, h1, h2⟩
        simp only at h2
        subst h2
        exact ⟨s, loOf_some.1 h1⟩
      · rintro ⟨s, hs⟩; exact ⟨_, loOf_some.2 hs, rfl⟩
    refine ⟨?_, h.lt⟩
    intro k hk
    have hrecv : ∀ u q, (∃ r s, (r, u, s, q) ∈ recv G.n out k) ↔ ghOf G ag k u = some q := by
      intro u q
      rw [ghOf_some]
      constructor
      · rintro ⟨r, s, hm1⟩
        obtain ⟨hr, hm2⟩ := mem_recv.1 hm1
        obtain ⟨a1, -, a2, a3⟩ := ((hm r hr).2.1 k u q).1 ⟨s, hm2⟩
        obtain ⟨s', hs'⟩ := (hloc r u q).1 a1
        exact ⟨h0, r, s', hs', fun e => a2 e.symm, a3⟩
      · rintro ⟨-, r, s, hs, h1, h2⟩
        have hr := h.lt u _ hs
        obtain ⟨s', hs'⟩ := ((hm r hr).2.1 k u q).2 ⟨(hloc r u q).2 ⟨s, hs⟩, hk, fun e => h1 e.symm, h2⟩
        exact ⟨r, s', mem_recv.2 ⟨hr, hs'⟩⟩
    have hb := b k hk
    rw [(hm k hk).1] at hb
    refine J.buffer hre h0 (recv G.n out k) (w k) (w' k) (fun _ => none) (ghOf G ag k) (h.j k hk).unclean ?_ ?_ ?_ ?_ hb
    · have := recv_nodup (n := G.n) (send := out) (k := k) (fun m : Nat × S × Q => m.1) (fun r hr => (hm r hr).2.2 k) (by
        intro r hr r' hr' m m' h1 h2 he
        obtain ⟨u, s, q⟩ := m
        obtain ⟨u', s', q'⟩ := m'
        obtain ⟨s1, b1⟩ := (hloc r u q).1 (((hm r hr).2.1 k u q).1 ⟨s, h1⟩).1
        obtain ⟨s2, b2⟩ := (hloc r' u' q').1 (((hm r' hr').2.1 k u' q').1 ⟨s', h2⟩).1
        simp only at he
        rw [he, b2] at b1
        simp only [Option.some.injEq, Prod.mk.injEq] at b1
        exact b1.1.symm)
      simpa [List.map_map, Function.comp_def] using this
    · rintro ⟨r, u, s, q⟩ hmm
      have hg := (hrecv u q).1 ⟨r, s, hmm⟩
      obtain ⟨-, r', s', hs', h1, h2⟩ := ghOf_some.1 hg
      exact ⟨loOf_none hs' h1, rfl, h.is_used hs', h.valid hs', hg⟩
    · intro u hu
      cases hg : ghOf G ag k u with
      | none => rfl
      | some q =>
        exfalso
        obtain ⟨r, s, hmm⟩ := (hrecv u q).2 hg
        exact hu (List.mem_map.2 ⟨_, hmm, rfl⟩)
    · intro he u v q hu hv
      have hat : ∀ u, ((loOf ag k u).map (·.2)).or ((ghOf G ag k u).map some) = some (some q) → ∃ x, ag u = some x ∧ x.2.2 = some q := by
        intro u hu
        cases hl : loOf ag k u with
        | some y =>
          rw [hl] at hu
          simp only [Option.map_some, Option.some_or, Option.some.injEq] at hu
          exact ⟨_, loOf_some.1 hl, hu⟩
        | none =>
          rw [hl] at hu
          simp only [Option.map_none, Option.none_or, Option.map_eq_some_iff, Option.some.injEq, exists_eq_right] at hu
          obtain ⟨-, r, s, hs, -⟩ := ghOf_some.1 hu
          exact ⟨_, hs, rfl⟩
      obtain ⟨x, hx1, hx2⟩ := hat u hu
      obtain ⟨y, hy1, hy2⟩ := hat v hv
      exact hx he u v x y q hx1 hy1 hx2 hy2
  · rename_i hall
    cases e
    have h0 : G.buf = 0 := by
      apply Classical.byContradiction
      intro hne
      apply hall
      rw [List.all_eq_true]
      intro r hr
      obtain ⟨g, eg, hg⟩ := hbuf r (List.mem_range.1 hr)
      rw [eg]
      simp only [List.getElem?_cons_zero, decide_eq_true_eq, hg]
      omega
    have : ghOf G ag = fun _ _ => none := by
      funext k u
      cases hg : ghOf G ag k u with
      | none => rfl
      | some q => have := (ghOf_some.1 hg).1; omega
    rw [this]
    exact ⟨fun r hr => (h.j r hr).unclean, h.lt⟩

theorem ghOf_dead {u : Nat} (h : ag u = none) (k : Nat) : ghOf G ag k u = none := by
  unfold ghOf; rw [h]; rfl

theorem WJ.synchGhosts (hre : Readd K) (hx : G.excl → AgApart ag) (hin : ∀ u r s q, ag u = some (r, s, some q) → G.inside r q = true) {nf : Bool}
    (h : WJ K w ag (some fun _ _ => none) used cl) (e : synchGhosts G.n nf w = some w') : WJ K w' ag (some (ghOf G ag)) used False := by
  unfold Mixed.synchGhosts at e
  obtain ⟨w1, e1, e2⟩ := Option.bind_eq_some_iff.1 e
  have h1 := h.updateGhosts (by rintro f ⟨⟩ _ _ _; rfl) e1
  exact eachProj_inv (I := fun w => WJ K w ag (some fun _ _ => none) used cl) (I' := fun w => WJ K w ag (some (ghOf G ag)) used False) (fun _ h => h.one)
    (fun _ _ _ h e => h.keeps (onNets_keeps (fun _ _ => synchNet_keeps) e)) (fun _ _ _ h e => h.keeps (onNets_keeps (fun _ _ => synchNet_keeps) e))
    (fun _ _ h e => h.synchSpace hre hx hin e) h1 e2

theorem WJ.afterMoved (h : WJ K w ag gh used cl) (hf : ∀ f, gh = some f → ∀ r u, ag u = none → f r u = none) (e : afterMoved G.n w = some w') : WJ K w' ag gh used cl := by
  unfold Mixed.afterMoved at e
  obtain ⟨w1, e1, e2⟩ := Option.bind_eq_some_iff.1 e
  have h1 := eachNet_inv (I := fun w => WJ K w ag gh used cl) (fun _ _ _ h e => h.keeps (onNets_keeps (fun _ _ => postMoved_keeps) e)) h e1
  refine eachNet_inv (I := fun w => WJ K w ag gh used cl) ?_ h1 e2
  intro pid w w' h e
  obtain ⟨w2, e3, e⟩ := Option.bind_eq_some_iff.1 e
  obtain ⟨w3, e4, e5⟩ := Option.bind_eq_some_iff.1 e
  exact eachNet_inv (I := fun w => WJ K w ag gh used cl) (fun _ _ _ h e => h.keeps (onNets_keeps (fun _ _ => synchNet_keeps) e)) ((h.preNet e3).updateGhosts hf e4) e5

/-- What `synchronize` does to the agents and the space. -/
theorem WJ.synchronize (hre : Readd K) (hx : G.excl → AgApart ag) {nf g : Bool} (hg : g = true ∨ G.buf = 0) (h : WJ K w ag gh used cl) (e : synchronize G.n nf g w = some w') :
    WJ K w' (fun u => (ag u).map (home G)) (some (ghOf G fun u => (ag u).map (home G))) used False := by
  unfold Mixed.synchronize at e
  obtain ⟨w1, e1, e⟩ := Option.bind_eq_some_iff.1 e
  obtain ⟨x, e2, e⟩ := Option.bind_eq_some_iff.1 e
  simp only at e
  generalize (!(List.range G.n).all fun r => (x.2.2 r).isEmpty) = mv at e
  obtain ⟨w3, e3, e⟩ := Option.bind_eq_some_iff.1 e
  obtain ⟨w4, e4, e5⟩ := Option.bind_eq_some_iff.1 e
  have h1 : WJ K w1 ag (some fun _ _ => none) used True := by
    split at e1
    · exact h.preSynch e1
    · rename_i hg'
      cases e1
      rcases hg with hg | hg
      · exact absurd hg hg'
      · exact h.noBuf hg
  have h2 := h1.moveOob hre hx e2
  have h3 : WJ K w3 (fun u => (ag u).map (home G)) (some fun _ _ => none) used True := by
    split at e3
    · obtain ⟨v, e6, e7⟩ := Option.bind_eq_some_iff.1 e3
      have h4 := eachNet_inv (I := fun w => WJ K w (fun u => (ag u).map (home G)) (some fun _ _ => none) used True)
        (fun _ _ _ h e => h.keeps (onNets_keeps (fun _ _ => agentsMoved_keeps) e)) h2 e6
      exact ⟨fun r hr => (h4.j r hr).onNet (fun _ hn => foldlM_keeps (fun _ _ _ => deleteGhost_keeps) hn) (meach_all e7 r hr), h4.lt⟩
    · cases e3; exact h2
  have hin : ∀ u r s q, (fun u => (ag u).map (home G)) u = some (r, s, some q) → G.inside r q = true := by
    intro u r s q hu
    have hv := h3.valid hu
    obtain ⟨⟨r0, s0, l0⟩, h4, h5⟩ := Option.map_eq_some_iff.1 hu
    cases l0 with
    | none => simp [home] at h5
    | some q0 =>
      simp only [home, Prod.mk.injEq, Option.some.injEq] at h5
      obtain ⟨rfl, rfl, rfl⟩ := h5
      exact (K.owner_spec hv).2.1
  have h4 : WJ K w4 (fun u => (ag u).map (home G)) (some (ghOf G fun u => (ag u).map (home G))) used False := by
    split at e4
    · exact h3.synchGhosts hre (fun he => (hx he).homes) hin e4
    · rename_i hg'
      cases e4
      rcases hg with hg | hg
      · exact absurd hg hg'
      · have : ghOf G (fun u => (ag u).map (home G)) = fun _ _ => none := by
          funext k u
          cases hg2 : ghOf G (fun u => (ag u).map (home G)) k u with
          | none => rfl
          | some q => have := (ghOf_some.1 hg2).1; omega
        rw [this]
        exact ⟨fun r hr => (h3.j r hr).unclean, h3.lt⟩
  split at e5
  · exact h4.afterMoved (by rintro f ⟨⟩ r u hu; exact ghOf_dead hu r) e5
  · cases e5; exact h4

end Repast.Mixed
