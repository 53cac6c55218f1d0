import Verif.Topology.Props
import Verif.Topology.Buffer

/-! C36: the buffer zones. -/
namespace Repast.Topology
open Repast.Space

/-! ### Specification -/

/-- `v` is within `buf` of the range `[lo, lo + ext)`, around the edges of a global extent `gext` if periodic. -/
def Near1 (periodic : Bool) (gext buf lo ext v : Int) : Prop :=
  ∃ j : Int, (periodic = false → j = 0) ∧ lo - buf ≤ v + j * gext ∧ v + j * gext < lo + ext + buf

/-- `p` is within `buf` of the local bounds of rank `k`. -/
def Near (t : Topo) (buf k : Nat) (p : Pt) : Prop :=
  Near1 t.periodic t.box.xext buf (t.bounds k).xmin (t.bounds k).xext p.x ∧
  (0 < t.box.yext → Near1 t.periodic t.box.yext buf (t.bounds k).ymin (t.bounds k).yext p.y) ∧
  (0 < t.box.zext → Near1 t.periodic t.box.zext buf (t.bounds k).zmin (t.bounds k).zext p.z)

/-- The buffer size is at most the local extents, and at most half of them where two processes meet on both sides. -/
def BufFits1 (periodic : Bool) (p : Nat) (gext : Int) (buf : Nat) : Prop := (buf : Int) * p ≤ gext ∧ (periodic = true → p = 2 → (4 * buf : Int) ≤ gext)

def BufFits (t : Topo) (buf : Nat) : Prop :=
  BufFits1 t.periodic t.px t.box.xext buf ∧ (0 < t.box.yext → BufFits1 t.periodic t.py t.box.yext buf) ∧
  (0 < t.box.zext → BufFits1 t.periodic t.pz t.box.zext buf)

/-- The process grids for which the buffers are right: any grid of a space that is not periodic; of a periodic space, in one dimension any, in two
dimensions those with at least two processes in each dimension, in three dimensions those with two processes in at most one dimension. -/
def GoodGrid (t : Topo) : Prop := t.periodic = true →
  (t.nd = 1 → 2 ≤ t.px) ∧ (t.nd = 2 → 2 ≤ t.px ∧ 2 ≤ t.py) ∧
  (t.nd = 3 → ¬ (t.px = 2 ∧ t.py = 2) ∧ ¬ (t.px = 2 ∧ t.pz = 2) ∧ ¬ (t.py = 2 ∧ t.pz = 2))

/-! ### One dimension -/

theorem near1_iff {periodic : Bool} {gmin gext v : Int} {p c c' buf : Nat} (hp : 0 < p) (hg : 0 < gext) (hb : (buf : Int) * p ≤ gext)
    (hc : c < p) (hc' : c' < p) (hv : InDim gmin gext p c v) :
    Near1 periodic gext buf (cut gmin gext p c') (cut gmin gext p (c' + 1) - cut gmin gext p c') v ↔
    c' = c ∨ c' = c + 1 ∧ cut gmin gext p (c + 1) - buf ≤ v ∨ c = c' + 1 ∧ v < cut gmin gext p c + buf ∨
    periodic = true ∧ (c = 0 ∧ c' + 1 = p ∧ v < cut gmin gext p c + buf ∨ c + 1 = p ∧ c' = 0 ∧ cut gmin gext p (c + 1) - buf ≤ v) := by
  have hstep : ∀ i, cut gmin gext p i + buf ≤ cut gmin gext p (i + 1) := by
    intro i
    have h1 : 0 ≤ gext % p := Int.emod_nonneg _ (by omega)
    have h2 : (buf : Int) ≤ gext / p := by rw [Int.le_ediv_iff_mul_le (by omega)]; exact hb
    have h3 : gext / p * ((i + 1 : Nat) : Int) = gext / p * i + gext / p := by rw [Int.natCast_add, Int.mul_add]; simp
    unfold cut
    omega
  have hmono : ∀ i j, i ≤ j → cut gmin gext p i ≤ cut gmin gext p j := fun i j h => cut_mono (by omega) hp h
  have h0 := cut_zero gmin gext p hp
  have hpp := cut_all gmin gext p hp
  have hpp' : ∀ i, i + 1 = p → cut gmin gext p (i + 1) = gmin + gext := by intro i e; rw [e, hpp]
  have hbuf : (buf : Int) ≤ gext := by
    have := hstep 0
    have := hmono 1 p hp
    simp only [Nat.zero_add] at *
    omega
  unfold InDim at hv
  have a1 := hmono 0 c (by omega)
  have a2 := hmono (c + 1) p (by omega)
  have a3 := hmono 0 c' (by omega)
  have a4 := hmono (c' + 1) p (by omega)
  have s1 := hstep c
  have s2 := hstep c'
  constructor
  · rintro ⟨j, hj, n1, n2⟩
    have hj1 : j ≤ 1 := by
      apply Int.not_lt.1
      intro h
      have : 2 * gext ≤ j * gext := Int.mul_le_mul_of_nonneg_right (by omega) (by omega)
      omega
    have hj2 : -1 ≤ j := by
      apply Int.not_lt.1
      intro h
      have : j * gext ≤ (-2) * gext := Int.mul_le_mul_of_nonneg_right (by omega) (by omega)
      omega
    have hjc : j = 0 ∨ j = 1 ∨ j = -1 := by omega
    rcases hjc with rfl | rfl | rfl
    · rcases Nat.lt_trichotomy c c' with h | h | h
      · right; left
        by_cases e : c' = c + 1
        · subst e; exact ⟨rfl, by omega⟩
        · have b1 := hmono (c + 2) c' (by omega)
          have b2 : cut gmin gext p (c + 1) + buf ≤ cut gmin gext p (c + 2) := hstep (c + 1)
          omega
      · left; exact h.symm
      · right; right; left
        by_cases e : c = c' + 1
        · subst e; exact ⟨rfl, by omega⟩
        · have b1 := hmono (c' + 2) c (by omega)
          have b2 : cut gmin gext p (c' + 1) + buf ≤ cut gmin gext p (c' + 2) := hstep (c' + 1)
          omega
    · have hper : periodic = true := by
        cases periodic with
        | true => rfl
        | false => exact absurd (hj rfl) (by decide)
      right; right; right
      refine ⟨hper, .inl ?_⟩
      have hc0 : c = 0 := by
        apply Classical.byContradiction
        intro h
        have b1 := hmono 1 c (by omega)
        have b2 := hstep 0
        simp only [Nat.zero_add] at b2
        omega
      have hcp : c' + 1 = p := by
        apply Classical.byContradiction
        intro h
        have b1 := hmono (c' + 1) (p - 1) (by omega)
        have b2 := hstep (p - 1)
        rw [show p - 1 + 1 = p by omega] at b2
        omega
      refine ⟨hc0, hcp, ?_⟩
      subst hc0
      rw [hcp] at n2
      omega
    · have hper : periodic = true := by
        cases periodic with
        | true => rfl
        | false => exact absurd (hj rfl) (by decide)
      right; right; right
      refine ⟨hper, .inr ?_⟩
      have hc0 : c' = 0 := by
        apply Classical.byContradiction
        intro h
        have b1 := hmono 1 c' (by omega)
        have b2 := hstep 0
        simp only [Nat.zero_add] at b2
        omega
      have hcp : c + 1 = p := by
        apply Classical.byContradiction
        intro h
        have b1 := hmono (c + 1) (p - 1) (by omega)
        have b2 := hstep (p - 1)
        rw [show p - 1 + 1 = p by omega] at b2
        omega
      refine ⟨hcp, hc0, ?_⟩
      subst hc0
      rw [hcp]
      omega
  · rintro (h | ⟨h, h'⟩ | ⟨h, h'⟩ | ⟨hper, ⟨e1, e2, h⟩ | ⟨e1, e2, h⟩⟩)
    · subst h; exact ⟨0, fun _ => rfl, by omega, by omega⟩
    · subst h; exact ⟨0, fun _ => rfl, by omega, by omega⟩
    · subst h; exact ⟨0, fun _ => rfl, by omega, by omega⟩
    · have := hpp' c' e2
      subst e1
      exact ⟨1, by rw [hper]; simp, by omega, by omega⟩
    · have := hpp' c e1
      subst e2
      exact ⟨-1, by rw [hper]; simp, by omega, by omega⟩

/-- `v` is in the part of the range facing offset `o`. -/
def InSide (lo hi buf o v : Int) : Prop := (sideRange lo hi buf o).1 ≤ v ∧ v < (sideRange lo hi buf o).2

/-- The relation, in one dimension, of the number `n` of offsets that reach process coordinate `c'`, the difference `raw` of the coordinates, and nearness. -/
inductive DimCase (periodic : Bool) (p : Nat) (S : Int → Prop) (near : Prop) (raw : Int) (same : Prop) : Nat → Prop
  | far (h : ¬ near) : DimCase periodic p S near raw same 0
  | here (h : raw = 0) (hn : near) (hs : S 0) (hsame : same) : DimCase periodic p S near raw same 1
  | side (h : raw ≠ 0) (h2 : periodic = true → p ≠ 2) (hn : near ↔ S raw) : DimCase periodic p S near raw same 1
  | both (h : raw = 1 ∨ raw = -1) (hp : periodic = true) (h2 : p = 2) (hn : near ↔ S 1 ∨ S (-1)) (hx : ¬ (S 1 ∧ S (-1))) : DimCase periodic p S near raw same 2

theorem countP_offsets2 (periodic : Bool) (p c : Nat) (P : Int → Bool) : (offsets2 periodic p c).countP P =
    (if (periodic = true ∨ 0 < c) ∧ P (-1) = true then 1 else 0) + (if P 0 = true then 1 else 0) +
    (if (periodic = true ∨ c + 1 < p) ∧ P 1 = true then 1 else 0) := by
  have key : ∀ (q : Int → Bool), ([-1, 0, 1].filter q).countP P = (if q (-1) = true ∧ P (-1) = true then 1 else 0) + (if q 0 = true ∧ P 0 = true then 1 else 0) +
      (if q 1 = true ∧ P 1 = true then 1 else 0) := by
    intro q
    cases h1 : q (-1) <;> cases h2 : q 0 <;> cases h3 : q 1 <;> cases h4 : P (-1) <;> cases h5 : P 0 <;> cases h6 : P 1 <;> simp [h1, h2, h3, h4, h5, h6, List.filter_cons]
  unfold offsets2
  cases periodic with
  | true =>
    have := key (fun _ => true)
    rw [List.filter_eq_self.2 (by simp)] at this
    simp only [if_true]
    rw [this]
    simp
  | false =>
    simp only [Bool.false_eq_true, if_false, clipOffsets]
    rw [key]
    simp
    have e1 : (0 : Int) ≤ (c : Int) + -1 ↔ 0 < c := by omega
    have e2 : ((c : Int) + 1 < p) ↔ c + 1 < p := by omega
    simp only [e1, e2]

theorem dimCase {periodic : Bool} {gmin gext v : Int} {p c c' buf : Nat} (hp : 0 < p) (hg : 0 < gext) (hb : BufFits1 periodic p gext buf)
    (hc : c < p) (hc' : c' < p) (hv : InDim gmin gext p c v) {l : List Int}
    (hl : l = offsets2 periodic p c ∧ (periodic = true → 2 ≤ p) ∨ l = offsets3 periodic p c) :
    DimCase periodic p (fun o => InSide (cut gmin gext p c) (cut gmin gext p (c + 1)) buf o v)
      (Near1 periodic gext buf (cut gmin gext p c') (cut gmin gext p (c' + 1) - cut gmin gext p c') v)
      ((c' : Int) - c) (c' = c) (l.countP (fun d => decide (wrapCoord p (c + d) = c'))) := by
  have hn := near1_iff (periodic := periodic) hp hg hb.1 hc hc' hv
  unfold InDim at hv
  have hl' : l = offsets2 periodic p c ∧ (periodic = true → 2 ≤ p) ∨ (periodic = true ∧ p = 1 ∧ l = [0]) := by
    rcases hl with h | h
    · exact .inl h
    · unfold offsets3 at h
      unfold offsets2
      cases periodic with
      | true =>
        simp only [if_true] at h ⊢
        split at h
        · right; exact ⟨trivial, by assumption, h⟩
        · left; exact ⟨h, fun _ => by omega⟩
      | false => left; exact ⟨h, by simp⟩
  rcases hl' with ⟨hl, h2⟩ | ⟨hper, hp1, hl⟩
  · subst hl
    rw [countP_offsets2]
    simp only [decide_eq_true_eq, wrapCoord_pred hc, wrapCoord_succ hc, Int.add_zero, wrapCoord_self hc]
    by_cases e : c' = c
    · rw [if_neg (by rintro ⟨hh, h⟩; split at h <;> rcases hh with hh | hh <;> first | omega | (have := h2 hh; omega)), if_pos e.symm, if_neg (by rintro ⟨hh, h⟩; split at h <;> rcases hh with hh | hh <;> first | omega | (have := h2 hh; omega))]
      refine .here (by omega) (hn.2 (.inl e)) ?_ e
      simp only [InSide, sideRange]
      rw [if_neg (by omega), if_neg (by omega)]
      exact hv
    · rw [if_neg (Ne.symm e)]
      have hL : ∀ o : Int, (o = -1 ∨ 1 < o) → (InSide (cut gmin gext p c) (cut gmin gext p (c + 1)) buf o v ↔ v < cut gmin gext p c + buf) := by
        intro o ho
        simp only [InSide, sideRange]
        rw [if_pos ho]
        simp only []
        omega
      have hR : ∀ o : Int, (o = 1 ∨ o < -1) → (InSide (cut gmin gext p c) (cut gmin gext p (c + 1)) buf o v ↔ cut gmin gext p (c + 1) - buf ≤ v) := by
        intro o ho
        simp only [InSide, sideRange]
        rw [if_neg (by omega), if_pos ho]
        simp only []
        omega
      by_cases hleft : (periodic = true ∨ 0 < c) ∧ (if c = 0 then p - 1 else c - 1) = c'
      · rw [if_pos hleft]
        by_cases hright : (periodic = true ∨ c + 1 < p) ∧ (if c + 1 = p then 0 else c + 1) = c'
        · rw [if_pos hright]
          have hp2 : p = 2 := by
            have h1 := hleft.2
            have h2 := hright.2
            split at h1 <;> split at h2 <;> omega
          have hper : periodic = true := by
            rcases hleft.1 with h | h
            · exact h
            · rcases hright.1 with h' | h'
              · exact h'
              · omega
          refine .both (by omega) hper hp2 ?_ ?_
          · rw [hn, hL (-1) (.inl rfl), hR 1 (.inl rfl)]
            constructor
            · rintro (h | ⟨_, h⟩ | ⟨_, h⟩ | ⟨_, ⟨_, _, h⟩ | ⟨_, _, h⟩⟩)
              · exact absurd h e
              · exact .inl h
              · exact .inr h
              · exact .inr h
              · exact .inl h
            · rintro (h | h)
              · by_cases h0 : c = 0
                · exact .inr (.inl ⟨by omega, h⟩)
                · exact .inr (.inr (.inr ⟨hper, .inr ⟨by omega, by omega, h⟩⟩))
              · by_cases h0 : c = 0
                · exact .inr (.inr (.inr ⟨hper, .inl ⟨by omega, by omega, h⟩⟩))
                · exact .inr (.inr (.inl ⟨by omega, h⟩))
          · rw [hL (-1) (.inl rfl), hR 1 (.inl rfl)]
            have h4 := hb.2 hper hp2
            have hstep : cut gmin gext p c + 2 * buf ≤ cut gmin gext p (c + 1) := by
              have h1 : 0 ≤ gext % p := Int.emod_nonneg _ (by omega)
              have h2 : (2 * buf : Int) ≤ gext / p := by rw [Int.le_ediv_iff_mul_le (by omega), hp2]; omega
              have h3 : gext / p * ((c + 1 : Nat) : Int) = gext / p * c + gext / p := by rw [Int.natCast_add, Int.mul_add]; simp
              unfold cut
              omega
            omega
        · rw [if_neg hright]
          have hraw : (c' : Int) - c = -1 ∨ 1 < (c' : Int) - c := by
            have h1 := hleft.2
            split at h1
            · by_cases h3 : p = 2
              · exfalso; apply hright
                refine ⟨?_, ?_⟩
                · rcases hleft.1 with h | h
                  · exact .inl h
                  · omega
                · rw [if_neg (by omega)]; omega
              · omega
            · omega
          refine .side (by omega) ?_ ?_
          · intro hper h3
            apply hright
            refine ⟨.inl hper, ?_⟩
            have h1 := hleft.2
            split at h1 <;> split <;> omega
          · rw [hn, hL _ hraw]
            constructor
            · rintro (h | ⟨h1, h⟩ | ⟨_, h⟩ | ⟨hper, ⟨_, _, h⟩ | ⟨h1, h2, h⟩⟩)
              · exact absurd h e
              · exfalso; apply hright; exact ⟨.inr (by omega), by rw [if_neg (by omega)]; omega⟩
              · exact h
              · exact h
              · exfalso; apply hright; exact ⟨.inl hper, by rw [if_pos h1]; omega⟩
            · intro h
              have h1 := hleft.2
              by_cases h0 : c = 0
              · rw [if_pos h0] at h1
                rcases hleft.1 with hper | hh
                · exact .inr (.inr (.inr ⟨hper, .inl ⟨h0, by omega, h⟩⟩))
                · omega
              · rw [if_neg h0] at h1
                exact .inr (.inr (.inl ⟨by omega, h⟩))
      · rw [if_neg hleft]
        by_cases hright : (periodic = true ∨ c + 1 < p) ∧ (if c + 1 = p then 0 else c + 1) = c'
        · rw [if_pos hright]
          have hraw : (c' : Int) - c = 1 ∨ (c' : Int) - c < -1 := by
            have h1 := hright.2
            split at h1
            · by_cases h3 : p = 2
              · exfalso; apply hleft
                refine ⟨.inr (by omega), ?_⟩
                rw [if_neg (by omega)]; omega
              · omega
            · omega
          refine .side (by omega) ?_ ?_
          · intro hper h3
            apply hleft
            refine ⟨.inl hper, ?_⟩
            have h1 := hright.2
            split at h1 <;> split <;> omega
          · rw [hn, hR _ hraw]
            constructor
            · rintro (h | ⟨h1, h⟩ | ⟨h1, h⟩ | ⟨hper, ⟨h1, h2, h⟩ | ⟨h1, h2, h⟩⟩)
              · exact absurd h e
              · exact h
              · exfalso; apply hleft; exact ⟨.inr (by omega), by rw [if_neg (by omega)]; omega⟩
              · exfalso; apply hleft; exact ⟨.inl hper, by rw [if_pos h1]; omega⟩
              · exact h
            · intro h
              have h1 := hright.2
              by_cases h0 : c + 1 = p
              · rw [if_pos h0] at h1
                rcases hright.1 with hper | hh
                · exact .inr (.inr (.inr ⟨hper, .inr ⟨h0, by omega, h⟩⟩))
                · omega
              · rw [if_neg h0] at h1
                exact .inr (.inl ⟨by omega, h⟩)
        · rw [if_neg hright]
          refine .far ?_
          rw [hn]
          rintro (h | ⟨h1, h⟩ | ⟨h1, h⟩ | ⟨hper, ⟨h1, h2, h⟩ | ⟨h1, h2, h⟩⟩)
          · exact e h
          · apply hright; exact ⟨.inr (by omega), by rw [if_neg (by omega)]; omega⟩
          · apply hleft; exact ⟨.inr (by omega), by rw [if_neg (by omega)]; omega⟩
          · apply hleft; exact ⟨.inl hper, by rw [if_pos h1]; omega⟩
          · apply hright; exact ⟨.inl hper, by rw [if_pos h1]; omega⟩
  · subst hl
    have e : c' = c := by omega
    have : List.countP (fun d => decide (wrapCoord p ((c : Int) + d) = c')) [0] = 1 := by
      simp only [List.countP_cons, List.countP_nil, Int.add_zero, wrapCoord_self hc]
      simp [e]
    rw [this]
    refine .here (by omega) (hn.2 (.inl e)) ?_ e
    simp only [InSide, sideRange]
    rw [if_neg (by omega), if_neg (by omega)]
    exact hv

end Repast.Topology
