import Verif.Context.ManyKind
import Verif.Context.GridKind

/-! Shared grids with multiple occupancy in which agents that left the rank may have been left behind. -/
namespace Repast.Context
open Repast.Dict Repast.Space Repast.Topology

/-- The grid of rank `r` has the agents `ag`; what else it contains is outside of the bounds of `r`. -/
structure LOk (t : Topo) (r : Nat) (s : DSp) (ag : Nat → Option (Option Pt)) : Prop where
  shows : ∀ u x, ag u = some x → s.base.agents u = some x
  out : ∀ u q, ag u = none → s.base.agents u = some (some q) → (t.bounds r).contains q = false
  cells : ∀ q, (t.bounds r).contains q = true → (s.base.loc q).Nodup ∧ ∀ u, u ∈ s.base.loc q ↔ ag u = some (some q)
  oob : ∀ u, s.oob u = aim t r (ag u)
  pts : ∀ u q, ag u = some (some q) → t.box.contains q = true ∧ Flat t.box q
  old : ∀ u q, s.base.agents u = some (some q) → Flat t.box q
  wpt : Flat t.box s.base.wpt

variable {t : Topo} {r : Nat} {s : DSp} {ag : Nat → Option (Option Pt)}

theorem LOk.empty (t : Topo) (r : Nat) : LOk t r DSp.empty (fun _ => none) :=
  ⟨by simp, by intro u q _ h; simp [DSp.empty, newGrid, Sp.empty] at h, by intro q _; simp [DSp.empty, newGrid, Sp.empty], by intro u; rfl, by simp,
    by intro u q h; simp [DSp.empty, newGrid, Sp.empty] at h, ⟨fun _ => rfl, fun _ => rfl⟩⟩

theorem LOk.add (h : LOk t r s ag) {u : Nat} (hu : ag u = none) : LOk t r (dcall t false r s (.base (.add u))).1 (upd ag u (some none)) := by
  have e : (dcall t false r s (.base (.add u))).1.base.agents = upd s.base.agents u (some none) := rfl
  refine ⟨?_, ?_, ?_, ?_, ?_, ?_, h.wpt⟩
  · intro v x hv
    rw [e]
    simp only [upd] at hv ⊢
    split
    · rename_i e; rw [if_pos e] at hv; exact hv
    · rename_i e; rw [if_neg e] at hv; exact h.shows v x hv
  · intro v q hv hq
    rw [e] at hq
    simp only [upd] at hv hq
    split at hv
    · cases hv
    · rename_i e; rw [if_neg e] at hq; exact h.out v q hv hq
  · intro q hq
    refine ⟨(h.cells q hq).1, fun v => ?_⟩
    show v ∈ s.base.loc q ↔ _
    rw [(h.cells q hq).2]
    simp only [upd]
    split
    · rename_i e; rw [e, hu]; simp
    · rfl
  · intro v
    show s.oob v = _
    rw [h.oob]
    simp only [upd]
    split
    · rename_i e; rw [e, hu]; rfl
    · rfl
  · intro v q hv
    simp only [upd] at hv
    split at hv
    · simp at hv
    · exact h.pts v q hv
  · intro v q hv
    rw [e] at hv
    simp only [upd] at hv
    split at hv
    · simp at hv
    · exact h.old v q hv

theorem rem_false {c : Cfg Pt} (hc : c.single = false) (loc : Pt → List Nat) (u : Nat) (p : Pt) : (rem c loc u p).1 = upd loc p ((loc p).erase u) := by
  unfold rem
  rw [hc]
  simp only [Bool.false_eq_true, if_false]
  split
  · rfl
  · rename_i hm
    rw [List.erase_of_not_mem hm]
    funext x
    simp only [upd]
    split
    · rename_i e; rw [e]
    · rfl

/-- An agent that is removed from a cell, or from none. -/
theorem cells_erase {b : Box} {loc : Pt → List Nat} (hc : ∀ q, b.contains q = true → (loc q).Nodup ∧ ∀ u, u ∈ loc q ↔ ag u = some (some q)) (u : Nat) (p : Pt) (hp : ag u = some (some p)) :
    ∀ q, b.contains q = true → (upd loc p ((loc p).erase u) q).Nodup ∧ ∀ v, v ∈ upd loc p ((loc p).erase u) q ↔ upd ag u none v = some (some q) := by
  intro q hq
  obtain ⟨h1, h2⟩ := hc q hq
  simp only [upd]
  split
  · rename_i e
    subst e
    refine ⟨h1.erase u, fun v => ?_⟩
    rw [h1.mem_erase_iff, h2]
    split
    · rename_i e; simp [e]
    · rename_i e; simp [e]
  · rename_i e
    refine ⟨h1, fun v => ?_⟩
    rw [h2]
    split
    · rename_i e'
      subst e'
      rw [hp]
      simp only [Option.some.injEq, reduceCtorEq, iff_false]
      exact fun e' => e e'.symm
    · rfl

theorem LOk.remove (h : LOk t r s ag) {u : Nat} (hu : (ag u).isSome = true) : LOk t r (dcall t false r s (.base (.remove u))).1 (upd ag u none) := by
  have e : (dcall t false r s (.base (.remove u))).1.base.agents = upd s.base.agents u none := remove_agents _ _ _
  obtain ⟨x, hx⟩ := Option.isSome_iff_exists.1 hu
  have hx' := h.shows u x hx
  refine ⟨?_, ?_, ?_, ?_, ?_, ?_, ?_⟩
  · intro v x hv
    rw [e]
    simp only [upd] at hv ⊢
    split at hv
    · cases hv
    · rename_i e; rw [if_neg e]; exact h.shows v x hv
  · intro v q hv hq
    rw [e] at hq
    simp only [upd] at hv hq
    split at hq
    · cases hq
    · rename_i e; rw [if_neg e] at hv; exact h.out v q hv hq
  · show ∀ q, (t.bounds r).contains q = true → ((Space.remove (grid t.box t.periodic false) s.base u).1.loc q).Nodup ∧ ∀ v, v ∈ (Space.remove (grid t.box t.periodic false) s.base u).1.loc q ↔ _
    unfold Space.remove
    simp only [hx']
    cases x with
    | none =>
      intro q hq
      refine ⟨(h.cells q hq).1, fun v => ?_⟩
      simp only
      rw [(h.cells q hq).2]
      simp only [upd]
      split
      · rename_i e; rw [e, hx]; simp
      · rfl
    | some p =>
      simp only
      rw [rem_false rfl]
      exact cells_erase h.cells u p hx
  · intro v
    show upd s.oob u none v = _
    simp only [upd]
    split
    · rfl
    · exact h.oob v
  · intro v q hv
    simp only [upd] at hv
    split at hv
    · simp at hv
    · exact h.pts v q hv
  · intro v q hv
    rw [e] at hv
    simp only [upd] at hv
    split at hv
    · simp at hv
    · exact h.old v q hv
  · show Flat t.box (Space.remove (grid t.box t.periodic false) s.base u).1.wpt
    unfold Space.remove
    split
    · exact h.wpt
    · exact h.wpt
    · rename_i q hq
      exact h.old u q hq

theorem LOk.move (ht : t.Ok) (hf : t.Fits) (hfb : FlatBox t.box) (h : LOk t r s ag) {u : Nat} (hu : (ag u).isSome = true) (pt : Pt) :
    (dcall t false r s (.base (.move u pt))).2 = .loc (some (dest1 t pt)) ∧ LOk t r (dcall t false r s (.base (.move u pt))).1 (upd ag u (some (some (dest1 t pt)))) := by
  obtain ⟨hin, hfl⟩ := dest1_spec ht hfb pt
  have htr := tr_eq ht h.wpt false pt
  obtain ⟨x, hx⟩ := Option.isSome_iff_exists.1 hu
  have hx' := h.shows u x hx
  have key : ∃ s', Space.move (grid t.box t.periodic false) s.base u pt = (s', .loc (some (dest1 t pt))) ∧ s'.wpt = dest1 t pt ∧
      s'.agents = upd s.base.agents u (some (some (dest1 t pt))) ∧
      ∀ q, (t.bounds r).contains q = true → (s'.loc q).Nodup ∧ ∀ v, v ∈ s'.loc q ↔ upd ag u (some (some (dest1 t pt))) v = some (some q) := by
    unfold Space.move
    simp only [hx', htr]
    by_cases hc : x = some (dest1 t pt)
    · rw [if_pos hc]
      refine ⟨_, rfl, rfl, ?_, ?_⟩
      · exact (upd_eq (by rw [hx', hc]) (fun _ _ => rfl)).symm
      · intro q hq
        refine ⟨(h.cells q hq).1, fun v => ?_⟩
        rw [upd_eq (g := ag) (by rw [hx, hc]) (fun _ _ => rfl)]
        exact (h.cells q hq).2 v
    · rw [if_neg hc]
      have hput : put (grid t.box t.periodic false) s.base.loc u (dest1 t pt) = some (upd s.base.loc (dest1 t pt) (s.base.loc (dest1 t pt) ++ [u])) := rfl
      simp only [hput]
      refine ⟨_, rfl, rfl, rfl, ?_⟩
      simp only
      intro q hq
      obtain ⟨c1, c2⟩ := h.cells q hq
      have hnew : (upd s.base.loc (dest1 t pt) (s.base.loc (dest1 t pt) ++ [u]) q).Nodup ∧
          ∀ v, v ∈ upd s.base.loc (dest1 t pt) (s.base.loc (dest1 t pt) ++ [u]) q ↔ ag v = some (some q) ∨ (v = u ∧ q = dest1 t pt) := by
        simp only [upd]
        split
        · rename_i e
          subst e
          refine ⟨?_, fun v => ?_⟩
          · rw [List.nodup_append]
            refine ⟨c1, by simp, ?_⟩
            intro a ha b hb e
            rw [List.mem_singleton] at hb
            subst e hb
            rw [c2, hx] at ha
            simp only [Option.some.injEq] at ha
            exact hc ha
          · rw [List.mem_append, List.mem_singleton, c2]; simp
        · rename_i e
          refine ⟨c1, fun v => ?_⟩
          rw [c2]; simp [e]
      have hag : ∀ v, upd ag u (some (some (dest1 t pt))) v = some (some q) ↔ (v ≠ u ∧ ag v = some (some q)) ∨ (v = u ∧ q = dest1 t pt) := by
        intro v
        simp only [upd]
        split
        · rename_i e; simp only [Option.some.injEq, e, ne_eq, not_true_eq_false, false_and, true_and, false_or]; exact eq_comm
        · rename_i e; simp [e]
      simp only [hag]
      cases x with
      | none =>
        refine ⟨hnew.1, fun v => ?_⟩
        rw [hnew.2]
        by_cases e : v = u
        · subst e; simp [hx]
        · simp [e]
      | some p =>
        have hpq : q ≠ p ∨ q ≠ dest1 t pt := by
          by_cases e : q = p
          · subst e; right; rintro e; exact hc (by rw [e])
          · exact .inl e
        simp only
        rw [rem_false rfl]
        by_cases e : q = p
        · subst e
          rw [show upd (upd s.base.loc (dest1 t pt) (s.base.loc (dest1 t pt) ++ [u])) q ((upd s.base.loc (dest1 t pt) (s.base.loc (dest1 t pt) ++ [u]) q).erase u) q = (upd s.base.loc (dest1 t pt) (s.base.loc (dest1 t pt) ++ [u]) q).erase u from by simp [upd]]
          refine ⟨hnew.1.erase u, fun v => ?_⟩
          rw [hnew.1.mem_erase_iff, hnew.2]
          have : q ≠ dest1 t pt := by rcases hpq with h | h; exact absurd rfl h; exact h
          by_cases e : v = u <;> simp [e, this]
        · rw [show upd (upd s.base.loc (dest1 t pt) (s.base.loc (dest1 t pt) ++ [u])) p ((upd s.base.loc (dest1 t pt) (s.base.loc (dest1 t pt) ++ [u]) p).erase u) q = upd s.base.loc (dest1 t pt) (s.base.loc (dest1 t pt) ++ [u]) q from by simp [upd, e]]
          refine ⟨hnew.1, fun v => ?_⟩
          rw [hnew.2]
          by_cases e' : v = u
          · subst e'
            rw [hx]
            have : ¬ p = q := fun e' => e e'.symm
            simp [this]
          · simp [e']
  obtain ⟨s', m1, m3, m2, m4⟩ := key
  have hd : dcall t false r s (.base (.move u pt)) = (DSp.mk s' (upd s.oob u (aim t r (some (some (dest1 t pt))))), .loc (some (dest1 t pt))) := by
    show dmove _ _ _ s u pt = _
    unfold dmove
    simp only [m1]
    congr 2
    unfold aim
    by_cases hl : (t.bounds r).contains (dest1 t pt) = true
    · simp only [hl, if_true]
    · obtain ⟨k, hk, hk1, hk2, hk3⟩ := find_owner ht hf hin hl
      have hko := (owner_spec ht hf hin).2.2 k hk1 hk3
      simp only [hl, hk, hko, Bool.false_eq_true, if_false]
      funext v
      simp only [upd]
      split <;> rfl
  rw [hd]
  refine ⟨rfl, ⟨?_, ?_, m4, ?_, ?_, ?_, ?_⟩⟩
  · intro v x hv
    show s'.agents v = _
    rw [m2]
    simp only [upd] at hv ⊢
    split
    · rename_i e; rw [if_pos e] at hv; exact hv
    · rename_i e; rw [if_neg e] at hv; exact h.shows v x hv
  · intro v q hv hq
    have hq : s'.agents v = some (some q) := hq
    rw [m2] at hq
    simp only [upd] at hv hq
    split at hv
    · cases hv
    · rename_i e; rw [if_neg e] at hq; exact h.out v q hv hq
  · intro v
    show upd s.oob u (aim t r (some (some (dest1 t pt)))) v = aim t r _
    simp only [upd]
    split
    · rfl
    · exact h.oob v
  · intro v q hv
    simp only [upd] at hv
    split at hv
    · simp only [Option.some.injEq] at hv; rw [← hv]; exact ⟨hin, hfl⟩
    · exact h.pts v q hv
  · intro v q hv
    have hv : s'.agents v = some (some q) := hv
    rw [m2] at hv
    simp only [upd] at hv
    split at hv
    · simp only [Option.some.injEq] at hv; rw [← hv]; exact hfl
    · exact h.old v q hv
  · show Flat t.box s'.wpt
    rw [m3]; exact hfl

theorem LOk.clear (h : LOk t r s ag) (hn : ∀ u, aim t r (ag u) = none) : LOk t r (dcall t false r s .clear).1 ag :=
  ⟨h.shows, h.out, h.cells, fun u => (hn u).symm, h.pts, h.old, h.wpt⟩

/-- Agents are left behind: those that are out of bounds, and perhaps agents without a location. -/
theorem LOk.leave {ag' : Nat → Option (Option Pt)} (h : LOk t r s ag) (h1 : ∀ u, ag' u = ag u ∨ ag' u = none) (h2 : ∀ u, aim t r (ag u) ≠ none → ag' u = none)
    (h3 : ∀ u q, ag u = some (some q) → (t.bounds r).contains q = true → ag' u = ag u) : LOk t r (dcall t false r s .clear).1 ag' := by
  have hsub : ∀ {u x}, ag' u = some x → ag u = some x := by
    intro u x hu
    rcases h1 u with e | e
    · rw [← e]; exact hu
    · rw [hu] at e; cases e
  refine ⟨fun u x hu => h.shows u x (hsub hu), ?_, ?_, ?_, fun u q hu => h.pts u q (hsub hu), h.old, h.wpt⟩
  · intro u q hu hq
    cases hx : ag u with
    | none => exact h.out u q hx hq
    | some x =>
      have hs := h.shows u x hx
      have hq : s.base.agents u = some (some q) := hq
      rw [hs] at hq
      cases hc : (t.bounds r).contains q with
      | false => rfl
      | true =>
        have := h3 u q (by rw [hx]; exact hq) hc
        rw [hu, hx] at this
        cases this
  · intro q hq
    refine ⟨(h.cells q hq).1, fun u => ?_⟩
    show u ∈ s.base.loc q ↔ _
    rw [(h.cells q hq).2]
    exact ⟨fun e => (h3 u q e hq).trans e, hsub⟩
  · intro u
    show none = _
    rcases h1 u with e | e
    · cases ha : aim t r (ag u) with
      | none => rw [e, ha]
      | some x => rw [h2 u (by rw [ha]; simp)]; rfl
    · rw [e]; rfl

theorem LOk.sends {buf : Nat} (hs : Setting t buf) (h0 : 0 < buf) (hr : r < t.size) (h : LOk t r s ag) (hin : ∀ u q, ag u = some (some q) → (t.bounds r).contains q = true) :
    ∃ bs, t.buffers r buf = some bs ∧ (∀ k a p, k < t.size → ((a, p) ∈ sendTo t.nd bs s.base.loc k ↔ ag a = some (some p) ∧ k ≠ r ∧ Near t buf k p)) ∧
      ∀ k < t.size, (sendTo t.nd bs s.base.loc k).Nodup := by
  have ht := hs.ok
  have hf := hs.fits
  have hg := hs.good h0
  have hbf := hs.room h0
  obtain ⟨bs, hbs⟩ := buffers_some ht hf hg hbf h0 hr
  have hself : ∀ {k a p}, (a, p) ∈ sendTo t.nd bs s.base.loc k → k ≠ r := by
    intro k a p hm
    unfold sendTo at hm
    obtain ⟨b, hbm, -⟩ := List.mem_flatMap.1 hm
    obtain ⟨h1, h2⟩ := List.mem_filter.1 hbm
    obtain ⟨nb, hn1, hn2⟩ := buffers_ranks hbs h1
    have := ((C35_neighbors_partial ht (good_nd1 hg) hr nb.rank).1 ⟨nb, hn1, rfl⟩).2.1
    simp only [decide_eq_true_eq] at h2
    omega
  have hsent : ∀ {k a p}, k < t.size → k ≠ r → ag a = some (some p) →
      (Near t buf k p → (sendTo t.nd bs s.base.loc k).count (a, p) = 1) ∧ (¬ Near t buf k p → (a, p) ∉ sendTo t.nd bs s.base.loc k) := by
    intro k a p hk hne ha
    obtain ⟨c1, c2⟩ := h.cells p (hin _ _ ha)
    obtain ⟨bs', hb1, hb2, hb3⟩ := C36_sent_partial ht hf hg hbf hr hk hne s.base.loc (a := a) (hin _ _ ha) (flat_pt ht (h.pts _ _ ha).2) (by
      have h1 := List.nodup_iff_count.1 c1 a
      have h2 := List.count_pos_iff.2 ((c2 a).2 ha)
      omega)
    rw [hbs] at hb1
    cases hb1
    exact ⟨hb2, hb3⟩
  have hmem : ∀ k a p, k < t.size → ((a, p) ∈ sendTo t.nd bs s.base.loc k ↔ ag a = some (some p) ∧ k ≠ r ∧ Near t buf k p) := by
    intro k a p hk
    constructor
    · intro hm
      have hne := hself hm
      obtain ⟨a1, a2⟩ := C36_only_local_partial ht hf hbf hbs _ hm
      have ha := ((h.cells p a2).2 a).1 a1
      refine ⟨ha, hne, ?_⟩
      apply Classical.byContradiction
      intro hn
      exact (hsent hk hne ha).2 hn hm
    · rintro ⟨ha, hne, hnr⟩
      exact List.count_pos_iff.1 (by rw [(hsent hk hne ha).1 hnr]; omega)
  refine ⟨bs, hbs, hmem, ?_⟩
  intro k hk
  rw [List.nodup_iff_count]
  rintro ⟨a, p⟩
  by_cases hm : (a, p) ∈ sendTo t.nd bs s.base.loc k
  · obtain ⟨ha, hne, hnr⟩ := (hmem k a p hk).1 hm
    exact Nat.le_of_eq ((hsent hk hne ha).1 hnr)
  · rw [List.count_eq_zero.2 hm]; omega

/-- Shared grids with multiple occupancy, which may contain agents that were left behind. -/
def gridLoose {t : Topo} {buf : Nat} (hs : Setting t buf) : Loose (gridGeo t false buf) GridSp where
  new := GCfg.new ⟨t, false, buf⟩
  Ok r g ag := g.cfg = ⟨t, false, buf⟩ ∧ LOk t r g.st ag
  exact := False
  n_pos := (gridKind hs false).n_pos
  owner_spec := (gridKind hs false).owner_spec
  takes _ := True
  takes_valid _ := trivial
  dest_id := (gridKind hs false).dest_id
  new_ok r := ⟨rfl, LOk.empty t r⟩
  shows h e := h.2.shows _ _ e
  hides h := h.elim
  valid h e := h.2.pts _ _ e
  bufSize h := by
    rename_i r p ag
    show p.cfg.buf = buf
    rw [h.1]
  oob h u := by rw [gridGeo_aim]; exact h.2.oob u
  add := by
    rintro r ⟨cfg, st⟩ ag u ⟨rfl, h⟩ hu
    exact ⟨rfl, h.add hu⟩
  remove := by
    rintro r ⟨cfg, st⟩ ag u ⟨rfl, h⟩ hu
    exact ⟨rfl, h.remove hu⟩
  move := by
    rintro r ⟨cfg, st⟩ ag u ⟨rfl, h⟩ hu q - -
    obtain ⟨a, b⟩ := h.move hs.ok hs.fits hs.flat hu q
    refine ⟨⟨⟨t, false, buf⟩, (dcall t false r st (.base (.move u q))).1⟩, ?_, ⟨rfl, b⟩⟩
    have hc : GridSp.call r ⟨⟨t, false, buf⟩, st⟩ (.base (.move u q)) = (⟨⟨t, false, buf⟩, (dcall t false r st (.base (.move u q))).1⟩, .loc (some (dest1 t q))) := by
      rw [← a]; rfl
    show (match GridSp.call r ⟨⟨t, false, buf⟩, st⟩ (.base (.move u q)) with | (_, .error) => none | (g, _) => some g) = _
    rw [hc]
  clear := by
    rintro r ⟨cfg, st⟩ ag ⟨rfl, h⟩ hn
    exact ⟨rfl, h.clear (fun u => by rw [← gridGeo_aim t false buf]; exact hn u)⟩
  leave := by
    rintro r ⟨cfg, st⟩ ag ag' - ⟨rfl, h⟩ h1 h2 h3
    exact ⟨rfl, h.leave h1 (fun u hu => h2 u (by rw [gridGeo_aim]; exact hu)) h3⟩
  sends := by
    rintro r ⟨cfg, st⟩ ag h0 hr ⟨rfl, h⟩ hin
    obtain ⟨bs, a, b, c⟩ := h.sends hs h0 hr hin
    refine ⟨_, ?_, sends_spec b (fun a p q h1 h2 => by rw [h1] at h2; simpa using h2) c⟩
    show (t.buffers r buf).map _ = _
    rw [a]
    rfl

end Repast.Context
