import Verif.Topology.Props

/-! C34: agents outside of the local bounds are queued for the rank that owns their location. -/
namespace Repast.Topology
open Repast.Space

/-! ### Specification -/

/-- What the calls observed so far leave queued for agent `a`: the location outside the local bounds its last successful move led to, unless it was
removed or the queue was cleared since. -/
def queued (local_ : Box) (a : Nat) (q : Option Pt) : DOp × Res Pt → Option Pt
  | (.base (.move b _), .loc (some p)) => if b = a then (if local_.contains p then none else some p) else q
  | (.base (.remove b), _) => if b = a then none else q
  | (.clear, _) => none
  | _ => q

/-- The calls on the space itself. -/
def baseOps (ops : List DOp) : List (Op Pt) := ops.filterMap fun o => match o with
  | .base o => some o
  | .clear => none

/-- The shared space of rank `r` after the given calls, and the results of the calls. -/
def sharedGrid (t : Topo) (r : Nat) (single : Bool) (ops : List DOp) : DSp × List (DOp × Res Pt) :=
  drun (grid t.box t.periodic single) (t.bounds r) (t.allBounds r) DSp.empty ops

/-! ### Lemmas -/

theorem mem_allBounds {t : Topo} {r : Nat} {b : Box × Nat} (h : b ∈ t.allBounds r) : b.1 = t.bounds b.2 ∧
    (b.2 ∈ (t.neighbors r).map (·.rank) ∨ b.2 < t.size) := by
  unfold Topo.allBounds at h
  simp only [List.mem_append, List.mem_map] at h
  rcases h with ⟨i, h, rfl⟩ | ⟨i, h, rfl⟩
  · exact ⟨rfl, .inl (by simpa using h)⟩
  · refine ⟨rfl, .inr ?_⟩
    rw [List.mem_filter, List.mem_range] at h
    exact h.1

theorem allBounds_complete {t : Topo} {r k : Nat} (hk : k < t.size) (hne : k ≠ r) : (t.bounds k, k) ∈ t.allBounds r := by
  unfold Topo.allBounds
  simp only [List.mem_append, List.mem_map]
  by_cases h : k ∈ (t.neighbors r).map (·.rank)
  · left; exact ⟨k, by simpa using h, rfl⟩
  · right
    refine ⟨k, ?_, rfl⟩
    rw [List.mem_filter, List.mem_range]
    exact ⟨hk, by simpa [hne] using h⟩

theorem neighbors_lt {t : Topo} (h : t.Ok) {r : Nat} {n : Ngh} (hn : n ∈ t.neighbors r) : n.rank < t.size := by
  have hat : ∀ c dx dy dz, (t.at_ c dx dy dz).rank < t.size := fun c dx dy dz =>
    rankOf_lt (wrapCoord_lt h.px _) (wrapCoord_lt h.py _) (wrapCoord_lt h.pz _)
  unfold Topo.neighbors at hn
  simp only [] at hn
  split at hn
  · obtain ⟨dx, -, rfl⟩ := List.mem_map.1 hn
    exact hat _ _ _ _
  · split at hn
    · simp only [List.mem_filter, List.mem_flatMap] at hn
      obtain ⟨⟨dx, -, dy, -, hm⟩, -⟩ := hn
      split at hm
      · cases hm
      · rw [List.mem_singleton.1 hm]; exact hat _ _ _ _
    · simp only [List.mem_flatMap] at hn
      obtain ⟨dx, -, dy, -, dz, -, hm⟩ := hn
      split at hm
      · cases hm
      · rw [List.mem_singleton.1 hm]; exact hat _ _ _ _

/-- The search of `move` finds the owner of a point that is not local. -/
theorem find_owner {t : Topo} (h : t.Ok) (hf : t.Fits) {r : Nat} {q : Pt} (hq : t.box.contains q = true)
    (hl : ¬ (t.bounds r).contains q = true) :
    ∃ k, (t.allBounds r).find? (fun b => b.1.contains q) = some (t.bounds k, k) ∧ k < t.size ∧ k ≠ r ∧ (t.bounds k).contains q = true := by
  obtain ⟨k, hk, hkq, -⟩ := (C33_partition_partial h hf q).1 hq
  have hne : k ≠ r := by rintro rfl; exact hl hkq
  cases hfind : (t.allBounds r).find? (fun b => b.1.contains q) with
  | none =>
    have := List.find?_eq_none.1 hfind _ (allBounds_complete hk hne)
    exact absurd hkq this
  | some b =>
    have hb := List.mem_of_find?_eq_some hfind
    have hc := List.find?_some hfind
    obtain ⟨e, hm⟩ := mem_allBounds hb
    refine ⟨b.2, by rw [← e], ?_, ?_, by rw [← e]; exact hc⟩
    · rcases hm with hm | hm
      · obtain ⟨n, hn, e'⟩ := List.mem_map.1 hm
        rw [← e']; exact neighbors_lt h hn
      · exact hm
    · intro e'
      rw [e, e'] at hc
      exact hl hc

theorem tr_inside {t : Topo} (h : t.Ok) (single : Bool) (p w : Pt) : t.box.contains ((grid t.box t.periodic single).tr p w) = true := by
  simp only [grid]
  split
  · exact (C28_periodic h.box p w).1
  · exact (C27_sticky h.box p).1

theorem move_loc {P : Type} [DecidableEq P] {c : Cfg P} {s : Sp P} {a : Nat} {pt q : P} (h : (move c s a pt).2 = .loc (some q)) :
    q = c.tr pt s.wpt ∧ (move c s a pt).1.agents = upd s.agents a (some (some q)) := by
  cases ha : s.agents a with
  | none => simp [move, ha] at h
  | some cur =>
    simp only [move, ha] at h ⊢
    by_cases h1 : cur = some (c.tr pt s.wpt)
    · rw [if_pos h1] at h ⊢
      simp only [Res.loc.injEq, Option.some.injEq] at h
      refine ⟨h.symm, ?_⟩
      funext b
      simp only [upd]
      split
      · rename_i hb; rw [hb, ha, h1, h]
      · rfl
    · rw [if_neg h1] at h ⊢
      cases hp : put c s.loc a (c.tr pt s.wpt) with
      | none => simp [hp] at h
      | some loc =>
        simp only [hp, Res.loc.injEq, Option.some.injEq] at h ⊢
        exact ⟨h.symm, by rw [h]⟩

theorem move_noloc {P : Type} [DecidableEq P] {c : Cfg P} {s : Sp P} {a : Nat} {pt : P} (h : ∀ q, (move c s a pt).2 ≠ .loc (some q)) :
    (move c s a pt).1.agents = s.agents := by
  cases ha : s.agents a with
  | none => simp [move, ha]
  | some cur =>
    simp only [move, ha] at h ⊢
    by_cases h1 : cur = some (c.tr pt s.wpt)
    · rw [if_pos h1] at h; exact absurd rfl (h _)
    · rw [if_neg h1] at h ⊢
      cases hp : put c s.loc a (c.tr pt s.wpt) with
      | none => simp
      | some loc => simp only [hp] at h; exact absurd rfl (h _)

theorem remove_agents (c : Cfg Pt) (s : Sp Pt) (a : Nat) : (remove c s a).1.agents = upd s.agents a none := by
  cases ha : s.agents a with
  | none =>
    simp only [remove, ha]
    funext b
    simp only [upd]
    split
    · rename_i hb; rw [hb, ha]
    · rfl
  | some cur => cases cur <;> simp [remove, ha]

theorem dmove_noloc {c : Cfg Pt} {l : Box} {all : List (Box × Nat)} {s : DSp} {a : Nat} {pt : Pt} (h : ∀ q, (move c s.base a pt).2 ≠ .loc (some q)) :
    dmove c l all s a pt = (DSp.mk (move c s.base a pt).1 s.oob, (move c s.base a pt).2) := by
  unfold dmove
  generalize move c s.base a pt = m at *
  obtain ⟨m1, m2⟩ := m
  cases m2 with
  | loc v =>
    cases v with
    | none => rfl
    | some q => exact absurd rfl (h q)
  | _ => rfl

/-- The queue holds what the history says, addressed to owners. -/
def Addressed (t : Topo) (r : Nat) (s : DSp) (a : Nat) : Option Pt → Prop
  | none => s.oob a = none
  | some q => ∃ k, s.oob a = some (k, q) ∧ k < t.size ∧ k ≠ r ∧ (t.bounds k).contains q = true ∧ ¬ (t.bounds r).contains q = true

theorem Addressed.congr {t : Topo} {r a : Nat} {s s' : DSp} {q : Option Pt} (h : Addressed t r s a q) (e : s'.oob a = s.oob a) : Addressed t r s' a q := by
  cases q with
  | none => exact e.trans h
  | some q => obtain ⟨k, h1, h2⟩ := h; exact ⟨k, e.trans h1, h2⟩

theorem addressed_step {t : Topo} (h : t.Ok) (hf : t.Fits) {r : Nat} (single : Bool) {s : DSp} {a : Nat} {q : Option Pt}
    (hs : Addressed t r s a q) (o : DOp) :
    let x := dstep (grid t.box t.periodic single) (t.bounds r) (t.allBounds r) s o
    Addressed t r x.1 a (queued (t.bounds r) a q (o, x.2)) := by
  intro x
  cases o with
  | clear => exact rfl
  | base o =>
    cases o with
    | remove b =>
      show Addressed t r x.1 a (if b = a then none else q)
      have hx : x.1.oob = upd s.oob b none := rfl
      by_cases hb : b = a
      · rw [if_pos hb]
        show x.1.oob a = none
        rw [hx]; simp [upd, hb]
      · rw [if_neg hb]
        apply hs.congr
        rw [hx]; simp [upd, Ne.symm hb]
    | move b pt =>
      have hx : x = dmove (grid t.box t.periodic single) (t.bounds r) (t.allBounds r) s b pt := rfl
      by_cases hloc : ∃ p, (move (grid t.box t.periodic single) s.base b pt).2 = .loc (some p)
      · obtain ⟨p, hp⟩ := hloc
        have hin : t.box.contains p = true := by rw [(move_loc hp).1]; exact tr_inside h single _ _
        have hres : x.2 = .loc (some p) := by rw [hx]; simp only [dmove, hp]
        rw [hres]
        show Addressed t r x.1 a (if b = a then (if (t.bounds r).contains p then none else some p) else q)
        by_cases hl : (t.bounds r).contains p = true
        · have ho : x.1.oob = upd s.oob b none := by rw [hx]; simp only [dmove, hp, hl, if_true]
          by_cases hb : b = a
          · rw [if_pos hb, if_pos hl]
            show x.1.oob a = none
            rw [ho]; simp [upd, hb]
          · rw [if_neg hb]
            apply hs.congr; rw [ho]; simp [upd, Ne.symm hb]
        · obtain ⟨k, hk, hk1, hk2, hk3⟩ := find_owner h hf hin hl
          have ho : x.1.oob = upd (upd s.oob b none) b (some (k, p)) := by
            rw [hx]; simp only [dmove, hp, hk]; rw [if_neg hl]
          by_cases hb : b = a
          · rw [if_pos hb, if_neg hl]
            exact ⟨k, by rw [ho]; simp [upd, hb], hk1, hk2, hk3, hl⟩
          · rw [if_neg hb]
            apply hs.congr; rw [ho]; simp [upd, Ne.symm hb]
      · have hloc' : ∀ p, (move (grid t.box t.periodic single) s.base b pt).2 ≠ .loc (some p) := fun p hp => hloc ⟨p, hp⟩
        have hres : x.2 = (move (grid t.box t.periodic single) s.base b pt).2 ∧ x.1.oob = s.oob := by
          rw [hx, dmove_noloc hloc']; exact ⟨rfl, rfl⟩
        have hq : queued (t.bounds r) a q (.base (.move b pt), x.2) = q := by
          rw [hres.1]
          unfold queued
          split
          · rename_i p heq
            simp only [Prod.mk.injEq] at heq
            exact absurd heq.2 (hloc' _)
          · rename_i heq; simp at heq
          · rename_i heq; simp at heq
          · rfl
        rw [hq]
        exact hs.congr (by rw [hres.2])
    | _ => exact hs

/-- C34: after any sequence of calls on a shared grid, an agent is queued for transfer exactly when its last successful move led out of the local
bounds (and it was not removed, nor the queue cleared, since); it is then queued once, with that location, for a rank other than this one whose
local bounds contain the location, and that rank is the only such rank. Missing (`_partial`): topologies with more processes than rows or layers,
where owners are not unique (`C33_violation`). -/
theorem C34_addressed_partial {t : Topo} (h : t.Ok) (hf : t.Fits) {r : Nat} (single : Bool) (ops : List DOp) (a : Nat) :
    match (sharedGrid t r single ops).2.foldl (queued (t.bounds r) a) none with
    | none => (sharedGrid t r single ops).1.oob a = none
    | some q => ∃ k, (sharedGrid t r single ops).1.oob a = some (k, q) ∧ k < t.size ∧ k ≠ r ∧ (t.bounds k).contains q = true ∧
        ∀ k', k' < t.size → (t.bounds k').contains q = true → k' = k := by
  have key : ∀ (s : DSp) (q : Option Pt), Addressed t r s a q →
      Addressed t r (drun (grid t.box t.periodic single) (t.bounds r) (t.allBounds r) s ops).1 a
        ((drun (grid t.box t.periodic single) (t.bounds r) (t.allBounds r) s ops).2.foldl (queued (t.bounds r) a) q) := by
    induction ops with
    | nil => intro s q h; exact h
    | cons o os ih =>
      intro s q hs
      exact ih _ _ (addressed_step h hf single hs o)
  have := key DSp.empty none rfl
  unfold sharedGrid
  cases hq : (drun (grid t.box t.periodic single) (t.bounds r) (t.allBounds r) DSp.empty ops).2.foldl (queued (t.bounds r) a) none with
  | none => rw [hq] at this; exact this
  | some q =>
    rw [hq] at this
    obtain ⟨k, h1, h2, h3, h4, h5⟩ := this
    refine ⟨k, h1, h2, h3, h4, ?_⟩
    intro k' hk' hc
    have hin := (C33_partition_partial h hf q).2 k h2 h4
    obtain ⟨m, -, -, hm⟩ := (C33_partition_partial h hf q).1 hin
    rw [hm k' hk' hc, hm k h2 h4]

/-- Queue and locations: the queued location is the current one; without a clear, everything located outside is queued. -/
structure QInv (local_ : Box) (noClear : Bool) (s : DSp) (known : List Nat) : Prop where
  known : ∀ a, s.base.agents a ≠ none → a ∈ known
  sound : ∀ a k q, s.oob a = some (k, q) → s.base.agents a = some (some q) ∧ ¬ local_.contains q = true
  complete : noClear = true → ∀ a q, s.base.agents a = some (some q) → ¬ local_.contains q = true → ∃ k, s.oob a = some (k, q)

theorem qinv_run {t : Topo} (h : t.Ok) (hf : t.Fits) {r : Nat} (single : Bool) (noClear : Bool) (ops : List DOp)
    (hn : noClear = true → DOp.clear ∉ ops) (known : List Nat) (s : DSp) (ha : AddsOnlyNew known (baseOps ops)) (hs : QInv (t.bounds r) noClear s known) :
    ∃ known, QInv (t.bounds r) noClear (drun (grid t.box t.periodic single) (t.bounds r) (t.allBounds r) s ops).1 known := by
  induction ops generalizing known s with
  | nil => exact ⟨known, hs⟩
  | cons o os ih =>
    have hn' : noClear = true → DOp.clear ∉ os := fun e hm => hn e (List.mem_cons_of_mem _ hm)
    cases o with
    | clear =>
      refine ih hn' known _ ha ⟨hs.known, ?_, ?_⟩
      · intro a k q hq; simp [dstep] at hq
      · intro e; exact absurd (List.mem_cons_self) (hn e)
    | base o =>
      cases o with
      | add a =>
        obtain ⟨h1, h2⟩ : a ∉ known ∧ AddsOnlyNew (a :: known) (baseOps os) := ha
        have hnone : s.base.agents a = none := by
          cases hh : s.base.agents a with
          | none => rfl
          | some v => exact absurd (hs.known a (by simp [hh])) h1
        refine ih hn' (a :: known) _ h2 ⟨?_, ?_, ?_⟩
        · intro b hb
          simp only [dstep, Space.step, Space.add, upd] at hb
          split at hb
          · rename_i e; rw [e]; exact List.mem_cons_self
          · exact List.mem_cons_of_mem _ (hs.known b hb)
        · intro b k q hq
          have := hs.sound b k q hq
          simp only [dstep, Space.step, Space.add, upd]
          split
          · rename_i e; rw [e, hnone] at this; simp at this
          · exact this
        · intro e b q hb hl
          simp only [dstep, Space.step, Space.add, upd] at hb
          split at hb
          · simp at hb
          · exact hs.complete e b q hb hl
      | remove a =>
        have ha' : AddsOnlyNew (known.filter (fun b => decide (b ≠ a))) (baseOps os) := ha
        refine ih hn' _ _ ha' ⟨?_, ?_, ?_⟩
        · intro b hb
          simp only [dstep, remove_agents, upd] at hb
          split at hb
          · simp at hb
          · rename_i e; exact List.mem_filter.2 ⟨hs.known b hb, by simpa using e⟩
        · intro b k q hq
          simp only [dstep, remove_agents, upd] at hq ⊢
          split at hq
          · simp at hq
          · rename_i e; rw [if_neg e]; exact hs.sound b k q hq
        · intro e b q hb hl
          simp only [dstep, remove_agents, upd] at hb ⊢
          split at hb
          · simp at hb
          · rename_i e'; rw [if_neg e']; exact hs.complete e b q hb hl
      | move a pt =>
        have ha' : AddsOnlyNew known (baseOps os) := ha
        refine ih hn' known _ ha' ?_
        show QInv (t.bounds r) noClear (dmove (grid t.box t.periodic single) (t.bounds r) (t.allBounds r) s a pt).1 known
        by_cases hloc : ∃ p, (move (grid t.box t.periodic single) s.base a pt).2 = .loc (some p)
        · obtain ⟨p, hp⟩ := hloc
          obtain ⟨e1, e2⟩ := move_loc hp
          have hin : t.box.contains p = true := by rw [e1]; exact tr_inside h single _ _
          have hka : a ∈ known := by
            apply hs.known
            intro hh
            simp [move, hh] at hp
          have hbase : (dmove (grid t.box t.periodic single) (t.bounds r) (t.allBounds r) s a pt).1.base.agents = upd s.base.agents a (some (some p)) := by
            simp only [dmove, hp]; exact e2
          have hoob : ∃ v, (dmove (grid t.box t.periodic single) (t.bounds r) (t.allBounds r) s a pt).1.oob = upd s.oob a v ∧
              ((t.bounds r).contains p = true ∧ v = none ∨ ¬ (t.bounds r).contains p = true ∧ ∃ k, v = some (k, p)) := by
            by_cases hl : (t.bounds r).contains p = true
            · exact ⟨none, by simp only [dmove, hp, hl, if_true], .inl ⟨hl, rfl⟩⟩
            · obtain ⟨k, hk, -⟩ := find_owner h hf hin hl
              refine ⟨some (k, p), ?_, .inr ⟨hl, k, rfl⟩⟩
              simp only [dmove, hp, hk]
              rw [if_neg hl]
              funext b
              simp only [upd]
              split <;> rfl
          obtain ⟨v, ho, hv⟩ := hoob
          refine ⟨?_, ?_, ?_⟩
          · intro b hb
            rw [hbase] at hb
            simp only [upd] at hb
            split at hb
            · rename_i e; rw [e]; exact hka
            · exact hs.known b hb
          · intro b k q hq
            rw [ho] at hq
            rw [hbase]
            simp only [upd] at hq ⊢
            split at hq
            · rename_i e
              rw [if_pos e]
              rcases hv with ⟨-, rfl⟩ | ⟨hl, k', rfl⟩
              · simp at hq
              · simp only [Option.some.injEq, Prod.mk.injEq] at hq
                rw [← hq.2]; exact ⟨rfl, hl⟩
            · rename_i e; rw [if_neg e]; exact hs.sound b k q hq
          · intro e b q hb hl
            rw [hbase] at hb
            rw [ho]
            simp only [upd] at hb ⊢
            split at hb
            · rename_i e
              rw [if_pos e]
              simp only [Option.some.injEq] at hb
              subst hb
              rcases hv with ⟨hl', -⟩ | ⟨-, k', rfl⟩
              · exact absurd hl' hl
              · exact ⟨k', rfl⟩
            · rename_i e'; rw [if_neg e']; exact hs.complete e b q hb hl
        · have hloc' : ∀ p, (move (grid t.box t.periodic single) s.base a pt).2 ≠ .loc (some p) := fun p hp => hloc ⟨p, hp⟩
          have hb := move_noloc hloc'
          have hx : (dmove (grid t.box t.periodic single) (t.bounds r) (t.allBounds r) s a pt).1.base.agents = s.base.agents ∧
              (dmove (grid t.box t.periodic single) (t.bounds r) (t.allBounds r) s a pt).1.oob = s.oob := by
            rw [dmove_noloc hloc']; exact ⟨hb, rfl⟩
          refine ⟨?_, ?_, ?_⟩
          · rw [hx.1]; exact hs.known
          · rw [hx.1, hx.2]; exact hs.sound
          · rw [hx.1, hx.2]; exact hs.complete
      | getAgent p => exact ih hn' known _ ha ⟨hs.known, hs.sound, hs.complete⟩
      | getAgents p => exact ih hn' known _ ha ⟨hs.known, hs.sound, hs.complete⟩
      | getLocation p => exact ih hn' known _ ha ⟨hs.known, hs.sound, hs.complete⟩
      | contains p => exact ih hn' known _ ha ⟨hs.known, hs.sound, hs.complete⟩

theorem locationOf_iff {c : Cfg Pt} {s : Sp Pt} {a : Nat} {q : Pt} : locationOf c s a = .loc (some q) ↔ s.agents a = some (some q) := by
  simp only [locationOf, Space.step]
  cases s.agents a with
  | none => simp
  | some v => cases v <;> simp

/-- C34: the queue and the locations agree: a queued agent is at the queued location, which is outside of the local bounds; and if the queue was not
cleared, every agent located outside of the local bounds is queued. Missing (`_partial`): as for `C34_addressed_partial`, and `add` of
an agent that is already in the space, which loses its location (`C29_double_add`) but not its queue entry. -/
theorem C34_location_partial {t : Topo} (h : t.Ok) (hf : t.Fits) {r : Nat} (single : Bool) (ops : List DOp) (ha : AddsOnlyNew [] (baseOps ops)) (a : Nat) (q : Pt) :
    let s := (sharedGrid t r single ops).1
    let loc := locationOf (grid t.box t.periodic single) s.base a
    (∀ k, s.oob a = some (k, q) → loc = .loc (some q) ∧ ¬ (t.bounds r).contains q = true) ∧
    (DOp.clear ∉ ops → loc = .loc (some q) → ¬ (t.bounds r).contains q = true → ∃ k, s.oob a = some (k, q)) := by
  have base : ∀ n, QInv (t.bounds r) n DSp.empty [] := fun n => ⟨by intro a ha; exact absurd rfl ha, by intro a k q hq; simp [DSp.empty] at hq, by intro _ a q hq; simp [DSp.empty, newGrid, Sp.empty] at hq⟩
  constructor
  · intro k hk
    obtain ⟨_, hi⟩ := qinv_run (r := r) h hf single false ops (by simp) [] DSp.empty ha (base false)
    have := hi.sound a k q hk
    exact ⟨locationOf_iff.2 this.1, this.2⟩
  · intro hc hl
    obtain ⟨_, hi⟩ := qinv_run (r := r) h hf single true ops (fun _ => hc) [] DSp.empty ha (base true)
    exact hi.complete rfl a q (locationOf_iff.1 hl)

/-- Agents of rank 0 of the example topology moving out (directly and around the border) and back. -/
def exDOps : List DOp := [.base (.add 1), .base (.add 2), .base (.add 3), .base (.move 1 ⟨5, 7, 0⟩), .base (.move 2 ⟨-5, 2, 0⟩), .base (.move 3 ⟨1, 1, 0⟩),
  .base (.move 3 ⟨-1, 2, 0⟩)]

example : AddsOnlyNew [] (baseOps exDOps) ∧ ([1, 2, 3].map (sharedGrid exTopo 0 false exDOps).1.oob) = [some (5, ⟨5, 7, 0⟩), some (4, ⟨6, 2, 0⟩), none] := by
  refine ⟨?_, by decide +kernel⟩
  simp [exDOps, baseOps, AddsOnlyNew]

end Repast.Topology
