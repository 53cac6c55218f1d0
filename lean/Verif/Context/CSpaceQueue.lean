import Verif.Context.CSpaceView

/-! C33 and C34 for shared continuous spaces. -/
namespace Repast.Context
open Repast.Space Repast.Topology Repast.Tree

/-- C33 for the points of a continuous space: every point of the global bounds is in the local bounds of exactly one rank, and the points of the local bounds are in the global
bounds. Missing (`_partial`): topologies with more processes than rows or layers, as for grids (`C33_violation`). -/
theorem C33_continuous_partial {t : Topo} (h : t.Ok) (hf : t.Fits) (p : CPt) :
    (t.box.containsC p = true → ∃ r, r < t.size ∧ (t.bounds r).containsC p = true ∧ ∀ r', r' < t.size → (t.bounds r').containsC p = true → r' = r) ∧
    (∀ r, r < t.size → (t.bounds r).containsC p = true → t.box.containsC p = true) := by
  simp only [containsC_down]
  exact C33_partition_partial h hf p.down

/-- A call on a shared continuous space; `clear` is `_clear_oob`. -/
inductive CDOp where
  | base (o : Op CPt)
  | clear

/-- A sequence of calls on the space of one rank; `none`: a crash. -/
def cdrun (c : CCfg) (local_ : Box) (all : List (Box × Nat)) (s : CDSp) : List CDOp → Option CDSp
  | [] => some s
  | .clear :: os => cdrun c local_ all { s with oob := fun _ => none } os
  | .base o :: os => (cdstep c local_ all s o).bind fun x => cdrun c local_ all x.1 os

/-- The calls on the space. -/
def cbaseOps : List CDOp → List (Op CPt)
  | [] => []
  | .clear :: os => cbaseOps os
  | .base o :: os => o :: cbaseOps os

/-- Queue and locations. -/
structure CQInv (t : Topo) (r : Nat) (noClear : Bool) (s : CDSp) (known : List Nat) : Prop where
  addr : Addr s.cs
  known : ∀ a, s.cs.base.agents a ≠ none → a ∈ known
  sound : ∀ a k q, s.oob a = some (k, q) → s.cs.base.agents a = some (some q) ∧ (t.bounds r).containsC q = false ∧ k < t.size ∧ (t.bounds k).containsC q = true ∧
    ∀ k', k' < t.size → (t.bounds k').containsC q = true → k' = k
  complete : noClear = true → ∀ a q, s.cs.base.agents a = some (some q) → (t.bounds r).containsC q = false → ∃ k, s.oob a = some (k, q)

theorem CQInv.next {t : Topo} {r : Nat} {noClear : Bool} {s s' : CDSp} {known known' : List Nat} (h : CQInv t r noClear s known) (ha : Addr s'.cs)
    {a : Nat} {e : Option (Option CPt)} {v : Option (Nat × CPt)} (hb : s'.cs.base.agents = upd s.cs.base.agents a e) (ho : s'.oob = upd s.oob a v)
    (hk : ∀ b, b ≠ a → b ∈ known → b ∈ known') (hka : e ≠ none → a ∈ known')
    (hv : ∀ k q, v = some (k, q) → e = some (some q) ∧ (t.bounds r).containsC q = false ∧ k < t.size ∧ (t.bounds k).containsC q = true ∧
      ∀ k', k' < t.size → (t.bounds k').containsC q = true → k' = k)
    (hc : ∀ q, e = some (some q) → (t.bounds r).containsC q = false → ∃ k, v = some (k, q)) : CQInv t r noClear s' known' := by
  refine ⟨ha, ?_, ?_, ?_⟩
  · intro b hb'
    rw [hb] at hb'
    simp only [upd] at hb'
    split at hb'
    · rename_i e'; rw [e']; exact hka hb'
    · rename_i e'; exact hk b e' (h.known b hb')
  · intro b k q hq
    rw [ho] at hq
    rw [hb]
    simp only [upd] at hq ⊢
    split at hq
    · rename_i e'; rw [if_pos e']; exact hv k q hq
    · rename_i e'; rw [if_neg e']; exact h.sound b k q hq
  · intro hn b q hq hl
    rw [hb] at hq
    rw [ho]
    simp only [upd] at hq ⊢
    split at hq
    · rename_i e'; rw [if_pos e']; exact hc q hq hl
    · rename_i e'; rw [if_neg e']; exact h.complete hn b q hq hl

theorem cqinv_run {g : CSCfg} (ht : g.topo.Ok) (hf : g.topo.Fits) (hd : g.topo.nd ≠ 1) {r : Nat} (noClear : Bool) (ops : List CDOp) (hn : noClear = true → CDOp.clear ∉ ops)
    (known : List Nat) (s : CDSp) (ha : AddsOnlyNew known (cbaseOps ops)) (hs : CQInv g.topo r noClear s known) :
    ∃ s' known', cdrun g.space (g.topo.bounds r) (g.topo.allBounds r) s ops = some s' ∧ CQInv g.topo r noClear s' known' := by
  have hdim : g.space.bounds.numDims ≠ 1 := by show g.topo.box.numDims ≠ 1; rw [← ht.nd]; exact hd
  induction ops generalizing known s with
  | nil => exact ⟨s, known, rfl, hs⟩
  | cons o os ih =>
    have hn' : noClear = true → CDOp.clear ∉ os := fun e hm => hn e (List.mem_cons_of_mem _ hm)
    cases o with
    | clear =>
      refine ih hn' known _ ha ⟨hs.addr, hs.known, ?_, ?_⟩
      · intro a k q hq; cases hq
      · intro e; exact absurd (List.mem_cons_self) (hn e)
    | base o =>
      obtain ⟨cs', res, e1, e2, e3, e4⟩ := cstep_base hs.addr hdim o
      have key : ∀ {s'} {known'}, cdstep g.space (g.topo.bounds r) (g.topo.allBounds r) s o = some s' → AddsOnlyNew known' (cbaseOps os) →
          CQInv g.topo r noClear s'.1 known' →
          ∃ s' known', cdrun g.space (g.topo.bounds r) (g.topo.allBounds r) s (.base o :: os) = some s' ∧ CQInv g.topo r noClear s' known' := by
        intro s' known' h1 h2 h3
        obtain ⟨x, y, hx, hy⟩ := ih hn' known' s'.1 h2 h3
        exact ⟨x, y, by simp only [cdrun, h1, Option.bind_some]; exact hx, hy⟩
      cases o with
      | add a =>
        obtain ⟨h1, h2⟩ : a ∉ known ∧ AddsOnlyNew (a :: known) (cbaseOps os) := ha
        have hnone : s.cs.base.agents a = none := by
          cases hh : s.cs.base.agents a with
          | none => rfl
          | some v => exact absurd (hs.known a (by simp [hh])) h1
        have hq : s.oob a = none := by
          cases hh : s.oob a with
          | none => rfl
          | some v =>
            have := (hs.sound a v.1 v.2 hh).1
            rw [hnone] at this; cases this
        refine key (s' := ({ s with cs := cs' }, res)) (by simp only [cdstep, e1, Option.map_some]) h2 (hs.next e2 (a := a) (e := some none) (v := none) ?_ ?_ ?_ ?_ ?_ ?_)
        · show cs'.base.agents = _; rw [e3]; rfl
        · funext b; simp only [upd]; split
          · rename_i e; rw [e, hq]
          · rfl
        · intro b _ hb; exact List.mem_cons_of_mem _ hb
        · intro _; exact List.mem_cons_self
        · intro k q h; cases h
        · intro q h; cases h
      | remove a =>
        have ha' : AddsOnlyNew (known.filter (fun b => decide (b ≠ a))) (cbaseOps os) := ha
        obtain ⟨x, hx, hx'⟩ := Option.map_eq_some_iff.1 (show (cremove g.space s.cs a).map (fun r => (r.1, Res.bool r.2)) = some (cs', res) from e1)
        simp only [Prod.mk.injEq] at hx'
        refine key (s' := ({ cs := x.1, oob := upd s.oob a none }, .bool x.2)) (by simp only [cdstep, hx, Option.map_some]) ha'
          (hs.next (by rw [hx'.1]; exact e2) (a := a) (e := none) (v := none) ?_ rfl ?_ ?_ ?_ ?_)
        · show x.1.base.agents = _; rw [hx'.1, e3]; exact remove_entries _ _ _
        · intro b hne hb; exact List.mem_filter.2 ⟨hb, by simpa using hne⟩
        · intro h; exact absurd rfl h
        · intro k q h; cases h
        · intro q h; cases h
      | move a pt =>
        have ha' : AddsOnlyNew known (cbaseOps os) := ha
        replace e1 : cmove g.space s.cs a pt = some (cs', res) := e1
        replace e3 : cs'.base = (move g.space.base s.cs.base a pt).1 := e3
        replace e4 : res = (move g.space.base s.cs.base a pt).2 := e4
        by_cases hloc : ∃ p, (move g.space.base s.cs.base a pt).2 = .loc (some p)
        · obtain ⟨p, hp⟩ := hloc
          obtain ⟨f1, f2⟩ := move_loc hp
          have hin : g.topo.box.containsC p = true := by
            rw [f1]
            show g.topo.box.containsC (if g.topo.periodic then cperiodic g.topo.box pt _ else csticky g.topo.box pt) = true
            split
            · exact (C50_periodic_partial ht.box pt _).1
            · exact (C50_sticky_partial ht.box pt).1
          have hka : a ∈ known := by
            apply hs.known
            intro hh
            simp [move, hh] at hp
          rw [hp] at e4
          subst e4
          by_cases hl : (g.topo.bounds r).containsC p = true
          · refine key (s' := ({ cs := cs', oob := upd s.oob a none }, .loc (some p))) (by simp only [cdstep, cdmove, e1, Option.map_some, hl, if_true]) ha'
              (hs.next e2 (a := a) (e := some (some p)) (v := none) (by show cs'.base.agents = _; rw [e3, f2]) rfl (fun b _ hb => hb) (fun _ => hka) ?_ ?_)
            · intro k q h; cases h
            · intro q h h'
              simp only [Option.some.injEq] at h
              rw [← h, hl] at h'; cases h'
          · obtain ⟨k, hk, hk1, hk2, hk3⟩ := cfind_owner ht hf hin hl
            refine key (s' := ({ cs := cs', oob := upd s.oob a (some (k, p)) }, .loc (some p))) ?_ ha'
              (hs.next e2 (a := a) (e := some (some p)) (v := some (k, p)) (by show cs'.base.agents = _; rw [e3, f2]) rfl (fun b _ hb => hb) (fun _ => hka) ?_ ?_)
            · simp only [cdstep, cdmove, e1, Option.map_some, hl, hk, Bool.false_eq_true, if_false]
              congr 3
              funext b
              simp only [upd]
              split <;> rfl
            · intro k' q h
              simp only [Option.some.injEq, Prod.mk.injEq] at h
              obtain ⟨rfl, rfl⟩ := h
              refine ⟨rfl, by simpa using hl, hk1, hk3, ?_⟩
              intro k' hk' hc
              obtain ⟨m, -, -, hm⟩ := (C33_continuous_partial ht hf p).1 hin
              rw [hm k' hk' hc, hm k hk1 hk3]
            · intro q h _
              simp only [Option.some.injEq] at h
              exact ⟨k, by rw [h]⟩
        · have hloc' : ∀ p, (move g.space.base s.cs.base a pt).2 ≠ .loc (some p) := fun p hp => hloc ⟨p, hp⟩
          have hb := move_noloc hloc'
          have hx : cdstep g.space (g.topo.bounds r) (g.topo.allBounds r) s (.move a pt) = some ({ s with cs := cs' }, res) := by
            simp only [cdstep, cdmove, e1, Option.map_some]
            cases res with
            | loc v =>
              cases v with
              | none => rfl
              | some q => exact absurd e4.symm (hloc' q)
            | _ => rfl
          have hag : cs'.base.agents = s.cs.base.agents := by rw [e3, hb]
          refine key hx ha' ⟨e2, ?_, ?_, ?_⟩
          · show ∀ b, cs'.base.agents b ≠ none → _
            rw [hag]; exact hs.known
          · show ∀ b k q, s.oob b = _ → cs'.base.agents b = _ ∧ _
            rw [hag]; exact hs.sound
          · show _ → ∀ b q, cs'.base.agents b = _ → _
            rw [hag]; exact hs.complete
      | getAgent p => exact key (s' := ({ s with cs := cs' }, res)) (by simp only [cdstep, e1, Option.map_some]) ha (by cases e1; exact ⟨e2, hs.known, hs.sound, hs.complete⟩)
      | getAgents p => exact key (s' := ({ s with cs := cs' }, res)) (by simp only [cdstep, e1, Option.map_some]) ha (by cases e1; exact ⟨e2, hs.known, hs.sound, hs.complete⟩)
      | getLocation p => exact key (s' := ({ s with cs := cs' }, res)) (by simp only [cdstep, e1, Option.map_some]) ha (by cases e1; exact ⟨e2, hs.known, hs.sound, hs.complete⟩)
      | contains p => exact key (s' := ({ s with cs := cs' }, res)) (by simp only [cdstep, e1, Option.map_some]) ha (by cases e1; exact ⟨e2, hs.known, hs.sound, hs.complete⟩)

/-- C34 for a shared continuous space of two or three dimensions, with any occupancy: after any sequence of calls (without adding an agent that is there), an agent is
queued for transfer only if it is located outside of the local bounds, with its current location and for the only rank whose local bounds contain it; and if the queue was
not cleared every agent located outside of the local bounds is queued. Missing (`_partial`): one-dimensional spaces (`C24_cspace_one_dim`), `add` of an agent that is
already in the space, and topologies with more processes than rows or layers (`C33_violation`). -/
theorem C34_continuous_partial {g : CSCfg} (ht : g.topo.Ok) (hf : g.topo.Fits) (hd : g.topo.nd ≠ 1) (r : Nat) (ops : List CDOp) (ha : AddsOnlyNew [] (cbaseOps ops)) :
    ∃ s, cdrun g.space (g.topo.bounds r) (g.topo.allBounds r) { cs := CS.init g.space, oob := fun _ => none } ops = some s ∧ ∀ a q,
      (∀ k, s.oob a = some (k, q) → Tree.locationOf g.space s.cs a = some (.loc (some q)) ∧ (g.topo.bounds r).containsC q = false ∧
        k < g.topo.size ∧ (g.topo.bounds k).containsC q = true ∧ ∀ k', k' < g.topo.size → (g.topo.bounds k').containsC q = true → k' = k) ∧
      (CDOp.clear ∉ ops → Tree.locationOf g.space s.cs a = some (.loc (some q)) → (g.topo.bounds r).containsC q = false → ∃ k, s.oob a = some (k, q)) := by
  have base : ∀ n, CQInv g.topo r n { cs := CS.init g.space, oob := fun _ => none } [] := fun n =>
    ⟨addr_init _, (by intro a h; exact absurd rfl h), (by intro a k q h; cases h), by intro _ a q h; simp [CS.base, CS.init] at h⟩
  have hloc : ∀ (s : CDSp) a q, Tree.locationOf g.space s.cs a = some (.loc (some q)) ↔ s.cs.base.agents a = some (some q) := by
    intro s a q
    simp only [Tree.locationOf, cstep, Option.map_some, Option.some.injEq, CS.base, Res.loc.injEq]
    cases s.cs.agents a with
    | none => simp
    | some o => simp
  obtain ⟨s, _, h1, h2⟩ := cqinv_run ht hf hd (r := r) false ops (by simp) [] _ ha (base false)
  refine ⟨s, h1, fun a q => ⟨fun k hk => ?_, fun hc hl hb => ?_⟩⟩
  · obtain ⟨i1, i2⟩ := h2.sound a k q hk
    exact ⟨(hloc s a q).2 i1, i2⟩
  · obtain ⟨s', _, h1', h2'⟩ := cqinv_run ht hf hd (r := r) true ops (fun _ => hc) [] _ ha (base true)
    rw [h1] at h1'
    cases h1'
    exact h2'.complete rfl a q ((hloc s a q).1 hl) hb

/-- The example topology of `Verif/Topology`: agents of rank 0 moving out, directly and around the border. -/
example : AddsOnlyNew [] (cbaseOps [.base (.add 1), .base (.add 2), .base (.move 1 ⟨11 / 2, 7, 0⟩), .base (.move 2 ⟨-9 / 2, 2, 0⟩), .base (.move 2 ⟨-4, 2, 0⟩)]) ∧ exTopo.nd ≠ 1 ∧
    (cdrun (CSCfg.mk exTopo false 1 4).space (exTopo.bounds 0) (exTopo.allBounds 0) { cs := CS.init (CSCfg.mk exTopo false 1 4).space, oob := fun _ => none }
      [.base (.add 1), .base (.add 2), .base (.move 1 ⟨11 / 2, 7, 0⟩), .base (.move 2 ⟨-9 / 2, 2, 0⟩)]).map (fun s => [s.oob 1, s.oob 2]) =
      some [some (5, ⟨11 / 2, 7, 0⟩), some (4, ⟨13 / 2, 2, 0⟩)] := by
  refine ⟨by simp [cbaseOps, AddsOnlyNew], by decide, by decide +kernel⟩

end Repast.Context
