import Verif.Context.LocalProps
import Verif.Topology.BufferAgents

/-! What the collective operations of a context without projections do, rank by rank. -/
namespace Repast.Context
open Repast.Dict Repast.Space Repast.Topology

variable {S P Q : Type} [Proj P Q] (ty : Nat → Nat)

theorem filterMap_congr' {α β : Type} {f g : α → Option β} {l : List α} (h : ∀ a ∈ l, f a = g a) : l.filterMap f = l.filterMap g := by
  induction l with
  | nil => rfl
  | cons a l ih => rw [List.filterMap_cons, List.filterMap_cons, h a (by simp), ih (fun b hb => h b (by simp [hb]))]

theorem nodup_filter' {α : Type} {l : List α} (p : α → Bool) (h : l.Nodup) : (l.filter p).Nodup := List.Pairwise.filter p h

theorem mem_recv {M : Type} {n : Nat} {send : Nat → List (Nat × M)} {k : Nat} {x : Nat × M} :
    x ∈ recv n send k ↔ x.1 < n ∧ (k, x.2) ∈ send x.1 := by
  unfold recv
  simp only [List.mem_flatMap, List.mem_range, List.mem_map, List.mem_filter, decide_eq_true_eq]
  constructor
  · rintro ⟨r, hr, m, ⟨hm, rfl⟩, rfl⟩; exact ⟨hr, hm⟩
  · rintro ⟨hr, hm⟩; exact ⟨x.1, hr, (k, x.2), ⟨hm, rfl⟩, rfl⟩

/-- The messages of a rank have distinct tags if those sent to it by each rank have, and no two ranks send the same tag. -/
theorem recv_nodup {M T : Type} {n : Nat} {send : Nat → List (Nat × M)} {k : Nat} (tag : M → T)
    (h1 : ∀ r < n, (((send r).filter (fun m => decide (m.1 = k))).map fun m => tag m.2).Nodup)
    (h2 : ∀ r < n, ∀ r' < n, ∀ m m', (k, m) ∈ send r → (k, m') ∈ send r' → tag m = tag m' → r = r') :
    (((recv n send k).map (·.2)).map tag).Nodup := by
  unfold recv
  rw [List.map_flatMap, List.map_flatMap]
  refine nodup_flatMap List.nodup_range ?_ ?_
  · intro r hr
    have := h1 r (List.mem_range.1 hr)
    simpa [List.map_map, Function.comp_def] using this
  · intro r hr r' hr' hne x hx hx'
    simp only [List.map_map, List.mem_map, List.mem_filter, decide_eq_true_eq, Function.comp_def] at hx hx'
    obtain ⟨⟨k1, m⟩, ⟨hm, rfl⟩, rfl⟩ := hx
    obtain ⟨⟨k2, m'⟩, ⟨hm', hk2⟩, e⟩ := hx'
    simp only at hk2 e
    subst hk2
    exact hne (h2 r (List.mem_range.1 hr) r' (List.mem_range.1 hr') m m' hm hm' e.symm)

theorem take_of {c : Cx S P} (h : Views ty c) {u : Nat} {s : S} (hu : get c.locals u = some s) :
    ∃ d, c.take ty u = some ({ c with locals := del c.locals u, byType := d, ghosted := del c.ghosted u }, s, get c.ghosted u) := by
  obtain ⟨d, hd⟩ := Option.isSome_iff_exists.1 ((delType_isSome ty h u).2 (mem_keys_of_get hu))
  exact ⟨d, by simp [Cx.take, hu, hd]⟩

/-- What the agents that leave a rank take with them. -/
def awayMsgs (c : Cx S P) (ms : List (Nat × Nat)) : List (Nat × Nat × S × Option (Dict Int)) :=
  ms.filterMap fun m => (get c.locals m.1).map fun s => (m.2, m.1, s, get c.ghosted m.1)

/-- A rank without projections that loses agents. -/
structure Left (c c' : Cx S P) (us : List Nat) : Prop where
  rank : c'.rank = c.rank
  locals : ∀ u, get c'.locals u = if u ∈ us then none else get c.locals u
  ghosted : ∀ u, get c'.ghosted u = if u ∈ us then none else get c.ghosted u
  okGhosted : Ok c.ghosted → Ok c'.ghosted
  ghosts : c'.ghosts = c.ghosts
  removed : c'.removed = c.removed
  req : c'.req = c.req
  projs : c.projs = [] → c'.projs = []

theorem sendAway_spec {n : Nat} (ms : List (Nat × Nat)) : ∀ (c : Cx S P) (acc : List (Nat × Nat × S × Option (Dict Int))), Views ty c → (ms.map (·.1)).Nodup →
    (∀ m ∈ ms, m.1 ∈ keys c.locals ∧ m.2 < n) →
    ∃ c', ms.foldlM (fun (acc : Cx S P × List (Nat × Nat × S × Option (Dict Int))) m =>
      if m.2 < n then (acc.1.take ty m.1).map fun x => (x.1.projsRemove m.1, acc.2 ++ [(m.2, m.1, x.2)]) else none) (c, acc) =
        some (c', acc ++ awayMsgs c ms) ∧ Left c c' (ms.map (·.1)) := by
  induction ms with
  | nil => intro c acc _ _ _; exact ⟨c, by simp [awayMsgs], ⟨rfl, by simp, by simp, id, rfl, rfl, rfl, id⟩⟩
  | cons m ms ih =>
    intro c acc hv hn hm
    obtain ⟨hm1, hm2⟩ := hm m (by simp)
    obtain ⟨s, hs⟩ := (mem_keys _ _).1 hm1
    obtain ⟨d, hd⟩ := take_of ty hv hs
    rw [List.map_cons, List.nodup_cons] at hn
    have hv' := (hv.take ty hd).same_ ty (projsRemove_same _ m.1)
    have hkeys : ∀ m' ∈ ms, m'.1 ≠ m.1 := by
      intro m' hm' e
      exact hn.1 (List.mem_map.2 ⟨m', hm', e⟩)
    obtain ⟨c', h1, h2⟩ := ih _ (acc ++ [(m.2, m.1, s, get c.ghosted m.1)]) hv' hn.2 (by
      intro m' hm'
      refine ⟨?_, (hm m' (by simp [hm'])).2⟩
      simp only [Cx.projsRemove, keys_del, List.mem_filter]
      exact ⟨(hm m' (by simp [hm'])).1, by simp [hkeys m' hm']⟩)
    refine ⟨c', ?_, ?_⟩
    · rw [List.foldlM_cons, if_pos hm2, hd]
      simp only [Option.map_some, Option.bind_eq_bind, Option.bind_some]
      rw [h1]
      congr 2
      unfold awayMsgs
      rw [List.filterMap_cons]
      simp only [hs, Option.map_some]
      rw [List.append_assoc]
      congr 1
      simp only [List.cons_append, List.nil_append, List.cons.injEq, true_and]
      apply filterMap_congr'
      intro m' hm'
      simp only [Cx.projsRemove, get_del]
      rw [if_neg (Ne.symm (hkeys m' hm')), if_neg (Ne.symm (hkeys m' hm'))]
    · refine ⟨h2.rank.trans rfl, ?_, ?_, ?_, h2.ghosts.trans rfl, h2.removed.trans rfl, h2.req.trans rfl, ?_⟩
      · intro u
        rw [h2.locals]
        simp only [Cx.projsRemove, get_del, List.map_cons, List.mem_cons]
        by_cases h : u = m.1
        · subst h; simp
        · simp only [h, false_or, if_neg (Ne.symm h)]
      · intro u
        rw [h2.ghosted]
        simp only [Cx.projsRemove, get_del, List.map_cons, List.mem_cons]
        by_cases h : u = m.1
        · subst h; simp
        · simp only [h, false_or, if_neg (Ne.symm h)]
      · intro h; exact h2.okGhosted (h.del _)
      · intro h; exact h2.projs (by simp [Cx.projsRemove, h])

theorem mem_awayMsgs {c : Cx S P} {ms : List (Nat × Nat)} {k u : Nat} {s : S} {gh : Option (Dict Int)} :
    (k, u, s, gh) ∈ awayMsgs c ms ↔ (u, k) ∈ ms ∧ get c.locals u = some s ∧ gh = get c.ghosted u := by
  unfold awayMsgs
  simp only [List.mem_filterMap, Option.map_eq_some_iff, Prod.mk.injEq]
  constructor
  · rintro ⟨⟨u', k'⟩, hm, s', hs, rfl, rfl, rfl, rfl⟩; exact ⟨hm, hs, rfl⟩
  · rintro ⟨hm, hs, rfl⟩; exact ⟨(u, k), hm, s, hs, rfl, rfl, rfl, rfl⟩

/-! ### Arrival -/

/-- The `ghost_ranks` an arriving agent gets. -/
def arrivedGhosted (old : Option (Dict Int)) (rank : Nat) : Option (Dict Int) → Option (Dict Int)
  | none => old
  | some d => if (del d rank).isEmpty then old else some (del d rank)

theorem arrive_spec (c : Cx S P) (u : Nat) (s : S) (gh : Option (Dict Int)) :
    ∃ c', c.arrive ty u s gh = some (c', (get c.ghosts u).isSome) ∧ c'.rank = c.rank ∧ c'.locals = set c.locals u s ∧
      (∀ v, get c'.ghosted v = if v = u then arrivedGhosted (get c.ghosted u) c.rank gh else get c.ghosted v) ∧ (Ok c.ghosted → Ok c'.ghosted) ∧
      c'.ghosts = c.ghosts ∧ c'.removed = c.removed ∧ c'.req = c.req ∧ (c.projs = [] → c'.projs = []) := by
  unfold Cx.arrive
  simp only []
  cases gh with
  | none =>
    refine ⟨_, rfl, rfl, rfl, ?_, id, rfl, rfl, rfl, ?_⟩
    · intro v
      simp only [Cx.add, Cx.projsAdd, arrivedGhosted]
      split
      · rename_i h; rw [h]
      · rfl
    · intro h; simp [Cx.add, Cx.projsAdd, h]
  | some d =>
    simp only [Cx.setGhosted, arrivedGhosted]
    by_cases hd : (del d c.rank).isEmpty = true
    · simp only [hd, if_true]
      refine ⟨_, rfl, rfl, rfl, ?_, id, rfl, rfl, rfl, ?_⟩
      · intro v
        simp only [Cx.add, Cx.projsAdd]
        split
        · rename_i h; rw [h]
        · rfl
      · intro h; simp [Cx.add, Cx.projsAdd, h]
    · simp only [hd]
      have : get (Cx.add ty c u s).locals u = some s := by simp [Cx.add, Cx.projsAdd]
      rw [this]
      refine ⟨_, rfl, rfl, rfl, ?_, ?_, rfl, rfl, rfl, ?_⟩
      · intro v
        simp only [Cx.add, Cx.projsAdd, get_set]
        by_cases h : v = u
        · simp [h]
        · simp [h, Ne.symm h]
      · intro h; exact h.set _ _
      · intro h; simp [Cx.add, Cx.projsAdd, h]

theorem deleteGhosts_spec (us : List Nat) : ∀ (c : Cx S P), us.Nodup → (∀ u ∈ us, u ∈ keys c.ghosts) →
    ∃ c', c.deleteGhosts us = some c' ∧ c'.rank = c.rank ∧ c'.locals = c.locals ∧ c'.byType = c.byType ∧ c'.ghosted = c.ghosted ∧
      (∀ v, get c'.ghosts v = if v ∈ us then none else get c.ghosts v) ∧ (Ok c.ghosts → Ok c'.ghosts) ∧
      c'.removed = c.removed ∧ c'.req = c.req ∧ c'.projs = c.projs := by
  unfold Cx.deleteGhosts
  induction us with
  | nil => intro c _ _; exact ⟨c, rfl, rfl, rfl, rfl, rfl, by simp, id, rfl, rfl, rfl⟩
  | cons u us ih =>
    intro c hn hu
    rw [List.nodup_cons] at hn
    obtain ⟨g, hg⟩ := (mem_keys _ _).1 (hu u (by simp))
    obtain ⟨c', h1, h2, h3, h4, h5, h6, h7, h8, h9, h10⟩ := ih { c with ghosts := del c.ghosts u } hn.2 (by
      intro v hv
      simp only [keys_del, List.mem_filter]
      refine ⟨hu v (by simp [hv]), ?_⟩
      simp only [ne_eq, decide_not, Bool.not_eq_eq_eq_not, Bool.not_true, decide_eq_false_iff_not]
      rintro rfl; exact hn.1 hv)
    refine ⟨c', ?_, h2, h3, h4, h5, ?_, fun h => h7 (h.del u), h8, h9, h10⟩
    · rw [List.foldlM_cons]
      simp only [Cx.deleteGhost, hg, Option.bind_eq_bind, Option.bind_some]
      exact h1
    · intro v
      rw [h6]
      simp only [get_del, List.mem_cons]
      by_cases h : v = u
      · subst h; simp
      · simp [h, Ne.symm h]

/-- A rank without projections that gets agents. -/
structure Got (c c' : Cx S P) (ms : List (Nat × S × Option (Dict Int))) : Prop where
  rank : c'.rank = c.rank
  mem : ∀ m ∈ ms, get c'.locals m.1 = some m.2.1 ∧ get c'.ghosted m.1 = arrivedGhosted (get c.ghosted m.1) c.rank m.2.2
  other : ∀ u, u ∉ ms.map (·.1) → get c'.locals u = get c.locals u ∧ get c'.ghosted u = get c.ghosted u
  okGhosted : Ok c.ghosted → Ok c'.ghosted
  removed : c'.removed = c.removed
  req : c'.req = c.req
  projs : c.projs = [] → c'.projs = []

theorem arrivals_spec (ms : List (Nat × S × Option (Dict Int))) : ∀ (c : Cx S P) (acc : List Nat), (ms.map (·.1)).Nodup →
    ∃ c', ms.foldlM (fun (acc : Cx S P × List Nat) m => (acc.1.arrive ty m.1 m.2.1 m.2.2).map fun x => (x.1, if x.2 then acc.2 ++ [m.1] else acc.2)) (c, acc) =
      some (c', acc ++ (ms.map (·.1)).filter (fun u => (get c.ghosts u).isSome)) ∧ Got c c' ms ∧ c'.ghosts = c.ghosts := by
  induction ms with
  | nil => intro c acc _; exact ⟨c, by simp, ⟨rfl, by simp, by simp, id, rfl, rfl, id⟩, rfl⟩
  | cons m ms ih =>
    intro c acc hn
    rw [List.map_cons, List.nodup_cons] at hn
    obtain ⟨c1, h1, a1, a2, a3, a4, a5, a6, a7, a8⟩ := arrive_spec ty c m.1 m.2.1 m.2.2
    obtain ⟨c', h2, hg, h3⟩ := ih c1 (if (get c.ghosts m.1).isSome then acc ++ [m.1] else acc) hn.2
    refine ⟨c', ?_, ?_, h3.trans a5⟩
    · rw [List.foldlM_cons, h1]
      simp only [Option.map_some, Option.bind_eq_bind, Option.bind_some]
      rw [h2, a5]
      congr 2
      rw [List.map_cons, List.filter_cons]
      split <;> simp
    · refine ⟨hg.rank.trans a1, ?_, ?_, fun h => hg.okGhosted (a4 h), hg.removed.trans a6, hg.req.trans a7, fun h => hg.projs (a8 h)⟩
      · intro m' hm'
        rcases List.mem_cons.1 hm' with rfl | hm'
        · obtain ⟨o1, o2⟩ := hg.other m'.1 hn.1
          rw [o1, o2, a2, a3]; simp
        · have hne : m'.1 ≠ m.1 := fun e => hn.1 (e ▸ List.mem_map.2 ⟨m', hm', rfl⟩)
          obtain ⟨o1, o2⟩ := hg.mem m' hm'
          rw [o1, o2, a3, a1, if_neg hne]; simp
      · intro u hu
        simp only [List.map_cons, List.mem_cons, not_or] at hu
        obtain ⟨o1, o2⟩ := hg.other u hu.2
        rw [o1, o2, a2, a3, if_neg hu.1, get_set, if_neg (Ne.symm hu.1)]; simp

theorem arriveAll_spec (ms : List (Nat × S × Option (Dict Int))) (c : Cx S P) (hn : (ms.map (·.1)).Nodup) :
    ∃ c', c.arriveAll ty ms = some c' ∧ Got c c' ms ∧ (∀ u, get c'.ghosts u = if u ∈ ms.map (·.1) then none else get c.ghosts u) ∧ (Ok c.ghosts → Ok c'.ghosts) := by
  obtain ⟨c1, h1, hg, h2⟩ := arrivals_spec ty ms c [] hn
  rw [List.nil_append] at h1
  obtain ⟨c', h3, b1, b2, b3, b4, b5, b6, b7, b8, b9⟩ := deleteGhosts_spec ((ms.map (·.1)).filter (fun u => (get c.ghosts u).isSome)) c1
    (nodup_filter' _ hn) (by
      intro u hu
      rw [h2, ← get_isSome]
      exact (List.mem_filter.1 hu).2)
  refine ⟨c', ?_, ⟨b1.trans hg.rank, ?_, ?_, fun h => b4 ▸ hg.okGhosted h, b7.trans hg.removed, b8.trans hg.req, fun h => b9.trans (hg.projs h)⟩, ?_, fun h => b6 (h2 ▸ h)⟩
  · unfold Cx.arriveAll
    rw [h1]
    exact h3
  · intro m hm; rw [b2, b4]; exact hg.mem m hm
  · intro u hu; rw [b2, b4]; exact hg.other u hu
  · intro u
    rw [b5, h2]
    by_cases h : u ∈ ms.map (·.1)
    · cases hgu : get c.ghosts u with
      | none => simp
      | some g => rw [if_pos (List.mem_filter.2 ⟨h, by simp [hgu]⟩), if_pos h]
    · rw [if_neg h, if_neg (fun x => h (List.mem_filter.1 x).1)]

/-! ### Removed agents and new states -/

theorem dropGhosts_spec (us : List Nat) : ∀ (c : Cx S P), us.Nodup → (∀ u ∈ us, u ∈ keys c.ghosts) →
    ∃ c', us.foldlM Cx.dropGhost c = some c' ∧ c'.rank = c.rank ∧ c'.locals = c.locals ∧ c'.byType = c.byType ∧ c'.ghosted = c.ghosted ∧
      (∀ v, get c'.ghosts v = if v ∈ us then none else get c.ghosts v) ∧ (Ok c.ghosts → Ok c'.ghosts) ∧
      c'.removed = c.removed ∧ c'.req = c.req ∧ (c.projs = [] → c'.projs = []) := by
  induction us with
  | nil => intro c _ _; exact ⟨c, rfl, rfl, rfl, rfl, rfl, by simp, id, rfl, rfl, id⟩
  | cons u us ih =>
    intro c hn hu
    rw [List.nodup_cons] at hn
    obtain ⟨g, hg⟩ := (mem_keys _ _).1 (hu u (by simp))
    have hd : c.dropGhost u = some ({ c with ghosts := del (set c.ghosts u { g with ref := g.ref + 1 }) u, projs := c.projs.map fun p => { p with sp := Proj.remove c.rank p.sp u } }) := by
      unfold Cx.dropGhost Cx.refGhost Cx.projsRemove Cx.deleteGhost
      simp [hg]
    obtain ⟨c', h1, h2, h3, h4, h5, h6, h7, h8, h9, h10⟩ := ih ({ c with ghosts := del (set c.ghosts u { g with ref := g.ref + 1 }) u, projs := c.projs.map fun p => { p with sp := Proj.remove c.rank p.sp u } }) hn.2 (by
      intro v hv
      simp only
      have hne : v ≠ u := by rintro rfl; exact hn.1 hv
      rw [← get_isSome, get_del, get_set, if_neg (Ne.symm hne), if_neg (Ne.symm hne), get_isSome]
      exact hu v (by simp [hv]))
    refine ⟨c', ?_, h2, h3, h4, h5, ?_, fun h => h7 ((h.set _ _).del u), h8, h9, fun h => h10 (by simp [h])⟩
    · rw [List.foldlM_cons, hd]
      exact h1
    · intro v
      rw [h6]
      simp only [get_del, get_set, List.mem_cons]
      by_cases h : v = u
      · subst h; simp
      · simp [h, Ne.symm h]

theorem updateGhosts_fold_spec (ms : List (Nat × S)) : ∀ (c : Cx S P), (∀ m ∈ ms, m.1 ∈ keys c.ghosts) → (∀ m ∈ ms, ∀ m' ∈ ms, m.1 = m'.1 → m.2 = m'.2) →
    ∃ c', ms.foldlM (fun (c : Cx S P) m => c.updateGhost m.1 m.2) c = some c' ∧ c'.rank = c.rank ∧ c'.locals = c.locals ∧ c'.byType = c.byType ∧ c'.ghosted = c.ghosted ∧
      keys c'.ghosts = keys c.ghosts ∧
      (∀ m ∈ ms, (get c'.ghosts m.1).map (·.st) = some m.2) ∧ (∀ u, u ∉ ms.map (·.1) → get c'.ghosts u = get c.ghosts u) ∧
      c'.removed = c.removed ∧ c'.req = c.req ∧ c'.projs = c.projs := by
  induction ms with
  | nil => intro c _ _; exact ⟨c, rfl, rfl, rfl, rfl, rfl, rfl, by simp, by simp, rfl, rfl, rfl⟩
  | cons m ms ih =>
    intro c hk hs
    obtain ⟨g, hg⟩ := (mem_keys _ _).1 (hk m (by simp))
    have hkeys : keys (set c.ghosts m.1 { g with st := m.2 }) = keys c.ghosts := by rw [keys_set, if_pos (mem_keys_of_get hg)]
    obtain ⟨c', h1, h2, h3, h4, h5, h6, h7, h8, h9, h10, h11⟩ := ih { c with ghosts := set c.ghosts m.1 { g with st := m.2 } }
      (by intro m' hm'; simp only [hkeys]; exact hk m' (by simp [hm'])) (fun a ha b hb => hs a (by simp [ha]) b (by simp [hb]))
    refine ⟨c', ?_, h2, h3, h4, h5, h6.trans hkeys, ?_, ?_, h9, h10, h11⟩
    · rw [List.foldlM_cons]
      simp only [Cx.updateGhost, hg, Option.bind_eq_bind, Option.bind_some]
      exact h1
    · intro m' hm'
      rcases List.mem_cons.1 hm' with rfl | hm'
      · by_cases hin : m'.1 ∈ ms.map (·.1)
        · obtain ⟨m2, hm2, e⟩ := List.mem_map.1 hin
          rw [← e, h7 m2 hm2, hs m' (by simp) m2 (by simp [hm2]) e.symm]
        · rw [h8 _ hin]; simp
      · exact h7 m' hm'
    · intro u hu
      simp only [List.map_cons, List.mem_cons, not_or] at hu
      rw [h8 u hu.2, get_set, if_neg (Ne.symm hu.1)]

theorem mapM_some {α β : Type} {f : α → Option β} (l : List α) (h : ∀ a ∈ l, (f a).isSome = true) :
    ∃ l', l.mapM f = some l' ∧ ∀ b, b ∈ l' ↔ ∃ a ∈ l, f a = some b := by
  induction l with
  | nil => exact ⟨[], rfl, by simp⟩
  | cons a l ih =>
    obtain ⟨b, hb⟩ := Option.isSome_iff_exists.1 (h a (by simp))
    obtain ⟨l', hl, hm⟩ := ih (fun a ha => h a (by simp [ha]))
    refine ⟨b :: l', by rw [List.mapM_cons, hb, hl]; rfl, ?_⟩
    intro x
    simp only [List.mem_cons, hm]
    constructor
    · rintro (rfl | ⟨a', ha', h'⟩)
      · exact ⟨a, .inl rfl, hb⟩
      · exact ⟨a', .inr ha', h'⟩
    · rintro ⟨a', rfl | ha', h'⟩
      · left; rw [hb] at h'; exact (Option.some.inj h').symm
      · exact .inr ⟨a', ha', h'⟩

theorem stateMsgs_spec (c : Cx S P) (hok : Ok c.ghosted) (h : ∀ u d, get c.ghosted u = some d → u ∈ keys c.locals) :
    ∃ l, c.stateMsgs = some l ∧ ∀ k u s, (k, u, s) ∈ l ↔ ∃ d, get c.ghosted u = some d ∧ k ∈ keys d ∧ get c.locals u = some s := by
  unfold Cx.stateMsgs
  obtain ⟨l, h1, h2⟩ := mapM_some (f := fun m : Nat × Nat => (get c.locals m.2).map fun s => (m.1, m.2, s))
    (c.ghosted.flatMap fun e => (keys e.2).map fun k => (k, e.1)) (by
      intro a ha
      simp only [List.mem_flatMap, List.mem_map] at ha
      obtain ⟨e, he, k, hk, rfl⟩ := ha
      rw [Option.isSome_map, get_isSome]
      exact h _ _ (get_of_mem hok he))
  refine ⟨l, h1, ?_⟩
  intro k u s
  rw [h2]
  simp only [List.mem_flatMap, List.mem_map, Option.map_eq_some_iff, Prod.mk.injEq]
  constructor
  · rintro ⟨a, ⟨e, he, k', hk', rfl⟩, s', hs', rfl, rfl, rfl⟩
    exact ⟨e.2, get_of_mem hok he, hk', hs'⟩
  · rintro ⟨d, hd, hk, hs⟩
    exact ⟨(k, u), ⟨(u, d), mem_of_get hd, k, hk, rfl⟩, s, hs, rfl, rfl, rfl⟩

/-! ### Requests -/

theorem sendRequests_spec {n : Nat} (rs : List (Nat × Nat)) : ∀ (c : Cx S P) (acc : List (Nat × Nat)), (∀ q ∈ rs, get c.ghosts q.1 = none → q.2 < n) →
    ∃ c', rs.foldlM (Cx.sendRequest n) (c, acc) =
        some (c', acc ++ (rs.filter fun q => (get c.ghosts q.1).isNone).map fun q => (q.2, q.1)) ∧
      c'.rank = c.rank ∧ c'.locals = c.locals ∧ c'.byType = c.byType ∧ c'.ghosted = c.ghosted ∧ c'.ghosts = c.ghosts ∧ c'.removed = c.removed ∧
      (c.projs = [] → c'.projs = []) := by
  induction rs with
  | nil => intro c acc _; exact ⟨c, by simp, rfl, rfl, rfl, rfl, rfl, rfl, id⟩
  | cons q rs ih =>
    intro c acc h
    cases hg : get c.ghosts q.1 with
    | none =>
      obtain ⟨c', h1, h2⟩ := ih c (acc ++ [(q.2, q.1)]) (fun q' hq' => h q' (by simp [hq']))
      refine ⟨c', ?_, h2⟩
      rw [List.foldlM_cons]
      simp only [Cx.sendRequest, hg, h q (by simp) hg, if_true, Option.bind_eq_bind, Option.bind_some]
      rw [h1]
      simp [List.filter_cons, hg]
    | some g =>
      have f : ∀ (c : Cx S P) u, ((c.addReq u).projsAddNew u).rank = c.rank ∧ ((c.addReq u).projsAddNew u).locals = c.locals ∧ ((c.addReq u).projsAddNew u).byType = c.byType ∧
          ((c.addReq u).projsAddNew u).ghosted = c.ghosted ∧ ((c.addReq u).projsAddNew u).ghosts = c.ghosts ∧ ((c.addReq u).projsAddNew u).removed = c.removed ∧
          (c.projs = [] → ((c.addReq u).projsAddNew u).projs = []) := by
        intro c u
        unfold Cx.addReq Cx.projsAddNew
        split <;> (refine ⟨rfl, rfl, rfl, rfl, rfl, rfl, ?_⟩; intro h; simp [h])
      obtain ⟨f1, f2, f3, f4, f5, f6, f7⟩ := f c q.1
      obtain ⟨c', h1, h2, h3, h4, h5, h6, h7, h8⟩ := ih ((c.addReq q.1).projsAddNew q.1) acc (fun q' hq' e => h q' (by simp [hq']) (by rw [← f5]; exact e))
      refine ⟨c', ?_, h2.trans f1, h3.trans f2, h4.trans f3, h5.trans f4, h6.trans f5, h7.trans f6, fun h => h8 (f7 h)⟩
      rw [List.foldlM_cons]
      simp only [Cx.sendRequest, hg, Option.bind_eq_bind, Option.bind_some]
      rw [h1, f5]
      simp [List.filter_cons, hg]

theorem answer_spec (rs : List (Nat × Nat)) : ∀ (c : Cx S P) (acc : List (Nat × Nat × S)), (∀ u d, get c.ghosted u = some d → Ok d ∧ d ≠ []) → (∀ q ∈ rs, q.2 ∈ keys c.locals) →
    ∃ c', rs.foldlM (fun (acc : Cx S P × List (Nat × Nat × S)) q => (acc.1.tag q.1 q.2).bind fun c => (get c.locals q.2).map fun s => (c, acc.2 ++ [(q.1, q.2, s)])) (c, acc) =
        some (c', acc ++ rs.filterMap fun q => (get c.locals q.2).map fun s => (q.1, q.2, s)) ∧
      c'.rank = c.rank ∧ c'.locals = c.locals ∧ c'.byType = c.byType ∧ c'.ghosts = c.ghosts ∧ c'.removed = c.removed ∧ c'.req = c.req ∧ c'.projs = c.projs ∧
      (Ok c.ghosted → Ok c'.ghosted) ∧ (∀ u d, get c'.ghosted u = some d → Ok d ∧ d ≠ []) ∧
      (∀ u k, (∃ d, get c'.ghosted u = some d ∧ k ∈ keys d) ↔ (∃ d, get c.ghosted u = some d ∧ k ∈ keys d) ∨ (k, u) ∈ rs) := by
  induction rs with
  | nil => intro c acc hd _; exact ⟨c, by simp, rfl, rfl, rfl, rfl, rfl, rfl, rfl, id, hd, by simp⟩
  | cons q rs ih =>
    intro c acc hd hq
    obtain ⟨s, hs⟩ := (mem_keys _ _).1 (hq q (by simp))
    have ht : ∃ d, c.tag q.1 q.2 = some { c with ghosted := set c.ghosted q.2 d } ∧ Ok d ∧ d ≠ [] ∧
        ∀ k, k ∈ keys d ↔ (∃ d, get c.ghosted q.2 = some d ∧ k ∈ keys d) ∨ k = q.1 := by
      unfold Cx.tag
      cases hg : get c.ghosted q.2 with
      | none =>
        refine ⟨[(q.1, 1)], by simp [hs], by simp [Ok, keys], by simp, ?_⟩
        intro k; simp [keys]
      | some d0 =>
        refine ⟨_, rfl, (hd _ _ hg).1.set _ _, ?_, ?_⟩
        · intro e
          have := congrArg (fun d => get d q.1) e
          simp at this
        · intro k
          simp only [Option.some.injEq, exists_eq_left', keys_set]
          split
          · constructor
            · exact .inl
            · rintro (h | rfl)
              · exact h
              · assumption
          · simp
    obtain ⟨d, ht, hd1, hd2, hd3⟩ := ht
    obtain ⟨c', h1, h2, h3, h4, h5, h6, h7, h8, h9, h10, h11⟩ := ih { c with ghosted := set c.ghosted q.2 d } (acc ++ [(q.1, q.2, s)]) (by
      intro u d' hu
      simp only [get_set] at hu
      split at hu
      · simp only [Option.some.injEq] at hu; subst hu; exact ⟨hd1, hd2⟩
      · exact hd u d' hu) (fun q' hq' => hq q' (by simp [hq']))
    refine ⟨c', ?_, h2, h3, h4, h5, h6, h7, h8, fun h => h9 (h.set _ _), h10, ?_⟩
    · rw [List.foldlM_cons, ht]
      simp only [Option.bind_eq_bind, Option.bind_some, hs, Option.map_some]
      rw [h1]
      simp [List.filterMap_cons, hs]
    · intro u k
      rw [h11]
      simp only [get_set, List.mem_cons]
      by_cases hu : q.2 = u
      · subst hu
        simp only [if_true, Option.some.injEq, exists_eq_left', hd3]
        constructor
        · rintro ((h | rfl) | h)
          · exact .inl h
          · exact .inr (.inl rfl)
          · exact .inr (.inr h)
        · rintro (h | h | h)
          · exact .inl (.inl h)
          · left; right; rw [← h]
          · exact .inr h
      · rw [if_neg hu]
        constructor
        · rintro (h | h)
          · exact .inl h
          · exact .inr (.inr h)
        · rintro (h | h | h)
          · exact .inl h
          · exact absurd (by rw [← h]) hu
          · exact .inr h

theorem addGhosts_spec (ms : List (Nat × S)) : ∀ (c : Cx S P), (∀ m ∈ ms, ∀ m' ∈ ms, m.1 = m'.1 → m.2 = m'.2) →
    let c' := ms.foldl (fun (c : Cx S P) m => (c.addGhostAll m.1 m.2).addReq m.1) c
    c'.rank = c.rank ∧ c'.locals = c.locals ∧ c'.byType = c.byType ∧ c'.ghosted = c.ghosted ∧ c'.removed = c.removed ∧ (c.projs = [] → c'.projs = []) ∧
      (Ok c.ghosts → Ok c'.ghosts) ∧ (∀ m ∈ ms, c'.ghostAgent m.1 = some m.2) ∧ (∀ u, u ∉ ms.map (·.1) → get c'.ghosts u = get c.ghosts u) := by
  induction ms with
  | nil => intro c _; exact ⟨rfl, rfl, rfl, rfl, rfl, id, id, by simp, by simp⟩
  | cons m ms ih =>
    intro c hs
    have f : ∀ (c : Cx S P) u s, ((c.addGhostAll u s).addReq u).rank = c.rank ∧ ((c.addGhostAll u s).addReq u).locals = c.locals ∧
        ((c.addGhostAll u s).addReq u).byType = c.byType ∧ ((c.addGhostAll u s).addReq u).ghosted = c.ghosted ∧ ((c.addGhostAll u s).addReq u).removed = c.removed ∧
        (c.projs = [] → ((c.addGhostAll u s).addReq u).projs = []) ∧ ((c.addGhostAll u s).addReq u).ghosts = set c.ghosts u ⟨s, c.projs.length⟩ := by
      intro c u s
      unfold Cx.addReq
      split <;> (refine ⟨rfl, rfl, rfl, rfl, rfl, ?_, rfl⟩; intro h; simp [Cx.addGhostAll, Cx.projsAdd, Cx.addGhost, h])
    obtain ⟨f1, f2, f3, f4, f5, f6, f7⟩ := f c m.1 m.2
    obtain ⟨h1, h2, h3, h4, h5, h6, h7, h8, h9⟩ := ih ((c.addGhostAll m.1 m.2).addReq m.1) (fun a ha b hb => hs a (by simp [ha]) b (by simp [hb]))
    refine ⟨h1.trans f1, h2.trans f2, h3.trans f3, h4.trans f4, h5.trans f5, fun h => h6 (f6 h), fun h => h7 (f7 ▸ h.set _ _), ?_, ?_⟩
    · intro m' hm'
      rcases List.mem_cons.1 hm' with rfl | hm'
      · by_cases hin : m'.1 ∈ ms.map (·.1)
        · obtain ⟨m2, hm2, e⟩ := List.mem_map.1 hin
          have := h8 m2 hm2
          rw [e] at this
          rw [List.foldl_cons, this, hs m' (by simp) m2 (by simp [hm2]) e.symm]
        · unfold Cx.ghostAgent
          rw [List.foldl_cons, h9 _ hin, f7]
          simp
      · exact h8 m' hm'
    · intro u hu
      simp only [List.map_cons, List.mem_cons, not_or] at hu
      rw [List.foldl_cons, h9 u hu.2, f7, get_set, if_neg (Ne.symm hu.1)]

theorem each_ex {n : Nat} {f : Nat → Option (Cx S P)} {w : World S P} {R : Nat → Cx S P → Prop} (h : ∀ r < n, ∃ c, f r = some c ∧ R r c) :
    ∃ w', each n f w = some w' ∧ ∀ r < n, R r (w' r) := by
  rw [each_eq]
  rw [if_pos]
  · refine ⟨_, rfl, fun r hr => ?_⟩
    obtain ⟨c, hc, hp⟩ := h r hr
    simpa [hc, hr] using hp
  · rw [List.all_eq_true]
    intro r hr
    obtain ⟨c, hc, _⟩ := h r (List.mem_range.1 hr)
    simp [hc]

end Repast.Context
