import Verif.Context.OneRank

namespace Repast.Context
open Repast.Dict Repast.Space

variable {S P Q : Type} [Proj P Q] {G : Geo Q} {K : Kind G P} {ty : Nat → Nat}

/-! ### Agents leave the rank -/

variable {r : Nat} {c : Cx S P} {lo : Nat → Option (S × Option Q)} {gh : Nat → Option (S × Q)}

theorem RI.congr {lo' : Nat → Option (S × Option Q)} {gh' : Nat → Option (S × Q)} (h : RI K ty r c lo gh) (h1 : ∀ u, lo' u = lo u) (h2 : ∀ u, gh' u = gh u) :
    RI K ty r c lo' gh' := by
  rw [funext h1, funext h2]; exact h

/-- The message about an agent that leaves. -/
def oobMsg {Q : Type} (lo : Nat → Option (S × Option Q)) (e : Nat × Nat × Q) : Option (Nat × OobMsg S Q) :=
  (lo e.1).map fun x => (e.2.1, ⟨e.1, some (x.1, none), 0, e.2.2⟩)

theorem RI.takeOne (h : RI K ty r c lo (fun _ => none)) {u : Nat} {x : S × Option Q} (h1 : lo u = some x) :
    ∃ c1, c.take ty u = some (c1, x.1, none) ∧ (c1.projRemove 0 u).rank = r ∧ RI K ty r (c1.projRemove 0 u) (upd lo u none) (fun _ => none) := by
  have hu : get c.locals u = some x.1 := by rw [h.loc, h1]; rfl
  obtain ⟨d, hd⟩ := take_of ty h.views hu
  obtain ⟨ps, e, hg⟩ := projRemove_g (c := { c with locals := del c.locals u, byType := d, ghosted := del c.ghosted u }) h.grid h.rank u
  refine ⟨{ c with locals := del c.locals u, byType := d, ghosted := del c.ghosted u }, ?_, ?_, ?_⟩
  · rw [hd, h.ghosted]; rfl
  · simp only [h.ghosted] at e ⊢
    rw [e]; exact h.rank
  · simp only [h.ghosted] at e hd ⊢
    rw [e]
    refine ⟨h.rank, (h.views.take ty hd).congr ty rfl rfl, ?_, rfl, h.req, h.removed, ?_, h.ghosts, by simp, by simp⟩
    · intro v
      show get (del c.locals u) v = _
      rw [get_del, h.loc]
      simp only [upd]
      by_cases hv : v = u
      · simp [hv]
      · have : ¬ u = v := fun e => hv e.symm
        simp [hv, this]
    · refine cast (congrArg (fun x => GOk K r _ x _) ?_) hg
      refine upd_eq (by simp [entry, upd]) ?_
      intro v hv
      simp [upd, hv]

theorem RI.gatherFold {n : Nat} : ∀ (es : List (Nat × Nat × Q)) (c : Cx S P) (lo : Nat → Option (S × Option Q)) (out : List (Nat × OobMsg S Q)) (mv : List Nat),
    RI K ty r c lo (fun _ => none) → (es.map (·.1)).Nodup → (∀ e ∈ es, (lo e.1).isSome = true ∧ e.2.1 < n) →
    ∃ c', es.foldlM (Cx.gatherOne ty n 0) (c, out, mv) = some (c', out ++ es.filterMap (oobMsg lo), mv ++ es.map (·.1)) ∧
      RI K ty r c' (fun u => if u ∈ es.map (·.1) then none else lo u) (fun _ => none) := by
  intro es
  induction es with
  | nil => intro c lo out mv h _ _; exact ⟨c, by simp, by simpa using h⟩
  | cons e es ih =>
    intro c lo out mv h hn he
    rw [List.map_cons, List.nodup_cons] at hn
    obtain ⟨h1, h2⟩ := he e (by simp)
    obtain ⟨x, hx⟩ := Option.isSome_iff_exists.1 h1
    obtain ⟨c1, ht1, -, hr1⟩ := h.takeOne hx
    have hne : ∀ e' ∈ es, e'.1 ≠ e.1 := fun e' he' eq => hn.1 (eq ▸ List.mem_map.2 ⟨e', he', rfl⟩)
    obtain ⟨c', i1, i2⟩ := ih (c1.projRemove 0 e.1) (upd lo e.1 none) (out ++ [(e.2.1, ⟨e.1, some (x.1, none), 0, e.2.2⟩)]) (mv ++ [e.1]) hr1 hn.2 (by
      intro e' he'
      simp only [upd, if_neg (hne e' he')]
      exact he e' (by simp [he']))
    refine ⟨c', ?_, i2.congr ?_ (fun _ => rfl)⟩
    · rw [List.foldlM_cons]
      have hg : Cx.gatherOne ty n 0 (c, out, mv) e = some (c1.projRemove 0 e.1, out ++ [(e.2.1, ⟨e.1, some (x.1, none), 0, e.2.2⟩)], mv ++ [e.1]) := by
        unfold Cx.gatherOne
        have : get c.locals e.1 = some x.1 := by rw [h.loc, hx]; rfl
        rw [if_neg (by omega)]
        simp only [this, ht1]
        rfl
      rw [hg]
      simp only [Option.bind_eq_bind, Option.bind_some]
      rw [i1]
      have hm : es.filterMap (oobMsg (upd lo e.1 none)) = es.filterMap (oobMsg lo) := by
        apply filterMap_congr'
        intro e' he'
        simp only [oobMsg, upd, if_neg (hne e' he')]
      rw [hm]
      simp [oobMsg, hx]
    · intro u
      simp only [List.map_cons, List.mem_cons, upd]
      by_cases h1 : u ∈ es.map (·.1)
      · rw [if_pos (.inr h1), if_pos h1]
      · by_cases h2 : u = e.1
        · simp [h2]
        · rw [if_neg h1, if_neg h2, if_neg (by rintro (h | h); exact h2 h; exact h1 h)]

/-- Whether an agent with the given view has to leave rank `r`. -/
def Leaves (G : Geo Q) (r : Nat) (x : S × Option Q) : Prop := ∃ q, x.2 = some q ∧ G.inside r q = false

open Classical in
theorem RI.gather {n : Nat} (hn : G.n ≤ n) (h : RI K ty r c lo (fun _ => none)) :
    ∃ c' out mv, c.gatherOob ty n = some (c', out, mv) ∧ RI K ty r c' (fun u => if ∃ x, lo u = some x ∧ Leaves G r x then none else lo u) (fun _ => none) ∧
      (out.map fun m => m.2.uid).Nodup ∧
      ∀ k m, (k, m) ∈ out ↔ ∃ s q, lo m.uid = some (s, some q) ∧ G.inside r q = false ∧ k = G.owner q ∧ m = ⟨m.uid, some (s, none), 0, q⟩ := by
  obtain ⟨g, e, h3, h4, h5, h6⟩ := h.grid
  have hag : ∀ u, Proj.where_ g.sp u = (lo u).map (·.2) := by intro u; rw [h4]; simp [entry]
  have hlist : c.oobList 0 (keys c.locals ++ keys c.ghosts) = (keys c.locals).filterMap fun u => (G.aim r ((lo u).map (·.2))).map fun e => (u, e) := by
    unfold Cx.oobList
    rw [e, h.no_ghosts]
    simp only [List.getElem?_cons_zero, keys, List.map_nil, List.append_nil]
    apply filterMap_congr'
    intro u _
    rw [K.oob h3, hag]
  have hes : ∀ x, x ∈ c.oobList 0 (keys c.locals ++ keys c.ghosts) ↔ ∃ s, lo x.1 = some (s, some x.2.2) ∧ G.inside r x.2.2 = false ∧ x.2.1 = G.owner x.2.2 := by
    rintro ⟨u, k, q⟩
    rw [hlist]
    simp only [List.mem_filterMap, Option.map_eq_some_iff, Geo.aim_some, Prod.mk.injEq]
    constructor
    · rintro ⟨v, -, e', ⟨⟨x, hx, hx2⟩, b, c'⟩, rfl, rfl⟩
      obtain ⟨s, l⟩ := x
      simp only at hx2
      subst hx2
      exact ⟨s, hx, b, c'⟩
    · rintro ⟨s, a, b, c'⟩
      refine ⟨u, ?_, (k, q), ⟨⟨_, a, rfl⟩, b, c'⟩, rfl, rfl⟩
      exact mem_keys_of_get (v := s) (by rw [h.loc, a]; rfl)
  have hnd : ((c.oobList 0 (keys c.locals ++ keys c.ghosts)).map (·.1)).Nodup := by
    rw [hlist, List.map_filterMap]
    have := h.views.ok
    unfold Ok at this
    generalize keys c.locals = l at this
    induction l with
    | nil => simp
    | cons u l ih =>
      rw [List.nodup_cons] at this
      rw [List.filterMap_cons]
      cases G.aim r ((lo u).map (·.2)) with
      | none => exact ih this.2
      | some e =>
        simp only [Option.map_some]
        rw [List.nodup_cons]
        refine ⟨?_, ih this.2⟩
        intro hm
        simp only [List.mem_filterMap, Option.map_map, Option.map_eq_some_iff] at hm
        obtain ⟨v, hv, e', -, e2⟩ := hm
        simp only [Function.comp_apply] at e2
        exact this.1 (e2 ▸ hv)
  obtain ⟨c1, g1, g2⟩ := RI.gatherFold (n := n) (c.oobList 0 (keys c.locals ++ keys c.ghosts)) c lo [] [] h hnd (by
    intro x hx
    obtain ⟨s, a, b, d⟩ := (hes x).1 hx
    refine ⟨by simp [a], ?_⟩
    rw [d]
    have := (K.owner_spec (h.locIn a)).1
    omega)
  have hlo : ∀ u, (if u ∈ (c.oobList 0 (keys c.locals ++ keys c.ghosts)).map (·.1) then none else lo u) = if ∃ x, lo u = some x ∧ Leaves G r x then none else lo u := by
    intro u
    have : u ∈ (c.oobList 0 (keys c.locals ++ keys c.ghosts)).map (·.1) ↔ ∃ x, lo u = some x ∧ Leaves G r x := by
      rw [List.mem_map]
      constructor
      · rintro ⟨x, hx, rfl⟩
        obtain ⟨s, a, b, d⟩ := (hes x).1 hx
        exact ⟨_, a, _, rfl, b⟩
      · rintro ⟨⟨s, l⟩, a, q, b, d⟩
        simp only at b
        subst b
        exact ⟨(u, G.owner q, q), (hes _).2 ⟨s, a, d, rfl⟩, rfl⟩
    by_cases hu : u ∈ (c.oobList 0 (keys c.locals ++ keys c.ghosts)).map (·.1)
    · rw [if_pos hu, if_pos (this.1 hu)]
    · rw [if_neg hu, if_neg (fun h => hu (this.2 h))]
  have g3 := g2.congr (fun u => (hlo u).symm) (fun _ => rfl)
  obtain ⟨ps, e4, hg4⟩ := clearOob_g g3.grid g3.rank (by
    intro u
    cases ha : G.aim r (entry (if ∃ x, lo u = some x ∧ Leaves G r x then none else lo u) none) with
    | none => rfl
    | some x =>
      exfalso
      obtain ⟨a, b, d⟩ := Geo.aim_some.1 ha
      split at a
      · simp [entry] at a
      · rename_i hnl
        simp only [entry, Option.map_none, Option.or_none, Option.map_eq_some_iff] at a
        obtain ⟨y, hy, hy2⟩ := a
        exact hnl ⟨y, hy, x.2, hy2, b⟩)
  refine ⟨c1.clearOob 0, [] ++ (c.oobList 0 (keys c.locals ++ keys c.ghosts)).filterMap (oobMsg lo), [] ++ (c.oobList 0 (keys c.locals ++ keys c.ghosts)).map (·.1), ?_, ?_, ?_, ?_⟩
  · unfold Cx.gatherOob
    rw [e]
    show (List.range 1).foldlM _ _ = _
    simp only [show List.range 1 = [0] from rfl, List.foldlM_cons, List.foldlM_nil]
    rw [g1]
    rfl
  · rw [e4]
    exact ⟨g3.rank, g3.views.congr ty rfl rfl, g3.loc, g3.ghosted, g3.req, g3.removed, hg4, g3.ghosts, g3.disj, g3.buf0⟩
  · have : ([] ++ (c.oobList 0 (keys c.locals ++ keys c.ghosts)).filterMap (oobMsg lo)).map (fun m : Nat × OobMsg S Q => m.2.uid) = (c.oobList 0 (keys c.locals ++ keys c.ghosts)).map (·.1) := by
      have hall : ∀ x ∈ c.oobList 0 (keys c.locals ++ keys c.ghosts), (lo x.1).isSome = true := by
        intro x hx
        obtain ⟨s, a, -⟩ := (hes x).1 hx
        simp [a]
      generalize c.oobList 0 (keys c.locals ++ keys c.ghosts) = l at hall
      induction l with
      | nil => rfl
      | cons x l ih =>
        obtain ⟨y, hy⟩ := Option.isSome_iff_exists.1 (hall x (by simp))
        have := ih (fun x hx => hall x (by simp [hx]))
        simp only [List.nil_append] at this ⊢
        rw [List.filterMap_cons]
        simp only [oobMsg, hy, Option.map_some, List.map_cons]
        congr 1
    rw [this]; exact hnd
  · intro k m
    simp only [List.nil_append, List.mem_filterMap]
    constructor
    · rintro ⟨x, hx, hm⟩
      obtain ⟨s, a, b, d⟩ := (hes x).1 hx
      simp only [oobMsg, a, Option.map_some, Option.some.injEq, Prod.mk.injEq] at hm
      obtain ⟨rfl, rfl⟩ := hm
      exact ⟨s, x.2.2, a, b, d, rfl⟩
    · rintro ⟨s, q, a, b, rfl, d⟩
      refine ⟨(m.uid, G.owner q, q), (hes _).2 ⟨s, a, b, rfl⟩, ?_⟩
      simp only [oobMsg, a, Option.map_some, Option.some.injEq, Prod.mk.injEq, true_and]
      exact d.symm

/-- No two agents are at the same location. -/
def Apart {Q : Type} (ag : Nat → Option (Option Q)) : Prop := ∀ u v q, ag u = some (some q) → ag v = some (some q) → u = v

/-! ### Agents arrive -/

theorem RI.process : ∀ (ms : List (OobMsg S Q)) (c : Cx S P) (lo lo' : Nat → Option (S × Option Q)), RI K ty r c lo (fun _ => none) →
    (ms.map (·.uid)).Nodup →
    (∀ m ∈ ms, m.pid = 0 ∧ lo m.uid = none ∧ G.valid m.pt ∧ ∃ s, m.st = some (s, none) ∧ lo' m.uid = some (s, some m.pt)) →
    (∀ u, u ∉ ms.map (·.uid) → lo' u = lo u) → (G.excl → Apart fun u => entry (lo' u) none) →
    ∃ c', c.processOob ty ms = some (c', []) ∧ RI K ty r c' lo' (fun _ => none) := by
  intro ms
  induction ms with
  | nil =>
    intro c lo lo' h _ _ h2 _
    exact ⟨c, rfl, h.congr (fun u => h2 u (by simp)) (fun _ => rfl)⟩
  | cons m ms ih =>
    intro c lo lo' h hn hm ho hx
    rw [List.map_cons, List.nodup_cons] at hn
    obtain ⟨m1, m2, m3, s, m5, m6⟩ := hm m (by simp)
    have h1 := h.add m2 rfl s
    obtain ⟨c1, e1, r1⟩ := h1.move (u := m.uid) (x := (s, none)) (by simp [upd]) m.pt (by
      intro he v hv hl
      rw [K.dest_id m3] at hl
      simp only [upd, if_neg hv] at hl
      by_cases hvm : v ∈ ms.map (·.uid)
      · obtain ⟨m', hm', e⟩ := List.mem_map.1 hvm
        rw [← e, (hm m' (by simp [hm'])).2.1] at hl
        simp [entry] at hl
      · rw [← ho v (by simp [hv, hvm])] at hl
        exact hv (hx he v m.uid m.pt hl (by simp [entry, m6])))
    have hone : Cx.processOne ty (c, []) m = some (c1, []) := by
      unfold Cx.processOne Cx.receiveOob
      have hg : get c.locals m.uid = none := by rw [h.loc, m2]; rfl
      have hgh : get c.ghosts m.uid = none := by rw [h.ghosts]; rfl
      simp only [hg, m5, Cx.arrive, hgh, Option.isSome_none, Option.map_some, Bool.false_eq_true, if_false, Option.bind_some, m1, e1]
    have hne : ∀ m' ∈ ms, m'.uid ≠ m.uid := fun m' hm' e => hn.1 (e ▸ List.mem_map.2 ⟨m', hm', rfl⟩)
    obtain ⟨c', e2, r2⟩ := ih c1 _ lo' r1 hn.2 (by
      intro m' hm'
      obtain ⟨a1, a2, a3, a5⟩ := hm m' (by simp [hm'])
      refine ⟨a1, ?_, a3, a5⟩
      simp only [upd, if_neg (hne m' hm')]
      exact a2) (by
      intro u hu
      simp only [upd]
      split
      · rename_i e; rw [e, m6, K.dest_id m3]
      · rename_i e; exact ho u (by simp [hu, e])) hx
    refine ⟨c', ?_, r2⟩
    unfold Cx.processOob at e2 ⊢
    rw [List.foldlM_cons, hone]
    exact e2

/-! ### Ghosts -/

theorem mapM_map {α β : Type} {f : α → Option β} {g : β → α} (h : ∀ a b, f a = some b → g b = a) : ∀ (l : List α) (l' : List β), l.mapM f = some l' → l'.map g = l := by
  intro l
  induction l with
  | nil => intro l' e; simp at e; subst e; rfl
  | cons a l ih =>
    intro l' e
    rw [List.mapM_cons] at e
    simp only [Option.bind_eq_bind, Option.bind_eq_some_iff, Option.pure_def, Option.some.injEq] at e
    obtain ⟨b, hb, l2, hl2, rfl⟩ := e
    rw [List.map_cons, h a b hb, ih l2 hl2]

theorem RI.msgs (h0 : 0 < G.buf) (hr : r < G.n) (h : RI K ty r c lo (fun _ => none)) (hin : ∀ u s q, lo u = some (s, some q) → G.inside r q = true) :
    ∃ l, c.bufferMsgs G.n 0 = some l ∧ (∀ k u s q, (k, u, s, q) ∈ l ↔ lo u = some (s, some q) ∧ k < G.n ∧ k ≠ r ∧ G.near k q) ∧
      ∀ k, ((l.filter (fun m => decide (m.1 = k))).map fun m => m.2.1).Nodup := by
  obtain ⟨g, e, h3, h4, -⟩ := h.grid
  have hag : ∀ {u q}, Proj.where_ g.sp u = some (some q) ↔ ∃ s, lo u = some (s, some q) := by
    intro u q
    rw [h4]
    simp only [entry, Option.map_none, Option.or_none, Option.map_eq_some_iff]
    constructor
    · rintro ⟨⟨s, l⟩, hx, rfl⟩; exact ⟨s, hx⟩
    · rintro ⟨s, hs⟩; exact ⟨_, hs, rfl⟩
  have hst : ∀ {u s l}, lo u = some (s, l) → c.stateOf u = some s := by
    intro u s l hu
    unfold Cx.stateOf
    rw [h.loc, hu]
    rfl
  obtain ⟨l0, hl0, hraw, hnd⟩ := K.sends h0 hr h3 (fun u q hu => by obtain ⟨s, hs⟩ := hag.1 hu; exact hin u s q hs)
  obtain ⟨l, l1, l2⟩ := mapM_some (f := fun m : Nat × Nat × Q => (c.stateOf m.2.1).map fun s => (m.1, m.2.1, s, m.2.2)) l0 (by
    rintro ⟨k, u, q⟩ hm
    obtain ⟨s, hs⟩ := hag.1 ((hraw k u q).1 hm).1
    rw [hst hs]
    rfl)
  refine ⟨l, ?_, ?_, ?_⟩
  · unfold Cx.bufferMsgs
    rw [e, h.rank]
    simp only [List.getElem?_cons_zero, hl0, Option.bind_some]
    exact l1
  · intro k u s q
    rw [l2]
    constructor
    · rintro ⟨⟨k', u', q'⟩, hm, e⟩
      obtain ⟨b0, b1, b2, b3⟩ := (hraw _ _ _).1 hm
      obtain ⟨s', hs⟩ := hag.1 b0
      rw [hst hs] at e
      simp only [Option.map_some, Option.some.injEq, Prod.mk.injEq] at e
      obtain ⟨rfl, rfl, rfl, rfl⟩ := e
      exact ⟨hs, b1, b2, b3⟩
    · rintro ⟨a1, a2, a3, a4⟩
      refine ⟨(k, u, q), (hraw _ _ _).2 ⟨hag.2 ⟨s, a1⟩, a2, a3, a4⟩, ?_⟩
      simp [hst a1]
  · intro k
    have hp := mapM_map (g := fun m : Nat × Nat × S × Q => (m.1, m.2.1, m.2.2.2)) (by
      rintro a b hb
      obtain ⟨s, -, rfl⟩ := Option.map_eq_some_iff.1 hb
      rfl) _ _ l1
    have : (l.filter (fun m => decide (m.1 = k))).map (fun m => m.2.1) =
        ((l.map (fun m : Nat × Nat × S × Q => (m.1, m.2.1, m.2.2.2))).filter (fun m => decide (m.1 = k))).map (fun m => m.2.1) := by
      rw [List.filter_map, List.map_map]
      rfl
    rw [this, hp]
    exact hnd k

theorem RI.buffer (h0 : 0 < G.buf) : ∀ (ms : List (Nat × S × Q)) (c : Cx S P) (gh gh' : Nat → Option (S × Q)), RI K ty r c lo gh →
    (ms.map (·.1)).Nodup →
    (∀ m ∈ ms, lo m.1 = none ∧ gh m.1 = none ∧ G.valid m.2.2 ∧ gh' m.1 = some m.2) →
    (∀ u, u ∉ ms.map (·.1) → gh' u = gh u) → (G.excl → Apart fun u => entry (lo u) (gh' u)) →
    ∃ c', ms.foldlM (Cx.bufferOne 0) c = some c' ∧ RI K ty r c' lo gh' := by
  intro ms
  induction ms with
  | nil =>
    intro c gh gh' h _ _ h2 _
    exact ⟨c, rfl, h.congr (fun _ => rfl) (fun u => h2 u (by simp))⟩
  | cons m ms ih =>
    intro c gh gh' h hn hm ho hx
    rw [List.map_cons, List.nodup_cons] at hn
    obtain ⟨m1, m2, m3, m5⟩ := hm m (by simp)
    have hgf : c.ghostFor m.1 m.2.1 = { c with ghosts := set c.ghosts m.1 ⟨m.2.1, 1⟩ } := by
      unfold Cx.ghostFor
      rw [h.ghosts, m2]
      rfl
    obtain ⟨ps, e1, g1⟩ := bufferAdd_g (c := { c with ghosts := set c.ghosts m.1 ⟨m.2.1, 1⟩ }) h.grid h.rank (u := m.1) (by simp [entry, m1, m2]) (by simp [m2])
    obtain ⟨ps2, e2, g2⟩ := projMove_g (c := { c with ghosts := set c.ghosts m.1 ⟨m.2.1, 1⟩, projs := ps }) g1 h.rank (u := m.1) (by simp [upd]) m.2.2 (by
      intro he v hv hl
      rw [K.dest_id m3] at hl
      simp only [upd, if_neg hv] at hl
      have hl' : entry (lo v) (gh' v) = some (some m.2.2) := by
        by_cases hvm : v ∈ ms.map (·.1)
        · obtain ⟨m', hm', e⟩ := List.mem_map.1 hvm
          obtain ⟨a1, a2, -⟩ := hm m' (by simp [hm'])
          rw [← e, a1, a2] at hl
          simp [entry] at hl
        · rw [ho v (by simp [hv, hvm])]; exact hl
      exact hv (hx he v m.1 m.2.2 hl' (by simp [entry, m1, m5])))
    rw [K.dest_id m3] at g2
    have hone : c.bufferOne 0 m = some { c with ghosts := set c.ghosts m.1 ⟨m.2.1, 1⟩, projs := ps2 } := by
      unfold Cx.bufferOne
      rw [hgf, e1, e2]
    have hri : RI K ty r { c with ghosts := set c.ghosts m.1 ⟨m.2.1, 1⟩, projs := ps2 } lo (upd gh m.1 (some m.2)) := by
      refine ⟨h.rank, h.views.congr ty rfl rfl, h.loc, h.ghosted, h.req, h.removed, ?_, ?_, ?_, by omega⟩
      · have hag : upd (upd (fun u => entry (lo u) (gh u)) m.1 (some none)) m.1 (some (some m.2.2)) = fun u => entry (lo u) (upd gh m.1 (some m.2) u) := by
          refine upd_eq (by simp [entry, upd, m1]) ?_
          intro v hv
          simp [upd, hv]
        have hbu : (fun v => (gh v).isSome = true ∨ v = m.1) = fun u => (upd gh m.1 (some m.2) u).isSome = true := by
          funext v
          simp only [upd]
          by_cases hv : v = m.1 <;> simp [hv]
        rw [hag, hbu] at g2
        exact g2
      · intro v
        show get (set c.ghosts m.1 ⟨m.2.1, 1⟩) v = _
        rw [get_set, h.ghosts]
        simp only [upd]
        by_cases hv : v = m.1
        · simp [hv]
        · have : ¬ m.1 = v := fun e => hv e.symm
          simp [hv, this]
      · intro v hv
        simp only [upd] at hv
        split at hv
        · rename_i e; rw [e]; exact m1
        · exact h.disj v hv
    have hne : ∀ m' ∈ ms, m'.1 ≠ m.1 := fun m' hm' e => hn.1 (e ▸ List.mem_map.2 ⟨m', hm', rfl⟩)
    obtain ⟨c', e3, r3⟩ := ih _ _ gh' hri hn.2 (by
      intro m' hm'
      obtain ⟨a1, a2, a3⟩ := hm m' (by simp [hm'])
      refine ⟨a1, ?_, a3⟩
      simp only [upd, if_neg (hne m' hm')]
      exact a2) (by
      intro u hu
      simp only [upd]
      split
      · rename_i e; rw [e, m5]
      · rename_i e; exact ho u (by simp [hu, e])) hx
    refine ⟨c', ?_, r3⟩
    rw [List.foldlM_cons, hone]
    exact e3

end Repast.Context
