import Verif.Mixed.Inv

/-! The phases of `synchronize` on one rank. -/
namespace Repast.Mixed
open Repast.Dict Repast.Context Repast.Network Repast.Space

variable {S A P Q : Type} [Proj P Q] {G : Geo Q}

variable {K : Kind G P} {r : Nat} {c c' : Mx S A P} {lo lo' : Nat → Option (S × Option Q)} {gh : Option (Nat → Option Q)} {used used' dead dead' : Nat → Prop} {cl cl' : Prop}

theorem placed_one {g : Shared P} (hs : c.spaces = [g]) (u : Nat) : c.placed 0 u = Proj.where_ g.sp u := by
  simp only [Mx.placed, hs, List.getElem?_cons_zero, Option.bind_some]

/-- An agent leaves the rank. -/
theorem J.gatherOne {n : Nat} (h : J K r c lo (some fun _ => none) used dead cl) {out : List (Nat × OobMsg S Q)} {left : List (Nat × Nat)} {e : Nat × Nat × Q}
    {x : Mx S A P × List (Nat × OobMsg S Q) × List (Nat × Nat)} (hu : (lo e.1).isSome = true) (he : Mx.gatherOne n 0 (c, out, left) e = some x) :
    J K r x.1 (upd lo e.1 none) (some fun _ => none) used dead cl ∧
      ∃ d, x.2.1 = out ++ [(e.2.1, ⟨e.1, (lo e.1).map fun y => (y.1, d), 0, e.2.2⟩)] := by
  unfold Mx.gatherOne at he
  split at he
  · obtain ⟨⟨s, l⟩, hl⟩ := Option.isSome_iff_exists.1 hu
    obtain ⟨o, ho⟩ := h.of_local hl
    simp only [ho] at he
    obtain ⟨c1, e1, he⟩ := Option.bind_eq_some_iff.1 he
    obtain ⟨y, e2, rfl⟩ := Option.map_eq_some_iff.1 he
    obtain ⟨g, eg, hg⟩ := h.sp
    obtain ⟨-, g', e3, rfl⟩ := onSpace_one eg e1
    cases e3
    have hk := foldlM_keeps' (c := (({ c.nc with locals := del c.nc.locals e.1, ghosted := del c.nc.ghosted e.1 } : Network.Cx S A), get c.nc.ghosted e.1)) (fun _ _ _ => moving_keeps) e2
    refine ⟨⟨hk.rank.trans h.rank, ?_, ?_, ?_, { g with sp := Proj.remove r g.sp e.1 }, ?_, ?_⟩, y.2, ?_⟩
    · show Ok y.1.locals
      rw [hk.locals]; exact h.ok.del _
    · intro v
      show (get y.1.locals v).map (·.2) = _
      rw [hk.locals]
      show (get (del c.nc.locals e.1) v).map (·.2) = _
      rw [get_del]
      simp only [upd]
      by_cases hv : v = e.1
      · simp [hv]
      · rw [if_neg (fun e => hv e.symm), if_neg hv]; exact h.loc v
    · show ∀ e ∈ y.1.removed, _
      rw [hk.removed]; exact h.removed
    · show [({ g with sp := Proj.remove c.nc.rank g.sp e.1 } : Shared P)] = _
      rw [h.rank]
    · refine (hg.removeLocal (u := e.1) (by rintro f ⟨⟩; rfl)).congr ?_ (fun _ h => h) (fun h => h)
      intro v
      simp only [upd]
      split <;> rfl
    · simp [hl]
  · cases he

theorem J.gatherFold {n : Nat} : ∀ (es : List (Nat × Nat × Q)) (c : Mx S A P) (lo : Nat → Option (S × Option Q)) (out : List (Nat × OobMsg S Q)) (left : List (Nat × Nat))
    (x : Mx S A P × List (Nat × OobMsg S Q) × List (Nat × Nat)),
    J K r c lo (some fun _ => none) used dead cl → (es.map (·.1)).Nodup → (∀ e ∈ es, (lo e.1).isSome = true) → es.foldlM (Mx.gatherOne n 0) (c, out, left) = some x →
    J K r x.1 (fun u => if u ∈ es.map (·.1) then none else lo u) (some fun _ => none) used dead cl ∧
      ∃ d : Nat → Option (Dict Int), x.2.1 = out ++ es.map fun e => (e.2.1, ⟨e.1, (lo e.1).map fun y => (y.1, d e.1), 0, e.2.2⟩) := by
  intro es
  induction es with
  | nil =>
    intro c lo out left x h _ _ e
    cases e
    exact ⟨by simpa using h, fun _ => none, by simp⟩
  | cons e es ih =>
    intro c lo out left x h hn he hx
    rw [List.map_cons, List.nodup_cons] at hn
    rw [List.foldlM_cons, Option.bind_eq_bind] at hx
    obtain ⟨⟨c1, out1, left1⟩, h1, h2⟩ := Option.bind_eq_some_iff.1 hx
    obtain ⟨j1, d, ho⟩ := h.gatherOne (he e (by simp)) h1
    simp only at ho j1
    have hne : ∀ e' ∈ es, e'.1 ≠ e.1 := fun e' he' eq => hn.1 (eq ▸ List.mem_map.2 ⟨e', he', rfl⟩)
    obtain ⟨j2, d', ho'⟩ := ih c1 (upd lo e.1 none) out1 left1 x j1 hn.2 (by
      intro e' he'
      simp only [upd, if_neg (hne e' he')]
      exact he e' (by simp [he'])) h2
    refine ⟨j2.congr ?_ (fun _ h => h) (fun _ _ h => h) (fun h => h), upd d' e.1 d, ?_⟩
    · intro u
      simp only [List.map_cons, List.mem_cons, upd]
      by_cases h1 : u ∈ es.map (·.1)
      · rw [if_pos (.inr h1), if_pos h1]
      · by_cases h2 : u = e.1
        · simp [h2]
        · rw [if_neg h1, if_neg h2, if_neg (by rintro (h | h); exact h2 h; exact h1 h)]
    · rw [ho', ho, List.append_assoc, List.map_cons]
      congr 1
      show _ :: _ = _
      congr 1
      · simp [upd]
      · apply List.map_congr_left
        intro e' he'
        simp only [upd, if_neg (hne e' he')]

/-- The out of bounds queue: the local agents that are not in the local bounds. -/
theorem J.oobs (h : J K r c lo (some fun _ => none) used dead cl) :
    (∀ e : Nat × Nat × Q, e ∈ c.oobList 0 c.uids ↔ ∃ s, lo e.1 = some (s, some e.2.2) ∧ G.inside r e.2.2 = false ∧ e.2.1 = G.owner e.2.2) ∧ ((c.oobList 0 c.uids).map (·.1)).Nodup := by
  obtain ⟨g, eg, hg⟩ := h.sp
  have hwh : ∀ u q, Proj.where_ g.sp u = some (some q) ↔ ∃ s, lo u = some (s, some q) := by
    intro u q
    constructor
    · intro hw
      cases hl : lo u with
      | none =>
        have := hg.gh _ rfl u (by simp [hl])
        rw [hw] at this; cases this
      | some y =>
        obtain ⟨s, l⟩ := y
        have := hg.lo u l (by simp [hl])
        rw [hw] at this
        simp only [Option.some.injEq] at this
        subst this
        exact ⟨s, rfl⟩
    · rintro ⟨s, hs⟩
      exact hg.lo u (some q) (by simp [hs])
  have hes : ∀ e : Nat × Nat × Q, e ∈ c.oobList 0 c.uids ↔ ∃ s, lo e.1 = some (s, some e.2.2) ∧ G.inside r e.2.2 = false ∧ e.2.1 = G.owner e.2.2 := by
    rintro ⟨u, k, q⟩
    unfold Mx.oobList
    rw [eg]
    simp only [List.getElem?_cons_zero, List.mem_filterMap, Option.map_eq_some_iff, K.oob hg.ok, Geo.aim_some, Prod.mk.injEq]
    constructor
    · rintro ⟨v, -, e', ⟨a, b, c'⟩, rfl, rfl⟩
      obtain ⟨s, hs⟩ := (hwh _ _).1 a
      exact ⟨s, hs, b, c'⟩
    · rintro ⟨s, a, b, c'⟩
      refine ⟨u, ?_, (k, q), ⟨(hwh _ _).2 ⟨s, a⟩, b, c'⟩, rfl, rfl⟩
      obtain ⟨o, ho⟩ := h.of_local a
      unfold Mx.uids
      exact List.mem_append.2 (.inl (mem_keys_of_get ho))
  have hnd : ((c.oobList 0 c.uids).map (·.1)).Nodup := by
    have e1 : c.oobList 0 c.uids = (keys c.nc.locals).filterMap fun u => (Proj.oob g.sp u).map fun e => (u, e) := by
      unfold Mx.oobList Mx.uids
      rw [eg]
      simp only [List.getElem?_cons_zero, List.filterMap_append]
      have : (List.filterMap (fun u => (Proj.oob g.sp u).map fun e => (u, e)) (List.filter (fun u => decide (u ∉ keys c.nc.locals)) (keys c.nc.ghosts)) : List (Nat × Nat × Q)) = [] := by
        rw [List.filterMap_eq_nil_iff]
        intro u hu
        have hu2 := (List.mem_filter.1 hu).2
        simp only [decide_eq_true_eq] at hu2
        rw [K.oob hg.ok]
        cases ha : G.aim r (Proj.where_ g.sp u) with
        | none => rfl
        | some y =>
          obtain ⟨a, -⟩ := Geo.aim_some.1 ha
          obtain ⟨s, hs⟩ := (hwh _ _).1 a
          obtain ⟨o, ho⟩ := h.of_local hs
          exact absurd (mem_keys_of_get ho) hu2
      rw [this, List.append_nil]
    rw [e1, List.map_filterMap]
    have := h.ok
    unfold Ok at this
    generalize keys c.nc.locals = l at this
    induction l with
    | nil => simp
    | cons u l ih =>
      rw [List.nodup_cons] at this
      rw [List.filterMap_cons]
      cases Proj.oob g.sp u with
      | none => exact ih this.2
      | some e =>
        simp only [Option.map_some]
        rw [List.nodup_cons]
        refine ⟨?_, ih this.2⟩
        intro hm
        simp only [List.mem_filterMap, Option.map_map, Option.map_eq_some_iff] at hm
        obtain ⟨v, hv, e', -, e2⟩ := hm
        simp only [Function.comp_apply] at e2
        exact this.1 (e2 ▸ hv)
  exact ⟨hes, hnd⟩

open Classical in
theorem J.gather {n : Nat} (h : J K r c lo (some fun _ => none) used dead cl) {x : Mx S A P × List (Nat × OobMsg S Q) × List (Nat × Nat)} (hx : c.gatherOob n = some x) :
    J K r x.1 (fun u => if ∃ y, lo u = some y ∧ Leaves G r y then none else lo u) (some fun _ => none) used dead cl ∧ (x.2.1.map fun m => m.2.uid).Nodup ∧
      ∃ d : Nat → Option (Dict Int), ∀ k m, (k, m) ∈ x.2.1 ↔ ∃ s q, lo m.uid = some (s, some q) ∧ G.inside r q = false ∧ k = G.owner q ∧ m = ⟨m.uid, some (s, d m.uid), 0, q⟩ := by
  obtain ⟨hes, hnd⟩ := h.oobs
  obtain ⟨g, eg, hg⟩ := h.sp
  unfold Mx.gatherOob at hx
  rw [eg] at hx
  simp only [List.length_singleton, show List.range 1 = [0] from rfl, List.foldlM_cons, List.foldlM_nil, Option.bind_eq_bind] at hx
  obtain ⟨x', hx1, hx2⟩ := Option.bind_eq_some_iff.1 hx
  cases hx2
  obtain ⟨x1, h1, hx1⟩ := Option.bind_eq_some_iff.1 hx1
  obtain ⟨c2, h2, rfl⟩ := Option.map_eq_some_iff.1 hx1
  obtain ⟨j1, d, ho⟩ := J.gatherFold (c.oobList 0 c.uids) c lo [] [] x1 h hnd (by
    intro e he
    obtain ⟨s, hs, -⟩ := (hes e).1 he
    simp [hs]) h1
  have hlo : ∀ u, (if ∃ y, lo u = some y ∧ Leaves G r y then none else lo u) = if u ∈ (c.oobList 0 c.uids).map (·.1) then none else lo u := by
    intro u
    have : u ∈ (c.oobList 0 c.uids).map (·.1) ↔ ∃ x, lo u = some x ∧ Leaves G r x := by
      rw [List.mem_map]
      constructor
      · rintro ⟨x, hx, rfl⟩
        obtain ⟨s, a, b, d⟩ := (hes x).1 hx
        exact ⟨_, a, _, rfl, b⟩
      · rintro ⟨⟨s, l⟩, a, q, b, d⟩
        simp only at b
        subst b
        exact ⟨(u, G.owner q, q), (hes _).2 ⟨s, a, d, rfl⟩, rfl⟩
    by_cases hu : u ∈ (c.oobList 0 c.uids).map (·.1)
    · rw [if_pos hu, if_pos (this.1 hu)]
    · rw [if_neg hu, if_neg (fun h => hu (this.2 h))]
  have j2 := j1.congr hlo (used' := used) (dead' := dead) (cl' := cl) (fun _ h => h) (fun _ _ h => h) (fun h => h)
  obtain ⟨g1, eg1, hg1⟩ := j2.sp
  obtain ⟨-, g', e4, rfl⟩ := onSpace_one eg1 h2
  cases e4
  have hms : ∀ k m, (k, m) ∈ x1.2.1 ↔ ∃ s q, lo m.uid = some (s, some q) ∧ G.inside r q = false ∧ k = G.owner q ∧ m = ⟨m.uid, some (s, d m.uid), 0, q⟩ := by
    intro k m
    rw [ho, List.nil_append, List.mem_map]
    constructor
    · rintro ⟨e, he, hm⟩
      obtain ⟨s, a, b, d'⟩ := (hes e).1 he
      simp only [Prod.mk.injEq] at hm
      obtain ⟨rfl, rfl⟩ := hm
      exact ⟨s, e.2.2, a, b, d', by simp [a]⟩
    · rintro ⟨s, q, a, b, rfl, d'⟩
      refine ⟨(m.uid, G.owner q, q), (hes _).2 ⟨s, a, b, rfl⟩, ?_⟩
      simp only [a, Option.map_some, Prod.mk.injEq, true_and]
      exact d'.symm
  refine ⟨⟨j2.rank, j2.ok, j2.loc, j2.removed, _, rfl, ?_⟩, ?_, d, hms⟩
  · rw [j2.rank]
    refine hg1.clear ?_
    intro u
    cases ha : G.aim r (Proj.where_ g1.sp u) with
    | none => rfl
    | some y =>
      exfalso
      obtain ⟨a, b, -⟩ := Geo.aim_some.1 ha
      cases hl : (if ∃ y, lo u = some y ∧ Leaves G r y then none else lo u) with
      | none =>
        have := hg1.gh _ rfl u (by simp only [hl]; rfl)
        rw [a] at this; cases this
      | some z =>
        have hz := hg1.lo u z.2 (by simp only [hl]; rfl)
        rw [a] at hz
        simp only [Option.some.injEq] at hz
        split at hl
        · cases hl
        · rename_i hnl
          exact hnl ⟨z, hl, y.2, hz.symm, b⟩
  · have : x1.2.1.map (fun m => m.2.uid) = (c.oobList 0 c.uids).map (·.1) := by
      rw [ho, List.nil_append, List.map_map]
      rfl
    rw [this]; exact hnd

/-! ### Agents arrive -/

theorem J.arrive (hre : Readd K) (h : J K r c lo (some fun _ => none) used dead True) {u : Nat} (hl : lo u = none) (hu : used u) (hd : ¬ dead u) {s : S} {d : Option (Dict Int)}
    (e : c.arrive u s d = some c') : J K r c' (upd lo u (some (s, none))) (some fun _ => none) used dead True := by
  have h1 : J K r (c.add u s) (upd lo u (some (s, none))) (some fun _ => none) used dead True := by
    refine (h.add hre (u := u) ?_ (.inl trivial) (fun _ => hd) s).congr (fun _ => rfl) ?_ (fun _ _ h => h.1) (fun h => h)
    · intro q hp
      obtain ⟨g, eg, hg⟩ := h.sp
      rw [placed_one eg] at hp
      have := hg.gh _ rfl u (by simp [hl])
      rw [hp] at this
      cases this
    · rintro v (hv | rfl)
      · exact hv
      · exact hu
  unfold Mx.arrive at e
  split at e
  · cases e; exact h1
  · exact h1.onNet (fun n' hn => setGhosted_keeps hn) e

theorem J.process (hre : Readd K) : ∀ (ms : List (OobMsg S Q)) (c : Mx S A P) (lo lo' : Nat → Option (S × Option Q)) (acc : List Nat) (x : Mx S A P × List Nat),
    J K r c lo (some fun _ => none) used dead True → (ms.map (·.uid)).Nodup →
    (∀ m ∈ ms, m.pid = 0 ∧ lo m.uid = none ∧ G.valid m.pt ∧ used m.uid ∧ ¬ dead m.uid ∧ ∃ s d, m.st = some (s, d) ∧ lo' m.uid = some (s, some m.pt)) →
    (∀ u, u ∉ ms.map (·.uid) → lo' u = lo u) → (G.excl → Apart fun u => (lo' u).map (·.2)) →
    ms.foldlM Mx.processOne (c, acc) = some x → J K r x.1 lo' (some fun _ => none) used dead True := by
  intro ms
  induction ms with
  | nil =>
    intro c lo lo' acc x h _ _ h2 _ e
    cases e
    exact h.congr (fun u => h2 u (by simp)) (fun _ h => h) (fun _ _ h => h) (fun h => h)
  | cons m ms ih =>
    intro c lo lo' acc x h hn hm ho hx e
    rw [List.map_cons, List.nodup_cons] at hn
    rw [List.foldlM_cons, Option.bind_eq_bind] at e
    obtain ⟨y, e1, e2⟩ := Option.bind_eq_some_iff.1 e
    obtain ⟨m1, m2, m3, m4, m5, s, d, m6, m7⟩ := hm m (by simp)
    unfold Mx.processOne at e1
    simp only [h.none_local m2, m6, Option.bind_some] at e1
    obtain ⟨z, e3, e1⟩ := Option.bind_eq_some_iff.1 e1
    obtain ⟨c1, e4, rfl⟩ := Option.map_eq_some_iff.1 e3
    obtain ⟨c2, e5, rfl⟩ := Option.map_eq_some_iff.1 e1
    have h1 := h.arrive hre m2 m4 m5 e4
    have h2 := h1.move (u := m.uid) (q := m.pt) (x := (s, none)) (by simp [upd]) (by
      intro he v hv hp
      rw [K.dest_id m3] at hp
      obtain ⟨g, eg, hg⟩ := h1.sp
      rw [placed_one eg] at hp
      cases hl : upd lo m.uid (some (s, none)) v with
      | none =>
        have := hg.gh _ rfl v (by simp [hl])
        rw [hp] at this; cases this
      | some y =>
        have hy := hg.lo v y.2 (by simp [hl])
        rw [hp] at hy
        simp only [Option.some.injEq] at hy
        simp only [upd, if_neg hv] at hl
        by_cases hvm : v ∈ ms.map (·.uid)
        · obtain ⟨m', hm', e⟩ := List.mem_map.1 hvm
          rw [← e, (hm m' (by simp [hm'])).2.1] at hl
          cases hl
        · rw [← ho v (by simp [hv, hvm])] at hl
          exact hv (hx he v m.uid m.pt (by simp [hl, ← hy]) (by simp [m7]))) e5
    have hne : ∀ m' ∈ ms, m'.uid ≠ m.uid := fun m' hm' e => hn.1 (e ▸ List.mem_map.2 ⟨m', hm', rfl⟩)
    refine ih c2 _ lo' _ x h2 hn.2 ?_ ?_ hx e2
    · intro m' hm'
      obtain ⟨a1, a2, a3⟩ := hm m' (by simp [hm'])
      refine ⟨a1, ?_, a3⟩
      simp only [upd, if_neg (hne m' hm')]
      exact a2
    · intro u hu
      simp only [upd]
      split
      · rename_i e; rw [e, m7, K.dest_id m3]
      · rename_i e; exact ho u (by simp [hu, e])

/-! ### Ghosts -/

theorem J.dropGhost (h : J K r c lo gh used dead cl) {u : Nat} (hl : lo u = none) (hf : ∀ f, gh = some f → f u = none) (e : c.dropGhost u = some c') :
    J K r c' lo gh used dead cl := by
  obtain ⟨c1, e1, rfl⟩ := Option.map_eq_some_iff.1 e
  exact (h.onNet (fun n' hn => dropGhost_keeps hn) e1).spacesRemove hl hf

theorem J.msgs (h0 : 0 < G.buf) (hr : r < G.n) (h : J K r c lo (some fun _ => none) used dead cl) (hin : ∀ u s q, lo u = some (s, some q) → G.inside r q = true)
    {l : List (Nat × Nat × S × Q)} (e : c.bufferMsgs G.n 0 = some l) :
    (∀ k u q, (∃ s, (k, u, s, q) ∈ l) ↔ (lo u).map (·.2) = some (some q) ∧ k < G.n ∧ k ≠ r ∧ G.near k q) ∧
      ∀ k, ((l.filter (fun m => decide (m.1 = k))).map fun m => m.2.1).Nodup := by
  obtain ⟨g, eg, hg⟩ := h.sp
  have hwh : ∀ u q, Proj.where_ g.sp u = some (some q) ↔ (lo u).map (·.2) = some (some q) := by
    intro u q
    constructor
    · intro hw
      cases hl : lo u with
      | none =>
        have := hg.gh _ rfl u (by simp [hl])
        rw [hw] at this; cases this
      | some y =>
        have := hg.lo u y.2 (by simp [hl])
        rw [hw] at this
        simp only [Option.some.injEq] at this
        simp [this]
    · intro hs
      exact hg.lo u (some q) hs
  have hin' : ∀ u q, Proj.where_ g.sp u = some (some q) → G.inside r q = true := by
    intro u q hw
    obtain ⟨⟨s, l⟩, h1, h2⟩ := Option.map_eq_some_iff.1 ((hwh u q).1 hw)
    simp only at h2
    subst h2
    exact hin u s q h1
  obtain ⟨l0, hl0, hraw, hnd⟩ := K.sends h0 hr hg.ok hin'
  unfold Mx.bufferMsgs at e
  rw [eg, h.rank] at e
  simp only [List.getElem?_cons_zero, hl0, Option.bind_some] at e
  have hp := mapM_map (g := fun m : Nat × Nat × S × Q => (m.1, m.2.1, m.2.2.2)) (by
    rintro a b hb
    obtain ⟨s, -, rfl⟩ := Option.map_eq_some_iff.1 hb
    rfl) _ _ e
  refine ⟨?_, ?_⟩
  · intro k u q
    rw [← hwh, ← hraw, ← hp, List.mem_map]
    constructor
    · rintro ⟨s, hs⟩; exact ⟨_, hs, rfl⟩
    · rintro ⟨⟨k', u', s, q'⟩, hm, e⟩
      simp only [Prod.mk.injEq] at e
      obtain ⟨rfl, rfl, rfl⟩ := e
      exact ⟨s, hm⟩
  · intro k
    have : (l.filter (fun m => decide (m.1 = k))).map (fun m => m.2.1) =
        ((l.map (fun m : Nat × Nat × S × Q => (m.1, m.2.1, m.2.2.2))).filter (fun m => decide (m.1 = k))).map (fun m => m.2.1) := by
      rw [List.filter_map, List.map_map]
      rfl
    rw [this, hp]
    exact hnd k

theorem ghostFor_keeps (k u : Nat) (s : S) : Keeps c.nc (c.ghostFor k u s).nc ∧ (c.ghostFor k u s).spaces = c.spaces := by
  unfold Mx.ghostFor
  split
  · exact ⟨refGhost_keeps _ _, rfl⟩
  · exact ⟨⟨rfl, rfl, rfl⟩, rfl⟩

theorem J.bufferOne (hre : Readd K) (h0 : 0 < G.buf) {f : Nat → Option Q} (h : J K r c lo (some f) used dead False) {m : Nat × Nat × S × Q} (hl : lo m.2.1 = none) (hus : used m.2.1)
    (hf : f m.2.1 = none) (hv : G.valid m.2.2.2) (hx : G.excl → ∀ v, v ≠ m.2.1 → c.placed 0 v ≠ some (some m.2.2.2)) (e : c.bufferOne 0 m = some c') :
    J K r c' lo (some (upd f m.2.1 (some m.2.2.2))) used dead False := by
  unfold Mx.bufferOne at e
  obtain ⟨c1, e1, e2⟩ := Option.bind_eq_some_iff.1 e
  obtain ⟨k1, k2⟩ := ghostFor_keeps (c := c) m.1 m.2.1 m.2.2.1
  have h1 := h.keeps k1 k2
  obtain ⟨g, eg, hg⟩ := h1.sp
  obtain ⟨p', e3, hg'⟩ := hg.buffer hre h0 (u := m.2.1) (q := m.2.2.2) (by simp [hl]) hus hf hv (by
    intro he v hv
    have := hx he v hv
    rw [placed_one (k2.symm.trans eg)] at this
    exact this)
  obtain ⟨-, g1, e4, rfl⟩ := onSpace_one eg e1
  cases e4
  obtain ⟨-, g2, e5, rfl⟩ := onSpace_one rfl e2
  simp only [h1.rank, h.rank, e3, Option.map_some, Option.some.injEq] at e5
  subst e5
  exact ⟨h1.rank, h1.ok, h1.loc, h1.removed, _, rfl, hg'⟩

theorem J.buffer (hre : Readd K) (h0 : 0 < G.buf) : ∀ (ms : List (Nat × Nat × S × Q)) (c c' : Mx S A P) (f f' : Nat → Option Q), J K r c lo (some f) used dead False →
    (ms.map (·.2.1)).Nodup →
    (∀ m ∈ ms, lo m.2.1 = none ∧ f m.2.1 = none ∧ used m.2.1 ∧ G.valid m.2.2.2 ∧ f' m.2.1 = some m.2.2.2) →
    (∀ u, u ∉ ms.map (·.2.1) → f' u = f u) → (G.excl → Apart fun u => ((lo u).map (·.2)).or ((f' u).map some)) →
    ms.foldlM (Mx.bufferOne 0) c = some c' → J K r c' lo (some f') used dead False := by
  intro ms
  induction ms with
  | nil =>
    intro c c' f f' h _ _ h2 _ e
    cases e
    have : f' = f := funext fun u => h2 u (by simp)
    rw [this]
    exact h
  | cons m ms ih =>
    intro c c' f f' h hn hm ho hx e
    rw [List.map_cons, List.nodup_cons] at hn
    rw [List.foldlM_cons, Option.bind_eq_bind] at e
    obtain ⟨c1, e1, e2⟩ := Option.bind_eq_some_iff.1 e
    obtain ⟨m1, m2, m3, m4, m5⟩ := hm m (by simp)
    have h1 := h.bufferOne hre h0 m1 m3 m2 m4 (by
      intro he v hv hp
      obtain ⟨g, eg, hg⟩ := h.sp
      rw [placed_one eg] at hp
      have hcase : ((lo v).map (·.2)).or ((f' v).map some) = some (some m.2.2.2) := by
        cases hl : lo v with
        | some y =>
          have hy := hg.lo v y.2 (by simp [hl])
          rw [hp] at hy
          simp only [Option.some.injEq] at hy
          simp [hy]
        | none =>
          have hg2 := hg.gh _ rfl v (by simp [hl])
          rw [hp] at hg2
          simp only [Option.bind_some, id_eq] at hg2
          by_cases hvm : v ∈ ms.map (·.2.1)
          · obtain ⟨m', hm', e⟩ := List.mem_map.1 hvm
            rw [← e, (hm m' (by simp [hm'])).2.1] at hg2
            cases hg2
          · rw [ho v (by simp [hv, hvm]), ← hg2]; rfl
      exact hv (hx he v m.2.1 m.2.2.2 hcase (by simp [m1, m5]))) e1
    have hne : ∀ m' ∈ ms, m'.2.1 ≠ m.2.1 := fun m' hm' e => hn.1 (e ▸ List.mem_map.2 ⟨m', hm', rfl⟩)
    refine ih c1 c' _ f' h1 hn.2 ?_ ?_ hx e2
    · intro m' hm'
      obtain ⟨a1, a2, a3⟩ := hm m' (by simp [hm'])
      refine ⟨a1, ?_, a3⟩
      simp only [upd, if_neg (hne m' hm')]
      exact a2
    · intro u hu
      simp only [upd]
      split
      · rename_i e; rw [e, m5]
      · rename_i e; exact ho u (by simp [hu, e])

end Repast.Mixed
