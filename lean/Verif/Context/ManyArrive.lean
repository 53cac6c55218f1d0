import Verif.Context.ManyGather

/-! Agents arrive on a rank whose context has several shared spaces, and ghosts are created. -/
namespace Repast.Context
open Repast.Dict Repast.Space

variable {S P Q : Type} [Proj P Q] {X : Spaces Q P} {ty : Nat → Nat}
variable {r : Nat} {c : Cx S P} {ls gs : Nat → Option S} {ll gl : Nat → Nat → Option Q}

/-- A message without the state of its agent comes after another message about it. -/
def Led (seen : Nat → Prop) : List (OobMsg S Q) → Prop
  | [] => True
  | m :: ms => (m.st.isSome = true ∨ seen m.uid) ∧ Led (fun u => seen u ∨ u = m.uid) ms

theorem Led.mono {seen seen' : Nat → Prop} : ∀ {ms : List (OobMsg S Q)}, Led seen ms → (∀ u, seen u → seen' u) → Led seen' ms
  | [], _, _ => trivial
  | _ :: _, h, hs => ⟨h.1.imp id (hs _), h.2.mono (fun u => Or.imp (hs u) id)⟩

theorem Led.append {seen : Nat → Prop} : ∀ {l1 l2 : List (OobMsg S Q)}, Led seen l1 → Led (fun u => seen u ∨ ∃ m ∈ l1, m.uid = u) l2 → Led seen (l1 ++ l2)
  | [], _, _, h2 => h2.mono (fun u => by rintro (h | ⟨m, hm, -⟩); exact h; cases hm)
  | m :: l1, l2, h1, h2 => ⟨h1.1, h1.2.append (h2.mono (fun u => by
      rintro (h | ⟨m', hm, rfl⟩)
      · exact .inl (.inl h)
      · rcases List.mem_cons.1 hm with rfl | hm
        · exact .inl (.inr rfl)
        · exact .inr ⟨m', hm, rfl⟩))⟩

theorem Led.full {seen : Nat → Prop} : ∀ {ms : List (OobMsg S Q)}, (∀ m ∈ ms, m.st.isSome = true ∨ seen m.uid) → Led seen ms
  | [], _ => trivial
  | m :: _, h => ⟨h m (by simp), Led.full (fun m' hm' => (h m' (by simp [hm'])).imp id .inl)⟩

theorem Led.flatMap {β : Type} {f : β → List (OobMsg S Q)} : ∀ {l : List β} {seen : Nat → Prop}, (∀ b ∈ l, Led (fun _ => False) (f b)) → Led seen (l.flatMap f)
  | [], _, _ => trivial
  | b :: l, seen, h => by
    rw [List.flatMap_cons]
    exact ((h b (by simp)).mono (fun _ h => h.elim)).append (Led.flatMap (fun b' hb' => h b' (by simp [hb'])))

/-! ### Agents arrive -/

theorem MI.process : ∀ (ms : List (OobMsg S Q)) (c : Cx S P) (ls ls' : Nat → Option S) (ll ll' : Nat → Nat → Option Q), MI X ty r c ls ll gs (fun _ _ => none) →
    (ms.map fun m => (m.uid, m.pid)).Nodup →
    (∀ m ∈ ms, m.pid < X.m ∧ (X.G m.pid).valid m.pt ∧ ll' m.pid m.uid = some m.pt ∧
      ∃ s, ls' m.uid = some s ∧ (m.st = none ∨ m.st = some (s, none)) ∧ (ls m.uid = none ∨ (ls m.uid = some s ∧ ll m.pid m.uid = none))) →
    Led (fun u => (ls u).isSome = true) ms →
    (∀ u, (∀ m ∈ ms, m.uid ≠ u) → ls' u = ls u) →
    (∀ u, (ls' u).isSome = true → ∀ j < X.m, (u, j) ∉ (ms.map fun m => (m.uid, m.pid)) → ll' j u = if (ls u).isSome = true then ll j u else none) →
    (∀ j < X.m, (X.G j).excl → Apart fun u => at_space (ls' u) (ll' j u) none) →
    ∃ c', c.processOob ty ms = some (c', []) ∧ MI X ty r c' ls' ll' gs (fun _ _ => none) := by
  intro ms
  induction ms with
  | nil =>
    intro c ls ls' ll ll' h _ _ _ h2 h3 _
    have hls : ∀ u, ls' u = ls u := fun u => h2 u (by simp)
    refine ⟨c, rfl, h.congr hls ?_ (fun _ _ _ => rfl) (fun _ _ _ _ => rfl)⟩
    intro u hu j hj
    rw [h3 u (by rw [hls]; exact hu) j hj (by simp), if_pos hu]
  | cons m ms ih =>
    intro c ls ls' ll ll' h hn hm hled ho hl hx
    rw [List.map_cons, List.nodup_cons] at hn
    obtain ⟨m1, m2, m3, s, m4, m5, m6⟩ := hm m (by simp)
    have hrecv : ∃ c1 ls1 ll1, Cx.receiveOob ty (c, []) m = some (c1, []) ∧ MI X ty r c1 ls1 ll1 gs (fun _ _ => none) ∧ ls1 m.uid = some s ∧
        (∀ j, ll1 j m.uid = if (ls m.uid).isSome = true then ll j m.uid else none) ∧ ∀ v, v ≠ m.uid → ls1 v = ls v ∧ ∀ j, ll1 j v = ll j v := by
      unfold Cx.receiveOob
      have hg := h.rc.loc m.uid
      cases hlu : ls m.uid with
      | some s' =>
        rw [hlu] at hg m6
        simp only [hg]
        have : s' = s := by
          rcases m6 with e | ⟨e, -⟩
          · cases e
          · cases e; rfl
        subst this
        exact ⟨c, ls, ll, rfl, h, hlu, fun j => by simp, fun v _ => ⟨rfl, fun _ => rfl⟩⟩
      | none =>
        rw [hlu] at hg
        simp only [hg]
        have hst : m.st = some (s, none) := by
          rcases m5 with e | e
          · rcases hled.1 with h | h
            · rw [e] at h; cases h
            · rw [hlu] at h; cases h
          · exact e
        have hgh : get c.ghosts m.uid = none := by rw [h.rc.no_ghosts]; rfl
        simp only [hst, Cx.arrive, hgh, Option.isSome_none, Option.map_some, Bool.false_eq_true, if_false]
        refine ⟨_, _, _, rfl, h.add hlu (fun _ _ => rfl) s, by simp [upd], fun j => by simp [upd], fun v hv => ⟨by simp [upd, hv], fun j => by simp [upd, hv]⟩⟩
    obtain ⟨c1, ls1, ll1, e0, h1, a1, a2, a3⟩ := hrecv
    have hkeep : ∀ v, (ls v).isSome = true → (ls' v).isSome = true := by
      intro v hv
      by_cases hvm : ∀ m' ∈ m :: ms, m'.uid ≠ v
      · rw [ho v hvm]; exact hv
      · obtain ⟨m', hm'⟩ := Classical.not_forall.1 hvm
        obtain ⟨hm', e⟩ := Classical.not_imp.1 hm'
        obtain ⟨-, -, -, s', e', -⟩ := hm m' hm'
        rw [Classical.not_not.1 e] at e'
        rw [e']; rfl
    obtain ⟨c2, e1, r1⟩ := h1.move (j := m.pid) (u := m.uid) m1 (by rw [a1]; rfl) m.pt ((X.K m.pid).takes_valid m2) (by
      intro he v hv hl'
      rw [(X.K m.pid).dest_id m2] at hl'
      rw [(a3 v hv).1, (a3 v hv).2] at hl'
      cases hlv : ls v with
      | none => rw [hlv] at hl'; simp [at_space] at hl'
      | some s' =>
        rw [hlv] at hl'
        simp only [at_space, Option.some.injEq] at hl'
        have hls' := hkeep v (by rw [hlv]; rfl)
        obtain ⟨s'', hs''⟩ := Option.isSome_iff_exists.1 hls'
        by_cases hvm : (v, m.pid) ∈ ms.map fun m => (m.uid, m.pid)
        · obtain ⟨m', hm', e⟩ := List.mem_map.1 hvm
          simp only [Prod.mk.injEq] at e
          obtain ⟨-, -, -, _, -, -, b⟩ := hm m' (by simp [hm'])
          rw [e.1, e.2, hlv, hl'] at b
          rcases b with b | ⟨-, b⟩ <;> cases b
        · have hne : (v, m.pid) ∉ (m :: ms).map fun m => (m.uid, m.pid) := by
            rw [List.map_cons, List.mem_cons, Prod.mk.injEq]
            rintro (⟨e, -⟩ | h)
            · exact hv e
            · exact hvm h
          have := hl v hls' m.pid m1 hne
          rw [hlv] at this
          simp only [Option.isSome_some, if_true] at this
          exact hv (hx m.pid m1 he v m.uid m.pt (by simp [at_space, hs'', this, hl']) (by simp [at_space, m4, m3])))
    rw [(X.K m.pid).dest_id m2] at r1
    have hone : Cx.processOne ty (c, []) m = some (c2, []) := by
      unfold Cx.processOne
      rw [e0]
      simp only [Option.bind_some, e1, Option.map_some]
    obtain ⟨c', e2, r2⟩ := ih c2 ls1 ls' _ ll' r1 hn.2 (by
      intro m' hm'
      obtain ⟨b1, b2, b3, s', b4, b5, b6⟩ := hm m' (by simp [hm'])
      refine ⟨b1, b2, b3, s', b4, b5, ?_⟩
      by_cases e : m'.uid = m.uid
      · have hp : m'.pid ≠ m.pid := fun e' => hn.1 (List.mem_map.2 ⟨m', hm', by simp [e, e']⟩)
        right
        rw [e] at b4 b6 ⊢
        rw [m4] at b4
        cases b4
        refine ⟨a1, ?_⟩
        simp only [upd, if_neg hp, a2]
        rcases b6 with b | ⟨b, b'⟩
        · rw [b]; rfl
        · rw [b, b']; rfl
      · rw [(a3 _ e).1]
        rcases b6 with b | ⟨b, b'⟩
        · exact .inl b
        · right
          refine ⟨b, ?_⟩
          simp only [upd]
          split
          · rename_i ep
            show (if m'.uid = m.uid then some m.pt else ll1 m.pid m'.uid) = none
            rw [if_neg e, (a3 _ e).2, ← ep]
            exact b'
          · rw [(a3 _ e).2]; exact b') (hled.2.mono (by
      rintro u (hu | rfl)
      · by_cases e : u = m.uid
        · rw [e, a1]; rfl
        · rw [(a3 u e).1]; exact hu
      · rw [a1]; rfl)) (by
      intro u hu
      by_cases e : u = m.uid
      · rw [e, a1, m4]
      · rw [(a3 u e).1]
        refine ho u ?_
        intro m' hm'
        rcases List.mem_cons.1 hm' with rfl | hm'
        · exact fun e' => e e'.symm
        · exact hu m' hm') (by
      intro u hu j hj hk
      by_cases e : u = m.uid
      · subst e
        rw [a1]
        simp only [Option.isSome_some, if_true]
        by_cases ej : j = m.pid
        · subst ej; simp [upd, m3]
        · rw [hl m.uid hu j hj (by
            rw [List.map_cons, List.mem_cons, Prod.mk.injEq]
            rintro (⟨-, e⟩ | h)
            · exact ej e
            · exact hk h)]
          simp only [upd, if_neg ej, a2]
      · rw [(a3 u e).1, hl u hu j hj (by
          rw [List.map_cons, List.mem_cons, Prod.mk.injEq]
          rintro (⟨e', -⟩ | h)
          · exact e e'
          · exact hk h)]
        congr 1
        by_cases ej : j = m.pid
        · subst ej; simp [upd, e, (a3 u e).2]
        · simp [upd, ej, (a3 u e).2]) hx
    refine ⟨c', ?_, r2⟩
    unfold Cx.processOob at e2 ⊢
    rw [List.foldlM_cons, hone]
    exact e2

/-! ### Ghosts -/

theorem MI.msgs {j : Nat} (hj : j < X.m) (h0 : 0 < (X.G j).buf) (hr : r < X.n) (h : MI X ty r c ls ll gs gl) (hg : ∀ u, gl j u = none)
    (hin : ∀ u q, (ls u).isSome = true → ll j u = some q → (X.G j).inside r q = true) :
    ∃ l, c.bufferMsgs X.n j = some l ∧ (∀ k u s q, (k, u, s, q) ∈ l ↔ ls u = some s ∧ ll j u = some q ∧ k < X.n ∧ k ≠ r ∧ (X.G j).near k q) ∧
      ∀ k, ((l.filter (fun m => decide (m.1 = k))).map fun m => m.2.1).Nodup := by
  obtain ⟨g, e, h3, -⟩ := h.sp.get hj
  have hag : ∀ {u q}, at_space (ls u) (ll j u) (gl j u) = some (some q) ↔ ∃ s, ls u = some s ∧ ll j u = some q := by
    intro u q
    rw [hg]
    cases hl : ls u with
    | none => simp [at_space]
    | some s => simp [at_space]
  have hst : ∀ {u s}, ls u = some s → c.stateOf u = some s := by
    intro u s hu
    unfold Cx.stateOf
    rw [h.rc.loc, hu]
    rfl
  obtain ⟨l0, hl0, hraw, hnd⟩ := (X.K j).sends h0 (by rw [X.ranks]; exact hr) h3 (fun u q hu => by
    obtain ⟨s, hs, hq⟩ := hag.1 hu
    exact hin u q (by rw [hs]; rfl) hq)
  rw [X.ranks] at hl0 hraw
  obtain ⟨l, l1, l2⟩ := mapM_some (f := fun m : Nat × Nat × Q => (c.stateOf m.2.1).map fun s => (m.1, m.2.1, s, m.2.2)) l0 (by
    rintro ⟨k, u, q⟩ hm
    obtain ⟨s, hs, -⟩ := hag.1 ((hraw k u q).1 hm).1
    rw [hst hs]
    rfl)
  refine ⟨l, ?_, ?_, ?_⟩
  · unfold Cx.bufferMsgs
    rw [e, h.rc.rank]
    simp only [hl0, Option.bind_some]
    exact l1
  · intro k u s q
    rw [l2]
    constructor
    · rintro ⟨⟨k', u', q'⟩, hm, e⟩
      obtain ⟨b0, b1, b2, b3⟩ := (hraw _ _ _).1 hm
      obtain ⟨s', hs, hq⟩ := hag.1 b0
      rw [hst hs] at e
      simp only [Option.map_some, Option.some.injEq, Prod.mk.injEq] at e
      obtain ⟨rfl, rfl, rfl, rfl⟩ := e
      exact ⟨hs, hq, b1, b2, b3⟩
    · rintro ⟨a1, a0, a2, a3, a4⟩
      refine ⟨(k, u, q), (hraw _ _ _).2 ⟨hag.2 ⟨s, a1, a0⟩, a2, a3, a4⟩, ?_⟩
      simp [hst a1]
  · intro k
    have hp := mapM_map (g := fun m : Nat × Nat × S × Q => (m.1, m.2.1, m.2.2.2)) (by
      rintro a b hb
      obtain ⟨s, -, rfl⟩ := Option.map_eq_some_iff.1 hb
      rfl) _ _ l1
    have : (l.filter (fun m => decide (m.1 = k))).map (fun m => m.2.1) =
        ((l.map (fun m : Nat × Nat × S × Q => (m.1, m.2.1, m.2.2.2))).filter (fun m => decide (m.1 = k))).map (fun m => m.2.1) := by
      rw [List.filter_map, List.map_map]
      rfl
    rw [this, hp]
    exact hnd k

theorem MI.buffer {j : Nat} (hj : j < X.m) (h0 : 0 < (X.G j).buf) : ∀ (ms : List (Nat × S × Q)) (c : Cx S P) (gl gl' : Nat → Nat → Option Q), MI X ty r c ls ll gs gl →
    (ms.map (·.1)).Nodup →
    (∀ m ∈ ms, ls m.1 = none ∧ gl j m.1 = none ∧ (X.G j).valid m.2.2 ∧ gs m.1 = some m.2.1 ∧ gl' j m.1 = some m.2.2) →
    (∀ i < X.m, ∀ u, (i = j → u ∉ ms.map (·.1)) → gl' i u = gl i u) → ((X.G j).excl → Apart fun u => at_space (ls u) (ll j u) (gl' j u)) →
    ∃ c', ms.foldlM (Cx.bufferOne j) c = some c' ∧ MI X ty r c' ls ll gs gl' := by
  intro ms
  induction ms with
  | nil =>
    intro c gl gl' h _ _ h2 _
    exact ⟨c, rfl, h.congr (fun _ => rfl) (fun _ _ _ _ => rfl) (fun u i hi => h2 i hi u (by simp)) (fun _ _ _ _ => rfl)⟩
  | cons m ms ih =>
    intro c gl gl' h hn hm ho hx
    rw [List.map_cons, List.nodup_cons] at hn
    obtain ⟨m1, m2, m3, m4, m5⟩ := hm m (by simp)
    have hcnt := cnt_put (f := fun i => gl i m.1) (j := j) (q := m.2.2) m2 hj
    have hupd : ∀ v, (fun i => upd gl j (upd (gl j) m.1 (some m.2.2)) i v) = if v = m.1 then upd (fun i => gl i m.1) j (some m.2.2) else fun i => gl i v := by
      intro v
      by_cases hv : v = m.1
      · subst hv
        funext i
        by_cases e : i = j <;> simp [e, upd]
      · funext i
        by_cases e : i = j <;> simp [e, hv, upd]
    have hgf : ∃ d, c.ghostFor m.1 m.2.1 = { c with ghosts := d } ∧
        ∀ v, get d v = if cnt X.m (fun i => upd gl j (upd (gl j) m.1 (some m.2.2)) i v) = 0 then none else (gs v).map fun s => ⟨s, cnt X.m (fun i => upd gl j (upd (gl j) m.1 (some m.2.2)) i v)⟩ := by
      have hgc := h.rc.ghosts m.1
      unfold Cx.ghostFor
      by_cases hz : cnt X.m (fun i => gl i m.1) = 0
      · rw [if_pos hz] at hgc
        rw [hgc]
        refine ⟨_, rfl, ?_⟩
        intro v
        rw [hupd, get_set]
        by_cases hv : v = m.1
        · subst hv
          simp only [if_true]
          rw [if_neg (by omega), m4, hcnt, hz]
          rfl
        · have hv' : ¬ m.1 = v := fun e => hv e.symm
          rw [if_neg hv, if_neg hv', h.rc.ghosts]
      · rw [if_neg hz, m4] at hgc
        simp only [Option.map_some] at hgc
        unfold Cx.refGhost
        rw [hgc]
        refine ⟨_, rfl, ?_⟩
        intro v
        rw [hupd, get_set]
        by_cases hv : v = m.1
        · subst hv
          simp only [if_true]
          rw [if_neg (by omega), m4, hcnt]
          simp
        · have hv' : ¬ m.1 = v := fun e => hv e.symm
          rw [if_neg hv, if_neg hv', h.rc.ghosts]
    obtain ⟨d, hgf, hd⟩ := hgf
    obtain ⟨ps, e1, g1⟩ := bufferAdd_m (c := { c with ghosts := d }) h.sp h.rc.rank hj (u := m.1) (by simp [at_space, m1, m2]) (by simp [m2])
    obtain ⟨ps2, e2, g2⟩ := projMove_m (c := { c with ghosts := d, projs := ps }) g1 h.rc.rank hj (u := m.1) (by simp [upd]) m.2.2 ((X.K j).takes_valid m3) (by
      intro he v hv hl
      rw [(X.K j).dest_id m3] at hl
      simp only [upd, if_true, if_neg hv] at hl
      have hl' : at_space (ls v) (ll j v) (gl' j v) = some (some m.2.2) := by
        by_cases hvm : v ∈ ms.map (·.1)
        · obtain ⟨m', hm', e⟩ := List.mem_map.1 hvm
          obtain ⟨a1, a2, -⟩ := hm m' (by simp [hm'])
          rw [← e, a1, a2] at hl
          simp [at_space] at hl
        · rw [ho j hj v (by intro _; simp [hv, hvm])]; exact hl
      exact hv (hx he v m.1 m.2.2 hl' (by simp [at_space, m1, m5])))
    rw [(X.K j).dest_id m3] at g2
    have hone : c.bufferOne j m = some { c with ghosts := d, projs := ps2 } := by
      unfold Cx.bufferOne
      rw [hgf, e1, e2]
    have hmi : MI X ty r { c with ghosts := d, projs := ps2 } ls ll gs (upd gl j (upd (gl j) m.1 (some m.2.2))) := by
      refine ⟨⟨h.rc.rank, h.rc.views.congr ty rfl rfl, h.rc.loc, h.rc.ghosted, h.rc.req, h.rc.removed, hd, ?_, ?_⟩, ?_⟩
      · intro v i hi hv
        by_cases ev : v = m.1
        · rw [ev, m1, m4]; exact ⟨rfl, rfl⟩
        · refine h.rc.disj v i hi ?_
          by_cases ei : i = j
          · subst ei; simpa [upd, ev] using hv
          · simpa [upd, ei] using hv
      · intro i hi hb v
        have hne : i ≠ j := by rintro rfl; omega
        simp only [upd, if_neg hne]
        exact h.rc.buf0 i hi hb v
      · refine g2.congr ?_ ?_
        · intro i hi v
          by_cases ei : i = j
          · subst ei
            by_cases ev : v = m.1
            · subst ev; simp [upd, at_space, m1]
            · simp [upd, ev]
          · simp [upd, ei]
        · intro i hi v
          by_cases ei : i = j
          · subst ei
            by_cases ev : v = m.1
            · subst ev; simp [upd]
            · simp [upd, ev]
          · simp [upd, ei]
    have hne : ∀ m' ∈ ms, m'.1 ≠ m.1 := fun m' hm' e => hn.1 (e ▸ List.mem_map.2 ⟨m', hm', rfl⟩)
    obtain ⟨c', e3, r3⟩ := ih _ _ gl' hmi hn.2 (by
      intro m' hm'
      obtain ⟨a1, a2, a3⟩ := hm m' (by simp [hm'])
      refine ⟨a1, ?_, a3⟩
      simp only [upd, if_true, if_neg (hne m' hm')]
      exact a2) (by
      intro i hi u hu
      by_cases ei : i = j
      · subst ei
        by_cases ev : u = m.1
        · subst ev; simp [upd, m5]
        · rw [ho i hi u (by intro _; simp [hu rfl, ev])]
          simp [upd, ev]
      · rw [ho i hi u (fun e => absurd e ei)]
        simp [upd, ei]) hx
    refine ⟨c', ?_, r3⟩
    rw [List.foldlM_cons, hone]
    exact e3

end Repast.Context
