import Verif.Context.OneSpace

namespace Repast.Context
open Repast.Dict Repast.Space

variable {S P Q : Type} [Proj P Q] {G : Geo Q} {K : Kind G P} {ty : Nat → Nat}

section
variable {r : Nat} {gh : Nat → Option (S × Q)}

/-! ### `move_agents` on one rank -/

theorem RI.sendAway {n : Nat} : ∀ (ms : List (Nat × Nat)) (c : Cx S P) (lo : Nat → Option (S × Option Q)) (acc : List (Nat × Nat × S × Option (Dict Int))),
    RI K ty r c lo gh → (ms.map (·.1)).Nodup → (∀ m ∈ ms, (lo m.1).isSome = true ∧ m.2 < n) →
    ∃ c', ms.foldlM (fun (acc : Cx S P × List (Nat × Nat × S × Option (Dict Int))) m =>
        if m.2 < n then (acc.1.take ty m.1).map fun x => (x.1.projsRemove m.1, acc.2 ++ [(m.2, m.1, x.2)]) else none) (c, acc) =
        some (c', acc ++ ms.filterMap fun m => (lo m.1).map fun x => (m.2, m.1, x.1, none)) ∧
      RI K ty r c' (fun u => if u ∈ ms.map (·.1) then none else lo u) gh := by
  intro ms
  induction ms with
  | nil => intro c lo acc h _ _; exact ⟨c, by simp, by simpa using h⟩
  | cons m ms ih =>
    intro c lo acc h hn hm
    rw [List.map_cons, List.nodup_cons] at hn
    obtain ⟨h1, h2⟩ := hm m (by simp)
    obtain ⟨x, hx⟩ := Option.isSome_iff_exists.1 h1
    obtain ⟨c1, e1, r1⟩ := h.remove hx
    have hu : get c.locals m.1 = some x.1 := by rw [h.loc, hx]; rfl
    obtain ⟨d, hd⟩ := take_of ty h.views hu
    have hc1 : (c.take ty m.1).map (fun x => (x.1.projsRemove m.1, acc ++ [(m.2, m.1, x.2)])) = some (c1, acc ++ [(m.2, m.1, x.1, none)]) := by
      unfold Cx.take at hd ⊢
      rw [hu] at hd ⊢
      simp only [Option.bind_some] at hd ⊢
      obtain ⟨d', hd', -⟩ := Option.map_eq_some_iff.1 hd
      unfold Cx.remove at e1
      rw [hd'] at e1 ⊢
      simp only [h.ghosted, get_nil, Option.map_some, Option.some.injEq] at e1 ⊢
      rw [← e1]
    have hne : ∀ m' ∈ ms, m'.1 ≠ m.1 := fun m' hm' eq => hn.1 (eq ▸ List.mem_map.2 ⟨m', hm', rfl⟩)
    obtain ⟨c', i1, i2⟩ := ih c1 (upd lo m.1 none) (acc ++ [(m.2, m.1, x.1, none)]) r1 hn.2 (by
      intro m' hm'
      simp only [upd, if_neg (hne m' hm')]
      exact hm m' (by simp [hm']))
    refine ⟨c', ?_, i2.congr ?_ (fun _ => rfl)⟩
    · rw [List.foldlM_cons, if_pos h2, hc1]
      simp only [Option.bind_eq_bind, Option.bind_some]
      rw [i1]
      have hm : (ms.filterMap fun m' => (upd lo m.1 none m'.1).map fun x => (m'.2, m'.1, x.1, (none : Option (Dict Int)))) =
          ms.filterMap fun m => (lo m.1).map fun x => (m.2, m.1, x.1, none) := by
        apply filterMap_congr'
        intro m' hm'
        simp only [upd, if_neg (hne m' hm')]
      rw [hm]
      simp [hx]
    · intro u
      simp only [List.map_cons, List.mem_cons, upd]
      by_cases h1 : u ∈ ms.map (·.1)
      · rw [if_pos (.inr h1), if_pos h1]
      · by_cases h2 : u = m.1
        · simp [h2]
        · rw [if_neg h1, if_neg h2, if_neg (by rintro (h | h); exact h2 h; exact h1 h)]

theorem RI.arrivals : ∀ (ms : List (Nat × S × Option (Dict Int))) (c : Cx S P) (lo lo' : Nat → Option (S × Option Q)), RI K ty r c lo gh →
    (ms.map (·.1)).Nodup → (∀ m ∈ ms, lo m.1 = none ∧ gh m.1 = none ∧ m.2.2 = none ∧ lo' m.1 = some (m.2.1, none)) → (∀ u, u ∉ ms.map (·.1) → lo' u = lo u) →
    ∃ c', ms.foldlM (fun (acc : Cx S P × List Nat) m => (acc.1.arrive ty m.1 m.2.1 m.2.2).map fun x => (x.1, if x.2 then acc.2 ++ [m.1] else acc.2)) (c, ([] : List Nat)) =
      some (c', []) ∧ RI K ty r c' lo' gh := by
  intro ms
  induction ms with
  | nil =>
    intro c lo lo' h _ _ ho
    exact ⟨c, rfl, h.congr (fun u => ho u (by simp)) (fun _ => rfl)⟩
  | cons m ms ih =>
    intro c lo lo' h hn hm ho
    rw [List.map_cons, List.nodup_cons] at hn
    obtain ⟨m1, m2, m3, m4⟩ := hm m (by simp)
    have hone : (c.arrive ty m.1 m.2.1 m.2.2).map (fun x => (x.1, if x.2 then ([] : List Nat) ++ [m.1] else [])) = some (c.add ty m.1 m.2.1, []) := by
      unfold Cx.arrive
      have : get c.ghosts m.1 = none := by rw [h.ghosts, m2]; rfl
      simp [m3, this]
    have hne : ∀ m' ∈ ms, m'.1 ≠ m.1 := fun m' hm' e => hn.1 (e ▸ List.mem_map.2 ⟨m', hm', rfl⟩)
    obtain ⟨c', e2, r2⟩ := ih (c.add ty m.1 m.2.1) _ lo' (h.add m1 m2 m.2.1) hn.2 (by
      intro m' hm'
      obtain ⟨a1, a2⟩ := hm m' (by simp [hm'])
      refine ⟨?_, a2⟩
      simp only [upd, if_neg (hne m' hm')]
      exact a1) (by
      intro u hu
      simp only [upd]
      split
      · rename_i e; rw [e, m4]
      · rename_i e; exact ho u (by simp [hu, e]))
    refine ⟨c', ?_, r2⟩
    rw [List.foldlM_cons, hone]
    exact e2

end

variable {w : World S P} {p : Sit S Q}

/-! ### `move_agents` -/

theorem moveAgents_g {ms : Nat → List (Nat × Nat)} (hv : p.Valid (P := P) G (.move ms)) (h : WI K ty w p) :
    ∃ w', moveAgents ty G.n ms w = some w' ∧ WI K ty w' ((p.sendAgents ms).settle G) := by
  have hx : ∀ r, ∃ x : Cx S P × List (Nat × Nat × S × Option (Dict Int)), r < G.n → (w r).sendAway ty G.n (ms r) = some x ∧
      RI K ty r x.1 (fun u => if u ∈ (ms r).map (·.1) then none else p.lo r u) (p.gh r) ∧
      x.2 = (ms r).filterMap fun m => (p.lo r m.1).map fun x => (m.2, m.1, x.1, none) := by
    intro r
    by_cases hr : r < G.n
    · obtain ⟨c', a1, a2⟩ := RI.sendAway (n := G.n) (ms r) (w r) _ [] (h.ri r hr) (hv.1 r hr).1 (by
        intro m hm
        obtain ⟨a, -, x, hx⟩ := (hv.1 r hr).2 m hm
        exact ⟨by rw [Sit.lo_some.2 hx]; rfl, a⟩)
      exact ⟨(c', _), fun _ => ⟨a1, a2, rfl⟩⟩
    · exact ⟨(w r, []), fun h => absurd h hr⟩
  obtain ⟨g, hg⟩ := Classical.axiomOfChoice hx
  have hget : ∀ r < G.n, ∀ u k, get (ms r) u = some k ↔ (u, k) ∈ ms r := by
    intro r hr u k
    exact ⟨mem_of_get, get_of_mem (hv.1 r hr).1⟩
  have hout : ∀ r < G.n, ∀ k m, (k, m) ∈ sent ((w r).sendAway ty G.n (ms r)) ↔ (m.1, k) ∈ ms r ∧ m.2.2 = none ∧ ∃ l, p.ag m.1 = some (r, m.2.1, l) := by
    rintro r hr k ⟨u, s, d⟩
    rw [(hg r hr).1]
    simp only [sent, (hg r hr).2.2, List.mem_filterMap, Option.map_eq_some_iff, Prod.mk.injEq]
    constructor
    · rintro ⟨⟨u', k'⟩, hm, ⟨s', l⟩, hl, rfl, rfl, rfl, rfl⟩
      exact ⟨hm, rfl, l, Sit.lo_some.1 hl⟩
    · rintro ⟨hm, rfl, l, hl⟩
      exact ⟨(u, k), hm, (s, l), Sit.lo_some.2 hl, rfl, rfl, rfl, rfl⟩
  unfold moveAgents
  simp only []
  obtain ⟨w1, e1, e2⟩ := each_of (w := w) (fun r => (g r).1) (f := fun r => ((w r).sendAway ty G.n (ms r)).map (·.1)) (n := G.n) (by
    intro r hr; rw [(hg r hr).1]; rfl)
  rw [e1]
  simp only [Option.bind_some]
  obtain ⟨w2, e3, e4⟩ := each_ex (w := w1) (n := G.n) (f := fun r => (w1 r).arriveAll ty ((recv G.n (fun r => sent ((w r).sendAway ty G.n (ms r))) r).map (·.2)))
    (R := fun r c => RI K ty r c ((p.sendAgents ms).lo r) (p.gh r)) (by
      intro k hk
      have hmem : ∀ m, m ∈ (recv G.n (fun r => sent ((w r).sendAway ty G.n (ms r))) k).map (·.2) ↔
          ∃ r < G.n, (m.1, k) ∈ ms r ∧ m.2.2 = none ∧ ∃ l, p.ag m.1 = some (r, m.2.1, l) := by
        intro m
        rw [List.mem_map]
        constructor
        · rintro ⟨⟨r, m'⟩, hm, rfl⟩
          obtain ⟨a, b⟩ := mem_recv.1 hm
          exact ⟨r, a, (hout r a k m').1 b⟩
        · rintro ⟨r, a, b⟩
          exact ⟨(r, m), mem_recv.2 ⟨a, (hout r a k m).2 b⟩, rfl⟩
      obtain ⟨c', a1, a2⟩ := RI.arrivals (ty := ty) ((recv G.n (fun r => sent ((w r).sendAway ty G.n (ms r))) k).map (·.2)) (w1 k) _
        ((p.sendAgents ms).lo k) (e2 k hk ▸ (hg k hk).2.1) (by
          refine recv_nodup (fun m : Nat × S × Option (Dict Int) => m.1) ?_ ?_
          · intro r hr
            rw [(hg r hr).1]
            simp only [sent, (hg r hr).2.2]
            have hnd := (hv.1 r hr).1
            have hall := (hv.1 r hr).2
            generalize ms r = l at hnd hall
            induction l with
            | nil => simp
            | cons m l ih =>
              rw [List.map_cons, List.nodup_cons] at hnd
              have ih := ih hnd.2 (fun m hm => hall m (by simp [hm]))
              rw [List.filterMap_cons]
              cases hl : p.lo r m.1 with
              | none => exact ih
              | some x =>
                simp only [Option.map_some, List.filter_cons]
                split
                · rw [List.map_cons, List.nodup_cons]
                  refine ⟨?_, ih⟩
                  intro hm
                  simp only [List.mem_map, List.mem_filter, List.mem_filterMap, Option.map_eq_some_iff] at hm
                  obtain ⟨y, ⟨⟨m', hm', z, -, rfl⟩, -⟩, e⟩ := hm
                  exact hnd.1 (List.mem_map.2 ⟨m', hm', e⟩)
                · exact ih
          · intro r hr r' hr' m m' hm hm' e
            obtain ⟨-, -, l, a⟩ := (hout r hr k m).1 hm
            obtain ⟨-, -, l', a'⟩ := (hout r' hr' k m').1 hm'
            rw [e, a'] at a
            simp only [Option.some.injEq, Prod.mk.injEq] at a
            exact a.1.symm) (by
          intro m hm
          obtain ⟨r, hr, b1, b2, l, b3⟩ := (hmem m).1 hm
          have hgk := ((hv.1 r hr).2 _ b1).2.1
          refine ⟨?_, hgk, b2, ?_⟩
          · by_cases hrk : r = k
            · subst hrk
              rw [if_pos (List.mem_map.2 ⟨_, b1, rfl⟩)]
            · rw [Sit.lo_none b3 hrk]; simp
          · rw [Sit.lo_some]
            simp [Sit.sendAgents, b3, (hget r hr m.1 k).2 b1]) (by
          intro u hu
          cases e : p.ag u with
          | none => simp [Sit.lo, Sit.sendAgents, e]
          | some x =>
            obtain ⟨r, s, l⟩ := x
            have hr : r < G.n := h.lt u _ e
            cases hgu : get (ms r) u with
            | none =>
              have h1 : (p.sendAgents ms).lo k u = p.lo k u := by simp [Sit.lo, Sit.sendAgents, e, hgu]
              rw [h1]
              by_cases hrk : r = k
              · subst hrk
                rw [if_neg]
                exact (get_eq_none _ _).1 hgu
              · rw [Sit.lo_none e hrk]; simp
            | some k' =>
              have hm := (hget r hr u k').1 hgu
              have hne : k' ≠ k := by
                rintro rfl
                exact hu (List.mem_map.2 ⟨(u, s, none), (hmem _).2 ⟨r, hr, hm, rfl, l, e⟩, rfl⟩)
              have h1 : (p.sendAgents ms).lo k u = none := by simp [Sit.lo, Sit.sendAgents, e, hgu, hne]
              rw [h1]
              by_cases hrk : r = k
              · subst hrk
                rw [if_pos (List.mem_map.2 ⟨_, hm, rfl⟩)]
              · rw [Sit.lo_none e hrk]; simp)
      refine ⟨c', ?_, a2⟩
      unfold Cx.arriveAll
      rw [a1]
      rfl)
  rw [e3]
  simp only [Option.bind_some]
  refine settle_g hv.2 false ⟨e4, ?_⟩
  intro u x hx
  simp only [Sit.sendAgents, Option.map_eq_some_iff] at hx
  obtain ⟨⟨r, s, l⟩, hy, rfl⟩ := hx
  have hr : r < G.n := h.lt u _ hy
  simp only
  split
  · rename_i k hk
    exact ((hv.1 r hr).2 _ ((hget r hr u k).1 hk)).1
  · exact hr

/-! ### All of the operations -/

theorem wi_step (h : WI K ty w p) {o : WOp S P Q} (hv : p.Valid G o) : ∃ w', wstep ty G.n w o = some w' ∧ WI K ty w' (p.step G o) := by
  have hone : ∀ {r u x}, p.ag u = some (r, x) → r < G.n ∧ p.lo r u = some x ∧ ∀ k, k ≠ r → p.lo k u = none := by
    intro r u x e
    exact ⟨h.lt u _ e, Sit.lo_some.2 e, fun k hk => Sit.lo_none e (fun e => hk e.symm)⟩
  cases o with
  | add r u s =>
    obtain ⟨hr, h1, h2⟩ := hv
    have hl : ∀ k, p.lo k u = none := by intro k; simp [Sit.lo, h1]
    exact ⟨_, at_of (f := fun c => some (c.add ty u s)) hr rfl, h.at (x := some (s, none)) hr (fun k _ => hl k) ((h.ri r hr).add (hl r) h2 s)⟩
  | remove r u =>
    obtain ⟨x, hx⟩ := hv
    obtain ⟨hr, h1, h2⟩ := hone hx
    obtain ⟨c', e, hc⟩ := (h.ri r hr).remove h1
    exact ⟨_, at_of (f := fun c => c.remove ty u) hr e, h.at (x := none) hr h2 hc⟩
  | setState r u s =>
    obtain ⟨x, hx⟩ := hv
    obtain ⟨hr, h1, h2⟩ := hone hx
    obtain ⟨c', e, hc⟩ := (h.ri r hr).setState h1 s
    have := h.at (x := some (s, x.2)) hr h2 hc
    refine ⟨_, at_of (f := fun c => c.setState u s) hr e, ?_⟩
    simp only [Sit.step, hx]
    exact this
  | gmove r pid u pt =>
    obtain ⟨rfl, ⟨x, hx⟩, hf⟩ := hv
    obtain ⟨hr, h1, h2⟩ := hone hx
    obtain ⟨c', e, hc⟩ := (h.ri r hr).gmove h1 pt (by
      intro he v hv hl
      cases ho : p.lo r v with
      | some y =>
        rw [ho] at hl
        simp only [entry, Option.map_some, Option.some_or, Option.some.injEq] at hl
        exact (hf he).1 v y hv (Sit.lo_some.1 ho) hl
      | none =>
        rw [ho] at hl
        simp only [entry, Option.map_none, Option.none_or, Option.map_eq_some_iff, Option.some.injEq] at hl
        obtain ⟨y, hy, e⟩ := hl
        exact (hf he).2 v y hy e)
    have := h.at (x := some (x.1, some (G.dest pt))) hr h2 hc
    refine ⟨_, at_of (f := fun c => c.gmove 0 u pt) hr e, ?_⟩
    simp only [Sit.step, hx]
    exact this
  | synch g => exact synchronize_g hv.2 hv.1 h
  | move ms => exact moveAgents_g hv h
  | request rs => exact hv.elim
  | addProj g => exact hv.elim

theorem wi_run {ops : List (WOp S P Q)} : ∀ {w : World S P} {p : Sit S Q}, WI K ty w p → p.ValidRun G ops →
    ∃ w', wrun ty G.n w ops = some w' ∧ WI K ty w' (p.run G ops) := by
  induction ops with
  | nil => intro w p h _; exact ⟨w, rfl, h⟩
  | cons o ops ih =>
    intro w p h hv
    obtain ⟨w1, h1, h2⟩ := wi_step h hv.1
    obtain ⟨w2, h3, h4⟩ := ih h2 hv.2
    refine ⟨w2, ?_, h4⟩
    unfold wrun
    rw [List.foldlM_cons, h1]
    exact h3

end Repast.Context
