import Verif.Context.ManySettle
import Verif.Context.OneRun

namespace Repast.Context
open Repast.Dict Repast.Space

variable {S P Q : Type} [Proj P Q] {X : Spaces Q P} {ty : Nat → Nat}

section
variable {r : Nat} {gs : Nat → Option S} {ll gl : Nat → Nat → Option Q}

/-! ### `move_agents` on one rank -/

theorem MI.sendAway {n : Nat} : ∀ (ms : List (Nat × Nat)) (c : Cx S P) (ls : Nat → Option S) (acc : List (Nat × Nat × S × Option (Dict Int))),
    MI X ty r c ls ll gs gl → (ms.map (·.1)).Nodup → (∀ m ∈ ms, (ls m.1).isSome = true ∧ m.2 < n) →
    ∃ c', ms.foldlM (fun (acc : Cx S P × List (Nat × Nat × S × Option (Dict Int))) m =>
        if m.2 < n then (acc.1.take ty m.1).map fun x => (x.1.projsRemove m.1, acc.2 ++ [(m.2, m.1, x.2)]) else none) (c, acc) =
        some (c', acc ++ ms.filterMap fun m => (ls m.1).map fun s => (m.2, m.1, s, none)) ∧
      MI X ty r c' (fun u => if u ∈ ms.map (·.1) then none else ls u) ll gs gl := by
  intro ms
  induction ms with
  | nil => intro c ls acc h _ _; exact ⟨c, by simp, by simpa using h⟩
  | cons m ms ih =>
    intro c ls acc h hn hm
    rw [List.map_cons, List.nodup_cons] at hn
    obtain ⟨h1, h2⟩ := hm m (by simp)
    obtain ⟨x, hx⟩ := Option.isSome_iff_exists.1 h1
    obtain ⟨c1, e1, r1⟩ := h.remove h1
    have hu : get c.locals m.1 = some x := by rw [h.rc.loc, hx]
    obtain ⟨d, hd⟩ := take_of ty h.rc.views hu
    have hc1 : (c.take ty m.1).map (fun x => (x.1.projsRemove m.1, acc ++ [(m.2, m.1, x.2)])) = some (c1, acc ++ [(m.2, m.1, x, none)]) := by
      unfold Cx.take at hd ⊢
      rw [hu] at hd ⊢
      simp only [Option.bind_some] at hd ⊢
      obtain ⟨d', hd', -⟩ := Option.map_eq_some_iff.1 hd
      unfold Cx.remove at e1
      rw [hd'] at e1 ⊢
      simp only [h.rc.ghosted, get_nil, Option.map_some, Option.some.injEq] at e1 ⊢
      rw [← e1]
    have hne : ∀ m' ∈ ms, m'.1 ≠ m.1 := fun m' hm' eq => hn.1 (eq ▸ List.mem_map.2 ⟨m', hm', rfl⟩)
    obtain ⟨c', i1, i2⟩ := ih c1 (upd ls m.1 none) (acc ++ [(m.2, m.1, x, none)]) r1 hn.2 (by
      intro m' hm'
      simp only [upd, if_neg (hne m' hm')]
      exact hm m' (by simp [hm']))
    refine ⟨c', ?_, i2.congr ?_ (fun _ _ _ _ => rfl) (fun _ _ _ => rfl) (fun _ _ _ _ => rfl)⟩
    · rw [List.foldlM_cons, if_pos h2, hc1]
      simp only [Option.bind_eq_bind, Option.bind_some]
      rw [i1]
      have hm : (ms.filterMap fun m' => (upd ls m.1 none m'.1).map fun s => (m'.2, m'.1, s, (none : Option (Dict Int)))) =
          ms.filterMap fun m => (ls m.1).map fun s => (m.2, m.1, s, none) := by
        apply filterMap_congr'
        intro m' hm'
        simp only [upd, if_neg (hne m' hm')]
      rw [hm]
      simp [hx]
    · intro u
      simp only [List.map_cons, List.mem_cons, upd]
      by_cases h1 : u ∈ ms.map (·.1)
      · rw [if_pos (.inr h1), if_pos h1]
      · by_cases h2 : u = m.1
        · simp [h2]
        · rw [if_neg h1, if_neg h2, if_neg (by rintro (h | h); exact h2 h; exact h1 h)]

theorem MI.arrivals : ∀ (ms : List (Nat × S × Option (Dict Int))) (c : Cx S P) (ls ls' : Nat → Option S) (ll ll' : Nat → Nat → Option Q), MI X ty r c ls ll gs gl →
    (ms.map (·.1)).Nodup → (∀ m ∈ ms, ls m.1 = none ∧ (∀ j < X.m, gl j m.1 = none) ∧ m.2.2 = none ∧ ls' m.1 = some m.2.1 ∧ ∀ j < X.m, ll' j m.1 = none) →
    (∀ u, u ∉ ms.map (·.1) → ls' u = ls u ∧ ((ls u).isSome = true → ∀ j < X.m, ll' j u = ll j u)) →
    ∃ c', ms.foldlM (fun (acc : Cx S P × List Nat) m => (acc.1.arrive ty m.1 m.2.1 m.2.2).map fun x => (x.1, if x.2 then acc.2 ++ [m.1] else acc.2)) (c, ([] : List Nat)) =
      some (c', []) ∧ MI X ty r c' ls' ll' gs gl := by
  intro ms
  induction ms with
  | nil =>
    intro c ls ls' ll ll' h _ _ ho
    exact ⟨c, rfl, h.congr (fun u => (ho u (by simp)).1) (fun u hu => (ho u (by simp)).2 hu) (fun _ _ _ => rfl) (fun _ _ _ _ => rfl)⟩
  | cons m ms ih =>
    intro c ls ls' ll ll' h hn hm ho
    rw [List.map_cons, List.nodup_cons] at hn
    obtain ⟨m1, m2, m3, m4, m5⟩ := hm m (by simp)
    have hone : (c.arrive ty m.1 m.2.1 m.2.2).map (fun x => (x.1, if x.2 then ([] : List Nat) ++ [m.1] else [])) = some (c.add ty m.1 m.2.1, []) := by
      unfold Cx.arrive
      have : get c.ghosts m.1 = none := by rw [h.rc.ghosts, if_pos (cnt_zero.2 m2)]
      simp [m3, this]
    have hne : ∀ m' ∈ ms, m'.1 ≠ m.1 := fun m' hm' e => hn.1 (e ▸ List.mem_map.2 ⟨m', hm', rfl⟩)
    obtain ⟨c', e2, r2⟩ := ih (c.add ty m.1 m.2.1) _ ls' _ ll' (h.add m1 m2 m.2.1) hn.2 (by
      intro m' hm'
      obtain ⟨a1, a2⟩ := hm m' (by simp [hm'])
      refine ⟨?_, a2⟩
      simp only [upd, if_neg (hne m' hm')]
      exact a1) (by
      intro u hu
      by_cases e : u = m.1
      · subst e
        simp only [upd, if_true]
        exact ⟨m4, fun _ j hj => m5 j hj⟩
      · simp only [upd, if_neg e]
        exact ho u (by simp [hu, e]))
    refine ⟨c', ?_, r2⟩
    rw [List.foldlM_cons, hone]
    exact e2

end

variable {w : World S P} {p : Many S Q}

/-! ### `move_agents` -/

theorem moveAgents_m {ms : Nat → List (Nat × Nat)} (hv : p.Valid (P := P) X (.move ms)) (h : WM X ty w p) :
    ∃ w', moveAgents ty X.n ms w = some w' ∧ WM X ty w' ((p.sendAgents ms).settle X) := by
  have hx : ∀ r, ∃ x : Cx S P × List (Nat × Nat × S × Option (Dict Int)), r < X.n → (w r).sendAway ty X.n (ms r) = some x ∧
      MI X ty r x.1 (fun u => if u ∈ (ms r).map (·.1) then none else p.ls r u) p.ll p.gs (p.gl r) ∧
      x.2 = (ms r).filterMap fun m => (p.ls r m.1).map fun s => (m.2, m.1, s, none) := by
    intro r
    by_cases hr : r < X.n
    · obtain ⟨c', a1, a2⟩ := MI.sendAway (n := X.n) (ms r) (w r) _ [] (h.mi r hr) (hv.1 r hr).1 (by
        intro m hm
        obtain ⟨a, -, x, hx⟩ := (hv.1 r hr).2 m hm
        exact ⟨Many.ls_isSome.2 ⟨x, hx⟩, a⟩)
      exact ⟨(c', _), fun _ => ⟨a1, a2, rfl⟩⟩
    · exact ⟨(w r, []), fun h => absurd h hr⟩
  obtain ⟨g, hg⟩ := Classical.axiomOfChoice hx
  have hget : ∀ r < X.n, ∀ u k, get (ms r) u = some k ↔ (u, k) ∈ ms r := by
    intro r hr u k
    exact ⟨mem_of_get, get_of_mem (hv.1 r hr).1⟩
  have hout : ∀ r < X.n, ∀ k m, (k, m) ∈ sent ((w r).sendAway ty X.n (ms r)) ↔ (m.1, k) ∈ ms r ∧ m.2.2 = none ∧ ∃ f, p.ag m.1 = some (r, m.2.1, f) := by
    rintro r hr k ⟨u, s, d⟩
    rw [(hg r hr).1]
    simp only [sent, (hg r hr).2.2, List.mem_filterMap, Option.map_eq_some_iff, Prod.mk.injEq]
    constructor
    · rintro ⟨⟨u', k'⟩, hm, s', hl, rfl, rfl, rfl, rfl⟩
      exact ⟨hm, rfl, Many.ls_some.1 hl⟩
    · rintro ⟨hm, rfl, hl⟩
      exact ⟨(u, k), hm, s, Many.ls_some.2 hl, rfl, rfl, rfl, rfl⟩
  unfold moveAgents
  simp only []
  obtain ⟨w1, e1, e2⟩ := each_of (w := w) (fun r => (g r).1) (f := fun r => ((w r).sendAway ty X.n (ms r)).map (·.1)) (n := X.n) (by
    intro r hr; rw [(hg r hr).1]; rfl)
  rw [e1]
  simp only [Option.bind_some]
  obtain ⟨w2, e3, e4⟩ := each_ex (w := w1) (n := X.n) (f := fun r => (w1 r).arriveAll ty ((recv X.n (fun r => sent ((w r).sendAway ty X.n (ms r))) r).map (·.2)))
    (R := fun r c => MI X ty r c ((p.sendAgents ms).ls r) (p.sendAgents ms).ll p.gs (p.gl r)) (by
      intro k hk
      have hmem : ∀ m, m ∈ (recv X.n (fun r => sent ((w r).sendAway ty X.n (ms r))) k).map (·.2) ↔
          ∃ r < X.n, (m.1, k) ∈ ms r ∧ m.2.2 = none ∧ ∃ f, p.ag m.1 = some (r, m.2.1, f) := by
        intro m
        rw [List.mem_map]
        constructor
        · rintro ⟨⟨r, m'⟩, hm, rfl⟩
          obtain ⟨a, b⟩ := mem_recv.1 hm
          exact ⟨r, a, (hout r a k m').1 b⟩
        · rintro ⟨r, a, b⟩
          exact ⟨(r, m), mem_recv.2 ⟨a, (hout r a k m).2 b⟩, rfl⟩
      obtain ⟨c', a1, a2⟩ := MI.arrivals (ty := ty) ((recv X.n (fun r => sent ((w r).sendAway ty X.n (ms r))) k).map (·.2)) (w1 k) _
        ((p.sendAgents ms).ls k) _ (p.sendAgents ms).ll (e2 k hk ▸ (hg k hk).2.1) (by
          refine recv_nodup (fun m : Nat × S × Option (Dict Int) => m.1) ?_ ?_
          · intro r hr
            rw [(hg r hr).1]
            simp only [sent, (hg r hr).2.2]
            have hnd := (hv.1 r hr).1
            have hall := (hv.1 r hr).2
            generalize ms r = l at hnd hall
            induction l with
            | nil => simp
            | cons m l ih =>
              rw [List.map_cons, List.nodup_cons] at hnd
              have ih := ih hnd.2 (fun m hm => hall m (by simp [hm]))
              rw [List.filterMap_cons]
              cases hl : p.ls r m.1 with
              | none => exact ih
              | some x =>
                simp only [Option.map_some, List.filter_cons]
                split
                · rw [List.map_cons, List.nodup_cons]
                  refine ⟨?_, ih⟩
                  intro hm
                  simp only [List.mem_map, List.mem_filter, List.mem_filterMap, Option.map_eq_some_iff] at hm
                  obtain ⟨y, ⟨⟨m', hm', z, -, rfl⟩, -⟩, e⟩ := hm
                  exact hnd.1 (List.mem_map.2 ⟨m', hm', e⟩)
                · exact ih
          · intro r hr r' hr' m m' hm hm' e
            obtain ⟨-, -, l, a⟩ := (hout r hr k m).1 hm
            obtain ⟨-, -, l', a'⟩ := (hout r' hr' k m').1 hm'
            rw [e, a'] at a
            simp only [Option.some.injEq, Prod.mk.injEq] at a
            exact a.1.symm) (by
          intro m hm
          obtain ⟨r, hr, b1, b2, f, b3⟩ := (hmem m).1 hm
          have hgk := ((hv.1 r hr).2 _ b1).2.1
          have hag : (p.sendAgents ms).ag m.1 = some (k, m.2.1, fun _ => none) := by simp [Many.sendAgents, b3, (hget r hr m.1 k).2 b1]
          refine ⟨?_, hgk, b2, Many.ls_some.2 ⟨_, hag⟩, fun j _ => by rw [Many.ll_of hag]⟩
          by_cases hrk : r = k
          · subst hrk
            rw [if_pos (List.mem_map.2 ⟨_, b1, rfl⟩)]
          · rw [Many.ls_none b3 hrk]; simp) (by
          intro u hu
          cases e : p.ag u with
          | none => simp [Many.ls, Many.sendAgents, e]
          | some x =>
            obtain ⟨r, s, l⟩ := x
            have hr : r < X.n := h.lt u _ e
            cases hgu : get (ms r) u with
            | none =>
              have h0 : (p.sendAgents ms).ag u = p.ag u := by simp [Many.sendAgents, e, hgu]
              have h1 : (p.sendAgents ms).ls k u = p.ls k u := by simp [Many.ls, h0]
              refine ⟨?_, fun _ j _ => by simp [Many.ll, h0]⟩
              rw [h1]
              by_cases hrk : r = k
              · subst hrk
                rw [if_neg]
                exact (get_eq_none _ _).1 hgu
              · rw [Many.ls_none e hrk]; simp
            | some k' =>
              have hm := (hget r hr u k').1 hgu
              have hne : k' ≠ k := by
                rintro rfl
                exact hu (List.mem_map.2 ⟨(u, s, none), (hmem _).2 ⟨r, hr, hm, rfl, l, e⟩, rfl⟩)
              have h1 : (p.sendAgents ms).ls k u = none := by simp [Many.ls, Many.sendAgents, e, hgu, hne]
              rw [h1]
              have h2 : (if u ∈ (ms k).map (·.1) then none else p.ls k u) = none := by
                by_cases hrk : r = k
                · subst hrk
                  rw [if_pos (List.mem_map.2 ⟨_, hm, rfl⟩)]
                · rw [Many.ls_none e hrk]; simp
              rw [h2]
              exact ⟨rfl, fun h => by cases h⟩)
      refine ⟨c', ?_, a2⟩
      unfold Cx.arriveAll
      rw [a1]
      rfl)
  rw [e3]
  simp only [Option.bind_some]
  refine settle_m hv.2.1 hv.2.2 false ⟨e4, ?_⟩
  intro u x hx
  simp only [Many.sendAgents, Option.map_eq_some_iff] at hx
  obtain ⟨⟨r, s, l⟩, hy, rfl⟩ := hx
  have hr : r < X.n := h.lt u _ hy
  simp only
  split
  · rename_i k hk
    exact ((hv.1 r hr).2 _ ((hget r hr u k).1 hk)).1
  · exact hr

/-! ### All of the operations -/

theorem wm_step (h : WM X ty w p) {o : WOp S P Q} (hv : p.Valid X o) : ∃ w', wstep ty X.n w o = some w' ∧ WM X ty w' (p.step X o) := by
  have hone : ∀ {r u x}, p.ag u = some (r, x) → r < X.n ∧ (p.ls r u).isSome = true ∧ ∀ k, k ≠ r → p.ls k u = none := by
    intro r u x e
    exact ⟨h.lt u _ e, Many.ls_isSome.2 ⟨x, e⟩, fun k hk => Many.ls_none e (fun e => hk e.symm)⟩
  cases o with
  | add r u s =>
    obtain ⟨hr, h1, h2⟩ := hv
    have hl : ∀ k, p.ls k u = none := by intro k; simp [Many.ls, h1]
    exact ⟨_, at_of (f := fun c => some (c.add ty u s)) hr rfl, h.at (x := some (s, fun _ => none)) hr (fun k _ => hl k) ((h.mi r hr).add (hl r) h2 s)⟩
  | remove r u =>
    obtain ⟨x, hx⟩ := hv
    obtain ⟨hr, h1, h2⟩ := hone hx
    obtain ⟨c', e, hc⟩ := (h.mi r hr).remove h1
    refine ⟨_, at_of (f := fun c => c.remove ty u) hr e, h.at (x := none) hr h2 (hc.congr (fun _ => rfl) ?_ (fun _ _ _ => rfl) (fun _ _ _ _ => rfl))⟩
    intro v hv j _
    have hne : v ≠ u := by rintro rfl; simp [upd] at hv
    simp [upd, hne]
  | setState r u s =>
    obtain ⟨x, hx⟩ := hv
    obtain ⟨hr, h1, h2⟩ := hone hx
    obtain ⟨c', e, hc⟩ := (h.mi r hr).setState h1 s
    have := h.at (x := some (s, x.2)) hr h2 (hc.congr (fun _ => rfl) (by
      intro v _ j _
      by_cases hv : v = u
      · subst hv; simp [upd, Many.ll_of hx]
      · simp [upd, hv]) (fun _ _ _ => rfl) (fun _ _ _ _ => rfl))
    refine ⟨_, at_of (f := fun c => c.setState u s) hr e, ?_⟩
    simp only [Many.step, hx]
    exact this
  | gmove r j u pt =>
    obtain ⟨hj, ⟨x, hx⟩, ht, hf⟩ := hv
    obtain ⟨hr, h1, h2⟩ := hone hx
    obtain ⟨c', e, hc⟩ := (h.mi r hr).gmove hj h1 pt ht (by
      intro he v hv hl
      cases ho : p.ls r v with
      | some s =>
        rw [ho] at hl
        simp only [at_space, Option.some.injEq] at hl
        obtain ⟨f, hvf⟩ := Many.ls_some.1 ho
        rw [Many.ll_of hvf] at hl
        exact (hf he).1 v _ hv hvf hl
      | none =>
        rw [ho] at hl
        simp only [at_space, Option.map_eq_some_iff, Option.some.injEq] at hl
        obtain ⟨y, hy, e⟩ := hl
        exact (hf he).2 v (by rw [hy, e]))
    have := h.at (x := some (x.1, upd x.2 j (some ((X.G j).dest pt)))) hr h2 (hc.congr (by
      intro v
      by_cases hv : v = u
      · subst hv; simp [upd, Many.ls, hx]
      · simp [upd, hv]) (by
      intro v _ i _
      by_cases hv : v = u
      · subst hv
        by_cases hi : i = j
        · subst hi; simp [upd]
        · simp [upd, hi, Many.ll_of hx]
      · by_cases hi : i = j
        · subst hi; simp [upd, hv]
        · simp [upd, hi, hv]) (fun _ _ _ => rfl) (fun _ _ _ _ => rfl))
    refine ⟨_, at_of (f := fun c => c.gmove j u pt) hr e, ?_⟩
    simp only [Many.step, hx]
    exact this
  | synch g => exact synchronize_m hv.2.1 hv.2.2 hv.1 h
  | move ms => exact moveAgents_m hv h
  | request rs => exact hv.elim
  | addProj g => exact hv.elim

theorem wm_run {ops : List (WOp S P Q)} : ∀ {w : World S P} {p : Many S Q}, WM X ty w p → p.ValidRun X ops →
    ∃ w', wrun ty X.n w ops = some w' ∧ WM X ty w' (p.run X ops) := by
  induction ops with
  | nil => intro w p h _; exact ⟨w, rfl, h⟩
  | cons o ops ih =>
    intro w p h hv
    obtain ⟨w1, h1, h2⟩ := wm_step h hv.1
    obtain ⟨w2, h3, h4⟩ := ih h2 hv.2
    refine ⟨w2, ?_, h4⟩
    unfold wrun
    rw [List.foldlM_cons, h1]
    exact h3

end Repast.Context
