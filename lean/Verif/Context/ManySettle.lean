import Verif.Context.ManySpace

/-! The synchronization of several shared spaces. -/
namespace Repast.Context
open Repast.Dict Repast.Space

variable {S P Q : Type} [Proj P Q] {ty : Nat → Nat} {X : Spaces Q P} {w : World S P} {p : Many S Q}

theorem Spaces.n_pos (X : Spaces Q P) : 0 < X.n := by
  have := (X.K 0).n_pos
  rw [X.ranks] at this
  exact this

theorem Many.part_ag (i : Nat) (u : Nat) : (p.part X i).ag u = (p.settle X).ag u := rfl

/-- Agents are within the bounds of their rank after the movement between ranks. -/
theorem part_inside (hT : p.Together X) (hv : ∀ u x, p.ag u = some x → ∀ j < X.m, ∀ q, x.2.2 j = some q → (X.G j).valid q) {i r u j : Nat} {s : S} {f : Nat → Option Q} {q : Q} (hj : j < X.m)
    (e : (p.part X i).ag u = some (r, s, f)) (hq : f j = some q) : (X.G j).inside r q = true := by
  simp only [Many.part, Many.settle, Option.map_eq_some_iff] at e
  obtain ⟨x, hx, e⟩ := e
  have h2 : x.2 = (s, f) := by rw [← homeOf_st X, e]
  have hf : x.2.2 = f := by rw [h2]
  obtain ⟨q0, t1, t2⟩ := hT u x hx j hj q (by rw [hf]; exact hq)
  have : (homeOf X x).1 = (X.G 0).owner q0 := by simp only [homeOf, t1]
  rw [e] at this
  simp only at this
  rw [this, t2]
  exact ((X.K j).owner_spec (hv u x hx j hj q (by rw [hf]; exact hq))).2.1

theorem Many.part_gl {i k j u : Nat} {q : Q} (hij : j < i) : (p.part X i).gl k j u = some q ↔
    0 < (X.G j).buf ∧ ∃ r s f, (p.part X i).ag u = some (r, s, f) ∧ f j = some q ∧ r ≠ k ∧ (X.G j).near k q := by
  simp only [Many.part, Many.settle, if_pos hij]
  cases p.ag u with
  | none => simp
  | some x =>
    simp only [Option.bind_some, Option.map_some, Option.some.injEq]
    generalize homeOf X x = z
    obtain ⟨r, s, f⟩ := z
    simp only [copyAt]
    cases hf : f j with
    | none =>
      simp only [reduceCtorEq, false_iff]
      rintro ⟨-, r', s', f', e, e', -⟩
      simp only [Prod.mk.injEq] at e
      rw [← e.2.2, hf] at e'
      cases e'
    | some q' =>
      simp only
      constructor
      · intro e
        split at e
        · rename_i hc
          cases e
          exact ⟨hc.1, r, s, f, rfl, hf, hc.2⟩
        · cases e
      · rintro ⟨hb, r', s', f', e, e', hc⟩
        simp only [Prod.mk.injEq] at e
        obtain ⟨rfl, rfl, rfl⟩ := e
        rw [hf] at e'
        cases e'
        rw [if_pos ⟨hb, hc⟩]

theorem synchGrid_m (hT : p.Together X) (hx : ∀ j < X.m, (X.G j).excl → p.Apart j) {i : Nat} (hi : i < X.m) (h : WM X ty w (p.part X i)) :
    ∃ w', synchGrid X.n i w = some w' ∧ WM X ty w' (p.part X (i + 1)) := by
  have hn := X.n_pos
  have hproj : ∀ r < X.n, ∃ g, (w r).projs[i]? = some g ∧ Proj.bufSize g.sp = (X.G i).buf := by
    intro r hr
    obtain ⟨g, a, b, -⟩ := (h.mi r hr).sp.get hi
    exact ⟨g, a, (X.K i).bufSize b⟩
  have hgl : ∀ k j u, j ≠ i → (p.part X (i + 1)).gl k j u = (p.part X i).gl k j u := by
    intro k j u hj
    simp only [Many.part]
    by_cases h : j < i
    · rw [if_pos h, if_pos (by omega)]
    · rw [if_neg h, if_neg (by omega)]
  have hnone : ∀ k u, (p.part X i).gl k i u = none := by intro k u; simp [Many.part]
  have hgs : (p.part X (i + 1)).gs = (p.part X i).gs := rfl
  by_cases hb : 0 < (X.G i).buf
  · have hval : ∀ u x, p.ag u = some x → ∀ j < X.m, ∀ q, x.2.2 j = some q → (X.G j).valid q := by
      intro u x e j hj q hq
      exact h.locIn (u := u) (x := homeOf X x) hj (by simp [Many.part, Many.settle, e]) (by rw [homeOf_st]; exact hq)
    have hmsg := fun r (hr : r < X.n) => MI.msgs hi hb hr (h.mi r hr) (hnone r) (by
      intro u q hs hq
      obtain ⟨⟨s, f⟩, e⟩ := Many.ls_isSome.1 hs
      rw [Many.ll_of e] at hq
      exact part_inside hT hval hi e hq)
    have hout : ∀ r < X.n, ∀ k u s q, (k, u, s, q) ∈ ((w r).bufferMsgs X.n i).getD [] ↔
        ∃ f, (p.part X i).ag u = some (r, s, f) ∧ f i = some q ∧ k < X.n ∧ k ≠ r ∧ (X.G i).near k q := by
      intro r hr k u s q
      obtain ⟨l, a, b, -⟩ := hmsg r hr
      rw [a]
      simp only [Option.getD_some, b, Many.ls_some]
      constructor
      · rintro ⟨⟨f, e⟩, hq, c⟩
        rw [Many.ll_of e] at hq
        exact ⟨f, e, hq, c⟩
      · rintro ⟨f, e, hq, c⟩
        exact ⟨⟨f, e⟩, by rw [Many.ll_of e]; exact hq, c⟩
    unfold synchGrid
    simp only []
    rw [if_pos, if_pos]
    · obtain ⟨w2, e3, e4⟩ := each_ex (w := w) (n := X.n) (f := fun r => ((recv X.n (fun r => ((w r).bufferMsgs X.n i).getD []) r).map (·.2)).foldlM (Cx.bufferOne i) (w r))
        (R := fun r c => MI X ty r c ((p.part X i).ls r) (p.part X i).ll (p.part X i).gs ((p.part X (i + 1)).gl r)) (by
        intro k hk
        have hmem : ∀ m, m ∈ (recv X.n (fun r => ((w r).bufferMsgs X.n i).getD []) k).map (·.2) ↔
            ∃ r < X.n, ∃ f, (p.part X i).ag m.1 = some (r, m.2.1, f) ∧ f i = some m.2.2 ∧ k ≠ r ∧ (X.G i).near k m.2.2 := by
          intro m
          rw [List.mem_map]
          constructor
          · rintro ⟨⟨r, m'⟩, hm, rfl⟩
            obtain ⟨a, b⟩ := mem_recv.1 hm
            obtain ⟨f, b1, b2, b3, b4, b5⟩ := (hout r a k m'.1 m'.2.1 m'.2.2).1 b
            exact ⟨r, a, f, b1, b2, b4, b5⟩
          · rintro ⟨r, a, f, b1, b2, b4, b5⟩
            exact ⟨(r, m), mem_recv.2 ⟨a, (hout r a k m.1 m.2.1 m.2.2).2 ⟨f, b1, b2, hk, b4, b5⟩⟩, rfl⟩
        refine MI.buffer hi hb _ (w k) _ _ (h.mi k hk) ?_ ?_ ?_ ?_
        · refine recv_nodup (fun m : Nat × S × Q => m.1) ?_ ?_
          · intro r hr
            obtain ⟨l, a, -, c⟩ := hmsg r hr
            rw [a]
            exact c k
          · intro r hr r' hr' m m' hm hm' e
            obtain ⟨f, a, -⟩ := (hout r hr k m.1 m.2.1 m.2.2).1 hm
            obtain ⟨f', a', -⟩ := (hout r' hr' k m'.1 m'.2.1 m'.2.2).1 hm'
            rw [e, a'] at a
            simp only [Option.some.injEq, Prod.mk.injEq] at a
            exact a.1.symm
        · intro m hm
          obtain ⟨r, hr, f, a1, a2, a3, a4⟩ := (hmem m).1 hm
          refine ⟨Many.ls_none a1 (fun e => a3 e.symm), hnone k _, h.locIn hi a1 a2, ?_, ?_⟩
          · simp only [Many.part, Many.settle, Option.map_eq_some_iff] at a1 ⊢
            obtain ⟨x, hx, e⟩ := a1
            exact ⟨x, hx, by rw [← homeOf_st X, e]⟩
          · exact (Many.part_gl (by omega)).2 ⟨hb, r, m.2.1, f, a1, a2, fun e => a3 e.symm, a4⟩
        · intro j hj u hu
          by_cases e : j = i
          · subst e
            rw [hnone]
            cases hg : (p.part X (j + 1)).gl k j u with
            | none => rfl
            | some q =>
              obtain ⟨-, r, s, f, a1, a2, a3, a4⟩ := (Many.part_gl (by omega)).1 hg
              exact absurd (List.mem_map.2 ⟨(u, s, q), (hmem (u, s, q)).2 ⟨r, h.lt u _ a1, f, a1, a2, fun e => a3 e.symm, a4⟩, rfl⟩) (hu rfl)
          · exact hgl k j u e
        · have hat : ∀ {u q}, at_space ((p.part X i).ls k u) ((p.part X i).ll i u) ((p.part X (i + 1)).gl k i u) = some (some q) → ∃ x, p.ag u = some x ∧ x.2.2 i = some q := by
            intro u q hu
            have hof : ∀ {y}, (p.part X i).ag u = some y → y.2.2 i = some q → ∃ x, p.ag u = some x ∧ x.2.2 i = some q := by
              intro y e hq
              simp only [Many.part, Many.settle, Option.map_eq_some_iff] at e
              obtain ⟨x, hx, rfl⟩ := e
              exact ⟨x, hx, by rw [homeOf_st] at hq; exact hq⟩
            cases hl : (p.part X i).ls k u with
            | some s =>
              rw [hl] at hu
              simp only [at_space, Option.some.injEq] at hu
              obtain ⟨f, e⟩ := Many.ls_some.1 hl
              rw [Many.ll_of e] at hu
              exact hof e hu
            | none =>
              rw [hl] at hu
              simp only [at_space, Option.map_eq_some_iff, Option.some.injEq] at hu
              obtain ⟨q', hy, rfl⟩ := hu
              obtain ⟨-, r, s, f, a1, a2, -⟩ := (Many.part_gl (by omega)).1 hy
              exact hof (y := (r, s, f)) a1 a2
          intro he u v q hu hv
          obtain ⟨x, hx1, hx2⟩ := hat hu
          obtain ⟨y, hy1, hy2⟩ := hat hv
          exact hx i hi he u v x y q hx1 hy1 hx2 hy2)
      exact ⟨w2, e3, fun r hr => (e4 r hr), fun u x hx => h.lt u x hx⟩
    · rw [List.all_eq_true]
      intro r hr
      obtain ⟨l, a, -⟩ := hmsg r (List.mem_range.1 hr)
      rw [a]; rfl
    · rw [List.all_eq_true]
      intro r hr
      obtain ⟨g, a, b⟩ := hproj r (List.mem_range.1 hr)
      rw [a]
      simp [b, hb]
  · refine ⟨w, ?_, fun r hr => ?_, fun u x hx => h.lt u x hx⟩
    · unfold synchGrid
      simp only []
      rw [if_neg]
      intro hall
      rw [List.all_eq_true] at hall
      have := hall 0 (List.mem_range.2 hn)
      obtain ⟨g, a, b⟩ := hproj 0 hn
      rw [a] at this
      simp [b, hb] at this
    · refine (h.mi r hr).congr (fun u => rfl) (fun _ _ _ _ => rfl) ?_ (fun _ _ _ _ => rfl)
      intro u j _
      by_cases e : j = i
      · subst e
        rw [hnone]
        cases hg : (p.part X (j + 1)).gl r j u with
        | none => rfl
        | some q => exact absurd ((Many.part_gl (by omega)).1 hg).1 hb
      · exact hgl r j u e

theorem synchGhosts_m (hT : p.Together X) (hx : ∀ j < X.m, (X.G j).excl → p.Apart j) (h : WM X ty w (p.part X 0)) :
    ∃ w', synchGhosts X.n w = some w' ∧ WM X ty w' (p.settle X) := by
  obtain ⟨w1, e1, e2⟩ := updateGhosts_id (w := w) (n := X.n) (fun r hr => ⟨(h.mi r hr).rc.removed, (h.mi r hr).rc.ghosted⟩)
  have h1 : WM X ty w1 (p.part X 0) := ⟨fun r hr => by rw [e2 r hr]; exact h.mi r hr, h.lt⟩
  have key : ∀ i ≤ X.m, ∃ w', (List.range i).foldlM (fun w pid => synchGrid X.n pid w) w1 = some w' ∧ WM X ty w' (p.part X i) := by
    intro i
    induction i with
    | zero => intro _; exact ⟨w1, rfl, h1⟩
    | succ i ih =>
      intro hi
      obtain ⟨w2, a, b⟩ := ih (by omega)
      obtain ⟨w3, c, d⟩ := synchGrid_m hT hx (by omega) b
      refine ⟨w3, ?_, d⟩
      rw [List.range_succ, List.foldlM_append, a]
      simp only [Option.bind_eq_bind, Option.bind_some, List.foldlM_cons, c, List.foldlM_nil]
      rfl
  obtain ⟨w2, a, b⟩ := key X.m (Nat.le_refl _)
  refine ⟨w2, ?_, ?_, b.lt⟩
  · unfold synchGhosts
    rw [e1]
    simp only [Option.bind_some]
    rw [(h1.mi 0 X.n_pos).sp.1]
    exact a
  · intro r hr
    refine (b.mi r hr).congr (fun _ => rfl) (fun _ _ _ _ => rfl) ?_ (fun _ _ _ _ => rfl)
    intro u j hj
    simp only [Many.part, if_pos hj]

theorem preSynch_m (h : WM X ty w p) : ∃ w', each X.n (fun r => (w r).preSynchAll) w = some w' ∧ WM X ty w' { p with gl := fun _ _ _ => none } := by
  obtain ⟨w', e1, e2⟩ := each_ex (w := w) (n := X.n) (f := fun r => (w r).preSynchAll) (R := fun r c => MI X ty r c (p.ls r) p.ll p.gs (fun _ _ => none))
    (fun r hr => (h.mi r hr).preSynchAll)
  exact ⟨w', e1, e2, h.lt⟩

/-- Buffers, movement and buffers again. -/
theorem settle_m (hT : p.Together X) (hx : ∀ j < X.m, (X.G j).excl → p.Apart j) (b : Bool) (h : WM X ty w p) :
    ∃ w', ((each X.n (fun r => (w r).preSynchAll) w).bind fun w => (moveOob ty X.n b w).bind fun w => synchGhosts X.n w) = some w' ∧ WM X ty w' (p.settle X) := by
  obtain ⟨w1, e1, h1⟩ := preSynch_m h
  obtain ⟨w2, e2, h2⟩ := moveOob_m hT hx b h1
  obtain ⟨w3, e3, h3⟩ := synchGhosts_m hT hx h2
  refine ⟨w3, ?_, h3⟩
  rw [e1]
  simp only [Option.bind_some]
  rw [e2]
  exact e3

theorem synchronize_m (hT : p.Together X) (hx : ∀ j < X.m, (X.G j).excl → p.Apart j) {g : Bool} (hg : g = true ∨ ∀ j < X.m, (X.G j).buf = 0) (h : WM X ty w p) :
    ∃ w', synchronize ty X.n g w = some w' ∧ WM X ty w' (p.settle X) := by
  unfold synchronize
  cases g with
  | true => exact settle_m hT hx true h
  | false =>
    have hb : ∀ j < X.m, (X.G j).buf = 0 := by simpa using hg
    have h0 : WM X ty w { p with gl := fun _ _ _ => none } := by
      refine ⟨fun r hr => (h.mi r hr).congr (fun _ => rfl) (fun _ _ _ _ => rfl) ?_ (fun _ _ _ _ => rfl), h.lt⟩
      intro u j hj
      exact ((h.mi r hr).rc.buf0 j hj (hb j hj) u).symm
    obtain ⟨w2, e2, h2⟩ := moveOob_m hT hx true h0
    refine ⟨w2, e2, fun r hr => (h2.mi r hr).congr (fun _ => rfl) (fun _ _ _ _ => rfl) ?_ (fun _ _ _ _ => rfl), h2.lt⟩
    intro u j hj
    have : (p.part X 0).gl r j u = none := by simp [Many.part]
    rw [this]
    cases hg : (p.settle X).gl r j u with
    | none => rfl
    | some q =>
      have := ((Many.part_gl (p := p) (X := X) (i := j + 1) (k := r) (u := u) (q := q) (Nat.lt_succ_self j)).1 (by simp only [Many.part]; rw [if_pos (Nat.lt_succ_self j)]; exact hg)).1
      rw [hb j hj] at this
      omega

end Repast.Context
