import Verif.Space.Spec

/-! The model of a space refines the abstract machine of `Verif/Space/Spec`. -/
namespace Repast.Space
variable {P : Type} [DecidableEq P]

/-- The coupling between the model and the abstract machine. -/
structure Coupled (c : Cfg P) (s : Sp P) (t : Abs P) : Prop where
  known : ∀ a, a ∈ t.known ↔ (s.agents a).isSome
  placed : ∀ a p, (a, p) ∈ t.placed ↔ s.agents a = some (some p)
  loc : ∀ p, s.loc p = t.at_ p
  nodup : (t.placed.map (·.1)).Nodup
  one : c.single = true → ∀ p, (t.at_ p).length ≤ 1

theorem nodup_map_inj {l : List (Nat × P)} (h : (l.map (·.1)).Nodup) {a : Nat} {p q : P} (h1 : (a, p) ∈ l) (h2 : (a, q) ∈ l) : p = q := by
  induction l with
  | nil => cases h1
  | cons x l ih =>
    simp only [List.map_cons, List.nodup_cons, List.mem_map] at h
    rcases List.mem_cons.1 h1 with e1 | h1 <;> rcases List.mem_cons.1 h2 with e2 | h2
    · rw [← e1] at e2; exact (Prod.mk.inj e2).2.symm
    · exact absurd ⟨_, h2, by rw [← e1]⟩ h.1
    · exact absurd ⟨_, h1, by rw [← e2]⟩ h.1
    · exact ih h.2 h1 h2

theorem where_iff {t : Abs P} (h : (t.placed.map (·.1)).Nodup) (a : Nat) (p : P) : t.where_ a = some p ↔ (a, p) ∈ t.placed := by
  unfold Abs.where_
  constructor
  · intro hw
    obtain ⟨q, hq, rfl⟩ := Option.map_eq_some_iff.1 hw
    have h1 := List.mem_of_find?_eq_some hq
    have h2 := List.find?_some hq
    simp only [decide_eq_true_eq] at h2
    rw [← h2]; exact h1
  · intro hm
    cases hf : t.placed.find? (fun q => decide (q.1 = a)) with
    | none =>
      rw [List.find?_eq_none] at hf
      exact absurd (by simp) (hf _ hm)
    | some q =>
      have h1 := List.mem_of_find?_eq_some hf
      have h2 := List.find?_some hf
      simp only [decide_eq_true_eq] at h2
      obtain ⟨b, r⟩ := q
      simp only at h2
      subst h2
      rw [nodup_map_inj h h1 hm]; rfl

theorem mem_at {t : Abs P} (a : Nat) (p : P) : a ∈ t.at_ p ↔ (a, p) ∈ t.placed := by
  unfold Abs.at_
  simp only [List.mem_map, List.mem_filter, decide_eq_true_eq]
  constructor
  · rintro ⟨⟨b, q⟩, ⟨h, rfl⟩, rfl⟩; exact h
  · intro h; exact ⟨(a, p), ⟨h, rfl⟩, rfl⟩

theorem at_nodup {t : Abs P} (h : (t.placed.map (·.1)).Nodup) (p : P) : (t.at_ p).Nodup := by
  unfold Abs.at_
  exact List.Nodup.sublist (List.Sublist.map _ List.filter_sublist) h

theorem at_filter (l : List (Nat × P)) (a : Nat) (p : P) :
    ((l.filter (fun q => decide (q.1 ≠ a))).filter (fun q => decide (q.2 = p))).map (·.1) =
    ((l.filter (fun q => decide (q.2 = p))).map (·.1)).filter (fun b => decide (b ≠ a)) := by
  induction l with
  | nil => rfl
  | cons x l ih => by_cases h1 : x.1 = a <;> by_cases h2 : x.2 = p <;> simp_all

theorem Coupled.where_eq {c : Cfg P} {s : Sp P} {t : Abs P} (h : Coupled c s t) (a : Nat) : t.where_ a = (s.agents a).getD none := by
  cases hw : t.where_ a with
  | some p =>
    have := (h.placed a p).1 ((where_iff h.nodup a p).1 hw)
    rw [this]; rfl
  | none =>
    cases ha : s.agents a with
    | none => rfl
    | some o =>
      cases o with
      | none => rfl
      | some p =>
        have := (where_iff h.nodup a p).2 ((h.placed a p).2 ha)
        rw [hw] at this; cases this

/-- removing `a` from the lists of where it was -/
theorem Coupled.rem_loc {c : Cfg P} {s : Sp P} {t : Abs P} (h : Coupled c s t) {a : Nat} {p : P} (ha : s.agents a = some (some p)) (q : P)
    (l : P → List Nat) (hl : l p = s.loc p) :
    (rem c l a p).1 q = if q = p then (t.at_ p).filter (fun b => decide (b ≠ a)) else l q := by
  have hm : a ∈ s.loc p := by rw [h.loc]; exact (mem_at a p).2 ((h.placed a p).2 ha)
  have hn := at_nodup h.nodup p
  unfold rem
  by_cases hs : c.single = true
  · have h1 := h.one hs p
    rw [← h.loc p] at h1
    rw [if_pos hs, hl]
    have hne : s.loc p ≠ [] := List.ne_nil_of_mem hm
    rw [if_neg hne]
    simp only [upd]
    by_cases hq : q = p
    · rw [if_pos hq, if_pos hq, ← h.loc p]
      cases hlp : s.loc p with
      | nil => rfl
      | cons b bs =>
        rw [hlp] at h1 hm
        simp only [List.length_cons] at h1
        have : bs = [] := List.eq_nil_of_length_eq_zero (by omega)
        subst this
        simp only [List.mem_singleton] at hm
        simp [hm]
    · rw [if_neg hq, if_neg hq]
  · rw [if_neg hs, hl, if_pos hm]
    simp only [upd]
    by_cases hq : q = p
    · rw [if_pos hq, if_pos hq, h.loc p, hn.erase_eq_filter]
      congr 1
      funext b
      by_cases hb : b = a <;> simp [hb]
    · rw [if_neg hq, if_neg hq]

theorem unplace_known {t : Abs P} {a : Nat} (h : ∀ p, (a, p) ∉ t.placed) : t.unplace a = t.placed := by
  unfold Abs.unplace
  rw [List.filter_eq_self]
  rintro ⟨b, p⟩ hb
  simp only [decide_eq_true_eq]
  rintro rfl
  exact h p hb

/-- One call: same result, and still coupled. `add` is not called for an agent of the space. -/
theorem Coupled.step {c : Cfg P} {s : Sp P} {t : Abs P} (h : Coupled c s t) (o : Op P) (hadd : ∀ a, o = .add a → a ∉ t.known) (T : P → P)
    (hw : ∀ a pt, o = .move a pt → T pt = c.tr pt s.wpt) :
    Coupled c (step c s o).1 (Abs.step c.single T t o).1 ∧ (Space.step c s o).2 = (Abs.step c.single T t o).2 := by
  cases o with
  | getAgent pt =>
    refine ⟨⟨h.known, h.placed, h.loc, h.nodup, h.one⟩, ?_⟩
    simp only [Space.step, Abs.step, h.loc]
  | getAgents pt =>
    refine ⟨⟨h.known, h.placed, h.loc, h.nodup, h.one⟩, ?_⟩
    simp only [Space.step, Abs.step, h.loc]
  | getLocation a =>
    refine ⟨⟨h.known, h.placed, h.loc, h.nodup, h.one⟩, ?_⟩
    simp only [Space.step, Abs.step, h.where_eq]
  | contains a =>
    refine ⟨⟨h.known, h.placed, h.loc, h.nodup, h.one⟩, ?_⟩
    simp only [Space.step, Abs.step]
    congr 1
    have := h.known a
    by_cases hk : a ∈ t.known
    · simp [hk, this.1 hk]
    · simp only [hk, decide_false]
      rw [this] at hk
      simpa using hk
  | add a =>
    have hk := hadd a rfl
    have ha : s.agents a = none := by
      cases hs : s.agents a with
      | none => rfl
      | some x => exact absurd ((h.known a).2 (by simp [hs])) hk
    refine ⟨⟨?_, ?_, h.loc, h.nodup, h.one⟩, rfl⟩
    · intro b
      simp only [Space.step, Abs.step, add, upd, List.mem_cons]
      by_cases hb : b = a
      · simp [hb]
      · simp [hb, h.known b]
    · intro b p
      simp only [Space.step, Abs.step, add, upd]
      by_cases hb : b = a
      · simp only [hb, if_true]
        rw [h.placed a p, ha]
        simp
      · simp only [hb, if_false]; exact h.placed b p
  | remove a =>
    cases ha : s.agents a with
    | none =>
      have hk : a ∉ t.known := by rw [h.known, ha]; simp
      have hp : ∀ p, (a, p) ∉ t.placed := by intro p; rw [h.placed, ha]; simp
      have e : remove c s a = (s, false) := by unfold remove; rw [ha]
      have e2 : t.known.filter (fun b => decide (b ≠ a)) = t.known := by
        rw [List.filter_eq_self]
        intro b hb
        simp only [decide_eq_true_eq]
        rintro rfl
        exact hk hb
      simp only [Space.step, e, Abs.step, unplace_known hp, e2, h.where_eq, ha, Option.getD_none, Option.isSome_none]
      exact ⟨h, trivial⟩
    | some o =>
      have known' : ∀ b, b ∈ t.known.filter (fun b => decide (b ≠ a)) ↔ (upd s.agents a none b).isSome := by
        intro b
        simp only [List.mem_filter, decide_eq_true_eq, upd]
        by_cases hb : b = a
        · simp [hb]
        · simp [hb, h.known b]
      have placed' : ∀ b p, (b, p) ∈ t.unplace a ↔ upd s.agents a none b = some (some p) := by
        intro b p
        simp only [Abs.unplace, List.mem_filter, decide_eq_true_eq, upd]
        by_cases hb : b = a
        · simp [hb]
        · simp [hb, h.placed b p]
      have nodup' : ((t.unplace a).map (·.1)).Nodup := List.Nodup.sublist (List.Sublist.map _ List.filter_sublist) h.nodup
      have at' : ∀ p, Abs.at_ { known := t.known.filter (fun b => decide (b ≠ a)), placed := t.unplace a } p =
          (t.at_ p).filter (fun b => decide (b ≠ a)) := fun p => at_filter t.placed a p
      have one' : c.single = true → ∀ p, ((t.at_ p).filter (fun b => decide (b ≠ a))).length ≤ 1 :=
        fun hs p => Nat.le_trans (List.length_filter_le _ _) (h.one hs p)
      cases o with
      | none =>
        have hp : ∀ p, (a, p) ∉ t.placed := by intro p; rw [h.placed, ha]; simp
        have e : remove c s a = ({ s with agents := upd s.agents a none }, false) := by unfold remove; rw [ha]
        simp only [Space.step, e, Abs.step, h.where_eq, ha, Option.getD_some, Option.isSome_none, and_true]
        refine ⟨known', placed', ?_, nodup', ?_⟩
        · intro p
          rw [at', h.loc p]
          symm
          rw [List.filter_eq_self]
          intro b hb
          simp only [decide_eq_true_eq]
          rintro rfl
          exact hp p ((mem_at _ _).1 hb)
        · intro hs p; rw [at']; exact one' hs p
      | some p =>
        have e : remove c s a = ({ s with agents := upd s.agents a none, loc := (rem c s.loc a p).1, wpt := p }, (rem c s.loc a p).2) := by
          unfold remove; rw [ha]
        have hm : a ∈ s.loc p := by rw [h.loc]; exact (mem_at a p).2 ((h.placed a p).2 ha)
        have e2 : (rem c s.loc a p).2 = true := by
          have := List.ne_nil_of_mem hm
          unfold rem
          by_cases hs : c.single = true <;> simp [hs, hm, this]
        simp only [Space.step, e, e2, Abs.step, h.where_eq, ha, Option.getD_some, Option.isSome_some, and_true]
        refine ⟨known', placed', ?_, nodup', ?_⟩
        · intro q
          rw [at']
          have := h.rem_loc ha q s.loc rfl
          simp only [this]
          split
          · rename_i hq; rw [hq]
          · rename_i hq
            rw [h.loc q]
            symm
            rw [List.filter_eq_self]
            intro b hb
            simp only [decide_eq_true_eq]
            rintro rfl
            have := (h.placed b q).1 ((mem_at _ _).1 hb)
            rw [ha] at this
            exact hq (Option.some.inj (Option.some.inj this)).symm
        · intro hs q; rw [at']; exact one' hs q
  | move a pt =>
    have hw' := hw a pt rfl
    simp only [Space.step, Abs.step, hw']
    cases ha : s.agents a with
    | none =>
      have hk : a ∉ t.known := by rw [h.known, ha]; simp
      have e : move c s a pt = (s, .error) := by unfold move; rw [ha]
      rw [e, if_pos hk]
      exact ⟨h, rfl⟩
    | some cur =>
      have hk : a ∈ t.known := by rw [h.known, ha]; simp
      have hwh : t.where_ a = cur := by rw [h.where_eq, ha]; rfl
      rw [if_neg (by simpa using hk), hwh]
      generalize hw : c.tr pt s.wpt = w
      by_cases hc : cur = some w
      · have e : move c s a pt = ({ s with wpt := w }, .loc (some w)) := by
          unfold move; rw [ha]; simp only [hw, hc, if_true]
        rw [e, if_pos hc]
        exact ⟨⟨h.known, h.placed, h.loc, h.nodup, h.one⟩, rfl⟩
      · rw [if_neg hc]
        have hnw : (a, w) ∉ t.placed := by
          rw [h.placed, ha]; simpa using hc
        by_cases hocc : c.single = true ∧ t.at_ w ≠ []
        · have hp : put c s.loc a w = none := by
            unfold put; rw [if_pos hocc.1, if_neg (by rw [h.loc]; exact hocc.2)]
          have e : move c s a pt = ({ s with wpt := w }, .loc none) := by
            unfold move; rw [ha]; simp only [hw, if_neg hc, hp]
          rw [e, if_pos hocc]
          exact ⟨⟨h.known, h.placed, h.loc, h.nodup, h.one⟩, rfl⟩
        · rw [if_neg hocc]
          have hp : put c s.loc a w = some (upd s.loc w (s.loc w ++ [a])) := by
            unfold put
            by_cases hs : c.single = true
            · have : s.loc w = [] := by
                rw [h.loc]
                by_cases he : t.at_ w = []
                · exact he
                · exact absurd ⟨hs, he⟩ hocc
              rw [if_pos hs, if_pos this, this]; rfl
            · rw [if_neg hs]
          have e : move c s a pt = (Sp.mk (upd s.agents a (some (some w)))
              (match (generalizing := false) cur with
                | none => upd s.loc w (s.loc w ++ [a])
                | some p => (rem c (upd s.loc w (s.loc w ++ [a])) a p).1) w, .loc (some w)) := by
            unfold move; rw [ha]; simp only [hw, if_neg hc, hp]
            cases cur <;> rfl
          rw [e]
          have at' : ∀ q, Abs.at_ { known := t.known, placed := t.unplace a ++ [(a, w)] } q =
              (t.at_ q).filter (fun b => decide (b ≠ a)) ++ (if q = w then [a] else []) := by
            intro q
            unfold Abs.at_
            rw [List.filter_append, List.map_append]
            congr 1
            · exact at_filter t.placed a q
            · by_cases hq : q = w
              · simp [hq]
              · have : ¬ w = q := fun h => hq h.symm
                simp [hq, this]
          have hother : ∀ q, cur ≠ some q → (t.at_ q).filter (fun b => decide (b ≠ a)) = t.at_ q := by
            intro q hq
            rw [List.filter_eq_self]
            intro b hb
            simp only [decide_eq_true_eq]
            rintro rfl
            have := (h.placed b q).1 ((mem_at _ _).1 hb)
            rw [ha] at this
            exact hq (Option.some.inj this)
          refine ⟨⟨?_, ?_, ?_, ?_, ?_⟩, rfl⟩
          · intro b
            simp only [upd]
            by_cases hb : b = a
            · simp [hb, hk]
            · simp [hb, h.known b]
          · intro b p
            simp only [List.mem_append, List.mem_singleton, Prod.mk.injEq, Abs.unplace, List.mem_filter, decide_eq_true_eq, upd]
            by_cases hb : b = a
            · simp only [hb, if_true, not_true, ne_eq, and_false, false_or, true_and, Option.some.injEq]
              exact eq_comm
            · simp [hb, h.placed b p]
          · intro q
            rw [at' q]
            cases cur with
            | none =>
              simp only [upd]
              rw [hother q (by simp)]
              by_cases hq : q = w
              · rw [if_pos hq, if_pos hq, hq, h.loc w]
              · rw [if_neg hq, if_neg hq, h.loc q, List.append_nil]
            | some p =>
              have hpw : p ≠ w := fun hh => hc (by rw [hh])
              have hl : upd s.loc w (s.loc w ++ [a]) p = s.loc p := by simp only [upd, if_neg hpw]
              have := h.rem_loc ha q (upd s.loc w (s.loc w ++ [a])) hl
              simp only [this]
              by_cases hq : q = p
              · have hqw : ¬ q = w := by rw [hq]; exact hpw
                rw [if_pos hq, if_neg hqw, List.append_nil, hq]
              · rw [if_neg hq, hother q (fun hh => hq (Option.some.inj hh).symm)]
                simp only [upd]
                by_cases hqw : q = w
                · rw [if_pos hqw, if_pos hqw, hqw, h.loc w]
                · rw [if_neg hqw, if_neg hqw, h.loc q, List.append_nil]
          · simp only [List.map_append, List.map_cons, List.map_nil]
            rw [List.nodup_append]
            refine ⟨List.Nodup.sublist (List.Sublist.map _ List.filter_sublist) h.nodup, by simp, ?_⟩
            intro b hb b' hb'
            simp only [List.mem_singleton] at hb'
            subst hb'
            obtain ⟨q, hq, rfl⟩ := List.mem_map.1 hb
            have := (List.mem_filter.1 hq).2
            simpa using this
          · intro hs q
            rw [at' q]
            by_cases hq : q = w
            · have : t.at_ w = [] := by
                by_cases he : t.at_ w = []
                · exact he
                · exact absurd ⟨hs, he⟩ hocc
              rw [hq, this]; simp
            · rw [if_neg hq, List.append_nil]
              exact Nat.le_trans (List.length_filter_le _ _) (h.one hs q)

theorem coupled_empty (c : Cfg P) (zero : P) : Coupled c (Sp.empty zero) { known := [], placed := [] } :=
  ⟨by simp [Sp.empty], by simp [Sp.empty], by simp [Sp.empty, Abs.at_], by simp, by simp [Abs.at_]⟩

end Repast.Space
