import Verif.Space.Iter
import Verif.Space.Occ

/-! The model with list objects (`Verif/Space/Iter`) agrees with the model with lists (`Verif/Space/Model`), and what a call does to a list object over
which a loop runs. -/
namespace Repast.Space

variable {P : Type} [DecidableEq P]

/-- The contents of the lists. -/
def Hp.abs (h : Hp P) : Sp P := { agents := h.agents, loc := fun p => (h.cells (h.getAll p)).map (·.2), wpt := h.wpt }

structure Hp.Ok (h : Hp P) : Prop where
  mapped : ∀ p l, h.map p = some l → 0 < l ∧ l < h.lists ∧ h.cells l ≠ []
  inj : ∀ p q l, h.map p = some l → h.map q = some l → p = q
  fresh : ∀ l x, x ∈ h.cells l → x.1 < h.nodes
  nodup : ∀ l, ((h.cells l).map (·.1)).Nodup
  zero : h.cells 0 = []
  pos : 0 < h.lists

theorem Hp.Ok.empty (zero : P) : (Hp.empty zero).Ok where
  mapped := fun p l h => by simp [Hp.empty] at h
  inj := fun p q l h => by simp [Hp.empty] at h
  fresh := fun l x h => by simp [Hp.empty] at h
  nodup := fun l => by simp [Hp.empty]
  zero := rfl
  pos := by simp [Hp.empty]

theorem Hp.Ok.put {h : Hp P} (o : h.Ok) (a : Nat) (p : P) : (h.put a p).Ok := by
  unfold Hp.put
  cases hm : h.map p with
  | none =>
    refine ⟨fun q l hq => ?_, fun q r l hq hr => ?_, fun l x hx => ?_, fun l => ?_, ?_, ?_⟩
    · simp only [upd] at hq ⊢
      split at hq
      · cases hq; have := o.pos; simp; omega
      · have := o.mapped q l hq
        rw [if_neg (by omega)]
        exact ⟨this.1, by omega, this.2.2⟩
    · simp only [upd] at hq hr
      split at hq
      · cases hq
        split at hr
        · simp_all
        · have := o.mapped r _ hr; omega
      · split at hr
        · cases hr; have := o.mapped q _ hq; omega
        · exact o.inj q r l hq hr
    · simp only [upd] at hx
      split at hx
      · simp at hx; subst hx; simp
      · have := o.fresh l x hx; simp; omega
    · simp only [upd]; split
      · simp
      · exact o.nodup l
    · have := o.pos
      simp only [upd]; rw [if_neg (by omega)]; exact o.zero
    · simp
  | some l0 =>
    have m0 := o.mapped p l0 hm
    refine ⟨fun q l hq => ?_, fun q r l hq hr => o.inj q r l hq hr, fun l x hx => ?_, fun l => ?_, ?_, o.pos⟩
    · have := o.mapped q l hq
      refine ⟨this.1, this.2.1, ?_⟩
      simp only [upd]; split
      · simp
      · exact this.2.2
    · simp only [upd] at hx
      split at hx
      · rcases List.mem_append.mp hx with hx | hx
        · have := o.fresh l0 x hx; simp; omega
        · simp at hx; subst hx; simp
      · have := o.fresh l x hx; simp; omega
    · simp only [upd]; split
      · rw [List.map_append, List.nodup_append]
        refine ⟨o.nodup l0, by simp, fun x hx y hy => ?_⟩
        simp at hy; subst hy
        obtain ⟨z, hz, rfl⟩ := List.mem_map.mp hx
        have := o.fresh l0 z hz; omega
      · exact o.nodup l
    · simp only [upd]; rw [if_neg (by omega)]; exact o.zero

theorem Hp.Ok.rem {h : Hp P} (o : h.Ok) (a : Nat) (p : P) : (h.rem a p).1.Ok := by
  unfold Hp.rem
  cases hm : h.map p with
  | none => exact o
  | some l0 =>
    have m0 := o.mapped p l0 hm
    dsimp only
    split
    · have hsub : (h.cells l0).eraseP (fun x => x.2 == a) |>.Sublist (h.cells l0) := List.eraseP_sublist
      refine ⟨fun q l hq => ?_, fun q r l hq hr => ?_, fun l x hx => ?_, fun l => ?_, ?_, o.pos⟩
      · dsimp only at hq ⊢
        have hq' : h.map q = some l := by
          split at hq
          · simp only [upd] at hq; split at hq
            · cases hq
            · exact hq
          · exact hq
        have := o.mapped q l hq'
        refine ⟨this.1, this.2.1, ?_⟩
        simp only [upd]; split
        · rename_i hl; subst hl
          have := o.inj q p l hq' hm; subst this
          split at hq
          · simp [upd] at hq
          · rename_i hne
            exact fun e => hne (by rw [e]; rfl)
        · exact this.2.2
      · dsimp only at hq hr
        split at hq
        · rename_i he
          rw [if_pos he] at hr
          simp only [upd] at hq hr
          split at hq
          · cases hq
          · split at hr
            · cases hr
            · exact o.inj q r l hq hr
        · rename_i he
          rw [if_neg he] at hr
          exact o.inj q r l hq hr
      · simp only [upd] at hx
        split at hx
        · exact o.fresh l0 x (hsub.subset hx)
        · exact o.fresh l x hx
      · simp only [upd]; split
        · exact (o.nodup l0).sublist (hsub.map _)
        · exact o.nodup l
      · simp only [upd]; rw [if_neg (by omega)]; exact o.zero
    · exact o

theorem Hp.Ok.congr {h h' : Hp P} (o : h.Ok) (e1 : h'.map = h.map) (e2 : h'.cells = h.cells) (e3 : h'.lists = h.lists) (e4 : h'.nodes = h.nodes) : h'.Ok := by
  refine ⟨?_, ?_, ?_, ?_, ?_, ?_⟩
  · rw [e1, e2, e3]; exact o.mapped
  · rw [e1]; exact o.inj
  · rw [e2, e4]; exact o.fresh
  · rw [e2]; exact o.nodup
  · rw [e2]; exact o.zero
  · rw [e3]; exact o.pos

theorem Hp.Ok.step {h : Hp P} (o : h.Ok) (c : Cfg P) (op : Op P) : (h.step c op).1.Ok := by
  cases op with
  | add a => exact o.congr rfl rfl rfl rfl
  | remove a =>
    simp only [Hp.step, Hp.remove]
    split
    · exact o
    · exact o.congr rfl rfl rfl rfl
    · exact (o.rem a _).congr rfl rfl rfl rfl
  | move a pt =>
    simp only [Hp.step, Hp.move]
    split
    · exact o
    · rename_i cur _
      split
      · exact o.congr rfl rfl rfl rfl
      · have o1 : (({ h with wpt := c.tr pt h.wpt } : Hp P).put a (c.tr pt h.wpt)).Ok :=
          Hp.Ok.put (h := { h with wpt := c.tr pt h.wpt }) (o.congr rfl rfl rfl rfl) _ _
        cases cur with
        | none => exact o1.congr rfl rfl rfl rfl
        | some p => exact (o1.rem a p).congr rfl rfl rfl rfl
  | getAgent pt => exact o.congr rfl rfl rfl rfl
  | getAgents pt => exact o.congr rfl rfl rfl rfl
  | getLocation a => exact o
  | contains a => exact o

/-! ### The two models agree -/

theorem map_eraseP (l : List (Nat × Nat)) (a : Nat) : (l.eraseP (fun x => x.2 == a)).map (·.2) = (l.map (·.2)).erase a := by
  induction l with
  | nil => rfl
  | cons x l ih =>
    simp only [List.eraseP_cons, List.map_cons, List.erase_cons]
    by_cases hx : x.2 = a
    · simp [hx]
    · have : (x.2 == a) = false := by simpa using hx
      simp [this, ih]

theorem any_mem (l : List (Nat × Nat)) (a : Nat) : (l.any (fun x => x.2 == a)) = true ↔ a ∈ l.map (·.2) := by
  simp [List.any_eq_true, List.mem_map]

theorem Hp.abs_put {h : Hp P} (o : h.Ok) (a : Nat) (p : P) : (h.put a p).abs = { h.abs with loc := upd h.abs.loc p (h.abs.loc p ++ [a]) } := by
  have key : ∀ q, ((h.put a p).cells ((h.put a p).getAll q)).map (·.2) = upd h.abs.loc p (h.abs.loc p ++ [a]) q := by
    intro q
    unfold Hp.put Hp.getAll
    cases hm : h.map p with
    | none =>
      simp only [upd, Hp.abs, Hp.getAll, hm]
      by_cases hq : q = p
      · subst hq; simp [hm, o.zero]
      · simp only [if_neg hq]
        cases hmq : h.map q with
        | none => have := o.pos; simp [o.zero]; intro he; omega
        | some l => have := o.mapped q l hmq; simp; rw [if_neg (by omega)]
    | some l0 =>
      have m0 := o.mapped p l0 hm
      simp only [upd, Hp.abs, Hp.getAll, hm]
      by_cases hq : q = p
      · subst hq; simp [hm]
      · simp only [if_neg hq]
        cases hmq : h.map q with
        | none => simp [o.zero]; intro he; omega
        | some l =>
          have : l ≠ l0 := fun e => hq (o.inj q p l hmq (by rw [hm, e]))
          simp [this]
  have e1 : (h.put a p).agents = h.agents := by unfold Hp.put; split <;> rfl
  have e2 : (h.put a p).wpt = h.wpt := by unfold Hp.put; split <;> rfl
  simp only [Hp.abs, e1, e2] at key ⊢
  congr 1
  funext q
  exact key q

theorem Hp.rem_spec {h : Hp P} (o : h.Ok) (a : Nat) (p : P) {c : Cfg P} (hc : c.single = false) :
    (h.rem a p).1.abs = { h.abs with loc := (Space.rem c h.abs.loc a p).1 } ∧ (h.rem a p).2 = (Space.rem c h.abs.loc a p).2 := by
  have e1 : (h.rem a p).1.agents = h.agents := by unfold Hp.rem; split; · rfl
                                                  · dsimp only; split <;> rfl
  have e2 : (h.rem a p).1.wpt = h.wpt := by unfold Hp.rem; split; · rfl
                                            · dsimp only; split <;> rfl
  have key : (∀ q, ((h.rem a p).1.cells ((h.rem a p).1.getAll q)).map (·.2) = (Space.rem c h.abs.loc a p).1 q) ∧
      (h.rem a p).2 = (Space.rem c h.abs.loc a p).2 := by
    unfold Hp.rem Space.rem
    rw [hc]
    simp only [Bool.false_eq_true, if_false]
    cases hm : h.map p with
    | none =>
      have : h.abs.loc p = [] := by simp [Hp.abs, Hp.getAll, hm, o.zero]
      rw [if_neg (by rw [this]; simp)]
      exact ⟨fun q => rfl, rfl⟩
    | some l0 =>
      have m0 := o.mapped p l0 hm
      have hl : h.abs.loc p = (h.cells l0).map (·.2) := by simp [Hp.abs, Hp.getAll, hm]
      dsimp only
      by_cases ha : (h.cells l0).any (fun x => x.2 == a) = true
      · rw [if_pos ha]
        rw [if_pos (show a ∈ h.abs.loc p by rw [hl]; exact (any_mem _ _).mp ha)]
        refine ⟨fun q => ?_, rfl⟩
        simp only [Hp.getAll]
        by_cases hq : q = p
        · subst hq
          rw [show upd h.abs.loc q ((h.abs.loc q).erase a) q = (h.abs.loc q).erase a by simp [upd], hl, ← map_eraseP]
          by_cases he : ((h.cells l0).eraseP (fun x => x.2 == a)).isEmpty = true
          · rw [if_pos he]
            rw [List.isEmpty_iff.mp he]
            have hne : (0 : Nat) ≠ l0 := by omega
            simp [upd, hne, o.zero]
          · rw [if_neg he, hm]; simp [upd]
        · rw [show upd h.abs.loc p ((h.abs.loc p).erase a) q = h.abs.loc q by simp [upd, hq]]
          have e : (if ((h.cells l0).eraseP (fun x => x.2 == a)).isEmpty = true then upd h.map p none else h.map) q = h.map q := by
            split
            · simp [upd, hq]
            · rfl
          rw [e]
          cases hmq : h.map q with
          | none => simp [Hp.abs, Hp.getAll, hmq, upd, o.zero]; intro he; omega
          | some l =>
            have : l ≠ l0 := fun e => hq (o.inj q p l hmq (by rw [hm, e]))
            simp [Hp.abs, Hp.getAll, hmq, upd, this]
      · rw [if_neg ha]
        rw [if_neg (show ¬ a ∈ h.abs.loc p by rw [hl]; exact fun h => ha ((any_mem _ _).mpr h))]
        exact ⟨fun q => rfl, rfl⟩
  refine ⟨?_, key.2⟩
  simp only [Hp.abs, e1, e2] at key ⊢
  congr 1
  funext q
  exact key.1 q

theorem Hp.abs_agents (h : Hp P) (A : Nat → Option (Option P)) : ({ h with agents := A } : Hp P).abs = { h.abs with agents := A } := rfl

/-- The model with list objects does the same as the model with lists. -/
theorem Hp.step_spec {h : Hp P} (o : h.Ok) {c : Cfg P} (hc : c.single = false) (op : Op P) :
    (h.step c op).1.abs = (Space.step c h.abs op).1 ∧ (h.step c op).2 = (Space.step c h.abs op).2 := by
  cases op with
  | add a => exact ⟨rfl, rfl⟩
  | remove a =>
    simp only [Hp.step, Hp.remove, Space.step, Space.remove]
    rw [show h.abs.agents = h.agents from rfl]
    cases ha : h.agents a with
    | none => exact ⟨rfl, rfl⟩
    | some cur =>
      cases cur with
      | none => exact ⟨rfl, rfl⟩
      | some p =>
        have := Hp.rem_spec o a p hc
        dsimp only
        refine ⟨?_, by rw [this.2]⟩
        have hl := congrArg Sp.loc this.1
        simp only [Hp.abs] at hl ⊢
        congr 1
  | move a pt =>
    simp only [Hp.step, Hp.move, Space.step, Space.move]
    rw [show h.abs.agents = h.agents from rfl, show h.abs.wpt = h.wpt from rfl]
    cases ha : h.agents a with
    | none => exact ⟨rfl, rfl⟩
    | some cur =>
      dsimp only
      by_cases hcur : cur = some (c.tr pt h.wpt)
      · rw [if_pos hcur, if_pos hcur]; exact ⟨rfl, rfl⟩
      · rw [if_neg hcur, if_neg hcur]
        simp only [Space.put, hc, Bool.false_eq_true, if_false]
        have o0 : ({ h with wpt := c.tr pt h.wpt } : Hp P).Ok := o.congr rfl rfl rfl rfl
        have hp := Hp.abs_put o0 a (c.tr pt h.wpt)
        have o1 := o0.put a (c.tr pt h.wpt)
        refine ⟨?_, trivial⟩
        cases cur with
        | none =>
          dsimp only
          rw [Hp.abs_agents, hp]
          rfl
        | some p =>
          have hr := (Hp.rem_spec o1 a p hc).1
          dsimp only
          rw [Hp.abs_agents, hr, hp]
          rfl
  | getAgent pt =>
    simp only [Hp.step, Space.step]
    refine ⟨rfl, ?_⟩
    simp [Hp.abs]
  | getAgents pt => exact ⟨rfl, rfl⟩
  | getLocation a => exact ⟨rfl, rfl⟩
  | contains a => exact ⟨rfl, rfl⟩

theorem Space.run_fst (c : Cfg P) (s : Sp P) (ops : List (Op P)) : (Space.run c s ops).1 = ops.foldl (fun s o => (Space.step c s o).1) s := by
  induction ops generalizing s with
  | nil => rfl
  | cons o os ih => simp only [Space.run, List.foldl_cons]; exact ih _

theorem Hp.run_spec {h : Hp P} (o : h.Ok) {c : Cfg P} (hc : c.single = false) (ops : List (Op P)) :
    (h.run c ops).Ok ∧ (h.run c ops).abs = (Space.run c h.abs ops).1 := by
  rw [Space.run_fst]
  induction ops generalizing h with
  | nil => exact ⟨o, rfl⟩
  | cons op os ih =>
    have := ih (o.step c op)
    simp only [Hp.run, List.foldl_cons] at this ⊢
    rw [(Hp.step_spec o hc op).1] at this
    exact this

/-! ### A list object over which a loop runs -/

/-- The iterator of a loop over the agents at `pt` refers to the list object `l` and to the first of the nodes `rest`. -/
def Hp.Tracks (h : Hp P) (pt : P) (l : Nat) (rest : List (Nat × Nat)) : Prop :=
  l < h.lists ∧ ((h.map pt = some l ∧ ∃ pre, h.cells l = pre ++ rest) ∨ ((∀ p, h.map p ≠ some l) ∧ h.cells l = [] ∧ rest = []))

theorem Hp.Tracks.put {h : Hp P} {pt : P} {l : Nat} {rest : List (Nat × Nat)} (t : h.Tracks pt l rest) (o : h.Ok) (a : Nat) {w : P} (hw : w ≠ pt) :
    (h.put a w).Tracks pt l rest := by
  obtain ⟨hl, t⟩ := t
  unfold Hp.put
  cases hm : h.map w with
  | none =>
    refine ⟨by simp; omega, ?_⟩
    rcases t with ⟨h1, h2⟩ | ⟨h1, h2, h3⟩
    · left
      refine ⟨by simp [upd, hw.symm, h1], ?_⟩
      simp only [upd]; rw [if_neg (by omega)]; exact h2
    · right
      refine ⟨fun p => ?_, ?_, h3⟩
      · simp only [upd]; split
        · intro e; cases e; omega
        · exact h1 p
      · simp only [upd]; rw [if_neg (by omega)]; exact h2
  | some l0 =>
    refine ⟨hl, ?_⟩
    rcases t with ⟨h1, h2⟩ | ⟨h1, h2, h3⟩
    · left
      have : l ≠ l0 := fun e => hw (o.inj w pt l (by rw [hm, e]) h1)
      refine ⟨h1, ?_⟩
      simp only [upd, if_neg this]; exact h2
    · right
      have : l ≠ l0 := fun e => h1 w (by rw [hm, e])
      refine ⟨h1, ?_, h3⟩
      simp only [upd, if_neg this]; exact h2

theorem Hp.Tracks.rem_other {h : Hp P} {pt : P} {l : Nat} {rest : List (Nat × Nat)} (t : h.Tracks pt l rest) (o : h.Ok) (a : Nat) {p : P} (hp : p ≠ pt) :
    (h.rem a p).1.Tracks pt l rest := by
  obtain ⟨hl, t⟩ := t
  unfold Hp.rem
  cases hm : h.map p with
  | none => exact ⟨hl, t⟩
  | some l0 =>
    dsimp only
    split
    · refine ⟨hl, ?_⟩
      rcases t with ⟨h1, h2⟩ | ⟨h1, h2, h3⟩
      · left
        have : l ≠ l0 := fun e => hp (o.inj p pt l (by rw [hm, e]) h1)
        refine ⟨?_, ?_⟩
        · dsimp only; split
          · simp [upd, hp.symm, h1]
          · exact h1
        · simp only [upd, if_neg this]; exact h2
      · right
        have : l ≠ l0 := fun e => h1 p (by rw [hm, e])
        refine ⟨fun q => ?_, ?_, h3⟩
        · dsimp only; split
          · simp only [upd]; split
            · simp
            · exact h1 q
          · exact h1 q
        · simp only [upd, if_neg this]; exact h2
    · exact ⟨hl, t⟩

theorem Hp.Tracks.rem_here {h : Hp P} {pt : P} {l : Nat} {rest : List (Nat × Nat)} (t : h.Tracks pt l rest) (o : h.Ok) {b : Nat}
    (hb : ∀ pre, h.cells l = pre ++ rest → b ∈ (h.cells l).map (·.2) → b ∈ pre.map (·.2)) :
    (h.rem b pt).1.Tracks pt l rest := by
  obtain ⟨hl, t⟩ := t
  rcases t with ⟨h1, pre, h2⟩ | ⟨h1, h2, h3⟩
  · have hb := hb pre h2
    unfold Hp.rem
    rw [h1]
    dsimp only
    split
    · rename_i ha
      have hbp := hb ((any_mem _ _).mp ha)
      have hany : ∃ x ∈ pre, (x.2 == b) = true := by
        obtain ⟨x, hx, e⟩ := List.mem_map.mp hbp
        exact ⟨x, hx, by simpa using e⟩
      have he : (h.cells l).eraseP (fun x => x.2 == b) = pre.eraseP (fun x => x.2 == b) ++ rest := by
        rw [h2]
        obtain ⟨x, hx, e⟩ := hany
        exact List.eraseP_append_left (p := fun x => x.2 == b) e _ hx
      refine ⟨hl, ?_⟩
      by_cases hem : ((h.cells l).eraseP (fun x => x.2 == b)).isEmpty = true
      · right
        have hnil := List.isEmpty_iff.mp hem
        rw [if_pos hem]
        refine ⟨fun q => ?_, ?_, ?_⟩
        · simp only [upd]; split
          · simp
          · rename_i hq
            exact fun e => hq (o.inj q pt l e h1)
        · simp [upd, hnil]
        · rw [he] at hnil
          exact (List.append_eq_nil_iff.mp hnil).2
      · left
        rw [if_neg hem]
        exact ⟨h1, pre.eraseP (fun x => x.2 == b), by simp [upd, he]⟩
    · exact ⟨hl, .inl ⟨h1, pre, h2⟩⟩
  · unfold Hp.rem
    cases hm : h.map pt with
    | none => exact ⟨hl, .inr ⟨h1, h2, h3⟩⟩
    | some l0 =>
      have hne : l ≠ l0 := fun e => h1 pt (by rw [hm, e])
      dsimp only
      split
      · refine ⟨hl, .inr ⟨fun q => ?_, ?_, h3⟩⟩
        · dsimp only; split
          · simp only [upd]; split
            · simp
            · exact h1 q
          · exact h1 q
        · simp only [upd, if_neg hne]; exact h2
      · exact ⟨hl, .inr ⟨h1, h2, h3⟩⟩

end Repast.Space
