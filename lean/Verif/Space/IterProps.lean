import Verif.Space.IterLemmas
import Verif.Space.Props

/-! C56: a loop over the agents at a location visits each of them once. -/
namespace Repast.Space

variable {P : Type} [DecidableEq P]

/-! ### Specification -/

/-- Each of the calls `os` leaves the agents at `pt` as they are, or takes `a` away from them. -/
def Leaves (c : Cfg P) (pt : P) (a : Nat) : Sp P → List (Op P) → Prop
  | _, [] => True
  | s, o :: os =>
    ((step c s o).1.loc pt = s.loc pt ∨ (step c s o).1.loc pt = (s.loc pt).erase a) ∧ Leaves c pt a (step c s o).1 os

/-- The calls `body a` are made for each agent `a` of a list, one after the other; none of them brings an agent to `pt`, or takes another agent than `a`
away from there. -/
def Considerate (c : Cfg P) (pt : P) (body : Nat → List (Op P)) : Sp P → List Nat → Prop
  | _, [] => True
  | s, a :: l => Leaves c pt a s (body a) ∧ Considerate c pt body (run c s (body a)).1 l

/-! ### Proofs -/

theorem rem_multi {c : Cfg P} (hc : c.single = false) (loc : P → List Nat) (b : Nat) (p q : P) :
    (rem c loc b p).1 q = if q = p then (loc p).erase b else loc q := by
  unfold rem
  rw [hc]
  simp only [Bool.false_eq_true, if_false]
  split
  · rfl
  · rename_i hb
    split
    · rename_i e; subst e; rw [List.erase_of_not_mem hb]
    · rfl

theorem Hp.Tracks.mem_pre {h : Hp P} {pt : P} {l : Nat} {rest : List (Nat × Nat)} (t : h.Tracks pt l rest) (hnd : (rest.map (·.2)).Nodup) {a b : Nat}
    (ha : a ∉ rest.map (·.2)) (hq : (h.abs.loc pt).erase b = h.abs.loc pt ∨ (h.abs.loc pt).erase b = (h.abs.loc pt).erase a)
    (pre : List (Nat × Nat)) (hp : h.cells l = pre ++ rest) (hb : b ∈ (h.cells l).map (·.2)) : b ∈ pre.map (·.2) := by
  rcases t.2 with ⟨h1, _⟩ | ⟨_, h2, _⟩
  · have hl : h.abs.loc pt = pre.map (·.2) ++ rest.map (·.2) := by simp [Hp.abs, Hp.getAll, h1, hp]
    apply Decidable.byContradiction
    intro hn
    have hbr : b ∈ rest.map (·.2) := by
      rw [hp, List.map_append, List.mem_append] at hb
      exact hb.resolve_left hn
    have hbl : b ∈ h.abs.loc pt := by rw [hl]; exact List.mem_append_right _ hbr
    have he : b ∉ (h.abs.loc pt).erase b := by
      rw [hl, List.erase_append_right _ hn]
      intro hm
      rcases List.mem_append.mp hm with hm | hm
      · exact hn hm
      · exact (List.Nodup.not_mem_erase hnd) hm
    rcases hq with hq | hq
    · rw [hq] at he; exact he hbl
    · rw [hq] at he
      exact he ((List.mem_erase_of_ne (fun e => ha (by rw [← e]; exact hbr))).mpr hbl)
  · rw [h2] at hb; simp at hb

/-- A call that leaves the agents that are still to be visited alone. -/
theorem Hp.Tracks.step {h : Hp P} {pt : P} {l : Nat} {rest : List (Nat × Nat)} (t : h.Tracks pt l rest) (o : h.Ok) {c : Cfg P} (hc : c.single = false)
    (hnd : (rest.map (·.2)).Nodup) {a : Nat} (ha : a ∉ rest.map (·.2)) (op : Op P)
    (hq : (Space.step c h.abs op).1.loc pt = h.abs.loc pt ∨ (Space.step c h.abs op).1.loc pt = (h.abs.loc pt).erase a) :
    (h.step c op).1.Tracks pt l rest := by
  cases op with
  | add b => exact t
  | getAgent q => exact t
  | getAgents q => exact t
  | getLocation b => exact t
  | contains b => exact t
  | remove b =>
    simp only [Hp.step, Hp.remove]
    simp only [Space.step, Space.remove] at hq
    rw [show h.abs.agents = h.agents from rfl] at hq
    cases hb : h.agents b with
    | none => exact t
    | some cur =>
      rw [hb] at hq
      cases cur with
      | none => exact t
      | some p =>
        dsimp only at hq ⊢
        by_cases hp : p = pt
        · subst hp
          rw [rem_multi hc, if_pos rfl] at hq
          exact t.rem_here o (t.mem_pre hnd ha hq)
        · exact t.rem_other o b hp
  | move b q =>
    simp only [Hp.step, Hp.move]
    simp only [Space.step, Space.move] at hq
    rw [show h.abs.agents = h.agents from rfl, show h.abs.wpt = h.wpt from rfl] at hq
    cases hb : h.agents b with
    | none => exact t
    | some cur =>
      rw [hb] at hq
      dsimp only at hq ⊢
      by_cases hcur : cur = some (c.tr q h.wpt)
      · rw [if_pos hcur]; exact t
      · rw [if_neg hcur] at hq ⊢
        simp only [Space.put, hc, Bool.false_eq_true, if_false] at hq
        generalize hw : c.tr q h.wpt = w at *
        have o0 : ({ h with wpt := w } : Hp P).Ok := o.congr rfl rfl rfl rfl
        have t0 : ({ h with wpt := w } : Hp P).Tracks pt l rest := t
        have o1 := o0.put b w
        have hab := Hp.abs_put o0 b w
        by_cases hwp : w = pt
        · exfalso
          subst hwp
          have hlen : ∀ x, (h.abs.loc w ++ [b] = h.abs.loc w ∨ h.abs.loc w ++ [b] = (h.abs.loc w).erase x) → False := by
            intro x hx
            have := (List.erase_sublist (a := x) (l := h.abs.loc w)).length_le
            rcases hx with hx | hx
            · have := congrArg List.length hx; simp at this
            · have := congrArg List.length hx; simp at this; omega
          cases cur with
          | none => simp [upd] at hq; exact hlen a (by simpa using hq)
          | some p =>
            have hne : w ≠ p := fun e => hcur (by rw [e])
            dsimp only at hq
            rw [rem_multi hc, if_neg hne] at hq
            exact hlen a (by simpa [upd] using hq)
        · have t1 := t0.put o0 b hwp
          cases cur with
          | none => exact t1
          | some p =>
            by_cases hp : p = pt
            · subst hp
              dsimp only at hq
              have e : upd h.abs.loc w (h.abs.loc w ++ [b]) p = h.abs.loc p := by simp [upd, Ne.symm hwp]
              rw [rem_multi hc, if_pos rfl, e] at hq
              refine t1.rem_here o1 (t1.mem_pre hnd ha ?_)
              rw [hab]
              dsimp only
              rw [show upd (Hp.abs { h with wpt := w }).loc w ((Hp.abs { h with wpt := w }).loc w ++ [b]) p = h.abs.loc p from e]
              exact hq
            · exact t1.rem_other o1 b hp

theorem Hp.Tracks.run {h : Hp P} {pt : P} {l : Nat} {rest : List (Nat × Nat)} (t : h.Tracks pt l rest) (o : h.Ok) {c : Cfg P} (hc : c.single = false)
    (hnd : (rest.map (·.2)).Nodup) {a : Nat} (ha : a ∉ rest.map (·.2)) (ops : List (Op P)) (hq : Leaves c pt a h.abs ops) : (h.run c ops).Tracks pt l rest := by
  induction ops generalizing h with
  | nil => exact t
  | cons op os ih =>
    simp only [Leaves] at hq
    simp only [Hp.run, List.foldl_cons]
    exact ih (t.step o hc hnd ha op hq.1) (o.step c op) (by rw [(Hp.step_spec o hc op).1]; exact hq.2)

theorem after_append {k a : Nat} {pre rest : List (Nat × Nat)} (hk : k ∉ pre.map (·.1)) : after k (pre ++ (k, a) :: rest) = some (a, first rest) := by
  induction pre with
  | nil => simp [after]
  | cons x pre ih =>
    simp only [List.map_cons, List.mem_cons, not_or] at hk
    simp only [List.cons_append, after]
    rw [if_neg (fun e => hk.1 e.symm)]
    exact ih hk.2

theorem run_append (c : Cfg P) (s : Sp P) (xs ys : List (Op P)) : (run c s (xs ++ ys)).1 = (run c (run c s xs).1 ys).1 := by
  rw [Space.run_fst, Space.run_fst, Space.run_fst, List.foldl_append]

theorem loop_spec {c : Cfg P} (hc : c.single = false) (body : Nat → List (Op P)) {pt : P} {l : Nat} (rest : List (Nat × Nat)) :
    ∀ (f : Nat) (h : Hp P) (v : List Nat), rest.length < f → h.Ok → h.Tracks pt l rest → (rest.map (·.2)).Nodup →
      Considerate c pt body h.abs (rest.map (·.2)) →
      ∃ h', loop c body f h l (first rest) v = .done h' (v ++ rest.map (·.2)) ∧ h'.Ok ∧ h'.abs = (run c h.abs ((rest.map (·.2)).flatMap body)).1 := by
  induction rest with
  | nil =>
    intro f h v hf o _ _ _
    cases f with
    | zero => simp at hf
    | succ f => exact ⟨h, by simp [first, loop], o, rfl⟩
  | cons x rest ih =>
    intro f h v hf o t hnd hcon
    cases f with
    | zero => simp at hf
    | succ f =>
      obtain ⟨k, a⟩ := x
      simp only [List.map_cons, List.nodup_cons] at hnd
      simp only [List.map_cons, Considerate] at hcon
      have hcell : ∃ pre, h.cells l = pre ++ (k, a) :: rest := by
        rcases t.2 with ⟨_, h2⟩ | ⟨_, _, h3⟩
        · exact h2
        · cases h3
      obtain ⟨pre, hpre⟩ := hcell
      have hk : k ∉ pre.map (·.1) := by
        have := o.nodup l
        rw [hpre, List.map_append, List.nodup_append] at this
        exact fun hm => this.2.2 k hm k (by simp) rfl
      have haf : after k (h.cells l) = some (a, first rest) := by rw [hpre]; exact after_append hk
      have t' : h.Tracks pt l rest := by
        refine ⟨t.1, ?_⟩
        rcases t.2 with ⟨h1, _⟩ | ⟨_, _, h3⟩
        · exact .inl ⟨h1, pre ++ [(k, a)], by rw [hpre]; simp⟩
        · cases h3
      have hrun := Hp.run_spec o hc (body a)
      obtain ⟨h', e, o', ha'⟩ := ih f (h.run c (body a)) (v ++ [a]) (by simp at hf; omega) hrun.1 (t'.run o hc hnd.2 hnd.1 (body a) hcon.1) hnd.2
        (by rw [hrun.2]; exact hcon.2)
      refine ⟨h', ?_, o', ?_⟩
      · rw [show first ((k, a) :: rest) = some k from rfl]
        simp only [loop, haf]
        rw [e]; simp
      · rw [ha', hrun.2, List.map_cons, List.flatMap_cons, run_append]

theorem forAgents_spec {c : Cfg P} (hc : c.single = false) (body : Nat → List (Op P)) {h : Hp P} (o : h.Ok) (pt : P) (hnd : (h.abs.loc pt).Nodup)
    (hcon : Considerate c pt body (step c h.abs (.getAgents pt)).1 (h.abs.loc pt)) {f : Nat} (hf : (h.abs.loc pt).length < f) :
    ∃ h', forAgents c body f h pt = .done h' (h.abs.loc pt) ∧ h'.Ok ∧
      h'.abs = (run c h.abs (.getAgents pt :: (h.abs.loc pt).flatMap body)).1 := by
  have o1 := o.step c (.getAgents pt)
  have e1 := (Hp.step_spec o hc (.getAgents pt)).1
  have t : (h.step c (.getAgents pt)).1.Tracks pt (h.getAll pt) (h.cells (h.getAll pt)) := by
    unfold Hp.getAll
    cases hm : h.map pt with
    | none => exact ⟨o.pos, .inr ⟨fun p e => by have := o.mapped p 0 e; omega, o.zero, o.zero⟩⟩
    | some l => exact ⟨(o.mapped pt l hm).2.1, .inl ⟨hm, [], rfl⟩⟩
  have hlen : (h.cells (h.getAll pt)).length < f := by have : (h.abs.loc pt).length = (h.cells (h.getAll pt)).length := by simp [Hp.abs]
                                                       omega
  obtain ⟨h', e, o', ha⟩ := loop_spec hc body (h.cells (h.getAll pt)) f _ [] hlen o1 t hnd (by rw [e1]; exact hcon)
  refine ⟨h', e, o', ?_⟩
  rw [ha, e1]
  rfl

theorem loop_mono {c : Cfg P} {body : Nat → List (Op P)} {l : Nat} {h' : Hp P} {v' : List Nat} (g : Nat) :
    ∀ (f : Nat) (h : Hp P) (pos : Option Nat) (v : List Nat), loop c body f h l pos v = .done h' v' → loop c body (g + f) h l pos v = .done h' v' := by
  intro f
  induction f with
  | zero => intro h pos v e; simp [loop] at e
  | succ f ih =>
    intro h pos v e
    rw [show g + (f + 1) = (g + f) + 1 by omega]
    cases pos with
    | none => exact e
    | some k =>
      simp only [loop] at e ⊢
      split at e
      · cases e
      · exact ih _ _ _ e

theorem forAgents_mono {c : Cfg P} {body : Nat → List (Op P)} {f g : Nat} {h h' : Hp P} {pt : P} {v : List Nat} (e : forAgents c body f h pt = .done h' v) :
    forAgents c body (g + f) h pt = .done h' v := loop_mono g f _ _ _ e

/-! ### The property -/

theorem Hp.history_spec {c : Cfg P} (hc : c.single = false) (zero : P) (ops : List (Op P)) :
    ((Hp.empty zero).run c ops).Ok ∧ ((Hp.empty zero).run c ops).abs = (Space.run c (Sp.empty zero) ops).1 :=
  Hp.run_spec (Hp.Ok.empty zero) hc ops

theorem Hp.same_results {c : Cfg P} (hc : c.single = false) {h h' : Hp P} (o : h.Ok) (o' : h'.Ok) (e : h.abs = h'.abs) (ops : List (Op P)) (op : Op P) :
    ((h.run c ops).step c op).2 = ((h'.run c ops).step c op).2 := by
  have a := Hp.run_spec o hc ops
  have b := Hp.run_spec o' hc ops
  rw [(Hp.step_spec a.1 hc op).2, (Hp.step_spec b.1 hc op).2, a.2, b.2, e]

/-- C56: in a space with multiple occupancy, after every history that adds no agent twice, `for a in space.get_agents(pt)` visits exactly the agents that
`get_agents` lists, each once and in this order, and ends, if the calls in the loop bring no agent to `pt`, and take none but the agent that is visited away
from there; it has the same effect as the calls without a loop, one after the other. Missing (`_partial`): loops that do bring or take away others
(`C56_violation_next`, `C56_violation_endless`), and two loops over the same result (`C56_violation_nested`). -/
theorem C56_loop_partial (c : Cfg P) (hc : c.single = false) (zero : P) (ops : List (Op P)) (ha : AddsOnlyNew [] ops) (pt : P) (body : Nat → List (Op P))
    (hcon : ∀ s l, s = (run c (Sp.empty zero) ops).1 → agentsAt c s pt = .agents l → Considerate c pt body (step c s (.getAgents pt)).1 l) :
    let h := (Hp.empty zero).run c ops
    ∃ l, (h.step c (.getAgents pt)).2 = .agents l ∧ l.Nodup ∧ ∃ h', (∀ f, l.length < f → forAgents c body f h pt = .done h' l) ∧
      ∀ os o, ((h'.run c os).step c o).2 = (((h.run c (.getAgents pt :: l.flatMap body)).run c os).step c o).2 := by
  intro h
  obtain ⟨ok, e⟩ := Hp.history_spec hc zero ops
  obtain ⟨t, ht⟩ := run_coupled (coupled_empty c zero) ops ha
  have hnd : (h.abs.loc pt).Nodup := by rw [show h.abs = _ from e]; exact Occ.nodup ⟨t, ht⟩ pt
  have hcon' : Considerate c pt body (step c h.abs (.getAgents pt)).1 (h.abs.loc pt) := by
    rw [show h.abs = _ from e]
    exact hcon _ _ rfl rfl
  refine ⟨h.abs.loc pt, rfl, hnd, ?_⟩
  obtain ⟨h', e1, o1, e2⟩ := forAgents_spec hc body ok pt hnd hcon' (f := (h.abs.loc pt).length + 1) (Nat.lt_succ_self _)
  refine ⟨h', fun f hf => ?_, fun os o => ?_⟩
  · obtain ⟨h2, e3, o3, e4⟩ := forAgents_spec hc body ok pt hnd hcon' hf
    rw [e3]
    rw [show f = (f - ((h.abs.loc pt).length + 1)) + ((h.abs.loc pt).length + 1) by omega] at e3
    rw [forAgents_mono e1] at e3
    injection e3 with e3
    rw [e3]
  · have hr := Hp.run_spec ok hc (.getAgents pt :: (h.abs.loc pt).flatMap body)
    exact Hp.same_results hc o1 hr.1 (by rw [e2, hr.2]) os o

/-- The calls of a loop body that removes the agent that is visited, moves it away from `pt`, or leaves it alone. -/
def Usual (c : Cfg P) (pt : P) (a : Nat) (os : List (Op P)) : Prop :=
  os = [] ∨ os = [.remove a] ∨ ∃ q, os = [.move a q] ∧ ∀ w, c.tr q w ≠ pt

theorem Usual.step {c : Cfg P} (hc : c.single = false) {pt : P} {a : Nat} {os : List (Op P)} (hu : Usual c pt a os) {s : Sp P} (h : Occ c s) (ha : a ∈ s.loc pt) :
    Leaves c pt a s os ∧ Occ c (run c s os).1 ∧ (run c s os).1.loc pt = if os.isEmpty then s.loc pt else (s.loc pt).erase a := by
  have hag := h.mem.mp ha
  rcases hu with rfl | rfl | ⟨q, rfl, hq⟩
  · exact ⟨trivial, h, rfl⟩
  · have e : (Space.step c s (.remove a)).1.loc pt = (s.loc pt).erase a := by
      simp only [Space.step, Space.remove, hag]
      rw [rem_multi hc, if_pos rfl]
    exact ⟨⟨.inr e, trivial⟩, h.step _ (fun b e => by cases e), e⟩
  · have e : (Space.step c s (.move a q)).1.loc pt = (s.loc pt).erase a := by
      have hne : c.tr q s.wpt ≠ pt := hq _
      have : ¬ (some pt = some (c.tr q s.wpt)) := fun e => hne (Option.some.inj e).symm
      simp only [Space.step, Space.move, hag, if_neg this, Space.put, hc, Bool.false_eq_true, if_false]
      rw [rem_multi hc, if_pos rfl]
      simp [upd, Ne.symm hne]
    exact ⟨⟨.inr e, trivial⟩, h.step _ (fun b e => by cases e), e⟩

theorem usual_considerate {c : Cfg P} (hc : c.single = false) {pt : P} {body : Nat → List (Op P)} (hb : ∀ a, Usual c pt a (body a)) (l : List Nat) :
    ∀ s, Occ c s → l.Nodup → (∀ a ∈ l, a ∈ s.loc pt) → Considerate c pt body s l ∧
      (run c s (l.flatMap body)).1.loc pt = (s.loc pt).filter (fun a => decide (a ∉ l) || (body a).isEmpty) := by
  induction l with
  | nil => intro s _ _ _; exact ⟨trivial, (List.filter_eq_self.mpr (by simp)).symm⟩
  | cons a l ih =>
    intro s h hnd hl
    rw [List.nodup_cons] at hnd
    have ha : a ∈ s.loc pt := hl a (by simp)
    obtain ⟨h1, h2, h3⟩ := (hb a).step hc h ha
    have hmem : ∀ b ∈ l, b ∈ (run c s (body a)).1.loc pt := by
      intro b hbl
      have hb' := hl b (by simp [hbl])
      rw [h3]; split
      · exact hb'
      · exact (List.mem_erase_of_ne (fun e => hnd.1 (by rw [← e]; exact hbl))).mpr hb'
    obtain ⟨i1, i2⟩ := ih _ h2 hnd.2 hmem
    refine ⟨⟨h1, i1⟩, ?_⟩
    rw [List.flatMap_cons, run_append, i2, h3]
    split
    · rename_i he
      apply List.filter_congr
      intro x _
      by_cases hx : x = a
      · subst hx; simp [he]
      · simp [hx]
    · rename_i he
      have hn := h.nodup pt
      rw [hn.erase_eq_filter, List.filter_filter]
      apply List.filter_congr
      intro x _
      by_cases hx : x = a
      · subst hx; simp [he]
      · simp [hx]

/-- C56: a loop `for a in space.get_agents(pt)` that moves each agent away from `pt`, removes it, or leaves it alone, as it likes, visits all of the agents
that were at `pt`, each once, and ends; afterwards exactly those that it left alone are at `pt`. This is so in every space with multiple occupancy, whatever
its borders, after every history that adds no agent twice. -/
theorem C56_usual_partial (c : Cfg P) (hc : c.single = false) (zero : P) (ops : List (Op P)) (ha : AddsOnlyNew [] ops) (pt : P) (body : Nat → List (Op P))
    (hb : ∀ a, Usual c pt a (body a)) :
    let h := (Hp.empty zero).run c ops
    ∃ l, (h.step c (.getAgents pt)).2 = .agents l ∧ l.Nodup ∧ ∃ h', (∀ f, l.length < f → forAgents c body f h pt = .done h' l) ∧
      (h'.step c (.getAgents pt)).2 = .agents (l.filter fun a => (body a).isEmpty) := by
  intro h
  obtain ⟨ok, e⟩ := Hp.history_spec hc zero ops
  obtain ⟨t, ht⟩ := run_coupled (coupled_empty c zero) ops ha
  have hocc : Occ c (step c (run c (Sp.empty zero) ops).1 (.getAgents pt)).1 := Occ.step ⟨t, ht⟩ _ (fun b e => by cases e)
  have key := usual_considerate hc hb _ _ hocc (hocc.nodup pt) (fun a h => h)
  obtain ⟨l, hl, hnd, h', hf, hs⟩ := C56_loop_partial c hc zero ops ha pt body (by
    intro s l hs hl
    subst hs
    simp only [agentsAt, step] at hl
    injection hl with hl
    subst hl
    exact key.1)
  refine ⟨l, hl, hnd, h', hf, ?_⟩
  have hr := Hp.run_spec ok hc (.getAgents pt :: l.flatMap body)
  refine Eq.trans (hs [] (.getAgents pt)) (Eq.trans (Hp.step_spec hr.1 hc (.getAgents pt)).2 ?_)
  have hl' : l = (run c (Sp.empty zero) ops).1.loc pt := by
    have h1 := (Hp.step_spec ok hc (.getAgents pt)).2
    rw [show (Hp.run c (Hp.empty zero) ops) = h from rfl, hl] at h1
    simp only [Space.step] at h1
    injection h1 with h1
    rw [h1, show h.abs = _ from e]
  rw [hr.2]
  have hrun : (Space.run c h.abs (.getAgents pt :: l.flatMap body)).1.loc pt = l.filter fun a => (body a).isEmpty := by
    rw [show h.abs = _ from e]
    rw [show Op.getAgents pt :: l.flatMap body = [Op.getAgents pt] ++ l.flatMap body from rfl, run_append]
    have k2 := key.2
    rw [show ((step c (run c (Sp.empty zero) ops).1 (.getAgents pt)).1.loc pt) = l from hl'.symm] at k2
    refine Eq.trans k2 ?_
    apply List.filter_congr
    intro x hx
    simp [hx]
  exact congrArg Res.agents hrun

/-! ### Examples and violations -/

/-- A grid with multiple occupancy and sticky borders, and three agents at one of its locations. -/
def iterGrid : Cfg Pt := grid ⟨0, 10, 0, 10, 0, 0⟩ false false
def three : List (Op Pt) := [.add 1, .add 2, .add 3, .move 1 ⟨1, 1, 0⟩, .move 2 ⟨1, 1, 0⟩, .move 3 ⟨1, 1, 0⟩]

/-- What a loop visits, and how it ends: `some true` if it ends, `some false` if it uses an erased node. -/
def Out.summary : Out P → List Nat × Option Bool
  | .done _ v => (v, some true)
  | .dangling v => (v, some false)
  | .more v => (v, none)

/-- The loop body moves agents 1 and 3 away and leaves 2 alone. -/
example : AddsOnlyNew [] three ∧
    (∀ a, Usual iterGrid ⟨1, 1, 0⟩ a (if a = 2 then [] else [.move a ⟨5, 5, 0⟩])) ∧
    (forAgents iterGrid (fun a => if a = 2 then [] else [.move a ⟨5, 5, 0⟩]) 4 ((Hp.empty ⟨0, 0, 0⟩).run iterGrid three) ⟨1, 1, 0⟩).summary = ([1, 2, 3], some true) := by
  refine ⟨by simp [three, AddsOnlyNew], fun a => ?_, by decide +kernel⟩
  by_cases h : a = 2
  · left; simp [h]
  · right; right
    exact ⟨⟨5, 5, 0⟩, by simp [h], fun w => by show sticky _ _ ≠ _; decide⟩

/-- C56 is violated: a loop whose body moves the agent away that would be visited next uses memory that has been freed. -/
theorem C56_violation_next :
    (forAgents iterGrid (fun a => if a = 1 then [.move 2 ⟨5, 5, 0⟩] else []) 9 ((Hp.empty ⟨0, 0, 0⟩).run iterGrid three) ⟨1, 1, 0⟩).summary = ([1], some false) := by
  decide +kernel

/-- C56 is violated: an agent that comes to the location while the last agent is visited is not visited, but one that comes earlier is. -/
theorem C56_violation_arrival :
    let ops : List (Op Pt) := .add 4 :: three
    (forAgents iterGrid (fun a => if a = 3 then [.move 4 ⟨1, 1, 0⟩] else []) 9 ((Hp.empty ⟨0, 0, 0⟩).run iterGrid ops) ⟨1, 1, 0⟩).summary = ([1, 2, 3], some true) ∧
    (forAgents iterGrid (fun a => if a = 2 then [.move 4 ⟨1, 1, 0⟩] else []) 9 ((Hp.empty ⟨0, 0, 0⟩).run iterGrid ops) ⟨1, 1, 0⟩).summary = ([1, 2, 3, 4], some true) := by
  intro ops
  refine ⟨?_, ?_⟩ <;> decide +kernel

/-- The loop of `C56_violation_endless` after any number of rounds: agent `a` is next, `b` follows. -/
structure Turn (h : Hp Pt) (l x y a b : Nat) : Prop where
  ha : h.agents a = some (some ⟨1, 1, 0⟩)
  hb : h.agents b = some (some ⟨1, 1, 0⟩)
  hab : a ≠ b
  map1 : h.map ⟨1, 1, 0⟩ = some l
  map5 : h.map ⟨5, 5, 0⟩ = none
  cells : h.cells l = [(x, a), (y, b)]
  hx : x < h.nodes
  hy : y < h.nodes
  hl : l < h.lists

def awayAndBack (a : Nat) : List (Op Pt) := [.move a ⟨5, 5, 0⟩, .move a ⟨1, 1, 0⟩]

theorem Turn.next {h : Hp Pt} {l x y a b : Nat} (t : Turn h l x y a b) : ∃ z, Turn (h.run iterGrid (awayAndBack a)) l y z b a := by
  obtain ⟨ha, hb, hab, map1, map5, cells, hx, hy, hl⟩ := t
  have e5 : ∀ w, iterGrid.tr ⟨5, 5, 0⟩ w = ⟨5, 5, 0⟩ := fun w => by show sticky _ _ = _; decide
  have e1 : ∀ w, iterGrid.tr ⟨1, 1, 0⟩ w = ⟨1, 1, 0⟩ := fun w => by show sticky _ _ = _; decide
  have hne : l ≠ h.lists := by omega
  have hne' : h.lists ≠ l := by omega
  have hba : b ≠ a := fun e => hab e.symm
  have s1 : (h.step iterGrid (.move a ⟨5, 5, 0⟩)).1 =
      { agents := upd h.agents a (some (some ⟨5, 5, 0⟩)), map := upd h.map ⟨5, 5, 0⟩ (some h.lists),
        cells := upd (upd h.cells h.lists [(h.nodes, a)]) l [(y, b)], lists := h.lists + 1, nodes := h.nodes + 1, wpt := ⟨5, 5, 0⟩ } := by
    simp [Hp.step, Hp.move, ha, e5, Hp.put, map5, Hp.rem, upd, map1, hne, cells, hba]
  refine ⟨h.nodes + 1, ?_⟩
  simp only [Hp.run, awayAndBack, List.foldl_cons, List.foldl_nil]
  rw [s1]
  have s2 : (Hp.step iterGrid
      { agents := upd h.agents a (some (some ⟨5, 5, 0⟩)), map := upd h.map ⟨5, 5, 0⟩ (some h.lists),
        cells := upd (upd h.cells h.lists [(h.nodes, a)]) l [(y, b)], lists := h.lists + 1, nodes := h.nodes + 1, wpt := ⟨5, 5, 0⟩ } (.move a ⟨1, 1, 0⟩)).1 =
      { agents := upd (upd h.agents a (some (some ⟨5, 5, 0⟩))) a (some (some ⟨1, 1, 0⟩)), map := upd (upd h.map ⟨5, 5, 0⟩ (some h.lists)) ⟨5, 5, 0⟩ none,
        cells := upd (upd (upd (upd h.cells h.lists [(h.nodes, a)]) l [(y, b)]) l [(y, b), (h.nodes + 1, a)]) h.lists [], lists := h.lists + 1, nodes := h.nodes + 2,
        wpt := ⟨1, 1, 0⟩ } := by
    simp [Hp.step, Hp.move, e1, Hp.put, Hp.rem, upd, map1, hne, hne', hba]
  rw [s2]
  constructor <;> simp [upd, hb, hba, map1, hne, hab] <;> omega

theorem Turn.endless : ∀ (f : Nat) {h : Hp Pt} {l x y a b : Nat}, Turn h l x y a b → ∀ v, ∃ v', loop iterGrid awayAndBack f h l (some x) v = .more (v ++ v') ∧ v'.length = f := by
  intro f
  induction f with
  | zero => intro h l x y a b _ v; exact ⟨[], by simp [loop], rfl⟩
  | succ f ih =>
    intro h l x y a b t v
    obtain ⟨z, t'⟩ := t.next
    obtain ⟨v', e, hv⟩ := ih t' (v ++ [a])
    refine ⟨a :: v', ?_, by simp [hv]⟩
    simp only [loop, t.cells, after, first]
    simp only [if_true, List.head?_cons, Option.map_some]
    rw [e]; simp

/-- C56 is violated: with two agents at a location, a loop over them that moves each of them away and back again never ends: for every `f` it visits (at least)
`f` agents. -/
theorem C56_violation_endless (f : Nat) :
    let h := (Hp.empty ⟨0, 0, 0⟩).run iterGrid [.add 1, .add 2, .move 1 ⟨1, 1, 0⟩, .move 2 ⟨1, 1, 0⟩]
    ∃ v, forAgents iterGrid (fun a => [.move a ⟨5, 5, 0⟩, .move a ⟨1, 1, 0⟩]) f h ⟨1, 1, 0⟩ = .more v ∧ v.length = f := by
  intro h
  have t : Turn (h.step iterGrid (.getAgents ⟨1, 1, 0⟩)).1 1 0 1 1 2 := by
    constructor <;> decide +kernel
  obtain ⟨v, e, hv⟩ := t.endless f []
  refine ⟨v, ?_, hv⟩
  exact e

theorem visitAll_spec (pre l : List (Nat × Nat)) (hnd : ((pre ++ l).map (·.1)).Nodup) (f : Nat) (hf : l.length < f) : visitAll (pre ++ l) f (first l) = l.map (·.2) := by
  induction l generalizing pre f with
  | nil =>
    cases f with
    | zero => rfl
    | succ f => rfl
  | cons x l ih =>
    obtain ⟨k, a⟩ := x
    cases f with
    | zero => simp at hf
    | succ f =>
      have hk : k ∉ pre.map (·.1) := by
        rw [List.map_append, List.nodup_append] at hnd
        exact fun hm => hnd.2.2 k hm k (by simp) rfl
      rw [show first ((k, a) :: l) = some k from rfl]
      simp only [visitAll, after_append hk, List.map_cons]
      have := ih (pre ++ [(k, a)]) (by simpa using hnd) f (by simp at hf; omega)
      rw [List.append_assoc, List.singleton_append] at this
      rw [this]

/-- C56 is violated: two nested loops over the same result of `get_agents`, in whatever space and after whatever history, visit the pairs with the first of the
agents only, because both loops have the same iterator. -/
theorem C56_violation_nested (c : Cfg P) (zero : P) (ops : List (Op P)) (pt : P) :
    let l := ((Hp.empty zero).run c ops).cells (((Hp.empty zero).run c ops).getAll pt)
    ∀ f, 1 < f → nested l f (first l) = match l.map (·.2) with
      | [] => []
      | a :: as => (a :: as).map fun b => (a, b) := by
  intro l f hf
  have ok : ((Hp.empty zero).run c ops).Ok := by
    unfold Hp.run
    have : ∀ (ops : List (Op P)) (h : Hp P), h.Ok → (ops.foldl (fun h o => (h.step c o).1) h).Ok := by
      intro ops
      induction ops with
      | nil => intro h o; exact o
      | cons op os ih => intro h o; exact ih _ (o.step c op)
    exact this ops _ (Hp.Ok.empty zero)
  have hnd : (l.map (·.1)).Nodup := ok.nodup _
  have hv := visitAll_spec [] l hnd (l.length + 1) (by omega)
  rw [List.nil_append] at hv
  obtain ⟨f, rfl⟩ : ∃ g, f = g + 2 := ⟨f - 2, by omega⟩
  generalize l = l at *
  cases l with
  | nil => rfl
  | cons x l =>
    obtain ⟨k, a⟩ := x
    rw [show first ((k, a) :: l) = some k from rfl]
    have ha : after k ((k, a) :: l) = some (a, first l) := by simp [after]
    simp only [nested, ha, List.append_nil]
    rw [hv]
    rfl

example : ((Hp.empty ⟨0, 0, 0⟩).run iterGrid three).cells (((Hp.empty ⟨0, 0, 0⟩).run iterGrid three).getAll ⟨1, 1, 0⟩) = [(0, 1), (1, 2), (2, 3)] ∧
    nested [(0, 1), (1, 2), (2, 3)] 9 (some 0) = [(1, 1), (1, 2), (1, 3)] := by
  refine ⟨?_, ?_⟩ <;> decide +kernel

end Repast.Space
