import Verif.Space.Props
import Verif.Context.Dict

/-
C19: locations survive a checkpoint round trip. Model of checkpoint.py:303-336.

`save_space` does not store coordinates but the numpy array of the space's own point object of each agent (spacemodule.cpp:178-181, 423-426), which the
space overwrites when the agent moves (grid.h:66, cspace.h:102). A checkpoint contains the values that the arrays have when it is pickled. So the model of a
space is extended by the point objects.

Simplification: the space is that of one rank (`Verif/Space/Model.lean`); `restore_space` on a shared space also notes if a location is outside of the local bounds.
-/
namespace Repast.Checkpoint
open Repast.Dict Repast.Space

variable {P : Type} [DecidableEq P]

/-- A space with its point objects: `obj a` is the one of the agent `a`, if it has a location (`agent_map[a]->pt`, space.h:51-57), `coords` are the contents of the
arrays of all point objects. -/
structure OSp (P : Type) where
  sp : Sp P
  obj : Nat → Nat
  coords : Nat → P
  fresh : Nat

def OSp.empty (zero : P) : OSp P := { sp := Sp.empty zero, obj := fun _ => 0, coords := fun _ => zero, fresh := 0 }

/-- grid.h:60-69, cspace.h:95-107: a move creates the point object of an agent or updates it. The other methods do not change point objects. -/
def ostep (c : Cfg P) (s : OSp P) (o : Op P) : OSp P × Res P :=
  let r := step c s.sp o
  let s' := { s with sp := r.1 }
  (match o with
    | .move a _ =>
      match s.sp.agents a, r.1.agents a with
      | some none, some (some w) => { s' with obj := upd s.obj a s.fresh, coords := upd s.coords s.fresh w, fresh := s.fresh + 1 }
      | some (some _), some (some w) => { s' with coords := upd s.coords (s.obj a) w }
      | _, _ => s'
    | _ => s', r.2)

def orun (c : Cfg P) (s : OSp P) (ops : List (Op P)) : OSp P := ops.foldl (fun s o => (ostep c s o).1) s

/-- checkpoint.py:303-316 `save_space`; `agents` is `context.agents()`. `none`: an agent has no location, and `None` has no attribute `coordinates`. -/
def saveSpace (s : OSp P) (agents : List Nat) : Option (Dict Nat) :=
  agents.foldlM (fun d a => match (s.sp.agents a).getD none with
    | some _ => some (Dict.set d a (s.obj a))
    | none => none) []

/-- Pickling the checkpoint: the contents of the arrays at this moment. -/
def pickle (s : OSp P) (d : Dict Nat) : Dict P := d.map fun e => (e.1, s.coords e.2)

/-- checkpoint.py:318-336 `restore_space`; `none`: an agent of the context has no saved location, or is not in the space. -/
def restoreSpace (c : Cfg P) (s : OSp P) (agents : List Nat) (d : Dict P) : Option (OSp P) :=
  agents.foldlM (fun s a => (Dict.get d a).bind fun p =>
    let r := ostep c s (.move a p)
    match r.2 with
    | .error => none
    | _ => some r.1) s

/-- What `get_location` returns. -/
def OSp.location (s : OSp P) (a : Nat) : Option P := (s.sp.agents a).getD none

/-! ### The point objects -/

structure ObjOk (s : OSp P) : Prop where
  coords : ∀ a p, s.sp.agents a = some (some p) → s.coords (s.obj a) = p ∧ s.obj a < s.fresh
  inj : ∀ a b p q, s.sp.agents a = some (some p) → s.sp.agents b = some (some q) → s.obj a = s.obj b → a = b

theorem ostep_sp (c : Cfg P) (s : OSp P) (o : Op P) : (ostep c s o).1.sp = (step c s.sp o).1 ∧ (ostep c s o).2 = (step c s.sp o).2 := by
  refine ⟨?_, rfl⟩
  unfold ostep
  cases o <;> try rfl
  simp only
  split <;> rfl

theorem orun_sp (c : Cfg P) (s : OSp P) (ops : List (Op P)) : (orun c s ops).sp = (run c s.sp ops).1 := by
  unfold orun
  induction ops generalizing s with
  | nil => rfl
  | cons o os ih => rw [List.foldl_cons, ih, (ostep_sp c s o).1]; rfl

/-- What a step does to the locations. -/
theorem step_agents (c : Cfg P) (s : Sp P) (o : Op P) (a : Nat) :
    (step c s o).1.agents a = s.agents a ∨ o = .add a ∧ (step c s o).1.agents a = some none ∨ o = .remove a ∧ (step c s o).1.agents a = none ∨
    ∃ pt, o = .move a pt ∧ s.agents a ≠ none ∧ (step c s o).1.agents a = some (some (c.tr pt s.wpt)) := by
  cases o with
  | add b =>
    by_cases e : a = b
    · subst e; exact .inr (.inl ⟨rfl, by simp [step, add, upd]⟩)
    · exact .inl (by simp [step, add, upd, e])
  | remove b =>
    simp only [step, remove]
    split
    · exact .inl rfl
    · by_cases e : a = b
      · subst e; exact .inr (.inr (.inl ⟨rfl, by simp [upd]⟩))
      · exact .inl (by simp [upd, e])
    · by_cases e : a = b
      · subst e; exact .inr (.inr (.inl ⟨rfl, by simp [upd]⟩))
      · exact .inl (by simp [upd, e])
  | move b pt =>
    simp only [step, move]
    split
    · exact .inl rfl
    · rename_i cur hc
      split
      · exact .inl rfl
      · split
        · exact .inl rfl
        · by_cases e : a = b
          · subst e; exact .inr (.inr (.inr ⟨pt, rfl, by simp [hc], by simp [upd]⟩))
          · exact .inl (by simp [upd, e])
  | getAgent _ => exact .inl rfl
  | getAgents _ => exact .inl rfl
  | getLocation _ => exact .inl rfl
  | contains _ => exact .inl rfl

theorem objOk_step {c : Cfg P} {s : OSp P} (h : ObjOk s) (o : Op P) : ObjOk (ostep c s o).1 := by
  have keep : ∀ o : Op P, (∀ a pt, o ≠ .move a pt) → ∀ a p, (step c s.sp o).1.agents a = some (some p) → s.sp.agents a = some (some p) := by
    intro o ho a p hp
    rcases step_agents c s.sp o a with h1 | ⟨-, h1⟩ | ⟨-, h1⟩ | ⟨pt, h1, -⟩
    · rw [← h1]; exact hp
    · rw [h1] at hp; cases hp
    · rw [h1] at hp; cases hp
    · exact absurd h1 (ho a pt)
  have easy : (∀ a pt, o ≠ .move a pt) → ObjOk { s with sp := (step c s.sp o).1 } := fun ho =>
    { coords := fun a p hp => h.coords a p (keep o ho a p hp), inj := fun a b p q hp hq => h.inj a b p q (keep o ho a p hp) (keep o ho b q hq) }
  cases o with
  | move a pt =>
    have other : ∀ b, b ≠ a → (step c s.sp (.move a pt)).1.agents b = s.sp.agents b := by
      intro b hb
      rcases step_agents c s.sp (.move a pt) b with h1 | ⟨h1, -⟩ | ⟨h1, -⟩ | ⟨pt', h1, -⟩
      · exact h1
      · cases h1
      · cases h1
      · cases h1; exact absurd rfl hb
    unfold ostep
    simp only
    split
    · rename_i w h1 h2
      constructor
      · intro b p hb
        by_cases e : b = a
        · subst e
          simp only at hb
          rw [h2] at hb
          simp only [Option.some.injEq] at hb
          subst hb
          simp [upd]
        · simp only at hb
          rw [other b e] at hb
          have := h.coords b p hb
          have hne : s.obj b ≠ s.fresh := Nat.ne_of_lt this.2
          simp only [upd, e, if_false, hne, if_false]
          exact ⟨this.1, Nat.lt_succ_of_lt this.2⟩
      · intro b b' p q hb hb' ho
        simp only at hb hb' ho
        by_cases e : b = a <;> by_cases e' : b' = a
        · rw [e, e']
        · rw [other b' e'] at hb'
          have := h.coords b' q hb'
          simp only [upd, e, e', if_true, if_false] at ho
          omega
        · rw [other b e] at hb
          have := h.coords b p hb
          simp only [upd, e, e', if_true, if_false] at ho
          omega
        · rw [other b e] at hb
          rw [other b' e'] at hb'
          simp only [upd, e, e', if_false] at ho
          exact h.inj b b' p q hb hb' ho
    · rename_i p0 w h1 h2
      constructor
      · intro b p hb
        by_cases e : b = a
        · subst e
          simp only at hb
          rw [h2] at hb
          simp only [Option.some.injEq] at hb
          subst hb
          simp only [upd, if_true]
          exact ⟨trivial, (h.coords b p0 h1).2⟩
        · simp only at hb
          rw [other b e] at hb
          have hne : s.obj b ≠ s.obj a := fun he => e (h.inj b a p p0 hb h1 he)
          simp only [upd, hne, if_false]
          exact h.coords b p hb
      · intro b b' p q hb hb' ho
        simp only at hb hb' ho
        have hb0 : ∃ p, s.sp.agents b = some (some p) := by
          by_cases e : b = a
          · exact ⟨p0, e ▸ h1⟩
          · exact ⟨p, other b e ▸ hb⟩
        have hb0' : ∃ p, s.sp.agents b' = some (some p) := by
          by_cases e : b' = a
          · exact ⟨p0, e ▸ h1⟩
          · exact ⟨q, other b' e ▸ hb'⟩
        obtain ⟨p1, hp1⟩ := hb0
        obtain ⟨q1, hq1⟩ := hb0'
        exact h.inj b b' p1 q1 hp1 hq1 ho
    · rename_i n1 n2
      have hsame : ∀ b p, (step c s.sp (.move a pt)).1.agents b = some (some p) → s.sp.agents b = some (some p) := by
        intro b p hb
        by_cases e : b = a
        · subst e
          cases hc : s.sp.agents b with
          | none =>
            rcases step_agents c s.sp (.move b pt) b with h1 | ⟨h1, -⟩ | ⟨h1, -⟩ | ⟨pt', -, h1, -⟩
            · rw [← hc, ← h1]; exact hb
            · cases h1
            · cases h1
            · exact absurd hc h1
          | some q =>
            cases q with
            | none => exact absurd hb (n1 p hc)
            | some q => exact absurd hb (n2 q p hc)
        · rw [← other b e]; exact hb
      exact { coords := fun b p hb => h.coords b p (hsame b p hb), inj := fun b b' p q hb hb' => h.inj b b' p q (hsame b p hb) (hsame b' q hb') }
  | add a => exact easy (by simp)
  | remove a => exact easy (by simp)
  | getAgent _ => exact easy (by simp)
  | getAgents _ => exact easy (by simp)
  | getLocation _ => exact easy (by simp)
  | contains _ => exact easy (by simp)

theorem ObjOk.run {c : Cfg P} {s : OSp P} (h : ObjOk s) (ops : List (Op P)) : ObjOk (orun c s ops) := by
  unfold orun
  induction ops generalizing s with
  | nil => exact h
  | cons o os ih => exact ih (objOk_step h o)

omit [DecidableEq P] in
theorem ObjOk.empty (zero : P) : ObjOk (OSp.empty zero) := ⟨by simp [OSp.empty, Sp.empty], by simp [OSp.empty, Sp.empty]⟩

/-! ### Saving -/

omit [DecidableEq P] in
/-- What is saved, if the checkpoint is pickled before anything else happens. -/
theorem saved {s : OSp P} (h : ObjOk s) (agents : List Nat) (hl : ∀ a ∈ agents, (s.location a).isSome = true) :
    ∃ d, saveSpace s agents = some d ∧ ∀ a ∈ agents, Dict.get (pickle s d) a = s.location a := by
  have key : ∀ (l : List Nat) (d : Dict Nat), (∀ a ∈ l, (s.location a).isSome = true) → (∀ a i, Dict.get d a = some i → some (s.coords i) = s.location a) →
      ∃ d', l.foldlM (fun d a => match (s.sp.agents a).getD none with
        | some _ => some (Dict.set d a (s.obj a))
        | none => none) d = some d' ∧ (∀ a i, Dict.get d' a = some i → some (s.coords i) = s.location a) ∧
        ∀ a, (Dict.get d a).isSome = true ∨ a ∈ l → (Dict.get d' a).isSome = true := by
    intro l
    induction l with
    | nil => intro d _ hd; exact ⟨d, rfl, hd, by intro a ha; simpa using ha⟩
    | cons a l ih =>
      intro d hl hd
      obtain ⟨p, hp⟩ := Option.isSome_iff_exists.1 (hl a (by simp))
      have hp' : s.sp.agents a = some (some p) := by
        unfold OSp.location at hp
        cases hc : s.sp.agents a with
        | none => rw [hc] at hp; cases hp
        | some q => rw [hc] at hp; simp only [Option.getD_some] at hp; rw [hp]
      obtain ⟨d', h1, h2, h3⟩ := ih (Dict.set d a (s.obj a)) (fun x hx => hl x (List.mem_cons_of_mem _ hx)) (by
        intro x i hx
        rw [get_set] at hx
        split at hx
        · rename_i e
          cases hx; subst e
          rw [(h.coords a p hp').1, hp]
        · exact hd x i hx)
      refine ⟨d', ?_, h2, ?_⟩
      · rw [List.foldlM_cons, hp']; exact h1
      · intro x hx
        apply h3
        rw [get_set]
        by_cases e : a = x
        · simp [e]
        · rw [if_neg e]
          rcases hx with hx | hx
          · exact .inl hx
          · rcases List.mem_cons.1 hx with hx | hx
            · exact absurd hx.symm e
            · exact .inr hx
  obtain ⟨d, h1, h2, h3⟩ := key agents [] hl (by simp)
  refine ⟨d, h1, ?_⟩
  intro a ha
  obtain ⟨i, hi⟩ := Option.isSome_iff_exists.1 (h3 a (.inr ha))
  have : Dict.get (pickle s d) a = (Dict.get d a).map s.coords := by
    unfold pickle
    generalize d = d
    induction d with
    | nil => rfl
    | cons e d ih =>
      rw [List.map_cons, get_cons, get_cons]
      simp only
      split
      · rfl
      · exact ih
  rw [this, hi, Option.map_some]
  exact h2 a i hi

/-! ### Restoring -/

/-- Restoring into a space that contains the agents, without locations. -/
theorem restored {c : Cfg P} {Good : P → Prop} (L : Nat → P) (d : Dict P) (hT : ∀ a w, Good w → c.tr (L a) w = L a) (hG : ∀ a, Good (L a)) :
    ∀ (l : List Nat) (s : OSp P), l.Nodup → (∀ a ∈ l, Dict.get d a = some (L a)) → (∀ a ∈ l, s.sp.agents a = some none) → Good s.sp.wpt →
    (c.single = true → ∀ a ∈ l, s.sp.loc (L a) = []) → (c.single = true → ∀ a ∈ l, ∀ b ∈ l, L a = L b → a = b) →
    ∃ s', restoreSpace c s l d = some s' ∧ (∀ a, s'.sp.agents a = if a ∈ l then some (some (L a)) else s.sp.agents a) ∧
      ∀ p, s'.sp.loc p = s.sp.loc p ++ l.filter (fun a => decide (L a = p)) := by
  intro l
  induction l with
  | nil => intro s _ _ _ _ _ _; exact ⟨s, rfl, by simp, by simp⟩
  | cons a l ih =>
    intro s hn hd ha hw hs hi
    rw [List.nodup_cons] at hn
    have htr := hT a s.sp.wpt hw
    have hput : put c s.sp.loc a (L a) = some (upd s.sp.loc (L a) (s.sp.loc (L a) ++ [a])) := by
      unfold put
      split
      · rename_i h1
        rw [if_pos (hs h1 a (by simp)), hs h1 a (by simp)]; rfl
      · rfl
    have hstep : step c s.sp (.move a (L a)) =
        ({ s.sp with wpt := L a, agents := upd s.sp.agents a (some (some (L a))), loc := upd s.sp.loc (L a) (s.sp.loc (L a) ++ [a]) }, .loc (some (L a))) := by
      simp only [step, move, ha a (by simp), htr]
      rw [if_neg (by simp)]
      simp only [hput]
    have h1 := ostep_sp c s (.move a (L a))
    rw [hstep] at h1
    obtain ⟨s', h2, h3, h4⟩ := ih (ostep c s (.move a (L a))).1 hn.2 (fun x hx => hd x (List.mem_cons_of_mem _ hx))
      (by
        intro x hx
        rw [h1.1]
        have : x ≠ a := by rintro rfl; exact hn.1 hx
        simp only [upd, this, if_false]
        exact ha x (List.mem_cons_of_mem _ hx))
      (by rw [h1.1]; exact hG a)
      (by
        intro hc x hx
        rw [h1.1]
        have : L x ≠ L a := by
          intro e
          have := hi hc x (List.mem_cons_of_mem _ hx) a (by simp) e
          subst this; exact hn.1 hx
        simp only [upd, this, if_false]
        exact hs hc x (List.mem_cons_of_mem _ hx))
      (fun hc x hx y hy => hi hc x (List.mem_cons_of_mem _ hx) y (List.mem_cons_of_mem _ hy))
    refine ⟨s', ?_, ?_, ?_⟩
    · unfold restoreSpace at h2 ⊢
      rw [List.foldlM_cons, hd a (by simp)]
      have e : (ostep c s (.move a (L a))).2 = .loc (some (L a)) := h1.2
      simp only [Option.bind_some, e]
      exact h2
    · intro x
      rw [h3, h1.1]
      by_cases e : x = a
      · subst e; simp [upd, hn.1]
      · simp [upd, e]
    · intro p
      rw [h4, h1.1]
      simp only [upd]
      by_cases e : L a = p
      · subst e; simp
      · rw [if_neg (fun e' => e e'.symm)]; simp [e]

theorem addAll_sp (c : Cfg P) : ∀ (l : List Nat) (s : OSp P),
    (∀ a, (orun c s (l.map .add)).sp.agents a = if a ∈ l then some none else s.sp.agents a) ∧
    (orun c s (l.map .add)).sp.loc = s.sp.loc ∧ (orun c s (l.map .add)).sp.wpt = s.sp.wpt := by
  intro l
  induction l with
  | nil => intro s; simp [orun]
  | cons a l ih =>
    intro s
    have h := ih (ostep c s (.add a)).1
    have h1 : (ostep c s (.add a)).1.sp = add s.sp a := rfl
    have h2 : orun c s ((a :: l).map .add) = orun c (ostep c s (.add a)).1 (l.map .add) := rfl
    rw [h2]
    refine ⟨?_, h.2.1.trans (by rw [h1]; rfl), h.2.2.trans (by rw [h1]; rfl)⟩
    intro x
    rw [h.1, h1]
    by_cases e : x = a
    · subst e; simp [add, upd]
    · simp [add, upd, e]

/-- The round trip, for all spaces in which a location is not changed by the borders. -/
theorem round_trip {c : Cfg P} {Good : P → Prop} {zero : P} (T : P → P) (hT : ∀ p w, Good w → c.tr p w = T p) (hG : ∀ p, Good (T p)) (hz : Good zero)
    (hid : ∀ p, T (T p) = T p)
    (ops : List (Op P)) (hq : ∀ o ∈ ops, ∀ p, o.queried = some p → Good p)
    (agents : List Nat) (hl : ∀ a ∈ agents, ((orun c (OSp.empty zero) ops).location a).isSome = true)
    (agents' : List Nat) (hn : agents'.Nodup) (hsub : ∀ a ∈ agents', a ∈ agents) :
    let s := orun c (OSp.empty zero) ops
    ∃ d s', saveSpace s agents = some d ∧ restoreSpace c (orun c (OSp.empty zero) (agents'.map .add)) agents' (pickle s d) = some s' ∧
      (∀ a ∈ agents', s'.location a = s.location a) ∧
      (∀ a, a ∉ agents' → s'.location a = none) ∧
      ∀ p, s'.sp.loc p = agents'.filter (fun a => decide (s.location a = some p)) := by
  intro s
  have hok : ObjOk s := (ObjOk.empty zero).run ops
  obtain ⟨d, hd, hg⟩ := saved hok agents hl
  have hsp : s.sp = (run c (Sp.empty zero) ops).1 := orun_sp c (OSp.empty zero) ops
  -- all locations come from the borders
  have himg : ∀ (ops : List (Op P)) (t : Sp P), (∀ o ∈ ops, ∀ p, o.queried = some p → Good p) → Good t.wpt → (∀ a p, t.agents a = some (some p) → T p = p) →
      ∀ a p, (run c t ops).1.agents a = some (some p) → T p = p := by
    intro ops
    induction ops with
    | nil => intro t _ _ h; exact h
    | cons o os ih =>
      intro t hq hw h a p hp
      have hgood : ∀ a p, t.agents a = some (some p) → Good p := fun a p hp => h a p hp ▸ hG p
      have hst := step_good T hT hG (hq o (by simp)) hw hgood
      refine ih (step c t o).1 (fun o ho => hq o (List.mem_cons_of_mem _ ho)) hst.1 ?_ a p hp
      intro b q hb
      rcases step_agents c t o b with h1 | ⟨-, h1⟩ | ⟨-, h1⟩ | ⟨pt, -, -, h1⟩
      · exact h b q (h1 ▸ hb)
      · rw [h1] at hb; cases hb
      · rw [h1] at hb; cases hb
      · rw [h1] at hb
        simp only [Option.some.injEq] at hb
        rw [← hb, hT pt _ hw, hid]
  have hfix : ∀ a p, s.sp.agents a = some (some p) → T p = p := by
    rw [hsp]; exact himg ops _ hq hz (by simp [Sp.empty])
  have hagents : ∀ a ∈ agents', ∃ p, s.sp.agents a = some (some p) ∧ s.location a = some p := by
    intro a ha
    obtain ⟨p, hp⟩ := Option.isSome_iff_exists.1 (hl a (hsub a ha))
    refine ⟨p, ?_, hp⟩
    have hp' : (s.sp.agents a).getD none = some p := hp
    cases hc : s.sp.agents a with
    | none => rw [hc] at hp'; cases hp'
    | some q => rw [hc, Option.getD_some] at hp'; rw [hp']
  let L : Nat → P := fun a => T ((s.location a).getD zero)
  have hL : ∀ a ∈ agents', s.location a = some (L a) := by
    intro a ha
    obtain ⟨p, h1, h2⟩ := hagents a ha
    show s.location a = some (T ((s.location a).getD zero))
    rw [h2, Option.getD_some, hfix a p h1]
  have hfresh := addAll_sp c agents' (OSp.empty zero)
  obtain ⟨s', h1, h2, h3⟩ := restored (c := c) (Good := Good) L (pickle s d) (fun a w hw => by rw [hT _ w hw, hid]) (fun a => hG _) agents'
    (orun c (OSp.empty zero) (agents'.map .add)) hn
    (fun a ha => by rw [hg a (hsub a ha), hL a ha])
    (fun a ha => by rw [hfresh.1, if_pos ha])
    (by rw [hfresh.2.2]; exact hz)
    (fun _ a _ => by rw [hfresh.2.1]; rfl)
    (by
      intro hc a ha b hb e
      have halone := (run_alone hc (s := Sp.empty zero) ⟨by simp [Sp.empty]⟩ ops)
      rw [← hsp] at halone
      obtain ⟨p, h1, h2⟩ := hagents a ha
      obtain ⟨q, h3, h4⟩ := hagents b hb
      have e1 : p = L a := by have := hL a ha; rw [h2] at this; simpa using this
      have e2 : q = L b := by have := hL b hb; rw [h4] at this; simpa using this
      have hpq : p = q := by rw [e1, e2, e]
      subst hpq
      have l1 := halone.alone a p h1
      have l2 := halone.alone b p h3
      rw [l1] at l2
      simpa using l2)
  refine ⟨d, s', hd, h1, ?_, ?_, ?_⟩
  · intro a ha
    show (s'.sp.agents a).getD none = _
    rw [h2, if_pos ha, hL a ha]; rfl
  · intro a ha
    show (s'.sp.agents a).getD none = _
    rw [h2, if_neg ha, hfresh.1, if_neg ha]; rfl
  · intro p
    rw [h3, hfresh.2.1]
    show [] ++ _ = _
    rw [List.nil_append]
    apply List.filter_congr
    intro a ha
    rw [hL a ha]
    simp

/-- C19, sticky borders: after any history of a grid, if every agent of the context has a location and the checkpoint is pickled before the next move, `restore_space`
puts each agent of the restored context (`agents'`, in any order) to its location; nobody else is in the new grid. Missing (`_partial`): agents without a location
(`C19_violation_unplaced`), and moves before the checkpoint is pickled (`C19_violation_moved`). -/
theorem C19_sticky_partial (b : Box) (single : Bool) (ops : List (Op Pt)) (agents : List Nat)
    (hl : ∀ a ∈ agents, ((orun (grid b false single) (OSp.empty ⟨0, 0, 0⟩) ops).location a).isSome = true)
    (agents' : List Nat) (hn : agents'.Nodup) (hsub : ∀ a ∈ agents', a ∈ agents) :
    let c := grid b false single
    let s := orun c (OSp.empty ⟨0, 0, 0⟩) ops
    ∃ d s', saveSpace s agents = some d ∧ restoreSpace c (orun c (OSp.empty ⟨0, 0, 0⟩) (agents'.map .add)) agents' (pickle s d) = some s' ∧
      (∀ a ∈ agents', s'.location a = s.location a) ∧
      (∀ a, a ∉ agents' → s'.location a = none) ∧
      ∀ p, s'.sp.loc p = agents'.filter (fun a => decide (s.location a = some p)) := by
  refine round_trip (c := grid b false single) (Good := fun _ => True) (sticky b) (fun p w _ => rfl) (fun _ => trivial) trivial ?_ ops (fun _ _ _ _ => trivial)
    agents hl agents' hn hsub
  intro p
  have : ∀ lo hi v, sticky1 lo hi (sticky1 lo hi v) = sticky1 lo hi v := by
    intro lo hi v; simp only [sticky1, Int.max_def, Int.min_def]; split <;> split <;> (try split) <;> (try split) <;> omega
  simp only [sticky, this]

/-- C19, periodic borders, with the same restrictions and if no `get_agent`/`get_agents` call was given a point with a non-zero coordinate in a dimension that the grid
does not have (`C19_violation_periodic`). -/
theorem C19_periodic_partial {b : Box} (hb : b.Ok) (single : Bool) (ops : List (Op Pt)) (hq : ∀ o ∈ ops, ∀ p, o.queried = some p → Flat b p) (agents : List Nat)
    (hl : ∀ a ∈ agents, ((orun (grid b true single) (OSp.empty ⟨0, 0, 0⟩) ops).location a).isSome = true)
    (agents' : List Nat) (hn : agents'.Nodup) (hsub : ∀ a ∈ agents', a ∈ agents) :
    let c := grid b true single
    let s := orun c (OSp.empty ⟨0, 0, 0⟩) ops
    ∃ d s', saveSpace s agents = some d ∧ restoreSpace c (orun c (OSp.empty ⟨0, 0, 0⟩) (agents'.map .add)) agents' (pickle s d) = some s' ∧
      (∀ a ∈ agents', s'.location a = s.location a) ∧
      (∀ a, a ∉ agents' → s'.location a = none) ∧
      ∀ p, s'.sp.loc p = agents'.filter (fun a => decide (s.location a = some p)) := by
  have h0 : Flat b ⟨0, 0, 0⟩ := ⟨fun _ => rfl, fun _ => rfl⟩
  refine round_trip (c := grid b true single) (Good := Flat b) (fun p => periodic b p ⟨0, 0, 0⟩) (fun p w hw => (periodic_flat hb p w hw).1)
    (fun p => (periodic_flat hb p ⟨0, 0, 0⟩ h0).2) h0 ?_ ops hq agents hl agents' hn hsub
  intro p
  have hin := C28_periodic hb p ⟨0, 0, 0⟩
  have key : ∀ lo ext v, 0 < ext → periodic1 lo (lo + ext) ext (periodic1 lo (lo + ext) ext v) = periodic1 lo (lo + ext) ext v :=
    fun lo ext v h => periodic1_inside h (periodic1_wrapped h v).1
  simp only [periodic, Box.xmax, Box.ymax, Box.zmax]
  split
  · rename_i h
    simp only [key _ _ _ h.1, key _ _ _ h.2.1, key _ _ _ h.2.2]
  · split
    · rename_i h
      simp only [key _ _ _ h.1, key _ _ _ h.2]
    · simp only [key _ _ _ hb.x]

/-! ### Violations -/

/-- C19 is violated: saving a grid fails if an agent of the context has no location in it. -/
theorem C19_violation_unplaced : ∃ ops, saveSpace (orun (grid ⟨0, 10, 0, 10, 0, 0⟩ false false) (OSp.empty ⟨0, 0, 0⟩) ops) [1, 2] = none :=
  ⟨[.add 1, .add 2, .move 1 ⟨3, 4, 0⟩], by decide +kernel⟩

/-- C19 is violated: an agent that moves between `save_space` and the pickling of the checkpoint is restored at the later location. -/
theorem C19_violation_moved : let c := grid ⟨0, 10, 0, 10, 0, 0⟩ false false
    let s := orun c (OSp.empty ⟨0, 0, 0⟩) [.add 1, .move 1 ⟨3, 4, 0⟩]
    let s' := orun c s [.move 1 ⟨5, 6, 0⟩]
    s.location 1 = some ⟨3, 4, 0⟩ ∧
    ((saveSpace s [1]).bind fun d => (restoreSpace c (orun c (OSp.empty ⟨0, 0, 0⟩) [.add 1]) [1] (pickle s' d)).map fun t => t.location 1) = some (some ⟨5, 6, 0⟩) := by
  decide +kernel

/-- C19 is violated in a 2-dimensional periodic grid: after a query at `(1, 1, 5)` an agent is at `(2, 2, 5)` (see `C30_violation`), and is restored at `(2, 2, 0)`. -/
theorem C19_violation_periodic : let c := grid ⟨0, 10, 0, 10, 0, 0⟩ true false
    let s := orun c (OSp.empty ⟨0, 0, 0⟩) [.add 1, .getAgents ⟨1, 1, 5⟩, .move 1 ⟨2, 2, 0⟩]
    s.location 1 = some ⟨2, 2, 5⟩ ∧
    ((saveSpace s [1]).bind fun d => (restoreSpace c (orun c (OSp.empty ⟨0, 0, 0⟩) [.add 1]) [1] (pickle s d)).map fun t => t.location 1) = some (some ⟨2, 2, 0⟩) := by
  decide +kernel

/-- The hypotheses hold in a grid with two agents at the same location, one of which has moved; the restored context has them in the other order. -/
example : let s := orun (grid ⟨0, 10, 0, 10, 0, 0⟩ true false) (OSp.empty ⟨0, 0, 0⟩) [.add 1, .add 2, .move 1 ⟨13, 4, 0⟩, .move 2 ⟨5, 5, 0⟩, .move 2 ⟨3, -6, 0⟩]
    (∀ a ∈ [1, 2], (s.location a).isSome = true) ∧ s.location 2 = some ⟨3, 4, 0⟩ ∧ [2, 1].Nodup ∧ ∀ a ∈ [2, 1], a ∈ [1, 2] := by decide +kernel

end Repast.Checkpoint
