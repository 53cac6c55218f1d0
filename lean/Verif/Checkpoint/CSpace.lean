import Verif.Checkpoint.Space
import Verif.Context.CSpaceView

/-
C19 for continuous spaces of two and three dimensions. Model of checkpoint.py:303-336 over the space of `Verif/Tree/Model.lean`, which has the point objects of the
agents (`CS.pts`). Coordinates are exact (see DESIGN.md); the space is that of one rank.
-/
namespace Repast.Checkpoint
open Repast.Dict Repast.Space Repast.Tree

/-- checkpoint.py:303-316 `save_space`: the arrays of the point objects. `none`: an agent has no location. -/
def csaveSpace (s : CS) (agents : List Nat) : Option (Dict Nat) :=
  agents.foldlM (fun d a => match (s.agents a).getD none with
    | some k => some (Dict.set d a k)
    | none => none) []

/-- Pickling the checkpoint: the contents of the arrays at this moment. -/
def cpickle (s : CS) (d : Dict Nat) : Dict CPt := d.map fun e => (e.1, s.pts e.2)

/-- The body of the loop checkpoint.py:333-336: `none` if there is no saved location, or an exception. -/
def crestoreOne (c : CCfg) (d : Dict CPt) (s : CS) (a : Nat) : Option CS :=
  (Dict.get d a).bind fun p => (cstep c s (.move a p)).bind fun r =>
    match r.2 with
    | .error => none
    | _ => some r.1

/-- checkpoint.py:318-336 `restore_space`. -/
def crestoreSpace (c : CCfg) (s : CS) (agents : List Nat) (d : Dict CPt) : Option CS := agents.foldlM (crestoreOne c d) s

/-- What `get_location` returns. -/
def clocation (s : CS) (a : Nat) : Option CPt := ((s.agents a).getD none).map s.pts

theorem clocation_base (s : CS) (a : Nat) : clocation s a = (s.base.agents a).getD none := by
  unfold clocation CS.base
  cases h : s.agents a <;> simp [h]

/-- What is saved, if the checkpoint is pickled before anything else happens. -/
theorem csaved (s : CS) (agents : List Nat) (hl : ∀ a ∈ agents, (clocation s a).isSome = true) :
    ∃ d, csaveSpace s agents = some d ∧ ∀ a ∈ agents, Dict.get (cpickle s d) a = clocation s a := by
  have key : ∀ (l : List Nat) (d : Dict Nat), (∀ a ∈ l, (clocation s a).isSome = true) → (∀ a i, Dict.get d a = some i → some (s.pts i) = clocation s a) →
      ∃ d', l.foldlM (fun d a => match (s.agents a).getD none with
        | some k => some (Dict.set d a k)
        | none => none) d = some d' ∧ (∀ a i, Dict.get d' a = some i → some (s.pts i) = clocation s a) ∧
        ∀ a, (Dict.get d a).isSome = true ∨ a ∈ l → (Dict.get d' a).isSome = true := by
    intro l
    induction l with
    | nil => intro d _ hd; exact ⟨d, rfl, hd, by intro a ha; simpa using ha⟩
    | cons a l ih =>
      intro d hl hd
      obtain ⟨k, hk⟩ : ∃ k, (s.agents a).getD none = some k := by
        have := hl a (by simp)
        unfold clocation at this
        rw [Option.isSome_map] at this
        exact Option.isSome_iff_exists.1 this
      obtain ⟨d', h1, h2, h3⟩ := ih (Dict.set d a k) (fun x hx => hl x (List.mem_cons_of_mem _ hx)) (by
        intro x i hx
        rw [get_set] at hx
        split at hx
        · rename_i e
          cases hx; subst e
          unfold clocation
          rw [hk]; rfl
        · exact hd x i hx)
      refine ⟨d', ?_, h2, ?_⟩
      · rw [List.foldlM_cons, hk]; exact h1
      · intro x hx
        apply h3
        rw [get_set]
        by_cases e : a = x
        · simp [e]
        · rw [if_neg e]
          rcases hx with hx | hx
          · exact .inl hx
          · rcases List.mem_cons.1 hx with hx | hx
            · exact absurd hx.symm e
            · exact .inr hx
  obtain ⟨d, h1, h2, h3⟩ := key agents [] hl (by simp)
  refine ⟨d, h1, ?_⟩
  intro a ha
  obtain ⟨i, hi⟩ := Option.isSome_iff_exists.1 (h3 a (.inr ha))
  have : Dict.get (cpickle s d) a = (Dict.get d a).map s.pts := by
    unfold cpickle
    generalize d = d
    induction d with
    | nil => rfl
    | cons e d ih =>
      rw [List.map_cons, get_cons, get_cons]
      simp only
      split
      · rfl
      · exact ih
  rw [this, hi, Option.map_some]
  exact h2 a i hi

/-- Restoring is what it is in the model of the grids. -/
theorem crestore_base {c : CCfg} (hd : c.bounds.numDims ≠ 1) (d : Dict CPt) : ∀ (l : List Nat) (s : CS) (o o' : OSp CPt), Addr s → s.base = o.sp →
    restoreSpace c.base o l d = some o' → ∃ s', crestoreSpace c s l d = some s' ∧ s'.base = o'.sp := by
  intro l
  induction l with
  | nil =>
    intro s o o' _ he h
    obtain rfl : o = o' := by simpa [restoreSpace] using h
    exact ⟨s, rfl, he⟩
  | cons a l ih =>
    intro s o o' ha he h
    unfold restoreSpace at h
    rw [List.foldlM_cons] at h
    obtain ⟨o1, h1, h2⟩ := Option.bind_eq_some_iff.1 h
    obtain ⟨p, hp, h1⟩ := Option.bind_eq_some_iff.1 h1
    obtain ⟨s1, r, e1, e2, e3, e4⟩ := cstep_base ha hd (.move a p)
    have hs := ostep_sp c.base o (.move a p)
    rw [he, ← hs.1] at e3
    rw [he, ← hs.2] at e4
    have h1' : o1 = (ostep c.base o (.move a p)).1 ∧ r ≠ .error := by
      simp only at h1
      rw [← e4] at h1
      split at h1
      · cases h1
      · rename_i hne
        exact ⟨(Option.some.inj h1).symm, hne⟩
    obtain ⟨s', f1, f2⟩ := ih s1 o1 o' e2 (by rw [e3, h1'.1]) h2
    refine ⟨s', ?_, f2⟩
    unfold crestoreSpace
    rw [List.foldlM_cons]
    have : crestoreOne c d s a = some s1 := by
      unfold crestoreOne
      rw [hp, Option.bind_some, e1, Option.bind_some]
      simp only
      split
      · exact absurd rfl h1'.2
      · rfl
    rw [this]
    exact f1

/-- The round trip, for all continuous spaces in which a location is not changed by the borders. -/
theorem cround_trip {c : CCfg} (hd : c.bounds.numDims ≠ 1) {Good : CPt → Prop} (T : CPt → CPt) (hT : ∀ p w, Good w → c.tr p w = T p) (hG : ∀ p, Good (T p)) (hz : Good ⟨0, 0, 0⟩)
    (hid : ∀ p, T (T p) = T p) (ops : List (Op CPt)) (hq : ∀ o ∈ ops, ∀ p, o.queried = some p → Good p) {s : CS} {rs : List (Res CPt)} (hs : crun c (CS.init c) ops = some (s, rs))
    (agents : List Nat) (hl : ∀ a ∈ agents, (clocation s a).isSome = true) (agents' : List Nat) (hn : agents'.Nodup) (hsub : ∀ a ∈ agents', a ∈ agents) :
    ∃ d s0 rs0 s', csaveSpace s agents = some d ∧ crun c (CS.init c) (agents'.map .add) = some (s0, rs0) ∧ crestoreSpace c s0 agents' (cpickle s d) = some s' ∧
      (∀ a ∈ agents', clocation s' a = clocation s a) ∧
      (∀ a, a ∉ agents' → clocation s' a = none) ∧
      ∀ p, s'.loc p = agents'.filter (fun a => decide (clocation s a = some p)) := by
  obtain ⟨s1, rs1, e1, e2, e3, -⟩ := crun_base hd (addr_init c) ops
  rw [hs] at e1
  simp only [Option.some.injEq, Prod.mk.injEq] at e1
  obtain ⟨rfl, rfl⟩ := e1
  obtain ⟨s0, rs0, f1, f2, f3, -⟩ := crun_base hd (addr_init c) (agents'.map .add)
  have hb : s.base = (orun c.base (OSp.empty ⟨0, 0, 0⟩) ops).sp := by rw [orun_sp, e3, base_init]; rfl
  have hb0 : s0.base = (orun c.base (OSp.empty ⟨0, 0, 0⟩) (agents'.map .add)).sp := by rw [orun_sp, f3, base_init]; rfl
  have hloc : ∀ a, (orun c.base (OSp.empty ⟨0, 0, 0⟩) ops).location a = clocation s a := fun a => by
    unfold OSp.location
    rw [clocation_base, hb]
  obtain ⟨d', o', g1, g2, g3, g4, g5⟩ := round_trip (c := c.base) (Good := Good) (zero := ⟨0, 0, 0⟩) T hT hG hz hid ops hq agents
    (fun a ha => by rw [hloc]; exact hl a ha) agents' hn hsub
  obtain ⟨d, h1, h2⟩ := csaved s agents hl
  have hok : ObjOk (orun c.base (OSp.empty (⟨0, 0, 0⟩ : CPt)) ops) := (ObjOk.empty _).run ops
  obtain ⟨d2, k1, k2⟩ := saved hok agents (fun a ha => by rw [hloc]; exact hl a ha)
  rw [g1] at k1
  obtain rfl := Option.some.inj k1
  have hr : restoreSpace c.base (orun c.base (OSp.empty ⟨0, 0, 0⟩) (agents'.map .add)) agents' (cpickle s d) = some o' := by
    rw [← g2]
    have hget : ∀ a ∈ agents', Dict.get (cpickle s d) a = Dict.get (pickle (orun c.base (OSp.empty ⟨0, 0, 0⟩) ops) d') a := fun a ha => by
      rw [h2 a (hsub a ha), k2 a (hsub a ha), hloc]
    unfold restoreSpace
    generalize orun c.base (OSp.empty ⟨0, 0, 0⟩) (agents'.map .add) = o0
    clear g2 g3 g4 g5 hn hsub hb0 f1 f3
    induction agents' generalizing o0 with
    | nil => rfl
    | cons a l ih =>
      rw [List.foldlM_cons, List.foldlM_cons, hget a (by simp)]
      congr 1
      funext x
      exact ih (fun y hy => hget y (List.mem_cons_of_mem _ hy)) x
  obtain ⟨s', m1, m2⟩ := crestore_base hd (cpickle s d) agents' s0 _ o' f2 hb0 hr
  have hloc' : ∀ a, o'.location a = clocation s' a := fun a => by
    unfold OSp.location
    rw [clocation_base, m2]
  refine ⟨d, s0, rs0, s', h1, f1, m1, fun a ha => ?_, fun a ha => ?_, fun p => ?_⟩
  · rw [← hloc', ← hloc]; exact g3 a ha
  · rw [← hloc']; exact g4 a ha
  · have : s'.loc = o'.sp.loc := by rw [← m2]; rfl
    rw [this, g5]
    apply List.filter_congr
    intro a _
    rw [hloc]

/-- C19, continuous spaces of two or three dimensions with sticky borders: after any history, if every agent of the context has a location and the checkpoint is pickled
before the next move, `restore_space` puts each agent of the restored context (`agents'`, in any order) to its location; nobody else is in the new space. Missing
(`_partial`): agents without a location, and moves before the checkpoint is pickled (`C19_violation_continuous`). -/
theorem C19_continuous_sticky_partial (b : Box) (hd : b.numDims ≠ 1) (single : Bool) (thr : Int) (ops : List (Op CPt)) {s : CS} {rs : List (Res CPt)}
    (hs : crun (cspace b false single thr) (CS.init (cspace b false single thr)) ops = some (s, rs))
    (agents : List Nat) (hl : ∀ a ∈ agents, (clocation s a).isSome = true) (agents' : List Nat) (hn : agents'.Nodup) (hsub : ∀ a ∈ agents', a ∈ agents) :
    let c := cspace b false single thr
    ∃ d s0 rs0 s', csaveSpace s agents = some d ∧ crun c (CS.init c) (agents'.map .add) = some (s0, rs0) ∧ crestoreSpace c s0 agents' (cpickle s d) = some s' ∧
      (∀ a ∈ agents', clocation s' a = clocation s a) ∧
      (∀ a, a ∉ agents' → clocation s' a = none) ∧
      ∀ p, s'.loc p = agents'.filter (fun a => decide (clocation s a = some p)) := by
  refine cround_trip (c := cspace b false single thr) hd (Good := fun _ => True) (csticky b) (fun p w _ => rfl) (fun _ => trivial) trivial ?_ ops (fun _ _ _ _ => trivial)
    hs agents hl agents' hn hsub
  intro p
  have : ∀ lo hi v, csticky1 lo hi (csticky1 lo hi v) = csticky1 lo hi v := by
    intro lo hi v; unfold csticky1; grind
  simp only [csticky, this]

theorem cpt_ext {p q : CPt} (h1 : p.x = q.x) (h2 : p.y = q.y) (h3 : p.z = q.z) : p = q := by
  cases p; cases q; simp only at h1 h2 h3; rw [h1, h2, h3]

/-- C19, continuous spaces of two or three dimensions with periodic borders, with the same restrictions, and if no `get_agent`/`get_agents` call was given a point with a
non-zero coordinate in a dimension that the space does not have. -/
theorem C19_continuous_periodic_partial {b : Box} (hb : b.Ok) (hd : b.numDims ≠ 1) (single : Bool) (thr : Int) (ops : List (Op CPt))
    (hq : ∀ o ∈ ops, ∀ p, o.queried = some p → Context.CFlat b p) {s : CS} {rs : List (Res CPt)}
    (hs : crun (cspace b true single thr) (CS.init (cspace b true single thr)) ops = some (s, rs))
    (agents : List Nat) (hl : ∀ a ∈ agents, (clocation s a).isSome = true) (agents' : List Nat) (hn : agents'.Nodup) (hsub : ∀ a ∈ agents', a ∈ agents) :
    let c := cspace b true single thr
    ∃ d s0 rs0 s', csaveSpace s agents = some d ∧ crun c (CS.init c) (agents'.map .add) = some (s0, rs0) ∧ crestoreSpace c s0 agents' (cpickle s d) = some s' ∧
      (∀ a ∈ agents', clocation s' a = clocation s a) ∧
      (∀ a, a ∉ agents' → clocation s' a = none) ∧
      ∀ p, s'.loc p = agents'.filter (fun a => decide (clocation s a = some p)) := by
  have h0 : Context.CFlat b ⟨0, 0, 0⟩ := ⟨fun _ => rfl, fun _ => rfl⟩
  refine cround_trip (c := cspace b true single thr) hd (Good := Context.CFlat b) (fun p => cperiodic b p ⟨0, 0, 0⟩) (fun p w hw => (Context.cperiodic_flat hb p w hw).1)
    (fun p => (Context.cperiodic_flat hb p ⟨0, 0, 0⟩ h0).2) h0 ?_ ops hq hs agents hl agents' hn hsub
  intro p
  have key : ∀ lo ext v, 0 < ext → cperiodic1 lo (lo + ext) ext (cperiodic1 lo (lo + ext) ext v) = cperiodic1 lo (lo + ext) ext v := fun lo ext v h => by
    obtain ⟨h1, h2, -⟩ := cperiodic1_spec (lo := lo) h v
    exact Context.cperiodic1_inside h h1 h2
  obtain ⟨e1, e2, e3⟩ := cperiodic_spec hb p ⟨0, 0, 0⟩
  obtain ⟨f1, f2, f3⟩ := cperiodic_spec hb (cperiodic b p ⟨0, 0, 0⟩) ⟨0, 0, 0⟩
  refine cpt_ext ?_ ?_ ?_
  · rw [f1, e1]; exact key _ _ _ hb.x
  · rw [f2, e2]
    split
    · exact key _ _ _ (by assumption)
    · rfl
  · rw [f3, e3]
    split
    · exact key _ _ _ (by assumption)
    · rfl

/-- C19 is violated for continuous spaces as for grids: an agent that moves between `save_space` and the pickling of the checkpoint is restored at the later location. -/
theorem C19_violation_continuous : let c := cspace ⟨0, 10, 0, 10, 0, 0⟩ false false 100
    ((crun c (CS.init c) [.add 1, .move 1 ⟨3 / 2, 4, 0⟩]).bind fun r => (csaveSpace r.1 [1]).bind fun d => (crun c r.1 [.move 1 ⟨5, 6, 0⟩]).bind fun r' =>
      (crun c (CS.init c) [.add 1]).bind fun q => (crestoreSpace c q.1 [1] (cpickle r'.1 d)).map fun t => (clocation r.1 1, clocation t 1)) =
    some (some ⟨3 / 2, 4, 0⟩, some ⟨5, 6, 0⟩) := by decide +kernel

/-- The hypotheses hold in a space with two agents at the same location, one of which has moved; the restored context has them in the other order. -/
example : let c := cspace ⟨0, 10, 0, 10, 0, 0⟩ true false 100
    ((crun c (CS.init c) [.add 1, .add 2, .move 1 ⟨27 / 2, 4, 0⟩, .move 2 ⟨5, 5, 0⟩, .move 2 ⟨7 / 2, -6, 0⟩]).map fun r => [clocation r.1 1, clocation r.1 2]) =
      some [some ⟨7 / 2, 4, 0⟩, some ⟨7 / 2, 4, 0⟩] ∧ c.bounds.numDims ≠ 1 ∧ [2, 1].Nodup ∧ ∀ a ∈ [2, 1], a ∈ [1, 2] := by decide +kernel

end Repast.Checkpoint
