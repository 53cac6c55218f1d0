import Verif.Context.Views
import Verif.Util.List

/-! C21, C22 and C23: the views of the local agents of a context, and the reference counts of its ghosts. -/
namespace Repast.Context
open Repast.Dict Repast.Space Repast.Topology

variable {S P Q : Type} [Proj P Q] (ty : Nat → Nat)

/-! ### C21 and C22: the history of one rank -/

/-- Adding an agent, removing it, and an agent moving to another rank (an arriving agent is added). -/
inductive LOp (S : Type) where
  | add (u : Nat) (s : S)
  | remove (u : Nat)
  | leave (u : Nat)

/-- One operation on the context; one that raises an exception has no effect. -/
def lstep (c : Cx S P) : LOp S → Cx S P
  | .add u s => c.add ty u s
  | .remove u => (c.remove ty u).getD c
  | .leave u => ((c.take ty u).map (·.1)).getD c

def lrun (c : Cx S P) (ops : List (LOp S)) : Cx S P := ops.foldl (lstep ty) c

/-- Specification: the local agents after a history, in the order in which they were added. -/
def population (ops : List (LOp S)) : List Nat :=
  ops.foldl (fun l o => match o with
    | .add u _ => if u ∈ l then l else l ++ [u]
    | .remove u => l.filter (fun v => decide (v ≠ u))
    | .leave u => l.filter (fun v => decide (v ≠ u))) []

/-- Specification: the state with which an agent was last added. -/
def lastAdded (ops : List (LOp S)) (u : Nat) : Option S :=
  ops.foldl (fun x o => match o with
    | .add v s => if v = u then some s else x
    | _ => x) none

theorem delType_isSome {c : Cx S P} (h : Views ty c) (u : Nat) : (delType c.byType (ty u) u).isSome = true ↔ u ∈ keys c.locals := by
  unfold delType
  split
  · rename_i hg
    simp only [Option.isSome_none, Bool.false_eq_true, false_iff]
    intro hu
    have := h.has u hu
    simp [hg] at this
  · rename_i l hg
    have hs := h.same _ _ hg
    have : u ∈ l ↔ u ∈ keys c.locals := by rw [hs]; simp
    split
    · rename_i hu; simp [this.1 hu]
    · rename_i hu; simp [mt this.2 hu]

theorem lrun_inv (gs : List P) (r : Nat) (ops : List (LOp S)) :
    let c := lrun ty (Cx.start r gs) ops
    Views ty c ∧ keys c.locals = population ops ∧ ∀ u ∈ population ops, get c.locals u = lastAdded ops u := by
  refine Repast.snoc_induction (P := fun ops => Views ty (lrun ty (Cx.start r gs) ops) ∧ keys (lrun ty (Cx.start r gs) ops).locals = population ops ∧
    ∀ u ∈ population ops, get (lrun ty (Cx.start r gs) ops).locals u = lastAdded ops u) ?_ ?_ ops
  · exact ⟨Views.init ty r gs, rfl, by simp [population]⟩
  · intro ops o ⟨hv, hk, hs⟩
    have e : lrun ty (Cx.start r gs) (ops ++ [o]) = lstep ty (lrun ty (Cx.start r gs) ops) o := by unfold lrun; rw [List.foldl_append]; rfl
    have ep : population (ops ++ [o]) = (match (generalizing := false) o with
      | .add u _ => if u ∈ population ops then population ops else population ops ++ [u]
      | .remove u => (population ops).filter (fun v => decide (v ≠ u))
      | .leave u => (population ops).filter (fun v => decide (v ≠ u))) := by unfold population; rw [List.foldl_append]; rfl
    have es : ∀ u, lastAdded (ops ++ [o]) u = (match (generalizing := false) o with | .add v s => if v = u then some s else lastAdded ops u | _ => lastAdded ops u) := by
      intro u; unfold lastAdded; rw [List.foldl_append]; rfl
    rw [e]
    generalize lrun ty (Cx.start r gs) ops = c at hv hk hs
    have hgone : ∀ u, u ∉ keys c.locals → keys c.locals = (population ops).filter (fun v => decide (v ≠ u)) := by
      intro u hu
      rw [← hk, List.filter_eq_self.2]
      intro v hv
      simp only [ne_eq, decide_not, Bool.not_eq_eq_eq_not, Bool.not_true, decide_eq_false_iff_not]
      rintro rfl; exact hu hv
    cases o with
    | add u s =>
      refine ⟨hv.add ty u s, ?_, ?_⟩
      · simp only [lstep, Cx.add, Cx.projsAdd, keys_set, hk, ep]
      · intro v hvm
        simp only [lstep, Cx.add, Cx.projsAdd, get_set, es]
        split
        · rfl
        · rename_i hne
          refine hs v ?_
          rw [ep] at hvm
          simp only [] at hvm
          split at hvm
          · exact hvm
          · rcases List.mem_append.1 hvm with h | h
            · exact h
            · simp only [List.mem_singleton] at h; exact absurd h.symm hne
    | remove u =>
      simp only [lstep]
      cases hr : c.remove ty u with
      | none =>
        have hu : u ∉ keys c.locals := by
          intro hu
          obtain ⟨d, hd⟩ := Option.isSome_iff_exists.1 ((delType_isSome ty hv u).2 hu)
          simp [Cx.remove, hd] at hr
        refine ⟨hv, ?_, ?_⟩
        · rw [ep]; exact hgone u hu
        · intro v hvm
          rw [ep] at hvm
          simpa [es] using hs v (List.mem_filter.1 hvm).1
      | some c' =>
        have hv' := hv.remove ty hr
        refine ⟨hv', ?_, ?_⟩
        · unfold Cx.remove at hr
          simp only [] at hr
          obtain ⟨d, hd, rfl⟩ := Option.map_eq_some_iff.1 hr
          simp [Cx.projsRemove, keys_del, hk, ep]
        · intro v hvm
          rw [ep] at hvm
          obtain ⟨h1, h2⟩ := List.mem_filter.1 hvm
          unfold Cx.remove at hr
          simp only [] at hr
          obtain ⟨d, hd, rfl⟩ := Option.map_eq_some_iff.1 hr
          simp only [ne_eq, decide_not, Bool.not_eq_eq_eq_not, Bool.not_true, decide_eq_false_iff_not] at h2
          simp only [Option.getD_some, Cx.projsRemove, get_del, es]
          rw [if_neg (fun x => h2 x.symm)]
          exact hs v h1
    | leave u =>
      simp only [lstep]
      cases hr : c.take ty u with
      | none =>
        have hu : u ∉ keys c.locals := by
          intro hu
          obtain ⟨d, hd⟩ := Option.isSome_iff_exists.1 ((delType_isSome ty hv u).2 hu)
          obtain ⟨s, hs⟩ := (mem_keys _ _).1 hu
          simp [Cx.take, hd, hs] at hr
        refine ⟨hv, ?_, ?_⟩
        · rw [ep]; exact hgone u hu
        · intro v hvm
          rw [ep] at hvm
          simpa [es] using hs v (List.mem_filter.1 hvm).1
      | some x =>
        have hv' := hv.take ty hr
        unfold Cx.take at hr
        obtain ⟨s, hg, hr⟩ := Option.bind_eq_some_iff.1 hr
        obtain ⟨d, hd, rfl⟩ := Option.map_eq_some_iff.1 hr
        refine ⟨hv', ?_, ?_⟩
        · simp [keys_del, hk, ep]
        · intro v hvm
          rw [ep] at hvm
          obtain ⟨h1, h2⟩ := List.mem_filter.1 hvm
          simp only [ne_eq, decide_not, Bool.not_eq_eq_eq_not, Bool.not_true, decide_eq_false_iff_not] at h2
          simp only [Option.map_some, Option.getD_some, get_del, es]
          rw [if_neg (fun x => h2 x.symm)]
          exact hs v h1

/-- C21: `agents()`, `agent(uid)` and `size()` describe the agents that were added and neither removed nor moved away, each with the state it was added
with (no agent changes its state in these histories). `gs` are the projections of the context. -/
theorem C21_population (gs : List P) (r : Nat) (ops : List (LOp S)) (shuf : List Nat → List Nat) :
    let c := lrun ty (Cx.start r gs) ops
    c.agents shuf none none false = some (population ops) ∧
    (∀ u, c.agent u = if u ∈ population ops then lastAdded ops u else none) ∧
    (∀ u ∈ population ops, (lastAdded ops u).isSome = true) ∧
    c.size [] = some [(none, (population ops).length)] := by
  obtain ⟨hv, hk, hs⟩ := lrun_inv ty gs r ops
  intro c
  refine ⟨by simp only [Cx.agents, Cx.listOf]; rw [← hk]; rfl, ?_, ?_, ?_⟩
  · intro u
    unfold Cx.agent
    split
    · exact hs u (by assumption)
    · rename_i hu
      rw [get_eq_none, hk]; exact hu
  · intro u hu
    rw [← hs u hu, get_isSome, hk]; exact hu
  · simp only [Cx.size]
    rw [← hk]
    simp [keys, c]

/-- C21: whatever the model did - adding, removing, moving agents between ranks, requesting ghosts, synchronizing, with any number of grids - the views of
the local agents of a rank describe the same agents. Missing (`_partial`): `agents(type)` and `size` raise an exception
instead of describing no agents for a type no agent of which was ever added (`C21_violation_type`); contexts with networks. -/
theorem C21_views_partial {n : Nat} (grids : List P) (ops : List (WOp S P Q)) (w : World S P) (hw : wrun ty n (World.start grids) ops = some w) {r : Nat} (hr : r < n)
    (shuf : List Nat → List Nat) :
    ∃ all, (w r).agents shuf none none false = some all ∧ all.Nodup ∧
      (∀ u, ((w r).agent u).isSome = true ↔ u ∈ all) ∧
      (∀ t, (w r).containsType t = true ↔ ∃ u ∈ all, ty u = t) ∧
      (∀ t, (w r).agents shuf (some t) none false = some (all.filter fun u => decide (ty u = t)) ∨
        (w r).agents shuf (some t) none false = none ∧ ∀ u ∈ all, ty u ≠ t) ∧
      (w r).size [] = some [(none, all.length)] ∧
      (∀ t, (w r).size [t] = some [(some t, (all.filter fun u => decide (ty u = t)).length)] ∨ (w r).size [t] = none ∧ ∀ u ∈ all, ty u ≠ t) := by
  have h := Views.run ty hw r hr
  have hnone : ∀ t, get (w r).byType t = none → ∀ u ∈ keys (w r).locals, ty u ≠ t := by
    rintro t hg u hu rfl
    have := h.has u hu
    simp [hg] at this
  refine ⟨keys (w r).locals, rfl, h.ok, ?_, ?_, ?_, ?_, ?_⟩
  · intro u; exact get_isSome _ _
  · intro t
    unfold Cx.containsType
    cases hg : get (w r).byType t with
    | none =>
      simp only [Bool.false_eq_true, false_iff]
      rintro ⟨u, hu, he⟩; exact hnone t hg u hu he
    | some l =>
      simp only [decide_eq_true_eq, gt_iff_lt]
      rw [h.same _ _ hg, List.length_pos_iff_exists_mem]
      simp [and_comm]
  · intro t
    simp only [Cx.agents, Cx.listOf]
    cases hg : get (w r).byType t with
    | none => exact .inr ⟨rfl, hnone t hg⟩
    | some l => left; simp [h.same _ _ hg]
  · simp [Cx.size, keys]
  · intro t
    simp only [Cx.size]
    cases hg : get (w r).byType t with
    | none => right; exact ⟨by simp [hg], hnone t hg⟩
    | some l => left; simp [hg, ← h.same _ _ hg]

/-- C21 is violated: `contains_type` says that there are no agents of a type, `agents` of that type raises an exception. -/
theorem C21_violation_type : ∃ (ops : List (LOp Nat)), let c := lrun id (Cx.init 0 []) ops
    c.containsType 1 = false ∧ c.agents id (some 1) none false = none ∧ c.size [1] = none :=
  ⟨[.add 0 5], by decide +kernel⟩

/-- A history with agents of two types, in which an agent is removed, added again and moved away; and one of two ranks that exchange agents. -/
example : population (S := Nat) [.add 0 5, .add 1 6, .add 2 7, .remove 0, .add 3 8, .add 0 9, .leave 2, .remove 4] = [1, 3, 0] := by decide
example : (wrun (S := Nat) (· % 2) 2 (World.init []) [.add 0 1 5, .add 1 2 6, .add 1 3 6, .move fun r => if r = 1 then [(3, 0)] else [], .remove 0 1]).map
    (fun w => ((w 0).agents id none none false, (w 1).agents id none none false, (w 0).containsType 0, (w 1).containsType 0)) =
    some (some [3], some [2], false, true) := by decide +kernel

/-- C22: `agents` enumerates the agents of the context exactly once, in the order in which they were added; `agents(type)` those of the type in that order;
with `shuffle` in some other order - any that the random number generator leads to; with `count` the first ones of that sequence. Missing
(`_partial`): `agents(type)` raises an exception for a type that no agent of the history has; the last disjunct only happens in this case. -/
theorem C22_agents_partial (gs : List P) (r : Nat) (ops : List (LOp S)) (shuf : List Nat → List Nat) (hshuf : ∀ l, (shuf l).Perm l) (t : Option Nat)
    (count : Option Nat) (shuffle : Bool) :
    let c := lrun ty (Cx.start r gs) ops
    let wanted := (population ops).filter fun u => match (generalizing := false) t with | none => true | some t => decide (ty u = t)
    (population ops).Nodup ∧
    ((∃ order, c.agents shuf t (count.map Int.ofNat) shuffle = some (match (generalizing := false) count with | some n => order.take n | none => order) ∧
      order.Perm wanted ∧ (shuffle = false → order = wanted)) ∨
    c.agents shuf t (count.map Int.ofNat) shuffle = none ∧ t.isSome = true ∧ wanted = []) := by
  obtain ⟨hv, hk, -⟩ := lrun_inv ty gs r ops
  intro c wanted
  refine ⟨hk ▸ hv.ok, ?_⟩
  have main : ∀ l, c.listOf t = some l → l = wanted →
      ∃ order, c.agents shuf t (count.map Int.ofNat) shuffle = some (match (generalizing := false) count with | some n => order.take n | none => order) ∧
      order.Perm wanted ∧ (shuffle = false → order = wanted) := by
    intro l hl hw
    refine ⟨if shuffle then shuf l else l, ?_, ?_, ?_⟩
    · unfold Cx.agents
      rw [hl]
      cases count <;> cases shuffle <;> simp [pySlice]
    · subst hw
      split
      · exact hshuf _
      · exact .refl _
    · rintro rfl; simp [hw]
  cases t with
  | none => left; exact main _ rfl (by simp only [wanted]; rw [← hk]; exact (List.filter_eq_self.2 (by simp)).symm)
  | some t =>
    cases hg : get c.byType t with
    | some l => left; exact main l hg (by rw [hv.same _ _ hg, hk])
    | none =>
      right
      refine ⟨?_, rfl, ?_⟩
      · unfold Cx.agents
        simp only [Cx.listOf, hg]
        cases count <;> cases shuffle <;> simp
      · simp only [wanted]
        rw [← hk, List.filter_eq_nil_iff]
        intro u hu he
        have := hv.has u hu
        simp only [decide_eq_true_eq] at he
        rw [he, hg] at this
        simp at this

example : (lrun (· % 2) (Cx.init 0 []) [.add 4 (), .add 1 (), .add 2 (), .add 3 (), .remove 4, .add 4 ()]).agents List.reverse (some 0) (some 1) true = some [4] := by
  decide +kernel

/-! ### C23: ghosts -/

/-- The calls that concern the ghosts of a rank: a projection that refers to a ghost (get or create, space.py:178-182), a projection that no longer does,
and a request of the ghost by the user (context.py:430, 468-469). -/
inductive GOp (S : Type) where
  | acquire (u : Nat) (s : S)
  | release (u : Nat)
  | request (u : Nat)

def gstep (c : Cx S P) : GOp S → Option (Cx S P)
  | .acquire u s => some (c.ghostFor u s)
  | .release u => c.removeGhost u
  | .request u => some (c.addReq u)

def acquired (u : Nat) (ops : List (GOp S)) : Nat := ops.countP fun o => match o with | .acquire v _ => decide (v = u) | _ => false
def released (u : Nat) (ops : List (GOp S)) : Nat := ops.countP fun o => match o with | .release v => decide (v = u) | _ => false
def requested (u : Nat) (ops : List (GOp S)) : Bool := ops.any fun o => match o with | .request v => decide (v = u) | _ => false

/-- C23: a ghost is available exactly while more projections referred to it than gave it up. A projection that gives up a ghost that is not
there is an exception, so none does so more often. -/
theorem C23_counted (r : Nat) (gs : List P) (ops : List (GOp S)) (c : Cx S P) (hc : ops.foldlM gstep (Cx.start r gs) = some c) (u : Nat) (hr : requested u ops = false) :
    released u ops ≤ acquired u ops ∧ ((c.ghostAgent u).isSome = true ↔ released u ops < acquired u ops) := by
  suffices h : (u ∉ c.req) ∧ released u ops ≤ acquired u ops ∧ (get c.ghosts u).map (·.ref) = (if released u ops < acquired u ops then some ((acquired u ops : Int) - released u ops) else none) by
    refine ⟨h.2.1, ?_⟩
    unfold Cx.ghostAgent
    have h3 := h.2.2
    cases hg : get c.ghosts u with
    | none => rw [hg] at h3; split at h3 <;> simp_all
    | some g => rw [hg] at h3; split at h3 <;> simp_all
  revert c
  refine Repast.snoc_induction (P := fun ops => requested u ops = false → ∀ c : Cx S P, ops.foldlM gstep (Cx.start r gs) = some c →
    (u ∉ c.req) ∧ released u ops ≤ acquired u ops ∧ (get c.ghosts u).map (·.ref) = (if released u ops < acquired u ops then some ((acquired u ops : Int) - released u ops) else none)) ?_ ?_ ops hr
  · intro _ c hc
    simp only [List.foldlM_nil, Option.pure_def, Option.some.injEq] at hc
    subst hc
    simp [Cx.start, released, acquired]
  · intro ops o ih hr c' hc'
    rw [List.foldlM_append] at hc'
    obtain ⟨c, hc, hc'⟩ := Option.bind_eq_some_iff.1 hc'
    have hr' : requested u ops = false := by
      unfold requested at *
      rw [List.any_append, Bool.or_eq_false_iff] at hr
      exact hr.1
    obtain ⟨h1, h2, h3⟩ := ih hr' c hc
    simp only [List.foldlM_cons, List.foldlM_nil, Option.pure_def, Option.bind_some] at hc'
    have hc' : gstep c o = some c' := by cases hg : gstep c o <;> rw [hg] at hc' <;> simpa using hc'
    cases o with
    | acquire v s =>
      simp only [gstep, Option.some.injEq] at hc'
      have ea : acquired u (ops ++ [.acquire v s]) = acquired u ops + if v = u then 1 else 0 := by simp [acquired, List.countP_append, List.countP_cons]
      have er : released u (ops ++ [.acquire v s]) = released u ops := by simp [released, List.countP_append]
      rw [ea, er]
      subst hc'
      unfold Cx.ghostFor Cx.refGhost Cx.addGhost
      by_cases hv : v = u
      · subst hv
        cases hg : get c.ghosts v with
        | none =>
          simp only [hg, Option.map_none] at h3
          split at h3
          · simp at h3
          · refine ⟨h1, by simp; omega, ?_⟩
            simp only [get_set, if_true, Option.map_some]
            rw [if_pos (by omega)]
            congr 1
            omega
        | some g =>
          simp only [hg, Option.map_some] at h3
          split at h3
          · refine ⟨h1, by simp; omega, ?_⟩
            simp only [get_set, if_true, Option.map_some]
            rw [if_pos (by omega)]
            simp only [Option.some.injEq] at h3
            congr 1
            omega
          · simp at h3
      · simp only [hv, if_false, Nat.add_zero]
        split
        · split
          · exact ⟨h1, h2, by simpa [hv] using h3⟩
          · exact ⟨h1, h2, h3⟩
        · exact ⟨h1, h2, by simpa [hv] using h3⟩
    | release v =>
      have ea : acquired u (ops ++ [.release v]) = acquired u ops := by simp [acquired, List.countP_append]
      have er : released u (ops ++ [.release v]) = released u ops + if v = u then 1 else 0 := by simp [released, List.countP_append, List.countP_cons]
      rw [ea, er]
      simp only [gstep, Cx.removeGhost] at hc'
      by_cases hv : v = u
      · subst hv
        rw [if_neg h1] at hc'
        cases hg : get c.ghosts v with
        | none => rw [hg] at hc'; cases hc'
        | some g =>
          simp only [hg, Option.map_some] at h3 hc'
          split at h3
          · simp only [Option.some.injEq] at h3 hc'
            subst hc'
            refine ⟨h1, by simp; omega, ?_⟩
            by_cases h0 : g.ref - 1 = 0
            · simp only [h0, if_true, get_del, Option.map_none]
              rw [if_neg (by omega)]
            · simp only [h0, if_false, get_set, if_true, Option.map_some]
              rw [if_pos (by omega)]
              congr 1
              omega
          · simp at h3
      · simp only [hv, if_false, Nat.add_zero]
        split at hc'
        · simp only [Option.some.injEq] at hc'; subst hc'; exact ⟨h1, h2, h3⟩
        · split at hc'
          · cases hc'
          · simp only [Option.some.injEq] at hc'
            subst hc'
            refine ⟨h1, h2, ?_⟩
            rw [← h3]
            simp only []
            split <;> simp [hv]
    | request v =>
      have ea : acquired u (ops ++ [.request v]) = acquired u ops := by simp [acquired, List.countP_append]
      have er : released u (ops ++ [.request v]) = released u ops := by simp [released, List.countP_append]
      have hv : v ≠ u := by
        unfold requested at hr
        rw [List.any_append, Bool.or_eq_false_iff] at hr
        simpa using hr.2
      rw [ea, er]
      simp only [gstep, Option.some.injEq, Cx.addReq] at hc'
      subst hc'
      split
      · exact ⟨h1, h2, h3⟩
      · refine ⟨?_, h2, h3⟩
        simp only [List.mem_append, List.mem_singleton, not_or]
        exact ⟨h1, fun x => hv x.symm⟩

/-- C23: a ghost that was requested while it was available stays available, whatever the projections do. -/
theorem C23_requested (c : Cx S P) (u : Nat) (hg : (c.ghostAgent u).isSome = true) (ops : List (GOp S)) (c' : Cx S P)
    (hc : (.request u :: ops).foldlM gstep c = some c') : (c'.ghostAgent u).isSome = true := by
  rw [List.foldlM_cons] at hc
  obtain ⟨c1, h1, hc⟩ := Option.bind_eq_some_iff.1 hc
  refine (foldlM_inv (P := fun x : Cx S P => u ∈ x.req ∧ (x.ghostAgent u).isSome = true) ?_ ops c1 c' ?_ hc).2
  · intro b o b' ⟨hb1, hb2⟩ hf
    unfold Cx.ghostAgent at *
    rw [Option.isSome_map] at *
    cases o with
    | acquire v s =>
      simp only [gstep, Option.some.injEq] at hf
      subst hf
      unfold Cx.ghostFor Cx.refGhost Cx.addGhost
      split
      · split
        · refine ⟨hb1, ?_⟩
          simp only [get_set]; split <;> simp [hb2]
        · exact ⟨hb1, hb2⟩
      · refine ⟨hb1, ?_⟩
        simp only [get_set]; split <;> simp [hb2]
    | release v =>
      simp only [gstep, Cx.removeGhost] at hf
      split at hf
      · simp only [Option.some.injEq] at hf; subst hf; exact ⟨hb1, hb2⟩
      · rename_i hv
        have hne : v ≠ u := by rintro rfl; exact hv hb1
        split at hf
        · cases hf
        · simp only [Option.some.injEq] at hf
          subst hf
          refine ⟨hb1, ?_⟩
          simp only []
          split <;> simp [hne, hb2]
    | request v =>
      simp only [gstep, Option.some.injEq, Cx.addReq] at hf
      subst hf
      split
      · exact ⟨hb1, hb2⟩
      · exact ⟨by simp [hb1], hb2⟩
  · simp only [gstep, Option.some.injEq, Cx.addReq] at h1
    subst h1
    split
    · exact ⟨by assumption, hg⟩
    · exact ⟨by simp, hg⟩

/-- C23: deleting a ghost makes it unavailable, however many projections refer to it. -/
theorem C23_deleted (c c' : Cx S P) (u : Nat) (h : c.deleteGhost u = some c') : c'.ghostAgent u = none ∧ ∀ v, v ≠ u → c'.ghostAgent v = c.ghostAgent v := by
  unfold Cx.deleteGhost at h
  split at h
  · cases h
  · cases h
    unfold Cx.ghostAgent
    refine ⟨by simp, fun v hv => ?_⟩
    simp [Ne.symm hv]

example : ([.acquire 7 1, .acquire 7 1, .acquire 8 2, .release 7, .release 8, .acquire 8 3, .request 8, .release 8, .release 8] : List (GOp Nat)).foldlM gstep
    (Cx.init 0 []) |>.map (fun c => (c.ghostAgent 7, c.ghostAgent 8)) |> (· = some (some 1, some 3)) := by decide +kernel

end Repast.Context
