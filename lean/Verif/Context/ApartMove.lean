import Verif.Context.Apart
import Verif.Context.SumSpace
import Verif.Context.CSpace

/-!
C66 for `move_agents`: if no agent is out of bounds, an agent that is moved is no longer a ghost on the rank that it comes to.
-/
namespace Repast.Context
open Repast.Dict

/-- Adding and removing agents puts nobody out of bounds. -/
class QuietProj (P : Type) {Q : Type} [Proj P Q] : Prop where
  add : ∀ (r : Nat) (p : P) (u : Nat), (∀ v, Proj.oob p v = none) → ∀ v, Proj.oob (Proj.add r p u) v = none
  remove : ∀ (r : Nat) (p : P) (u : Nat), (∀ v, Proj.oob p v = none) → ∀ v, Proj.oob (Proj.remove r p u) v = none
  clear : ∀ (r : Nat) (p : P), (∀ v, Proj.oob p v = none) → ∀ v, Proj.oob (Proj.clear r p) v = none

variable {S P Q : Type} [Proj P Q] {ty : Nat → Nat} {n : Nat}

/-- Specification: no agent of the rank is out of bounds, in any space. -/
def Inside (c : Cx S P) : Prop := ∀ g ∈ c.projs, ∀ u, Proj.oob g.sp u = none

theorem Inside.same {c c' : Cx S P} (h : Inside c) (e : c'.projs = c.projs) : Inside c' := by
  unfold Inside
  rw [e]
  exact h

theorem Inside.set {c : Cx S P} (h : Inside c) {pid : Nat} {g g' : Shared P} (hg : c.projs[pid]? = some g) (hk : (∀ v, Proj.oob g.sp v = none) → ∀ v, Proj.oob g'.sp v = none) :
    Inside { c with projs := c.projs.set pid g' } := by
  intro x hx
  rcases List.mem_or_eq_of_mem_set hx with hx | rfl
  · exact h x hx
  · exact hk (h g (List.mem_of_getElem? hg))

variable [QuietProj P]

theorem Inside.projsAdd {c : Cx S P} (h : Inside c) (u : Nat) : Inside (c.projsAdd u) := by
  intro g hg
  obtain ⟨g0, hg0, rfl⟩ := List.mem_map.1 hg
  exact QuietProj.add _ _ _ (h g0 hg0)

theorem Inside.projsRemove {c : Cx S P} (h : Inside c) (u : Nat) : Inside (c.projsRemove u) := by
  intro g hg
  obtain ⟨g0, hg0, rfl⟩ := List.mem_map.1 hg
  exact QuietProj.remove _ _ _ (h g0 hg0)

theorem Inside.projRemove {c : Cx S P} (h : Inside c) (pid u : Nat) : Inside (c.projRemove pid u) := by
  unfold Cx.projRemove
  split
  · exact h
  · rename_i g hg
    exact h.set hg (QuietProj.remove _ _ _)

theorem Inside.clearOob {c : Cx S P} (h : Inside c) (pid : Nat) : Inside (c.clearOob pid) := by
  unfold Cx.clearOob
  split
  · exact h
  · rename_i g hg
    exact h.set hg (QuietProj.clear _ _)

omit [QuietProj P] in
theorem Inside.clearBuffered {c : Cx S P} (h : Inside c) (pid : Nat) : Inside (c.clearBuffered pid) := by
  unfold Cx.clearBuffered
  split
  · exact h
  · rename_i g hg
    exact h.set hg (fun h => h)

omit [QuietProj P] in
theorem take_projs {c : Cx S P} {u : Nat} {x : Cx S P × S × Option (Dict Int)} (h : c.take ty u = some x) : x.1.projs = c.projs := by
  unfold Cx.take at h
  obtain ⟨s, -, h⟩ := Option.bind_eq_some_iff.1 h
  obtain ⟨d, -, rfl⟩ := Option.map_eq_some_iff.1 h
  rfl

theorem arrive_inside {c : Cx S P} {u : Nat} {s : S} {gh : Option (Dict Int)} {x : Cx S P × Bool} (h : c.arrive ty u s gh = some x) (hc : Inside c) : Inside x.1 := by
  have ha : Inside (c.add ty u s) := Inside.projsAdd (c := { c with locals := Dict.set c.locals u s, byType := addType c.byType (ty u) u }) hc u
  unfold Cx.arrive at h
  simp only at h
  split at h
  · obtain rfl := Option.some.inj h
    exact ha
  · obtain ⟨c1, hc, rfl⟩ := Option.map_eq_some_iff.1 h
    unfold Cx.setGhosted at hc
    split at hc
    · obtain rfl := Option.some.inj hc
      exact ha
    · split at hc
      · obtain rfl := Option.some.inj hc
        exact ha
      · cases hc

theorem sendAway_apart {c : Cx S P} {ms : List (Nat × Nat)} {x : Cx S P × List (Nat × Nat × S × Option (Dict Int))} (h : c.sendAway ty n ms = some x) (hc : NotBothBut [] c ∧ Inside c) :
    NotBothBut [] x.1 ∧ Inside x.1 := by
  unfold Cx.sendAway at h
  refine foldlM_keep (I := fun b : Cx S P × List (Nat × Nat × S × Option (Dict Int)) => NotBothBut [] b.1 ∧ Inside b.1) ?_ h hc
  intro m _ b b' hb hI
  split at hb
  · obtain ⟨t, ht, rfl⟩ := Option.map_eq_some_iff.1 hb
    obtain ⟨h1, h2⟩ := take_dicts ht
    refine ⟨hI.1.mono (fun u hu => ?_) (fun u hu => ?_) (fun _ h => h), Inside.projsRemove (hI.2.same (take_projs ht)) m.1⟩
    · have e : (t.1.projsRemove m.1).locals = t.1.locals := rfl
      rw [e, h1, get_del] at hu
      split at hu
      · cases hu
      · exact hu
    · have e : (t.1.projsRemove m.1).ghosts = t.1.ghosts := rfl
      rw [e, h2] at hu
      exact hu
  · cases hb

omit [QuietProj P] in
theorem deleteGhosts_projs {us : List Nat} {c c' : Cx S P} (h : c.deleteGhosts us = some c') : c'.projs = c.projs := by
  unfold Cx.deleteGhosts at h
  refine foldlM_keep (I := fun b : Cx S P => b.projs = c.projs) ?_ h rfl
  intro u _ b b' hb hI
  unfold Cx.deleteGhost at hb
  split at hb
  · cases hb
  · obtain rfl := Option.some.inj hb
    exact hI

theorem arriveAll_apart {c c' : Cx S P} {ms : List (Nat × S × Option (Dict Int))} (h : c.arriveAll ty ms = some c') (hc : NotBothBut [] c ∧ Inside c) : NotBothBut [] c' ∧ Inside c' := by
  unfold Cx.arriveAll at h
  obtain ⟨x, hx, h⟩ := Option.bind_eq_some_iff.1 h
  have hI : NotBothBut x.2 x.1 ∧ Inside x.1 := by
    refine foldlM_keep (I := fun b : Cx S P × List Nat => NotBothBut b.2 b.1 ∧ Inside b.1) ?_ hx hc
    intro m _ b b' hb hI
    obtain ⟨q, hq, rfl⟩ := Option.map_eq_some_iff.1 hb
    obtain ⟨h1, h2, h3⟩ := arrive_dicts hq
    refine ⟨?_, arrive_inside hq hI.2⟩
    intro u hu hg
    simp only at hu hg ⊢
    rw [h2] at hg
    rw [h1, get_set] at hu
    rw [h3]
    by_cases hm : m.1 = u
    · subst hm
      rw [if_pos hg]
      exact List.mem_append_right _ List.mem_cons_self
    · rw [if_neg hm] at hu
      have := hI.1 u hu hg
      split
      · exact List.mem_append_left _ this
      · exact this
  exact ⟨deleteGhosts_apart h hI.1, hI.2.same (deleteGhosts_projs h)⟩

omit [QuietProj P] in
theorem removeGhost_projs {c c' : Cx S P} {u : Nat} (h : c.removeGhost u = some c') : c'.projs = c.projs := by
  unfold Cx.removeGhost at h
  split at h
  · obtain rfl := Option.some.inj h; rfl
  · split at h
    · cases h
    · obtain rfl := Option.some.inj h; rfl

theorem preSynchAll_inside {c c' : Cx S P} (h : c.preSynchAll = some c') (hc : Inside c) : Inside c' := by
  unfold Cx.preSynchAll at h
  refine foldlM_keep (I := Inside) ?_ h hc
  intro pid _ b b' hb hI
  unfold Cx.preSynch at hb
  split at hb
  · cases hb
  · split at hb
    · obtain ⟨y, hy, rfl⟩ := Option.map_eq_some_iff.1 hb
      refine Inside.clearBuffered (foldlM_keep (I := Inside) ?_ hy hI) pid
      intro u _ z z' hz hI
      exact (hI.projRemove pid u).same (removeGhost_projs hz)
    · obtain rfl := Option.some.inj hb; exact hI

theorem gatherOob_inside {c : Cx S P} {x : Cx S P × List (Nat × OobMsg S Q) × List Nat} (h : c.gatherOob ty n = some x) (hc : Inside c) : x.2.1 = [] ∧ Inside x.1 := by
  unfold Cx.gatherOob at h
  refine foldlM_keep (I := fun b : Cx S P × List (Nat × OobMsg S Q) × List Nat => b.2.1 = [] ∧ Inside b.1) ?_ h ⟨rfl, hc⟩
  intro pid _ b b' hb hI
  obtain ⟨y, hy, rfl⟩ := Option.map_eq_some_iff.1 hb
  have e : b.1.oobList pid (keys c.locals ++ keys c.ghosts) = ([] : List (Nat × Nat × Q)) := by
    unfold Cx.oobList
    split
    · rfl
    · rename_i g hg
      rw [List.filterMap_eq_nil_iff]
      intro u _
      rw [hI.2 g (List.mem_of_getElem? hg) u]
      rfl
  rw [e] at hy
  obtain rfl : b = y := by simpa using hy
  exact ⟨hI.1, hI.2.clearOob pid⟩

/-- Nobody is moved by `_gather_oob_data` and the like. -/
theorem moveOob_inside {w w' : World S P} (h : moveOob ty n false w = some w') (hw : ∀ r, NotBothBut [] (w r) ∧ Inside (w r)) : ∀ r, NotBothBut [] (w' r) := by
  unfold moveOob at h
  simp only at h
  obtain ⟨w1, h1, h2⟩ := Option.bind_eq_some_iff.1 h
  have hout : ∀ k, recv n (fun r => gathered ((w r).gatherOob ty n)) k = [] := by
    intro k
    rw [List.eq_nil_iff_forall_not_mem]
    intro y hy
    obtain ⟨-, hy⟩ := mem_recv.1 hy
    cases hg : (w y.1).gatherOob ty n with
    | none => rw [hg] at hy; cases hy
    | some z =>
      rw [hg] at hy
      have e : gathered (some z) = z.2.1 := rfl
      rw [e, (gatherOob_inside hg (hw y.1).2).1] at hy
      cases hy
  have s1 : ∀ r, NotBothBut [] (w1 r) := by
    intro r
    rcases each_cases h1 r with e | ⟨-, e⟩
    · rw [e]; exact (hw r).1
    · obtain ⟨x, hx, e⟩ := Option.map_eq_some_iff.1 e
      obtain ⟨g1, g2, -⟩ := gatherOob_gathering hx
      rw [← e]
      exact (hw r).1.mono g2 (fun u hu => by rw [g1] at hu; exact hu) (fun _ h => h)
  intro r
  rcases each_cases h2 r with e | ⟨-, e⟩
  · rw [e]; exact s1 r
  · rw [hout r] at e
    obtain ⟨x, hx, e⟩ := Option.bind_eq_some_iff.1 e
    obtain rfl : (w1 r, []) = x := by simpa [Cx.processOob] using hx
    rw [Bool.and_false, if_neg (by decide)] at e
    rw [← Option.some.inj e]
    exact s1 r

/-- C66 (partial) for `move_agents`, with any number of spaces: if no agent is out of bounds, an agent that is moved to a rank is no longer a ghost there, unless a rank sends it as one that is in the
buffer. -/
theorem C66_moved_partial {w w' : World S P} {ms : Nat → List (Nat × Nat)} (hw : NotBoth w) (hin : ∀ r, Inside (w r)) (h : moveAgents ty n ms w = some w') : ∀ r, (w' r).NotBothOrReceived := by
  unfold moveAgents at h
  simp only at h
  obtain ⟨w1, h1, h⟩ := Option.bind_eq_some_iff.1 h
  obtain ⟨w2, h2, h⟩ := Option.bind_eq_some_iff.1 h
  obtain ⟨w3, h3, h⟩ := Option.bind_eq_some_iff.1 h
  obtain ⟨w4, h4, h⟩ := Option.bind_eq_some_iff.1 h
  unfold synchGhosts at h
  obtain ⟨w5, h5, h⟩ := Option.bind_eq_some_iff.1 h
  have s1 : ∀ r, NotBothBut [] (w1 r) ∧ Inside (w1 r) := fun r => by
    rcases each_cases h1 r with e | ⟨-, e⟩
    · rw [e]; exact ⟨(notBoth_iff w).1 hw r, hin r⟩
    · obtain ⟨x, hx, e⟩ := Option.map_eq_some_iff.1 e
      rw [← e]
      exact sendAway_apart hx ⟨(notBoth_iff w).1 hw r, hin r⟩
  have s2 : ∀ r, NotBothBut [] (w2 r) ∧ Inside (w2 r) := fun r => by
    rcases each_cases h2 r with e | ⟨-, e⟩
    · rw [e]; exact s1 r
    · exact arriveAll_apart e (s1 r)
  have s3 : ∀ r, NotBothBut [] (w3 r) ∧ Inside (w3 r) := fun r => by
    rcases each_cases h3 r with e | ⟨-, e⟩
    · rw [e]; exact s2 r
    · exact ⟨preSynchAll_apart e (s2 r).1, preSynchAll_inside e (s2 r).2⟩
  have s5 : ∀ r, NotBothBut [] (w5 r) := updateGhosts_apart h5 (moveOob_inside h4 s3)
  have s6 : ∀ r, (w5 r).NotBothOrReceived := fun r u a b => by
    unfold Cx.ghostAgent at b
    rw [Option.isSome_map] at b
    exact absurd (s5 r u a b) (by simp)
  refine foldlM_keep (I := fun w : World S P => ∀ r, (w r).NotBothOrReceived) ?_ h s6
  intro pid _ v v' hv hI r
  unfold synchGrid at hv
  simp only at hv
  split at hv
  · split at hv
    · rcases each_cases hv r with e | ⟨-, e⟩
      · rw [e]; exact hI r
      · exact foldlM_keep (I := fun c : Cx S P => c.NotBothOrReceived) (fun m _ z z' hz hI => bufferOne_apart hz hI) e (hI r)
    · cases hv
  · obtain rfl := Option.some.inj hv; exact hI r

/-! ### shared grids and continuous spaces, also together -/

theorem upd_quiet {α : Type} {f : Nat → Option α} (h : ∀ v, f v = none) (u v : Nat) : Space.upd f u none v = none := by
  unfold Space.upd
  split
  · rfl
  · exact h v

instance : QuietProj GridSp where
  add _ _ _ h v := h v
  remove _ _ u h v := upd_quiet h u v
  clear _ _ _ _ := rfl

theorem call_quiet {r : Nat} {g : CSpaceSp} {o : Space.Op Tree.CPt} (h : ∀ s, g.st = some s → ∀ x, cdstep g.cfg.space (g.cfg.topo.bounds r) (g.cfg.topo.allBounds r) s o = some x → ∀ v, x.1.oob v = none) (v : Nat) :
    Proj.oob (CSpaceSp.call r g o).1 v = none := by
  unfold CSpaceSp.call
  split
  · rfl
  · rename_i x hx
    obtain ⟨s, hs, hx⟩ := Option.bind_eq_some_iff.1 hx
    exact h s hs x hx v

theorem cspace_quiet {g : CSpaceSp} (h : ∀ v, Proj.oob g v = none) {s : CDSp} (hs : g.st = some s) (v : Nat) : s.oob v = none := by
  have := h v
  simp only [Proj.oob, hs] at this
  exact this

instance : QuietProj CSpaceSp where
  add _ g _ h := call_quiet fun s hs x hx v => by
    simp only [cdstep] at hx
    obtain ⟨y, -, rfl⟩ := Option.map_eq_some_iff.1 hx
    exact cspace_quiet h hs v
  remove _ g u h := call_quiet fun s hs x hx v => by
    obtain ⟨y, -, rfl⟩ := Option.map_eq_some_iff.1 hx
    exact upd_quiet (cspace_quiet h hs) u v
  clear _ g _ v := by
    show ((g.st.map fun s => { s with oob := fun _ => none }).bind fun s => s.oob v) = none
    cases g.st <;> rfl

instance {P1 Q1 P2 Q2 : Type} [Proj P1 Q1] [Proj P2 Q2] [QuietProj P1] [QuietProj P2] : QuietProj (P1 ⊕ P2) where
  add r p u h v := by
    cases p with
    | inl p => exact Option.map_eq_none_iff.2 (QuietProj.add r p u (fun v => Option.map_eq_none_iff.1 (h v)) v)
    | inr p => exact Option.map_eq_none_iff.2 (QuietProj.add r p u (fun v => Option.map_eq_none_iff.1 (h v)) v)
  remove r p u h v := by
    cases p with
    | inl p => exact Option.map_eq_none_iff.2 (QuietProj.remove r p u (fun v => Option.map_eq_none_iff.1 (h v)) v)
    | inr p => exact Option.map_eq_none_iff.2 (QuietProj.remove r p u (fun v => Option.map_eq_none_iff.1 (h v)) v)
  clear r p h v := by
    cases p with
    | inl p => exact Option.map_eq_none_iff.2 (QuietProj.clear r p (fun v => Option.map_eq_none_iff.1 (h v)) v)
    | inr p => exact Option.map_eq_none_iff.2 (QuietProj.clear r p (fun v => Option.map_eq_none_iff.1 (h v)) v)

/-- The hypotheses: agent 7, that is a ghost on rank 1, is moved there. -/
example : seen [line2 false 2] (coming7.take 3) 1 = some (none, some 1, [some none]) ∧
    seen [line2 false 2] (coming7.take 3 ++ [.move fun k => if k = 0 then [(7, 1)] else []]) 1 = some (some 1, none, [some none]) := by
  refine ⟨?_, ?_⟩ <;> decide +kernel

end Repast.Context
