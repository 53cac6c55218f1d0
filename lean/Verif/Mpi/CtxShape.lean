import Verif.Mpi.MixShape

/-
The projections of a context with spaces (`Verif/Context/Model.lean`) stay the same, until one is added.
-/
namespace Repast.Context
open Repast.Dict Repast.Mixed
open Repast.Network (All)

variable {S P Q : Type} [Proj P Q] [Kept P] {ty : Nat → Nat}

/-- A context with spaces of which `bs` says which have a buffer. -/
def HasC (bs : List (Nat × String)) (c : Cx S P) : Prop := c.projs.map (fun g => form g.sp) = bs

variable {bs : List (Nat × String)} {c : Cx S P}

theorem HasC.set (h : HasC bs c) {pid : Nat} {g g' : Shared P} (eg : c.projs[pid]? = some g) (hf : form g'.sp = form g.sp) : HasC bs { c with projs := c.projs.set pid g' } := by
  show (c.projs.set pid g').map _ = bs
  rw [← h, List.map_set]
  refine List.ext_getElem? fun i => ?_
  rw [List.getElem?_set, List.length_map, List.getElem?_map]
  by_cases hi : pid = i
  · subst hi
    rw [if_pos rfl, eg, if_pos (List.getElem?_eq_some_iff.1 eg).1]
    show some (form g'.sp) = some (form g.sp)
    rw [hf]
  · rw [if_neg hi]

theorem HasC.projsAdd (h : HasC bs c) (u : Nat) : HasC bs (c.projsAdd u) := (map_form fun g => form_add _ _ _).trans h
theorem HasC.projsRemove (h : HasC bs c) (u : Nat) : HasC bs (c.projsRemove u) := (map_form fun g => form_remove _ _ _).trans h
theorem HasC.add (h : HasC bs c) (u : Nat) (s : S) : HasC bs (c.add ty u s) := HasC.projsAdd (c := { c with locals := _, byType := _ }) h u
theorem HasC.remove (h : HasC bs c) (u : Nat) : All (HasC bs) (c.remove ty u) := All.mapped fun d => HasC.projsRemove (c := { c with ghosted := _, locals := _, removed := _, byType := d }) h u

theorem HasC.setState (h : HasC bs c) (u : Nat) (s : S) : All (HasC bs) (c.setState u s) := by
  unfold Cx.setState
  split
  · exact All.some h
  · exact All.none

theorem HasC.refGhost (h : HasC bs c) (u : Nat) (i : Int) : HasC bs (c.refGhost u i) := by unfold Cx.refGhost; split <;> exact h

theorem HasC.removeGhost (h : HasC bs c) (u : Nat) : All (HasC bs) (c.removeGhost u) := by
  unfold Cx.removeGhost
  refine All.ite (All.some h) ?_
  split
  · exact All.none
  · exact All.some h

theorem HasC.deleteGhost (h : HasC bs c) (u : Nat) : All (HasC bs) (c.deleteGhost u) := by
  unfold Cx.deleteGhost
  split
  · exact All.none
  · exact All.some h

theorem HasC.addReq (h : HasC bs c) (u : Nat) : HasC bs (c.addReq u) := by unfold Cx.addReq; split <;> exact h

theorem HasC.tag (h : HasC bs c) (k u : Nat) : All (HasC bs) (c.tag k u) := by
  unfold Cx.tag
  split
  · exact All.some h
  · split
    · exact All.some h
    · exact All.none

theorem HasC.setGhosted (h : HasC bs c) (u : Nat) (d : Dict Int) : All (HasC bs) (c.setGhosted u d) := by
  unfold Cx.setGhosted
  refine All.ite (All.some h) ?_
  split
  · exact All.some h
  · exact All.none

theorem HasC.addGhostAll (h : HasC bs c) (u : Nat) (s : S) : HasC bs (c.addGhostAll u s) := HasC.projsAdd (c := c.addGhost u s _) h u

theorem HasC.take (h : HasC bs c) (u : Nat) : All (fun x => HasC bs x.1) (c.take ty u) := All.after fun _ => All.mapped fun _ => h

theorem HasC.arrive (h : HasC bs c) (u : Nat) (s : S) (gh : Option (Dict Int)) : All (fun x => HasC bs x.1) (c.arrive ty u s gh) := by
  unfold Cx.arrive
  simp only
  split
  · exact All.some (h.add u s)
  · exact ((h.add u s).setGhosted u _).map fun _ hc => hc

theorem HasC.projRemove (h : HasC bs c) (pid u : Nat) : HasC bs (c.projRemove pid u) := by
  unfold Cx.projRemove
  split
  · exact h
  · next e => exact h.set e (form_remove _ _ _)

theorem HasC.clearBuffered (h : HasC bs c) (pid : Nat) : HasC bs (c.clearBuffered pid) := by
  unfold Cx.clearBuffered
  split
  · exact h
  · next e => exact h.set e rfl

theorem HasC.preSynch (h : HasC bs c) (pid : Nat) : All (HasC bs) (c.preSynch pid) := by
  unfold Cx.preSynch
  split
  · exact All.none
  · exact All.ite ((All.foldlM (fun c u hc => (HasC.projRemove hc pid u).removeGhost u) _ _ h).map fun _ hc => hc.clearBuffered pid) (All.some h)

theorem HasC.preSynchAll (h : HasC bs c) : All (HasC bs) c.preSynchAll := All.foldlM (fun _ pid hc => HasC.preSynch hc pid) _ _ h

theorem HasC.clearOob (h : HasC bs c) (pid : Nat) : HasC bs (c.clearOob pid) := by
  unfold Cx.clearOob
  split
  · exact h
  · next e => exact h.set e (form_clear _ _)

theorem HasC.gatherOne {acc : Cx S P × List (Nat × OobMsg S Q) × List Nat} (h : HasC bs acc.1) (n pid : Nat) (e : Nat × Nat × Q) : All (fun x => HasC bs x.1) (Cx.gatherOne ty n pid acc e) := by
  unfold Cx.gatherOne
  refine All.ite All.none ?_
  split
  · exact All.some h
  · exact (h.take _).map fun _ hx => HasC.projRemove hx _ _

theorem HasC.gatherOob (h : HasC bs c) (n : Nat) : All (fun x => HasC bs x.1) (c.gatherOob ty n) :=
  All.foldlM (p := fun x : Cx S P × List (Nat × OobMsg S Q) × List Nat => HasC bs x.1) (fun acc pid ha =>
    (All.foldlM (p := fun x : Cx S P × List (Nat × OobMsg S Q) × List Nat => HasC bs x.1) (fun _ _ ha => HasC.gatherOne ha _ _ _) _ _ ha).map fun _ hx => HasC.clearOob hx pid) _ _ h

theorem HasC.projMove (h : HasC bs c) (pid u : Nat) (pt : Q) : All (HasC bs) (c.projMove pid u pt) := by
  unfold Cx.projMove
  split
  · exact All.none
  · next e =>
    intro c' ec
    obtain ⟨s, es, rfl⟩ := Option.map_eq_some_iff.1 ec
    exact h.set e (form_move es)

theorem HasC.receiveOob {acc : Cx S P × List Nat} (h : HasC bs acc.1) (m : OobMsg S Q) : All (fun x => HasC bs x.1) (Cx.receiveOob ty acc m) := by
  unfold Cx.receiveOob
  split
  · exact All.some h
  · split
    · exact All.none
    · exact (h.arrive _ _ _).map fun _ hx => hx

theorem HasC.processOne {acc : Cx S P × List Nat} (h : HasC bs acc.1) (m : OobMsg S Q) : All (fun x => HasC bs x.1) (Cx.processOne ty acc m) :=
  (h.receiveOob m).bind fun _ hx => (HasC.projMove hx _ _ _).map fun _ hc => hc

theorem HasC.processOob (h : HasC bs c) (ms : List (OobMsg S Q)) : All (fun x => HasC bs x.1) (c.processOob ty ms) :=
  All.foldlM (p := fun x : Cx S P × List Nat => HasC bs x.1) (fun _ _ ha => HasC.processOne ha _) _ _ h

theorem HasC.deleteGhosts (h : HasC bs c) (us : List Nat) : All (HasC bs) (c.deleteGhosts us) := All.foldlM (fun _ u hc => HasC.deleteGhost hc u) _ _ h

theorem HasC.dropGhost (h : HasC bs c) (u : Nat) : All (HasC bs) (c.dropGhost u) := by
  unfold Cx.dropGhost
  split
  · exact All.none
  · exact ((h.refGhost u 1).projsRemove u).deleteGhost u

theorem HasC.updateGhost (h : HasC bs c) (u : Nat) (s : S) : All (HasC bs) (c.updateGhost u s) := by
  unfold Cx.updateGhost
  split
  · exact All.none
  · exact All.some h

theorem HasC.ghostFor (h : HasC bs c) (u : Nat) (s : S) : HasC bs (c.ghostFor u s) := by
  unfold Cx.ghostFor
  split
  · exact h.refGhost _ _
  · exact h

theorem HasC.bufferAdd (h : HasC bs c) (pid u : Nat) : HasC bs (c.bufferAdd pid u) := by
  unfold Cx.bufferAdd
  split
  · exact h
  · next e => exact h.set e (form_add _ _ _)

theorem HasC.bufferOne (h : HasC bs c) (pid : Nat) (m : Nat × S × Q) : All (HasC bs) (c.bufferOne pid m) := ((h.ghostFor _ _).bufferAdd pid _).projMove _ _ _

theorem HasC.projsAddNew (h : HasC bs c) (u : Nat) : HasC bs (c.projsAddNew u) := (map_form fun g => by split <;> first | rfl | exact form_add _ _ _).trans h

theorem HasC.sendRequests (h : HasC bs c) (n : Nat) (rs : List (Nat × Nat)) : All (fun x => HasC bs x.1) (c.sendRequests n rs) := by
  refine All.foldlM (p := fun x : Cx S P × List (Nat × Nat) => HasC bs x.1) (fun acc q ha => ?_) _ _ h
  unfold Cx.sendRequest
  split
  · exact All.ite (All.some ha) All.none
  · exact All.some ((HasC.addReq ha _).projsAddNew _)

theorem HasC.answer (h : HasC bs c) (rs : List (Nat × Nat)) : All (fun x => HasC bs x.1) (c.answer rs) :=
  All.foldlM (p := fun x : Cx S P × List (Nat × Nat × S) => HasC bs x.1) (fun _ _ ha => (HasC.tag ha _ _).bind fun _ hc => All.mapped fun _ => hc) _ _ h

theorem HasC.sendAway (h : HasC bs c) (n : Nat) (ms : List (Nat × Nat)) : All (fun x => HasC bs x.1) (c.sendAway ty n ms) :=
  All.foldlM (p := fun x : Cx S P × List (Nat × Nat × S × Option (Dict Int)) => HasC bs x.1) (fun _ _ ha => All.ite ((HasC.take ha _).map fun _ hx => HasC.projsRemove hx _) All.none) _ _ h

theorem HasC.arriveAll (h : HasC bs c) (ms : List (Nat × S × Option (Dict Int))) : All (HasC bs) (c.arriveAll ty ms) :=
  (All.foldlM (p := fun x : Cx S P × List Nat => HasC bs x.1) (fun _ _ ha => (HasC.arrive ha _ _ _).map fun _ hx => hx) _ _ h).bind fun _ hx => HasC.deleteGhosts hx _

theorem HasC.gmove (h : HasC bs c) (pid u : Nat) (pt : Q) : All (HasC bs) (c.gmove pid u pt) := by
  unfold Cx.gmove
  split
  · exact h.projMove _ _ _
  · exact All.none

theorem form_adds (r : Nat) : ∀ (l : List Nat) (p : P), form (l.foldl (fun p u => Proj.add r p u) p) = form p := by
  intro l
  induction l with
  | nil => intro p; rfl
  | cons u l ih => intro p; exact (ih _).trans (form_add r p u)

theorem HasC.addProjection (h : HasC bs c) (p : P) : HasC (bs ++ [form p]) (c.addProjection p) := by
  show (c.projs ++ [_]).map _ = _
  rw [List.map_append, h]
  show bs ++ [form _] = _
  rw [form_adds]

end Repast.Context
