import Verif.Mpi.NetShape
import Verif.Mixed.Model
import Verif.Context.CSpace

/-
The projections of a context with spaces and networks stay the same: their number, and which of the spaces have a buffer. All ranks go through the projections, and exchange messages for each of
those with a buffer (space.py:208, 421).
-/
namespace Repast.Mixed
open Repast.Dict Repast.Context Repast.Network Repast.Space Repast.Tree

/-- Shared spaces whose buffer size does not change; `site` is where `_synch_ghosts` exchanges messages. -/
class Kept (P : Type) {Q : outParam Type} [Proj P Q] where
  site : P → String
  add : ∀ r (g : P) u, Proj.bufSize (Proj.add r g u) = Proj.bufSize g
  remove : ∀ r (g : P) u, Proj.bufSize (Proj.remove r g u) = Proj.bufSize g
  move : ∀ r (g : P) u pt g', Proj.move r g u pt = some g' → Proj.bufSize g' = Proj.bufSize g
  clear : ∀ r (g : P), Proj.bufSize (Proj.clear r g) = Proj.bufSize g
  siteAdd : ∀ r (g : P) u, site (Proj.add r g u) = site g
  siteRemove : ∀ r (g : P) u, site (Proj.remove r g u) = site g
  siteMove : ∀ r (g : P) u pt g', Proj.move r g u pt = some g' → site g' = site g
  siteClear : ∀ r (g : P), site (Proj.clear r g) = site g

instance : Kept GridSp where
  site _ := "space.py:210"
  add _ _ _ := rfl
  remove _ _ _ := rfl
  move r g u pt g' h := by
    have e : ∀ x : GridSp × Res Pt, x.1.cfg = g.cfg → (match x with | (_, .error) => none | (g, _) => some g) = some g' → g'.cfg = g.cfg := by
      rintro ⟨a, b⟩ h1 h2
      cases b <;> first | (cases h2; exact h1) | cases h2
    exact congrArg GCfg.buf (e _ rfl h)
  clear _ _ := rfl
  siteAdd _ _ _ := rfl
  siteRemove _ _ _ := rfl
  siteMove _ _ _ _ _ _ := rfl
  siteClear _ _ := rfl

theorem cspace_cfg (r : Nat) (g : CSpaceSp) (o : Op CPt) : (g.call r o).1.cfg = g.cfg := by
  unfold CSpaceSp.call
  split <;> rfl

instance : Kept CSpaceSp where
  site _ := "space.py:423"
  add r g u := congrArg CSCfg.buf (cspace_cfg r g (.add u))
  remove r g u := congrArg CSCfg.buf (cspace_cfg r g (.remove u))
  move r g u pt g' h := by
    have e : ∀ x : CSpaceSp × Res CPt, x.1.cfg = g.cfg → (match x with | (_, .error) => none | (g, _) => some g) = some g' → g'.cfg = g.cfg := by
      rintro ⟨a, b⟩ h1 h2
      cases b <;> first | (cases h2; exact h1) | cases h2
    exact congrArg CSCfg.buf (e _ (cspace_cfg r g (.move u pt)) h)
  clear _ _ := rfl
  siteAdd _ _ _ := rfl
  siteRemove _ _ _ := rfl
  siteMove _ _ _ _ _ _ := rfl
  siteClear _ _ := rfl

variable {S A P Q : Type} [Proj P Q] [Kept P]

/-- What does not change in a space. -/
def form (g : P) : Nat × String := (Proj.bufSize g, Kept.site g)

theorem form_add (r : Nat) (g : P) (u : Nat) : form (Proj.add r g u) = form g := Prod.ext (Kept.add r g u) (Kept.siteAdd r g u)
theorem form_remove (r : Nat) (g : P) (u : Nat) : form (Proj.remove r g u) = form g := Prod.ext (Kept.remove r g u) (Kept.siteRemove r g u)
theorem form_clear (r : Nat) (g : P) : form (Proj.clear r g) = form g := Prod.ext (Kept.clear r g) (Kept.siteClear r g)
theorem form_move {r : Nat} {g g' : P} {u : Nat} {pt : Q} (h : Proj.move r g u pt = some g') : form g' = form g := Prod.ext (Kept.move r g u pt g' h) (Kept.siteMove r g u pt g' h)

/-- A context with `k` networks, and spaces of which `bs` says which have a buffer. -/
structure HasM (k : Nat) (bs : List (Nat × String)) (c : Mx S A P) : Prop where
  nets : Has k c.nc
  spaces : c.spaces.map (fun g => form g.sp) = bs

variable {k : Nat} {bs : List (Nat × String)} {c : Mx S A P}

theorem HasM.onNet (h : HasM k bs c) {f : Network.Cx S A → Option (Network.Cx S A)} (hf : ∀ x, Has k x → All (Has k) (f x)) : All (HasM k bs) (c.onNet f) :=
  (hf _ h.nets).map fun _ hx => ⟨hx, h.spaces⟩

theorem map_form {l : List (Shared P)} {f : Shared P → Shared P} (hf : ∀ g, form (f g).sp = form g.sp) : (l.map f).map (fun g => form g.sp) = l.map fun g => form g.sp := by
  rw [List.map_map]
  exact List.map_congr_left fun g _ => hf g

theorem HasM.spacesAdd (h : HasM k bs c) (u : Nat) : HasM k bs (c.spacesAdd u) := ⟨h.nets, (map_form fun g => form_add _ _ _).trans h.spaces⟩
theorem HasM.spacesRemove (h : HasM k bs c) (u : Nat) : HasM k bs (c.spacesRemove u) := ⟨h.nets, (map_form fun g => form_remove _ _ _).trans h.spaces⟩

theorem HasM.add (h : HasM k bs c) (u : Nat) (s : S) : HasM k bs (c.add u s) := HasM.spacesAdd (c := { c with nc := c.nc.add u s }) ⟨h.nets.add u s, h.spaces⟩ u
theorem HasM.remove (h : HasM k bs c) (u : Nat) : All (HasM k bs) (c.remove u) := (h.onNet fun _ hx => hx.remove u).map fun _ hc => hc.spacesRemove u

theorem HasM.onSpace (h : HasM k bs c) (pid : Nat) {f : Shared P → Option (Shared P)} (hf : ∀ g, All (fun g' => form g'.sp = form g.sp) (f g)) : All (HasM k bs) (c.onSpace pid f) := by
  intro c' e
  unfold Mx.onSpace at e
  obtain ⟨g, eg, e⟩ := Option.bind_eq_some_iff.1 e
  obtain ⟨g', eg', rfl⟩ := Option.map_eq_some_iff.1 e
  refine ⟨h.nets, ?_⟩
  show (c.spaces.set pid g').map _ = bs
  rw [← h.spaces, List.map_set]
  refine List.ext_getElem? fun i => ?_
  rw [List.getElem?_set, List.length_map, List.getElem?_map]
  by_cases hi : pid = i
  · subst hi
    rw [if_pos rfl, eg, if_pos (List.getElem?_eq_some_iff.1 eg).1]
    show some (form g'.sp) = some (form g.sp)
    rw [hf g g' eg']
  · rw [if_neg hi]

theorem HasM.spRemove (h : HasM k bs c) (pid u : Nat) : All (HasM k bs) (c.spRemove pid u) := h.onSpace pid fun _ => All.some (form_remove _ _ _)

theorem HasM.spMove (h : HasM k bs c) (pid u : Nat) (pt : Q) : All (HasM k bs) (c.spMove pid u pt) := h.onSpace pid fun g => by
  intro g' e
  obtain ⟨s, es, rfl⟩ := Option.map_eq_some_iff.1 e
  exact form_move es

theorem HasM.gmove (h : HasM k bs c) (pid u : Nat) (pt : Q) : All (HasM k bs) (c.gmove pid u pt) := All.after fun _ => h.spMove pid u pt

theorem HasM.removeGhost (h : HasM k bs c) (u : Nat) : All (HasM k bs) (c.removeGhost u) := (h.nets.removeGhost u).map fun _ hx => ⟨hx, h.spaces⟩

theorem HasM.preSpace (h : HasM k bs c) (pid : Nat) : All (HasM k bs) (c.preSpace pid) :=
  All.after fun _ => All.ite ((All.foldlM (fun c u hc => (HasM.spRemove hc pid u).bind fun c hc => hc.removeGhost u) _ _ h).bind fun _ hc => hc.onSpace pid fun _ => All.some rfl) (All.some h)

theorem HasM.refOne {acc : Mx S A P × List (Nat × Nat)} (h : HasM k bs acc.1) (n pid : Nat) (o : Obj) : All (fun x => HasM k bs x.1) (Mx.refOne n pid acc o) := by
  refine All.after fun N => All.ite (All.bind (p := Has k) ?_ fun _ hx => All.ite (All.some ⟨hx, h.spaces⟩) All.none) (All.some h)
  split
  · exact All.some (h.nets.refGhost _ _)
  · exact All.mapped fun _ => h.nets

theorem HasM.sendRefs (h : HasM k bs c) (n pid : Nat) : All (fun x => HasM k bs x.1) (c.sendRefs n pid) :=
  All.after fun _ => (All.foldlM (p := fun x : Mx S A P × List (Nat × Nat) => HasM k bs x.1) (fun _ _ ha => HasM.refOne ha _ _ _) _ _ h).bind fun _ hx =>
    (HasM.onNet hx fun _ hc => hc.withNet _ _).map fun _ hc => hc

theorem HasM.gatherOne {acc : Mx S A P × List (Nat × OobMsg S Q) × List (Nat × Nat)} (h : HasM k bs acc.1) (n pid : Nat) (e : Nat × Nat × Q) : All (fun x => HasM k bs x.1) (Mx.gatherOne n pid acc e) := by
  refine All.ite ?_ All.none
  split
  · exact All.some h
  · refine (h.spRemove _ _).bind fun c hc => ?_
    refine (All.foldlM (p := fun x : Network.Cx S A × Option (Dict Int) => Has k x.1) (fun _ _ ha => Has.moving _ _ _ _ ha) _ _ ?_).map fun _ hx => ⟨hx, hc.spaces⟩
    exact hc.nets

theorem HasM.gatherOob (h : HasM k bs c) (n : Nat) : All (fun x => HasM k bs x.1) (c.gatherOob n) :=
  All.foldlM (p := fun x : Mx S A P × List (Nat × OobMsg S Q) × List (Nat × Nat) => HasM k bs x.1) (fun acc pid ha =>
    (All.foldlM (p := fun x : Mx S A P × List (Nat × OobMsg S Q) × List (Nat × Nat) => HasM k bs x.1) (fun _ _ ha => HasM.gatherOne ha _ _ _) _ _ ha).bind fun _ hx =>
      (HasM.onSpace hx pid fun _ => All.some (form_clear _ _)).map fun _ hc => hc) _ _ h

theorem HasM.arrive (h : HasM k bs c) (u : Nat) (s : S) (gh : Option (Dict Int)) : All (HasM k bs) (c.arrive u s gh) := by
  unfold Mx.arrive
  split
  · exact All.some (h.add u s)
  · exact (h.add u s).onNet fun _ hx => hx.setGhosted _ _

theorem HasM.processOne {acc : Mx S A P × List Nat} (h : HasM k bs acc.1) (m : OobMsg S Q) : All (fun x => HasM k bs x.1) (Mx.processOne acc m) := by
  refine All.bind (p := fun x : Mx S A P × List Nat => HasM k bs x.1) ?_ fun _ hx => (HasM.spMove hx _ _ _).map fun _ hc => hc
  split
  · exact All.some h
  · exact All.after fun _ => (h.arrive _ _ _).map fun _ hc => hc

theorem HasM.sendAway {acc : Mx S A P × List (Nat × Nat × S × Option (Dict Int))} (h : HasM k bs acc.1) (n : Nat) (m : Nat × Nat) : All (fun x => HasM k bs x.1) (Mx.sendAway n acc m) :=
  (Has.sendAway (acc := (acc.1.nc, acc.2)) h.nets n m).map fun x hx => HasM.spacesRemove (c := { acc.1 with nc := x.1 }) ⟨hx, h.spaces⟩ _

theorem HasM.arriveOne {acc : Mx S A P × List Nat} (h : HasM k bs acc.1) (m : Nat × S × Option (Dict Int)) : All (fun x => HasM k bs x.1) (Mx.arriveOne acc m) := (h.arrive _ _ _).map fun _ hc => hc

theorem HasM.deleteGhosts (h : HasM k bs c) (us : List Nat) : All (HasM k bs) (c.deleteGhosts us) := h.onNet fun _ hx => All.foldlM (fun _ u hn => Has.deleteGhost hn u) _ _ hx

theorem HasM.dropGhost (h : HasM k bs c) (u : Nat) : All (HasM k bs) (c.dropGhost u) := (h.onNet fun _ hx => hx.dropGhost u).map fun _ hc => hc.spacesRemove u

theorem HasM.ghostFor (h : HasM k bs c) (q u : Nat) (s : S) : HasM k bs (c.ghostFor q u s) := by
  unfold Mx.ghostFor
  split
  · exact ⟨h.nets.refGhost _ _, h.spaces⟩
  · exact ⟨h.nets, h.spaces⟩

theorem HasM.bufferOne (h : HasM k bs c) (pid : Nat) (m : Nat × Nat × S × Q) : All (HasM k bs) (c.bufferOne pid m) :=
  ((h.ghostFor m.1 m.2.1 m.2.2.1).onSpace pid fun _ => All.some (form_add _ _ _)).bind fun _ hc => hc.spMove _ _ _

theorem HasM.sendRequest {acc : Mx S A P × List (Nat × Nat)} (h : HasM k bs acc.1) (n : Nat) (q : Nat × Nat) : All (fun x => HasM k bs x.1) (Mx.sendRequest n acc q) := by
  unfold Mx.sendRequest
  split
  · exact All.ite (All.some h) All.none
  · exact All.some ⟨(h.nets.addReq _).netsAdd _, (map_form fun g => by split <;> first | rfl | exact form_add _ _ _).trans h.spaces⟩

theorem HasM.answer {acc : Mx S A P × List (Nat × Nat × S)} (h : HasM k bs acc.1) (q : Nat × Nat) : All (fun x => HasM k bs x.1) (Mx.answer acc q) :=
  (Has.answer (acc := (acc.1.nc, acc.2)) h.nets q).map fun _ hx => ⟨hx, h.spaces⟩

theorem HasM.recvRequested (h : HasM k bs c) (m : Nat × Nat × S) : All (HasM k bs) (c.recvRequested m) := All.some (HasM.spacesAdd (c := { c with nc := c.nc.recvRequested m }) ⟨h.nets.recvRequested m, h.spaces⟩ _)

end Repast.Mixed
