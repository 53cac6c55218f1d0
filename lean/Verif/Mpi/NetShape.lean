import Verif.Network.Model

/-! The number of networks of a context does not change. -/
namespace Repast.Network
open Repast.Dict Repast.Context

variable {S A X Y : Type}

/-- Each result has the property. -/
def All (p : X → Prop) (o : Option X) : Prop := ∀ x, o = some x → p x

theorem All.some {p : X → Prop} {x : X} (h : p x) : All p (some x) := fun _ e => Option.some.inj e ▸ h
theorem All.none {p : X → Prop} : All p Option.none := fun _ e => nomatch e

theorem All.bind {p : X → Prop} {q : Y → Prop} {o : Option X} {f : X → Option Y} (h : All p o) (h' : ∀ x, p x → All q (f x)) : All q (o.bind f) := by
  intro y e
  obtain ⟨x, ex, e⟩ := Option.bind_eq_some_iff.1 e
  exact h' x (h x ex) y e

theorem All.after {q : Y → Prop} {o : Option X} {f : X → Option Y} (h' : ∀ x, All q (f x)) : All q (o.bind f) := All.bind (p := fun _ => True) (fun _ _ => trivial) fun x _ => h' x

theorem All.map {p : X → Prop} {q : Y → Prop} {o : Option X} {f : X → Y} (h : All p o) (h' : ∀ x, p x → q (f x)) : All q (o.map f) := by
  intro y e
  obtain ⟨x, ex, rfl⟩ := Option.map_eq_some_iff.1 e
  exact h' x (h x ex)

theorem All.mapped {q : Y → Prop} {o : Option X} {f : X → Y} (h' : ∀ x, q (f x)) : All q (o.map f) := All.map (p := fun _ => True) (fun _ _ => trivial) fun x _ => h' x

theorem All.foldlM {p : X → Prop} {f : X → Y → Option X} (h : ∀ a y, p a → All p (f a y)) : ∀ (l : List Y) (a : X), p a → All p (l.foldlM f a) := by
  intro l
  induction l with
  | nil => intro a ha; exact All.some ha
  | cons y l ih =>
    intro a ha
    rw [List.foldlM_cons, Option.bind_eq_bind]
    exact (h a y ha).bind fun x hx => ih x hx

theorem All.ite {p : X → Prop} {b : Prop} [Decidable b] {o o' : Option X} (h : All p o) (h' : All p o') : All p (if b then o else o') := by split <;> assumption

variable {k : Nat} {c : Cx S A}

/-- The context has `k` networks. -/
abbrev Has (k : Nat) (c : Cx S A) : Prop := c.nets.length = k

theorem Has.withNet (h : Has k c) (pid : Nat) (f : Net A → Option (Net A)) : All (Has k) (c.withNet pid f) := All.after fun N => All.mapped fun N => by
  show (c.nets.set pid N).length = k
  rw [List.length_set]; exact h

theorem mapM_len {f : X → Option Y} : ∀ (l : List X), All (fun m => m.length = l.length) (l.mapM f) := by
  intro l
  induction l with
  | nil => exact All.some rfl
  | cons x l ih =>
    rw [List.mapM_cons]
    exact All.after fun y => ih.bind fun m hm => All.some (by rw [List.length_cons, List.length_cons, hm])

theorem Has.eachNet (h : Has k c) (f : Net A → Option (Net A)) : All (Has k) (c.eachNet f) := (mapM_len c.nets).map fun ns hns => by
  show ns.length = k
  rw [hns]; exact h

theorem Has.netsAdd (h : Has k c) (o : Obj) : Has k (c.netsAdd o) := by
  show (c.nets.map _).length = k
  rw [List.length_map]; exact h

theorem Has.add (h : Has k c) (u : Nat) (s : S) : Has k (c.add u s) := Has.netsAdd (c := { (c.newObj u).2 with locals := _ }.setRank _ _) h _

theorem Has.remove (h : Has k c) (u : Nat) : All (Has k) (c.remove u) := by
  refine All.after fun o => ?_
  apply Has.eachNet
  exact h

theorem Has.setState (h : Has k c) (u : Nat) (s : S) : All (Has k) (c.setState u s) := All.mapped fun _ => h

theorem Has.refGhost (h : Has k c) (u : Nat) (i : Int) : Has k (c.refGhost u i) := by unfold Cx.refGhost; split <;> exact h

theorem Has.removeGhost (h : Has k c) (u : Nat) : All (Has k) (c.removeGhost u) := All.ite (All.some h) (All.mapped fun _ => h)

theorem Has.deleteGhost (h : Has k c) (u : Nat) : All (Has k) (c.deleteGhost u) := All.mapped fun _ => h

theorem Has.addReq (h : Has k c) (u : Nat) : Has k (c.addReq u) := by unfold Cx.addReq; split <;> exact h

theorem Has.tag (h : Has k c) (r u : Nat) : All (Has k) (c.tag r u) := by
  unfold Cx.tag
  split
  · exact All.some h
  · split
    · exact All.some h
    · exact All.none

theorem Has.setGhosted (h : Has k c) (u : Nat) (d : Dict Int) : All (Has k) (c.setGhosted u d) := by
  unfold Cx.setGhosted
  split
  · exact All.some h
  · split
    · exact All.some h
    · exact All.none

theorem Has.untag (h : Has k c) (r u : Nat) : All (Has k) (c.untag r u) := All.after fun _ => All.mapped fun _ => h

theorem Has.addGhostAll (h : Has k c) (r : Nat) (o : Obj) (s : S) : Has k (c.addGhostAll r o s) := Has.netsAdd (c := c.addGhost r o s _) h _

theorem Has.addEdge (h : Has k c) (pid u v : Nat) (a : Attr A) : All (Has k) (c.addEdge pid u v a) := All.after fun _ => All.after fun _ => h.withNet _ _
theorem Has.updateEdge (h : Has k c) (pid u v : Nat) (a : Attr A) : All (Has k) (c.updateEdge pid u v a) := All.after fun _ => All.after fun _ => h.withNet _ _
theorem Has.removeEdge (h : Has k c) (pid u v : Nat) : All (Has k) (c.removeEdge pid u v) := All.after fun _ => All.after fun _ => h.withNet _ _
theorem Has.clearEdges (h : Has k c) (pid : Nat) : All (Has k) (c.clearEdges pid) := h.withNet _ _

theorem Has.sendRemoved (h : Has k c) (n pid : Nat) : All (fun x => Has k x.1) (c.sendRemoved n pid) :=
  All.after fun N => (All.foldlM (p := fun x : Cx S A × List (Nat × Nat × Nat) => Has k x.1) (fun a _ ha => All.ite ((Has.untag ha _ _).map fun _ hc => hc) All.none) _ _ h).bind fun _ hx =>
    (Has.withNet hx _ _).map fun _ hc => hc

theorem Has.dropEdge (h : Has k c) (pid : Nat) (u v gho : Obj) : All (Has k) (c.dropEdge pid u v gho) :=
  (h.withNet pid _).bind fun c hc => All.after fun b => (All.ite (All.some hc) ((Has.removeGhost hc _).bind fun _ hc => hc.withNet _ _) : All (Has k) _).bind fun _ hc => hc.withNet _ _

theorem Has.recvRemoved (h : Has k c) (pid : Nat) (m : Nat × Nat) : All (Has k) (c.recvRemoved pid m) := All.after fun _ => h.dropEdge _ _ _ _

theorem Has.sendNew {acc : Cx S A × Sync S A} (h : Has k acc.1) (n pid : Nat) (e : EKey × GEdge) : All (fun x => Has k x.1) (Cx.sendNew n pid acc e) := by
  unfold Cx.sendNew
  refine All.ite (All.after fun N => (h.withNet pid _).bind fun c hc => All.map (p := fun x => Has k x.1) ?_ fun x hx => hx) All.none
  exact All.ite (All.some hc) (All.after fun o => (hc.tag _ _).map fun _ hc => hc)

theorem Has.sendUpdated {acc : Cx S A × Sync S A} (h : Has k acc.1) (n pid : Nat) (e : EKey) : All (fun x => Has k x.1) (Cx.sendUpdated n pid acc e) :=
  All.after fun _ => All.after fun _ => All.ite (All.some h) All.none

theorem Has.sendSync (h : Has k c) (n pid : Nat) : All (fun x => Has k x.1) (c.sendSync n pid) :=
  All.after fun N => (All.foldlM (p := fun x : Cx S A × Sync S A => Has k x.1) (fun _ _ ha => Has.sendNew ha _ _ _) _ _ h).bind fun x hx =>
    (All.foldlM (p := fun x : Cx S A × Sync S A => Has k x.1) (fun _ _ ha => Has.sendUpdated ha _ _ _) _ _ hx).bind fun _ hx => (Has.withNet hx _ _).map fun _ hc => hc

theorem Has.recvVertex (h : Has k c) (pid : Nat) (m : Nat × Nat × S) : All (Has k) (c.recvVertex pid m) := Has.withNet (c := (c.newObj m.2.1).2.addGhost m.1 (c.newObj m.2.1).1 m.2.2 1) h _ _

theorem Has.recvEdge (h : Has k c) (pid : Nat) (m : Nat × Nat × Attr A) : All (Has k) (c.recvEdge pid m) := All.after fun _ => h.withNet _ _

theorem Has.refOne {acc : Cx S A × List (Nat × Nat)} (h : Has k acc.1) (n pid : Nat) (o : Obj) : All (fun x => Has k x.1) (Cx.refOne n pid acc o) := by
  unfold Cx.refOne
  refine All.after fun N => All.ite ?_ (All.some h)
  refine All.bind (p := Has k) ?_ fun c hc => All.ite (All.some hc) All.none
  split
  · exact All.some (h.refGhost _ _)
  · exact All.none

theorem Has.sendRefs (h : Has k c) (n pid : Nat) : All (fun x => Has k x.1) (c.sendRefs n pid) :=
  All.after fun N => (All.foldlM (p := fun x : Cx S A × List (Nat × Nat) => Has k x.1) (fun _ _ ha => Has.refOne ha _ _ _) _ _ h).bind fun _ hx => (Has.withNet hx _ _).map fun _ hc => hc

theorem Has.movingEdge (pid : Nat) (o : Obj) (s : S) (dest : Nat) {acc : Cx S A × Option (Dict Int) × List EKey × List Obj} (h : Has k acc.1) (e : EKey × Nat) :
    All (fun x => Has k x.1) (Cx.movingEdge pid o s dest acc e) := by
  unfold Cx.movingEdge
  refine All.after fun N => All.ite ?_ ?_
  · exact All.after fun j => All.ite ((h.removeGhost _).bind fun _ hc => (hc.withNet _ _).map fun _ hc => hc) (All.some h)
  · exact (Has.withNet (c := acc.1.addGhost dest o s 0) h _ _).map fun _ hc => hc

theorem Has.moving (pid : Nat) (o : Obj) (s : S) (dest : Nat) {acc : Cx S A × Option (Dict Int)} (h : Has k acc.1) : All (fun x => Has k x.1) (Cx.moving pid o s dest acc) :=
  All.after fun N => All.after fun es =>
    (All.foldlM (p := fun x : Cx S A × Option (Dict Int) × List EKey × List Obj => Has k x.1) (fun _ _ ha => Has.movingEdge pid o s dest ha _) _ _ h).bind fun _ hx =>
      (All.foldlM (p := Has k) (fun _ _ hc => hc.withNet _ _) _ _ hx).bind fun _ hc => (All.foldlM (p := Has k) (fun _ _ hc => hc.withNet _ _) _ _ hc).bind fun _ hc =>
        (hc.withNet _ _).map fun _ hc => hc

theorem Has.redirect (h : Has k c) (pid dest : Nat) (e : EKey × Nat) : All (Has k) (c.redirect pid dest e) := by
  unfold Cx.redirect
  refine All.after fun N => All.after fun key => ?_
  split
  · exact All.some h
  · exact Has.withNet (c := c.setRank _ dest) h _ _

theorem Has.movedOne (h : Has k c) (pid : Nat) (m : Nat × Nat) : All (Has k) (c.movedOne pid m) := by
  unfold Cx.movedOne
  split
  · exact All.some h
  · refine All.ite (All.after fun o => (h.refGhost _ _).withNet _ _) (All.after fun N => All.after fun es => ?_)
    exact All.foldlM (p := Has k) (fun _ _ hc => hc.redirect _ _ _) _ _ h

theorem Has.readdEdges (h : Has k c) (pid : Nat) : All (Has k) (c.readdEdges pid) :=
  All.after fun N => (All.foldlM (p := Has k) (fun _ _ hc => hc.addEdge _ _ _ _) _ _ h).bind fun _ hc => hc.withNet _ _

theorem Has.sendRemovedAgents (h : Has k c) (n : Nat) : All (fun x => Has k x.1) (c.sendRemovedAgents n) := All.ite (All.some h) All.none

theorem Has.dropGhost (h : Has k c) (u : Nat) : All (Has k) (c.dropGhost u) := All.after fun g => ((h.refGhost u 1).eachNet _).bind fun _ hc => hc.deleteGhost u

theorem Has.sendStates (h : Has k c) (n : Nat) : All (fun x => Has k x.1) (c.sendStates n) := All.ite (All.mapped fun _ => h) All.none

theorem Has.updateGhost (h : Has k c) (u : Nat) (s : S) : All (Has k) (c.updateGhost u s) := All.mapped fun _ => h

theorem Has.sendRequest {acc : Cx S A × List (Nat × Nat)} (h : Has k acc.1) (n : Nat) (q : Nat × Nat) : All (fun x => Has k x.1) (Cx.sendRequest n acc q) := by
  unfold Cx.sendRequest
  split
  · exact All.ite (All.some h) All.none
  · exact All.some ((h.addReq _).netsAdd _)

theorem Has.answer {acc : Cx S A × List (Nat × Nat × S)} (h : Has k acc.1) (q : Nat × Nat) : All (fun x => Has k x.1) (Cx.answer acc q) := (h.tag _ _).bind fun _ hc => All.mapped fun _ => hc

theorem Has.recvRequested (h : Has k c) (m : Nat × Nat × S) : Has k (c.recvRequested m) := Has.addReq (Has.addGhostAll (c := (c.newObj m.2.1).2) h _ _ _) _

theorem Has.sendAway {acc : Cx S A × List (Nat × Nat × S × Option (Dict Int))} (h : Has k acc.1) (n : Nat) (m : Nat × Nat) : All (fun x => Has k x.1) (Cx.sendAway n acc m) :=
  All.after fun o => All.ite ((All.foldlM (p := fun x : Cx S A × Option (Dict Int) => Has k x.1) (fun _ _ ha => Has.moving _ _ _ _ ha) _ _ h).map fun _ hx => hx) All.none

theorem Has.arrive {acc : Cx S A × List Nat} (h : Has k acc.1) (m : Nat × S × Option (Dict Int)) : All (fun x => Has k x.1) (Cx.arrive acc m) := by
  unfold Cx.arrive
  refine All.map (p := Has k) ?_ fun _ hc => hc
  split
  · exact All.some (h.add _ _)
  · exact Has.setGhosted (h.add _ _) _ _

theorem Has.sendNoLonger (h : Has k c) (n pid : Nat) : All (fun x => Has k x.1) (c.sendNoLonger n pid) := All.after fun N => All.ite ((h.withNet _ _).map fun _ hc => hc) All.none

end Repast.Network
