import Verif.Mixed.Model
import Verif.Context.Views

/-! What the methods of networks leave unchanged: the local agents of a rank. -/
namespace Repast.Mixed
open Repast.Dict Repast.Context Repast.Network

variable {S A P Q : Type} [Proj P Q]

/-- The local agents of the rank, and the agents that it has removed, are the same. -/
structure Keeps (c c' : Network.Cx S A) : Prop where
  rank : c'.rank = c.rank
  locals : c'.locals = c.locals
  removed : c'.removed = c.removed

theorem Keeps.rfl {c : Network.Cx S A} : Keeps c c := ⟨Eq.refl _, Eq.refl _, Eq.refl _⟩
theorem Keeps.trans {a b c : Network.Cx S A} (h : Keeps a b) (h' : Keeps b c) : Keeps a c :=
  ⟨h'.rank.trans h.rank, h'.locals.trans h.locals, h'.removed.trans h.removed⟩

theorem foldlM_keeps {α : Type} {f : Network.Cx S A → α → Option (Network.Cx S A)} (h : ∀ c a c', f c a = some c' → Keeps c c') {l : List α} {c c' : Network.Cx S A}
    (e : l.foldlM f c = some c') : Keeps c c' :=
  Context.foldlM_inv (P := fun x => Keeps c x) (fun b a b' hb hf => hb.trans (h b a b' hf)) l c c' Keeps.rfl e

theorem foldlM_keeps' {α X : Type} {f : Network.Cx S A × X → α → Option (Network.Cx S A × X)} (h : ∀ c a c', f c a = some c' → Keeps c.1 c'.1) {l : List α}
    {c c' : Network.Cx S A × X} (e : l.foldlM f c = some c') : Keeps c.1 c'.1 :=
  Context.foldlM_inv (P := fun x => Keeps c.1 x.1) (fun b a b' hb hf => hb.trans (h b a b' hf)) l c c' Keeps.rfl e

section
variable {c c' : Network.Cx S A}

theorem withNet_keeps {pid : Nat} {f : Net A → Option (Net A)} (e : c.withNet pid f = some c') : Keeps c c' := by
  unfold Network.Cx.withNet at e
  obtain ⟨N, -, e⟩ := Option.bind_eq_some_iff.1 e
  obtain ⟨N', -, rfl⟩ := Option.map_eq_some_iff.1 e
  exact ⟨rfl, rfl, rfl⟩

theorem eachNet_keeps {f : Net A → Option (Net A)} (e : c.eachNet f = some c') : Keeps c c' := by
  unfold Network.Cx.eachNet at e
  obtain ⟨N', -, rfl⟩ := Option.map_eq_some_iff.1 e
  exact ⟨rfl, rfl, rfl⟩

theorem addGhost_keeps (k : Nat) (o : Obj) (s : S) (i : Int) : Keeps c (c.addGhost k o s i) := ⟨rfl, rfl, rfl⟩

theorem refGhost_keeps (u : Nat) (i : Int) : Keeps c (c.refGhost u i) := by
  unfold Network.Cx.refGhost
  split <;> exact ⟨rfl, rfl, rfl⟩

theorem removeGhost_keeps {u : Nat} (e : c.removeGhost u = some c') : Keeps c c' := by
  unfold Network.Cx.removeGhost at e
  split at e
  · cases e; exact ⟨rfl, rfl, rfl⟩
  · obtain ⟨g, -, rfl⟩ := Option.map_eq_some_iff.1 e
    exact ⟨rfl, rfl, rfl⟩

theorem deleteGhost_keeps {u : Nat} (e : c.deleteGhost u = some c') : Keeps c c' := by
  obtain ⟨g, -, rfl⟩ := Option.map_eq_some_iff.1 e
  exact ⟨rfl, rfl, rfl⟩

theorem addReq_keeps (u : Nat) : Keeps c (c.addReq u) := by
  unfold Network.Cx.addReq
  split <;> exact ⟨rfl, rfl, rfl⟩

theorem tag_keeps {k u : Nat} (e : c.tag k u = some c') : Keeps c c' := by
  unfold Network.Cx.tag at e
  split at e
  · cases e; exact ⟨rfl, rfl, rfl⟩
  · split at e
    · cases e; exact ⟨rfl, rfl, rfl⟩
    · cases e

theorem setGhosted_keeps {u : Nat} {d : Dict Int} (e : c.setGhosted u d = some c') : Keeps c c' := by
  unfold Network.Cx.setGhosted at e
  split at e
  · cases e; exact ⟨rfl, rfl, rfl⟩
  · split at e
    · cases e; exact ⟨rfl, rfl, rfl⟩
    · cases e

theorem untag_keeps {k u : Nat} (e : c.untag k u = some c') : Keeps c c' := by
  unfold Network.Cx.untag at e
  obtain ⟨d, -, e⟩ := Option.bind_eq_some_iff.1 e
  obtain ⟨n, -, rfl⟩ := Option.map_eq_some_iff.1 e
  exact ⟨rfl, rfl, rfl⟩

theorem addEdge_keeps {pid u v : Nat} {a : Attr A} (e : c.addEdge pid u v a = some c') : Keeps c c' := by
  obtain ⟨u, -, e⟩ := Option.bind_eq_some_iff.1 e
  obtain ⟨v, -, e⟩ := Option.bind_eq_some_iff.1 e
  exact withNet_keeps e

theorem updateEdge_keeps {pid u v : Nat} {a : Attr A} (e : c.updateEdge pid u v a = some c') : Keeps c c' := by
  obtain ⟨u, -, e⟩ := Option.bind_eq_some_iff.1 e
  obtain ⟨v, -, e⟩ := Option.bind_eq_some_iff.1 e
  exact withNet_keeps e

theorem removeEdge_keeps {pid u v : Nat} (e : c.removeEdge pid u v = some c') : Keeps c c' := by
  obtain ⟨u, -, e⟩ := Option.bind_eq_some_iff.1 e
  obtain ⟨v, -, e⟩ := Option.bind_eq_some_iff.1 e
  exact withNet_keeps e

theorem clearEdges_keeps {pid : Nat} (e : c.clearEdges pid = some c') : Keeps c c' := withNet_keeps e

theorem sendRemoved_keeps {n pid : Nat} {x : Network.Cx S A × List (Nat × Nat × Nat)} (e : c.sendRemoved n pid = some x) : Keeps c x.1 := by
  unfold Network.Cx.sendRemoved at e
  obtain ⟨N, -, e⟩ := Option.bind_eq_some_iff.1 e
  obtain ⟨y, e1, e⟩ := Option.bind_eq_some_iff.1 e
  obtain ⟨c2, e2, rfl⟩ := Option.map_eq_some_iff.1 e
  refine (foldlM_keeps' (c := (c, [])) ?_ e1).trans (withNet_keeps e2)
  intro b a b' hb
  simp only at hb
  generalize (if a.2 = true then a.1.2 else a.1.1) = gho at hb
  generalize (if a.2 = true then a.1.1 else a.1.2) = loc at hb
  split at hb
  · obtain ⟨c', h, rfl⟩ := Option.map_eq_some_iff.1 hb
    exact untag_keeps h
  · cases hb

theorem dropEdge_keeps {pid : Nat} {u v g : Obj} (e : c.dropEdge pid u v g = some c') : Keeps c c' := by
  unfold Network.Cx.dropEdge at e
  obtain ⟨c1, e1, e⟩ := Option.bind_eq_some_iff.1 e
  obtain ⟨b, -, e⟩ := Option.bind_eq_some_iff.1 e
  obtain ⟨c2, e2, e⟩ := Option.bind_eq_some_iff.1 e
  refine (withNet_keeps e1).trans (Keeps.trans ?_ (withNet_keeps e))
  split at e2
  · cases e2; exact ⟨rfl, rfl, rfl⟩
  · obtain ⟨c3, e3, e4⟩ := Option.bind_eq_some_iff.1 e2
    exact (removeGhost_keeps e3).trans (withNet_keeps e4)

theorem recvRemoved_keeps {pid : Nat} {m : Nat × Nat} (e : c.recvRemoved pid m = some c') : Keeps c c' := by
  obtain ⟨x, -, e⟩ := Option.bind_eq_some_iff.1 e
  exact dropEdge_keeps e

theorem sendNew_keeps {n pid : Nat} {acc x : Network.Cx S A × Sync S A} {d : EKey × GEdge} (e : Network.Cx.sendNew n pid acc d = some x) : Keeps acc.1 x.1 := by
  unfold Network.Cx.sendNew at e
  simp only at e
  split at e
  · obtain ⟨N, -, e⟩ := Option.bind_eq_some_iff.1 e
    obtain ⟨c1, e1, e⟩ := Option.bind_eq_some_iff.1 e
    obtain ⟨y, e2, rfl⟩ := Option.map_eq_some_iff.1 e
    refine (withNet_keeps e1).trans ?_
    split at e2
    · cases e2; exact ⟨rfl, rfl, rfl⟩
    · obtain ⟨o, -, e2⟩ := Option.bind_eq_some_iff.1 e2
      obtain ⟨c3, e3, rfl⟩ := Option.map_eq_some_iff.1 e2
      exact tag_keeps e3
  · cases e

theorem sendUpdated_keeps {n pid : Nat} {acc x : Network.Cx S A × Sync S A} {k : EKey} (e : Network.Cx.sendUpdated n pid acc k = some x) : Keeps acc.1 x.1 := by
  unfold Network.Cx.sendUpdated at e
  obtain ⟨N, -, e⟩ := Option.bind_eq_some_iff.1 e
  obtain ⟨c1, e1, e⟩ := Option.bind_eq_some_iff.1 e
  simp only at e
  split at e
  · cases e; exact ⟨rfl, rfl, rfl⟩
  · cases e

theorem sendSync_keeps {n pid : Nat} {x : Network.Cx S A × Sync S A} (e : c.sendSync n pid = some x) : Keeps c x.1 := by
  unfold Network.Cx.sendSync at e
  obtain ⟨N, -, e⟩ := Option.bind_eq_some_iff.1 e
  obtain ⟨y, e1, e⟩ := Option.bind_eq_some_iff.1 e
  obtain ⟨z, e2, e⟩ := Option.bind_eq_some_iff.1 e
  obtain ⟨c2, e3, rfl⟩ := Option.map_eq_some_iff.1 e
  exact (foldlM_keeps' (c := (c, ⟨[], []⟩)) (fun _ _ _ => sendNew_keeps) e1).trans ((foldlM_keeps' (fun _ _ _ => sendUpdated_keeps) e2).trans (withNet_keeps e3))

theorem recvVertex_keeps {pid : Nat} {m : Nat × Nat × S} (e : Network.Cx.recvVertex pid c m = some c') : Keeps c c' := by
  unfold Network.Cx.recvVertex at e
  have h := withNet_keeps e
  exact ⟨h.rank, h.locals, h.removed⟩

theorem recvEdge_keeps {pid : Nat} {m : Nat × Nat × Attr A} (e : c.recvEdge pid m = some c') : Keeps c c' := by
  obtain ⟨x, -, e⟩ := Option.bind_eq_some_iff.1 e
  exact withNet_keeps e

theorem movingEdge_keeps {pid : Nat} {o : Obj} {s : S} {dest : Nat} {acc x : Network.Cx S A × Option (Dict Int) × List EKey × List Obj} {k : EKey × Nat}
    (e : Network.Cx.movingEdge pid o s dest acc k = some x) : Keeps acc.1 x.1 := by
  unfold Network.Cx.movingEdge at e
  obtain ⟨N, -, e⟩ := Option.bind_eq_some_iff.1 e
  simp only at e
  generalize (if k.1.1.uid = o.uid then k.1.2 else k.1.1) = other at e
  split at e
  · obtain ⟨j, -, e⟩ := Option.bind_eq_some_iff.1 e
    split at e
    · obtain ⟨c1, e1, e⟩ := Option.bind_eq_some_iff.1 e
      obtain ⟨c2, e2, rfl⟩ := Option.map_eq_some_iff.1 e
      exact (removeGhost_keeps e1).trans (withNet_keeps e2)
    · cases e; exact ⟨rfl, rfl, rfl⟩
  · obtain ⟨c2, e2, rfl⟩ := Option.map_eq_some_iff.1 e
    exact Keeps.trans (addGhost_keeps dest o s 0) (withNet_keeps e2)

theorem moving_keeps {pid : Nat} {o : Obj} {s : S} {dest : Nat} {acc x : Network.Cx S A × Option (Dict Int)} (e : Network.Cx.moving pid o s dest acc = some x) :
    Keeps acc.1 x.1 := by
  unfold Network.Cx.moving at e
  obtain ⟨N, -, e⟩ := Option.bind_eq_some_iff.1 e
  obtain ⟨es, -, e⟩ := Option.bind_eq_some_iff.1 e
  obtain ⟨y, e1, e⟩ := Option.bind_eq_some_iff.1 e
  obtain ⟨c1, e2, e⟩ := Option.bind_eq_some_iff.1 e
  obtain ⟨c2, e3, e⟩ := Option.bind_eq_some_iff.1 e
  obtain ⟨c3, e4, rfl⟩ := Option.map_eq_some_iff.1 e
  exact (foldlM_keeps' (c := (acc.1, acc.2, [], [])) (fun _ _ _ => movingEdge_keeps) e1).trans ((foldlM_keeps (fun _ _ _ => withNet_keeps) e2).trans
    ((foldlM_keeps (fun _ _ _ => withNet_keeps) e3).trans (withNet_keeps e4)))

theorem redirect_keeps {pid dest : Nat} {k : EKey × Nat} (e : c.redirect pid dest k = some c') : Keeps c c' := by
  unfold Network.Cx.redirect at e
  obtain ⟨N, -, e⟩ := Option.bind_eq_some_iff.1 e
  obtain ⟨key, -, e⟩ := Option.bind_eq_some_iff.1 e
  split at e
  · cases e; exact ⟨rfl, rfl, rfl⟩
  · have h := withNet_keeps e
    exact ⟨h.rank, h.locals, h.removed⟩

theorem movedOne_keeps {pid : Nat} {m : Nat × Nat} (e : c.movedOne pid m = some c') : Keeps c c' := by
  unfold Network.Cx.movedOne at e
  split at e
  · cases e; exact ⟨rfl, rfl, rfl⟩
  · split at e
    · obtain ⟨o, -, e⟩ := Option.bind_eq_some_iff.1 e
      exact (refGhost_keeps _ _).trans (withNet_keeps e)
    · obtain ⟨N, -, e⟩ := Option.bind_eq_some_iff.1 e
      obtain ⟨es, -, e⟩ := Option.bind_eq_some_iff.1 e
      exact foldlM_keeps (fun _ _ _ => redirect_keeps) e

theorem readdEdges_keeps {pid : Nat} (e : c.readdEdges pid = some c') : Keeps c c' := by
  unfold Network.Cx.readdEdges at e
  obtain ⟨N, -, e⟩ := Option.bind_eq_some_iff.1 e
  obtain ⟨c1, e1, e2⟩ := Option.bind_eq_some_iff.1 e
  exact (foldlM_keeps (fun _ _ _ => addEdge_keeps) e1).trans (withNet_keeps e2)

theorem updateGhost_keeps {u : Nat} {s : S} (e : c.updateGhost u s = some c') : Keeps c c' := by
  obtain ⟨g, -, rfl⟩ := Option.map_eq_some_iff.1 e
  exact ⟨rfl, rfl, rfl⟩

theorem dropGhost_keeps {u : Nat} (e : c.dropGhost u = some c') : Keeps c c' := by
  unfold Network.Cx.dropGhost at e
  obtain ⟨g, -, e⟩ := Option.bind_eq_some_iff.1 e
  obtain ⟨c1, e1, e2⟩ := Option.bind_eq_some_iff.1 e
  exact (refGhost_keeps _ _).trans ((eachNet_keeps e1).trans (deleteGhost_keeps e2))

theorem sendNoLonger_keeps {n pid : Nat} {x : Network.Cx S A × List (Nat × Nat)} (e : c.sendNoLonger n pid = some x) : Keeps c x.1 := by
  unfold Network.Cx.sendNoLonger at e
  obtain ⟨N, -, e⟩ := Option.bind_eq_some_iff.1 e
  split at e
  · obtain ⟨c1, e1, rfl⟩ := Option.map_eq_some_iff.1 e
    exact withNet_keeps e1
  · cases e

theorem answer_keeps {acc x : Network.Cx S A × List (Nat × Nat × S)} {q : Nat × Nat} (e : Network.Cx.answer acc q = some x) : Keeps acc.1 x.1 := by
  unfold Network.Cx.answer at e
  obtain ⟨c1, e1, e⟩ := Option.bind_eq_some_iff.1 e
  obtain ⟨o, -, rfl⟩ := Option.map_eq_some_iff.1 e
  exact tag_keeps e1

end

/-! ### All of the ranks -/

theorem each_all {n : Nat} {f : Nat → Option (Network.Cx S A)} {w w' : Network.World S A} (e : Network.each n f w = some w') :
    (∀ r < n, f r = some (w' r)) ∧ ∀ r, n ≤ r → w' r = w r := by
  unfold Network.each at e
  simp only at e
  split at e
  · rename_i h
    cases e
    rw [List.all_eq_true] at h
    refine ⟨?_, ?_⟩
    · intro r hr
      have := h (f r) (List.mem_map.2 ⟨r, List.mem_range.2 hr, rfl⟩)
      obtain ⟨c, hc⟩ := Option.isSome_iff_exists.1 this
      simp [hr, hc]
    · intro r hr
      simp [Nat.not_lt.2 hr]
  · cases e

theorem each_keeps {n : Nat} {f : Nat → Option (Network.Cx S A)} {w w' : Network.World S A} (e : Network.each n f w = some w')
    (h : ∀ r < n, ∀ c, f r = some c → Keeps (w r) c) : ∀ r, Keeps (w r) (w' r) := by
  obtain ⟨h1, h2⟩ := each_all e
  intro r
  by_cases hr : r < n
  · exact h r hr _ (h1 r hr)
  · rw [h2 r (by omega)]; exact Keeps.rfl

theorem nth_map {α : Type} {f : Nat → Option α} {n r : Nat} {x : α} (h : ((List.range n).map f)[r]?.bind id = some x) : f r = some x := by
  rw [List.getElem?_map] at h
  by_cases hr : r < n
  · simpa [hr] using h
  · simp [hr] at h

theorem exchange_keeps {M : Type} {n : Nat} {send : Network.Cx S A → Option (Network.Cx S A × List (Nat × M))} {recv1 : Network.Cx S A → Nat × M → Option (Network.Cx S A)}
    {w w' : Network.World S A} (e : Network.exchange n send recv1 w = some w') (h1 : ∀ c x, send c = some x → Keeps c x.1)
    (h2 : ∀ c m c', recv1 c m = some c' → Keeps c c') : ∀ r, Keeps (w r) (w' r) := by
  unfold Network.exchange at e
  obtain ⟨w1, e1, e2⟩ := Option.bind_eq_some_iff.1 e
  intro r
  refine (each_keeps e1 ?_ r).trans (each_keeps e2 ?_ r)
  · intro r hr c hc
    obtain ⟨x, hx, rfl⟩ := Option.map_eq_some_iff.1 hc
    exact h1 _ _ (nth_map hx)
  · intro r hr c hc
    exact foldlM_keeps h2 hc

theorem synchNet_keeps {n pid : Nat} {w w' : Network.World S A} (e : Network.synchNet n pid w = some w') : ∀ r, Keeps (w r) (w' r) := by
  unfold Network.synchNet at e
  obtain ⟨w1, e1, e⟩ := Option.bind_eq_some_iff.1 e
  obtain ⟨w2, e2, e⟩ := Option.bind_eq_some_iff.1 e
  obtain ⟨w3, e3, e4⟩ := Option.bind_eq_some_iff.1 e
  intro r
  refine (exchange_keeps e1 (fun _ _ => sendRemoved_keeps) (fun _ _ _ => recvRemoved_keeps) r).trans ((each_keeps e2 ?_ r).trans
    ((each_keeps e3 ?_ r).trans (each_keeps e4 ?_ r)))
  · intro r hr c hc
    obtain ⟨x, hx, rfl⟩ := Option.map_eq_some_iff.1 hc
    exact sendSync_keeps (nth_map hx)
  · intro r hr c hc
    exact foldlM_keeps (fun _ _ _ => recvVertex_keeps) hc
  · intro r hr c hc
    exact foldlM_keeps (fun _ _ _ => recvEdge_keeps) hc

theorem agentsMoved_keeps {n pid : Nat} {ms : Nat → List (Nat × Nat)} {w w' : Network.World S A} (e : Network.agentsMoved n ms pid w = some w') :
    ∀ r, Keeps (w r) (w' r) := by
  unfold Network.agentsMoved at e
  obtain ⟨w1, e1, e2⟩ := Option.bind_eq_some_iff.1 e
  intro r
  refine (exchange_keeps e1 (fun _ _ => sendNoLonger_keeps) (fun _ _ _ => untag_keeps) r).trans (each_keeps e2 ?_ r)
  intro r hr c hc
  exact foldlM_keeps (fun _ _ _ => movedOne_keeps) hc

theorem postMoved_keeps {n pid : Nat} {w w' : Network.World S A} (e : Network.postMoved n pid w = some w') : ∀ r, Keeps (w r) (w' r) := by
  unfold Network.postMoved at e
  obtain ⟨w1, e1, e2⟩ := Option.bind_eq_some_iff.1 e
  intro r
  refine (each_keeps e1 ?_ r).trans (synchNet_keeps e2 r)
  intro r hr c hc
  exact readdEdges_keeps hc

end Repast.Mixed
