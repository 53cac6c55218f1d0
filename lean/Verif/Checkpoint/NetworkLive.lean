import Verif.Checkpoint.NetworkProps

/-
C20: networks that change between `save_network` and the pickling of the checkpoint. `save_network` puts the dictionaries of the graph into the checkpoint (checkpoint.py:350, 351, 356: `network.graph[nd][o]`), not
copies of them, so that what is pickled are the attributes that they have then.
-/
namespace Repast.Network
open Repast.Dict Repast.Context

variable {S A : Type}

/-! ### Model -/

/-- checkpoint.py:350-353 and 357-358: an element of `data`, as `SavedNode`, with the dictionary objects of the edges. -/
structure RefNode where
  uid : Nat
  succ : List (Nat × Nat × Nat)
  pred : List (Nat × Nat × Nat)

/-- checkpoint.py:349-353, 356-358: one node. -/
def Cx.refNode (c : Cx S A) (N : Net A) (nd : Obj) : RefNode :=
  if N.g.directed then ⟨nd.uid, (N.g.outEdges nd).map fun e => (e.1.2.uid, c.lrank e.1.2, e.2), (N.g.inEdges nd).map fun e => (e.1.1.uid, c.lrank e.1.1, e.2)⟩
  else ⟨nd.uid, (N.g.nbrEdges nd).map fun e => (e.1.2.uid, c.lrank e.1.2, e.2), []⟩

/-- checkpoint.py:339-362 `save_network` of the network `pid`. -/
def Cx.saveRefs (c : Cx S A) (pid : Nat) : Option (List RefNode) := (c.nets[pid]?).map fun N => (N.g.nodes.filter fun nd => decide (c.lrank nd = c.rank)).map (c.refNode N)

/-- The dictionary objects are pickled when the graph is `g`. -/
def RefNode.read (g : Graph A) (x : RefNode) : SavedNode A := ⟨x.uid, x.succ.map fun e => (e.1, e.2.1, g.dict e.2.2), x.pred.map fun e => (e.1, e.2.1, g.dict e.2.2)⟩

/-- The checkpoint of a rank is pickled when its context is `c`. -/
def Cx.pickle (c : Cx S A) (pid : Nat) (data : List RefNode) : Option (List (SavedNode A)) := (c.nets[pid]?).map fun N => data.map (RefNode.read N.g)

/-- All ranks save the network when the contexts are `w`, and the local agents; the checkpoints are pickled when the contexts are `w'`; they are restored into new contexts. -/
def lateTrip (n : Nat) (d : Bool) (pop : Nat → List (Nat × S)) (w w' : World S A) : Option (World S A) :=
  let q := (List.range n).map fun r => ((w r).saveRefs 0).bind fun data => (w' r).pickle 0 data
  if q.all (·.isSome) then
    (wrun n (World.init [d]) ((List.range n).flatMap fun r => (pop r).map fun a => .add r a.1 a.2)).bind fun w' =>
      restoreNetwork n 0 (fun r => (q[r]?.bind id).getD []) w'
  else none

/-! ### Specification -/

/-- A call that does not change the attributes of an edge of the network `pid`: agents and edges are added or removed, but no edge of it is updated (also not by adding it again). -/
def Calm (pid : Nat) (w : World S A) : WOp S A → Prop
  | .addEdge r p u v _ => p = pid → (w r).containsEdge p u v = false
  | .updateEdge _ p _ _ _ => p ≠ pid
  | .request _ => False
  | .move _ => False
  | .synch _ => False
  | _ => True

def CalmRun (n pid : Nat) : World S A → List (WOp S A) → Prop
  | _, [] => True
  | w, o :: ops => Calm pid w o ∧ ∀ w', wstep n w o = some w' → CalmRun n pid w' ops

/-! ### Lemmas -/

/-- The dictionary objects of the network `pid` are as before. -/
def Keep (pid : Nat) (c c' : Cx S A) : Prop := ∀ N, c.nets[pid]? = some N → ∃ N', c'.nets[pid]? = some N' ∧ N.g.dicts <+: N'.g.dicts

theorem Keep.refl (pid : Nat) (c : Cx S A) : Keep pid c c := fun N h => ⟨N, h, List.prefix_refl _⟩

theorem Keep.trans {pid : Nat} {a b c : Cx S A} (h : Keep pid a b) (h' : Keep pid b c) : Keep pid a c := by
  intro N hN
  obtain ⟨N1, h1, p1⟩ := h N hN
  obtain ⟨N2, h2, p2⟩ := h' N1 h1
  exact ⟨N2, h2, p1.trans p2⟩

theorem mapM_at {α β : Type} {f : α → Option β} : ∀ {l : List α} {l' : List β}, l.mapM f = some l' → ∀ {i : Nat} {x : α}, l[i]? = some x → ∃ y, f x = some y ∧ l'[i]? = some y
  | [], _, _, _, _, h => by simp at h
  | a :: l, l', h, i, x, hx => by
    rw [List.mapM_cons] at h
    obtain ⟨y, hy, h⟩ := Option.bind_eq_some_iff.1 h
    obtain ⟨ys, hys, h⟩ := Option.bind_eq_some_iff.1 h
    cases h
    cases i with
    | zero => cases hx; exact ⟨y, hy, rfl⟩
    | succ i => exact mapM_at hys hx

theorem keep_eachNet {pid : Nat} {c c' : Cx S A} {f : Net A → Option (Net A)} (hf : ∀ N N', f N = some N' → N'.g.dicts = N.g.dicts) (h : c.eachNet f = some c') : Keep pid c c' := by
  obtain ⟨ns, hns, rfl⟩ := Option.map_eq_some_iff.1 h
  intro N hN
  obtain ⟨y, hy, h1⟩ := mapM_at hns hN
  exact ⟨y, h1, by rw [hf _ _ hy]; exact List.prefix_refl _⟩

theorem keep_withNet {pid p : Nat} {c c' : Cx S A} {f : Net A → Option (Net A)} (hf : p = pid → ∀ N N', c.nets[p]? = some N → f N = some N' → N.g.dicts <+: N'.g.dicts) (h : c.withNet p f = some c') : Keep pid c c' := by
  obtain ⟨N0, h0, h⟩ := Option.bind_eq_some_iff.1 h
  obtain ⟨N1, h1, rfl⟩ := Option.map_eq_some_iff.1 h
  intro N hN
  by_cases hp : p = pid
  · subst hp
    rw [h0] at hN
    cases hN
    refine ⟨N1, ?_, hf rfl _ _ h0 h1⟩
    show (c.nets.set p N1)[p]? = some N1
    have := (List.getElem?_eq_some_iff.1 h0).1
    simp [this]
  · refine ⟨N, ?_, List.prefix_refl _⟩
    show (c.nets.set p N1)[pid]? = some N
    rw [List.getElem?_set_ne hp]; exact hN

theorem addEdge_dicts {r : Nat} {lr : Obj → Nat} (N : Net A) {u v : Obj} (at_ : Attr A) (h : N.g.slot u v = none) : N.g.dicts <+: (N.addEdge r lr u v at_).g.dicts := by
  have key : N.g.dicts <+: (N.g.addEdge u v at_).dicts := by
    rw [Graph.addEdge_def, h]
    exact List.prefix_append _ _
  unfold Net.addEdge
  split
  · show N.g.dicts <+: ((N.noteRef v).put u v at_).g.dicts
    rw [put_g, noteRef_g]; exact key
  · split
    · show N.g.dicts <+: ((N.noteRef u).put u v at_).g.dicts
      rw [put_g, noteRef_g]; exact key
    · rw [put_g]; exact key

theorem clearOnes_g {r : Nat} {lr : Obj → Nat} (l : List EKey) : ∀ {N N' : Net A}, l.foldlM (Net.clearOne r lr) N = some N' → N'.g = N.g := by
  induction l with
  | nil => intro N N' h; cases h; rfl
  | cons k l ih =>
    intro N N' h
    rw [List.foldlM_cons, Option.bind_eq_bind] at h
    obtain ⟨N1, h1, h⟩ := Option.bind_eq_some_iff.1 h
    obtain ⟨key, _, rfl⟩ := Option.map_eq_some_iff.1 h1
    have := ih h
    exact this

theorem keep_at {n r : Nat} {pid : Nat} {f : Cx S A → Option (Cx S A)} {w w' : World S A} (hf : ∀ c', f (w r) = some c' → Keep pid (w r) c') (h : at_ n r f w = some w') (k : Nat) : Keep pid (w k) (w' k) := by
  unfold at_ at h
  split at h
  · obtain ⟨c, hc, rfl⟩ := Option.map_eq_some_iff.1 h
    by_cases hk : k = r
    · subst hk
      simp only [if_true]
      exact hf _ hc
    · simp only [if_neg hk]
      exact Keep.refl _ _
  · cases h

theorem keep_step {n pid : Nat} {w w' : World S A} {o : WOp S A} (hc : Calm pid w o) (h : wstep n w o = some w') (k : Nat) : Keep pid (w k) (w' k) := by
  cases o with
  | add r u s =>
    simp only [wstep] at h
    refine keep_at (fun c' e => ?_) h k
    cases e
    intro N hN
    refine ⟨N.add ((w r).newObj u).1, ?_, ?_⟩
    · show ((w r).nets.map _)[pid]? = _
      rw [List.getElem?_map, hN]; rfl
    · show N.g.dicts <+: (N.g.addNode _).dicts
      rw [(addNode_edges _ _).2.1]; exact List.prefix_refl _
  | remove r u =>
    simp only [wstep] at h
    refine keep_at (fun c' e => ?_) h k
    obtain ⟨o, _, e⟩ := Option.bind_eq_some_iff.1 e
    have := keep_eachNet (pid := pid) (fun N N' h => ?_) e
    · exact this
    · obtain ⟨g, hg, rfl⟩ := Option.map_eq_some_iff.1 h
      unfold Graph.removeNode at hg
      split at hg
      · cases hg; rfl
      · cases hg
  | setState r u s =>
    simp only [wstep] at h
    refine keep_at (fun c' e => ?_) h k
    obtain ⟨o, _, rfl⟩ := Option.map_eq_some_iff.1 e
    exact Keep.refl _ _
  | addEdge r p u v a =>
    simp only [wstep] at h
    refine keep_at (fun c' e => ?_) h k
    obtain ⟨u', hu, e⟩ := Option.bind_eq_some_iff.1 e
    obtain ⟨v', hv, e⟩ := Option.bind_eq_some_iff.1 e
    refine keep_withNet (fun hp N N' hN he => ?_) e
    cases he
    have h1 := hc hp
    unfold Cx.containsEdge at h1
    rw [hN, hu, hv] at h1
    refine addEdge_dicts N a ?_
    have h1 : (N.g.slot u' v').isSome = false := h1
    simpa using h1
  | updateEdge r p u v a =>
    simp only [wstep] at h
    refine keep_at (fun c' e => ?_) h k
    obtain ⟨u', hu, e⟩ := Option.bind_eq_some_iff.1 e
    obtain ⟨v', hv, e⟩ := Option.bind_eq_some_iff.1 e
    exact keep_withNet (fun hp => absurd hp hc) e
  | removeEdge r p u v =>
    simp only [wstep] at h
    refine keep_at (fun c' e => ?_) h k
    obtain ⟨u', hu, e⟩ := Option.bind_eq_some_iff.1 e
    obtain ⟨v', hv, e⟩ := Option.bind_eq_some_iff.1 e
    refine keep_withNet (fun hp N N' hN he => ?_) e
    obtain ⟨g, hg, he⟩ := Option.bind_eq_some_iff.1 he
    obtain ⟨N1, h1, h2⟩ := Option.bind_eq_some_iff.1 he
    rw [removeKey_g h2, forget_g h1]
    unfold Graph.removeEdge at hg
    split at hg
    · cases hg; exact List.prefix_refl _
    · cases hg
  | clearEdges r p =>
    simp only [wstep] at h
    refine keep_at (fun c' e => ?_) h k
    refine keep_withNet (fun hp N N' hN he => ?_) e
    obtain ⟨N1, h1, rfl⟩ := Option.map_eq_some_iff.1 he
    show N.g.dicts <+: N1.g.dicts
    rw [clearOnes_g _ h1]
    exact List.prefix_refl _
  | request => exact hc.elim
  | move => exact hc.elim
  | synch => exact hc.elim

theorem keep_run {n pid : Nat} (ops : List (WOp S A)) : ∀ {w w' : World S A}, CalmRun n pid w ops → wrun n w ops = some w' → ∀ k, Keep pid (w k) (w' k) := by
  induction ops with
  | nil => intro w w' _ h k; cases h; exact Keep.refl _ _
  | cons o ops ih =>
    intro w w' hc h k
    unfold wrun at h
    rw [List.foldlM_cons, Option.bind_eq_bind] at h
    obtain ⟨w1, h1, h⟩ := Option.bind_eq_some_iff.1 h
    exact (keep_step hc.1 h1 k).trans (ih (hc.2 w1 h1) h k)

theorem dict_prefix {g g' : Graph A} (h : g.dicts <+: g'.dicts) {i : Nat} (hi : i < g.dicts.length) : g'.dict i = g.dict i := by
  obtain ⟨t, ht⟩ := h
  unfold Graph.dict
  rw [← ht, List.getElem?_append_left hi]

/-- What is pickled later is what was saved. -/
theorem read_later {c : Cx S A} {N : Net A} (hI : N.g.Inv) {g' : Graph A} (h : N.g.dicts <+: g'.dicts) (nd : Obj) : (c.refNode N nd).read g' = c.saveNode N nd := by
  unfold Cx.refNode Cx.saveNode RefNode.read
  split
  · simp only [List.map_map]
    congr 1
    · refine List.map_congr_left fun e he => ?_
      simp only [Function.comp_apply, dict_prefix h (hI.bound e (List.mem_filter.1 he).1)]
    · refine List.map_congr_left fun e he => ?_
      simp only [Function.comp_apply, dict_prefix h (hI.bound e (List.mem_filter.1 he).1)]
  · simp only [List.map_map, List.map_nil]
    congr 1
    refine List.map_congr_left fun e he => ?_
    obtain ⟨x, hx, h1⟩ := List.mem_filterMap.1 he
    have : e.2 = x.2 := by
      split at h1
      · cases h1; rfl
      · split at h1
        · cases h1; rfl
        · cases h1
    simp only [Function.comp_apply, this, dict_prefix h (hI.bound x hx)]

theorem saved_later {c c' : Cx S A} {d : Bool} (h : COk d Pend.none c) (hk : Keep 0 c c') : ((c.saveRefs 0).bind fun data => c'.pickle 0 data) = c.saveNetwork 0 := by
  obtain ⟨N', h1, h2⟩ := hk _ h.get0
  unfold Cx.saveRefs Cx.saveNetwork Cx.pickle
  rw [h.get0, Option.map_some, Option.bind_some, h1, Option.map_some, Option.map_some, List.map_map]
  congr 1
  exact List.map_congr_left fun nd _ => read_later h.net.inv h2 nd

/-! ### Theorems -/

/-- C20: the checkpoint may be pickled later, if no edge is updated in between, though agents and edges are added and removed: what is restored are the edges and attributes at the time of `save_network`, see
`C20_restored_partial`. -/
theorem C20_later_partial (d : Bool) {n : Nat} (hn : 0 < n) (ops : List (WOp S A)) (hl : LegalRun d n Sp.init ops) (w : World S A) (hw : wrun n (World.init [d]) ops = some w) (later : List (WOp S A))
    (hc : CalmRun n 0 w later) (w' : World S A) (hw' : wrun n w later = some w') (pop : Nat → List (Nat × S)) : lateTrip n d pop w w' = roundTrip n d pop w := by
  obtain ⟨w1, e, hs, hI⟩ := run_sim hn ops Sp.init (World.init [d]) (SInv.init d n) (init_sim d n) hl
  rw [hw] at e
  cases e
  have hq : ((List.range n).map fun r => ((w r).saveRefs 0).bind fun data => (w' r).pickle 0 data) = (List.range n).map fun r => (w r).saveNetwork 0 :=
    List.map_congr_left fun r hr => saved_later (hs r (List.mem_range.1 hr)).1 (keep_run later hc hw' r)
  unfold lateTrip roundTrip
  simp only [hq]

/-- What two ranks have after a history, `save_network`, another history, and the round trip. -/
def restoredLate (d : Bool) (ops later ops' : List (WOp Nat Nat)) : Option (World Nat Nat) :=
  (wrun 2 (World.init [d]) ops).bind fun w => (wrun 2 w later).bind fun w' => (lateTrip 2 d (fun r => (w r).population) w w').bind fun w => wrun 2 w ops'

/-- C20 is violated if an edge is updated between `save_network` and pickling: the edge is restored with the new attributes, though the edge that was added in between is not there; if it is an edge between two ranks,
the ranks have different attributes, and the next `synchronize` only exchanges them. -/
theorem C20_violation_changed :
    seenBy (wrun 2 (World.init [false]) linkedUp) 0 1 11 = some ⟨some 5, none, some [(0, 3)]⟩ ∧
    seenBy (restoredLate false linkedUp [.updateEdge 0 0 1 11 [(0, 4)], .addEdge 0 0 2 2 []] []) 0 1 11 = some ⟨some 5, none, some [(0, 4)]⟩ ∧
    seenBy (restoredLate false linkedUp [.updateEdge 0 0 1 11 [(0, 4)], .addEdge 0 0 2 2 []] []) 0 2 2 = some ⟨some 6, none, none⟩ ∧
    seenBy (restoredLate false linkedUp [.updateEdge 0 0 1 11 [(0, 4)]] []) 1 11 1 = some ⟨some 7, none, some [(0, 3)]⟩ ∧
    seenBy (restoredLate false linkedUp [.updateEdge 0 0 1 11 [(0, 4)]] [.synch true]) 0 1 11 = some ⟨some 5, none, some [(0, 3)]⟩ ∧
    seenBy (restoredLate false linkedUp [.updateEdge 0 0 1 11 [(0, 4)]] [.synch true]) 1 11 1 = some ⟨some 7, none, some [(0, 4)]⟩ ∧
    seenBy (wrun 2 (World.init [false]) (linkedUp ++ [.updateEdge 0 0 1 11 [(0, 4)], .synch true])) 1 11 1 = some ⟨some 7, none, some [(0, 4)]⟩ := by
  refine ⟨?_, ?_, ?_, ?_, ?_, ?_, ?_⟩ <;> decide +kernel

/-! ### Examples -/

/-- A history that is covered. -/
example : LegalRun false 2 Sp.init linkedUp := legal_of (ids := [1, 2, 11, 12]) (by decide +kernel)

/-- An edge is removed before pickling, and another is added. It is restored with its attributes, and the new one is not. -/
def calmOps : List (WOp Nat Nat) := [.removeEdge 0 0 1 2, .addEdge 0 0 2 2 [(1, 1)], .setState 0 1 8]

example : ∃ w, wrun 2 (World.init [false]) linkedUp = some w ∧ CalmRun 2 0 w calmOps ∧ (wrun 2 w calmOps).isSome = true := by
  cases h : wrun 2 (World.init [false]) linkedUp with
  | none => exact absurd (congrArg Option.isSome h) (by decide +kernel)
  | some w =>
    refine ⟨w, rfl, ⟨trivial, fun w1 h1 => ⟨fun _ => ?_, fun w2 _ => ⟨trivial, fun _ _ => trivial⟩⟩⟩, ?_⟩
    · have h2 : ((wrun 2 (World.init [false]) linkedUp).bind fun w => (wstep 2 w (.removeEdge 0 0 1 2)).map fun w1 => (w1 0).containsEdge 0 2 2) = some false := by decide +kernel
      rw [h, Option.bind_some, h1, Option.map_some] at h2
      exact Option.some.inj h2
    · have h2 : ((wrun 2 (World.init [false]) linkedUp).bind fun w => some (wrun 2 w calmOps).isSome) = some true := by decide +kernel
      rw [h, Option.bind_some] at h2
      exact Option.some.inj h2

example : seenBy (restoredLate false linkedUp calmOps []) 0 1 2 = some ⟨some 5, none, some [(0, 9)]⟩ ∧ seenBy (restoredLate false linkedUp calmOps []) 0 2 2 = some ⟨some 6, none, none⟩ := by
  refine ⟨?_, ?_⟩ <;> decide +kernel

end Repast.Network
