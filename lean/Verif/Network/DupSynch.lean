import Verif.Network.Dup

/-! Superfluous nodes do not matter for `synchronize`. Used for C44. -/
namespace Repast.Network
open Repast.Dict Repast.Context

variable {S A : Type} {d : Bool} {n : Nat}

/-- The context, with other nodes, and counts 1. -/
def Cx.like (l : List Obj) (c : Cx S A) : Cx S A := { c with nets := c.nets.map fun N => N.withNodes l, ghosted := ones c.ghosted }

def World.like (l : Nat → List Obj) (w : World S A) : World S A := fun r => (w r).like (l r)

/-- Agents are nodes, with both lists of nodes; the second is `m`. Nothing is to be sent but new edges, whose local agents are ghosts there already. -/
structure Fit (l m : List Obj) (c : Cx S A) : Prop where
  nets : c.nets = [c.net]
  nodes : c.net.g.nodes = m
  loc : ∀ u o, get c.locals u = some o → o.1 ∈ m ∧ o.1 ∈ l
  gho : ∀ u g, get c.ghosts u = some g → g.obj ∈ m ∧ g.obj ∈ l
  toRef : c.net.toRef = []
  toRemove : c.net.toRemove = []
  toUpdate : c.net.toUpdate = []
  removed : c.removed = []
  tagged : ∀ e ∈ c.net.newEdges, c.ghostedTo (c.lrank e.2.ghostA) e.2.localA.uid = true

theorem like_ghostedTo (c : Cx S A) (l : List Obj) (k u : Nat) : (c.like l).ghostedTo k u = c.ghostedTo k u := pruned_ghostedTo c k u

theorem like_nets (c : Cx S A) (l : List Obj) (pid : Nat) : (c.like l).nets[pid]? = (c.nets[pid]?).map fun N => N.withNodes l := by
  show (c.nets.map fun N => N.withNodes l)[pid]? = _
  rw [List.getElem?_map]

theorem Fit.net_like {l m : List Obj} {c : Cx S A} (h : Fit l m c) : (c.like l).net = c.net.withNodes l := by
  unfold Cx.net
  rw [like_nets, h.nets]
  rfl

theorem pruned_like {c : Cx S A} (h : c.nets = [c.net]) : c.pruned = c.like (c.net.g.nodes.filter c.live) := by
  unfold Cx.pruned Cx.like
  conv => rhs; rw [h]
  rfl

theorem like_withNet (c : Cx S A) (l : List Obj) (pid : Nat) {f f0 : Net A → Option (Net A)} (hf : ∀ N, c.nets[pid]? = some N → f0 (N.withNodes l) = (f N).map fun N => N.withNodes l) :
    (c.like l).withNet pid f0 = (c.withNet pid f).map (Cx.like l) := by
  unfold Cx.withNet
  rw [like_nets]
  cases hN : c.nets[pid]? with
  | none => rfl
  | some N =>
    simp only [Option.map_some, Option.bind_some]
    rw [hf N hN, Option.map_map, Option.map_map]
    congr 1
    funext N'
    show ({ c.like l with nets := (c.nets.map fun N => N.withNodes l).set pid (N'.withNodes l) } : Cx S A) = Cx.like l { c with nets := c.nets.set pid N' }
    unfold Cx.like
    simp only [List.map_set]

/-! ### All of the ranks -/

theorem each_like {f f0 : Nat → Option (Cx S A)} {w : World S A} {l : Nat → List Obj} (hf : ∀ r < n, f0 r = (f r).map (Cx.like (l r))) :
    each n f0 (w.like l) = (each n f w).map (World.like l) := by
  unfold each
  simp only
  have hall : (((List.range n).map f0).all (·.isSome)) = (((List.range n).map f).all (·.isSome)) := by
    rw [List.all_map, List.all_map]
    rw [Bool.eq_iff_iff, List.all_eq_true, List.all_eq_true]
    constructor
    · intro hh r hr
      have := hh r hr
      simp only [Function.comp] at this ⊢
      rw [hf r (List.mem_range.1 hr), Option.isSome_map] at this
      exact this
    · intro hh r hr
      have := hh r hr
      simp only [Function.comp] at this ⊢
      rw [hf r (List.mem_range.1 hr), Option.isSome_map]
      exact this
  rw [hall]
  split
  · rw [Option.map_some]
    congr 1
    funext r
    show _ = Cx.like (l r) ((((List.range n).map f)[r]?.bind id).getD (w r))
    by_cases hr : r < n
    · rw [get_map_range _ hr, get_map_range _ hr, hf r hr]
      cases f r <;> rfl
    · have : ∀ g : Nat → Option (Cx S A), ((List.range n).map g)[r]? = none := by intro g; simp; omega
      rw [this, this]; rfl
  · rfl

theorem each_id {f : Nat → Option (Cx S A)} {w : World S A} (hf : ∀ r < n, f r = some (w r)) : each n f w = some w := by
  unfold each
  simp only
  rw [if_pos]
  · congr 1
    funext r
    by_cases hr : r < n
    · rw [get_map_range _ hr, hf r hr]; rfl
    · have : ((List.range n).map f)[r]? = none := by simp; omega
      rw [this]; rfl
  · rw [List.all_map, List.all_eq_true]
    intro r hr
    simp only [Function.comp]
    rw [hf r (List.mem_range.1 hr)]; rfl

/-- What each rank has afterwards. -/
theorem each_get {f : Nat → Option (Cx S A)} {w w' : World S A} (h : each n f w = some w') : ∀ r < n, f r = some (w' r) := by
  intro r hr
  unfold each at h
  simp only at h
  split at h
  · rename_i ha
    obtain rfl := Option.some.inj h
    rw [List.all_map, List.all_eq_true] at ha
    have := ha r (List.mem_range.2 hr)
    simp only [Function.comp] at this
    obtain ⟨c, hc⟩ := Option.isSome_iff_exists.1 this
    simp only [get_map_range _ hr, hc]; rfl
  · cases h

theorem exchange_id {M : Type} {send : Cx S A → Option (Cx S A × List (Nat × M))} {recv1 : Cx S A → Nat × M → Option (Cx S A)} {w : World S A} (h : ∀ r < n, send (w r) = some (w r, [])) :
    exchange n send recv1 w = some w := by
  unfold exchange
  simp only
  rw [each_id (w := w) (by intro r hr; rw [get_map_range _ hr, h r hr]; rfl), Option.bind_some]
  refine each_id ?_
  intro r hr
  have : recv n (fun r => sent (((List.range n).map fun r => send (w r))[r]?.bind id)) r = [] := by
    rw [← recv_nil (M := M) (n := n) r]
    refine recv_congr ?_ r
    intro s hs
    rw [get_map_range _ hs, h s hs]; rfl
  rw [this]; rfl

theorem foldlM_like {M : Type} {f : Cx S A → M → Option (Cx S A)} {l : List Obj} {Q : Cx S A → Prop} (hf : ∀ c m, Q c → f (c.like l) m = (f c m).map (Cx.like l))
    (hq : ∀ c m c', Q c → f c m = some c' → Q c') (ms : List M) : ∀ c, Q c → ms.foldlM f (c.like l) = (ms.foldlM f c).map (Cx.like l) ∧ ∀ c', ms.foldlM f c = some c' → Q c' := by
  induction ms with
  | nil =>
    intro c hc
    refine ⟨rfl, ?_⟩
    intro c' h
    obtain rfl := Option.some.inj h
    exact hc
  | cons m ms ih =>
    intro c hc
    rw [List.foldlM_cons, List.foldlM_cons]
    have h1 := hf c m hc
    rw [h1]
    cases hm : f c m with
    | none => exact ⟨rfl, fun c' h => by cases h⟩
    | some c1 => exact ih c1 (hq c m c1 hc hm)

theorem exchange_like {M : Type} {send : Cx S A → Option (Cx S A × List (Nat × M))} {recv1 : Cx S A → Nat × M → Option (Cx S A)} {w : World S A} {l : Nat → List Obj}
    {Q : Nat → Cx S A → Prop} (hw : ∀ r < n, Q r (w r)) (hs : ∀ r c, Q r c → send (c.like (l r)) = (send c).map fun x => (x.1.like (l r), x.2))
    (hsq : ∀ r c x, Q r c → send c = some x → Q r x.1) (hr : ∀ r c m, Q r c → recv1 (c.like (l r)) m = (recv1 c m).map (Cx.like (l r))) (hrq : ∀ r c m c', Q r c → recv1 c m = some c' → Q r c') :
    exchange n send recv1 (w.like l) = (exchange n send recv1 w).map (World.like l) ∧ ∀ w', exchange n send recv1 w = some w' → ∀ r < n, Q r (w' r) := by
  unfold exchange
  simp only
  have h1 : each n (fun r => (((List.range n).map fun r => send (w.like l r))[r]?.bind id).map (·.1)) (w.like l) =
      (each n (fun r => (((List.range n).map fun r => send (w r))[r]?.bind id).map (·.1)) w).map (World.like l) := by
    refine each_like ?_
    intro r hr'
    rw [get_map_range _ hr', get_map_range _ hr']
    show (send ((w r).like (l r))).map _ = _
    rw [hs r (w r) (hw r hr'), Option.map_map, Option.map_map]
    rfl
  have hrecv : ∀ k, recv n (fun r => sent (((List.range n).map fun r => send (w.like l r))[r]?.bind id)) k = recv n (fun r => sent (((List.range n).map fun r => send (w r))[r]?.bind id)) k := by
    intro k
    refine recv_congr ?_ k
    intro r hr'
    rw [get_map_range _ hr', get_map_range _ hr']
    show sent (send ((w r).like (l r))) = _
    rw [hs r (w r) (hw r hr')]
    cases send (w r) <;> rfl
  rw [h1]
  cases he : each n (fun r => (((List.range n).map fun r => send (w r))[r]?.bind id).map (·.1)) w with
  | none => exact ⟨rfl, fun w' h => by cases h⟩
  | some w1 =>
    have hw1 : ∀ r < n, Q r (w1 r) := by
      intro r hr'
      have := each_get he r hr'
      rw [get_map_range _ hr'] at this
      obtain ⟨x, hx, hx'⟩ := Option.map_eq_some_iff.1 this
      rw [← hx']
      exact hsq r (w r) x (hw r hr') hx
    simp only [Option.map_some, Option.bind_some]
    refine ⟨?_, ?_⟩
    · simp only [hrecv]
      refine each_like ?_
      intro r hr'
      exact (foldlM_like (Q := Q r) (hr r) (hrq r) _ (w1 r) (hw1 r hr')).1
    · intro w' hw' r hr'
      exact (foldlM_like (Q := Q r) (hr r) (hrq r) _ (w1 r) (hw1 r hr')).2 _ (each_get hw' r hr')

/-! ### What one rank does -/

theorem ones_flat (m : Dict (Dict Int)) : ((ones m).flatMap fun e => (Dict.keys e.2).map fun k => (k, e.1)) = m.flatMap fun e => (Dict.keys e.2).map fun k => (k, e.1) := by
  unfold ones
  rw [List.flatMap_map]
  congr 1
  funext e
  unfold Dict.keys
  simp

theorem like_sendStates (c : Cx S A) (l : List Obj) : (c.like l).sendStates n = (c.sendStates n).map fun x => (x.1.like l, x.2) := by
  unfold Cx.sendStates
  simp only
  rw [show (c.like l).ghosted = ones c.ghosted from rfl, ones_flat, show (c.like l).locals = c.locals from rfl]
  split
  · rw [Option.map_map]; rfl
  · rfl

theorem sendStates_same {c : Cx S A} {x : Cx S A × List (Nat × Nat × S)} (h : c.sendStates n = some x) : x.1 = c := by
  unfold Cx.sendStates at h
  simp only at h
  split at h
  · obtain ⟨y, -, rfl⟩ := Option.map_eq_some_iff.1 h; rfl
  · cases h

theorem like_updateGhost (c : Cx S A) (l : List Obj) (u : Nat) (s : S) : (c.like l).updateGhost u s = (c.updateGhost u s).map (Cx.like l) := by
  unfold Cx.updateGhost
  rw [show (c.like l).ghosts = c.ghosts from rfl, Option.map_map]
  rfl

theorem Fit.updateGhost {l m : List Obj} {c c' : Cx S A} (h : Fit l m c) {u : Nat} {s : S} (hc : c.updateGhost u s = some c') : Fit l m c' := by
  unfold Cx.updateGhost at hc
  obtain ⟨g, hg, rfl⟩ := Option.map_eq_some_iff.1 hc
  exact { h with
    nets := h.nets
    nodes := h.nodes
    gho := by
      intro x g' hx
      rw [get_set] at hx
      split at hx
      · obtain rfl := Option.some.inj hx
        exact h.gho u g hg
      · exact h.gho x g' hx
    tagged := h.tagged }

theorem graph_addEdge_nodes (g : Graph A) (l : List Obj) {u v : Obj} (a : Attr A) (hu : u ∈ g.nodes) (hv : v ∈ g.nodes) (hu' : u ∈ l) (hv' : v ∈ l) :
    ({ g with nodes := l } : Graph A).addEdge u v a = { g.addEdge u v a with nodes := l } ∧ (g.addEdge u v a).nodes = g.nodes := by
  have h1 : g.addNode u = g := if_pos hu
  have h2 : g.addNode v = g := if_pos hv
  have h3 : ({ g with nodes := l } : Graph A).addNode u = { g with nodes := l } := if_pos hu'
  have h4 : ({ g with nodes := l } : Graph A).addNode v = { g with nodes := l } := if_pos hv'
  unfold Graph.addEdge
  rw [h1, h2, h3, h4]
  have h5 : ({ g with nodes := l } : Graph A).slot u v = g.slot u v := rfl
  simp only [h5]
  cases g.slot u v <;> exact ⟨rfl, rfl⟩

theorem net_put_nodes (N : Net A) (l : List Obj) {u v : Obj} (a : Attr A) (hu : u ∈ N.g.nodes) (hv : v ∈ N.g.nodes) (hu' : u ∈ l) (hv' : v ∈ l) :
    (N.withNodes l).put u v a = (N.put u v a).withNodes l ∧ (N.put u v a).g.nodes = N.g.nodes := by
  have h := graph_addEdge_nodes N.g l a hu hv hu' hv'
  unfold Net.put
  show ((N.withNodes l).g.addEdge u v a |> fun g => ({ N.withNodes l with g := g } : Net A).addKey u v) = _ ∧ _
  rw [show (N.withNodes l).g = { N.g with nodes := l } from rfl, h.1]
  unfold Net.addKey
  simp only
  have hd : ({ N.g.addEdge u v a with nodes := l } : Graph A).directed = (N.g.addEdge u v a).directed := rfl
  rw [hd]
  split
  · exact ⟨rfl, h.2⟩
  · exact ⟨rfl, h.2⟩

theorem put_queues (N : Net A) (u v : Obj) (a : Attr A) : (N.put u v a).toRef = N.toRef ∧ (N.put u v a).toRemove = N.toRemove ∧ (N.put u v a).toUpdate = N.toUpdate ∧ (N.put u v a).newEdges = N.newEdges := by
  unfold Net.put Net.addKey
  split <;> exact ⟨rfl, rfl, rfl, rfl⟩

theorem Fit.ends {l m : List Obj} {c : Cx S A} (h : Fit l m c) {u v : Nat} {e : Obj × Obj × Obj} (he : c.ends u v = some e) : e.1 ∈ m ∧ e.1 ∈ l ∧ e.2.1 ∈ m ∧ e.2.1 ∈ l := by
  unfold Cx.ends at he
  split at he
  · obtain ⟨o, ho, h2⟩ := Option.bind_eq_some_iff.1 he
    obtain ⟨g, hg, rfl⟩ := Option.map_eq_some_iff.1 h2
    have a := h.loc _ _ ho
    have b := h.gho _ _ hg
    exact ⟨a.1, a.2, b.1, b.2⟩
  · rename_i g hg
    obtain ⟨o, ho, rfl⟩ := Option.map_eq_some_iff.1 he
    have a := h.loc _ _ ho
    have b := h.gho _ _ hg
    exact ⟨b.1, b.2, a.1, a.2⟩

theorem Fit.get0 {l m : List Obj} {c : Cx S A} (h : Fit l m c) : c.nets[0]? = some c.net := by rw [h.nets]; rfl

theorem Fit.recvEdge {l m : List Obj} {c : Cx S A} (h : Fit l m c) (x : Nat × Nat × Attr A) :
    (c.like l).recvEdge 0 x = (c.recvEdge 0 x).map (Cx.like l) ∧ ∀ c', c.recvEdge 0 x = some c' → Fit l m c' := by
  unfold Cx.recvEdge
  rw [show (c.like l).ends x.1 x.2.1 = c.ends x.1 x.2.1 from rfl]
  cases he : c.ends x.1 x.2.1 with
  | none => exact ⟨rfl, fun c' h => by cases h⟩
  | some e =>
    obtain ⟨a1, a2, a3, a4⟩ := h.ends he
    simp only [Option.bind_some]
    refine ⟨?_, ?_⟩
    · refine like_withNet c l 0 ?_
      intro N hN
      rw [h.get0] at hN
      obtain rfl := Option.some.inj hN
      rw [Option.map_some, (net_put_nodes c.net l x.2.2 (by rw [h.nodes]; exact a1) (by rw [h.nodes]; exact a3) a2 a4).1]
    · intro c' hc'
      unfold Cx.withNet at hc'
      rw [h.get0] at hc'
      obtain rfl := Option.some.inj hc'
      have hnets : c.nets.set 0 (c.net.put e.1 e.2.1 x.2.2) = [c.net.put e.1 e.2.1 x.2.2] := by rw [h.nets]; rfl
      show Fit l m { c with nets := c.nets.set 0 (c.net.put e.1 e.2.1 x.2.2) }
      rw [hnets]
      have hf := put_queues c.net e.1 e.2.1 x.2.2
      exact {
        nets := rfl
        nodes := (net_put_nodes c.net l x.2.2 (by rw [h.nodes]; exact a1) (by rw [h.nodes]; exact a3) a2 a4).2.trans h.nodes
        loc := h.loc
        gho := h.gho
        toRef := hf.1.trans h.toRef
        toRemove := hf.2.1.trans h.toRemove
        toUpdate := hf.2.2.1.trans h.toUpdate
        removed := h.removed
        tagged := by
          intro e' he'
          have : e' ∈ (c.net.put e.1 e.2.1 x.2.2).newEdges := he'
          rw [hf.2.2.2] at this
          exact h.tagged e' this }

/-- A new edge to a rank where the agent is a ghost already. -/
theorem sendNew_tagged {acc : Cx S A × Sync S A} {e : EKey × GEdge} (h : acc.1.ghostedTo (acc.1.lrank e.2.ghostA) e.2.localA.uid = true) :
    Cx.sendNew n 0 acc e = if acc.1.lrank e.2.ghostA < n then (acc.1.nets[0]?).map fun N =>
      ({ acc.1 with nets := acc.1.nets.set 0 { N with ghosted := Assoc.set N.ghosted e.1 e.2 } }, ⟨acc.2.agents, acc.2.edges ++ [(acc.1.lrank e.2.ghostA, e.1.1.uid, e.1.2.uid, N.g.dict e.2.dict)]⟩) else none := by
  unfold Cx.sendNew Cx.withNet
  simp only
  split
  · cases acc.1.nets[0]? with
    | none => rfl
    | some N =>
      simp only [Option.bind_some, Option.map_some]
      rw [if_pos (show ({ acc.1 with nets := acc.1.nets.set 0 { N with ghosted := Assoc.set N.ghosted e.1 e.2 } } : Cx S A).ghostedTo (acc.1.lrank e.2.ghostA) e.2.localA.uid = true from h)]
      rfl
  · rfl

theorem sendNew_like (l : List Obj) (es : List (EKey × GEdge)) : ∀ (acc : Cx S A × Sync S A), (∀ e ∈ es, acc.1.ghostedTo (acc.1.lrank e.2.ghostA) e.2.localA.uid = true) →
    acc.1.nets = [acc.1.net] → es.foldlM (Cx.sendNew n 0) (acc.1.like l, acc.2) = (es.foldlM (Cx.sendNew n 0) acc).map (fun x => (x.1.like l, x.2)) ∧
    ∀ x, es.foldlM (Cx.sendNew n 0) acc = some x → x.2.agents = acc.2.agents ∧ ∃ G, x.1 = { acc.1 with nets := [{ acc.1.net with ghosted := G }] } := by
  induction es with
  | nil =>
    intro acc _ hn
    refine ⟨rfl, ?_⟩
    intro x hx
    obtain rfl := Option.some.inj hx
    refine ⟨rfl, acc.1.net.ghosted, ?_⟩
    show acc.1 = { acc.1 with nets := [acc.1.net] }
    rw [← hn]
  | cons e es ih =>
    intro acc ht hn
    have hg0 : acc.1.nets[0]? = some acc.1.net := by rw [hn]; rfl
    rw [List.foldlM_cons, List.foldlM_cons, sendNew_tagged (ht e (List.mem_cons_self ..)),
      sendNew_tagged (acc := (acc.1.like l, acc.2)) (by show (acc.1.like l).ghostedTo _ _ = true; rw [like_ghostedTo]; exact ht e (List.mem_cons_self ..))]
    show Option.bind (if acc.1.lrank e.2.ghostA < n then _ else _) _ = _ ∧ _
    by_cases hk : acc.1.lrank e.2.ghostA < n
    · rw [if_pos hk, if_pos hk, hg0]
      show Option.bind (((acc.1.like l).nets[0]?).map _) _ = _ ∧ _
      rw [like_nets, hg0]
      simp only [Option.map_some]
      have hset : acc.1.nets.set 0 { acc.1.net with ghosted := Assoc.set acc.1.net.ghosted e.1 e.2 } = [{ acc.1.net with ghosted := Assoc.set acc.1.net.ghosted e.1 e.2 }] := by rw [hn]; rfl
      have hset' : (acc.1.like l).nets.set 0 { acc.1.net.withNodes l with ghosted := Assoc.set (acc.1.net.withNodes l).ghosted e.1 e.2 } = [{ acc.1.net.withNodes l with ghosted := Assoc.set acc.1.net.ghosted e.1 e.2 }] := by
        show (acc.1.nets.map _).set 0 _ = _
        rw [hn]; rfl
      rw [hset, hset']
      have hi := ih ({ acc.1 with nets := [{ acc.1.net with ghosted := Assoc.set acc.1.net.ghosted e.1 e.2 }] }, ⟨acc.2.agents, acc.2.edges ++ [(acc.1.lrank e.2.ghostA, e.1.1.uid, e.1.2.uid, acc.1.net.g.dict e.2.dict)]⟩)
        (fun e' he' => ht e' (List.mem_cons_of_mem _ he')) rfl
      refine ⟨hi.1, ?_⟩
      intro x hx
      obtain ⟨h1, G, h2⟩ := hi.2 x hx
      exact ⟨h1, G, h2⟩
    · rw [if_neg hk, if_neg hk]
      exact ⟨rfl, fun x hx => by cases hx⟩

theorem Fit.sendSync {l m : List Obj} {c : Cx S A} (h : Fit l m c) :
    (c.like l).sendSync n 0 = (c.sendSync n 0).map (fun x => (x.1.like l, x.2)) ∧ ∀ x, c.sendSync n 0 = some x → x.2.agents = [] ∧ Fit l m x.1 := by
  unfold Cx.sendSync
  rw [like_nets, h.get0]
  simp only [Option.map_some, Option.bind_some]
  rw [show (c.net.withNodes l).newEdges = c.net.newEdges from rfl, show (c.net.withNodes l).toUpdate = c.net.toUpdate from rfl, h.toUpdate]
  obtain ⟨h1, h2⟩ := sendNew_like (n := n) l c.net.newEdges (c, ⟨[], []⟩) h.tagged h.nets
  simp only at h1
  rw [h1]
  cases hf : c.net.newEdges.foldlM (Cx.sendNew n 0) (c, ⟨[], []⟩) with
  | none => exact ⟨rfl, fun x hx => by cases hx⟩
  | some y =>
    obtain ⟨g1, G, g2⟩ := h2 y hf
    simp only [Option.map_some, Option.bind_some, List.foldlM_nil]
    show Option.bind (some _) _ = _ ∧ ∀ x, Option.bind (some _) _ = _ → _
    simp only [Option.bind_some]
    refine ⟨?_, ?_⟩
    · rw [like_withNet y.1 l 0 (f := fun N => some { N with newEdges := [], toUpdate := [] }) (by intro N _; rfl), Option.map_map]
      show _ = Option.map _ (Option.map _ _)
      rw [Option.map_map]
      rfl
    · intro x hx
      obtain ⟨z, hz, rfl⟩ := Option.map_eq_some_iff.1 hx
      refine ⟨g1, ?_⟩
      rw [g2] at hz
      have hz' : some ({ c with nets := [{ c.net with ghosted := G, newEdges := [], toUpdate := [] }] } : Cx S A) = some z := hz
      obtain rfl := Option.some.inj hz'
      exact { h with
        nets := rfl
        nodes := h.nodes
        toRef := h.toRef
        toRemove := h.toRemove
        toUpdate := rfl
        tagged := by intro e he; cases he }

theorem Fit.sendRefs {l m : List Obj} {c : Cx S A} (h : Fit l m c) : c.sendRefs n 0 = some (c, []) := by
  unfold Cx.sendRefs Cx.withNet
  rw [h.get0]
  simp only [Option.bind_some]
  rw [h.toRef]
  simp only [List.foldlM_nil]
  show Option.bind (some _) _ = _
  rw [Option.bind_some]
  simp only [h.get0, Option.bind_some, Option.map_some]
  have : c.nets.set 0 { c.net with toRef := [] } = c.nets := by
    conv => lhs; rw [h.nets]
    show [{ c.net with toRef := [] }] = c.nets
    have h2 : ({ c.net with toRef := [] } : Net A) = c.net := by
      have := h.toRef
      generalize c.net = N at this
      cases N
      simp only at this
      subst this; rfl
    rw [h2, ← h.nets]
  rw [this]

theorem Fit.sendRemoved {l m : List Obj} {c : Cx S A} (h : Fit l m c) : c.sendRemoved n 0 = some (c, []) := by
  unfold Cx.sendRemoved Cx.withNet
  rw [h.get0]
  simp only [Option.bind_some]
  rw [h.toRemove]
  simp only [List.foldlM_nil]
  show Option.bind (some _) _ = _
  rw [Option.bind_some]
  simp only [h.get0, Option.bind_some, Option.map_some]
  have : c.nets.set 0 { c.net with toRemove := [] } = c.nets := by
    conv => lhs; rw [h.nets]
    show [{ c.net with toRemove := [] }] = c.nets
    have h2 : ({ c.net with toRemove := [] } : Net A) = c.net := by
      have := h.toRemove
      generalize c.net = N at this
      cases N
      simp only at this
      subst this; rfl
    rw [h2, ← h.nets]
  rw [this]

theorem Fit.sendRemovedAgents {l m : List Obj} {c : Cx S A} (h : Fit l m c) : c.sendRemovedAgents n = some (c, []) := by
  unfold Cx.sendRemovedAgents
  simp only
  rw [h.removed]
  show some (({ c with removed := [] } : Cx S A), ([] : List (Nat × Nat))) = _
  have := h.removed
  cases c
  simp only at this
  subst this; rfl

theorem Fit.like {l m : List Obj} {c : Cx S A} (h : Fit l m c) : Fit l l (c.like l) where
  nets := by rw [h.net_like]; show c.nets.map _ = _; rw [h.nets]; rfl
  nodes := by rw [h.net_like]; rfl
  loc := fun u o ho => ⟨(h.loc u o ho).2, (h.loc u o ho).2⟩
  gho := fun u g hg => ⟨(h.gho u g hg).2, (h.gho u g hg).2⟩
  toRef := by rw [h.net_like]; exact h.toRef
  toRemove := by rw [h.net_like]; exact h.toRemove
  toUpdate := by rw [h.net_like]; exact h.toUpdate
  removed := h.removed
  tagged := by
    rw [h.net_like]
    intro e he
    rw [like_ghostedTo]
    exact h.tagged e he

theorem recv_none {M : Type} {out : Nat → List (Nat × M)} (h : ∀ r < n, out r = []) (k : Nat) : recv n out k = [] := by
  rw [recv_congr (out' := fun _ => []) h k, recv_nil]

/-- Superfluous nodes do not matter for `synchronize`. -/
theorem synchronize_like (hn : 0 < n) {w : World S A} {l m : Nat → List Obj} (hw : ∀ r < n, Fit (l r) (m r) (w r)) :
    synchronize n true (w.like l) = (synchronize n true w).map (World.like l) ∧ ∀ w', synchronize n true w = some w' → ∀ r < n, Fit (l r) (m r) (w' r) := by
  have hw0 : ∀ r < n, Fit (l r) (l r) (w.like l r) := fun r hr => (hw r hr).like
  have hcount : ∀ {v : World S A} {l' m' : Nat → List Obj}, (∀ r < n, Fit (l' r) (m' r) (v r)) → v.count = 1 := by
    intro v l' m' hv
    unfold World.count
    rw [(hv 0 hn).nets]; rfl
  have hpre : ∀ {v : World S A} {l' m' : Nat → List Obj}, (∀ r < n, Fit (l' r) (m' r) (v r)) → eachPid (preSynchNet n) v = some v := by
    intro v l' m' hv
    rw [eachPid_one (hcount hv)]
    exact exchange_id fun r hr => (hv r hr).sendRefs
  have hup : ∀ {v : World S A} {l' m' : Nat → List Obj}, (∀ r < n, Fit (l' r) (m' r) (v r)) →
      updateGhosts n v = exchange n (fun c => c.sendStates n) (fun c m => c.updateGhost m.2.1 m.2.2) v := by
    intro v l' m' hv
    unfold updateGhosts
    rw [exchange_id fun r hr => (hv r hr).sendRemovedAgents]
    rfl
  unfold synchronize
  rw [if_pos rfl, if_pos rfl, hpre hw, hpre hw0, Option.bind_some, Option.bind_some, hup hw, hup hw0]
  obtain ⟨e1, e2⟩ := exchange_like (n := n) (w := w) (l := l) (Q := fun r c => Fit (l r) (m r) c) (send := fun c => c.sendStates n) (recv1 := fun c m => c.updateGhost m.2.1 m.2.2) hw
    (fun r c _ => like_sendStates c (l r)) (fun r c x hc hx => by rw [sendStates_same hx]; exact hc) (fun r c m _ => like_updateGhost c (l r) _ _) (fun r c m c' hc hx => hc.updateGhost hx)
  rw [e1]
  cases hx : exchange n (fun c => c.sendStates n) (fun c m => c.updateGhost m.2.1 m.2.2) w with
  | none => exact ⟨rfl, fun w' h => by cases h⟩
  | some w1 =>
    have hw1 := e2 w1 hx
    have hw1' : ∀ r < n, Fit (l r) (l r) (w1.like l r) := fun r hr => (hw1 r hr).like
    simp only [Option.map_some, Option.bind_some]
    rw [eachPid_one (hcount hw1), eachPid_one (hcount hw1')]
    unfold synchNet
    rw [exchange_id fun r hr => (hw1 r hr).sendRemoved, exchange_id fun r hr => (hw1' r hr).sendRemoved]
    simp only [Option.bind_some]
    have hs1 : each n (fun r => (((List.range n).map fun r => (w1.like l r).sendSync n 0)[r]?.bind id).map (·.1)) (w1.like l) =
        (each n (fun r => (((List.range n).map fun r => (w1 r).sendSync n 0)[r]?.bind id).map (·.1)) w1).map (World.like l) := by
      refine each_like ?_
      intro r hr
      rw [get_map_range _ hr, get_map_range _ hr]
      show (((w1 r).like (l r)).sendSync n 0).map _ = _
      rw [(hw1 r hr).sendSync.1, Option.map_map, Option.map_map]
      rfl
    rw [hs1]
    have hag0 : ∀ k, recv n (fun s => sentAgents (((List.range n).map fun r => (w1.like l r).sendSync n 0)[s]?.bind id)) k = [] := by
      refine recv_none ?_
      intro r hr
      rw [get_map_range _ hr]
      show sentAgents (((w1 r).like (l r)).sendSync n 0) = []
      rw [(hw1 r hr).sendSync.1]
      cases hy : (w1 r).sendSync n 0 with
      | none => rfl
      | some y => exact ((hw1 r hr).sendSync.2 y hy).1
    have hag : ∀ k, recv n (fun s => sentAgents (((List.range n).map fun r => (w1 r).sendSync n 0)[s]?.bind id)) k = [] := by
      refine recv_none ?_
      intro r hr
      rw [get_map_range _ hr]
      cases hy : (w1 r).sendSync n 0 with
      | none => rfl
      | some y => exact ((hw1 r hr).sendSync.2 y hy).1
    have hed : ∀ k, recv n (fun s => sentEdges (((List.range n).map fun r => (w1.like l r).sendSync n 0)[s]?.bind id)) k = recv n (fun s => sentEdges (((List.range n).map fun r => (w1 r).sendSync n 0)[s]?.bind id)) k := by
      intro k
      refine recv_congr ?_ k
      intro r hr
      rw [get_map_range _ hr, get_map_range _ hr]
      show sentEdges (((w1 r).like (l r)).sendSync n 0) = _
      rw [(hw1 r hr).sendSync.1]
      cases (w1 r).sendSync n 0 <;> rfl
    cases hy : each n (fun r => (((List.range n).map fun r => (w1 r).sendSync n 0)[r]?.bind id).map (·.1)) w1 with
    | none => exact ⟨rfl, fun w' h => by cases h⟩
    | some w2 =>
      have hw2 : ∀ r < n, Fit (l r) (m r) (w2 r) := by
        intro r hr
        have := each_get hy r hr
        rw [get_map_range _ hr] at this
        obtain ⟨x, hx, hx'⟩ := Option.map_eq_some_iff.1 this
        rw [← hx']
        exact ((hw1 r hr).sendSync.2 x hx).2
      simp only [Option.map_some, Option.bind_some, hag, hag0, List.foldlM_nil]
      rw [each_id (w := w2) (f := fun r => pure (w2 r)) (fun r hr => rfl), each_id (w := w2.like l) (f := fun r => pure (w2.like l r)) (fun r hr => rfl)]
      simp only [Option.bind_some, hed]
      refine ⟨?_, ?_⟩
      · refine each_like ?_
        intro r hr
        exact (foldlM_like (Q := Fit (l r) (m r)) (fun c m hc => (hc.recvEdge m.2).1) (fun c m c' hc hx => (hc.recvEdge m.2).2 c' hx) _ (w2 r) (hw2 r hr)).1
      · intro w' hw' r hr
        exact (foldlM_like (Q := Fit (l r) (m r)) (fun c m hc => (hc.recvEdge m.2).1) (fun c m c' hc hx => (hc.recvEdge m.2).2 c' hx) _ (w2 r) (hw2 r hr)).2 _ (each_get hw' r hr)

end Repast.Network
