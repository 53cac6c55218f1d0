import Verif.Mixed.Violations
import Verif.Context.CSpace

/-
C70: projections that are added to a context that has agents already (context.py:71-94).
-/
namespace Repast.Mixed
open Repast.Dict Repast.Context Repast.Network Repast.Space Repast.Topology Repast.Tree

variable {S A P Q : Type} [Proj P Q]

/-! ### Model -/

/-- core.py:277-285: the reference counts of the ghosts are incremented. -/
def countGhosts (g : Dict (Gh S)) : Dict (Gh S) := g.map fun e => (e.1, { e.2 with ref := e.2.ref + 1 })

/-- context.py:71-94 `add_projection` of a new network: the local agents and then the ghosts are added to it. -/
def Mx.addNet (c : Mx S A P) (directed : Bool) : Mx S A P :=
  { c with nc := { c.nc with
      nets := c.nc.nets ++ [(Net.empty directed).addNodes (c.nc.locals.map (·.2.1) ++ c.nc.ghosts.map (·.2.obj))]
      ghosts := countGhosts c.nc.ghosts } }

/-- context.py:71-94 `add_projection` of a new shared space. -/
def Mx.addSpace (c : Mx S A P) (p : P) : Mx S A P :=
  { c with
      nc := { c.nc with others := c.nc.others + 1, ghosts := countGhosts c.nc.ghosts }
      spaces := c.spaces ++ [{ sp := (keys c.nc.locals ++ keys c.nc.ghosts).foldl (fun p u => Proj.add c.nc.rank p u) p, buffered := [] }] }

/-- Each rank adds a network to its context. -/
def World.addNet (w : World S A P) (directed : Bool) : World S A P := fun r => (w r).addNet directed

/-- Each rank adds a shared space to its context. -/
def World.addSpace (w : World S A P) (p : P) : World S A P := fun r => (w r).addSpace p

/-! ### Specification -/

/-- What a model does before its first `synchronize` or `request_agents`: it adds agents, each once, removes agents, changes their states, moves them in the `np` shared spaces of the context and links
them in its `nn` networks. `present` are the agents of the ranks. -/
def SetUp (np nn : Nat) : List (Nat × Nat) → List (WOp S A Q) → Prop
  | _, [] => True
  | present, .add r u _ :: ops => (r, u) ∉ present ∧ SetUp np nn ((r, u) :: present) ops
  | present, .remove r u :: ops => SetUp np nn (present.filter fun e => decide (e ≠ (r, u))) ops
  | present, .setState _ _ _ :: ops => SetUp np nn present ops
  | present, .gmove _ pid _ _ :: ops => pid < np ∧ SetUp np nn present ops
  | present, .addEdge _ pid _ _ _ :: ops => pid < nn ∧ SetUp np nn present ops
  | present, .updateEdge _ pid _ _ _ :: ops => pid < nn ∧ SetUp np nn present ops
  | present, .removeEdge _ pid _ _ :: ops => pid < nn ∧ SetUp np nn present ops
  | present, .clearEdges _ pid :: ops => pid < nn ∧ SetUp np nn present ops
  | _, .request _ :: _ => False
  | _, .move _ :: _ => False
  | _, .synch _ :: _ => False

/-! ### Contexts without ghosts -/

/-- There are no ghosts, and each agent object has the unique id that it is listed with. -/
structure Plain (np nn r : Nat) (present : List (Nat × Nat)) (c : Mx S A P) : Prop where
  rank : c.nc.rank = r
  ghosts : c.nc.ghosts = []
  ok : Dict.Ok c.nc.locals
  uid : ∀ e ∈ c.nc.locals, e.2.1.uid = e.1
  sps : c.spaces.length = np
  nets : c.nc.nets.length = nn
  here : ∀ u, (get c.nc.locals u).isSome = true → (r, u) ∈ present

/-- How a context is extended. -/
structure Ext (np nn : Nat) (E : Mx S A P → Mx S A P) : Prop where
  add : ∀ {r present c u s}, Plain np nn r present c → (r, u) ∉ present → (E c).add u s = E (c.add u s)
  remove : ∀ {r present c u}, Plain np nn r present c → (E c).remove u = (c.remove u).map E
  setState : ∀ {r present c u s}, Plain np nn r present c → ((E c).onNet fun x => x.setState u s) = (c.onNet fun x => x.setState u s).map E
  gmove : ∀ {r present c pid u} {pt : Q}, Plain np nn r present c → pid < np → (E c).gmove pid u pt = (c.gmove pid u pt).map E
  same : ∀ {r present c}, Plain np nn r present c → (E c).nc.find = c.nc.find ∧ (E c).nc.rank = c.nc.rank ∧ (E c).nc.lrank = c.nc.lrank
  net : ∀ {r present c pid} {f : Net A → Option (Net A)}, Plain np nn r present c → pid < nn →
    ((E c).onNet fun x => x.withNet pid f) = (c.onNet fun x => x.withNet pid f).map E

variable {np nn r : Nat} {present : List (Nat × Nat)} {c c' : Mx S A P}

theorem Plain.fresh (h : Plain np nn r present c) {u : Nat} (hu : (r, u) ∉ present) : get c.nc.locals u = none := by
  cases e : get c.nc.locals u with
  | none => rfl
  | some o => exact absurd (h.here u (by rw [e]; rfl)) hu

theorem set_new {α : Type} {d : Dict α} {k : Nat} {v : α} (h : get d k = none) : Dict.set d k v = d ++ [(k, v)] := by
  induction d with
  | nil => rfl
  | cons e d ih =>
    rw [get_cons] at h
    split at h
    · cases h
    · next hk => simp only [Dict.set, if_neg hk, List.cons_append, ih h]

theorem mem_set {α : Type} {d : Dict α} {k : Nat} {v : α} {e : Nat × α} (h : e ∈ Dict.set d k v) : e = (k, v) ∨ e ∈ d := by
  induction d with
  | nil => simp only [Dict.set, List.mem_singleton] at h; exact .inl h
  | cons x d ih =>
    simp only [Dict.set] at h
    split at h
    · next hk =>
      rcases List.mem_cons.1 h with h | h
      · left; rw [h, ← hk]
      · exact .inr (List.mem_cons_of_mem _ h)
    · rcases List.mem_cons.1 h with h | h
      · exact .inr (h ▸ List.mem_cons_self)
      · rcases ih h with h | h
        · exact .inl h
        · exact .inr (List.mem_cons_of_mem _ h)

theorem Plain.add (h : Plain np nn r present c) {u : Nat} {s : S} : Plain np nn r ((r, u) :: present) (c.add u s) := by
  refine ⟨h.rank, h.ghosts, ?_, ?_, ?_, ?_, ?_⟩
  · exact h.ok.set _ _
  · intro e he
    rcases mem_set he with rfl | he
    · rfl
    · exact h.uid e he
  · simp only [Mx.add, Mx.spacesAdd, List.length_map]; exact h.sps
  · show (List.map _ c.nc.nets).length = nn
    rw [List.length_map]; exact h.nets
  · intro v hv
    have hv : (get (Dict.set c.nc.locals u ((⟨u, c.nc.fresh⟩ : Obj), s)) v).isSome = true := hv
    rw [get_set] at hv
    split at hv
    · next e => subst e; exact List.mem_cons_self
    · exact List.mem_cons_of_mem _ (h.here v hv)

theorem Plain.more (h : Plain np nn r present c) {present' : List (Nat × Nat)} (hp : ∀ u, (r, u) ∈ present → (r, u) ∈ present') : Plain np nn r present' c :=
  ⟨h.rank, h.ghosts, h.ok, h.uid, h.sps, h.nets, fun u hu => hp u (h.here u hu)⟩

theorem mapM_length {α β : Type} {f : α → Option β} {l : List α} {m : List β} (h : l.mapM f = some m) : m.length = l.length := by
  induction l generalizing m with
  | nil => rw [List.mapM_nil] at h; cases h; rfl
  | cons a l ih =>
    rw [List.mapM_cons, Option.bind_eq_bind] at h
    obtain ⟨b, -, h⟩ := Option.bind_eq_some_iff.1 h
    rw [Option.bind_eq_bind] at h
    obtain ⟨m', hm, h⟩ := Option.bind_eq_some_iff.1 h
    cases h
    rw [List.length_cons, List.length_cons, ih hm]

theorem Plain.remove (h : Plain np nn r present c) {u : Nat} (e : c.remove u = some c') : Plain np nn r (present.filter fun e => decide (e ≠ (r, u))) c' := by
  unfold Mx.remove Mx.onNet Network.Cx.remove at e
  rw [Option.map_eq_some_iff] at e
  obtain ⟨c1, e, rfl⟩ := e
  rw [Option.map_eq_some_iff] at e
  obtain ⟨n1, e, rfl⟩ := e
  obtain ⟨o, ho, e⟩ := Option.bind_eq_some_iff.1 e
  simp only [Network.Cx.eachNet] at e
  rw [Option.map_eq_some_iff] at e
  obtain ⟨ns, hn, rfl⟩ := e
  refine ⟨h.rank, h.ghosts, ?_, ?_, ?_, ?_, ?_⟩
  · exact h.ok.del u
  · intro e he
    exact h.uid e (List.mem_filter.1 he).1
  · simp only [Mx.spacesRemove, List.length_map]; exact h.sps
  · show ns.length = nn
    rw [mapM_length hn]; exact h.nets
  · intro v hv
    have hv : (get (del c.nc.locals u) v).isSome = true := hv
    rw [get_del] at hv
    split at hv
    · cases hv
    · next hne =>
      refine List.mem_filter.2 ⟨h.here v hv, ?_⟩
      simp only [ne_eq, Prod.mk.injEq, true_and, decide_eq_true_eq]
      exact fun c => hne c.symm

theorem Plain.setState (h : Plain np nn r present c) {u : Nat} {s : S} (e : (c.onNet fun x => x.setState u s) = some c') : Plain np nn r present c' := by
  unfold Mx.onNet Network.Cx.setState at e
  rw [Option.map_eq_some_iff] at e
  obtain ⟨n1, e, rfl⟩ := e
  rw [Option.map_eq_some_iff] at e
  obtain ⟨o, ho, rfl⟩ := e
  refine ⟨h.rank, h.ghosts, h.ok.set _ _, ?_, h.sps, h.nets, ?_⟩
  · intro e he
    rcases mem_set he with rfl | he
    · exact h.uid (u, o) (mem_of_get ho)
    · exact h.uid e he
  · intro v hv
    have hv : (get (Dict.set c.nc.locals u (o.1, s)) v).isSome = true := hv
    rw [get_set] at hv
    split at hv
    · next e => subst e; exact h.here u (by rw [ho]; rfl)
    · exact h.here v hv

theorem Plain.gmove (h : Plain np nn r present c) {pid u : Nat} {pt : Q} (e : c.gmove pid u pt = some c') : Plain np nn r present c' := by
  unfold Mx.gmove Mx.spMove Mx.onSpace at e
  obtain ⟨_, -, e⟩ := Option.bind_eq_some_iff.1 e
  obtain ⟨g, -, e⟩ := Option.bind_eq_some_iff.1 e
  rw [Option.map_eq_some_iff] at e
  obtain ⟨g', -, rfl⟩ := e
  exact ⟨h.rank, h.ghosts, h.ok, h.uid, by simp only [List.length_set]; exact h.sps, h.nets, h.here⟩

theorem Plain.net (h : Plain np nn r present c) {pid : Nat} {f : Net A → Option (Net A)} (e : (c.onNet fun x => x.withNet pid f) = some c') : Plain np nn r present c' := by
  unfold Mx.onNet Network.Cx.withNet at e
  rw [Option.map_eq_some_iff] at e
  obtain ⟨n1, e, rfl⟩ := e
  obtain ⟨N, -, e⟩ := Option.bind_eq_some_iff.1 e
  rw [Option.map_eq_some_iff] at e
  obtain ⟨N', -, rfl⟩ := e
  exact ⟨h.rank, h.ghosts, h.ok, h.uid, h.sps, by simp only [List.length_set]; exact h.nets, h.here⟩

/-! ### Extended contexts -/

variable {E : Mx S A P → Mx S A P}

/-- A step of one rank. -/
theorem at_ext {n r : Nat} {f : Mx S A P → Option (Mx S A P)} {w : World S A P} (h : f (E (w r)) = (f (w r)).map E) :
    at_ n r f (fun k => E (w k)) = (at_ n r f w).map fun w k => E (w k) := by
  unfold Mixed.at_
  split
  · rw [h, Option.map_map, Option.map_map]
    congr 1
    funext c k
    simp only [Function.comp_apply]
    split <;> rfl
  · rfl

theorem at_plain {n r : Nat} {f : Mx S A P → Option (Mx S A P)} {w w' : World S A P} {present' : List (Nat × Nat)} (h : ∀ k, Plain np nn k present (w k)) (e : at_ n r f w = some w')
    (hf : ∀ c', f (w r) = some c' → Plain np nn r present' c') (hp : ∀ k, k ≠ r → ∀ u, (k, u) ∈ present → (k, u) ∈ present') : ∀ k, Plain np nn k present' (w' k) := by
  unfold Mixed.at_ at e
  split at e
  · rw [Option.map_eq_some_iff] at e
    obtain ⟨c', hc, rfl⟩ := e
    intro k
    by_cases hk : k = r
    · subst hk; simp only [if_true]; exact hf c' hc
    · simp only [if_neg hk]; exact (h k).more (hp k hk)
  · cases e

/-- A call of a method of a network with two agents. -/
theorem link_ext (hE : Ext np nn E) (h : Plain np nn r present c) {pid : Nat} (hp : pid < nn) (u v : Nat) (F : Nat → (Obj → Nat) → Obj → Obj → Net A → Option (Net A)) :
    ((E c).onNet fun x => (x.find u).bind fun u => (x.find v).bind fun v => x.withNet pid fun N => F x.rank x.lrank u v N) =
      (c.onNet fun x => (x.find u).bind fun u => (x.find v).bind fun v => x.withNet pid fun N => F x.rank x.lrank u v N).map E := by
  obtain ⟨h1, h2, h3⟩ := hE.same h
  have key := fun f => hE.net h hp (f := f)
  simp only [Mx.onNet] at key ⊢
  rw [h1, h2, h3]
  cases c.nc.find u with
  | none => rfl
  | some a =>
    cases c.nc.find v with
    | none => rfl
    | some b => exact key _

theorem link_plain (h : Plain np nn r present c) {pid : Nat} {u v : Nat} {F : Nat → (Obj → Nat) → Obj → Obj → Net A → Option (Net A)}
    (e : (c.onNet fun x => (x.find u).bind fun u => (x.find v).bind fun v => x.withNet pid fun N => F x.rank x.lrank u v N) = some c') : Plain np nn r present c' := by
  cases hu : c.nc.find u with
  | none => simp only [Mx.onNet, hu, Option.bind_none, Option.map_none] at e; cases e
  | some a =>
    cases hv : c.nc.find v with
    | none => simp only [Mx.onNet, hu, hv, Option.bind_some, Option.bind_none, Option.map_none] at e; cases e
    | some b =>
      refine h.net (pid := pid) (f := F c.nc.rank c.nc.lrank a b) ?_
      simp only [Mx.onNet, hu, hv, Option.bind_some] at e
      exact e

theorem clear_ext (hE : Ext np nn E) (h : Plain np nn r present c) {pid : Nat} (hp : pid < nn) :
    ((E c).onNet fun x => x.clearEdges pid) = (c.onNet fun x => x.clearEdges pid).map E := by
  obtain ⟨h1, h2, h3⟩ := hE.same h
  have key := hE.net h hp (f := fun N => N.clearEdges c.nc.rank c.nc.lrank)
  simp only [Mx.onNet, Network.Cx.clearEdges] at key ⊢
  rw [h2, h3]
  exact key

/-- A history of the extended contexts is that of the contexts. -/
theorem run_ext (hE : Ext np nn E) (n : Nat) (nf : Bool) : ∀ (ops : List (WOp S A Q)) (present : List (Nat × Nat)) (w : World S A P), (∀ k, Plain np nn k present (w k)) → SetUp np nn present ops →
    wrun n nf (fun k => E (w k)) ops = (wrun n nf w ops).map fun w k => E (w k) := by
  intro ops
  induction ops with
  | nil => intro present w _ _; rfl
  | cons o ops ih =>
    intro present w h hs
    have go : ∀ (present' : List (Nat × Nat)) (r : Nat) (f : Mx S A P → Option (Mx S A P)), (∀ w, wstep n nf w o = Mixed.at_ n r f w) → f (E (w r)) = (f (w r)).map E →
        (∀ c', f (w r) = some c' → Plain np nn r present' c') → (∀ k, k ≠ r → ∀ u, (k, u) ∈ present → (k, u) ∈ present') → SetUp np nn present' ops →
        wrun n nf (fun k => E (w k)) (o :: ops) = (wrun n nf w (o :: ops)).map fun w k => E (w k) := by
      intro present' r f hw hf hf' hp hs'
      unfold wrun
      rw [List.foldlM_cons, List.foldlM_cons, hw, hw, at_ext hf]
      cases e : Mixed.at_ n r f w with
      | none => rfl
      | some w' => exact ih present' w' (at_plain h e hf' hp) hs'
    cases o with
    | add r u s =>
      refine go ((r, u) :: present) r (fun c => some (c.add u s)) (fun _ => rfl) ?_ ?_ (fun _ _ _ hm => List.mem_cons_of_mem _ hm) hs.2
      · simp only [hE.add (h r) hs.1, Option.map_some]
      · intro c' e; cases e; exact (h r).add
    | remove r u =>
      refine go (present.filter fun e => decide (e ≠ (r, u))) r (fun c => c.remove u) (fun _ => rfl) (hE.remove (h r)) (fun c' e => (h r).remove e) ?_ hs
      intro k hk v hm
      refine List.mem_filter.2 ⟨hm, ?_⟩
      simp only [ne_eq, Prod.mk.injEq, decide_eq_true_eq]
      exact fun c => hk c.1
    | setState r u s => exact go present r (fun c => c.onNet fun x => x.setState u s) (fun _ => rfl) (hE.setState (h r)) (fun c' e => (h r).setState e) (fun _ _ _ hm => hm) hs
    | gmove r pid u pt => exact go present r (fun c => c.gmove pid u pt) (fun _ => rfl) (hE.gmove (h r) hs.1) (fun c' e => (h r).gmove e) (fun _ _ _ hm => hm) hs.2
    | addEdge r pid u v a' => exact go present r (fun c => c.onNet fun x => x.addEdge pid u v a') (fun _ => rfl) (link_ext hE (h r) hs.1 u v (fun rk lr a b N => some (N.addEdge rk lr a b a'))) (fun c' e => link_plain (pid := pid) (u := u) (v := v) (F := (fun rk lr a b N => some (N.addEdge rk lr a b a'))) (h r) e) (fun _ _ _ hm => hm) hs.2
    | updateEdge r pid u v a' => exact go present r (fun c => c.onNet fun x => x.updateEdge pid u v a') (fun _ => rfl) (link_ext hE (h r) hs.1 u v (fun rk lr a b N => N.updateEdge rk lr a b a')) (fun c' e => link_plain (pid := pid) (u := u) (v := v) (F := (fun rk lr a b N => N.updateEdge rk lr a b a')) (h r) e) (fun _ _ _ hm => hm) hs.2
    | removeEdge r pid u v => exact go present r (fun c => c.onNet fun x => x.removeEdge pid u v) (fun _ => rfl) (link_ext hE (h r) hs.1 u v (fun rk lr a b N => N.removeEdge rk lr a b)) (fun c' e => link_plain (pid := pid) (u := u) (v := v) (F := (fun rk lr a b N => N.removeEdge rk lr a b)) (h r) e) (fun _ _ _ hm => hm) hs.2
    | clearEdges r pid => exact go present r (fun c => c.onNet fun x => x.clearEdges pid) (fun _ => rfl) (clear_ext hE (h r) hs.1) (fun c' e => (h r).net e) (fun _ _ _ hm => hm) hs.2
    | request rs => exact hs.elim
    | move ms => exact hs.elim
    | synch g => exact hs.elim

theorem Plain.start (ps : List P) (dirs : List Bool) (r : Nat) : Plain ps.length dirs.length r [] (Mx.start r ps dirs : Mx S A P) := by
  refine ⟨rfl, rfl, by simp [Mx.start, Network.Cx.init, Dict.Ok, keys], ?_, by simp [Mx.start], by simp [Mx.start, Network.Cx.init], ?_⟩
  · intro e he; cases he
  · intro u hu; cases hu

/-! ### A network is added -/

/-- A network without edges. -/
def bareNet (d : Bool) (l : List Obj) : Net A := { Net.empty d with g := { Graph.empty d with nodes := l } }

theorem bareNet_add {d : Bool} {l : List Obj} {o : Obj} (h : o ∉ l) : (bareNet d l : Net A).add o = bareNet d (l ++ [o]) := by
  unfold Network.Net.add Graph.addNode bareNet
  simp only [if_neg h]

theorem bareNet_addNodes {d : Bool} : ∀ {l m : List Obj}, (l ++ m).Nodup → (bareNet d l : Net A).addNodes m = bareNet d (l ++ m) := by
  intro l m
  induction m generalizing l with
  | nil => intro _; rw [List.append_nil]; rfl
  | cons o m ih =>
    intro h
    have ho : o ∉ l := by
      intro c
      rw [List.nodup_append] at h
      exact h.2.2 o c o List.mem_cons_self rfl
    show ((bareNet d l : Net A).add o).addNodes m = _
    rw [bareNet_add ho, ih (by rw [List.append_assoc]; exact h), List.append_assoc]
    rfl

theorem bareNet_remove {d : Bool} {l : List Obj} {o : Obj} (h : o ∈ l) : (bareNet d l : Net A).remove o = some (bareNet d (l.filter fun x => decide (x ≠ o))) := by
  unfold Network.Net.remove Graph.removeNode bareNet
  simp only [if_pos h, Option.map_some]
  rfl

theorem Plain.objs (h : Plain np nn r present c) : (c.nc.locals.map (·.2.1)).Nodup := by
  have := h.ok
  unfold Dict.Ok keys at this
  have hm : c.nc.locals.map (·.1) = (c.nc.locals.map (·.2.1)).map (·.uid) := by
    rw [List.map_map]
    apply List.map_congr_left
    intro e he
    exact (h.uid e he).symm
  rw [hm] at this
  exact List.Pairwise.of_map _ (fun a b hab => fun c => hab (by rw [c])) this

theorem Plain.addNet (h : Plain np nn r present c) (d : Bool) : c.addNet d = { c with nc := { c.nc with nets := c.nc.nets ++ [bareNet d (c.nc.locals.map (·.2.1))] } } := by
  unfold Mx.addNet
  have hb : (Net.empty d : Net A).addNodes (c.nc.locals.map (·.2.1) ++ []) = bareNet d (c.nc.locals.map (·.2.1)) := by
    rw [List.append_nil]
    exact bareNet_addNodes (l := []) (by rw [List.nil_append]; exact h.objs)
  have hg : countGhosts c.nc.ghosts = c.nc.ghosts := by rw [h.ghosts]; rfl
  rw [hg]
  rw [show c.nc.ghosts.map (·.2.obj) = [] from by rw [h.ghosts]; rfl, hb]

theorem filter_objs (h : Plain np nn r present c) {u : Nat} {o : Obj × S} (ho : get c.nc.locals u = some o) :
    (c.nc.locals.map (·.2.1)).filter (fun x => decide (x ≠ o.1)) = (del c.nc.locals u).map (·.2.1) := by
  rw [List.filter_map]
  unfold del
  congr 1
  apply List.filter_congr
  intro e he
  have key : e.2.1 = o.1 ↔ e.1 = u := by
    constructor
    · intro c
      rw [← h.uid e he, c]
      exact h.uid (u, o) (mem_of_get ho)
    intro c
    have : e = (u, o) := by
      have h2 := get_of_mem h.ok (k := e.1) (v := e.2) he
      rw [c, ho] at h2
      cases h2
      exact Prod.ext c rfl
    rw [this]
  simp only [Function.comp_apply, ne_eq, key]

theorem mapM_append {α β : Type} (f : α → Option β) (l m : List α) : (l ++ m).mapM f = (l.mapM f).bind fun a => (m.mapM f).map fun b => a ++ b := by
  rw [List.mapM_append]
  cases l.mapM f with
  | none => rfl
  | some a => cases m.mapM f <;> rfl

/-- A new network. -/
theorem net_ext (np nn : Nat) (d : Bool) : Ext np nn (fun c : Mx S A P => c.addNet d) where
  add := by
    intro r present c u s h hu
    have h' : Plain np nn r ((r, u) :: present) (c.add u s) := h.add
    rw [h.addNet, h'.addNet]
    have hf := h.fresh hu
    have hl : (c.add u s).nc.locals = c.nc.locals ++ [(u, (⟨u, c.nc.fresh⟩ : Obj), s)] := set_new hf
    have hn : (⟨u, c.nc.fresh⟩ : Obj) ∉ c.nc.locals.map (·.2.1) := by
      intro hm
      obtain ⟨e, he, h1⟩ := List.mem_map.1 hm
      have h2 := h.uid e he
      rw [h1] at h2
      have h3 := get_of_mem h.ok (k := e.1) (v := e.2) he
      rw [← h2] at h3
      rw [hf] at h3; cases h3
    have hb : (c.nc.nets ++ [bareNet d (c.nc.locals.map fun e : Nat × Obj × S => e.2.1)]).map (fun N : Net A => N.add ⟨u, c.nc.fresh⟩) =
        c.nc.nets.map (fun N => N.add ⟨u, c.nc.fresh⟩) ++ [bareNet d ((c.add u s).nc.locals.map (·.2.1))] := by
      rw [List.map_append, List.map_singleton, bareNet_add hn, hl, List.map_append]
      rfl
    unfold Mx.add Mx.spacesAdd Network.Cx.add Network.Cx.addObj Network.Cx.netsAdd Network.Cx.newObj Network.Cx.setRank
    simp only
    rw [hb]
    rfl
  remove := by
    intro r present c u h
    rw [h.addNet]
    cases e : c.remove u with
    | none =>
      cases ho : get c.nc.locals u with
      | none => simp only [Mx.remove, Mx.onNet, Network.Cx.remove, ho, Option.bind_none, Option.map_none]
      | some o =>
        simp only [Mx.remove, Mx.onNet, Network.Cx.remove, ho, Option.bind_some, Option.map_eq_none_iff, Network.Cx.eachNet] at e
        simp only [Mx.remove, Mx.onNet, Network.Cx.remove, ho, Option.bind_some, Network.Cx.eachNet]
        rw [mapM_append, e]
        rfl
    | some c' =>
      have h' := h.remove e
      rw [Option.map_some, h'.addNet]
      cases ho : get c.nc.locals u with
      | none => simp only [Mx.remove, Mx.onNet, Network.Cx.remove, ho, Option.bind_none, Option.map_none] at e; cases e
      | some o =>
        simp only [Mx.remove, Mx.onNet, Network.Cx.remove, ho, Option.bind_some, Network.Cx.eachNet] at e ⊢
        rw [mapM_append]
        have hb : ([bareNet d (c.nc.locals.map (·.2.1))] : List (Net A)).mapM (fun N => N.remove o.1) = some [bareNet d ((del c.nc.locals u).map (·.2.1))] := by
          have ho' : o.1 ∈ c.nc.locals.map (·.2.1) := List.mem_map.2 ⟨(u, o), mem_of_get ho, rfl⟩
          rw [List.mapM_cons, List.mapM_nil, bareNet_remove ho', filter_objs h ho]
          rfl
        rw [hb]
        cases hm : c.nc.nets.mapM (fun N => N.remove o.1) with
        | none => rw [hm] at e; cases e
        | some ns =>
          rw [hm] at e
          simp only [Option.map_some, Option.some.injEq] at e
          subst e
          rfl
  setState := by
    intro r present c u s h
    rw [h.addNet]
    cases ho : get c.nc.locals u with
    | none => simp only [Mx.onNet, Network.Cx.setState, ho, Option.map_none]
    | some o =>
      have h' := h.setState (u := u) (s := s) (c' := { c with nc := { c.nc with locals := Dict.set c.nc.locals u (o.1, s) } })
        (by simp only [Mx.onNet, Network.Cx.setState, ho, Option.map_some])
      simp only [Mx.onNet, Network.Cx.setState, ho, Option.map_some]
      rw [h'.addNet]
      have : (Dict.set c.nc.locals u (o.1, s)).map (·.2.1) = c.nc.locals.map (·.2.1) := by
        generalize c.nc.locals = l at ho
        induction l with
        | nil => cases ho
        | cons e l ih =>
          rw [get_cons] at ho
          simp only [Dict.set]
          split
          · next hk => rw [if_pos hk] at ho; cases ho; rfl
          · next hk => rw [if_neg hk] at ho; rw [List.map_cons, List.map_cons, ih ho]
      simp only [this]
  gmove := by
    intro r present c pid u pt h hp
    rw [h.addNet]
    cases e : c.gmove pid u pt with
    | none =>
      rw [Option.map_none, ← Option.map_none (f := fun c' : Mx S A P => { c' with nc := { c'.nc with nets := c.nc.nets ++ [bareNet d (c.nc.locals.map (·.2.1))] } }), ← e]
      unfold Mx.gmove Mx.spMove Mx.onSpace
      simp only
      cases get c.nc.locals u with
      | none => rfl
      | some o =>
        cases c.spaces[pid]? with
        | none => rfl
        | some g => simp only [Option.bind_some, Option.map_map]; rfl
    | some c' =>
      have h' := h.gmove e
      rw [Option.map_some, h'.addNet]
      unfold Mx.gmove Mx.spMove Mx.onSpace at e ⊢
      obtain ⟨o, ho, e⟩ := Option.bind_eq_some_iff.1 e
      obtain ⟨g, hg, e⟩ := Option.bind_eq_some_iff.1 e
      rw [Option.map_eq_some_iff] at e
      obtain ⟨g', hg', rfl⟩ := e
      simp only [ho, hg, hg', Option.bind_some, Option.map_some]
  same := by
    intro r present c h
    rw [h.addNet]
    exact ⟨rfl, rfl, rfl⟩
  net := by
    intro r present c pid f h hp
    have hp' : pid < c.nc.nets.length := by rw [h.nets]; exact hp
    rw [h.addNet]
    simp only [Mx.onNet, Network.Cx.withNet, List.getElem?_append_left hp', List.getElem?_eq_getElem hp', Option.bind_some]
    cases hf : f c.nc.nets[pid] with
    | none => rfl
    | some N =>
      have h' := h.net (pid := pid) (f := f) (c' := { c with nc := { c.nc with nets := c.nc.nets.set pid N } })
        (by simp only [Mx.onNet, Network.Cx.withNet, List.getElem?_eq_getElem hp', Option.bind_some, hf, Option.map_some])
      simp only [Option.map_some]
      rw [h'.addNet, List.set_append_left _ _ hp']

/-! ### A shared space is added -/

/-- A new space in which no agent has a location: its contents are the agents in it. -/
structure Vacant (p : P) (b : (Nat → Bool) → P) : Prop where
  none : p = b fun _ => false
  add : ∀ r f u, Proj.add r (b f) u = b (upd f u true)
  remove : ∀ r f u, Proj.remove r (b f) u = b (upd f u false)

theorem Vacant.adds {p : P} {b : (Nat → Bool) → P} (v : Vacant p b) (r : Nat) (us : List Nat) : ∀ f, us.foldl (fun p u => Proj.add r p u) (b f) = b fun u => f u || decide (u ∈ us) := by
  induction us with
  | nil => intro f; simp
  | cons u us ih =>
    intro f
    rw [List.foldl_cons, v.add, ih]
    congr 1
    funext x
    by_cases hx : x = u
    · subst hx; simp [upd]
    · simp [upd, hx]

theorem Plain.addSpace (h : Plain np nn r present c) {p : P} {b : (Nat → Bool) → P} (v : Vacant p b) :
    c.addSpace p = { c with nc := { c.nc with others := c.nc.others + 1 }, spaces := c.spaces ++ [{ sp := b fun u => (get c.nc.locals u).isSome, buffered := [] }] } := by
  unfold Mx.addSpace
  have hg : countGhosts c.nc.ghosts = c.nc.ghosts := by rw [h.ghosts]; rfl
  rw [hg, v.none, v.adds, h.ghosts]
  have hk : (fun u => false || decide (u ∈ keys c.nc.locals ++ keys ([] : Dict (Gh S)))) = fun u => (get c.nc.locals u).isSome := by
    funext u
    rw [Bool.false_or, Bool.eq_iff_iff, decide_eq_true_eq, get_isSome]
    simp [keys]
  rw [hk]
  simp only [h.ghosts]

/-- A new shared space. -/
theorem space_ext (np nn : Nat) {p : P} {b : (Nat → Bool) → P} (v : Vacant p b) : Ext np nn (fun c : Mx S A P => c.addSpace p) where
  add := by
    intro r present c u s h hu
    have h' : Plain np nn r ((r, u) :: present) (c.add u s) := h.add
    rw [h.addSpace v, h'.addSpace v]
    have hb : upd (fun x => (get c.nc.locals x).isSome) u true = fun x => (get (c.add u s).nc.locals x).isSome := by
      funext x
      show _ = (get (Dict.set c.nc.locals u ((⟨u, c.nc.fresh⟩ : Obj), s)) x).isSome
      rw [get_set]
      unfold upd
      by_cases hx : x = u
      · subst hx; simp
      · rw [if_neg hx, if_neg fun c => hx c.symm]
    rw [← hb, ← v.add c.nc.rank]
    unfold Mx.add Mx.spacesAdd
    simp only [List.map_append, List.map_singleton]
    rfl
  remove := by
    intro r present c u h
    rw [h.addSpace v]
    cases e : c.remove u with
    | none =>
      simp only [Mx.remove, Mx.onNet, Option.map_eq_none_iff] at e
      simp only [Mx.remove, Mx.onNet, Option.map_none, Option.map_eq_none_iff]
      unfold Network.Cx.remove at e ⊢
      cases ho : get c.nc.locals u with
      | none => simp only [ho]; rfl
      | some o =>
        simp only [ho, Option.bind_some, Network.Cx.eachNet, Option.map_eq_none_iff] at e ⊢
        exact e
    | some c' =>
      have h' := h.remove e
      rw [Option.map_some, h'.addSpace v]
      cases ho : get c.nc.locals u with
      | none => simp only [Mx.remove, Mx.onNet, Network.Cx.remove, ho, Option.bind_none, Option.map_none] at e; cases e
      | some o =>
        simp only [Mx.remove, Mx.onNet, Network.Cx.remove, ho, Option.bind_some, Network.Cx.eachNet] at e ⊢
        cases hm : c.nc.nets.mapM (fun N => N.remove o.1) with
        | none => rw [hm] at e; cases e
        | some ns =>
          rw [hm] at e
          simp only [Option.map_some, Option.some.injEq] at e
          subst e
          have hb : upd (fun x => (get c.nc.locals x).isSome) u false = fun x => (get (del c.nc.locals u) x).isSome := by
            funext x
            rw [get_del]
            unfold upd
            by_cases hx : x = u
            · subst hx; simp
            · rw [if_neg hx, if_neg fun c => hx c.symm]
          simp only [Option.map_some, Mx.spacesRemove, List.map_append, List.map_singleton, v.remove, hb]
  setState := by
    intro r present c u s h
    rw [h.addSpace v]
    cases ho : get c.nc.locals u with
    | none => simp only [Mx.onNet, Network.Cx.setState, ho, Option.map_none]
    | some o =>
      have h' := h.setState (u := u) (s := s) (c' := { c with nc := { c.nc with locals := Dict.set c.nc.locals u (o.1, s) } })
        (by simp only [Mx.onNet, Network.Cx.setState, ho, Option.map_some])
      simp only [Mx.onNet, Network.Cx.setState, ho, Option.map_some]
      rw [h'.addSpace v]
      have : (fun x => (get (Dict.set c.nc.locals u (o.1, s)) x).isSome) = fun x => (get c.nc.locals x).isSome := by
        funext x
        rw [get_set]
        split
        · next e => subst e; rw [ho]; rfl
        · rfl
      simp only [this]
  gmove := by
    intro r present c pid u pt h hp
    have hp' : pid < c.spaces.length := by rw [h.sps]; exact hp
    rw [h.addSpace v]
    cases e : c.gmove pid u pt with
    | none =>
      unfold Mx.gmove Mx.spMove Mx.onSpace at e ⊢
      cases ho : get c.nc.locals u with
      | none => simp only [ho]; rfl
      | some o =>
        simp only [ho, Option.bind_some, List.getElem?_append_left hp', List.getElem?_eq_getElem hp', Option.map_eq_none_iff] at e ⊢
        simp only [e, Option.map_none]
    | some c' =>
      have h' := h.gmove e
      rw [Option.map_some, h'.addSpace v]
      unfold Mx.gmove Mx.spMove Mx.onSpace at e ⊢
      obtain ⟨o, ho, e⟩ := Option.bind_eq_some_iff.1 e
      obtain ⟨g, hg, e⟩ := Option.bind_eq_some_iff.1 e
      rw [Option.map_eq_some_iff] at e
      obtain ⟨g', hg', rfl⟩ := e
      simp only [ho, List.getElem?_append_left hp', hg, hg', Option.bind_some, Option.map_some, List.set_append_left _ _ hp']
  same := by
    intro r present c h
    rw [h.addSpace v]
    exact ⟨rfl, rfl, rfl⟩
  net := by
    intro r present c pid f h hp
    have hp' : pid < c.nc.nets.length := by rw [h.nets]; exact hp
    rw [h.addSpace v]
    simp only [Mx.onNet, Network.Cx.withNet, List.getElem?_eq_getElem hp', Option.bind_some]
    cases hf : f c.nc.nets[pid] with
    | none => rfl
    | some N =>
      have h' := h.net (pid := pid) (f := f) (c' := { c with nc := { c.nc with nets := c.nc.nets.set pid N } })
        (by simp only [Mx.onNet, Network.Cx.withNet, List.getElem?_eq_getElem hp', Option.bind_some, hf, Option.map_some])
      simp only [Option.map_some]
      rw [h'.addSpace v]

/-- Shared grids. -/
theorem grid_vacant (g : GCfg) : Vacant g.new fun f => { cfg := g, st := { DSp.empty with base := { newGrid with agents := fun u => if f u then some none else none } } } where
  none := rfl
  add r f u := by
    show ({ cfg := g, st := _ } : GridSp) = _
    simp only [dstep, step, Space.add]
    congr 3
    funext x
    unfold upd
    by_cases hx : x = u
    · simp [hx]
    · simp [hx]
  remove r f u := by
    show ({ cfg := g, st := _ } : GridSp) = _
    simp only [dstep, Space.remove]
    congr 1
    have ho : upd DSp.empty.oob u none = DSp.empty.oob := by
      funext x; unfold upd; split <;> rfl
    rw [ho]
    by_cases hu : f u = true
    · simp only [hu, if_true]
      congr 2
      funext x
      unfold upd
      by_cases hx : x = u
      · simp [hx]
      · simp [hx]
    · rw [Bool.not_eq_true] at hu
      simp only [hu, Bool.false_eq_true, if_false]
      congr 2
      funext x
      unfold upd
      by_cases hx : x = u
      · subst hx; simp [hu]
      · simp [hx]

/-- Shared continuous spaces. -/
theorem cspace_vacant (g : CSCfg) : Vacant g.new fun f => { cfg := g, st := some { cs := { CS.init g.space with agents := fun u => if f u then some none else none }, oob := fun _ => none } } where
  none := rfl
  add r f u := by
    show (CSpaceSp.call _ _ _).1 = _
    simp only [CSpaceSp.call, Option.bind_some, cdstep, cstep, Option.map_some]
    congr 4
    funext x
    unfold upd
    by_cases hx : x = u
    · simp [hx]
    · simp [hx]
  remove r f u := by
    show (CSpaceSp.call _ _ _).1 = _
    have ho : upd (fun _ => none : Nat → Option (Nat × CPt)) u none = fun _ => none := by
      funext x; unfold upd; split <;> rfl
    by_cases hu : f u = true
    · simp only [CSpaceSp.call, Option.bind_some, cdstep, cremove, hu, if_true, Option.map_some, ho]
      congr 4
      funext x
      unfold upd
      by_cases hx : x = u
      · simp [hx]
      · simp [hx]
    · rw [Bool.not_eq_true] at hu
      simp only [CSpaceSp.call, Option.bind_some, cdstep, cremove, hu, Bool.false_eq_true, if_false, Option.map_some, ho]
      congr 4
      funext x
      unfold upd
      by_cases hx : x = u
      · subst hx; simp [hu]
      · simp [hx]

/-! ### The property -/

/-- C70: a model that adds a network to its contexts after it has added agents has the contexts that it would have had if the network had been there from the beginning. What is missing: that
it may have synchronized before (`C70_violation_stale`). -/
theorem C70_network_partial (n : Nat) (nf : Bool) (ps : List P) (dirs : List Bool) (d : Bool) {ops : List (WOp S A Q)} (h : SetUp ps.length dirs.length [] ops) :
    (wrun n nf (World.start ps dirs) ops).map (fun w : World S A P => w.addNet d) = wrun n nf (World.start ps (dirs ++ [d])) ops := by
  have key := run_ext (net_ext (S := S) (A := A) (P := P) ps.length dirs.length d) n nf ops [] (World.start ps dirs) (fun k => Plain.start ps dirs k) h
  rw [show (World.start ps (dirs ++ [d]) : World S A P) = fun k => ((World.start ps dirs : World S A P) k).addNet d from ?_]
  · exact key.symm
  · funext k
    unfold World.start Mx.start Mx.addNet Network.Cx.init
    simp [countGhosts, Net.addNodes]

/-- The same for a space. -/
theorem space_late (n : Nat) (nf : Bool) (ps : List P) (dirs : List Bool) {p : P} {b : (Nat → Bool) → P} (v : Vacant p b) {ops : List (WOp S A Q)} (h : SetUp ps.length dirs.length [] ops) :
    (wrun n nf (World.start ps dirs) ops).map (fun w : World S A P => w.addSpace p) = wrun n nf (World.start (ps ++ [p]) dirs) ops := by
  have key := run_ext (space_ext (S := S) (A := A) ps.length dirs.length v) n nf ops [] (World.start ps dirs) (fun k => Plain.start ps dirs k) h
  rw [show (World.start (ps ++ [p]) dirs : World S A P) = fun k => ((World.start ps dirs : World S A P) k).addSpace p from ?_]
  · exact key.symm
  · funext k
    unfold World.start Mx.start Mx.addSpace Network.Cx.init
    simp [countGhosts, keys]

/-- C70 for a shared grid that is added to contexts with shared grids and networks. -/
theorem C70_grid_partial (n : Nat) (nf : Bool) (ps : List GridSp) (dirs : List Bool) (g : GCfg) {ops : List (WOp S A Pt)} (h : SetUp ps.length dirs.length [] ops) :
    (wrun n nf (World.start ps dirs) ops).map (fun w : World S A GridSp => w.addSpace g.new) = wrun n nf (World.start (ps ++ [g.new]) dirs) ops :=
  space_late n nf ps dirs (grid_vacant g) h

/-- C70 for a shared continuous space. -/
theorem C70_cspace_partial (n : Nat) (nf : Bool) (ps : List CSpaceSp) (dirs : List Bool) (g : CSCfg) {ops : List (WOp S A CPt)} (h : SetUp ps.length dirs.length [] ops) :
    (wrun n nf (World.start ps dirs) ops).map (fun w : World S A CSpaceSp => w.addSpace g.new) = wrun n nf (World.start (ps ++ [g.new]) dirs) ops :=
  space_late n nf ps dirs (cspace_vacant g) h

theorem get_mem {α : Type} {d : Dict α} {u : Nat} {v : α} (h : get d u = some v) : (u, v) ∈ d := by
  induction d with
  | nil => cases h
  | cons e d ih =>
    rw [get_cons] at h
    split at h
    · next hk => cases h; subst hk; exact List.mem_cons_self
    · exact List.mem_cons_of_mem _ (ih h)

theorem mem_addNodes (us : List Obj) : ∀ (N : Net A) (o : Obj), o ∈ N.g.nodes ∨ o ∈ us → o ∈ (N.addNodes us).g.nodes := by
  induction us with
  | nil => intro N o h; simpa [Net.addNodes] using h
  | cons u us ih =>
    intro N o h
    show o ∈ ((N.add u).addNodes us).g.nodes
    refine ih _ _ ?_
    rcases h with h | h
    · left
      simp only [Net.add, Graph.addNode]
      split
      · exact h
      · exact List.mem_append_left _ h
    · rcases List.mem_cons.1 h with h | h
      · left
        subst h
        simp only [Net.add, Graph.addNode]
        split
        · assumption
        · simp
      · exact .inr h

/-- C70, at any time: a network that is added to a context has the local agents and the ghosts of the context as nodes, and is the last of its networks; the other projections and the agents are as
before. -/
theorem C70_nodes (c : Mx S A P) (d : Bool) :
    (∃ N, (c.addNet d).nc.nets = c.nc.nets ++ [N] ∧ ∀ u o, c.nc.find u = some o → o ∈ N.g.nodes) ∧ (c.addNet d).spaces = c.spaces ∧
      ∀ u, (c.addNet d).agent u = c.agent u ∧ (c.addNet d).ghostAgent u = c.ghostAgent u := by
  refine ⟨⟨_, rfl, ?_⟩, rfl, ?_⟩
  · intro u o h
    refine mem_addNodes _ _ _ (.inr ?_)
    unfold Network.Cx.find at h
    rw [List.mem_append]
    rcases Option.or_eq_some_iff.1 h with h | ⟨_, h⟩
    · obtain ⟨x, hx, rfl⟩ := Option.map_eq_some_iff.1 h
      exact .inl (List.mem_map.2 ⟨_, get_mem hx, rfl⟩)
    · obtain ⟨x, hx, rfl⟩ := Option.map_eq_some_iff.1 h
      exact .inr (List.mem_map.2 ⟨_, get_mem hx, rfl⟩)
  · intro u
    refine ⟨rfl, ?_⟩
    show ((get (countGhosts c.nc.ghosts) u).map (·.st)) = (get c.nc.ghosts u).map (·.st)
    unfold countGhosts
    induction c.nc.ghosts with
    | nil => rfl
    | cons e d ih =>
      rw [List.map_cons, get_cons, get_cons]
      split
      · rfl
      · exact ih

/-- C70, at any time: a shared grid that is added to a context has the local agents and the ghosts of the context in it, without locations, and no other agents. -/
theorem C70_placed_grid (c : Mx S A GridSp) (g : GCfg) :
    (∀ u, (c.addSpace g.new).placed c.spaces.length u = if ((c.agent u).isSome || (c.ghostAgent u).isSome) = true then some (none : Option Pt) else none) ∧
      (∀ pid < c.spaces.length, ∀ u, (c.addSpace g.new).placed pid u = (c.placed pid u : Option (Option Pt))) := by
  refine ⟨?_, ?_⟩
  · intro u
    unfold Mx.placed Mx.addSpace
    rw [(grid_vacant g).none, (grid_vacant g).adds]
    simp only [List.getElem?_concat_length, Option.bind_some, Bool.false_or, List.mem_append, decide_eq_true_eq]
    show (if _ then _ else _) = _
    have : (u ∈ keys c.nc.locals ∨ u ∈ keys c.nc.ghosts) ↔ ((c.agent u).isSome || (c.ghostAgent u).isSome) = true := by
      rw [← get_isSome, ← get_isSome, Bool.or_eq_true]
      simp only [Mx.agent, Mx.ghostAgent, Network.Cx.agent, Network.Cx.ghostAgent, Option.isSome_map]
    by_cases h : u ∈ keys c.nc.locals ∨ u ∈ keys c.nc.ghosts
    · rw [if_pos (this.1 h)]; simp [h]
    · rw [if_neg fun x => h (this.2 x)]; simp [h]
  · intro pid hp u
    unfold Mx.placed Mx.addSpace
    rw [List.getElem?_append_left hp]

/-- C70, at any time: the same for a shared continuous space. -/
theorem C70_placed_cspace (c : Mx S A CSpaceSp) (g : CSCfg) :
    (∀ u, (c.addSpace g.new).placed c.spaces.length u = if ((c.agent u).isSome || (c.ghostAgent u).isSome) = true then some (none : Option CPt) else none) ∧
      (∀ pid < c.spaces.length, ∀ u, (c.addSpace g.new).placed pid u = (c.placed pid u : Option (Option CPt))) := by
  refine ⟨?_, ?_⟩
  · intro u
    unfold Mx.placed Mx.addSpace
    rw [(cspace_vacant g).none, (cspace_vacant g).adds]
    simp only [List.getElem?_concat_length, Option.bind_some, Bool.false_or, List.mem_append, decide_eq_true_eq]
    show (Option.bind (some _) fun s => _) = _
    have : (u ∈ keys c.nc.locals ∨ u ∈ keys c.nc.ghosts) ↔ ((c.agent u).isSome || (c.ghostAgent u).isSome) = true := by
      rw [← get_isSome, ← get_isSome, Bool.or_eq_true]
      simp only [Mx.agent, Mx.ghostAgent, Network.Cx.agent, Network.Cx.ghostAgent, Option.isSome_map]
    by_cases h : u ∈ keys c.nc.locals ∨ u ∈ keys c.nc.ghosts
    · rw [if_pos (this.1 h)]; simp [h]
    · rw [if_neg fun x => h (this.2 x)]; simp [h]
  · intro pid hp u
    unfold Mx.placed Mx.addSpace
    rw [List.getElem?_append_left hp]

/-! ### Violations -/

/-- What rank `r` sees of the agent `u`, as a local agent and as a ghost, in contexts with a grid with buffers of two cells to which a network (or a second grid) is added after `ops` and before
`ops'`. -/
def lateNet (nf d : Bool) (ops ops' : List (WOp Nat Nat Pt)) (r u : Nat) : Option (Option Nat × Option Nat) :=
  ((wrun 2 nf (World.start [(line 2 2).new] []) ops).bind fun w => wrun 2 nf (w.addNet d) ops').map fun w => ((w r).agent u, (w r).ghostAgent u)

def lateGrid (nf : Bool) (ops ops' : List (WOp Nat Nat Pt)) (r u : Nat) : Option (Option Nat × Option Nat) :=
  ((wrun 2 nf (World.start [(line 2 2).new] []) ops).bind fun w => wrun 2 nf (w.addSpace (line 2 0).new) ops').map fun w => ((w r).agent u, (w r).ghostAgent u)

/-- C70 is violated: agent 1 is in the buffer of rank 1 when the network is added; its state changes, and `synchronize` does not change that of the ghost: the grid takes the ghost out of its buffer
and drops one of its two references, finds it again under its unique id when it fills the buffer, and does not update it. Without the network, or if it had been there from the beginning, the ghost has the new state. -/
theorem C70_violation_stale (nf d : Bool) :
    lateNet nf d neighbours [.setState 0 1 9, .synch true] 1 1 = some (none, some 5) ∧
    lateNet nf d [] (neighbours ++ [.setState 0 1 9, .synch true]) 1 1 = some (none, some 9) := by
  cases nf <;> cases d <;> refine ⟨?_, ?_⟩ <;> decide +kernel

/-- C70 is violated: the agent leaves the buffer of rank 1, and the ghost stays in the context. -/
theorem C70_violation_left (nf d : Bool) :
    lateNet nf d neighbours [.gmove 0 0 1 ⟨0, 0, 0⟩, .synch true, .synch true] 1 1 = some (none, some 5) ∧
    lateNet nf d [] (neighbours ++ [.gmove 0 0 1 ⟨0, 0, 0⟩, .synch true, .synch true]) 1 1 = some (none, none) := by
  cases nf <;> cases d <;> refine ⟨?_, ?_⟩ <;> decide +kernel

/-- C70 is violated: the same if a second grid, without a buffer, is added. -/
theorem C70_violation_grid (nf : Bool) :
    lateGrid nf neighbours [.setState 0 1 9, .synch true] 1 1 = some (none, some 5) ∧
    lateGrid nf [] (neighbours ++ [.setState 0 1 9, .synch true]) 1 1 = some (none, some 9) ∧
    lateGrid nf neighbours [.gmove 0 0 1 ⟨0, 0, 0⟩, .synch true, .synch true] 1 1 = some (none, some 5) ∧
    lateGrid nf [] (neighbours ++ [.gmove 0 0 1 ⟨0, 0, 0⟩, .synch true, .synch true]) 1 1 = some (none, none) := by
  cases nf <;> refine ⟨?_, ?_, ?_, ?_⟩ <;> decide +kernel

/-! ### Concrete cases -/

/-- A set-up with two agents of each rank, locations, edges, a removal. -/
def settleLate : List (WOp Nat Nat Pt) :=
  [.add 0 1 5, .add 0 2 6, .add 1 11 7, .add 1 12 8, .gmove 0 0 1 ⟨4, 0, 0⟩, .gmove 1 0 11 ⟨5, 0, 0⟩, .addEdge 0 0 1 2 [], .updateEdge 0 0 1 2 [(0, 3)], .setState 1 12 4, .remove 1 12, .add 1 12 9]

/-- The hypotheses of the theorems above hold for it, and it does not raise. -/
example : SetUp 1 1 [] settleLate := by simp [SetUp, settleLate]

example (nf d d' : Bool) : ((wrun 2 nf (World.start [(line 2 2).new] [d]) settleLate).map fun w => ((w.addNet d' 1).agent 12, ((w.addNet d') 1).nc.nets.map fun N => N.g.nodes.map (·.uid))) =
    some (some 9, [[11, 12], [11, 12]]) := by
  cases nf <;> cases d <;> cases d' <;> decide +kernel

example : ((wrun 2 true (World.start [(line 2 2).new] [false]) settleLate).map fun w => ([1, 2, 11, 12].map fun u => (w.addSpace (line 2 0).new 1).placed 1 u)) =
    some [none, none, some (none : Option Pt), some none] := by
  decide +kernel

end Repast.Mixed
