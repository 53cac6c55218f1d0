import Verif.Mixed.MoveInv

/-! Histories of contexts with one shared space and any networks. -/
namespace Repast.Mixed
open Repast.Dict Repast.Context Repast.Network Repast.Space

variable {S A P Q : Type} [Proj P Q] {G : Geo Q}

/-! ### Specification -/

/-- No two of the agents `us` are at the same location. -/
def AgentsApart (n : Nat) (us : List Nat) (w : World S A P) : Prop :=
  ∀ r < n, ∀ r' < n, ∀ u ∈ us, ∀ v ∈ us, ∀ q : Q, ((w r).agent u).isSome = true → ((w r').agent v).isSome = true → (w r).placed 0 u = some (some q) → (w r').placed 0 v = some (some q) → u = v

/-- When an operation may be called, if the agents `us` have been added before: agents are added only once; `synchronize` synchronizes ghosts if there is a buffer; only agents of other
ranks are requested, and not those that the rank has in its space without having a ghost of them; `move_agents` is called only if there are no buffers. If locations are exclusive, an agent is moved only to a location where the rank has no other
agent, and `synchronize` and `move_agents` are called only if no two agents have moved to the same location. -/
def Legal (G : Geo Q) (us : List Nat) (w : World S A P) : WOp S A Q → Prop
  | .add _ u _ => u ∉ us
  | .gmove r _ u pt => G.excl → ∀ v ∈ us, v ≠ u → (w r).placed 0 v ≠ some (some (G.dest pt))
  | .request rs => ∀ r < G.n, ∀ m ∈ rs r, m.1 ∈ us ∧ (w r).agent m.1 = none ∧ ((w r).ghostAgent m.1 = none → ∀ q : Q, (w r).placed 0 m.1 ≠ some (some q))
  | .move _ => G.buf = 0 ∧ (G.excl → AgentsApart (Q := Q) G.n us w)
  | .synch g => (g = true ∨ G.buf = 0) ∧ (G.excl → AgentsApart (Q := Q) G.n us w)
  | _ => True

/-- The agents that have been added after an operation. -/
def added (us : List Nat) : WOp S A Q → List Nat
  | .add _ u _ => u :: us
  | _ => us

/-- Each operation of the history may be called. -/
def LegalRun (G : Geo Q) (netsFirst : Bool) : List Nat → World S A P → List (WOp S A Q) → Prop
  | _, _, [] => True
  | us, w, o :: ops => Legal G us w o ∧ ∀ w', wstep G.n netsFirst w o = some w' → LegalRun G netsFirst (added us o) w' ops

/-! ### Operations of one rank -/

variable {K : Kind G P} {w w' : World S A P} {ag : Nat → Option (Nat × S × Option Q)} {gh : Option (Nat → Nat → Option Q)} {used used' : Nat → Prop} {cl : Prop}

theorem at_some' {n r : Nat} {f : Mx S A P → Option (Mx S A P)} (e : at_ n r f w = some w') : r < n ∧ ∃ c, f (w r) = some c ∧ w' = fun k => if k = r then c else w k := by
  unfold at_ at e
  split at e
  · rename_i h
    obtain ⟨c, hc, rfl⟩ := Option.map_eq_some_iff.1 e
    exact ⟨h, c, hc, rfl⟩
  · cases e

theorem WJ.forget (h : WJ K w ag gh used cl) : WJ K w ag none used False := ⟨fun r hr => (h.j r hr).forget, h.lt⟩

theorem WJ.at (h : WJ K w ag none used False) {r u : Nat} (hr : r < G.n) {c : Mx S A P} {x : Option (S × Option Q)} (hus : ∀ v, used v → used' v) (hother : ∀ k, k ≠ r → loOf ag k u = none)
    (hd : used u → ag u = none → x = none) (hc : J K r c (upd (loOf ag r) u x) none used' (fun v => upd ag u (x.map fun y => (r, y)) v = none) False) :
    WJ K (fun k => if k = r then c else w k) (upd ag u (x.map fun y => (r, y))) none used' False := by
  refine ⟨?_, ?_⟩
  · intro k hk
    show J K k (if k = r then c else w k) _ _ _ _ _
    by_cases e : k = r
    · subst e
      rw [if_pos rfl]
      refine hc.congr ?_ (fun _ h => h) (fun _ _ h => h) (fun h => h)
      intro v
      simp only [loOf, upd]
      split
      · cases x <;> simp
      · rfl
    · rw [if_neg e]
      refine (h.j k hk).congr ?_ hus ?_ (fun h => h)
      · intro v
        by_cases hv : v = u
        · subst hv
          rw [hother k e]
          cases x with
          | none => exact loOf_dead (by simp [upd])
          | some y => exact loOf_none (k := r) (y := y) (by simp [upd]) (fun e' => e e'.symm)
        · unfold loOf
          simp [upd, hv]
      · intro v hv1 hv2
        simp only [upd]
        split
        · rename_i e2
          subst e2
          rw [hd hv1 hv2]; rfl
        · exact hv2
  · intro v y hy
    simp only [upd] at hy
    split at hy
    · cases x with
      | none => cases hy
      | some z => cases hy; exact hr
    · exact h.lt v y hy

theorem WJ.keepAt (h : WJ K w ag gh used cl) {r : Nat} {c : Mx S A P} (hc : Keeps (w r).nc c.nc ∧ c.spaces = (w r).spaces) : WJ K (fun k => if k = r then c else w k) ag gh used cl := by
  refine ⟨?_, h.lt⟩
  intro k hk
  show J K k (if k = r then c else w k) _ _ _ _ _
  by_cases e : k = r
  · subst e
    rw [if_pos rfl]
    exact (h.j k hk).keeps hc.1 hc.2
  · rw [if_neg e]; exact h.j k hk

/-! ### Requests -/

/-- Where the agents of a rank are. -/
def Mx.spot (c : Mx S A P) (u : Nat) : Option Q := (c.placed 0 u).bind id

section
variable {r : Nat} {c c' : Mx S A P} {lo : Nat → Option (S × Option Q)} {f : Option (Nat → Option Q)} {dead : Nat → Prop}

theorem J.addOther (hre : Readd K) (h : J K r c lo f used dead cl) {u : Nat} (hl : lo u = none) (hu : used u) (hw : c.spot u = (none : Option Q)) :
    J K r (c.spacesAdd u) lo f used dead cl ∧ ∀ v, (c.spacesAdd u).spot v = (c.spot v : Option Q) := by
  obtain ⟨g, eg, hg⟩ := h.sp
  have hw' : ∀ q, Proj.where_ g.sp u ≠ some (some q) := by
    intro q e
    simp only [Mx.spot, placed_one eg, e] at hw
    cases hw
  obtain ⟨o, e⟩ := adds hre hg.ok hw'
  have hs : (c.spacesAdd u).spaces = [{ g with sp := Proj.add r g.sp u }] := by
    show c.spaces.map (fun g => ({ g with sp := Proj.add c.nc.rank g.sp u } : Shared P)) = _
    rw [eg, h.rank]; rfl
  refine ⟨⟨h.rank, h.ok, h.loc, h.removed, _, hs, ?_⟩, ?_⟩
  · cases hn : Proj.where_ g.sp u with
    | none => exact hg.addOther (by simp [hl]) hu hn
    | some o =>
      cases o with
      | none => rw [hre hg.ok hn]; exact hg
      | some q => exact absurd hn (hw' q)
  · intro v
    simp only [Mx.spot, placed_one hs, placed_one eg, e, upd]
    split
    · rename_i hv
      subst hv
      cases hn : Proj.where_ g.sp v with
      | none => rfl
      | some o =>
        cases o with
        | none => rfl
        | some q => exact absurd hn (hw' q)
    · rfl

theorem J.sendRequest (hre : Readd K) {n : Nat} {out : List (Nat × Nat)} {q : Nat × Nat} {x : Mx S A P × List (Nat × Nat)} (h : J K r c lo f used dead cl) (hl : lo q.1 = none) (hu : used q.1)
    (e : Mx.sendRequest n (c, out) q = some x) : J K r x.1 lo f used dead cl ∧ x.1.nc.ghosts = c.nc.ghosts ∧ (∀ v, x.1.spot v = (c.spot v : Option Q)) ∧
      ∀ m ∈ x.2, m ∈ out ∨ (m.2 = q.1 ∧ get c.nc.ghosts q.1 = none) := by
  unfold Mx.sendRequest at e
  cases hgh : get c.nc.ghosts q.1 with
  | none =>
    rw [hgh] at e
    simp only at e
    split at e
    · cases e
      refine ⟨h, rfl, fun _ => rfl, ?_⟩
      intro m hm
      rcases List.mem_append.1 hm with hm | hm
      · exact .inl hm
      · rw [List.mem_singleton.1 hm]; exact .inr ⟨rfl, rfl⟩
    · cases e
  | some g0 =>
    rw [hgh] at e
    simp only [Option.some.injEq] at e
    obtain ⟨g, eg, hg⟩ := h.sp
    have hk : Keeps c.nc ((c.nc.addReq q.1).netsAdd g0.obj) := by
      have := addReq_keeps (c := c.nc) q.1
      exact ⟨this.rank, this.locals, this.removed⟩
    have hgs : ((c.nc.addReq q.1).netsAdd g0.obj).ghosts = c.nc.ghosts := by
      show (c.nc.addReq q.1).ghosts = _
      unfold Network.Cx.addReq
      split <;> rfl
    by_cases hw : (Proj.where_ g.sp q.1).isSome = true
    · have hs : x.1.spaces = [g] := by
        rw [← e, eg]
        simp [hw]
      have hn : x.1.nc = (c.nc.addReq q.1).netsAdd g0.obj := by rw [← e]
      refine ⟨h.keeps (by rw [hn]; exact hk) (hs.trans eg.symm), by rw [hn]; exact hgs, ?_, ?_⟩
      · intro v
        simp only [Mx.spot, placed_one hs, placed_one eg]
      · intro m hm
        rw [← e] at hm
        exact .inl hm
    · have hw' : Proj.where_ g.sp q.1 = none := by simpa using hw
      obtain ⟨j1, j2⟩ := h.addOther hre hl hu (by simp only [Mx.spot, placed_one eg, hw']; rfl)
      have hs : x.1.spaces = (c.spacesAdd q.1).spaces := by
        rw [← e]
        show c.spaces.map _ = c.spaces.map _
        rw [eg]
        simp [hw]
      have hn : x.1.nc = (c.nc.addReq q.1).netsAdd g0.obj := by rw [← e]
      refine ⟨j1.keeps (by rw [hn]; exact hk) hs, by rw [hn]; exact hgs, ?_, ?_⟩
      · intro v
        rw [← j2 v]
        simp only [Mx.spot, Mx.placed, hs]
      · intro m hm
        rw [← e] at hm
        exact .inl hm

theorem J.sendRequests (hre : Readd K) {n : Nat} : ∀ (qs : List (Nat × Nat)) (c : Mx S A P) (out : List (Nat × Nat)) (x : Mx S A P × List (Nat × Nat)), J K r c lo f used dead cl →
    (∀ q ∈ qs, lo q.1 = none ∧ used q.1) → qs.foldlM (Mx.sendRequest n) (c, out) = some x →
    J K r x.1 lo f used dead cl ∧ x.1.nc.ghosts = c.nc.ghosts ∧ (∀ v, x.1.spot v = (c.spot v : Option Q)) ∧
      ∀ m ∈ x.2, m ∈ out ∨ ∃ q ∈ qs, m.2 = q.1 ∧ get c.nc.ghosts q.1 = none := by
  intro qs
  induction qs with
  | nil =>
    intro c out x h _ e
    cases e
    exact ⟨h, rfl, fun _ => rfl, fun m hm => .inl hm⟩
  | cons q qs ih =>
    intro c out x h hq e
    rw [List.foldlM_cons, Option.bind_eq_bind] at e
    obtain ⟨⟨c1, out1⟩, e1, e2⟩ := Option.bind_eq_some_iff.1 e
    obtain ⟨a1, a2, a3, a4⟩ := h.sendRequest hre (hq q (by simp)).1 (hq q (by simp)).2 e1
    obtain ⟨b1, b2, b3, b4⟩ := ih c1 out1 x a1 (fun q hq' => hq q (by simp [hq'])) e2
    refine ⟨b1, b2.trans a2, fun v => (b3 v).trans (a3 v), ?_⟩
    intro m hm
    rcases b4 m hm with hm | ⟨q', hq', h1, h2⟩
    · rcases a4 m hm with hm | ⟨h1, h2⟩
      · exact .inl hm
      · exact .inr ⟨q, by simp, h1, h2⟩
    · exact .inr ⟨q', by simp [hq'], h1, by rw [← a2]; exact h2⟩

theorem answers_keeps : ∀ (qs : List (Nat × Nat)) (c : Mx S A P) (out : List (Nat × Nat × S)) (x : Mx S A P × List (Nat × Nat × S)), qs.foldlM Mx.answer (c, out) = some x →
    (Keeps c.nc x.1.nc ∧ x.1.spaces = c.spaces) ∧ ∀ m ∈ x.2, m ∈ out ∨ (m.1, m.2.1) ∈ qs := by
  intro qs
  induction qs with
  | nil => intro c out x e; cases e; exact ⟨⟨Keeps.rfl, rfl⟩, fun m hm => .inl hm⟩
  | cons q qs ih =>
    intro c out x e
    rw [List.foldlM_cons, Option.bind_eq_bind] at e
    obtain ⟨⟨c1, out1⟩, e1, e2⟩ := Option.bind_eq_some_iff.1 e
    obtain ⟨y, e3, e4⟩ := Option.map_eq_some_iff.1 e1
    have k := answer_keeps e3
    simp only [Prod.mk.injEq] at e4
    obtain ⟨rfl, rfl⟩ := e4
    obtain ⟨⟨k1, k2⟩, k3⟩ := ih _ _ x e2
    refine ⟨⟨k.trans k1, k2⟩, ?_⟩
    intro m hm
    rcases k3 m hm with hm | hm
    · unfold Network.Cx.answer at e3
      obtain ⟨c2, -, e3⟩ := Option.bind_eq_some_iff.1 e3
      obtain ⟨o, -, rfl⟩ := Option.map_eq_some_iff.1 e3
      rcases List.mem_append.1 hm with hm | hm
      · exact .inl hm
      · rw [List.mem_singleton.1 hm]; exact .inr (by simp)
    · exact .inr (by simp [hm])

theorem J.recvRequesteds (hre : Readd K) : ∀ (ms : List (Nat × Nat × S)) (c c' : Mx S A P), J K r c lo f used dead cl →
    (∀ m ∈ ms, lo m.2.1 = none ∧ used m.2.1 ∧ c.spot m.2.1 = (none : Option Q)) → ms.foldlM Mx.recvRequested c = some c' → J K r c' lo f used dead cl := by
  intro ms
  induction ms with
  | nil => intro c c' h _ e; cases e; exact h
  | cons m ms ih =>
    intro c c' h hm e
    rw [List.foldlM_cons, Option.bind_eq_bind] at e
    obtain ⟨c1, e1, e2⟩ := Option.bind_eq_some_iff.1 e
    obtain ⟨m1, m2, m3⟩ := hm m (by simp)
    unfold Mx.recvRequested at e1
    simp only [Option.some.injEq] at e1
    have hk : Keeps c.nc (c.nc.recvRequested m) := by
      have := addReq_keeps (c := (c.nc.newObj m.2.1).2.addGhostAll m.1 (c.nc.newObj m.2.1).1 m.2.2) m.2.1
      exact ⟨this.rank, this.locals, this.removed⟩
    have h1 := h.keeps (c' := { c with nc := c.nc.recvRequested m }) hk rfl
    obtain ⟨j1, j2⟩ := h1.addOther hre m1 m2 m3
    rw [← e1] at e2
    refine ih _ c' j1 ?_ e2
    intro m' hm'
    obtain ⟨a1, a2, a3⟩ := hm m' (by simp [hm'])
    exact ⟨a1, a2, (j2 m'.2.1).trans a3⟩

end

theorem WJ.request (hre : Readd K) {rs : Nat → List (Nat × Nat)} (h : WJ K w ag gh used cl)
    (hl : ∀ r < G.n, ∀ m ∈ rs r, used m.1 ∧ loOf ag r m.1 = none ∧ (get (w r).nc.ghosts m.1 = none → (w r).spot m.1 = (none : Option Q)))
    (e : requestAgents G.n rs w = some w') : WJ K w' ag gh used cl := by
  unfold requestAgents at e
  simp only at e
  obtain ⟨w1, e1, e⟩ := Option.bind_eq_some_iff.1 e
  obtain ⟨w2, e2, e3⟩ := Option.bind_eq_some_iff.1 e
  obtain ⟨out1, ho1⟩ : ∃ out1 : Nat → List (Nat × Nat), out1 = fun s => sent (((List.range G.n).map fun r => (rs r).foldlM (Mx.sendRequest G.n) (w r, ([] : List (Nat × Nat))))[s]?.bind id) :=
    ⟨_, rfl⟩
  rw [← ho1] at e2 e3
  obtain ⟨out2, ho2⟩ : ∃ out2 : Nat → List (Nat × Nat × S), out2 = fun s => sent (((List.range G.n).map fun r => (recv G.n out1 r).foldlM Mx.answer (w1 r, ([] : List (Nat × Nat × S))))[s]?.bind id) :=
    ⟨_, rfl⟩
  rw [← ho2] at e3
  have h1 : ∀ r < G.n, J K r (w1 r) (loOf ag r) (gh.map fun f => f r) used (fun u => ag u = none) cl ∧ (∀ v, (w1 r).spot v = ((w r).spot v : Option Q)) ∧
      ∀ m ∈ out1 r, loOf ag r m.2 = none ∧ used m.2 ∧ (w r).spot m.2 = (none : Option Q) := by
    intro r hr
    obtain ⟨x, hx, hx2⟩ := Option.map_eq_some_iff.1 (meach_all e1 r hr)
    have hx' := nth_map hx
    obtain ⟨a1, a2, a3, a4⟩ := (h.j r hr).sendRequests hre _ _ _ _ (fun q hq => ⟨(hl r hr q hq).2.1, (hl r hr q hq).1⟩) hx'
    rw [← hx2]
    refine ⟨a1, a3, ?_⟩
    intro m hm
    rw [ho1] at hm
    simp only [hx] at hm
    rcases a4 m hm with hm | ⟨q, hq, b1, b2⟩
    · simp at hm
    · obtain ⟨c1, c2, c3⟩ := hl r hr q hq
      rw [b1]
      exact ⟨c2, c1, c3 b2⟩
  have h2 : ∀ r < G.n, (Keeps (w1 r).nc (w2 r).nc ∧ (w2 r).spaces = (w1 r).spaces) ∧ ∀ m ∈ out2 r, (m.1, m.2.1) ∈ recv G.n out1 r := by
    intro r hr
    obtain ⟨x, hx, hx2⟩ := Option.map_eq_some_iff.1 (meach_all e2 r hr)
    obtain ⟨a1, a2⟩ := answers_keeps _ _ _ _ (nth_map hx)
    rw [← hx2]
    refine ⟨a1, ?_⟩
    intro m hm
    rw [ho2] at hm
    simp only [hx] at hm
    rcases a2 m hm with hm | hm
    · simp at hm
    · exact hm
  refine ⟨?_, h.lt⟩
  intro r hr
  obtain ⟨a1, a2, a3⟩ := h1 r hr
  obtain ⟨⟨b1, b2⟩, -⟩ := h2 r hr
  refine (a1.keeps b1 b2).recvRequesteds hre (recv G.n out2 r) _ _ ?_ (meach_all e3 r hr)
  intro m hm
  obtain ⟨c1, c2⟩ := mem_recv.1 hm
  have c3 := (h2 m.1 c1).2 (r, m.2) c2
  obtain ⟨c4, c5⟩ := mem_recv.1 c3
  obtain ⟨d1, d2, d3⟩ := a3 _ c5
  refine ⟨d1, d2, ?_⟩
  have : (w2 r).spot m.2.1 = ((w1 r).spot m.2.1 : Option Q) := by
    unfold Mx.spot Mx.placed
    rw [b2]
  rw [this, a2]
  exact d3


/-! ### Histories -/

theorem WJ.agent (h : WJ K w ag gh used cl) {r : Nat} (hr : r < G.n) (u : Nat) (s : S) : (w r).agent u = some s ↔ ∃ l, ag u = some (r, s, l) := by
  show (get (w r).nc.locals u).map (·.2) = _ ↔ _
  rw [(h.j r hr).loc]
  constructor
  · intro e
    obtain ⟨⟨s', l⟩, e1, rfl⟩ := Option.map_eq_some_iff.1 e
    exact ⟨l, loOf_some.1 e1⟩
  · rintro ⟨l, e⟩
    rw [loOf_some.2 e]; rfl

theorem WJ.no_agent (h : WJ K w ag gh used cl) {r : Nat} (hr : r < G.n) {u : Nat} : (w r).agent u = none ↔ loOf ag r u = none := by
  show (get (w r).nc.locals u).map (·.2) = _ ↔ _
  rw [(h.j r hr).loc, Option.map_eq_none_iff]

theorem WJ.placed (h : WJ K w ag gh used cl) {r u : Nat} {s : S} {l : Option Q} (e : ag u = some (r, s, l)) : (w r).placed 0 u = some l := by
  obtain ⟨g, eg, hg⟩ := (h.j r (h.lt u _ e)).sp
  rw [placed_one eg]
  exact hg.lo u l (by simp only [loOf_some.2 e]; rfl)

theorem WJ.apart {us : List Nat} (h : WJ K w ag gh (fun u => u ∈ us) cl) (ha : AgentsApart (Q := Q) G.n us w) : AgApart ag := by
  rintro u v ⟨r, s, l⟩ ⟨r', s', l'⟩ q hx hy h1 h2
  simp only at h1 h2
  subst h1 h2
  exact ha r (h.lt u _ hx) r' (h.lt v _ hy) u (h.is_used hx) v (h.is_used hy) q (by rw [(h.agent (h.lt u _ hx) u s).2 ⟨_, hx⟩]; rfl) (by rw [(h.agent (h.lt v _ hy) v s').2 ⟨_, hy⟩]; rfl) (h.placed hx) (h.placed hy)

/-- A move. -/
theorem WJ.gmove {nf : Bool} {us : List Nat} {r pid u : Nat} {pt : Q} (h : WJ K w ag none (fun u => u ∈ us) False) (hl : Legal G us w (.gmove r pid u pt : WOp S A Q))
    (e : wstep G.n nf w (.gmove r pid u pt) = some w') :
    ∃ s l, ag u = some (r, s, l) ∧ WJ K w' (upd ag u (some (r, s, some (G.dest pt)))) none (fun u => u ∈ us) False := by
  simp only [wstep] at e
  obtain ⟨hr, c, hc, rfl⟩ := at_some' e
  obtain ⟨o, ho, hc⟩ := Option.bind_eq_some_iff.1 hc
  obtain ⟨l, hx⟩ := (h.j r hr).some_local ho
  have hj := (h.j r hr).move hx (by
    intro he v hv hp
    refine hl he v ?_ hv hp
    obtain ⟨g, eg, hg⟩ := (h.j r hr).sp
    rw [placed_one eg] at hp
    exact hg.used v (by rw [hp]; rfl)) hc
  have hau := loOf_some.1 hx
  refine ⟨o.2, l, hau, h.at hr (x := some (o.2, some (G.dest pt))) (fun _ h => h) (fun k hk => loOf_none hau (fun e => hk e.symm)) (fun _ hn => by rw [hau] at hn; cases hn) ?_⟩
  refine hj.congr (fun _ => rfl) (fun _ h => h) ?_ (fun h => h)
  intro v _ hv
  have : v ≠ u := by rintro rfl; rw [hau] at hv; cases hv
  simp only [upd, if_neg this]
  exact hv

/-- Where the locations of the agents after an operation come from. -/
def Whence (G : Geo Q) (ag : Nat → Option (Nat × S × Option Q)) (o : WOp S A Q) (ag' : Nat → Option (Nat × S × Option Q)) : Prop :=
  ∀ u r s q, ag' u = some (r, s, some q) → (∃ s', ag u = some (r, s', some q)) ∨ (∃ pid pt, o = .gmove r pid u pt ∧ q = G.dest pt) ∨ ((∃ g, o = .synch g) ∨ ∃ ms, o = .move ms) ∧ G.inside r q = true

theorem Whence.same {o : WOp S A Q} : Whence G ag o ag := fun _ _ s _ h => .inl ⟨s, h⟩

theorem WJ.step_whence (hre : Readd K) {nf : Bool} {us : List Nat} {o : WOp S A Q} (h : WJ K w ag none (fun u => u ∈ us) False) (hl : Legal G us w o) (e : wstep G.n nf w o = some w') :
    ∃ ag', WJ K w' ag' none (fun u => u ∈ added us o) False ∧ Whence G ag o ag' := by
  cases o with
  | add r u s =>
    simp only [wstep] at e
    obtain ⟨hr, c, hc, rfl⟩ := at_some' e
    cases hc
    have hau : ag u = none := by
      cases ha : ag u with
      | none => rfl
      | some x => exact absurd (h.is_used ha) hl
    have hj := (h.j r hr).add hre (u := u) (by
      intro q hp
      obtain ⟨g, eg, hg⟩ := (h.j r hr).sp
      rw [placed_one eg] at hp
      exact hl (hg.used u (by rw [hp]; rfl))) (.inr hl) (fun hu => absurd hu hl) s
    refine ⟨upd ag u ((some (s, (Option.none : Option Q))).map fun y => (r, y)), h.at hr (x := some (s, none)) (fun v hv => List.mem_cons_of_mem _ hv) (fun k _ => loOf_dead hau) (fun hu => absurd hu hl) ?_, ?_⟩
    · refine hj.congr (fun _ => rfl) ?_ ?_ (fun h => h)
      · rintro v (hv | rfl)
        · exact List.mem_cons_of_mem _ hv
        · exact List.mem_cons_self
      · rintro v - ⟨h1, h2⟩
        simp only [upd, if_neg h2]
        exact h1
    · intro v r' s' q hv
      simp only [upd] at hv
      split at hv
      · simp at hv
      · exact .inl ⟨s', hv⟩
  | remove r u =>
    simp only [wstep] at e
    obtain ⟨hr, c, hc, rfl⟩ := at_some' e
    obtain ⟨h1, h2⟩ := (h.j r hr).remove hc
    obtain ⟨y, hy⟩ := Option.isSome_iff_exists.1 h1
    refine ⟨upd ag u ((none : Option (S × Option Q)).map fun y => (r, y)), h.at hr (x := none) (fun _ h => h) (fun k hk => loOf_none (loOf_some.1 hy) (fun e => hk e.symm)) (fun _ _ => rfl) ?_, ?_⟩
    · refine h2.congr (fun _ => rfl) (fun _ h => h) ?_ (fun h => h)
      intro v _ hv
      simp only [upd]
      split
      · rfl
      · rename_i hne
        rcases hv with hv | hv
        · exact hv
        · exact absurd hv hne
    · intro v r' s' q hv
      simp only [upd] at hv
      split at hv
      · simp at hv
      · exact .inl ⟨s', hv⟩
  | setState r u s =>
    simp only [wstep] at e
    obtain ⟨hr, c, hc, rfl⟩ := at_some' e
    obtain ⟨x, hx, hj⟩ := (h.j r hr).setState hc
    have hau := loOf_some.1 hx
    refine ⟨_, h.at hr (x := some (s, x.2)) (fun _ h => h) (fun k hk => loOf_none hau (fun e => hk e.symm)) (fun _ hn => by rw [hau] at hn; cases hn) ?_, ?_⟩
    · refine hj.congr (fun _ => rfl) (fun _ h => h) ?_ (fun h => h)
      intro v _ hv
      have : v ≠ u := by rintro rfl; rw [hau] at hv; cases hv
      simp only [upd, if_neg this]
      exact hv
    · intro v r' s' q hv
      simp only [upd] at hv
      split at hv
      · rename_i e
        subst e
        simp only [Option.map_some, Option.some.injEq, Prod.mk.injEq] at hv
        exact .inl ⟨x.1, by rw [hau, ← hv.1, ← hv.2.2]⟩
      · exact .inl ⟨s', hv⟩
  | gmove r pid u pt =>
    obtain ⟨s, l, hau, h'⟩ := h.gmove hl e
    refine ⟨_, h', ?_⟩
    intro v r' s' q hv
    simp only [upd] at hv
    split at hv
    · rename_i e
      subst e
      simp only [Option.some.injEq, Prod.mk.injEq] at hv
      obtain ⟨rfl, rfl, rfl⟩ := hv
      exact .inr (.inl ⟨pid, pt, rfl, rfl⟩)
    · exact .inl ⟨s', hv⟩
  | addEdge r pid u v a =>
    simp only [wstep] at e
    obtain ⟨hr, c, hc, rfl⟩ := at_some' e
    exact ⟨ag, h.keepAt (onNet_keeps (fun _ => addEdge_keeps) hc), .same⟩
  | updateEdge r pid u v a =>
    simp only [wstep] at e
    obtain ⟨hr, c, hc, rfl⟩ := at_some' e
    exact ⟨ag, h.keepAt (onNet_keeps (fun _ => updateEdge_keeps) hc), .same⟩
  | removeEdge r pid u v =>
    simp only [wstep] at e
    obtain ⟨hr, c, hc, rfl⟩ := at_some' e
    exact ⟨ag, h.keepAt (onNet_keeps (fun _ => removeEdge_keeps) hc), .same⟩
  | clearEdges r pid =>
    simp only [wstep] at e
    obtain ⟨hr, c, hc, rfl⟩ := at_some' e
    exact ⟨ag, h.keepAt (onNet_keeps (fun _ => clearEdges_keeps) hc), .same⟩
  | move ms =>
    have h' := (h.moveAgents hre hl.1 (fun he => h.apart (hl.2 he)) e).2.forget
    refine ⟨_, h', ?_⟩
    intro u r s q hu
    refine .inr (.inr ⟨.inr ⟨ms, rfl⟩, ?_⟩)
    have hv := h'.valid hu
    obtain ⟨⟨r0, s0, l0⟩, h4, h5⟩ := Option.map_eq_some_iff.1 hu
    cases l0 with
    | none => simp [home] at h5
    | some q0 =>
      simp only [home, Prod.mk.injEq, Option.some.injEq] at h5
      obtain ⟨rfl, rfl, rfl⟩ := h5
      exact (K.owner_spec hv).2.1
  | request rs =>
    refine ⟨ag, h.request hre ?_ e, .same⟩
    intro r hr m hm
    obtain ⟨h1, h2, h3⟩ := hl r hr m hm
    refine ⟨h1, (h.no_agent hr).1 h2, ?_⟩
    intro hn
    unfold Mx.spot
    cases hp : ((w r).placed 0 m.1 : Option (Option Q)) with
    | none => rfl
    | some o =>
      cases o with
      | none => rfl
      | some q => exact absurd hp (h3 (by show (get (w r).nc.ghosts m.1).map (·.st) = none; rw [hn]; rfl) q)
  | synch g =>
    have h' := (h.synchronize hre (fun he => h.apart (hl.2 he)) hl.1 e).forget
    refine ⟨_, h', ?_⟩
    intro u r s q hu
    refine .inr (.inr ⟨.inl ⟨g, rfl⟩, ?_⟩)
    have hv := h'.valid hu
    obtain ⟨⟨r0, s0, l0⟩, h4, h5⟩ := Option.map_eq_some_iff.1 hu
    cases l0 with
    | none => simp [home] at h5
    | some q0 =>
      simp only [home, Prod.mk.injEq, Option.some.injEq] at h5
      obtain ⟨rfl, rfl, rfl⟩ := h5
      exact (K.owner_spec hv).2.1

theorem WJ.step (hre : Readd K) {nf : Bool} {us : List Nat} {o : WOp S A Q} (h : WJ K w ag none (fun u => u ∈ us) False) (hl : Legal G us w o) (e : wstep G.n nf w o = some w') :
    ∃ ag', WJ K w' ag' none (fun u => u ∈ added us o) False :=
  let ⟨ag', h', _⟩ := h.step_whence hre hl e
  ⟨ag', h'⟩

theorem WJ.init (K : Kind G P) (dirs : List Bool) : WJ K (World.start [K.new] dirs : World S A P) (fun _ => none) none (fun u => u ∈ ([] : List Nat)) False := by
  refine ⟨?_, by intro u x h; cases h⟩
  intro r _
  refine ⟨rfl, Ok.nil, fun _ => rfl, (fun e he => absurd he List.not_mem_nil), ⟨K.new, []⟩, rfl, K.new_ok r, ?_, ?_, ?_, ?_, ?_, ?_, fun _ => rfl, fun h => h.elim⟩
  · intro u x h; cases h
  · intro u q _ h; rw [K.new_at] at h; cases h
  · intro f h; cases h
  · intro u h; cases h
  · intro u h; cases h
  · intro u h; rw [K.new_at] at h; cases h

/-- The situation before the last operation of a history. -/
theorem WJ.before (hre : Readd K) {nf : Bool} {o : WOp S A Q} : ∀ (ops : List (WOp S A Q)) (us : List Nat) (w w' : World S A P) (ag : Nat → Option (Nat × S × Option Q)),
    WJ K w ag none (fun u => u ∈ us) False → LegalRun G nf us w (ops ++ [o]) → wrun G.n nf w ops = some w' →
    ∃ (us' : List Nat) (ag' : _), WJ K w' ag' none (fun u => u ∈ us') False ∧ Legal G us' w' o := by
  intro ops
  induction ops with
  | nil => intro us w w' ag h hl e; cases e; exact ⟨us, ag, h, hl.1⟩
  | cons o ops ih =>
    intro us w w' ag h hl e
    unfold wrun at e
    rw [List.foldlM_cons, Option.bind_eq_bind] at e
    obtain ⟨w1, e1, e2⟩ := Option.bind_eq_some_iff.1 e
    obtain ⟨ag1, h1⟩ := h.step hre hl.1 e1
    exact ih _ w1 w' ag1 h1 (hl.2 w1 e1) e2

/-! ### What follows for `synchronize` -/

/-- The agents after `synchronize`: those from before, with the same states. -/
theorem mixed_population (hre : Readd K) {nf g : Bool} {us : List Nat} (hx : G.excl → AgentsApart (Q := Q) G.n us w) (hg : g = true ∨ G.buf = 0) (h : WJ K w ag gh (fun u => u ∈ us) cl) (e : synchronize G.n nf g w = some w') :
    (∀ u s, (∃ r < G.n, (w' r).agent u = some s) ↔ ∃ r < G.n, (w r).agent u = some s) ∧
      ∀ u, ∀ r < G.n, ∀ r' < G.n, ((w' r).agent u).isSome = true → ((w' r').agent u).isSome = true → r = r' := by
  have h' := h.synchronize hre (fun he => h.apart (hx he)) hg e
  refine ⟨?_, ?_⟩
  · intro u s
    constructor
    · rintro ⟨r, hr, e⟩
      obtain ⟨l, e⟩ := (h'.agent hr u s).1 e
      obtain ⟨⟨r0, s0, l0⟩, e0, e1⟩ := Option.map_eq_some_iff.1 e
      have hr0 := h.lt u _ e0
      refine ⟨r0, hr0, (h.agent hr0 u s).2 ⟨l0, ?_⟩⟩
      cases l0 <;> simp [home] at e1 <;> simp [e0, e1]
    · rintro ⟨r, hr, e⟩
      obtain ⟨l, e⟩ := (h.agent hr u s).1 e
      have e' : (fun u => (ag u).map (home G)) u = some (home G (r, s, l)) := by simp [e]
      have hr' := h'.lt u _ e'
      refine ⟨_, hr', (h'.agent hr' u s).2 ⟨l, e'.trans ?_⟩⟩
      cases l <;> rfl
  · intro u r hr r' hr' e e'
    obtain ⟨s, e⟩ := Option.isSome_iff_exists.1 e
    obtain ⟨s', e'⟩ := Option.isSome_iff_exists.1 e'
    obtain ⟨l, e⟩ := (h'.agent hr u s).1 e
    obtain ⟨l', e'⟩ := (h'.agent hr' u s').1 e'
    rw [e] at e'
    simp only [Option.some.injEq, Prod.mk.injEq] at e'
    exact e'.1

/-- Where an agent is after `synchronize`. -/
theorem mixed_home (hre : Readd K) {nf g : Bool} {us : List Nat} (hx : G.excl → AgentsApart (Q := Q) G.n us w) (hg : g = true ∨ G.buf = 0) (h : WJ K w ag gh (fun u => u ∈ us) cl) (e : synchronize G.n nf g w = some w')
    {r u : Nat} (hr : r < G.n) {s : S} (hu : (w r).agent u = some s) :
    ∃ l : Option Q, (w r).placed 0 u = some l ∧ ∃ r' < G.n, (w' r').agent u = some s ∧ (w' r').placed 0 u = some l ∧
      (∀ q, l = some q → G.inside r' q = true) ∧ (l = none → r' = r) ∧
      ∀ k < G.n, k ≠ r' → (w' k).agent u = none ∧ ∀ q : Q, (w' k).placed 0 u = some (some q) ↔ 0 < G.buf ∧ l = some q ∧ G.near k q := by
  have h' := h.synchronize hre (fun he => h.apart (hx he)) hg e
  obtain ⟨l, hau⟩ := (h.agent hr u s).1 hu
  have e' : (fun u => (ag u).map (home G)) u = some ((home G (r, s, l)).1, s, l) := by
    simp only [hau, Option.map_some]
    cases l <;> rfl
  have hr' := h'.lt u _ e'
  refine ⟨l, h.placed hau, _, hr', (h'.agent hr' u s).2 ⟨l, e'⟩, h'.placed e', ?_, ?_, ?_⟩
  · rintro q rfl
    exact (K.owner_spec (h.valid hau)).2.1
  · rintro rfl; rfl
  · intro k hk hne
    have hlo : loOf (fun u => (ag u).map (home G)) k u = none := loOf_none e' (fun e => hne e.symm)
    refine ⟨(h'.no_agent hk).2 hlo, ?_⟩
    intro q
    obtain ⟨g, eg, hg⟩ := (h'.j k hk).sp
    have hgh := hg.gh _ rfl u (by simp only [hlo]; rfl)
    rw [placed_one eg]
    have : Proj.where_ g.sp u = some (some q) ↔ (Proj.where_ g.sp u).bind id = some q := by
      cases Proj.where_ g.sp u <;> simp
    rw [this, hgh]
    refine (ghOf_some (G := G) (ag := fun u => (ag u).map (home G))).trans ?_
    rw [show (ag u).map (home G) = _ from e']
    constructor
    · rintro ⟨h0, r1, s1, h1, h2, h3⟩
      simp only [Option.some.injEq, Prod.mk.injEq] at h1
      exact ⟨h0, h1.2.2, h3⟩
    · rintro ⟨h0, rfl, h3⟩
      exact ⟨h0, _, s, rfl, fun e => hne e.symm, h3⟩

end Repast.Mixed
