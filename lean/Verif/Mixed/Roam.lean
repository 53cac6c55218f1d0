import Verif.Mixed.Walk

/-! Histories of contexts with a shared space of buffer size 0 and one network, in which agents leave their ranks one at a time. Used for C69. -/
namespace Repast.Mixed
open Repast.Dict Repast.Context Repast.Network Repast.Space

variable {S A P Q : Type} [Proj P Q] {G : Geo Q}

/-! ### Specification -/

/-- `graph.edges[(u, v)]` of the network `pid`. -/
def Mx.edgeAttr (c : Mx S A P) (pid u v : Nat) : Option (Attr A) := c.nc.edgeAttr pid u v

/-- A step of a history: an operation, an agent that moves out of the bounds of its rank `r` into those of the rank `k`, and then `synchronize`, or an agent that is moved from the rank `r` to the rank `k` with
`move_agents`, and then `synchronize`. -/
inductive Deed (S A Q : Type) where
  | op (o : WOp S A Q)
  | walk (r k m : Nat) (pt : Q)
  | carry (r k m : Nat)

/-- The operations. -/
def Deed.ops : Deed S A Q → List (WOp S A Q)
  | .op o => [o]
  | .walk r _ m pt => [.gmove r 0 m pt, .synch true]
  | .carry r k m => [.move (oneMove r k m), .synch true]

/-- What the operation is for the agents and the network: moves within the bounds do nothing with them. -/
def netOp : WOp S A Q → List (Network.WOp S A)
  | .add r u s => [.add r u s]
  | .remove r u => [.remove r u]
  | .setState r u s => [.setState r u s]
  | .gmove _ _ _ _ => []
  | .addEdge r pid u v a => [.addEdge r pid u v a]
  | .updateEdge r pid u v a => [.updateEdge r pid u v a]
  | .removeEdge r pid u v => [.removeEdge r pid u v]
  | .clearEdges r pid => [.clearEdges r pid]
  | .request rs => [.request rs]
  | .move ms => [.move ms]
  | .synch g => [.synch g]

/-- The same without the shared space: an agent that leaves its rank is moved with `move_agents`. -/
def Deed.netOps : Deed S A Q → List (Network.WOp S A)
  | .op o => netOp o
  | .walk r k m _ => [.move (oneMove r k m), .synch true]
  | .carry r k m => [.move (oneMove r k m), .synch true]

/-- Other operations move agents within the bounds of their ranks only, and a walk goes from the bounds of one rank to those of another. -/
def DeedOk (G : Geo Q) (w : World S A P) : Deed S A Q → Prop
  | .op (.gmove r pid u pt) => r < G.n ∧ pid = 0 ∧ ((w r).agent u).isSome = true ∧ G.inside r (G.dest pt) = true
  | .op (.move _) => False
  | .op _ => True
  | .walk _ k _ pt => G.inside k (G.dest pt) = true
  | .carry _ _ _ => True

/-- Each step of the history is of that kind. -/
def DeedsOk (G : Geo Q) (nf : Bool) : World S A P → List (Deed S A Q) → Prop
  | _, [] => True
  | w, d :: ds => DeedOk G w d ∧ ∀ w', wrun G.n nf w d.ops = some w' → DeedsOk G nf w' ds

/-- What a walk of the agent `m` from the rank `r` to the location `q` of the rank `k` does: `w0` are the contexts before, and `w` those after it. -/
structure Walked (n : Nat) (w0 : World S A P) (r k m : Nat) (q : Q) (w : World S A P) : Prop where
  hr : r < n
  hk : k < n
  was : ((w0 r).agent m).isSome = true
  /-- the agent with its state is on its new rank, and on no other -/
  agent : ∀ i < n, (w i).agent m = if i = k then (w0 r).agent m else none
  /-- only its new rank has it at its location -/
  at_ : ∀ i < n, (w i).placed 0 m = some (some q) ↔ i = k
  /-- the other agents stay where they are -/
  others : ∀ i < n, ∀ u, u ≠ m → (w i).agent u = (w0 i).agent u ∧ (((w i).agent u).isSome = true → (w i).placed 0 u = ((w0 i).placed 0 u : Option (Option Q)))
  /-- its edges, with their attributes, are on each rank that owns one of the ends -/
  edges : ∀ i < n, ∀ x, i = k ∨ ((w i).agent x).isSome = true → (w i).edgeAttr 0 m x = (w0 r).edgeAttr 0 m x ∧ (w i).edgeAttr 0 x m = (w0 r).edgeAttr 0 x m
  /-- and on no other -/
  gone : ∀ i < n, ∀ x, i ≠ k → (w i).agent x = none → (w i).edgeAttr 0 m x = none ∧ (w i).edgeAttr 0 x m = none
  /-- the other edges do not change -/
  rest : ∀ i < n, ∀ x y, x ≠ m → y ≠ m → (w i).edgeAttr 0 x y = (w0 i).edgeAttr 0 x y
  /-- the ghosts have the states of their agents -/
  fresh : ∀ i < n, ∀ u s, (w i).ghostAgent u = some s → ∃ j < n, j ≠ i ∧ (w j).agent u = some s

/-! ### Histories -/

variable {K : Kind G P} {w w' : World S A P} {ag : Nat → Option (Nat × S × Option Q)}

theorem mrun_append {nf : Bool} {n : Nat} (w : World S A P) (os os' : List (WOp S A Q)) : wrun n nf w (os ++ os') = (wrun n nf w os).bind fun w => wrun n nf w os' := by
  unfold wrun
  rw [List.foldlM_append]; rfl

theorem LegalRun.append {nf : Bool} : ∀ {os os' : List (WOp S A Q)} {us : List Nat} {w : World S A P}, LegalRun G nf us w (os ++ os') →
    LegalRun G nf us w os ∧ ∀ w', wrun G.n nf w os = some w' → LegalRun G nf (os.foldl added us) w' os'
  | [], _, _, _, h => ⟨trivial, by intro w' e; cases e; exact h⟩
  | o :: os, os', us, w, h => by
    refine ⟨⟨h.1, fun w1 e => (LegalRun.append (h.2 w1 e)).1⟩, ?_⟩
    intro w' e
    unfold wrun at e
    rw [List.foldlM_cons, Option.bind_eq_bind] at e
    obtain ⟨w1, e1, e2⟩ := Option.bind_eq_some_iff.1 e
    exact (LegalRun.append (h.2 w1 e1)).2 w' e2

theorem DeedsOk.append {nf : Bool} : ∀ {ds ds' : List (Deed S A Q)} {w : World S A P}, DeedsOk G nf w (ds ++ ds') →
    DeedsOk G nf w ds ∧ ∀ w', wrun G.n nf w (ds.flatMap Deed.ops) = some w' → DeedsOk G nf w' ds'
  | [], _, _, h => ⟨trivial, by intro w' e; cases e; exact h⟩
  | d :: ds, ds', w, h => by
    refine ⟨⟨h.1, fun w1 e => (DeedsOk.append (h.2 w1 e)).1⟩, ?_⟩
    intro w' e
    rw [List.flatMap_cons, mrun_append] at e
    obtain ⟨w1, e1, e2⟩ := Option.bind_eq_some_iff.1 e
    exact (DeedsOk.append (h.2 w1 e1)).2 w' e2

/-- What holds between the steps. -/
structure Between (K : Kind G P) (d : Bool) (us : List Nat) (w : World S A P) (ag : Nat → Option (Nat × S × Option Q)) (V : Sp S A) (mv : Nat → Prop) (Q : Nat → Pend A) : Prop where
  wj : WJ K w ag none (fun u => u ∈ us) False
  allIn : AllIn G ag
  inv : SInv NoHid d G.n V
  rest : Rest G.n mv Q
  toRef : ∀ i < G.n, (Q i).toRef = []
  sim : Sim d Q G.n (nets w) V

theorem homes_in {used : Nat → Prop} {cl : Prop} {gh : Option (Nat → Nat → Option Q)} (h : WJ K w' (fun u => (ag u).map (home G)) gh used cl) : AllIn G fun u => (ag u).map (home G) := by
  intro u r s q hu
  have hv := h.valid hu
  obtain ⟨⟨r0, s0, l0⟩, h4, h5⟩ := Option.map_eq_some_iff.1 hu
  cases l0 with
  | none => simp [home] at h5
  | some q0 =>
    simp only [home, Prod.mk.injEq, Option.some.injEq] at h5
    obtain ⟨rfl, rfl, rfl⟩ := h5
    exact (K.owner_spec hv).2.1

theorem after_toRef {Q : Nat → Pend A} {n : Nat} (h : ∀ i < n, (Q i).toRef = []) (o : Network.WOp S A) : ∀ i < n, (Network.after Q o i).toRef = [] := by
  intro i hi
  unfold Network.after
  split
  · rfl
  · exact h i hi

/-- A move that is legal. -/
theorem gmove_some {nf : Bool} {us : List Nat} {r u : Nat} {pt : Q} {used : Nat → Prop} (hr : r < G.n) (h : WJ K w ag none used False) (hus : ∀ v, used v → v ∈ us) (hl : Legal G us w (.gmove r 0 u pt : WOp S A Q))
    (hu : ((w r).agent u).isSome = true) : ∃ w', wstep G.n nf w (.gmove r 0 u pt) = some w' ∧ nets w' = nets w := by
  obtain ⟨s, hs⟩ := Option.isSome_iff_exists.1 hu
  obtain ⟨l, hl'⟩ := (h.agent hr u s).1 hs
  obtain ⟨c, e1, e2⟩ := (h.j r hr).canMove (u := u) (q := pt) (loOf_some.2 hl') (by
    intro he v hv hp
    refine hl he v ?_ hv hp
    obtain ⟨g, eg, hg⟩ := (h.j r hr).sp
    rw [placed_one eg] at hp
    exact hus v (hg.used v (by rw [hp]; rfl)))
  have hs' : (get (w r).nc.locals u).map (·.2) = some s := hs
  obtain ⟨o, ho, -⟩ := Option.map_eq_some_iff.1 hs'
  refine ⟨fun k => if k = r then c else w k, ?_, ?_⟩
  · simp only [wstep]
    unfold Mixed.at_ Mx.gmove
    rw [if_pos hr]
    simp only [ho, Option.bind_some, e1, Option.map_some]
  · funext k
    unfold nets
    simp only
    split
    · rename_i e; subst e; exact e2
    · rfl

/-- An operation that is not a movement. -/
theorem Between.op (hre : Readd K) (h0 : G.buf = 0) {d nf : Bool} {us : List Nat} {V : Sp S A} {mv : Nat → Prop} {Qp : Nat → Pend A} (h : Between K d us w ag V mv Qp) {o : WOp S A Q} {o' : Network.WOp S A}
    (ho : netOp o = [o']) (hl : Legal G us w o) (hln : Network.Legal d G.n V o') (hs : Settled mv G.n V o') :
    ∃ w' ag', wstep G.n nf w o = some w' ∧ Between K d (added us o) w' ag' (sstep d G.n V o') mv (Network.after Qp o') := by
  obtain ⟨x, e, s1⟩ := step_sim h.inv (fun r hr => (h.rest r hr).2.1) K.n_pos (fun r hr => (h.rest r hr).1) hln hs h.sim
  have hlift : ∃ w', wstep G.n nf w o = some w' ∧ nets w' = x := by
    cases o with
    | gmove r pid u pt => simp [netOp] at ho
    | remove r u =>
      simp only [netOp, List.cons.injEq, and_true] at ho
      subst ho
      exact hln.elim
    | add r u s =>
      simp only [netOp, List.cons.injEq, and_true] at ho
      subst ho
      exact at_lift (f := fun c => some (c.add u s)) (f' := fun c => some (c.add u s)) (fun c c' e => ⟨c.add u s, rfl, Option.some.inj e⟩) e
    | move ms =>
      simp only [netOp, List.cons.injEq, and_true] at ho
      subst ho
      exact move_lift hre h0 (fun he => h.wj.apart (hl.2 he)) h.wj h.allIn e
    | request rs =>
      simp only [netOp, List.cons.injEq, and_true] at ho
      subst ho
      exact request_lift e
    | synch g =>
      simp only [netOp, List.cons.injEq, and_true] at ho
      subst ho
      exact synch_rest hre h0 (fun he => h.wj.apart (hl.2 he)) h.wj h.allIn e
    | _ =>
      simp only [netOp, List.cons.injEq, and_true] at ho
      subst ho
      exact at_lift (fun c c' e => onNet_lift e) e
  obtain ⟨w', e1, rfl⟩ := hlift
  obtain ⟨ag', h1, h2⟩ := h.wj.step_whence hre hl e1
  refine ⟨w', ag', e1, h1, ?_, h.inv.step hln, h.rest.after o', after_toRef h.toRef o', s1⟩
  intro u r s q hu
  rcases h2 u r s q hu with ⟨s', h3⟩ | ⟨pid, pt, rfl, -⟩ | ⟨-, h3⟩
  · exact h.allIn u r s' q h3
  · simp [netOp] at ho
  · exact h3

/-- A move within the bounds. -/
theorem Between.stay {d nf : Bool} {us : List Nat} {V : Sp S A} {mv : Nat → Prop} {Qp : Nat → Pend A} (h : Between K d us w ag V mv Qp) {r u : Nat} {pt : Q} (hr : r < G.n)
    (hl : Legal G us w (.gmove r 0 u pt : WOp S A Q)) (hu : ((w r).agent u).isSome = true) (hin : G.inside r (G.dest pt) = true) :
    ∃ w' ag', wstep G.n nf w (.gmove r 0 u pt) = some w' ∧ Between K d us w' ag' V mv Qp := by
  obtain ⟨w', e1, e2⟩ := gmove_some (nf := nf) hr h.wj (fun _ h => h) hl hu
  obtain ⟨s, l, -, h1⟩ := h.wj.gmove hl e1
  refine ⟨w', _, e1, h1, ?_, h.inv, h.rest, h.toRef, by rw [e2]; exact h.sim⟩
  intro v r' s' q hv
  simp only [upd] at hv
  split at hv
  · simp only [Option.some.injEq, Prod.mk.injEq] at hv
    obtain ⟨rfl, rfl, rfl⟩ := hv
    exact hin
  · exact h.allIn v r' s' q hv

/-- Nothing is pending that `_pre_synch_ghosts` would handle. -/
theorem preSynch_same {d : Bool} {n : Nat} (hn : 0 < n) {Qp : Nat → Pend A} {x : Network.World S A} {V : Sp S A} (h : Sim d Qp n x V) (ht : ∀ i < n, (Qp i).toRef = []) :
    eachPid (preSynchNet n) x = some x := by
  rw [eachPid_one (sim_count h hn)]
  refine preSynchNet_same fun r hr => ⟨(x r).net, (h r hr).1.nets, ?_⟩
  rw [(h r hr).1.net.toRef, ht r hr]

/-- An agent that leaves its rank. -/
theorem Between.walk (hre : Readd K) (h0 : G.buf = 0) {d nf : Bool} {us : List Nat} {V : Sp S A} {mv : Nat → Prop} {Qp : Nat → Pend A} (h : Between K d us w ag V mv Qp) {r k m : Nat} {pt : Q}
    (hin : G.inside k (G.dest pt) = true) (hl : LegalRun G nf us w (Deed.ops (.walk r k m pt : Deed S A Q))) (can : CanMove d G.n V mv r k m) :
    ∃ w1 w2 ag1 V1 Qp', wstep G.n nf w (.gmove r 0 m pt) = some w1 ∧ wstep G.n nf w1 (.synch true) = some w2 ∧ nets w1 = nets w ∧
      WJ K w1 ag1 none (fun u => u ∈ us) False ∧ (∃ s l, ag m = some (r, s, l) ∧ ag1 = upd ag m (some (r, s, some (G.dest pt)))) ∧ (G.excl → AgentsApart (Q := Q) G.n us w1) ∧
      SInv NoHid d G.n V1 ∧ Moved d G.n V r k m V1 ∧ Between K d us w2 (fun u => (ag1 u).map (home G)) (sstep d G.n V1 (.synch true)) (fun u => mv u ∨ u = m) Qp' := by
  have hr := can.hr
  have hn := K.n_pos
  obtain ⟨hl1, hl2⟩ := hl
  obtain ⟨w1, e1, e2⟩ := gmove_some (nf := nf) hr h.wj (fun _ h => h) hl1 (by
    show ((nets w r).agent m).isSome = true
    rw [h.sim.agent hr]; exact can.loc)
  obtain ⟨s, l, ham, h1⟩ := h.wj.gmove hl1 e1
  obtain ⟨hl2, -⟩ := hl2 w1 e1
  have hx : G.excl → AgApart (upd ag m (some (r, s, some (G.dest pt)))) := fun he => h1.apart (hl2.2 he)
  have hm : upd ag m (some (r, s, some (G.dest pt))) m = some (r, s, some (G.dest pt)) := by simp [upd]
  have hown := K.owner_spec (h1.valid hm)
  have hk : G.owner (G.dest pt) = k := (hown.2.2 k can.hk hin).symm
  have hi : G.inside r (G.dest pt) = false := by
    cases hh : G.inside r (G.dest pt) with
    | false => rfl
    | true => exact absurd ((hown.2.2 r hr hh).trans hk) (Ne.symm can.ne)
  obtain ⟨x1, s', hid, drop, l', M, f1, f2, -, -⟩ := mid_start h.inv h.rest can h.sim
  obtain ⟨x2, V1, Q1, f3, f4, i1, hM, q1⟩ := move_sim h.inv h.rest can h.sim
  have hls : Network.Legal d G.n V1 (.synch true) := by
    intro _
    refine ⟨?_, ?_⟩
    · rintro i hi' j hj u v ⟨p, hp, -⟩
      rw [(hM.clean i hi').1, (hM.clean i hi').2.1] at hp
      simp at hp
    · intro i hi' p hp
      rw [(hM.clean i hi').2.2] at hp; cases hp
  have hset : Settled (fun u => mv u ∨ u = m) G.n V1 (.synch true) := by
    intro i hi' p hp
    rw [(hM.clean i hi').2.2] at hp; cases hp
  obtain ⟨x3, f5, f6⟩ := step_sim i1 (fun i hi => (q1 i hi).2.1) hn (fun i hi => (q1 i hi).1) hls hset f4
  obtain ⟨w2, e3, e4⟩ := synch_walk (nf := nf) hre h0 hx h1 hm hi hk (by
      intro u r' s' q hu ha
      simp only [upd, if_neg hu] at ha
      exact h.allIn u r' s' q ha) (by rw [e2]; exact preSynch_same hn h.sim h.toRef) (by rw [e2]; exact f1)
    (preSynch_same hn f2 (by
      intro i hi'
      unfold midPend
      split
      · exact h.toRef r hr
      · exact h.toRef i hi')) (by rw [e2]; exact f3) (sim_count f4 hn) f5
  have h2 := (h1.synchronize hre hx (.inl rfl) e3).forget
  refine ⟨w1, w2, _, V1, _, e1, e3, e2, h1, ⟨s, l, ham, rfl⟩, hl2.2, i1, hM, h2, homes_in h2, i1.step hls, (show Rest G.n _ Q1 from q1).after (.synch true), ?_, by rw [e4]; exact f6⟩
  intro i hi'
  rfl

/-- An agent that is moved with `move_agents`. -/
theorem Between.carry (hre : Readd K) (h0 : G.buf = 0) {d nf : Bool} {us : List Nat} {V : Sp S A} {mv : Nat → Prop} {Qp : Nat → Pend A} (h : Between K d us w ag V mv Qp) {r k m : Nat}
    (hl : Legal G us w (.move (oneMove r k m) : WOp S A Q)) (can : CanMove d G.n V mv r k m) :
    ∃ w1 V1 Q1, moveAgents G.n nf (oneMove r k m) w = some w1 ∧ WJ K w1 (fun u => (agMoved (oneMove r k m) ag u).map (home G)) none (fun u => u ∈ us) False ∧
      SInv NoHid d G.n V1 ∧ Moved d G.n V r k m V1 ∧ Sim d Q1 G.n (nets w1) V1 ∧
      (Legal G us w1 (.synch true : WOp S A Q) → ∃ w2 ag2 Q2, wstep G.n nf w1 (.synch true) = some w2 ∧
        Between K d us w2 ag2 (sstep d G.n V1 (.synch true)) (fun u => mv u ∨ u = m) Q2) := by
  have hn := K.n_pos
  obtain ⟨x1, V1, Q1, f1, f2, i1, hM, q1⟩ := move_sim h.inv h.rest can h.sim
  obtain ⟨w1, e1, rfl⟩ := move_lift (nf := nf) hre h0 (fun he => h.wj.apart (hl.2 he)) h.wj h.allIn f1
  have h1 := (h.wj.moveAgents hre h0 (fun he => h.wj.apart (hl.2 he)) e1).2.forget
  refine ⟨w1, V1, Q1, e1, h1, i1, hM, f2, ?_⟩
  intro hl2
  have hls : Network.Legal d G.n V1 (.synch true) := by
    intro _
    refine ⟨?_, ?_⟩
    · rintro i hi' j hj u v ⟨p, hp, -⟩
      rw [(hM.clean i hi').1, (hM.clean i hi').2.1] at hp
      simp at hp
    · intro i hi' p hp
      rw [(hM.clean i hi').2.2] at hp; cases hp
  have hset : Settled (fun u => mv u ∨ u = m) G.n V1 (.synch true) := by
    intro i hi' p hp
    rw [(hM.clean i hi').2.2] at hp; cases hp
  obtain ⟨x2, f5, f6⟩ := step_sim i1 (fun i hi => (q1 i hi).2.1) hn (fun i hi => (q1 i hi).1) hls hset f2
  obtain ⟨w2, e3, rfl⟩ := synch_rest (nf := nf) hre h0 (fun he => h1.apart (hl2.2 he)) h1 (homes_in h1) f5
  have h2 := (h1.synchronize hre (fun he => h1.apart (hl2.2 he)) (.inl rfl) e3).forget
  exact ⟨w2, _, _, e3, h2, homes_in h2, i1.step hls, (show Rest G.n _ Q1 from q1).after (.synch true), fun i hi => rfl, f6⟩

/-- A history raises nothing. -/
theorem deeds_sim (hre : Readd K) (h0 : G.buf = 0) {d nf : Bool} : ∀ (ds : List (Deed S A Q)) (us : List Nat) (w : World S A P) (ag : Nat → Option (Nat × S × Option Q)) (V : Sp S A) (mv : Nat → Prop) (Qp : Nat → Pend A)
    (T : (Nat → Prop) → Sp S A → Prop), Between K d us w ag V mv Qp → DeedsOk G nf w ds → LegalRun G nf us w (ds.flatMap Deed.ops) → Cov d G.n mv V (ds.flatMap Deed.netOps) T →
    ∃ w' ag' V' mv' Qp', wrun G.n nf w (ds.flatMap Deed.ops) = some w' ∧ Between K d ((ds.flatMap Deed.ops).foldl added us) w' ag' V' mv' Qp' ∧ T mv' V' := by
  intro ds
  induction ds with
  | nil => intro us w ag V mv Qp T h _ _ hT; exact ⟨w, ag, V, mv, Qp, rfl, h, hT⟩
  | cons dd ds ih =>
    intro us w ag V mv Qp T h hd hl hc
    rw [List.flatMap_cons] at hl hc ⊢
    obtain ⟨hl1, hl2⟩ := hl.append
    have next : ∀ {w1 : World S A P} {ag1 V1 mv1 Qp1}, wrun G.n nf w dd.ops = some w1 → Between K d (dd.ops.foldl added us) w1 ag1 V1 mv1 Qp1 → Cov d G.n mv1 V1 (ds.flatMap Deed.netOps) T →
        ∃ w' ag' V' mv' Qp', wrun G.n nf w (dd.ops ++ ds.flatMap Deed.ops) = some w' ∧ Between K d ((dd.ops ++ ds.flatMap Deed.ops).foldl added us) w' ag' V' mv' Qp' ∧ T mv' V' := by
      intro w1 ag1 V1 mv1 Qp1 e1 h1 hc1
      obtain ⟨w2, ag2, V2, mv2, Qp2, e2, h2, hT⟩ := ih _ w1 ag1 V1 mv1 Qp1 T h1 (hd.2 w1 e1) (hl2 w1 e1) hc1
      exact ⟨w2, ag2, V2, mv2, Qp2, by rw [mrun_append, e1]; exact e2, by rw [List.foldl_append]; exact h2, hT⟩
    have run1 : ∀ {o : WOp S A Q} {w1 : World S A P}, wstep G.n nf w o = some w1 → wrun G.n nf w [o] = some w1 := by
      intro o w1 e
      unfold wrun
      rw [List.foldlM_cons, Option.bind_eq_bind, e]; rfl
    cases dd with
    | walk r k m pt =>
      simp only [Deed.netOps, List.cons_append, List.nil_append] at hc
      obtain ⟨r', k', m', heq, can, hc⟩ := hc
      have heq : r = r' ∧ k = k' ∧ m = m' := by
        have h1 := congrFun heq r
        simp only [oneMove, if_true] at h1
        split at h1
        · simp only [List.cons.injEq, Prod.mk.injEq, and_true] at h1
          rename_i e
          exact ⟨e, h1.2, h1.1⟩
        · cases h1
      obtain ⟨rfl, rfl, rfl⟩ := heq
      obtain ⟨w1, w2, ag1, V1, Qp1, e1, e2, -, -, -, -, i1, hM, h2⟩ := h.walk hre h0 hd.1 hl1 can
      refine next (w1 := w2) ?_ h2 (hc V1 i1 hM).2.2
      show wrun G.n nf w [.gmove r 0 m pt, .synch true] = _
      unfold wrun
      rw [List.foldlM_cons, Option.bind_eq_bind, e1, Option.bind_some, List.foldlM_cons, Option.bind_eq_bind, e2]; rfl
    | carry r k m =>
      simp only [Deed.netOps, List.cons_append, List.nil_append] at hc
      obtain ⟨r', k', m', heq, can, hc⟩ := hc
      have heq : r = r' ∧ k = k' ∧ m = m' := by
        have h1 := congrFun heq r
        simp only [oneMove, if_true] at h1
        split at h1
        · simp only [List.cons.injEq, Prod.mk.injEq, and_true] at h1
          rename_i e
          exact ⟨e, h1.2, h1.1⟩
        · cases h1
      obtain ⟨rfl, rfl, rfl⟩ := heq
      obtain ⟨w1, V1, Q1, e1, -, i1, hM, -, h2⟩ := h.carry (nf := nf) hre h0 hl1.1 can
      obtain ⟨w2, ag2, Q2, e2, h2⟩ := h2 (hl1.2 w1 e1).1
      refine next (w1 := w2) ?_ h2 (hc V1 i1 hM).2.2
      show wrun G.n nf w [.move (oneMove r k m), .synch true] = _
      unfold wrun
      rw [List.foldlM_cons, Option.bind_eq_bind, show wstep G.n nf w (.move (oneMove r k m)) = some w1 from e1, Option.bind_some, List.foldlM_cons, Option.bind_eq_bind, e2]; rfl
    | op o =>
      have key : ∀ o', netOp o = [o'] → (∀ ms, o' ≠ .move ms) → ∃ w' ag' V' mv' Qp', wrun G.n nf w (Deed.ops (.op o) ++ ds.flatMap Deed.ops) = some w' ∧
          Between K d ((Deed.ops (.op o) ++ ds.flatMap Deed.ops).foldl added us) w' ag' V' mv' Qp' ∧ T mv' V' := by
        intro o' ho hmv
        have hc : Cov d G.n mv V (o' :: ds.flatMap Deed.netOps) T := by
          have : Deed.netOps (.op o) = [o'] := ho
          rw [this] at hc; exact hc
        obtain ⟨hln, hs, hc⟩ := hc.head hmv
        obtain ⟨w1, ag1, e1, h1⟩ := h.op (nf := nf) hre h0 ho hl1.1 hln hs
        exact next (run1 e1) h1 hc
      cases o with
      | gmove r pid u pt =>
        obtain ⟨hr, rfl, hu, hin⟩ := hd.1
        obtain ⟨w1, ag1, e1, h1⟩ := h.stay (nf := nf) hr hl1.1 hu hin
        exact next (run1 e1) h1 hc
      | move ms => exact hd.1.elim
      | _ => exact key _ rfl (fun _ h => nomatch h)

theorem Between.init (K : Kind G P) (d : Bool) : Between K d [] (World.start [K.new] [d] : World S A P) (fun _ => none) Sp.init (fun _ => False) still := by
  refine ⟨WJ.init K [d], (by intro u r s q h; cases h), SInv.init d G.n, rest_still, fun _ _ => rfl, ?_⟩
  have : nets (World.start [K.new] [d] : World S A P) = Network.World.init [d] 1 := rfl
  rw [this]
  exact init_sim d G.n

/-- An agent with edges that leaves its rank. -/
theorem walk_moves (K : Kind G P) (hre : Readd K) (h0 : G.buf = 0) (d nf : Bool) (ds : List (Deed S A Q)) (r k m : Nat) (pt : Q) (hd : DeedsOk G nf (World.start [K.new] [d] : World S A P) (ds ++ [Deed.walk r k m pt]))
    (hl : LegalRun G nf [] (World.start [K.new] [d] : World S A P) ((ds ++ [Deed.walk r k m pt]).flatMap Deed.ops)) (hc : Covered d G.n ((ds ++ [Deed.walk r k m pt]).flatMap Deed.netOps)) :
    ∃ w0 w, wrun G.n nf (World.start [K.new] [d] : World S A P) (ds.flatMap Deed.ops) = some w0 ∧
      wrun G.n nf (World.start [K.new] [d] : World S A P) ((ds ++ [Deed.walk r k m pt]).flatMap Deed.ops) = some w ∧ Walked G.n w0 r k m (G.dest pt) w := by
  rw [List.flatMap_append] at hl
  rw [Covered, List.flatMap_append] at hc
  obtain ⟨hd1, hd2⟩ := hd.append
  obtain ⟨hl1, hl2⟩ := hl.append
  obtain ⟨w0, ag, V, mv, Qp, e0, h, hT⟩ := deeds_sim hre h0 ds [] _ _ _ _ _ _ (Between.init K d) hd1 hl1 (Cov.append.1 hc)
  simp only [List.flatMap_cons, List.flatMap_nil, Deed.netOps, List.append_nil] at hT
  obtain ⟨r', k', m', heq, can, hT⟩ := hT
  have heq : r = r' ∧ k = k' ∧ m = m' := by
    have h1 := congrFun heq r
    simp only [oneMove, if_true] at h1
    split at h1
    · simp only [List.cons.injEq, Prod.mk.injEq, and_true] at h1
      rename_i e
      exact ⟨e, h1.2, h1.1⟩
    · cases h1
  obtain ⟨rfl, rfl, rfl⟩ := heq
  have hl2 := hl2 w0 e0
  rw [List.flatMap_cons, List.flatMap_nil, List.append_nil] at hl2
  have hin : G.inside k (G.dest pt) = true := (hd2 w0 e0).1
  obtain ⟨w1, w2, ag1, V1, Qp1, e1, e2, en, h1, ⟨s, l, ham, hag1⟩, hx, i1, hM, h2⟩ := h.walk hre h0 hin hl2 can
  have hr := can.hr
  have hag : ag1 m = some (r, s, some (G.dest pt)) := by rw [hag1]; simp [upd]
  have s0 : ∀ i < G.n, ∀ u, (w0 i).agent u = (V i).loc u := fun i hi u => h.sim.agent hi u
  have hloc : ∀ i u, (sstep d G.n V1 (.synch true) i).loc u = (V1 i).loc u := fun i u => rfl
  have s2 : ∀ i < G.n, ∀ u, (w2 i).agent u = (V1 i).loc u := fun i hi u => h2.sim.agent hi u
  have t0 : ∀ i < G.n, ∀ x y, (w0 i).edgeAttr 0 x y = (V i).net.edge x y := fun i hi x y => h.sim.edge hi x y
  have t2 : ∀ i < G.n, ∀ x y, (w2 i).edgeAttr 0 x y = (V1 i).net.edge x y := by
    intro i hi x y
    refine (h2.sim.edge hi x y).trans (synch_keep (fun j hj => (hM.clean j hj).2.2) hi ?_)
    rintro j hj ⟨p, hp, -⟩
    rw [(hM.clean j hj).1, (hM.clean j hj).2.1] at hp
    simp at hp
  obtain ⟨ed1, ed2, ed3⟩ := hM.edges h.inv can i1
  have hown := K.owner_spec (h1.valid hag)
  have hk : G.owner (G.dest pt) = k := (hown.2.2 k can.hk hin).symm
  refine ⟨w0, w2, e0, ?_, hr, can.hk, by rw [s0 r hr]; exact can.loc, ?_, ?_, ?_, ?_, ?_, ?_, ?_⟩
  · rw [List.flatMap_append, mrun_append, e0, Option.bind_some]
    show wrun G.n nf w0 [.gmove r 0 m pt, .synch true] = _
    unfold wrun
    rw [List.foldlM_cons, Option.bind_eq_bind, e1, Option.bind_some, List.foldlM_cons, Option.bind_eq_bind, e2]; rfl
  · intro i hi
    rw [s2 i hi, s0 r hr, hM.loc i hi, if_pos rfl]
  · intro i hi
    obtain ⟨l', p1, r', hr', p2, p3, p4, p5, p6⟩ := mixed_home hre hx (.inl rfl) h1 (nf := nf) (g := true) e2 hr ((h1.agent hr m s).2 ⟨_, hag⟩)
    rw [h1.placed hag] at p1
    simp only [Option.some.injEq] at p1
    subst p1
    have hrk : r' = k := by rw [hown.2.2 r' hr' (p4 _ rfl), hk]
    subst hrk
    constructor
    · intro e
      by_cases hik : i = r'
      · exact hik
      · have := ((p6 i hi hik).2 _).1 e
        omega
    · rintro rfl; exact p3
  · intro i hi u hu
    have : (w2 i).agent u = (w0 i).agent u := by rw [s2 i hi, s0 i hi, hM.loc i hi, if_neg hu]
    refine ⟨this, ?_⟩
    intro hsome
    obtain ⟨t, ht⟩ := Option.isSome_iff_exists.1 hsome
    obtain ⟨l2, hl2⟩ := (h2.wj.agent hi u t).1 ht
    rw [this] at ht
    obtain ⟨l0, hl0⟩ := (h.wj.agent hi u t).1 ht
    rw [h2.wj.placed hl2, h.wj.placed hl0]
    have ha : ag1 u = ag u := by rw [hag1]; simp [upd, hu]
    rw [ha, hl0] at hl2
    simp only [Option.map_some, Option.some.injEq] at hl2
    cases l0 with
    | none => simp only [home, Prod.mk.injEq, true_and] at hl2; rw [← hl2]
    | some q => simp only [home, Prod.mk.injEq, true_and] at hl2; rw [← hl2.2]
  · intro i hi x hx'
    rw [t2 i hi, t2 i hi, t0 r hr, t0 r hr]
    rw [s2 i hi] at hx'
    exact ed1 i hi x hx'
  · intro i hi x e hx'
    rw [s2 i hi] at hx'
    rw [t2 i hi, t2 i hi]
    exact ed2 i hi x e hx'
  · intro i hi x y hx' hy
    rw [t2 i hi, t0 i hi]
    exact ed3 i hi x y hx' hy
  · intro i hi u t hg
    have hg : ((nets w2) i).ghostAgent u = some t := hg
    rw [h2.sim.ghost hi] at hg
    obtain ⟨⟨t', j⟩, hg1, rfl⟩ := Option.map_eq_some_iff.1 hg
    obtain ⟨a, b, c⟩ := h2.inv.gho i hi u t' j hg1
    exact ⟨j, a, b, by rw [s2 j a, ← hloc]; exact i1.synch_ghost hi hg1⟩

/-- After `synchronize`. -/
theorem deeds_agree (K : Kind G P) (hre : Readd K) (h0 : G.buf = 0) (d nf : Bool) (ds : List (Deed S A Q)) (hd : DeedsOk G nf (World.start [K.new] [d] : World S A P) (ds ++ [Deed.op (.synch true)]))
    (hl : LegalRun G nf [] (World.start [K.new] [d] : World S A P) ((ds ++ [Deed.op (.synch true)]).flatMap Deed.ops)) (hc : Covered d G.n ((ds ++ [Deed.op (.synch true : WOp S A Q)]).flatMap Deed.netOps)) :
    ∃ w, wrun G.n nf (World.start [K.new] [d] : World S A P) ((ds ++ [Deed.op (.synch true)]).flatMap Deed.ops) = some w ∧
      (∀ r < G.n, ∀ k < G.n, ∀ u v, ((w r).agent u).isSome = true → ((w k).agent v).isSome = true →
        (w r).edgeAttr 0 u v = (w k).edgeAttr 0 u v ∧ (w r).edgeAttr 0 v u = (w k).edgeAttr 0 v u) ∧
      ∀ k < G.n, ∀ u s, (w k).ghostAgent u = some s → ∃ r < G.n, r ≠ k ∧ (w r).agent u = some s := by
  rw [List.flatMap_append] at hl
  rw [Covered, List.flatMap_append] at hc
  obtain ⟨hd1, hd2⟩ := hd.append
  obtain ⟨hl1, hl2⟩ := hl.append
  obtain ⟨w0, ag, V, mv, Qp, e0, h, hT⟩ := deeds_sim hre h0 ds [] _ _ _ _ _ _ (Between.init K d) hd1 hl1 (Cov.append.1 hc)
  have hT : Cov d G.n mv V [.synch true] fun _ _ => True := hT
  obtain ⟨hln, hs, -⟩ := hT
  have hl2 := (hl2 w0 e0).1
  obtain ⟨w1, ag1, e1, h1⟩ := h.op (nf := nf) (o := .synch true) hre h0 rfl hl2 hln hs
  refine ⟨w1, ?_, ?_, ?_⟩
  · rw [List.flatMap_append, mrun_append, e0, Option.bind_some]
    show wrun G.n nf w0 [.synch true] = _
    unfold wrun
    rw [List.foldlM_cons, Option.bind_eq_bind, e1]; rfl
  · intro r hr k hk u v hu hv
    have hu : (((sstep d G.n V (.synch true)) r).loc u).isSome = true := by rw [← h1.sim.agent hr]; exact hu
    have hv : (((sstep d G.n V (.synch true)) k).loc v).isSome = true := by rw [← h1.sim.agent hk]; exact hv
    show (nets w1 r).edgeAttr 0 u v = (nets w1 k).edgeAttr 0 u v ∧ (nets w1 r).edgeAttr 0 v u = (nets w1 k).edgeAttr 0 v u
    rw [h1.sim.edge hr, h1.sim.edge hr, h1.sim.edge hk, h1.sim.edge hk]
    by_cases hne : r = k
    · rw [hne]; exact ⟨rfl, rfl⟩
    · have c := fun j x y => synch_clean (d := d) (n := G.n) (V := V) j x y
      have h2 := h1.inv.two r hr k hk hne
      exact ⟨h2.agree u v (.inl ⟨hu, hv⟩) (c _ _ _).1 (c _ _ _).1 (c _ _ _).2 (c _ _ _).2, h2.agree v u (.inr ⟨hu, hv⟩) (c _ _ _).1 (c _ _ _).1 (c _ _ _).2 (c _ _ _).2⟩
  · intro i hi u t hg
    have hg : (nets w1 i).ghostAgent u = some t := hg
    rw [h1.sim.ghost hi] at hg
    obtain ⟨⟨t', j⟩, hg1, rfl⟩ := Option.map_eq_some_iff.1 hg
    obtain ⟨a, b, -⟩ := h1.inv.gho i hi u t' j hg1
    refine ⟨j, a, b, ?_⟩
    show (nets w1 j).agent u = _
    rw [h1.sim.agent a]
    exact h.inv.synch_ghost hi hg1

end Repast.Mixed
