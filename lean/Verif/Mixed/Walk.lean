import Verif.Mixed.Lift

/-! `synchronize` in a context with a shared space of buffer size 0 and one network, when at most one agent is out of bounds. Used for C69. -/
namespace Repast.Mixed
open Repast.Dict Repast.Context Repast.Network Repast.Space

variable {S A P Q : Type} [Proj P Q] {G : Geo Q}
variable {K : Kind G P} {w w' : World S A P} {ag : Nat → Option (Nat × S × Option Q)} {gh : Option (Nat → Nat → Option Q)} {used : Nat → Prop} {cl : Prop} {x : Network.World S A}

/-- Nobody is out of bounds. -/
def AllIn (G : Geo Q) (ag : Nat → Option (Nat × S × Option Q)) : Prop := ∀ u r s q, ag u = some (r, s, some q) → G.inside r q = true

theorem noneMoved (n : Nat) : (!(List.range n).all fun _ => ([] : List (Nat × Nat)).isEmpty) = false := by simp

theorem oneMoved {n r k m : Nat} (hr : r < n) : (!(List.range n).all fun i => (oneMove r k m i).isEmpty) = true := by
  rw [Bool.not_eq_true', List.all_eq_false]
  exact ⟨r, List.mem_range.2 hr, by simp [oneMove]⟩

/-- `synchronize` when nobody is out of bounds. -/
theorem synch_rest (hre : Readd K) {nf g : Bool} (h0 : G.buf = 0) (hx : G.excl → AgApart ag) (h : WJ K w ag gh used cl) (hin : AllIn G ag) (e : Network.synchronize G.n g (nets w) = some x) :
    ∃ w', synchronize G.n nf g w = some w' ∧ nets w' = x := by
  unfold Network.synchronize at e
  unfold synchronize
  cases g with
  | false =>
    rw [if_neg (by simp)] at e
    cases e
    obtain ⟨w', e1, e2⟩ := moveOob_none (h.noBuf h0) hin
    refine ⟨w', ?_, e2⟩
    rw [if_neg (by simp), Option.bind_some, e1]
    simp only [Option.bind_some, noneMoved]
    simp
  | true =>
    rw [if_pos rfl] at e
    obtain ⟨x1, e1, e⟩ := Option.bind_eq_some_iff.1 e
    obtain ⟨x2, e2, e3⟩ := Option.bind_eq_some_iff.1 e
    obtain ⟨w1, g1, rfl, h1⟩ := preSynch_lift (nf := nf) h0 h e1
    obtain ⟨w2, g2, g2'⟩ := moveOob_none (h1.noBuf h0) hin
    have h2 := (h1.noBuf h0).moveOob hre hx g2
    rw [← g2'] at e2
    obtain ⟨w3, g3, rfl⟩ := updateGhosts_lift e2
    have h3 := h2.updateGhosts (by rintro f ⟨⟩ _ _ _; rfl) g3
    obtain ⟨w4, g4, g4', -⟩ := synchProj_lift (nf := nf) h0 h3 e3
    refine ⟨w4, ?_, g4'⟩
    rw [if_pos rfl, g1, Option.bind_some, g2]
    simp only [Option.bind_some, noneMoved]
    simp only [Bool.false_eq_true, if_false, if_true, Option.bind_some, synchGhosts, g3, g4]

/-- Nothing is pending. -/
theorem preSynchNet_same {n : Nat} {x : Network.World S A} (h : ∀ r < n, ∃ N, (x r).nets = [N] ∧ N.toRef = []) : Network.preSynchNet n 0 x = some x := by
  have hs : ∀ r < n, (x r).sendRefs n 0 = some (x r, []) := by
    intro r hr
    obtain ⟨N, e1, e2⟩ := h r hr
    unfold Network.Cx.sendRefs Network.Cx.withNet
    simp only [e1, List.getElem?_cons_zero, Option.bind_some, e2, List.foldlM_nil, Option.pure_def, List.set_cons_zero, Option.map_some, Option.some.injEq, Prod.mk.injEq, and_true]
    have : ({ N with toRef := [] } : Net A) = N := by cases N; simp only at e2; rw [e2]
    rw [this, ← e1]
  unfold Network.preSynchNet Network.exchange
  simp only
  have hq : (fun r : Nat => sent (((List.range n).map fun r => (x r).sendRefs n 0)[r]?.bind id)) = fun _ => [] := by
    funext r
    by_cases hr : r < n
    · rw [get_map_range _ hr, hs r hr]; rfl
    · simp [hr]; rfl
  rw [hq]
  have hr0 : ∀ r, recv n (fun _ => ([] : List (Nat × Nat))) r = [] := by
    intro r; unfold recv; simp
  simp only [hr0, List.foldlM_nil, Option.pure_def]
  have : Network.each n (fun r => (((List.range n).map fun r => (x r).sendRefs n 0)[r]?.bind id).map (·.1)) x = some x := by
    rw [← Network.each_same (n := n) x]
    unfold Network.each
    simp only
    have hm : ((List.range n).map fun r => (((List.range n).map fun r => (x r).sendRefs n 0)[r]?.bind id).map (·.1)) = (List.range n).map fun r => some (x r) := by
      refine List.map_congr_left fun r hr => ?_
      rw [get_map_range _ (List.mem_range.1 hr), hs r (List.mem_range.1 hr)]; rfl
    rw [hm]
  rw [this, Option.bind_some, Network.each_same]

/-- `synchronize` when one agent is out of bounds. -/
theorem synch_walk (hre : Readd K) {nf : Bool} (h0 : G.buf = 0) (hx : G.excl → AgApart ag) (h : WJ K w ag gh used cl) {r k m : Nat} {s : S} {q : Q} (hm : ag m = some (r, s, some q))
    (hi : G.inside r q = false) (hk : G.owner q = k) (hl : ∀ u r s q, u ≠ m → ag u = some (r, s, some q) → G.inside r q = true) {x1 x2 x3 : Network.World S A}
    (e0 : eachPid (preSynchNet G.n) (nets w) = some (nets w)) (e1 : moveStart G.n (oneMove r k m) (nets w) = some x1) (e1' : eachPid (preSynchNet G.n) x1 = some x1)
    (e2 : Network.moveAgents G.n (oneMove r k m) (nets w) = some x2) (hc : x2.count = 1) (e3 : Network.synchronize G.n true x2 = some x3) :
    ∃ w', synchronize G.n nf true w = some w' ∧ nets w' = x3 := by
  have hr := h.lt _ _ hm
  simp only at hr
  rw [moveAgents_eq, e1, Option.bind_some, e1', Option.bind_some] at e2
  obtain ⟨y1, e4, e2⟩ := Option.bind_eq_some_iff.1 e2
  obtain ⟨y2, e5, e6⟩ := Option.bind_eq_some_iff.1 e2
  obtain ⟨w1, g1, g1', h1⟩ := preSynch_lift (nf := nf) h0 h e0
  unfold moveStart at e1
  simp only at e1
  rw [← g1'] at e1
  obtain ⟨z1, f1, e1⟩ := Option.bind_eq_some_iff.1 e1
  obtain ⟨z2, f2, e1⟩ := Option.bind_eq_some_iff.1 e1
  obtain ⟨z3, f3, f4⟩ := Option.bind_eq_some_iff.1 e1
  obtain ⟨w2, g2, rfl⟩ := moveOob_one hre (h1.noBuf h0) hx hm hi hk hl f1 f2
  have h2 := (h1.noBuf h0).moveOob hre hx g2
  rw [if_neg (by have := oneMoved (k := k) (m := m) hr; rw [Bool.not_eq_true'] at this; rw [this]; simp)] at f3
  obtain ⟨w3, g3, rfl⟩ := eachNet_lift (f := fun pid => onNets (agentsMoved G.n (oneMove r k m) pid)) (fun pid w x e => onNets_lift e) f3
  have h3 := eachNet_inv (I := fun w => WJ K w (fun u => (ag u).map (home G)) (some fun _ _ => none) used True) (fun _ _ _ h e => h.keeps (onNets_keeps (fun _ _ => agentsMoved_keeps) e)) h2 g3
  obtain ⟨w4, g4, rfl⟩ := each_lift f4 (f := fun i => (w3 i).deleteGhosts _) (fun i hi c' hc' => onNet_lift hc')
  have h4 : WJ K w4 (fun u => (ag u).map (home G)) (some fun _ _ => none) used True :=
    ⟨fun r hr => (h3.j r hr).onNet (fun _ hn => foldlM_keeps (fun _ _ _ => deleteGhost_keeps) hn) (meach_all g4 r hr), h3.lt⟩
  obtain ⟨w5, g5, rfl⟩ := updateGhosts_lift e4
  have h5 := h4.updateGhosts (by rintro f ⟨⟩ _ _ _; rfl) g5
  obtain ⟨w6, g6, rfl, h6⟩ := synchProj_lift (nf := nf) h0 h5 e5
  obtain ⟨w7, g7, rfl⟩ := eachNet_lift (f := fun pid => onNets (postMoved G.n pid)) (fun pid w x e => onNets_lift e) e6
  unfold Network.synchronize at e3
  rw [if_pos rfl, eachPid_one hc] at e3
  obtain ⟨y3, e7, e3⟩ := Option.bind_eq_some_iff.1 e3
  obtain ⟨y4, e8, e9⟩ := Option.bind_eq_some_iff.1 e3
  obtain ⟨w8, g8, rfl⟩ := preNet_lift e7
  obtain ⟨w9, g9, rfl⟩ := updateGhosts_lift e8
  obtain ⟨w10, g10, g10'⟩ := eachNet_lift (f := fun pid => onNets (synchNet G.n pid)) (fun pid w x e => onNets_lift e) e9
  refine ⟨w10, ?_, g10'⟩
  unfold synchronize
  rw [if_pos rfl, g1, Option.bind_some, g2, Option.bind_some]
  simp only [oneMoved hr, if_true]
  have hc7 : (w7 0).nc.nets.length = 1 := hc
  have hone : eachNet (fun pid w => (preNet G.n pid w).bind fun w => (updateGhosts G.n w).bind fun w => eachNet (fun k => onNets (Network.synchNet G.n k)) w) w7 = some w10 := by
    unfold eachNet
    rw [hc7]
    simp only [show List.range 1 = [0] from rfl, List.foldlM_cons, List.foldlM_nil, Option.bind_eq_bind]
    rw [g8, Option.bind_some, g9, Option.bind_some]
    have := g10
    unfold eachNet at this
    rw [this]; rfl
  rw [g3, Option.bind_some, g4, Option.bind_some]
  simp only [synchGhosts, g5, g6, Option.bind_some, afterMoved, g7, hone]

/-! ### The other operations -/

theorem at_lift {n r : Nat} {f : Mx S A P → Option (Mx S A P)} {f' : Network.Cx S A → Option (Network.Cx S A)} (h : ∀ c c', f' c.nc = some c' → ∃ d, f c = some d ∧ d.nc = c')
    (e : Network.at_ n r f' (nets w) = some x) : ∃ w', at_ n r f w = some w' ∧ nets w' = x := by
  unfold Network.at_ at e
  unfold at_
  split at e
  · rename_i hr
    obtain ⟨c', hc, rfl⟩ := Option.map_eq_some_iff.1 e
    obtain ⟨d, hd, rfl⟩ := h (w r) c' hc
    refine ⟨fun k => if k = r then d else w k, by rw [if_pos hr, hd]; rfl, ?_⟩
    funext k
    unfold nets
    simp only
    split <;> rfl
  · cases e

theorem sendRequest_lift {n : Nat} {acc : Mx S A P × List (Nat × Nat)} {q : Nat × Nat} {y : Network.Cx S A × List (Nat × Nat)} (e : Network.Cx.sendRequest n (acc.1.nc, acc.2) q = some y) :
    ∃ d, Mx.sendRequest n acc q = some (d, y.2) ∧ d.nc = y.1 := by
  unfold Network.Cx.sendRequest at e
  unfold Mx.sendRequest
  simp only at e
  split at e
  · rename_i hg
    rw [hg]
    split at e
    · rename_i hq
      cases e
      exact ⟨acc.1, by simp only [hq, if_true], rfl⟩
    · cases e
  · rename_i g hg
    rw [hg]
    cases e
    exact ⟨_, rfl, rfl⟩

theorem answer_lift {acc : Mx S A P × List (Nat × Nat × S)} {q : Nat × Nat} {y : Network.Cx S A × List (Nat × Nat × S)} (e : Network.Cx.answer (acc.1.nc, acc.2) q = some y) :
    ∃ d, Mx.answer acc q = some (d, y.2) ∧ d.nc = y.1 := by
  unfold Mx.answer
  rw [e]
  exact ⟨_, rfl, rfl⟩

theorem fold_lift {M E : Type} {f : Mx S A P × List M → E → Option (Mx S A P × List M)} {f' : Network.Cx S A × List M → E → Option (Network.Cx S A × List M)}
    (h : ∀ acc q y, f' (acc.1.nc, acc.2) q = some y → ∃ d, f acc q = some (d, y.2) ∧ d.nc = y.1) : ∀ (qs : List E) (acc : Mx S A P × List M) (z : Network.Cx S A × List M),
    qs.foldlM f' (acc.1.nc, acc.2) = some z → ∃ d, qs.foldlM f acc = some (d, z.2) ∧ d.nc = z.1 := by
  intro qs
  induction qs with
  | nil => intro acc z e; cases e; exact ⟨acc.1, rfl, rfl⟩
  | cons q qs ih =>
    intro acc z e
    rw [List.foldlM_cons, Option.bind_eq_bind] at e
    obtain ⟨y, a, b⟩ := Option.bind_eq_some_iff.1 e
    obtain ⟨d, hd, hdd⟩ := h acc q y a
    obtain ⟨d', hd', hh⟩ := ih (d, y.2) z (by simp only [hdd]; exact b)
    refine ⟨d', ?_, hh⟩
    rw [List.foldlM_cons, Option.bind_eq_bind, hd]
    exact hd'

/-- A step of `request_agents`. -/
theorem round_lift {n : Nat} {M E : Type} {f : Mx S A P × List M → E → Option (Mx S A P × List M)} {f' : Network.Cx S A × List M → E → Option (Network.Cx S A × List M)}
    (h : ∀ acc q y, f' (acc.1.nc, acc.2) q = some y → ∃ d, f acc q = some (d, y.2) ∧ d.nc = y.1) {qs : Nat → List E}
    (e : Network.each n (fun r => (((List.range n).map fun r => (qs r).foldlM f' (nets w r, ([] : List M)))[r]?.bind id).map (·.1)) (nets w) = some x) :
    ∃ w', each n (fun r => (((List.range n).map fun r => (qs r).foldlM f (w r, ([] : List M)))[r]?.bind id).map (·.1)) w = some w' ∧ nets w' = x ∧
      ∀ r : Nat, sent (((List.range n).map fun r => (qs r).foldlM f (w r, ([] : List M)))[r]?.bind id) = sent (((List.range n).map fun r => (qs r).foldlM f' (nets w r, ([] : List M)))[r]?.bind id) := by
  have hz : ∀ r < n, ∃ z, (qs r).foldlM f' (nets w r, ([] : List M)) = some z := by
    intro r hr
    have := (each_all e).1 r hr
    rw [get_map_range _ hr] at this
    obtain ⟨z, hz, -⟩ := Option.map_eq_some_iff.1 this
    exact ⟨z, hz⟩
  obtain ⟨w', g1, g2⟩ := each_lift (w := w) (f := fun r => (((List.range n).map fun r => (qs r).foldlM f (w r, ([] : List M)))[r]?.bind id).map (·.1)) e (by
    intro r hr c' hc'
    rw [get_map_range _ hr] at hc' ⊢
    obtain ⟨z, hz, rfl⟩ := Option.map_eq_some_iff.1 hc'
    obtain ⟨d, hd, hdd⟩ := fold_lift h (qs r) (w r, []) z hz
    exact ⟨d, by rw [hd]; rfl, hdd⟩)
  refine ⟨w', g1, g2, ?_⟩
  intro r
  by_cases hr : r < n
  · rw [get_map_range _ hr, get_map_range _ hr]
    obtain ⟨z, hz⟩ := hz r hr
    obtain ⟨d, hd, -⟩ := fold_lift h (qs r) (w r, []) z hz
    rw [hd, hz]; rfl
  · simp [hr]; rfl

theorem request_lift {n : Nat} {rs : Nat → List (Nat × Nat)} (e : Network.requestAgents n rs (nets w) = some x) : ∃ w', requestAgents n rs w = some w' ∧ nets w' = x := by
  unfold Network.requestAgents at e
  simp only at e
  obtain ⟨x1, e1, e⟩ := Option.bind_eq_some_iff.1 e
  obtain ⟨x2, e2, e3⟩ := Option.bind_eq_some_iff.1 e
  obtain ⟨w1, g1, rfl, g1'⟩ := round_lift (f := Mx.sendRequest n) (fun _ _ _ => sendRequest_lift) e1
  simp only [← g1'] at e2 e3
  obtain ⟨w2, g2, rfl, g2'⟩ := round_lift (f := Mx.answer) (fun _ _ _ => answer_lift) e2
  simp only [← g2'] at e3
  have key : ∀ (ms : List (Nat × Nat × S)) (c : Mx S A P), ∃ d, ms.foldlM Mx.recvRequested c = some d ∧ d.nc = ms.foldl Network.Cx.recvRequested c.nc := by
    intro ms
    induction ms with
    | nil => intro c; exact ⟨c, rfl, rfl⟩
    | cons m ms ih =>
      intro c
      obtain ⟨d, hd, hdd⟩ := ih ((({ c with nc := c.nc.recvRequested m } : Mx S A P)).spacesAdd m.2.1)
      exact ⟨d, by rw [List.foldlM_cons, Option.bind_eq_bind]; exact hd, hdd⟩
  obtain ⟨w3, g3, g3'⟩ := each_lift e3 (f := fun r => (recv n (fun s => sent (((List.range n).map fun r => (recv n (fun s => sent (((List.range n).map fun r => (rs r).foldlM (Mx.sendRequest n)
      (w r, ([] : List (Nat × Nat))))[s]?.bind id)) r).foldlM Mx.answer (w1 r, ([] : List (Nat × Nat × S))))[s]?.bind id)) r).foldlM Mx.recvRequested (w2 r)) (by
    intro r _ c' hc'
    cases hc'
    exact key _ _)
  refine ⟨w3, ?_, g3'⟩
  unfold requestAgents
  simp only
  rw [g1, Option.bind_some, g2, Option.bind_some, g3]

theorem sendAway_lift {n : Nat} {acc : Mx S A P × List (Nat × Nat × S × Option (Dict Int))} {m : Nat × Nat} {y : Network.Cx S A × List (Nat × Nat × S × Option (Dict Int))}
    (e : Network.Cx.sendAway n (acc.1.nc, acc.2) m = some y) : ∃ d, Mx.sendAway n acc m = some (d, y.2) ∧ d.nc = y.1 := by
  unfold Mx.sendAway
  rw [e]
  exact ⟨_, rfl, rfl⟩

theorem arriveOne_lift {acc : Mx S A P × List Nat} {m : Nat × S × Option (Dict Int)} {y : Network.Cx S A × List Nat} (e : Network.Cx.arrive (acc.1.nc, acc.2) m = some y) :
    ∃ d, Mx.arriveOne acc m = some (d, y.2) ∧ d.nc = y.1 := by
  obtain ⟨d, h1, h2, h3⟩ := arrive_lift (c := acc.1) (l := acc.2) (u := m.1) (s := m.2.1) (D := m.2.2) e
  unfold Mx.arriveOne
  rw [h1, h3]
  exact ⟨d, rfl, h2⟩

/-- `move_agents` when nobody is out of bounds. -/
theorem move_lift (hre : Readd K) {nf : Bool} {ms : Nat → List (Nat × Nat)} (h0 : G.buf = 0) (hx : G.excl → AgApart ag) (h : WJ K w ag gh used cl) (hin : AllIn G ag)
    (e : Network.moveAgents G.n ms (nets w) = some x) : ∃ w', moveAgents G.n nf ms w = some w' ∧ nets w' = x := by
  unfold Network.moveAgents at e
  simp only at e
  obtain ⟨x1, e1, e⟩ := Option.bind_eq_some_iff.1 e
  obtain ⟨x2, e2, e⟩ := Option.bind_eq_some_iff.1 e
  obtain ⟨x3, e3, e⟩ := Option.bind_eq_some_iff.1 e
  obtain ⟨x4, e4, e⟩ := Option.bind_eq_some_iff.1 e
  obtain ⟨x5, e5, e⟩ := Option.bind_eq_some_iff.1 e
  obtain ⟨x6, e6, e⟩ := Option.bind_eq_some_iff.1 e
  obtain ⟨x7, e7, e8⟩ := Option.bind_eq_some_iff.1 e
  obtain ⟨w1, g1, rfl, g1'⟩ := round_lift (f := Mx.sendAway G.n) (fun _ _ _ => sendAway_lift) e1
  simp only [← g1'] at e2 e4
  obtain ⟨w2, g2, rfl, g2'⟩ := round_lift (f := Mx.arriveOne) (fun _ _ _ => arriveOne_lift) e2
  simp only [← g2'] at e4
  obtain ⟨hok, h2⟩ := (h.noBuf h0).moveFirst hre g1 g2
  have h3' : ∃ w3, (if (List.range G.n).all (fun r => (ms r).isEmpty) then some w2 else eachNet (fun pid => onNets (Network.agentsMoved G.n ms pid)) w2) = some w3 ∧ nets w3 = x3 ∧
      WJ K w3 (agMoved ms ag) (some fun _ _ => none) used True := by
    split at e3
    · cases e3
      rename_i hh
      exact ⟨w2, by rw [if_pos hh], rfl, h2⟩
    · rename_i hh
      obtain ⟨w3, g3, rfl⟩ := eachNet_lift (f := fun pid => onNets (agentsMoved G.n ms pid)) (fun pid w x e => onNets_lift e) e3
      exact ⟨w3, by rw [if_neg hh]; exact g3, rfl,
        eachNet_inv (I := fun w => WJ K w (agMoved ms ag) (some fun _ _ => none) used True) (fun _ _ _ h e => h.keeps (onNets_keeps (fun _ _ => agentsMoved_keeps) e)) h2 g3⟩
  obtain ⟨w3, g3, rfl, h3⟩ := h3'
  obtain ⟨w4, g4, rfl⟩ := each_lift e4 (f := fun i => (w3 i).deleteGhosts _) (fun i hi c' hc' => onNet_lift hc')
  have h4 : WJ K w4 (agMoved ms ag) (some fun _ _ => none) used True :=
    ⟨fun r hr => (h3.j r hr).onNet (fun _ hn => foldlM_keeps (fun _ _ _ => deleteGhost_keeps) hn) (meach_all g4 r hr), h3.lt⟩
  obtain ⟨w5, g5, rfl, h5⟩ := preSynch_lift (nf := nf) h0 h4 e5
  have hin' : AllIn G (agMoved ms ag) := by
    intro u r s q hu
    cases hau : ag u with
    | none => rw [(agMoved_none u).2 hau] at hu; cases hu
    | some y =>
      obtain ⟨r0, s0, l0⟩ := y
      have hr0 := h.lt u _ hau
      by_cases hm : u ∈ (ms r0).map (·.1)
      · obtain ⟨m, hm', rfl⟩ := List.mem_map.1 hm
        rw [agMoved_moved hau (hok.nodup r0 hr0) hm'] at hu
        cases hu
      · rw [agMoved_stays hau hm] at hu
        cases hu
        exact hin u r s q hau
  obtain ⟨w6, g6, g6'⟩ := moveOob_none (h5.noBuf h0) hin'
  have h6 := (h5.noBuf h0).moveOob hre (fun he => hok.apart h.lt (hx he)) g6
  rw [← g6'] at e6
  obtain ⟨w7, g7, rfl⟩ := updateGhosts_lift e6
  have h7 := h6.updateGhosts (by rintro f ⟨⟩ _ _ _; rfl) g7
  obtain ⟨w8, g8, rfl, -⟩ := synchProj_lift (nf := nf) h0 h7 e7
  obtain ⟨w9, g9, g9'⟩ := eachNet_lift (f := fun pid => onNets (postMoved G.n pid)) (fun pid w x e => onNets_lift e) e8
  refine ⟨w9, ?_, g9'⟩
  unfold moveAgents
  simp only
  rw [g1, Option.bind_some, g2, Option.bind_some, g3, Option.bind_some, g4, Option.bind_some, g5, Option.bind_some, g6]
  simp only [Option.bind_some, synchGhosts, g7, g8, g9]

end Repast.Mixed
