import Verif.Mixed.Run
import Verif.Network.NetHist

/-! A context with a shared space of buffer size 0 and networks does with the agents and the networks what a context with only the networks does. Used for C69. -/
namespace Repast.Mixed
open Repast.Dict Repast.Context Repast.Network Repast.Space

variable {S A P Q : Type} [Proj P Q] {G : Geo Q}

/-- The agents and the networks. -/
def nets (w : World S A P) : Network.World S A := fun r => (w r).nc

section
variable {n : Nat} {w : World S A P} {x : Network.World S A}

/-! ### Collective steps -/

theorem each_lift {f : Nat → Option (Mx S A P)} {f' : Nat → Option (Network.Cx S A)} (e : Network.each n f' (nets w) = some x)
    (h : ∀ r < n, ∀ c', f' r = some c' → ∃ c, f r = some c ∧ c.nc = c') : ∃ w', each n f w = some w' ∧ nets w' = x := by
  unfold Network.each at e
  simp only at e
  split at e
  · rename_i hall
    rw [List.all_eq_true] at hall
    have hf' : ∀ r < n, ∃ c', f' r = some c' := fun r hr => Option.isSome_iff_exists.1 (hall (f' r) (List.mem_map.2 ⟨r, List.mem_range.2 hr, rfl⟩))
    cases e
    refine ⟨fun r => (((List.range n).map f)[r]?.bind id).getD (w r), ?_, ?_⟩
    · unfold each
      simp only
      rw [if_pos]
      rw [List.all_eq_true]
      intro y hy
      obtain ⟨r, hr, rfl⟩ := List.mem_map.1 hy
      obtain ⟨c', hc'⟩ := hf' r (List.mem_range.1 hr)
      obtain ⟨c, hc, -⟩ := h r (List.mem_range.1 hr) c' hc'
      rw [hc]; rfl
    · funext r
      unfold nets
      by_cases hr : r < n
      · obtain ⟨c', hc'⟩ := hf' r hr
        obtain ⟨c, hc, hcc⟩ := h r hr c' hc'
        simp only [List.getElem?_map, List.getElem?_range hr, Option.map_some, Option.bind_some, id_eq, hc, hc', Option.getD_some, hcc]
      · simp [hr]
  · cases e

theorem exchange_lift {M : Type} {send : Mx S A P → Option (Mx S A P × List (Nat × M))} {recv1 : Mx S A P → Nat × M → Option (Mx S A P)}
    {send' : Network.Cx S A → Option (Network.Cx S A × List (Nat × M))} {recv1' : Network.Cx S A → Nat × M → Option (Network.Cx S A)}
    (e : Network.exchange n send' recv1' (nets w) = some x) (h1 : ∀ c y, send' c.nc = some y → ∃ c', send c = some (c', y.2) ∧ c'.nc = y.1)
    (h2 : ∀ c m c', recv1' c.nc m = some c' → ∃ d, recv1 c m = some d ∧ d.nc = c') : ∃ w', exchange n send recv1 w = some w' ∧ nets w' = x := by
  unfold Network.exchange at e
  obtain ⟨x1, e1, e2⟩ := Option.bind_eq_some_iff.1 e
  have hq : ∀ r < n, ∃ y, send' (w r).nc = some y := by
    intro r hr
    have := (each_all e1).1 r hr
    rw [get_map_range _ hr] at this
    obtain ⟨y, hy, -⟩ := Option.map_eq_some_iff.1 this
    exact ⟨y, hy⟩
  obtain ⟨w1, g1, g2⟩ := each_lift (w := w) (f := fun r => (((List.range n).map fun r => send (w r))[r]?.bind id).map (·.1)) e1 (by
    intro r hr c' hc'
    rw [get_map_range _ hr] at hc'
    rw [get_map_range _ hr]
    obtain ⟨y, hy, rfl⟩ := Option.map_eq_some_iff.1 hc'
    obtain ⟨c, hc, hcc⟩ := h1 (w r) y hy
    exact ⟨c, by rw [hc]; rfl, hcc⟩)
  have hout : (fun r : Nat => sent (((List.range n).map fun r => send (w r))[r]?.bind id)) = fun r : Nat => sent (((List.range n).map fun r => send' (nets w r))[r]?.bind id) := by
    funext r
    by_cases hr : r < n
    · rw [get_map_range _ hr, get_map_range _ hr]
      obtain ⟨y, hy⟩ := hq r hr
      obtain ⟨c, hc, -⟩ := h1 (w r) y hy
      show sent (send (w r)) = sent (send' (w r).nc)
      rw [hc, hy]; rfl
    · simp [hr]; rfl
  unfold exchange
  simp only
  rw [g1, Option.bind_some, hout]
  rw [← g2] at e2
  refine each_lift e2 ?_
  intro r hr c' hc'
  have key : ∀ (ms : List (Nat × M)) (c : Mx S A P) (c' : Network.Cx S A), ms.foldlM recv1' c.nc = some c' → ∃ d, ms.foldlM recv1 c = some d ∧ d.nc = c' := by
    intro ms
    induction ms with
    | nil => intro c c' e; cases e; exact ⟨c, rfl, rfl⟩
    | cons m ms ih =>
      intro c c' e
      rw [List.foldlM_cons, Option.bind_eq_bind] at e
      obtain ⟨c1, a, b⟩ := Option.bind_eq_some_iff.1 e
      obtain ⟨d, hd, rfl⟩ := h2 c m c1 a
      obtain ⟨d', hd', hh⟩ := ih d c' b
      refine ⟨d', ?_, hh⟩
      rw [List.foldlM_cons, Option.bind_eq_bind, hd]
      exact hd'
  exact key _ _ _ hc'

theorem eachNet_lift {f : Nat → World S A P → Option (World S A P)} {f' : Nat → Network.World S A → Option (Network.World S A)}
    (h : ∀ pid w x, f' pid (nets w) = some x → ∃ w', f pid w = some w' ∧ nets w' = x) (e : Network.eachPid f' (nets w) = some x) : ∃ w', eachNet f w = some w' ∧ nets w' = x := by
  unfold Network.eachPid at e
  unfold eachNet
  have hc : (nets w).count = (w 0).nc.nets.length := rfl
  rw [hc] at e
  generalize List.range (w 0).nc.nets.length = l at e ⊢
  induction l generalizing w with
  | nil => cases e; exact ⟨w, rfl, rfl⟩
  | cons a l ih =>
    rw [List.foldlM_cons, Option.bind_eq_bind] at e
    obtain ⟨x1, e1, e2⟩ := Option.bind_eq_some_iff.1 e
    obtain ⟨w1, g1, rfl⟩ := h a w x1 e1
    obtain ⟨w2, g2, g3⟩ := ih rfl e2
    refine ⟨w2, ?_, g3⟩
    rw [List.foldlM_cons, Option.bind_eq_bind, g1]
    exact g2

theorem onNets_lift {f : Network.World S A → Option (Network.World S A)} (e : f (nets w) = some x) : ∃ w', onNets f w = some w' ∧ nets w' = x :=
  ⟨fun r => { w r with nc := x r }, by unfold onNets; show (f (nets w)).map _ = _; rw [e]; rfl, rfl⟩

theorem onNet_lift {c : Mx S A P} {f : Network.Cx S A → Option (Network.Cx S A)} {c' : Network.Cx S A} (e : f c.nc = some c') : ∃ d, c.onNet f = some d ∧ d.nc = c' :=
  ⟨{ c with nc := c' }, by unfold Mx.onNet; rw [e]; rfl, rfl⟩

/-! ### The steps of `synchronize` -/

theorem refOne_lift {pid : Nat} {acc : Mx S A P × List (Nat × Nat)} {o : Obj} {y : Network.Cx S A × List (Nat × Nat)} (e : Network.Cx.refOne n pid (acc.1.nc, acc.2) o = some y) :
    ∃ d, Mx.refOne n pid acc o = some (d, y.2) ∧ d.nc = y.1 := by
  unfold Network.Cx.refOne at e
  unfold Mx.refOne
  obtain ⟨N, e1, e⟩ := Option.bind_eq_some_iff.1 e
  simp only at e1
  rw [e1, Option.bind_some]
  split at e
  · rename_i ho
    rw [if_pos ho]
    obtain ⟨c, e2, e⟩ := Option.bind_eq_some_iff.1 e
    simp only at e2 e
    split at e2
    · rename_i g hg
      cases e2
      split at e
      · rename_i hlt
        cases e
        rw [hg]
        exact ⟨{ acc.1 with nc := acc.1.nc.refGhost o.uid 1 }, by simp only [Option.bind_some]; rw [if_pos hlt], rfl⟩
      · cases e
    · cases e2
  · rename_i ho
    cases e
    rw [if_neg ho]
    exact ⟨acc.1, rfl, rfl⟩

theorem sendRefs_lift {pid : Nat} {c : Mx S A P} {y : Network.Cx S A × List (Nat × Nat)} (e : c.nc.sendRefs n pid = some y) : ∃ d, c.sendRefs n pid = some (d, y.2) ∧ d.nc = y.1 := by
  unfold Network.Cx.sendRefs at e
  unfold Mx.sendRefs
  obtain ⟨N, e1, e⟩ := Option.bind_eq_some_iff.1 e
  obtain ⟨z, e2, e⟩ := Option.bind_eq_some_iff.1 e
  obtain ⟨c2, e3, rfl⟩ := Option.map_eq_some_iff.1 e
  have key : ∀ (os : List Obj) (acc : Mx S A P × List (Nat × Nat)) (z : Network.Cx S A × List (Nat × Nat)), os.foldlM (Network.Cx.refOne n pid) (acc.1.nc, acc.2) = some z →
      ∃ d, os.foldlM (Mx.refOne n pid) acc = some (d, z.2) ∧ d.nc = z.1 := by
    intro os
    induction os with
    | nil => intro acc z e; cases e; exact ⟨acc.1, rfl, rfl⟩
    | cons o os ih =>
      intro acc z e
      rw [List.foldlM_cons, Option.bind_eq_bind] at e
      obtain ⟨y, a, b⟩ := Option.bind_eq_some_iff.1 e
      obtain ⟨d, hd, hdd⟩ := refOne_lift a
      obtain ⟨d', hd', hh⟩ := ih (d, y.2) z (by simp only [hdd]; exact b)
      refine ⟨d', ?_, hh⟩
      rw [List.foldlM_cons, Option.bind_eq_bind, hd]
      exact hd'
  obtain ⟨d, hd, hdd⟩ := key _ (c, []) z e2
  rw [e1, Option.bind_some, hd, Option.bind_some]
  rw [← hdd] at e3
  obtain ⟨d2, hd2, hd3⟩ := onNet_lift (c := d) (f := fun c => c.withNet pid fun N => some { N with toRef := [] }) e3
  exact ⟨d2, by simp only [hd2, Option.map_some], hd3⟩

theorem preNet_lift {pid : Nat} (e : Network.preSynchNet n pid (nets w) = some x) : ∃ w', preNet n pid w = some w' ∧ nets w' = x :=
  exchange_lift e (fun _ _ => sendRefs_lift) fun _ _ _ h => onNet_lift h

theorem updateGhosts_lift (e : Network.updateGhosts n (nets w) = some x) : ∃ w', updateGhosts n w = some w' ∧ nets w' = x := by
  unfold Network.updateGhosts at e
  obtain ⟨x1, e1, e2⟩ := Option.bind_eq_some_iff.1 e
  obtain ⟨w1, g1, rfl⟩ := exchange_lift (w := w) (send := fun c => (c.nc.sendRemovedAgents n).map fun x => ({ c with nc := x.1 }, x.2)) (recv1 := fun c m => c.dropGhost m.2) e1
    (fun c y h => ⟨{ c with nc := y.1 }, by simp only [h, Option.map_some], rfl⟩) (by
      intro c m c' h
      obtain ⟨d, hd, hdd⟩ := onNet_lift (c := c) (f := fun n => n.dropGhost m.2) h
      exact ⟨d.spacesRemove m.2, by unfold Mx.dropGhost; rw [hd]; rfl, hdd⟩)
  obtain ⟨w2, g2, g3⟩ := exchange_lift (w := w1) (send := fun c => (c.nc.sendStates n).map fun x => (c, x.2)) (recv1 := fun c m => c.onNet fun x => x.updateGhost m.2.1 m.2.2) e2
    (fun c y h => ⟨c, by simp only [h, Option.map_some], by
      unfold Network.Cx.sendStates at h
      simp only at h
      split at h
      · obtain ⟨l, -, rfl⟩ := Option.map_eq_some_iff.1 h; rfl
      · cases h⟩) (fun _ _ _ h => onNet_lift h)
  exact ⟨w2, by unfold updateGhosts; rw [g1]; exact g2, g3⟩

end

/-! ### The shared space does nothing -/

variable {K : Kind G P} {w w' : World S A P} {ag : Nat → Option (Nat × S × Option Q)} {gh : Option (Nat → Nat → Option Q)} {used : Nat → Prop} {cl : Prop} {x : Network.World S A}

theorem meach_same {n : Nat} {f : Nat → Option (Mx S A P)} (h : ∀ r < n, f r = some (w r)) : each n f w = some w := by
  unfold each
  simp only
  rw [if_pos]
  · congr 1
    funext r
    by_cases hr : r < n
    · simp [hr, h r hr]
    · simp [hr]
  · rw [List.all_eq_true]
    intro y hy
    obtain ⟨r, hr, rfl⟩ := List.mem_map.1 hy
    rw [h r (List.mem_range.1 hr)]; rfl

theorem WJ.preSpace0 (h : WJ K w ag gh used cl) (h0 : G.buf = 0) : each G.n (fun r => (w r).preSpace 0) w = some w := by
  refine meach_same fun r hr => ?_
  obtain ⟨g, eg, hg⟩ := (h.j r hr).sp
  unfold Mx.preSpace
  rw [eg]
  simp only [List.getElem?_cons_zero, Option.bind_some, K.bufSize hg.ok, h0]
  rfl

theorem WJ.synchSpace0 (h : WJ K w ag gh used cl) (h0 : G.buf = 0) : Mixed.synchSpace G.n 0 w = some w := by
  unfold Mixed.synchSpace
  rw [if_neg]
  intro hall
  rw [List.all_eq_true] at hall
  have := hall 0 (List.mem_range.2 K.n_pos)
  obtain ⟨g, eg, hg⟩ := (h.j 0 K.n_pos).sp
  rw [eg] at this
  simp only [List.getElem?_cons_zero, K.bufSize hg.ok, h0] at this
  cases this

/-- The steps that go through the projections. -/
theorem eachProj_lift {nf : Bool} {space net : Nat → World S A P → Option (World S A P)} {net' : Nat → Network.World S A → Option (Network.World S A)}
    (h : WJ K w ag gh used cl) (h1 : ∀ w, WJ K w ag gh used cl → space 0 w = some w) (h2 : ∀ pid w x, net' pid (nets w) = some x → ∃ w', net pid w = some w' ∧ nets w' = x)
    (h3 : ∀ pid w w', WJ K w ag gh used cl → net pid w = some w' → WJ K w' ag gh used cl) (e : Network.eachPid net' (nets w) = some x) :
    ∃ w', eachProj nf space net w = some w' ∧ nets w' = x ∧ WJ K w' ag gh used cl := by
  obtain ⟨w', g1, g2⟩ := eachNet_lift h2 e
  have hw' := eachNet_inv h3 h g1
  refine ⟨w', ?_, g2, hw'⟩
  unfold eachProj
  split
  · rw [g1, Option.bind_some, eachSpace_one hw'.one]
    exact h1 _ hw'
  · rw [eachSpace_one h.one, h1 _ h]
    exact g1

theorem preSynch_lift {nf : Bool} (h0 : G.buf = 0) (h : WJ K w ag gh used cl) (e : Network.eachPid (Network.preSynchNet G.n) (nets w) = some x) :
    ∃ w', preSynch G.n nf w = some w' ∧ nets w' = x ∧ WJ K w' ag gh used cl :=
  eachProj_lift h (fun _ h => h.preSpace0 h0) (fun _ _ _ => preNet_lift) (fun _ _ _ h => h.preNet) e

theorem synchProj_lift {nf : Bool} (h0 : G.buf = 0) (h : WJ K w ag gh used cl) (e : Network.eachPid (Network.synchNet G.n) (nets w) = some x) :
    ∃ w', eachProj nf (synchSpace G.n) (fun pid => onNets (Network.synchNet G.n pid)) w = some w' ∧ nets w' = x ∧ WJ K w' ag gh used cl :=
  eachProj_lift h (fun _ h => h.synchSpace0 h0) (fun _ _ _ => onNets_lift) (fun _ _ _ h e => h.keeps (onNets_keeps (fun _ _ hf => synchNet_keeps hf) e)) e

/-! ### The movement of agents that are out of bounds -/

theorem onSpace_some {c : Mx S A P} {g g' : Shared P} (hs : c.spaces = [g]) {f : Shared P → Option (Shared P)} (hf : f g = some g') :
    c.onSpace 0 f = some { c with spaces := [g'] } := by
  unfold Mx.onSpace
  rw [hs]
  simp only [List.getElem?_cons_zero, Option.bind_some, hf, Option.map_some, List.set_cons_zero]

theorem eq_singleton {α : Type} {l : List α} {a : α} (hn : l.Nodup) (h : ∀ e, e ∈ l ↔ e = a) : l = [a] := by
  cases l with
  | nil => exact absurd ((h a).2 rfl) (by simp)
  | cons b l =>
    have hb := (h b).1 (by simp)
    subst hb
    congr
    cases l with
    | nil => rfl
    | cons c l =>
      have hc := (h c).1 (by simp)
      rw [hc] at hn
      simp at hn

section
variable {r : Nat} {c : Mx S A P} {lo : Nat → Option (S × Option Q)} {dead : Nat → Prop}

/-- No agent is out of bounds. -/
theorem J.gather_none {n : Nat} (h : J K r c lo (some fun _ => none) used dead cl) (hl : ∀ u s q, lo u = some (s, some q) → G.inside r q = true) :
    ∃ c', c.gatherOob n = some (c', (([], []) : List (Nat × OobMsg S Q) × List (Nat × Nat))) ∧ c'.nc = c.nc := by
  obtain ⟨hes, -⟩ := h.oobs
  have he : c.oobList 0 c.uids = [] := by
    rw [List.eq_nil_iff_forall_not_mem]
    intro e he
    obtain ⟨s, a, b, -⟩ := (hes e).1 he
    rw [hl _ _ _ a] at b; cases b
  obtain ⟨g, eg, hg⟩ := h.sp
  refine ⟨{ c with spaces := [{ g with sp := Proj.clear c.nc.rank g.sp }] }, ?_, rfl⟩
  unfold Mx.gatherOob
  rw [eg]
  simp only [List.length_singleton, show List.range 1 = [0] from rfl, List.foldlM_cons, List.foldlM_nil, Option.bind_eq_bind, he, Option.bind_some, Option.pure_def]
  rw [onSpace_some (f := fun g => some { g with sp := Proj.clear c.nc.rank g.sp }) eg rfl]
  rfl

/-- One agent is out of bounds. -/
theorem J.gather_one {n m k : Nat} {s : S} {q : Q} (h : J K r c lo (some fun _ => none) used dead cl) (hm : lo m = some (s, some q)) (hi : G.inside r q = false) (hk : G.owner q = k)
    (hl : ∀ u s q, u ≠ m → lo u = some (s, some q) → G.inside r q = true) {y : Network.Cx S A × List (Nat × Nat × S × Option (Dict Int))} (e : Network.Cx.sendAway n (c.nc, []) (m, k) = some y) :
    ∃ c' s' D, y.2 = [(k, m, s', D)] ∧ c.gatherOob n = some (c', (([(k, ⟨m, some (s', D), 0, q⟩)], [(m, k)]) : List (Nat × OobMsg S Q) × List (Nat × Nat))) ∧ c'.nc = y.1 := by
  obtain ⟨hes, hnd⟩ := h.oobs
  have he : c.oobList 0 c.uids = [(m, k, q)] := by
    refine eq_singleton ((List.pairwise_map.1 hnd).imp fun hh e => hh (congrArg _ e)) ?_
    rintro ⟨u, j, q'⟩
    rw [hes]
    constructor
    · rintro ⟨s', a, b, c'⟩
      by_cases hu : u = m
      · subst hu
        simp only at a b c'
        rw [hm] at a
        simp only [Option.some.injEq, Prod.mk.injEq] at a
        obtain ⟨-, rfl⟩ := a
        rw [c', hk]
      · rw [hl u s' q' hu a] at b; cases b
    · intro e
      simp only [Prod.mk.injEq] at e
      obtain ⟨rfl, rfl, rfl⟩ := e
      exact ⟨s, hm, hi, hk.symm⟩
  obtain ⟨g, eg, hg⟩ := h.sp
  unfold Network.Cx.sendAway at e
  obtain ⟨o, ho, e⟩ := Option.bind_eq_some_iff.1 e
  simp only at ho e
  split at e
  · rename_i hkn
    obtain ⟨z, hz, rfl⟩ := Option.map_eq_some_iff.1 e
    let g1 : Shared P := { g with sp := Proj.remove c.nc.rank g.sp m }
    have h1 : c.spRemove 0 m = some { c with spaces := [g1] } := onSpace_some eg rfl
    refine ⟨{ c with nc := z.1, spaces := [{ g1 with sp := Proj.clear z.1.rank g1.sp }] }, o.2, z.2, rfl, ?_, rfl⟩
    unfold Mx.gatherOob
    rw [show c.spaces.length = 1 by rw [eg]; rfl]
    simp only [show List.range 1 = [0] from rfl, List.foldlM_cons, List.foldlM_nil, Option.bind_eq_bind, he, Option.bind_some, Option.pure_def]
    have h2 : Mx.gatherOne n 0 (c, (([], []) : List (Nat × OobMsg S Q) × List (Nat × Nat))) (m, k, q) =
        some ({ c with nc := z.1, spaces := [g1] }, (([(k, ⟨m, some (o.2, z.2), 0, q⟩)], [(m, k)]) : List (Nat × OobMsg S Q) × List (Nat × Nat))) := by
      unfold Mx.gatherOne
      simp only [hkn, if_true, ho, h1, Option.bind_some, hz, Option.map_some, List.nil_append]
    rw [h2]
    simp only [Option.bind_some]
    rw [onSpace_some (c := { c with nc := z.1, spaces := [g1] }) (f := fun g => some { g with sp := Proj.clear z.1.rank g.sp }) rfl rfl]
    rfl
  · cases e

/-- A move that does not raise. -/
theorem J.canMove {gh : Option (Nat → Option Q)} (h : J K r c lo gh used dead cl) {u : Nat} {q : Q} {x : S × Option Q} (hu : lo u = some x)
    (hx : G.excl → ∀ v, v ≠ u → c.placed 0 v ≠ some (some (G.dest q))) : ∃ c', c.spMove 0 u q = some c' ∧ c'.nc = c.nc := by
  obtain ⟨g, eg, hg⟩ := h.sp
  have hw := hg.lo u x.2 (by simp [hu])
  obtain ⟨p', e, -⟩ := K.move hg.ok (u := u) (by rw [hw]; rfl) q (by
    intro he v hv
    have := hx he v hv
    rw [placed_one eg] at this
    exact this)
  exact ⟨_, onSpace_some eg (by rw [h.rank, e]; rfl), rfl⟩

theorem arrive_lift {u : Nat} {s : S} {D : Option (Dict Int)} {l : List Nat} {y : Network.Cx S A × List Nat} (e : Network.Cx.arrive (c.nc, l) (u, s, D) = some y) :
    ∃ d, c.arrive u s D = some d ∧ d.nc = y.1 ∧ y.2 = if (get c.nc.ghosts u).isSome then l ++ [u] else l := by
  unfold Network.Cx.arrive at e
  obtain ⟨c1, e1, rfl⟩ := Option.map_eq_some_iff.1 e
  unfold Mx.arrive
  cases D with
  | none => cases e1; exact ⟨_, rfl, rfl, rfl⟩
  | some D =>
    obtain ⟨d, hd, hdd⟩ := onNet_lift (c := c.add u s) (f := fun n => n.setGhosted u (del D n.rank)) e1
    exact ⟨d, hd, hdd, rfl⟩

end

/-- No agent is out of bounds. -/
theorem moveOob_none (h : WJ K w ag (some fun _ _ => none) used True) (hl : ∀ u r s q, ag u = some (r, s, some q) → G.inside r q = true) :
    ∃ w', moveOob G.n w = some (w', (fun _ => []), fun _ => []) ∧ nets w' = nets w := by
  have hg : ∀ r < G.n, ∃ c', (w r).gatherOob G.n = some (c', (([], []) : List (Nat × OobMsg S Q) × List (Nat × Nat))) ∧ c'.nc = (w r).nc :=
    fun r hr => (h.j r hr).gather_none fun u s q hu => hl u r s q (loOf_some.1 hu)
  have hg' : ∀ r : Nat, ∀ y, ((List.range G.n).map fun r => (w r).gatherOob G.n)[r]?.bind id = some y → y.2 = (([], []) : List (Nat × OobMsg S Q) × List (Nat × Nat)) := by
    intro r y hy
    by_cases hr : r < G.n
    · rw [get_map_range _ hr] at hy
      obtain ⟨c', hc', -⟩ := hg r hr
      rw [hc'] at hy
      cases hy; rfl
    · simp [hr] at hy
  obtain ⟨w1, g1, g2⟩ := each_lift (w := w) (n := G.n) (f := fun r => (((List.range G.n).map fun r => (w r).gatherOob G.n)[r]?.bind id).map (·.1)) (Network.each_same (nets w)) (by
    intro r hr c' hc'
    cases hc'
    obtain ⟨c, hc, hcc⟩ := hg r hr
    exact ⟨c, by rw [get_map_range _ hr, hc]; rfl, hcc⟩)
  have hout : (fun r : Nat => oobOut (((List.range G.n).map fun r => (w r).gatherOob G.n)[r]?.bind id : Option (Mx S A P × List (Nat × OobMsg S Q) × List (Nat × Nat)))) = fun _ => [] := by
    funext r
    cases hy : (((List.range G.n).map fun r => (w r).gatherOob G.n)[r]?.bind id : Option (Mx S A P × List (Nat × OobMsg S Q) × List (Nat × Nat))) with
    | none => rfl
    | some y => show y.2.1 = _; rw [hg' r y hy]
  have hleft : (fun r : Nat => oobLeft (((List.range G.n).map fun r => (w r).gatherOob G.n)[r]?.bind id : Option (Mx S A P × List (Nat × OobMsg S Q) × List (Nat × Nat)))) = fun _ => [] := by
    funext r
    cases hy : (((List.range G.n).map fun r => (w r).gatherOob G.n)[r]?.bind id : Option (Mx S A P × List (Nat × OobMsg S Q) × List (Nat × Nat))) with
    | none => rfl
    | some y => show y.2.2 = _; rw [hg' r y hy]
  have hrec : ∀ r, recv G.n (fun _ => ([] : List (Nat × OobMsg S Q))) r = [] := by
    intro r
    unfold recv
    simp
  refine ⟨w1, ?_, g2⟩
  unfold moveOob
  simp only
  rw [g1, Option.bind_some, hout, hleft]
  simp only [hrec, List.map_nil, List.foldlM_nil, Option.pure_def]
  rw [meach_same (w := w1) (by
    intro r hr
    rw [get_map_range _ hr]; rfl)]
  simp only [Option.map_some, Option.some.injEq, Prod.mk.injEq, true_and, and_true]
  funext r
  by_cases hr : r < G.n
  · rw [get_map_range _ hr]; rfl
  · simp [hr]; rfl

open Classical in
/-- One agent is out of bounds. -/
theorem moveOob_one (hre : Readd K) (h : WJ K w ag (some fun _ _ => none) used True) (hx : G.excl → AgApart ag) {r k m : Nat} {s : S} {q : Q} (hm : ag m = some (r, s, some q))
    (hi : G.inside r q = false) (hk : G.owner q = k) (hl : ∀ u r s q, u ≠ m → ag u = some (r, s, some q) → G.inside r q = true) {x1 x2 : Network.World S A}
    (e1 : Network.each G.n (fun i => (((List.range G.n).map fun i => (oneMove r k m i).foldlM (Network.Cx.sendAway G.n) (nets w i, ([] : List (Nat × Nat × S × Option (Dict Int)))))[i]?.bind id).map (·.1))
      (nets w) = some x1)
    (e2 : Network.each G.n (fun i => (((List.range G.n).map fun i => (((recv G.n (fun j => sent (((List.range G.n).map fun i => (oneMove r k m i).foldlM (Network.Cx.sendAway G.n)
      (nets w i, ([] : List (Nat × Nat × S × Option (Dict Int)))))[j]?.bind id)) i).map (·.2)).foldlM Network.Cx.arrive (x1 i, ([] : List Nat))))[i]?.bind id).map (·.1)) x1 = some x2) :
    ∃ w', moveOob G.n w = some (w', (fun i => sent (((List.range G.n).map fun i => (((recv G.n (fun j => sent (((List.range G.n).map fun i => (oneMove r k m i).foldlM (Network.Cx.sendAway G.n)
      (nets w i, ([] : List (Nat × Nat × S × Option (Dict Int)))))[j]?.bind id)) i).map (·.2)).foldlM Network.Cx.arrive (x1 i, ([] : List Nat))))[i]?.bind id)), oneMove r k m) ∧ nets w' = x2 := by
  have hr := h.lt _ _ hm
  simp only at hr
  obtain ⟨o1, o2, o3⟩ := K.owner_spec (h.valid hm)
  rw [hk] at o1 o2 o3
  have hkr : k ≠ r := by rintro rfl; rw [hi] at o2; cases o2
  -- the agent leaves
  have e1' := (each_all e1).1
  have er := e1' r hr
  rw [get_map_range _ hr] at er
  obtain ⟨y, hy, hyr⟩ := Option.map_eq_some_iff.1 er
  have hone : oneMove r k m r = [(m, k)] := if_pos rfl
  have hoth : ∀ i, i ≠ r → oneMove r k m i = [] := fun i hne => if_neg hne
  rw [hone, List.foldlM_cons, Option.bind_eq_bind] at hy
  obtain ⟨y', hy', hy2⟩ := Option.bind_eq_some_iff.1 hy
  obtain rfl : y' = y := Option.some.inj hy2
  obtain ⟨cr, s', D, hyD, hgr, hcr⟩ := (h.j r hr).gather_one (loOf_some.2 hm) hi hk (fun u s q hu hl' => hl u r s q hu (loOf_some.1 hl')) hy'
  have hx1 : ∀ i < G.n, i ≠ r → x1 i = (w i).nc := by
    intro i hi' hne
    have := e1' i hi'
    rw [get_map_range _ hi', hoth i hne] at this
    exact (Option.some.inj this).symm
  have hg : ∀ i < G.n, ∃ c, (w i).gatherOob G.n = some (c, ((if i = r then [(k, ⟨m, some (s', D), 0, q⟩)] else [], oneMove r k m i) : List (Nat × OobMsg S Q) × List (Nat × Nat))) ∧ c.nc = x1 i := by
    intro i hi'
    by_cases hir : i = r
    · subst hir
      refine ⟨cr, ?_, hcr.trans hyr⟩
      rw [hgr, if_pos rfl, hone]
    · obtain ⟨c, hc, hcc⟩ := (h.j i hi').gather_none (n := G.n) fun u s q hu => hl u i s q (by
        rintro rfl
        rw [loOf_none hm (Ne.symm hir)] at hu; cases hu) (loOf_some.1 hu)
      exact ⟨c, by rw [hc, if_neg hir, hoth i hir], by rw [hcc, hx1 i hi' hir]⟩
  obtain ⟨w1, g1, g2⟩ := each_lift (w := w) (n := G.n) (f := fun i => (((List.range G.n).map fun r => (w r).gatherOob G.n)[i]?.bind id).map (·.1)) e1 (by
    intro i hi' c' hc'
    obtain ⟨c, hc, hcc⟩ := hg i hi'
    have := e1' i hi'
    refine ⟨c, by rw [get_map_range _ hi', hc]; rfl, ?_⟩
    rw [hcc]
    exact Option.some.inj (this.symm.trans hc'))
  have hw1 : ∀ i < G.n, (w i).gatherOob G.n = some (w1 i, ((if i = r then [(k, ⟨m, some (s', D), 0, q⟩)] else [], oneMove r k m i) : List (Nat × OobMsg S Q) × List (Nat × Nat))) := by
    intro i hi'
    have := meach_all g1 i hi'
    rw [get_map_range _ hi'] at this
    obtain ⟨c, hc, hcc⟩ := hg i hi'
    rw [hc] at this
    cases this
    exact hc
  have hout : (fun i : Nat => oobOut (((List.range G.n).map fun r => (w r).gatherOob G.n)[i]?.bind id : Option (Mx S A P × List (Nat × OobMsg S Q) × List (Nat × Nat)))) = fun i => if i = r then [(k, ⟨m, some (s', D), 0, q⟩)] else [] := by
    funext i
    by_cases hi' : i < G.n
    · rw [get_map_range _ hi', hw1 i hi']; rfl
    · have hne : i ≠ r := by rintro rfl; exact hi' hr
      simp [hi', hne, oobOut]
  have hleft : (fun i : Nat => oobLeft (((List.range G.n).map fun r => (w r).gatherOob G.n)[i]?.bind id : Option (Mx S A P × List (Nat × OobMsg S Q) × List (Nat × Nat)))) = oneMove r k m := by
    funext i
    by_cases hi' : i < G.n
    · rw [get_map_range _ hi', hw1 i hi']; rfl
    · have hne : i ≠ r := by rintro rfl; exact hi' hr
      simp [hi', hoth i hne, oobLeft]
  have hsent : ∀ i < G.n, sent (((List.range G.n).map fun i => (oneMove r k m i).foldlM (Network.Cx.sendAway G.n) (nets w i, ([] : List (Nat × Nat × S × Option (Dict Int)))))[i]?.bind id) =
      if i = r then [(k, m, s', D)] else [] := by
    intro i hi'
    rw [get_map_range _ hi']
    by_cases hir : i = r
    · subst hir
      rw [hone, if_pos rfl, List.foldlM_cons, Option.bind_eq_bind, show Network.Cx.sendAway G.n (nets w i, []) (m, k) = some y' from hy']
      exact hyD
    · rw [hoth i hir, if_neg hir]; rfl
  have hrecv' : ∀ j, recv G.n (fun j => sent (((List.range G.n).map fun i => (oneMove r k m i).foldlM (Network.Cx.sendAway G.n) (nets w i, ([] : List (Nat × Nat × S × Option (Dict Int)))))[j]?.bind id)) j =
      if j = k then [(r, m, s', D)] else [] := by
    intro j
    rw [recv_one hr (by intro i hi' hne; rw [hsent i hi', if_neg hne]), hsent r hr, if_pos rfl]
    by_cases hj : j = k
    · subst hj; simp
    · simp [hj, Ne.symm hj]
  have hrecv : ∀ j, recv G.n (fun i => if i = r then [(k, (⟨m, some (s', D), 0, q⟩ : OobMsg S Q))] else []) j = if j = k then [(r, ⟨m, some (s', D), 0, q⟩)] else [] := by
    intro j
    rw [recv_one hr (by intro i hi' hne; rw [if_neg hne]), if_pos rfl]
    by_cases hj : j = k
    · subst hj; simp
    · simp [hj, Ne.symm hj]
  -- and arrives
  simp only [hrecv'] at e2 ⊢
  have ek := (each_all e2).1 k o1
  rw [get_map_range _ o1, if_pos rfl, List.map_cons, List.map_nil, List.foldlM_cons, Option.bind_eq_bind] at ek
  obtain ⟨z, hz, hzk⟩ := Option.map_eq_some_iff.1 ek
  obtain ⟨z', hz', hz2⟩ := Option.bind_eq_some_iff.1 hz
  obtain rfl : z' = z := Option.some.inj hz2
  have hw1k : (w1 k).nc = x1 k := congrFun g2 k
  rw [← hw1k] at hz'
  obtain ⟨ck, ha1, ha2, ha3⟩ := arrive_lift hz'
  have hlk : loOf ag k m = none := loOf_none hm (Ne.symm hkr)
  have jk := ((h.j k o1).gather (hw1 k o1)).1
  have hleave : ∀ u, (if ∃ y, loOf ag k u = some y ∧ Leaves G k y then none else loOf ag k u) = loOf ag k u := by
    intro u
    rw [if_neg]
    rintro ⟨⟨t, l⟩, a, q', b, c'⟩
    simp only at b
    subst b
    rw [hl u k t q' (by rintro rfl; rw [hlk] at a; cases a) (loOf_some.1 a)] at c'
    cases c'
  have jk2 := jk.congr (lo' := loOf ag k) (used' := used) (dead' := fun u => ag u = none) (cl' := True) (fun u => by
      have := hleave u
      by_cases hc : ∃ y, loOf ag k u = some y ∧ Leaves G k y
      · rw [if_pos hc] at this ⊢; exact this.symm
      · rw [if_neg hc]) (fun _ h => h) (fun _ _ h => h) (fun h => h)
  have ja := jk2.arrive hre hlk (h.is_used hm) (by rw [hm]; simp) ha1
  obtain ⟨cm, hm1, hm2⟩ := ja.canMove (u := m) (q := q) (x := (s', none)) (by simp [upd]) (by
    intro he v hv hp
    rw [K.dest_id (h.valid hm)] at hp
    obtain ⟨g, eg, hg⟩ := ja.sp
    rw [placed_one eg] at hp
    cases hlv : loOf ag k v with
    | none =>
      have := hg.gh _ rfl v (by simp [upd, hv, hlv])
      rw [hp] at this; cases this
    | some t =>
      have ht := hg.lo v t.2 (by simp [upd, hv, hlv])
      rw [hp] at ht
      simp only [Option.some.injEq] at ht
      exact hv (hx he v m _ _ q (loOf_some.1 hlv) hm ht.symm rfl))
  have hproc : Mx.processOne (w1 k, ([] : List Nat)) ⟨m, some (s', D), 0, q⟩ = some (cm, z'.2) := by
    unfold Mx.processOne
    simp only [jk2.none_local hlk, Option.bind_some, ha1, Option.map_some, hm1]
    rw [ha3]
  have hp : ∀ i < G.n, ∃ c, ((recv G.n (fun i => if i = r then [(k, (⟨m, some (s', D), 0, q⟩ : OobMsg S Q))] else []) i).map (·.2)).foldlM Mx.processOne (w1 i, ([] : List Nat)) = some (c, if i = k then z'.2 else []) ∧ c.nc = x2 i := by
    intro i hi'
    rw [hrecv]
    by_cases hik : i = k
    · subst hik
      refine ⟨cm, ?_, ?_⟩
      · rw [if_pos rfl, if_pos rfl, List.map_cons, List.map_nil, List.foldlM_cons, Option.bind_eq_bind, hproc]; rfl
      · rw [hm2, ha2, hzk]
    · refine ⟨w1 i, ?_, ?_⟩
      · rw [if_neg hik, if_neg hik]; rfl
      · have := (each_all e2).1 i hi'
        rw [get_map_range _ hi', if_neg hik] at this
        exact (congrFun g2 i).trans (Option.some.inj this)
  rw [← g2] at e2
  obtain ⟨w2, g3, g4⟩ := each_lift (w := w1) (n := G.n) (f := fun i => (((List.range G.n).map fun i => ((recv G.n (fun i => if i = r then [(k, (⟨m, some (s', D), 0, q⟩ : OobMsg S Q))] else []) i).map (·.2)).foldlM Mx.processOne (w1 i, ([] : List Nat)))[i]?.bind id).map (·.1)) e2 (by
    intro i hi' c' hc'
    obtain ⟨c, hc, hcc⟩ := hp i hi'
    refine ⟨c, by rw [get_map_range _ hi', hc]; rfl, ?_⟩
    rw [hcc]
    exact Option.some.inj (((each_all e2).1 i hi').symm.trans hc'))
  refine ⟨w2, ?_, g4⟩
  unfold moveOob
  simp only
  rw [g1, Option.bind_some, hout, hleft, g3]
  simp only [Option.map_some, Option.some.injEq, Prod.mk.injEq, true_and, and_true]
  funext i
  by_cases hi' : i < G.n
  · rw [get_map_range _ hi', get_map_range _ hi']
    obtain ⟨c, hc, -⟩ := hp i hi'
    rw [hc]
    by_cases hik : i = k
    · subst hik
      rw [if_pos rfl, if_pos rfl, List.map_cons, List.map_nil, List.foldlM_cons, Option.bind_eq_bind, ← hw1k, hz']; rfl
    · rw [if_neg hik, if_neg hik]; rfl
  · simp [hi']; rfl

end Repast.Mixed
