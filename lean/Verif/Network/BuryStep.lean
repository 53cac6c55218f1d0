import Verif.Network.BuryWorld

/-! The operations of a history in which agents are removed: all but the removal itself. -/
namespace Repast.Network
open Repast.Dict Repast.Context

variable {S A : Type} {D : Nat → Bool} {n : Nat} {d : Bool} {V : Sp S A}

theorem Rel.node {P : Corpse S} {c b : Cx S A} (h : Rel D P c b) {N : Net A} (hN : N ∈ b.nets) {o : Obj} (ho : o ∈ N.g.nodes) : D o.uid = false := by
  rw [h.eq] at hN
  obtain ⟨M, -, rfl⟩ := List.mem_map.1 hN
  have := (List.mem_filter.1 ho).2
  simpa using this

theorem COk.each {Q : Pend A} {c : Cx S A} (h : COk d Q c) {N : Net A} (hN : N ∈ c.nets) : NetOk d Q c.rank c.lrank N := by
  have := h.net
  rw [h.nets, List.mem_singleton] at hN
  rw [hN]; exact this

theorem Rel.living {P : Corpse S} {c b : Cx S A} (h : Rel D P c b) (hb : COk d Pend.none b) : Living D b where
  new := by
    intro N hN e he
    have hk := hb.each hN
    obtain ⟨h1, h2⟩ := slot_ends hk.inv (hk.new e he).1
    exact liveK_iff.2 ⟨h.node hN h1, h.node hN h2⟩
  ref := by
    intro N hN
    exact (hb.each hN).toRef

theorem Rel.keysOk {P : Corpse S} {c b : Cx S A} (_ : Rel D P c b) (hb : COk d Pend.none b) : ∀ N ∈ b.nets, KeysOk N := fun _ hN => (hb.each hN).keys

theorem rel_count {P : Nat → Corpse S} {w b : World S A} (hw : ∀ r < n, Rel D (P r) (w r) (b r)) (hn : 0 < n) : w.count = b.count := (hw 0 hn).length.symm

/-- `synchronize` drops what the ranks have of dead agents. -/
theorem synch_lift (h : SInv NoHid d n V) (hn : 0 < n) (hl : Legal d n V (.synch true)) {b w : World S A} (hb : Sim d still n b V) {P : Nat → Corpse S} (hD : Due n D P)
    (hw : ∀ r < n, Rel D (P r) (w r) (b r)) :
    ∃ (b' w' : World S A) (P' : Nat → Corpse S), synchronize n true w = some w' ∧ Sim d still n b' (sstep d n V (.synch true)) ∧ (∀ r < n, Rel D (P' r) (w' r) (b' r)) ∧ ∀ r < n, (P' r).Bare := by
  obtain ⟨h1, h2⟩ := hl rfl
  obtain ⟨b1, e1, s1⟩ := preSynch_sim h (Q := still) (mv := fun _ => False) (fun _ _ => rfl) hb
  have s1 : Sim d still n b1 V := s1
  obtain ⟨w1, f1, r1⟩ := preSynch_lift hw (fun r hr => (hw r hr).living (hb r hr).1) e1
  obtain ⟨b2, e2, s2⟩ := updateGhosts_sim h s1
  unfold updateGhosts at e2
  obtain ⟨b1', e1', e2⟩ := Option.bind_eq_some_iff.1 e2
  have hb1 := exchange_none_removed (fun r hr => (s1 r hr).1.removed) e1'
  obtain ⟨w2, P', f2, r2, hP'⟩ := drop_phase hD (b := b1') (fun r hr => by rw [hb1 r hr]; exact r1 r hr)
  obtain ⟨w3, f3, r3⟩ := states_lift r2 e2
  have hf : ∀ r p, (V.states r).far p = (V r).far p := by
    intro r p
    unfold RV.far Sp.states
    simp only [Option.map_map]
    rfl
  obtain ⟨b4, e4, s4⟩ := removals_sim h.states
    (by intro r hr p hp; rw [hf]; exact (h2 r hr p hp).1)
    (by intro r hr p hp; rw [hf]; exact (h2 r hr p hp).2)
    (fun _ _ _ _ => ⟨id, id⟩) s2
  obtain ⟨w4, f4, r4⟩ := removed_lift hP' r3 e4
  have hr := h.states.removals (by intro r hr p hp; rw [hf]; exact (h2 r hr p hp).2)
  obtain ⟨b5, e5, s5⟩ := copies_sim hr (fun _ _ => rfl) (fun _ _ _ _ => rfl) (fun _ _ => rfl) (by
    intro r hr' k hk u v d1 d2
    rw [h.states.removals_dirty hr' d1, h.states.removals_dirty hk d2]
    exact h1 r hr' k hk u v d1 d2) s4
  obtain ⟨w5, f5, r5⟩ := copyNet_lift r4 (fun r hr => ((r4 r hr).living (s4 r hr).1).new) (b' := b5) e5
  refine ⟨b5, w5, P', ?_, s5, r5, hP'⟩
  unfold synchronize
  rw [if_pos rfl, eachPid_one (by rw [rel_count hw hn]; exact sim_count hb hn), f1, Option.bind_some]
  unfold updateGhosts
  rw [f2, Option.bind_some, f3, Option.bind_some, eachPid_one (by rw [rel_count r3 hn]; exact sim_count s2 hn), synchNet_eq, f4, Option.bind_some]
  exact f5

theorem Corpse.Bare.ok {P : Corpse S} (h : P.Bare) : P.Ok D where
  gho := by intro u g hg; rw [h.ghosts] at hg; cases hg
  node := by intro x hx o ho; rw [h.nets x hx] at ho; cases ho
  edge := by intro x hx e he; rw [h.nets x hx] at he; cases he

theorem Due.bare {P : Nat → Corpse S} (h : ∀ r < n, (P r).Bare) : Due n D P where
  ok := fun r hr => (h r hr).ok
  rem := by intro r hr e he; rw [(h r hr).removed] at he; cases he
  once := by intro r hr; rw [(h r hr).removed]; exact .nil
  own := by intro r hr r' hr' _ e he; rw [(h r hr).removed] at he; cases he
  cover := by intro k hk u hu; rw [(h k hk).ghosts] at hu; cases hu

/-! ### The other operations -/

theorem at_lift {P : Nat → Corpse S} {w b b' : World S A} (hw : ∀ r < n, Rel D (P r) (w r) (b r)) {r : Nat} {f : Cx S A → Option (Cx S A)}
    (hf : ∀ b', f (b r) = some b' → ∃ c', f (w r) = some c' ∧ Rel D (P r) c' b') (hb : at_ n r f b = some b') : ∃ w', at_ n r f w = some w' ∧ ∀ k < n, Rel D (P k) (w' k) (b' k) := by
  unfold at_ at *
  split at hb
  · obtain ⟨c, h1, rfl⟩ := Option.map_eq_some_iff.1 hb
    obtain ⟨c', h2, h3⟩ := hf c h1
    rename_i hr
    rw [if_pos hr, h2]
    refine ⟨_, rfl, ?_⟩
    intro k hk
    simp only []
    split
    · rename_i e; subst e; exact h3
    · exact hw k hk
  · cases hb

/-- With nothing dead there is nothing to clean. -/
theorem Net.clean_alive (N : Net A) : N.clean (fun _ => false) = N := by
  unfold Net.clean Net.scrub Graph.clean
  have : ∀ (α : Type) (l : List (EKey × α)), l.filter (fun e => liveK (fun _ => false) e.1) = l := fun _ l => List.filter_eq_self.2 fun _ _ => rfl
  have h2 : ∀ (l : List Obj), l.filter (fun _ => !false) = l := fun l => List.filter_eq_self.2 fun _ _ => rfl
  simp only [this, h2]

theorem Graph.dead_alive (g : Graph A) : g.dead (fun _ => false) = ([], []) := by simp [Graph.dead, liveK]

theorem Rel.init {c : Cx S A} (hc : c.removed = []) (hl : ∀ u o s, get c.locals u = some (o, s) → o.uid = u) (hg : ∀ u g, get c.ghosts u = some g → g.obj.uid = u) :
    Rel (fun _ => false) (c.dead fun _ => false) c c where
  eq := by
    unfold Cx.clean
    have e1 : c.ghosts.filter (fun _ => !false) = c.ghosts := List.filter_eq_self.2 fun _ _ => rfl
    have e2 : c.nets.map (Net.clean fun _ => false) = c.nets := by
      conv => rhs; rw [← List.map_id c.nets]
      exact List.map_congr_left fun N _ => N.clean_alive
    rw [e1, e2, ← hc]
  dead := rfl
  loc := by simp
  locU := hl
  ghoU := hg

theorem dead_bare {c : Cx S A} (hc : c.removed = []) : (c.dead fun _ => false).Bare where
  removed := hc
  ghosts := by simp [Cx.dead]
  nets := by
    intro x hx
    obtain ⟨N, -, rfl⟩ := List.mem_map.1 hx
    exact N.g.dead_alive

/-- What is asked of the dead, besides `Legal`: their unique ids are not used again, and no edges are cleared. -/
def Mourn (D : Nat → Bool) : WOp S A → Prop
  | .add _ u _ => D u = false
  | .clearEdges _ _ => ∀ u, D u = false
  | _ => True

theorem step_lift (h : SInv NoHid d n V) (hn : 0 < n) {op : WOp S A} (hl : Legal d n V op) (hm : Mourn D op) {b w : World S A} (hb : Sim d still n b V) {P : Nat → Corpse S} (hD : Due n D P)
    (hw : ∀ r < n, Rel D (P r) (w r) (b r)) :
    ∃ (b' w' : World S A) (P' : Nat → Corpse S), wstep n w op = some w' ∧ Sim d still n b' (sstep d n V op) ∧ (∀ r < n, Rel D (P' r) (w' r) (b' r)) ∧ Due n D P' ∧
      (op = .synch true → ∀ r < n, (P' r).Bare) ∧ (op ≠ .synch true → P' = P) := by
  by_cases hs : op = .synch true
  · subst hs
    obtain ⟨b', w', P', h1, h2, h3, h4⟩ := synch_lift h hn hl hb hD hw
    exact ⟨b', w', P', h1, h2, h3, Due.bare h4, fun _ => h4, fun hne => absurd rfl hne⟩
  · obtain ⟨b', e, hs'⟩ := step_still h hn hl hb
    suffices hsuf : ∃ w', wstep n w op = some w' ∧ ∀ r < n, Rel D (P r) (w' r) (b' r) by
      obtain ⟨w', h1, h2⟩ := hsuf
      exact ⟨b', w', P, h1, hs', h2, hD, fun e => absurd e hs, fun _ => rfl⟩
    cases op with
    | add r u s =>
      refine at_lift hw (f := fun c => some (c.add u s)) ?_ e
      intro b1 h1
      cases h1
      exact ⟨_, rfl, (hw r hl.1).add hm s⟩
    | setState r u s => exact at_lift hw (f := fun c => c.setState u s) (fun b1 h1 => (hw r hl.1).setState h1) e
    | addEdge r pid u v a => exact at_lift hw (f := fun c => c.addEdge pid u v a) (fun b1 h1 => (hw r hl.1).addEdge h1) e
    | updateEdge r pid u v a => exact at_lift hw (f := fun c => c.updateEdge pid u v a) (fun b1 h1 => (hw r hl.1).updateEdge ((hw r hl.1).keysOk (hb r hl.1).1) h1) e
    | removeEdge r pid u v => exact at_lift hw (f := fun c => c.removeEdge pid u v) (fun b1 h1 => (hw r hl.1).removeEdge ((hw r hl.1).keysOk (hb r hl.1).1) h1) e
    | clearEdges r pid =>
      have hD' : D = fun _ => false := funext hm
      subst hD'
      refine at_lift hw (f := fun c => c.clearEdges pid) ?_ e
      intro b1 h1
      have hR := hw r hl.1
      unfold Cx.clearEdges at *
      rw [hR.rank, hR.lrank] at h1
      refine hR.withNet h1 fun N N2 _ h2 => ⟨N2, ?_, N2.clean_alive.symm, ?_⟩
      · rw [N.clean_alive] at h2; exact h2
      · rw [Graph.dead_alive, Graph.dead_alive]
    | request rs =>
      refine request_lift hw ?_ e
      intro r hr q hq
      obtain ⟨hq1, -, hq2⟩ := (hl r hr).2 q hq
      have := hb q.2 hq1
      rw [← this.2] at hq2
      obtain ⟨o, ho⟩ := Option.isSome_iff_exists.1 hq2
      obtain ⟨o', ho', -⟩ := Option.map_eq_some_iff.1 ho
      refine (hw q.2 hq1).live (o := o') ?_
      rw [← (hw q.2 hq1).locals]; exact ho'
    | synch g =>
      cases g with
      | true => exact absurd rfl hs
      | false => cases e; exact ⟨w, rfl, hw⟩
    | _ => exact hl.elim

end Repast.Network
