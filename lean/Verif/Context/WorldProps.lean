import Verif.Context.World

/-! C24, C25 and C26 for the contexts of any number of ranks without projections: `request_agents`, `move_agents`, `synchronize`, and the local
operations, in any order. -/
namespace Repast.Context
open Repast.Dict Repast.Space Repast.Topology

variable {S : Type} (ty : Nat → Nat)

/-! ### Specification -/

/-- Specification: the population of a model, without any messages. `own u` is the rank on which agent `u` is local, and its state; `gh k u` is
what rank `k` sees of an agent of another rank: the state it had when it was last synchronised. `used` are all unique ids so far. -/
structure Pop (S : Type) where
  own : Nat → Option (Nat × S)
  gh : Nat → Nat → Option S
  used : List Nat

def Pop.empty : Pop S := ⟨fun _ => none, fun _ _ => none, []⟩

/-- The rank on which an agent is after the moves `ms`, if it is on rank `r` before. -/
def dest (ms : Nat → List (Nat × Nat)) (r u : Nat) : Nat := (get (ms r) u).getD r

/-- Each copy gets the current state of its agent; the copies of agents that do not exist any more disappear. -/
def Pop.refresh (p : Pop S) : Pop S := { p with gh := fun k u => (p.gh k u).bind fun _ => (p.own u).map (·.2) }

/-- The agents move; an agent that arrives where it has been a copy is not a copy any more. -/
def Pop.moved (ms : Nat → List (Nat × Nat)) (p : Pop S) : Pop S :=
  { p with
    own := fun u => (p.own u).map fun x => (dest ms x.1 u, x.2)
    gh := fun k u => match p.own u with
      | some x => if dest ms x.1 u = k then none else p.gh k u
      | none => p.gh k u }

def Pop.step (p : Pop S) : WOp S → Pop S
  | .add r u s => { p with own := upd p.own u (some (r, s)), used := u :: p.used }
  | .remove _ u => { p with own := upd p.own u none }
  | .setState r u s => { p with own := upd p.own u (some (r, s)) }
  | .request rs => { p with gh := fun k u => (p.gh k u).or (if u ∈ (rs k).map (·.1) then (p.own u).map (·.2) else none) }
  | .move ms => (p.moved ms).refresh
  | .synch true => p.refresh
  | _ => p

/-- The calls a user may make: a new agent has a new unique id; an agent is removed, changed, requested and moved where it is local, on existing
ranks, and it is not moved twice at once. -/
def Pop.Valid (n : Nat) (p : Pop S) : WOp S → Prop
  | .add r u _ => r < n ∧ u ∉ p.used
  | .remove r u => ∃ s, p.own u = some (r, s)
  | .setState r u _ => ∃ s, p.own u = some (r, s)
  | .request rs => ∀ k < n, ∀ q ∈ rs k, q.2 ≠ k ∧ ∃ s, p.own q.1 = some (q.2, s)
  | .move ms => ∀ r < n, ((ms r).map (·.1)).Nodup ∧ ∀ m ∈ ms r, m.2 < n ∧ ∃ s, p.own m.1 = some (r, s)
  | .synch _ => True
  | .gmove .. => False
  | .addProj _ => False

def Pop.ValidRun (n : Nat) (p : Pop S) : List (WOp S) → Prop
  | [] => True
  | o :: ops => p.Valid n o ∧ (p.step o).ValidRun n ops

def Pop.run (p : Pop S) (ops : List (WOp S)) : Pop S := ops.foldl Pop.step p

/-! ### The relation between the contexts and the specification -/

/-- Rank `c` knows that agent `u` has a copy on rank `k`. -/
def Tracks (c : Cx S) (u k : Nat) : Prop := (∃ d, get c.ghosted u = some d ∧ k ∈ keys d) ∨ (∃ d, (u, d) ∈ c.removed ∧ k ∈ keys d)

structure Rel (n : Nat) (w : World S) (p : Pop S) : Prop where
  rank : ∀ r < n, (w r).rank = r
  projs : ∀ r < n, (w r).projs = []
  views : ∀ r < n, Views ty (w r)
  okGhosted : ∀ r < n, Ok (w r).ghosted
  okGhosts : ∀ r < n, Ok (w r).ghosts
  loc : ∀ r < n, ∀ u s, get (w r).locals u = some s ↔ p.own u = some (r, s)
  ghd : ∀ r < n, ∀ u d, get (w r).ghosted u = some d → Ok d ∧ d ≠ [] ∧ u ∈ keys (w r).locals ∧ ∀ k ∈ keys d, k < n ∧ k ≠ r
  rem : ∀ r < n, ∀ u d, (u, d) ∈ (w r).removed → Ok d ∧ p.own u = none ∧ u ∈ p.used ∧ ∀ k ∈ keys d, k < n
  remOnce : ∀ r < n, ((w r).removed.map (·.1)).Nodup
  remRank : ∀ r < n, ∀ r' < n, ∀ u d d', (u, d) ∈ (w r).removed → (u, d') ∈ (w r').removed → r = r'
  ghost : ∀ k < n, ∀ u, u ∈ keys (w k).ghosts ↔ ∃ r < n, Tracks (w r) u k
  gst : ∀ k < n, ∀ u, (w k).ghostAgent u = p.gh k u
  used : ∀ u x, p.own u = some x → u ∈ p.used ∧ x.1 < n

variable {ty}

theorem Rel.congr {n : Nat} {w w' : World S} {p : Pop S} (h : Rel ty n w p) (e : ∀ r < n, w' r = w r) : Rel ty n w' p := by
  refine ⟨fun r hr => by rw [e r hr]; exact h.rank r hr, fun r hr => by rw [e r hr]; exact h.projs r hr, fun r hr => by rw [e r hr]; exact h.views r hr,
    fun r hr => by rw [e r hr]; exact h.okGhosted r hr, fun r hr => by rw [e r hr]; exact h.okGhosts r hr, fun r hr => by rw [e r hr]; exact h.loc r hr,
    fun r hr => by rw [e r hr]; exact h.ghd r hr, fun r hr => by rw [e r hr]; exact h.rem r hr, fun r hr => by rw [e r hr]; exact h.remOnce r hr, ?_, ?_,
    fun r hr => by rw [e r hr]; exact h.gst r hr, h.used⟩
  · intro r hr r' hr' u d d' h1 h2
    rw [e r hr] at h1; rw [e r' hr'] at h2
    exact h.remRank r hr r' hr' u d d' h1 h2
  · intro k hk u
    rw [e k hk, h.ghost k hk u]
    constructor
    · rintro ⟨r, hr, ht⟩; exact ⟨r, hr, by rw [e r hr]; exact ht⟩
    · rintro ⟨r, hr, ht⟩; exact ⟨r, hr, by rw [← e r hr]; exact ht⟩

theorem Rel.mem_loc {n : Nat} {w : World S} {p : Pop S} (h : Rel ty n w p) {r : Nat} (hr : r < n) (u : Nat) : u ∈ keys (w r).locals ↔ ∃ s, p.own u = some (r, s) := by
  rw [mem_keys]
  exact exists_congr fun s => h.loc r hr u s

theorem mem_removedMsgs {c : Cx S} {k u : Nat} : (k, u) ∈ c.removedMsgs ↔ ∃ d, (u, d) ∈ c.removed ∧ k ∈ keys d := by
  unfold Cx.removedMsgs
  simp only [List.mem_flatMap, List.mem_map, Prod.mk.injEq]
  constructor
  · rintro ⟨e, he, k', hk, rfl, rfl⟩; exact ⟨e.2, he, hk⟩
  · rintro ⟨d, hd, hk⟩; exact ⟨(u, d), hd, k, hk, rfl, rfl⟩

theorem removedMsgs_nodup {l : List (Nat × Dict Int)} (k : Nat) (h1 : (l.map (·.1)).Nodup) (h2 : ∀ e ∈ l, Ok e.2) :
    (((l.flatMap fun e => (keys e.2).map fun k => (k, e.1)).filter (fun m => decide (m.1 = k))).map fun m => m.2).Nodup := by
  induction l with
  | nil => simp
  | cons e l ih =>
    rw [List.map_cons, List.nodup_cons] at h1
    rw [List.flatMap_cons, List.filter_append, List.map_append, List.nodup_append]
    refine ⟨?_, ih h1.2 (fun e he => h2 e (by simp [he])), ?_⟩
    · have hk : (keys e.2).Nodup := h2 e (by simp)
      rw [List.filter_map, List.map_map]
      have : (fun m : Nat × Nat => m.2) ∘ (fun k : Nat => (k, e.1)) = fun _ => e.1 := rfl
      rw [this]
      have hf : (keys e.2).filter ((fun m : Nat × Nat => decide (m.1 = k)) ∘ fun k => (k, e.1)) = (keys e.2).filter (fun j => decide (j = k)) := rfl
      rw [hf]
      have hl : ((keys e.2).filter (fun j => decide (j = k))).length ≤ 1 := by
        have := List.nodup_iff_count.1 hk k
        rw [List.count_eq_countP, List.countP_eq_length_filter] at this
        exact this
      match hfl : (keys e.2).filter (fun j => decide (j = k)), hl with
      | [], _ => simp
      | [a], _ => simp
    · intro a ha b hb
      rintro rfl
      simp only [List.mem_map, List.mem_filter, List.mem_flatMap] at ha hb
      obtain ⟨x, ⟨⟨j, _, rfl⟩, _⟩, rfl⟩ := ha
      obtain ⟨y, ⟨⟨e', he', j', _, rfl⟩, _⟩, e2⟩ := hb
      exact h1.1 (List.mem_map.2 ⟨e', he', e2⟩)

theorem updateRemoved_spec {n : Nat} {w : World S} {p : Pop S} (h : Rel ty n w p) :
    ∃ w', updateRemoved n w = some w' ∧ Rel ty n w' { p with gh := fun k u => if p.own u = none then none else p.gh k u } ∧ ∀ r < n, (w' r).removed = [] := by
  unfold updateRemoved
  rw [if_pos]
  · have hmem : ∀ k < n, ∀ u, u ∈ (recv n (fun s => (w s).removedMsgs) k).map (fun m => m.2) ↔ ∃ r < n, ∃ d, (u, d) ∈ (w r).removed ∧ k ∈ keys d := by
      intro k hk u
      simp only [List.mem_map]
      constructor
      · rintro ⟨x, hx, rfl⟩
        obtain ⟨h1, h2⟩ := mem_recv.1 hx
        exact ⟨x.1, h1, mem_removedMsgs.1 h2⟩
      · rintro ⟨r, hr, hd⟩
        exact ⟨(r, u), mem_recv.2 ⟨hr, mem_removedMsgs.2 hd⟩, rfl⟩
    have hgone : ∀ k < n, ∀ u, u ∈ keys (w k).ghosts → (p.own u = none ↔ ∃ r < n, ∃ d, (u, d) ∈ (w r).removed ∧ k ∈ keys d) := by
      intro k hk u hu
      constructor
      · intro hn
        obtain ⟨r, hr, ht⟩ := (h.ghost k hk u).1 hu
        rcases ht with ⟨d, hd, hkd⟩ | ⟨d, hd, hkd⟩
        · obtain ⟨s, hs⟩ := (h.mem_loc hr u).1 (h.ghd r hr u d hd).2.2.1
          rw [hn] at hs; cases hs
        · exact ⟨r, hr, d, hd, hkd⟩
      · rintro ⟨r, hr, d, hd, _⟩
        exact (h.rem r hr u d hd).2.1
    obtain ⟨w', hw, hp⟩ := each_ex (w := w) (f := fun r => (((recv n (fun s => (w s).removedMsgs) r).map fun m => m.2).foldlM Cx.dropGhost (w r)).map fun c =>
        { c with removed := [] }) (R := fun k (c : Cx S) => c.rank = (w k).rank ∧ c.locals = (w k).locals ∧ c.byType = (w k).byType ∧ c.ghosted = (w k).ghosted ∧
        (∀ v, get c.ghosts v = if p.own v = none then none else get (w k).ghosts v) ∧ Ok c.ghosts ∧ c.removed = [] ∧ c.projs = []) (by
      intro k hk
      have hnd : ((recv n (fun s => (w s).removedMsgs) k).map fun m => m.2).Nodup := by
        have := recv_nodup (n := n) (send := fun s => (w s).removedMsgs) (k := k) (fun u => u) (by
          intro r hr
          exact removedMsgs_nodup k (h.remOnce r hr) (fun e he => (h.rem r hr e.1 e.2 he).1)) (by
          rintro r hr r' hr' m m' hm hm' rfl
          obtain ⟨d, hd, _⟩ := mem_removedMsgs.1 hm
          obtain ⟨d', hd', _⟩ := mem_removedMsgs.1 hm'
          exact h.remRank r hr r' hr' m d d' hd hd')
        rw [List.map_map] at this
        exact this
      obtain ⟨c', h1, h2, h3, h4, h5, h6, h7, h8, h9, h10⟩ := dropGhosts_spec _ (w k) hnd (by
        intro u hu
        obtain ⟨r, hr, d, hd, hkd⟩ := (hmem k hk u).1 hu
        exact (h.ghost k hk u).2 ⟨r, hr, .inr ⟨d, hd, hkd⟩⟩)
      refine ⟨{ c' with removed := [] }, by rw [h1]; rfl, h2, h3, h4, h5, ?_, h7 (h.okGhosts k hk), rfl, h10 (h.projs k hk)⟩
      intro v
      simp only [h6]
      cases hg : get (w k).ghosts v with
      | none => simp
      | some g =>
        have := hgone k hk v (mem_keys_of_get hg)
        by_cases hn : p.own v = none
        · rw [if_pos hn, if_pos ((hmem k hk v).2 (this.1 hn))]
        · rw [if_neg hn, if_neg (fun x => hn (this.2 ((hmem k hk v).1 x)))])
    refine ⟨w', hw, ?_, fun r hr => (hp r hr).2.2.2.2.2.2.1⟩
    refine ⟨fun r hr => (hp r hr).1.trans (h.rank r hr), fun r hr => (hp r hr).2.2.2.2.2.2.2, fun r hr => (h.views r hr).congr ty (hp r hr).2.1 (hp r hr).2.2.1,
      fun r hr => (hp r hr).2.2.2.1 ▸ h.okGhosted r hr, fun r hr => (hp r hr).2.2.2.2.2.1, ?_, ?_, ?_, ?_, ?_, ?_, ?_, h.used⟩
    · intro r hr u s; rw [(hp r hr).2.1]; exact h.loc r hr u s
    · intro r hr u d hd; rw [(hp r hr).2.2.2.1] at hd; rw [(hp r hr).2.1]; exact h.ghd r hr u d hd
    · intro r hr u d hd; rw [(hp r hr).2.2.2.2.2.2.1] at hd; simp at hd
    · intro r hr; rw [(hp r hr).2.2.2.2.2.2.1]; simp
    · intro r hr r' hr' u d d' hd; rw [(hp r hr).2.2.2.2.2.2.1] at hd; simp at hd
    · intro k hk u
      rw [← get_isSome, (hp k hk).2.2.2.2.1]
      constructor
      · intro hs
        split at hs
        · simp at hs
        · rename_i hn
          rw [get_isSome] at hs
          obtain ⟨r, hr, ht⟩ := (h.ghost k hk u).1 hs
          refine ⟨r, hr, ?_⟩
          rcases ht with ⟨d, hd, hkd⟩ | ⟨d, hd, hkd⟩
          · left; rw [(hp r hr).2.2.2.1]; exact ⟨d, hd, hkd⟩
          · exact absurd (h.rem r hr u d hd).2.1 hn
      · rintro ⟨r, hr, ht⟩
        rcases ht with ⟨d, hd, hkd⟩ | ⟨d, hd, hkd⟩
        · rw [(hp r hr).2.2.2.1] at hd
          obtain ⟨s, hs⟩ := (h.mem_loc hr u).1 (h.ghd r hr u d hd).2.2.1
          rw [if_neg (by rw [hs]; simp), get_isSome]
          exact (h.ghost k hk u).2 ⟨r, hr, .inl ⟨d, hd, hkd⟩⟩
        · rw [(hp r hr).2.2.2.2.2.2.1] at hd; simp at hd
    · intro k hk u
      unfold Cx.ghostAgent
      rw [(hp k hk).2.2.2.2.1]
      simp only [← h.gst k hk u]
      split <;> rfl
  · rw [List.all_eq_true]
    intro r hr
    rw [List.all_eq_true]
    rintro ⟨k, u⟩ hm
    obtain ⟨d, hd, hk⟩ := mem_removedMsgs.1 hm
    simpa using (h.rem r (List.mem_range.1 hr) u d hd).2.2.2 k hk

theorem updateStates_spec {n : Nat} {w : World S} {p : Pop S} (h : Rel ty n w p) (h0 : ∀ r < n, (w r).removed = []) :
    ∃ w', updateStates n w = some w' ∧ Rel ty n w' p.refresh := by
  have hms := fun r (hr : r < n) => stateMsgs_spec (w r) (h.okGhosted r hr) (fun u d hd => (h.ghd r hr u d hd).2.2.1)
  have hout : ∀ r < n, ∀ k u s, (k, u, s) ∈ ((w r).stateMsgs).getD [] ↔ ∃ d, get (w r).ghosted u = some d ∧ k ∈ keys d ∧ get (w r).locals u = some s := by
    intro r hr k u s
    obtain ⟨l, hl, hm⟩ := hms r hr
    rw [hl]; exact hm k u s
  unfold updateStates
  simp only []
  rw [if_pos]
  · have hmem : ∀ k < n, ∀ u s, (u, s) ∈ (recv n (fun r => ((w r).stateMsgs).getD []) k).map (·.2) ↔ (∃ r < n, ∃ d, get (w r).ghosted u = some d ∧ k ∈ keys d ∧ p.own u = some (r, s)) := by
      intro k hk u s
      simp only [List.mem_map]
      constructor
      · rintro ⟨x, hx, e⟩
        obtain ⟨h1, h2⟩ := mem_recv.1 hx
        rw [e] at h2
        obtain ⟨d, hd, hkd, hl⟩ := (hout x.1 h1 k u s).1 h2
        exact ⟨x.1, h1, d, hd, hkd, (h.loc _ h1 u s).1 hl⟩
      · rintro ⟨r, hr, d, hd, hkd, ho⟩
        exact ⟨(r, u, s), mem_recv.2 ⟨hr, (hout r hr k u s).2 ⟨d, hd, hkd, (h.loc r hr u s).2 ho⟩⟩, rfl⟩
    obtain ⟨w', hw, hp⟩ := each_ex (w := w) (f := fun r => ((recv n (fun r => ((w r).stateMsgs).getD []) r).map (·.2)).foldlM (fun (c : Cx S) m => c.updateGhost m.1 m.2) (w r))
      (R := fun k (c : Cx S) => c.rank = (w k).rank ∧ c.locals = (w k).locals ∧ c.byType = (w k).byType ∧ c.ghosted = (w k).ghosted ∧
        keys c.ghosts = keys (w k).ghosts ∧ (∀ u, c.ghostAgent u = ((w k).ghostAgent u).bind fun _ => (p.own u).map (·.2)) ∧ c.removed = [] ∧ c.projs = []) (by
      intro k hk
      obtain ⟨c', h1, h2, h3, h4, h5, h6, h7, h8, h9, h10, h11⟩ := updateGhosts_fold_spec ((recv n (fun r => ((w r).stateMsgs).getD []) k).map (·.2)) (w k) (by
        rintro ⟨u, s⟩ hm
        obtain ⟨r, hr, d, hd, hkd, _⟩ := (hmem k hk u s).1 hm
        exact (h.ghost k hk u).2 ⟨r, hr, .inl ⟨d, hd, hkd⟩⟩) (by
        rintro ⟨u, s⟩ hm ⟨u', s'⟩ hm' e
        simp only at e
        subst e
        obtain ⟨r, hr, d, _, _, ho⟩ := (hmem k hk u s).1 hm
        obtain ⟨r', hr', d', _, _, ho'⟩ := (hmem k hk u s').1 hm'
        rw [ho] at ho'
        simp only [Option.some.injEq, Prod.mk.injEq] at ho'
        exact ho'.2)
      refine ⟨c', h1, h2, h3, h4, h5, h6, ?_, h9.trans (h0 k hk), h11.trans (h.projs k hk)⟩
      intro u
      by_cases hu : u ∈ keys (w k).ghosts
      · obtain ⟨r, hr, ht⟩ := (h.ghost k hk u).1 hu
        rcases ht with ⟨d, hd, hkd⟩ | ⟨d, hd, _⟩
        · obtain ⟨s, hs⟩ := (h.mem_loc hr u).1 (h.ghd r hr u d hd).2.2.1
          have hm := (hmem k hk u s).2 ⟨r, hr, d, hd, hkd, hs⟩
          obtain ⟨g, hg⟩ := (mem_keys _ _).1 hu
          have := h7 _ hm
          simp only at this
          unfold Cx.ghostAgent
          rw [this, hs, hg]; rfl
        · rw [h0 r hr] at hd; simp at hd
      · have hu' : u ∉ keys c'.ghosts := h6 ▸ hu
        unfold Cx.ghostAgent
        rw [(get_eq_none _ _).2 hu, (get_eq_none _ _).2 hu']; rfl)
    refine ⟨w', hw, ?_⟩
    refine ⟨fun r hr => (hp r hr).1.trans (h.rank r hr), fun r hr => (hp r hr).2.2.2.2.2.2.2, fun r hr => (h.views r hr).congr ty (hp r hr).2.1 (hp r hr).2.2.1,
      fun r hr => (hp r hr).2.2.2.1 ▸ h.okGhosted r hr, fun r hr => ?_, ?_, ?_, ?_, ?_, ?_, ?_, ?_, h.used⟩
    · have := (hp r hr).2.2.2.2.1
      unfold Ok; rw [this]; exact h.okGhosts r hr
    · intro r hr u s; rw [(hp r hr).2.1]; exact h.loc r hr u s
    · intro r hr u d hd; rw [(hp r hr).2.2.2.1] at hd; rw [(hp r hr).2.1]; exact h.ghd r hr u d hd
    · intro r hr u d hd; rw [(hp r hr).2.2.2.2.2.2.1] at hd; simp at hd
    · intro r hr; rw [(hp r hr).2.2.2.2.2.2.1]; simp
    · intro r hr r' hr' u d d' hd; rw [(hp r hr).2.2.2.2.2.2.1] at hd; simp at hd
    · intro k hk u
      rw [(hp k hk).2.2.2.2.1, h.ghost k hk u]
      refine exists_congr fun r => and_congr_right fun hr => ?_
      unfold Tracks
      rw [(hp r hr).2.2.2.1, (hp r hr).2.2.2.2.2.2.1, h0 r hr]
    · intro k hk u
      rw [(hp k hk).2.2.2.2.2.1, h.gst k hk u]
      rfl
  · rw [List.all_eq_true]
    intro r hr
    have hr := List.mem_range.1 hr
    obtain ⟨l, hl, hm⟩ := hms r hr
    rw [hl, List.all_eq_true]
    rintro ⟨k, u, s⟩ hx
    obtain ⟨d, hd, hk, _⟩ := (hm k u s).1 hx
    simpa using ((h.ghd r hr u d hd).2.2.2 k hk).1

theorem updateGhosts_spec {n : Nat} {w : World S} {p : Pop S} (h : Rel ty n w p) : ∃ w', updateGhosts n w = some w' ∧ Rel ty n w' p.refresh := by
  obtain ⟨w1, h1, h2, h3⟩ := updateRemoved_spec h
  obtain ⟨w2, h4, h5⟩ := updateStates_spec h2 h3
  refine ⟨w2, by unfold updateGhosts; rw [h1]; exact h4, ?_⟩
  have : Pop.refresh { p with gh := fun k u => if p.own u = none then none else p.gh k u } = p.refresh := by
    unfold Pop.refresh
    congr 1
    funext k u
    cases hp : p.own u <;> simp [hp]
  rw [this] at h5
  exact h5

/-! Without projections the rest of `synchronize` does nothing. -/

theorem preSynchAll_none {n : Nat} {w : World S} {p : Pop S} (h : Rel ty n w p) : ∃ w', each n (fun r => (w r).preSynchAll) w = some w' ∧ Rel ty n w' p := by
  obtain ⟨w', h1, h2⟩ := each_of (w := w) w (f := fun r => (w r).preSynchAll) (n := n) (by
    intro r hr
    simp [Cx.preSynchAll, h.projs r hr])
  exact ⟨w', h1, h.congr h2⟩

theorem moveOob_none {n : Nat} {b : Bool} {w : World S} {p : Pop S} (h : Rel ty n w p) : ∃ w', moveOob ty n b w = some w' ∧ Rel ty n w' p := by
  have hg : ∀ r < n, (w r).gatherOob ty n = some (w r, [], []) := by
    intro r hr
    simp [Cx.gatherOob, h.projs r hr]
  unfold moveOob
  simp only []
  obtain ⟨w1, h1, h2⟩ := each_of (w := w) w (f := fun r => ((w r).gatherOob ty n).map (·.1)) (n := n) (by intro r hr; rw [hg r hr]; rfl)
  rw [h1]
  simp only [Option.bind_some]
  have hr : ∀ k, (recv n (fun r => gathered ((w r).gatherOob ty n)) k) = [] := by
    intro k
    rw [List.eq_nil_iff_forall_not_mem]
    intro x hx
    obtain ⟨hx, hm⟩ := mem_recv.1 hx
    rw [hg x.1 hx] at hm
    simp [gathered] at hm
  have hfin : ∀ b' : Bool, ∀ r < n, (((w1 r).processOob ty ((recv n (fun r => gathered ((w r).gatherOob ty n)) r).map (·.2))).bind
      fun x => if b' then x.1.deleteGhosts x.2 else some x.1) = some (w1 r) := by
    intro b' r _
    rw [hr]
    cases b' <;> simp [Cx.processOob, Cx.deleteGhosts]
  obtain ⟨w2, h3, h4⟩ := each_of (w := w1) w1 (f := _) (n := n) (hfin (((List.range n).any fun r => leaving ((w r).gatherOob ty n)) && b))
  exact ⟨w2, h3, (h.congr h2).congr h4⟩

theorem synchGhosts_none {n : Nat} (hn : 0 < n) {w : World S} {p : Pop S} (h : Rel ty n w p) : ∃ w', synchGhosts n w = some w' ∧ Rel ty n w' p.refresh := by
  obtain ⟨w1, h1, h2⟩ := updateGhosts_spec h
  refine ⟨w1, ?_, h2⟩
  unfold synchGhosts
  rw [h1]
  simp [h2.projs 0 hn]

theorem synchronize_none {n : Nat} (hn : 0 < n) {b : Bool} {w : World S} {p : Pop S} (h : Rel ty n w p) :
    ∃ w', synchronize ty n b w = some w' ∧ Rel ty n w' (if b then p.refresh else p) := by
  unfold synchronize
  cases b with
  | false => exact moveOob_none h
  | true =>
    obtain ⟨w1, h1, h2⟩ := preSynchAll_none h
    obtain ⟨w2, h3, h4⟩ := moveOob_none (b := true) h2
    obtain ⟨w3, h5, h6⟩ := synchGhosts_none hn h4
    refine ⟨w3, ?_, h6⟩
    rw [if_pos rfl, h1]
    simp only [Option.bind_some]
    rw [h3]
    exact h5

/-! ### The local operations -/

theorem add_spec {n : Nat} {w : World S} {p : Pop S} (h : Rel ty n w p) {r u : Nat} {s : S} (hv : p.Valid n (.add r u s)) :
    ∃ w', wstep ty n w (.add r u s) = some w' ∧ Rel ty n w' (p.step (.add r u s)) := by
  obtain ⟨hr, hu⟩ := hv
  have hown : p.own u = none := by
    cases e : p.own u with
    | none => rfl
    | some x => exact absurd (h.used u x e).1 hu
  refine ⟨upd w r ((w r).add ty u s), at_of (f := fun c => some (c.add ty u s)) hr rfl, ?_⟩
  have hne : ∀ v, p.own v ≠ none → v ≠ u := by rintro v hv rfl; exact hv hown
  have hf : ∀ k, (upd w r ((w r).add ty u s) k).rank = (w k).rank ∧ (upd w r ((w r).add ty u s) k).ghosted = (w k).ghosted ∧
      (upd w r ((w r).add ty u s) k).ghosts = (w k).ghosts ∧ (upd w r ((w r).add ty u s) k).removed = (w k).removed ∧
      (∀ v, get (upd w r ((w r).add ty u s) k).locals v = if k = r ∧ u = v then some s else get (w k).locals v) := by
    intro k
    unfold upd
    by_cases hk : k = r
    · subst hk
      simp [Cx.add, Cx.projsAdd]
    · simp [hk]
  refine ⟨fun k hk => (hf k).1.trans (h.rank k hk), ?_, ?_, fun k hk => by rw [(hf k).2.1]; exact h.okGhosted k hk, fun k hk => by rw [(hf k).2.2.1]; exact h.okGhosts k hk,
    ?_, ?_, ?_, fun k hk => by rw [(hf k).2.2.2.1]; exact h.remOnce k hk, ?_, ?_, ?_, ?_⟩
  · intro k hk
    unfold upd
    split
    · simp [Cx.add, Cx.projsAdd, h.projs r hr]
    · exact h.projs k hk
  · intro k hk
    unfold upd
    split
    · exact (h.views r hr).add ty u s
    · exact h.views k hk
  · intro k hk v t
    rw [(hf k).2.2.2.2]
    simp only [Pop.step, upd]
    by_cases hv : v = u
    · subst hv
      by_cases hkr : k = r
      · simp [hkr]
      · simp only [hkr, false_and, if_false, if_true, Option.some.injEq, Prod.mk.injEq, h.loc k hk, hown, Ne.symm hkr]
        simp
    · rw [if_neg (fun x => hv x.2.symm), if_neg hv]
      exact h.loc k hk v t
  · intro k hk v d hd
    rw [(hf k).2.1] at hd
    obtain ⟨a, b, c, d⟩ := h.ghd k hk v d hd
    refine ⟨a, b, ?_, d⟩
    rw [← get_isSome] at c ⊢
    rw [(hf k).2.2.2.2]
    split
    · rfl
    · exact c
  · intro k hk v d hd
    rw [(hf k).2.2.2.1] at hd
    obtain ⟨a, b, c, e⟩ := h.rem k hk v d hd
    have : v ≠ u := by rintro rfl; exact hu c
    refine ⟨a, ?_, by simp [Pop.step, c], e⟩
    simp only [Pop.step, upd, if_neg this]
    exact b
  · intro k hk k' hk' v d d' h1 h2
    rw [(hf k).2.2.2.1] at h1
    rw [(hf k').2.2.2.1] at h2
    exact h.remRank k hk k' hk' v d d' h1 h2
  · intro k hk v
    rw [(hf k).2.2.1, h.ghost k hk v]
    refine exists_congr fun r' => and_congr_right fun hr' => ?_
    unfold Tracks
    rw [(hf r').2.1, (hf r').2.2.2.1]
  · intro k hk v
    unfold Cx.ghostAgent
    rw [(hf k).2.2.1]
    exact h.gst k hk v
  · intro v x hx
    simp only [Pop.step, upd] at hx ⊢
    split at hx
    · rename_i e
      simp only [Option.some.injEq] at hx
      subst hx e
      exact ⟨by simp, hr⟩
    · exact ⟨by simp [(h.used v x hx).1], (h.used v x hx).2⟩

theorem setState_spec {n : Nat} {w : World S} {p : Pop S} (h : Rel ty n w p) {r u : Nat} {s : S} (hv : p.Valid n (.setState r u s)) :
    ∃ w', wstep ty n w (.setState r u s) = some w' ∧ Rel ty n w' (p.step (.setState r u s)) := by
  obtain ⟨s0, hs0⟩ := hv
  have hr : r < n := (h.used u _ hs0).2
  have hl := (h.loc r hr u s0).2 hs0
  have hss : (w r).setState u s = some { w r with locals := set (w r).locals u s } := by simp [Cx.setState, hl]
  refine ⟨upd w r { w r with locals := set (w r).locals u s }, at_of (f := fun c => c.setState u s) hr hss, ?_⟩
  have hf : ∀ k, (upd w r { w r with locals := set (w r).locals u s } k).rank = (w k).rank ∧ (upd w r { w r with locals := set (w r).locals u s } k).ghosted = (w k).ghosted ∧
      (upd w r { w r with locals := set (w r).locals u s } k).ghosts = (w k).ghosts ∧ (upd w r { w r with locals := set (w r).locals u s } k).removed = (w k).removed ∧
      (upd w r { w r with locals := set (w r).locals u s } k).projs = (w k).projs ∧
      (∀ v, get (upd w r { w r with locals := set (w r).locals u s } k).locals v = if k = r ∧ u = v then some s else get (w k).locals v) := by
    intro k
    unfold upd
    by_cases hk : k = r
    · subst hk
      simp
    · simp [hk]
  refine ⟨fun k hk => (hf k).1.trans (h.rank k hk), fun k hk => (hf k).2.2.2.2.1.trans (h.projs k hk), ?_, fun k hk => by rw [(hf k).2.1]; exact h.okGhosted k hk, fun k hk => by rw [(hf k).2.2.1]; exact h.okGhosts k hk,
    ?_, ?_, ?_, fun k hk => by rw [(hf k).2.2.2.1]; exact h.remOnce k hk, ?_, ?_, ?_, ?_⟩
  · intro k hk
    unfold upd
    split
    · exact (h.views r hr).setState ty hss
    · exact h.views k hk
  · intro k hk v t
    rw [(hf k).2.2.2.2.2]
    simp only [Pop.step, upd]
    by_cases hv : v = u
    · subst hv
      by_cases hkr : k = r
      · simp [hkr]
      · simp only [hkr, false_and, if_false, if_true, Option.some.injEq, Prod.mk.injEq, h.loc k hk, hs0, Ne.symm hkr]
    · rw [if_neg (fun x => hv x.2.symm), if_neg hv]
      exact h.loc k hk v t
  · intro k hk v d hd
    rw [(hf k).2.1] at hd
    obtain ⟨a, b, c, d⟩ := h.ghd k hk v d hd
    refine ⟨a, b, ?_, d⟩
    rw [← get_isSome] at c ⊢
    rw [(hf k).2.2.2.2.2]
    split
    · rfl
    · exact c
  · intro k hk v d hd
    rw [(hf k).2.2.2.1] at hd
    obtain ⟨a, b, c, e⟩ := h.rem k hk v d hd
    have : v ≠ u := by rintro rfl; rw [hs0] at b; cases b
    refine ⟨a, ?_, c, e⟩
    simp only [Pop.step, upd, if_neg this]
    exact b
  · intro k hk k' hk' v d d' h1 h2
    rw [(hf k).2.2.2.1] at h1
    rw [(hf k').2.2.2.1] at h2
    exact h.remRank k hk k' hk' v d d' h1 h2
  · intro k hk v
    rw [(hf k).2.2.1, h.ghost k hk v]
    refine exists_congr fun r' => and_congr_right fun hr' => ?_
    unfold Tracks
    rw [(hf r').2.1, (hf r').2.2.2.1]
  · intro k hk v
    unfold Cx.ghostAgent
    rw [(hf k).2.2.1]
    exact h.gst k hk v
  · intro v x hx
    simp only [Pop.step, upd] at hx ⊢
    split at hx
    · rename_i e
      simp only [Option.some.injEq] at hx
      subst hx e
      exact ⟨(h.used v _ hs0).1, hr⟩
    · exact h.used v x hx

theorem remove_spec {n : Nat} {w : World S} {p : Pop S} (h : Rel ty n w p) {r u : Nat} (hv : p.Valid n (.remove r u)) :
    ∃ w', wstep ty n w (.remove r u) = some w' ∧ Rel ty n w' (p.step (.remove r u)) := by
  obtain ⟨s0, hs0⟩ := hv
  have hr : r < n := (h.used u _ hs0).2
  have hl := (h.loc r hr u s0).2 hs0
  obtain ⟨bt, hbt⟩ := Option.isSome_iff_exists.1 ((delType_isSome ty (h.views r hr) u).2 (mem_keys_of_get hl))
  have hnot : ∀ k < n, ∀ d, (u, d) ∉ (w k).removed := by
    intro k hk d hd
    have := (h.rem k hk u d hd).2.1
    rw [hs0] at this; cases this
  obtain ⟨c, hc, f1, f2, f3, f4, f5, f6, f7, f8⟩ : ∃ c, (w r).remove ty u = some c ∧ c.rank = (w r).rank ∧ c.locals = del (w r).locals u ∧ c.byType = bt ∧ c.ghosted = del (w r).ghosted u ∧ c.ghosts = (w r).ghosts ∧
      (∀ v d, (v, d) ∈ c.removed ↔ (v, d) ∈ (w r).removed ∨ (v = u ∧ get (w r).ghosted u = some d)) ∧ (c.removed.map (·.1)).Nodup ∧ c.projs = [] := by
    unfold Cx.remove
    rw [hbt]
    refine ⟨_, rfl, rfl, rfl, rfl, rfl, rfl, ?_, ?_, by simp [Cx.projsRemove, h.projs r hr]⟩
    · intro v d
      simp only [Cx.projsRemove]
      cases hg : get (w r).ghosted u with
      | none => simp
      | some d0 => simp [eq_comm]
    · simp only [Cx.projsRemove]
      cases hg : get (w r).ghosted u with
      | none => exact h.remOnce r hr
      | some d0 =>
        simp only [List.map_append, List.map_cons, List.map_nil]
        rw [List.nodup_append]
        refine ⟨h.remOnce r hr, by simp, ?_⟩
        intro a ha b hb
        simp only [List.mem_singleton] at hb
        subst hb
        rintro rfl
        obtain ⟨e, he, rfl⟩ := List.mem_map.1 ha
        exact hnot r hr e.2 he
  refine ⟨upd w r c, at_of (f := fun c => c.remove ty u) hr hc, ?_⟩
  have hcv : Views ty c := (h.views r hr).remove ty hc
  have htr : ∀ k v j, Tracks (upd w r c k) v j ↔ Tracks (w k) v j := by
    intro k v j
    unfold upd
    split
    · rename_i hk
      subst hk
      unfold Tracks
      simp only [f4, f6, get_del]
      by_cases hv : u = v
      · subst hv
        simp only [if_true]
        constructor
        · rintro (⟨d, hd, _⟩ | ⟨d, hd | ⟨_, hd⟩, hj⟩)
          · cases hd
          · exact .inr ⟨d, hd, hj⟩
          · exact .inl ⟨d, hd, hj⟩
        · rintro (⟨d, hd, hj⟩ | ⟨d, hd, hj⟩)
          · exact .inr ⟨d, .inr ⟨trivial, hd⟩, hj⟩
          · exact .inr ⟨d, .inl hd, hj⟩
      · simp [if_neg hv, Ne.symm hv]
    · exact Iff.rfl
  refine ⟨?_, ?_, ?_, ?_, ?_, ?_, ?_, ?_, ?_, ?_, ?_, ?_, ?_⟩
  · intro k hk; unfold upd; split
    · rename_i e; rw [f1, e, h.rank r hr]
    · exact h.rank k hk
  · intro k hk; unfold upd; split
    · exact f8
    · exact h.projs k hk
  · intro k hk; unfold upd; split
    · exact hcv
    · exact h.views k hk
  · intro k hk; unfold upd; split
    · rw [f4]; exact (h.okGhosted r hr).del u
    · exact h.okGhosted k hk
  · intro k hk; unfold upd; split
    · rw [f5]; exact h.okGhosts r hr
    · exact h.okGhosts k hk
  · intro k hk v t
    simp only [Pop.step, upd]
    by_cases hv : v = u
    · subst hv
      simp only [if_true]
      split
      · rw [f2]; simp
      · rename_i hkr
        rw [h.loc k hk, hs0]
        simp [Ne.symm hkr]
    · rw [if_neg hv]
      split
      · rename_i e; subst e; rw [f2, get_del, if_neg (Ne.symm hv)]; exact h.loc k hk v t
      · exact h.loc k hk v t
  · intro k hk v d
    simp only [upd]
    split
    · rename_i e
      subst e
      rw [f4, f2, get_del]
      split
      · intro hd; cases hd
      · rename_i hne
        intro hd
        obtain ⟨a, b, c, e⟩ := h.ghd k hk v d hd
        refine ⟨a, b, ?_, e⟩
        rw [← get_isSome, get_del, if_neg hne, get_isSome]; exact c
    · exact h.ghd k hk v d
  · intro k hk v d hd
    have : (v, d) ∈ (w k).removed ∨ (k = r ∧ v = u ∧ get (w r).ghosted u = some d) := by
      simp only [upd] at hd
      split at hd
      · rename_i e
        rcases (f6 v d).1 hd with hd | hd
        · left; rw [e]; exact hd
        · exact .inr ⟨e, hd⟩
      · exact .inl hd
    simp only [Pop.step, upd]
    rcases this with hd | ⟨rfl, rfl, hd⟩
    · obtain ⟨a, b, c, e⟩ := h.rem k hk v d hd
      refine ⟨a, ?_, c, e⟩
      split
      · rfl
      · exact b
    · obtain ⟨a, b, c, e⟩ := h.ghd k hk v d hd
      exact ⟨a, by simp, (h.used v _ hs0).1, fun j hj => (e j hj).1⟩
  · intro k hk
    simp only [upd]
    split
    · exact f7
    · exact h.remOnce k hk
  · intro k hk k' hk' v d d' h1 h2
    have aux : ∀ k d, (v, d) ∈ (upd w r c k).removed → (v, d) ∈ (w k).removed ∨ (k = r ∧ v = u) := by
      intro k d hd
      simp only [upd] at hd
      split at hd
      · rename_i e
        rcases (f6 v d).1 hd with hd | hd
        · left; rw [e]; exact hd
        · exact .inr ⟨e, hd.1⟩
      · exact .inl hd
    rcases aux k d h1 with g1 | ⟨a1, b1⟩
    · rcases aux k' d' h2 with g2 | ⟨a2, b2⟩
      · exact h.remRank k hk k' hk' v d d' g1 g2
      · rw [b2] at g1; exact absurd g1 (hnot k hk d)
    · rcases aux k' d' h2 with g2 | ⟨a2, _⟩
      · rw [b1] at g2; exact absurd g2 (hnot k' hk' d')
      · rw [a1, a2]
  · intro k hk v
    have : (upd w r c k).ghosts = (w k).ghosts := by
      simp only [upd]; split
      · rename_i e; rw [f5, e]
      · rfl
    rw [this, h.ghost k hk v]
    exact exists_congr fun r' => and_congr_right fun hr' => (htr r' v k).symm
  · intro k hk v
    have : (upd w r c k).ghosts = (w k).ghosts := by
      simp only [upd]; split
      · rename_i e; rw [f5, e]
      · rfl
    unfold Cx.ghostAgent
    rw [this]; exact h.gst k hk v
  · intro v x hx
    simp only [Pop.step, upd] at hx ⊢
    split at hx
    · cases hx
    · exact h.used v x hx

/-! ### `request_agents` -/

theorem request_spec {n : Nat} {w : World S} {p : Pop S} (h : Rel ty n w p) {rs : Nat → List (Nat × Nat)} (hv : p.Valid n (.request rs)) :
    ∃ w', wstep ty n w (.request rs) = some w' ∧ Rel ty n w' (p.step (.request rs)) := by
  have hq := fun k (hk : k < n) => sendRequests_spec (n := n) (rs k) (w k) [] (by
    intro q hq _
    obtain ⟨_, s, hs⟩ := hv k hk q hq
    exact (h.used _ _ hs).2)
  show ∃ w', requestAgents n rs w = some w' ∧ _
  unfold requestAgents
  simp only []
  obtain ⟨w1, hw1, hp1⟩ := each_ex (w := w) (f := fun r => ((w r).sendRequests n (rs r)).map (·.1)) (n := n)
    (R := fun k (c : Cx S) => c.rank = (w k).rank ∧ c.locals = (w k).locals ∧ c.byType = (w k).byType ∧ c.ghosted = (w k).ghosted ∧ c.ghosts = (w k).ghosts ∧
      c.removed = (w k).removed ∧ c.projs = []) (by
    intro k hk
    obtain ⟨c', h1, h2, h3, h4, h5, h6, h7, h8⟩ := hq k hk
    exact ⟨c', by unfold Cx.sendRequests; rw [h1]; rfl, h2, h3, h4, h5, h6, h7, h8 (h.projs k hk)⟩)
  rw [hw1]
  simp only [Option.bind_some]
  have hout : ∀ k < n, ∀ r u, (r, u) ∈ sent ((w k).sendRequests n (rs k)) ↔ (u, r) ∈ rs k ∧ u ∉ keys (w k).ghosts := by
    intro k hk r u
    obtain ⟨c', h1, _⟩ := hq k hk
    unfold Cx.sendRequests
    rw [h1]
    simp only [sent, List.nil_append, List.mem_map, List.mem_filter, Prod.mk.injEq, Option.isNone_iff_eq_none, get_eq_none]
    constructor
    · rintro ⟨q, ⟨hq, hn⟩, rfl, rfl⟩; exact ⟨hq, hn⟩
    · rintro ⟨hq, hn⟩; exact ⟨(u, r), ⟨hq, hn⟩, rfl, rfl⟩
  generalize hO : (fun r => sent ((w r).sendRequests n (rs r))) = O
  have hout : ∀ k < n, ∀ r u, (r, u) ∈ O k ↔ (u, r) ∈ rs k ∧ u ∉ keys (w k).ghosts := by
    intro k hk r u
    rw [← hO]; exact hout k hk r u
  have hrecv : ∀ r k u, (k, u) ∈ recv n O r ↔ k < n ∧ (u, r) ∈ rs k ∧ u ∉ keys (w k).ghosts := by
    intro r k u
    rw [mem_recv]
    exact and_congr_right fun hk => hout k hk r u
  have ha := fun r (hr : r < n) => answer_spec (recv n O r) (w1 r) [] (by
    rw [(hp1 r hr).2.2.2.1]
    intro u d hd
    obtain ⟨a, b, _⟩ := h.ghd r hr u d hd
    exact ⟨a, b⟩) (by
    rintro ⟨k, u⟩ hm
    obtain ⟨hk, hm, _⟩ := (hrecv r k u).1 hm
    obtain ⟨_, s, hs⟩ := hv k hk (u, r) hm
    rw [(hp1 r hr).2.1]
    exact (h.mem_loc hr u).2 ⟨s, hs⟩)
  obtain ⟨w2, hw2, hp2⟩ := each_ex (w := w1) (f := fun r => ((w1 r).answer (recv n O r)).map (·.1)) (n := n)
    (R := fun r (c : Cx S) => c.rank = (w r).rank ∧ c.locals = (w r).locals ∧ c.byType = (w r).byType ∧ c.ghosts = (w r).ghosts ∧
      c.removed = (w r).removed ∧ c.projs = [] ∧ Ok c.ghosted ∧ (∀ u d, get c.ghosted u = some d → Ok d ∧ d ≠ []) ∧
      (∀ u k, (∃ d, get c.ghosted u = some d ∧ k ∈ keys d) ↔ (∃ d, get (w r).ghosted u = some d ∧ k ∈ keys d) ∨ (k, u) ∈ recv n O r)) (by
    intro r hr
    obtain ⟨c', h1, h2, h3, h4, h5, h6, _, h7, h8, h9, h10⟩ := ha r hr
    obtain ⟨e1, e2, e3, e4, e5, e6, e7⟩ := hp1 r hr
    refine ⟨c', by unfold Cx.answer; rw [h1]; rfl, h2.trans e1, h3.trans e2, h4.trans e3, h5.trans e5, h6.trans e6, h7.trans e7, h8 (e4 ▸ h.okGhosted r hr), h9, ?_⟩
    rw [e4] at h10
    exact h10)
  rw [hw2]
  simp only [Option.bind_some]
  have hout2 : ∀ r < n, ∀ k u s, (k, u, s) ∈ sent ((w1 r).answer (recv n O r)) ↔ (k, u) ∈ recv n O r ∧ p.own u = some (r, s) := by
    intro r hr k u s
    obtain ⟨c', h1, _⟩ := ha r hr
    unfold Cx.answer
    rw [h1]
    simp only [sent, List.nil_append, List.mem_filterMap, Option.map_eq_some_iff, Prod.mk.injEq]
    rw [(hp1 r hr).2.1]
    constructor
    · rintro ⟨⟨k', u'⟩, hq, s', hs, rfl, rfl, rfl⟩; exact ⟨hq, (h.loc r hr _ _).1 hs⟩
    · rintro ⟨hq, hs⟩; exact ⟨(k, u), hq, s, (h.loc r hr _ _).2 hs, rfl, rfl, rfl⟩
  generalize hO2 : (fun r => sent ((w1 r).answer (recv n O r))) = O2
  have hmem : ∀ k < n, ∀ u s, (u, s) ∈ (recv n O2 k).map (·.2) ↔ ∃ r, (u, r) ∈ rs k ∧ u ∉ keys (w k).ghosts ∧ p.own u = some (r, s) := by
    intro k hk u s
    simp only [List.mem_map]
    constructor
    · rintro ⟨x, hx, e⟩
      obtain ⟨h1, h2⟩ := mem_recv.1 hx
      rw [← hO2] at h2
      rw [e] at h2
      obtain ⟨h3, h4⟩ := (hout2 x.1 h1 k u s).1 h2
      obtain ⟨_, h5, h6⟩ := (hrecv x.1 k u).1 h3
      exact ⟨x.1, h5, h6, h4⟩
    · rintro ⟨r, h5, h6, h4⟩
      have hr := (h.used _ _ h4).2
      refine ⟨(r, u, s), mem_recv.2 ⟨hr, ?_⟩, rfl⟩
      rw [← hO2]
      exact (hout2 r hr k u s).2 ⟨(hrecv r k u).2 ⟨hk, h5, h6⟩, h4⟩
  have hmem1 : ∀ k < n, ∀ u, u ∈ ((recv n O2 k).map (·.2)).map (·.1) ↔ u ∈ (rs k).map (·.1) ∧ u ∉ keys (w k).ghosts := by
    intro k hk u
    rw [List.mem_map, List.mem_map]
    constructor
    · rintro ⟨⟨u', s⟩, hm, rfl⟩
      obtain ⟨r, h1, h2, _⟩ := (hmem k hk u' s).1 hm
      exact ⟨⟨(u', r), h1, rfl⟩, h2⟩
    · rintro ⟨⟨q, hq, rfl⟩, hn⟩
      obtain ⟨_, s, hs⟩ := hv k hk q hq
      exact ⟨(q.1, s), (hmem k hk q.1 s).2 ⟨q.2, hq, hn, hs⟩, rfl⟩
  obtain ⟨w3, hw3, hp3⟩ := each_ex (w := w2) (f := fun r => some (((recv n O2 r).map (·.2)).foldl (fun (c : Cx S) m => (c.addGhostAll m.1 m.2).addReq m.1) (w2 r))) (n := n)
    (R := fun k (c : Cx S) => c.rank = (w2 k).rank ∧ c.locals = (w2 k).locals ∧ c.byType = (w2 k).byType ∧ c.ghosted = (w2 k).ghosted ∧ c.removed = (w2 k).removed ∧
      c.projs = [] ∧ Ok c.ghosts ∧ (∀ u, u ∈ keys c.ghosts ↔ u ∈ keys (w k).ghosts ∨ u ∈ (rs k).map (·.1)) ∧
      (∀ u, c.ghostAgent u = (p.gh k u).or (if u ∈ (rs k).map (·.1) then (p.own u).map (·.2) else none))) (by
    intro k hk
    obtain ⟨h1, h2, h3, h4, h5, h6, h7, h8, h9⟩ := addGhosts_spec ((recv n O2 k).map (·.2)) (w2 k) (by
      rintro ⟨u, s⟩ hm ⟨u', s'⟩ hm' e
      simp only at e
      subst e
      obtain ⟨_, _, _, ho⟩ := (hmem k hk u s).1 hm
      obtain ⟨_, _, _, ho'⟩ := (hmem k hk u s').1 hm'
      rw [ho] at ho'
      simp only [Option.some.injEq, Prod.mk.injEq] at ho'
      exact ho'.2)
    obtain ⟨e1, e2, e3, e4, e5, e6, e7, e8, e9⟩ := hp2 k hk
    have hga : ∀ u, Cx.ghostAgent (((recv n O2 k).map (·.2)).foldl (fun (c : Cx S) m => (c.addGhostAll m.1 m.2).addReq m.1) (w2 k)) u =
        (p.gh k u).or (if u ∈ (rs k).map (·.1) then (p.own u).map (·.2) else none) := by
      intro u
      by_cases hu : u ∈ ((recv n O2 k).map (·.2)).map (·.1)
      · obtain ⟨hur, hug⟩ := (hmem1 k hk u).1 hu
        obtain ⟨⟨u', s⟩, hm, rfl⟩ := List.mem_map.1 hu
        obtain ⟨r, _, _, ho⟩ := (hmem k hk u' s).1 hm
        have := h8 _ hm
        simp only at this hur hug ⊢
        rw [this, if_pos hur, ho, ← h.gst k hk]
        unfold Cx.ghostAgent
        rw [(get_eq_none _ _).2 hug]; rfl
      · unfold Cx.ghostAgent
        rw [h9 u hu, e4]
        have hgs := h.gst k hk u
        unfold Cx.ghostAgent at hgs
        rw [hgs]
        cases hg : p.gh k u with
        | some s => rfl
        | none =>
          have : u ∉ keys (w k).ghosts := by
            intro hin
            obtain ⟨g, hg'⟩ := (mem_keys _ _).1 hin
            rw [hg', hg] at hgs; simp at hgs
          rw [if_neg (fun hin => hu ((hmem1 k hk u).2 ⟨hin, this⟩))]; rfl
    refine ⟨_, rfl, h1, h2, h3, h4, h5, h6 e6, h7 (e4 ▸ h.okGhosts k hk), ?_, hga⟩
    intro u
    by_cases hu : u ∈ ((recv n O2 k).map (·.2)).map (·.1)
    · constructor
      · intro _; exact .inr ((hmem1 k hk u).1 hu).1
      · intro _
        obtain ⟨⟨u', s⟩, hm, rfl⟩ := List.mem_map.1 hu
        have := h8 _ hm
        rw [← get_isSome]
        unfold Cx.ghostAgent at this
        cases hc : get (((recv n O2 k).map (·.2)).foldl (fun (c : Cx S) m => (c.addGhostAll m.1 m.2).addReq m.1) (w2 k)).ghosts u' with
        | none => rw [hc] at this; simp at this
        | some g => simp [hc]
    · rw [← get_isSome, h9 u hu, e4, get_isSome]
      constructor
      · exact .inl
      · rintro (hin | hin)
        · exact hin
        · by_cases hg : u ∈ keys (w k).ghosts
          · exact hg
          · exact absurd ((hmem1 k hk u).2 ⟨hin, hg⟩) hu)
  refine ⟨w3, hw3, ?_⟩
  refine ⟨fun r hr => (hp3 r hr).1.trans ((hp2 r hr).1.trans (h.rank r hr)), fun r hr => (hp3 r hr).2.2.2.2.2.1, ?_, ?_, fun r hr => (hp3 r hr).2.2.2.2.2.2.1, ?_, ?_, ?_, ?_, ?_, ?_, ?_, h.used⟩
  · intro r hr
    exact (h.views r hr).congr ty ((hp3 r hr).2.1.trans (hp2 r hr).2.1) ((hp3 r hr).2.2.1.trans (hp2 r hr).2.2.1)
  · intro r hr
    rw [(hp3 r hr).2.2.2.1]; exact (hp2 r hr).2.2.2.2.2.2.1
  · intro r hr u s
    rw [(hp3 r hr).2.1, (hp2 r hr).2.1]; exact h.loc r hr u s
  · intro r hr u d hd
    rw [(hp3 r hr).2.2.2.1] at hd
    obtain ⟨a, b⟩ := (hp2 r hr).2.2.2.2.2.2.2.1 u d hd
    have hall : ∀ k ∈ keys d, (∃ d, get (w r).ghosted u = some d ∧ k ∈ keys d) ∨ (k, u) ∈ recv n O r := fun k hk =>
      ((hp2 r hr).2.2.2.2.2.2.2.2 u k).1 ⟨d, hd, hk⟩
    refine ⟨a, b, ?_, ?_⟩
    · rw [(hp3 r hr).2.1, (hp2 r hr).2.1]
      obtain ⟨e, t, rfl⟩ := List.exists_cons_of_ne_nil b
      rcases hall e.1 (by simp [keys]) with ⟨d0, hd0, _⟩ | hm
      · exact (h.ghd r hr u d0 hd0).2.2.1
      · obtain ⟨hk, hm, _⟩ := (hrecv r _ u).1 hm
        obtain ⟨_, s, hs⟩ := hv _ hk _ hm
        exact (h.mem_loc hr u).2 ⟨s, hs⟩
    · intro k hk
      rcases hall k hk with ⟨d0, hd0, hk0⟩ | hm
      · exact (h.ghd r hr u d0 hd0).2.2.2 k hk0
      · obtain ⟨hk, hm, _⟩ := (hrecv r _ u).1 hm
        exact ⟨hk, fun e => (hv _ hk _ hm).1 e.symm⟩
  · intro r hr u d hd
    rw [(hp3 r hr).2.2.2.2.1, (hp2 r hr).2.2.2.2.1] at hd
    exact h.rem r hr u d hd
  · intro r hr
    rw [(hp3 r hr).2.2.2.2.1, (hp2 r hr).2.2.2.2.1]
    exact h.remOnce r hr
  · intro r hr r' hr' u d d' h1 h2
    rw [(hp3 r hr).2.2.2.2.1, (hp2 r hr).2.2.2.2.1] at h1
    rw [(hp3 r' hr').2.2.2.2.1, (hp2 r' hr').2.2.2.2.1] at h2
    exact h.remRank r hr r' hr' u d d' h1 h2
  · intro k hk u
    rw [(hp3 k hk).2.2.2.2.2.2.2.1, h.ghost k hk u]
    have htr : ∀ r < n, (Tracks (w3 r) u k ↔ Tracks (w r) u k ∨ (k, u) ∈ recv n O r) := by
      intro r hr
      unfold Tracks
      rw [(hp3 r hr).2.2.2.2.1, (hp2 r hr).2.2.2.2.1, (hp3 r hr).2.2.2.1, (hp2 r hr).2.2.2.2.2.2.2.2 u k]
      constructor
      · rintro ((h | h) | h)
        · exact .inl (.inl h)
        · exact .inr h
        · exact .inl (.inr h)
      · rintro ((h | h) | h)
        · exact .inl (.inl h)
        · exact .inr h
        · exact .inl (.inr h)
    constructor
    · rintro (⟨r, hr, ht⟩ | hin)
      · exact ⟨r, hr, (htr r hr).2 (.inl ht)⟩
      · by_cases hg : u ∈ keys (w k).ghosts
        · obtain ⟨r, hr, ht⟩ := (h.ghost k hk u).1 hg
          exact ⟨r, hr, (htr r hr).2 (.inl ht)⟩
        · obtain ⟨q, hq, rfl⟩ := List.mem_map.1 hin
          obtain ⟨_, s, hs⟩ := hv k hk q hq
          have hr := (h.used _ _ hs).2
          exact ⟨q.2, hr, (htr q.2 hr).2 (.inr ((hrecv _ _ _).2 ⟨hk, hq, hg⟩))⟩
    · rintro ⟨r, hr, ht⟩
      rcases (htr r hr).1 ht with ht | ht
      · exact .inl ⟨r, hr, ht⟩
      · right
        obtain ⟨_, hm, _⟩ := (hrecv _ _ _).1 ht
        exact List.mem_map.2 ⟨_, hm, rfl⟩
  · intro k hk u
    rw [(hp3 k hk).2.2.2.2.2.2.2.2]; rfl

/-! ### `move_agents` -/

theorem moved_spec {n : Nat} {w : World S} {p : Pop S} (h : Rel ty n w p) {ms : Nat → List (Nat × Nat)} (hv : p.Valid n (.move ms)) :
    ∃ w1 w2, each n (fun r => ((w r).sendAway ty n (ms r)).map (·.1)) w = some w1 ∧
      each n (fun r => (w1 r).arriveAll ty ((recv n (fun r => sent ((w r).sendAway ty n (ms r))) r).map (·.2))) w1 = some w2 ∧
      Rel ty n w2 (p.moved ms) := by
  have hs := fun r (hr : r < n) => sendAway_spec ty (n := n) (ms r) (w r) [] (h.views r hr) (hv r hr).1 (by
    intro m hm
    obtain ⟨h1, h2⟩ := (hv r hr).2 m hm
    exact ⟨(h.mem_loc hr m.1).2 h2, h1⟩)
  have hsv : ∀ r < n, ∃ c', (w r).sendAway ty n (ms r) = some (c', awayMsgs (w r) (ms r)) ∧ Left (w r) c' ((ms r).map (·.1)) ∧ Views ty c' := by
    intro r hr
    obtain ⟨c', h1, h2⟩ := hs r hr
    rw [List.nil_append] at h1
    refine ⟨c', h1, h2, ?_⟩
    have := foldlM_inv (P := fun x : Cx S × List (Nat × Nat × S × Option (Dict Int)) => Views ty x.1) (by
      intro b a b' hb hf
      split at hf
      · obtain ⟨x, hx, rfl⟩ := Option.map_eq_some_iff.1 hf
        exact (hb.take ty hx).same_ ty (projsRemove_same _ _)
      · cases hf) _ _ _ (show Views ty ((w r, []) : Cx S × List (Nat × Nat × S × Option (Dict Int))).1 from h.views r hr) h1
    exact this
  obtain ⟨w1, hw1, hp1⟩ := each_ex (w := w) (f := fun r => ((w r).sendAway ty n (ms r)).map (·.1)) (n := n)
    (R := fun r (c : Cx S) => Left (w r) c ((ms r).map (·.1)) ∧ Views ty c) (by
    intro r hr
    obtain ⟨c', h1, h2⟩ := hsv r hr
    exact ⟨c', by rw [h1]; rfl, h2⟩)
  refine ⟨w1, ?_⟩
  have hO : ∀ r < n, sent ((w r).sendAway ty n (ms r)) = awayMsgs (w r) (ms r) := by
    intro r hr
    obtain ⟨c', h1, _⟩ := hsv r hr
    rw [h1]; rfl
  generalize hOdef : (fun r => sent ((w r).sendAway ty n (ms r))) = O
  have hO : ∀ r < n, O r = awayMsgs (w r) (ms r) := by intro r hr; rw [← hOdef]; exact hO r hr
  -- the messages
  have hmem : ∀ k u s gh, (u, s, gh) ∈ (recv n O k).map (·.2) ↔ ∃ r < n, (u, k) ∈ ms r ∧ p.own u = some (r, s) ∧ gh = get (w r).ghosted u := by
    intro k u s gh
    simp only [List.mem_map]
    constructor
    · rintro ⟨x, hx, e⟩
      obtain ⟨h1, h2⟩ := mem_recv.1 hx
      rw [hO _ h1, e] at h2
      obtain ⟨h3, h4, h5⟩ := mem_awayMsgs.1 h2
      exact ⟨x.1, h1, h3, (h.loc _ h1 _ _).1 h4, h5⟩
    · rintro ⟨r, hr, h3, h4, h5⟩
      refine ⟨(r, u, s, gh), mem_recv.2 ⟨hr, ?_⟩, rfl⟩
      rw [hO r hr]
      exact mem_awayMsgs.2 ⟨h3, (h.loc _ hr _ _).2 h4, h5⟩
  have hmem1 : ∀ k u, u ∈ ((recv n O k).map (·.2)).map (·.1) ↔ ∃ r < n, (u, k) ∈ ms r := by
    intro k u
    rw [List.mem_map]
    constructor
    · rintro ⟨⟨u', s, gh⟩, hm, rfl⟩
      obtain ⟨r, hr, h1, _⟩ := (hmem k u' s gh).1 hm
      exact ⟨r, hr, h1⟩
    · rintro ⟨r, hr, hm⟩
      obtain ⟨_, s, hs⟩ := (hv r hr).2 _ hm
      exact ⟨(u, s, get (w r).ghosted u), (hmem _ _ _ _).2 ⟨r, hr, hm, hs, rfl⟩, rfl⟩
  have hnd : ∀ k < n, (((recv n O k).map (·.2)).map (·.1)).Nodup := by
    intro k hk
    refine recv_nodup (n := n) (send := O) (k := k) (fun m => m.1) ?_ ?_
    · intro r hr
      rw [hO r hr]
      have : ((awayMsgs (w r) (ms r)).map fun m => m.2.1).Nodup := by
        have hsub : ((awayMsgs (w r) (ms r)).map fun m => m.2.1).Sublist ((ms r).map (·.1)) := by
          unfold awayMsgs
          generalize ms r = l
          induction l with
          | nil => simp
          | cons a l ih =>
            rw [List.filterMap_cons]
            cases hg : get (w r).locals a.1 with
            | none => simp only [Option.map_none]; exact ih.trans (List.sublist_cons_self _ _)
            | some s => simp only [Option.map_some, List.map_cons]; exact ih.cons_cons _
        exact List.Nodup.sublist hsub (hv r hr).1
      exact List.Nodup.sublist (List.Sublist.map _ List.filter_sublist) this
    · rintro r hr r' hr' ⟨u, s, gh⟩ ⟨u', s', gh'⟩ h1 h2 e
      simp only at e
      subst e
      rw [hO _ hr] at h1
      rw [hO _ hr'] at h2
      have a1 := (h.loc _ hr _ _).1 (mem_awayMsgs.1 h1).2.1
      have a2 := (h.loc _ hr' _ _).1 (mem_awayMsgs.1 h2).2.1
      rw [a1] at a2
      simp only [Option.some.injEq, Prod.mk.injEq] at a2
      exact a2.1
  obtain ⟨w2, hw2, hp2⟩ := each_ex (w := w1) (f := fun r => (w1 r).arriveAll ty ((recv n O r).map (·.2))) (n := n)
    (R := fun k (c : Cx S) => Got (w1 k) c ((recv n O k).map (·.2)) ∧ (∀ u, get c.ghosts u = if u ∈ ((recv n O k).map (·.2)).map (·.1) then none else get (w k).ghosts u) ∧ Ok c.ghosts ∧ Views ty c) (by
    intro k hk
    obtain ⟨c', h1, h2, h3, h4⟩ := arriveAll_spec ty ((recv n O k).map (·.2)) (w1 k) (hnd k hk)
    refine ⟨c', h1, h2, ?_, h4 ((hp1 k hk).1.ghosts ▸ h.okGhosts k hk), ?_⟩
    · rw [(hp1 k hk).1.ghosts] at h3; exact h3
    · unfold Cx.arriveAll at h1
      obtain ⟨y, hy, e2⟩ := Option.bind_eq_some_iff.1 h1
      have := foldlM_inv (P := fun x : Cx S × List Nat => Views ty x.1) (by
        intro b a b' hb hf
        obtain ⟨x, hx, rfl⟩ := Option.map_eq_some_iff.1 hf
        exact hb.arrive ty hx) _ _ _ (show Views ty ((w1 k, []) : Cx S × List Nat).1 from (hp1 k hk).2) hy
      exact this.same_ ty (deleteGhosts_same e2))
  refine ⟨w2, hw1, hw2, ?_⟩
  -- what the ranks have after the moves
  have hget : ∀ r < n, ∀ u k, (u, k) ∈ ms r ↔ get (ms r) u = some k := by
    intro r hr u k
    exact ⟨fun hm => get_of_mem (hv r hr).1 hm, fun hg => mem_of_get hg⟩
  have hnone : ∀ r < n, ∀ u, u ∉ (ms r).map (·.1) ↔ get (ms r) u = none := fun r hr u => (get_eq_none _ _).symm
  have hin : ∀ k < n, ∀ r < n, ∀ u s, p.own u = some (r, s) → k ≠ r → u ∉ (ms k).map (·.1) := by
    intro k hk r hr u s ho hne hm
    obtain ⟨m, hm', rfl⟩ := List.mem_map.1 hm
    obtain ⟨_, s', hs'⟩ := (hv k hk).2 m hm'
    rw [ho] at hs'
    simp only [Option.some.injEq, Prod.mk.injEq] at hs'
    exact hne hs'.1.symm
  have hin0 : ∀ k < n, ∀ u, p.own u = none → u ∉ (ms k).map (·.1) := by
    intro k hk u ho hm
    obtain ⟨m, hm', rfl⟩ := List.mem_map.1 hm
    obtain ⟨_, s', hs'⟩ := (hv k hk).2 m hm'
    rw [ho] at hs'; cases hs'
  have hgl : ∀ k < n, ∀ u, get (w k).locals u = none → get (w k).ghosted u = none := by
    intro k hk u hl
    cases hg : get (w k).ghosted u with
    | none => rfl
    | some d => exact absurd (h.ghd k hk u d hg).2.2.1 ((get_eq_none _ _).1 hl)
  have hdat0 : ∀ k < n, ∀ u, p.own u = none → get (w2 k).locals u = none ∧ get (w2 k).ghosted u = none := by
    intro k hk u ho
    have hl : get (w k).locals u = none := by
      cases hl : get (w k).locals u with
      | none => rfl
      | some s => rw [h.loc k hk, ho] at hl; cases hl
    have h1 : u ∉ ((recv n O k).map (·.2)).map (·.1) := by
      intro hm
      obtain ⟨r, hr, hm⟩ := (hmem1 k u).1 hm
      exact hin0 r hr u ho (List.mem_map.2 ⟨_, hm, rfl⟩)
    obtain ⟨a, b⟩ := (hp2 k hk).1.other u h1
    rw [a, b, (hp1 k hk).1.locals, (hp1 k hk).1.ghosted, if_neg (hin0 k hk u ho), if_neg (hin0 k hk u ho)]
    exact ⟨hl, hgl k hk u hl⟩
  have hstay : ∀ k < n, ∀ u r s, p.own u = some (r, s) → get (ms r) u = none → get (w2 k).locals u = get (w k).locals u ∧ get (w2 k).ghosted u = get (w k).ghosted u ∧
      u ∉ ((recv n O k).map (·.2)).map (·.1) := by
    intro k hk u r s ho hd
    have hr := (h.used _ _ ho).2
    have hni : ∀ k < n, u ∉ (ms k).map (·.1) := by
      intro k hk
      by_cases hkr : k = r
      · subst hkr; exact (hnone k hk u).2 hd
      · exact hin k hk r hr u s ho hkr
    have h1 : u ∉ ((recv n O k).map (·.2)).map (·.1) := by
      intro hm
      obtain ⟨r', hr', hm⟩ := (hmem1 k u).1 hm
      exact hni r' hr' (List.mem_map.2 ⟨_, hm, rfl⟩)
    obtain ⟨a, b⟩ := (hp2 k hk).1.other u h1
    rw [a, b, (hp1 k hk).1.locals, (hp1 k hk).1.ghosted, if_neg (hni k hk), if_neg (hni k hk)]
    exact ⟨rfl, rfl, h1⟩
  have hgo : ∀ u r s j, p.own u = some (r, s) → get (ms r) u = some j → j < n ∧ get (w2 j).locals u = some s ∧ get (w2 j).ghosted u = arrivedGhosted none j (get (w r).ghosted u) ∧
      u ∈ ((recv n O j).map (·.2)).map (·.1) ∧ ∀ k < n, k ≠ j → get (w2 k).locals u = none ∧ get (w2 k).ghosted u = none ∧ u ∉ ((recv n O k).map (·.2)).map (·.1) := by
    intro u r s j ho hd
    have hr := (h.used _ _ ho).2
    have hm : (u, j) ∈ ms r := (hget r hr u j).2 hd
    have hj : j < n := ((hv r hr).2 _ hm).1
    have hmsg := (hmem j u s (get (w r).ghosted u)).2 ⟨r, hr, hm, ho, rfl⟩
    have hleft : ∀ k < n, get (w1 k).locals u = none ∧ get (w1 k).ghosted u = none := by
      intro k hk
      rw [(hp1 k hk).1.locals, (hp1 k hk).1.ghosted]
      by_cases hkr : k = r
      · subst hkr
        rw [if_pos (List.mem_map.2 ⟨_, hm, rfl⟩), if_pos (List.mem_map.2 ⟨_, hm, rfl⟩)]
        exact ⟨rfl, rfl⟩
      · rw [if_neg (hin k hk r hr u s ho hkr), if_neg (hin k hk r hr u s ho hkr)]
        have hl : get (w k).locals u = none := by
          cases hl : get (w k).locals u with
          | none => rfl
          | some s' =>
            rw [h.loc k hk, ho] at hl
            simp only [Option.some.injEq, Prod.mk.injEq] at hl
            exact absurd hl.1.symm hkr
        exact ⟨hl, hgl k hk u hl⟩
    refine ⟨hj, ?_, ?_, (hmem1 j u).2 ⟨r, hr, hm⟩, ?_⟩
    · exact ((hp2 j hj).1.mem _ hmsg).1
    · have := ((hp2 j hj).1.mem _ hmsg).2
      simp only at this
      rw [this, (hleft j hj).2, (hp1 j hj).1.rank, h.rank j hj]
    · intro k hk hne
      have h1 : u ∉ ((recv n O k).map (·.2)).map (·.1) := by
        intro hm'
        obtain ⟨r', hr', hm'⟩ := (hmem1 k u).1 hm'
        by_cases hrr : r' = r
        · subst hrr
          rw [hget r' hr' u k, hd] at hm'
          exact hne (Option.some.inj hm').symm
        · exact hin r' hr' r hr u s ho hrr (List.mem_map.2 ⟨_, hm', rfl⟩)
      obtain ⟨a, b⟩ := (hp2 k hk).1.other u h1
      rw [a, b]
      exact ⟨(hleft k hk).1, (hleft k hk).2, h1⟩
  -- no rank that keeps `u` in `removed` is affected
  have hrem : ∀ r < n, (w2 r).removed = (w r).removed := fun r hr => (hp2 r hr).1.removed.trans (hp1 r hr).1.removed
  have hdel : ∀ (d : Dict Int) j k, k ∈ keys (del d j) ↔ k ∈ keys d ∧ k ≠ j := by
    intro d j k
    rw [keys_del]; simp
  have harr : ∀ (d d' : Dict Int) j, arrivedGhosted none j (some d) = some d' ↔ d' = del d j ∧ d' ≠ [] := by
    intro d d' j
    simp only [arrivedGhosted]
    split
    · rename_i he
      rw [List.isEmpty_iff] at he
      simp only [reduceCtorEq, ne_eq, false_iff, not_and, Classical.not_not]
      rintro rfl; exact he
    · rename_i he
      rw [List.isEmpty_iff] at he
      simp only [Option.some.injEq]
      constructor
      · rintro rfl; exact ⟨rfl, he⟩
      · rintro ⟨rfl, _⟩; rfl
  refine ⟨fun r hr => (hp2 r hr).1.rank.trans ((hp1 r hr).1.rank.trans (h.rank r hr)), fun r hr => (hp2 r hr).1.projs ((hp1 r hr).1.projs (h.projs r hr)),
    fun r hr => (hp2 r hr).2.2.2, fun r hr => (hp2 r hr).1.okGhosted ((hp1 r hr).1.okGhosted (h.okGhosted r hr)), fun r hr => (hp2 r hr).2.2.1, ?_, ?_, ?_, ?_, ?_, ?_, ?_, ?_⟩
  · intro k hk u s
    simp only [Pop.moved]
    cases ho : p.own u with
    | none => rw [(hdat0 k hk u ho).1]; simp
    | some x =>
      obtain ⟨r, t⟩ := x
      simp only [Option.map_some, Option.some.injEq, Prod.mk.injEq, dest]
      cases hd : get (ms r) u with
      | none =>
        rw [(hstay k hk u r t ho hd).1, h.loc k hk, ho]
        simp
      | some j =>
        obtain ⟨hj, h1, _, _, h2⟩ := hgo u r t j ho hd
        simp only [Option.getD_some]
        by_cases hkj : k = j
        · subst hkj; rw [h1]; simp
        · rw [(h2 k hk hkj).1]; simp [Ne.symm hkj]
  · intro k hk u d hd
    cases ho : p.own u with
    | none => rw [(hdat0 k hk u ho).2] at hd; cases hd
    | some x =>
      obtain ⟨r, t⟩ := x
      cases hdst : get (ms r) u with
      | none =>
        obtain ⟨h1, h2, _⟩ := hstay k hk u r t ho hdst
        rw [h2] at hd
        obtain ⟨a, b, c, e⟩ := h.ghd k hk u d hd
        refine ⟨a, b, ?_, e⟩
        rw [← get_isSome, h1, get_isSome]; exact c
      | some j =>
        obtain ⟨hj, h1, h2, _, h3⟩ := hgo u r t j ho hdst
        by_cases hkj : k = j
        · subst hkj
          rw [h2] at hd
          cases hg : get (w r).ghosted u with
          | none => rw [hg] at hd; cases hd
          | some d0 =>
            rw [hg, harr] at hd
            obtain ⟨a, b, c, e⟩ := h.ghd r (h.used _ _ ho).2 u d0 hg
            refine ⟨hd.1 ▸ a.del k, hd.2, mem_keys_of_get h1, ?_⟩
            intro j hj
            rw [hd.1, hdel] at hj
            exact ⟨(e j hj.1).1, hj.2⟩
        · rw [(h3 k hk hkj).2.1] at hd; cases hd
  · intro r hr u d hd
    rw [hrem r hr] at hd
    obtain ⟨a, b, c, e⟩ := h.rem r hr u d hd
    refine ⟨a, ?_, c, e⟩
    simp [Pop.moved, b]
  · intro r hr; rw [hrem r hr]; exact h.remOnce r hr
  · intro r hr r' hr' u d d' h1 h2
    rw [hrem r hr] at h1
    rw [hrem r' hr'] at h2
    exact h.remRank r hr r' hr' u d d' h1 h2
  · intro k hk u
    rw [← get_isSome, (hp2 k hk).2.1]
    cases ho : p.own u with
    | none =>
      have h1 : u ∉ ((recv n O k).map (·.2)).map (·.1) := by
        intro hm
        obtain ⟨r, hr, hm⟩ := (hmem1 k u).1 hm
        exact hin0 r hr u ho (List.mem_map.2 ⟨_, hm, rfl⟩)
      rw [if_neg h1, get_isSome, h.ghost k hk u]
      refine exists_congr fun r => and_congr_right fun hr => ?_
      unfold Tracks
      have : get (w r).ghosted u = none := by
        refine hgl r hr u ?_
        cases hl : get (w r).locals u with
        | none => rfl
        | some s => rw [h.loc r hr, ho] at hl; cases hl
      rw [hrem r hr, (hdat0 r hr u ho).2, this]
    | some x =>
      obtain ⟨r, t⟩ := x
      have hr := (h.used _ _ ho).2
      cases hdst : get (ms r) u with
      | none =>
        obtain ⟨_, _, h1⟩ := hstay k hk u r t ho hdst
        rw [if_neg h1, get_isSome, h.ghost k hk u]
        refine exists_congr fun r' => and_congr_right fun hr' => ?_
        unfold Tracks
        rw [hrem r' hr', (hstay r' hr' u r t ho hdst).2.1]
      | some j =>
        obtain ⟨hj, g1, g2, g3, g4⟩ := hgo u r t j ho hdst
        have hnr : ∀ r' < n, ∀ d, (u, d) ∉ (w r').removed := by
          intro r' hr' d hd
          have := (h.rem r' hr' u d hd).2.1
          rw [ho] at this; cases this
        have htr : ∀ r' < n, (Tracks (w r') u k ↔ r' = r ∧ ∃ d, get (w r).ghosted u = some d ∧ k ∈ keys d) := by
          intro r' hr'
          unfold Tracks
          constructor
          · rintro (⟨d, hd, hkd⟩ | ⟨d, hd, _⟩)
            · obtain ⟨s', hs'⟩ := (h.mem_loc hr' u).1 (h.ghd r' hr' u d hd).2.2.1
              rw [ho] at hs'
              simp only [Option.some.injEq, Prod.mk.injEq] at hs'
              obtain ⟨rfl, _⟩ := hs'
              exact ⟨rfl, d, hd, hkd⟩
            · exact absurd hd (hnr r' hr' d)
          · rintro ⟨rfl, d, hd, hkd⟩
            exact .inl ⟨d, hd, hkd⟩
        have htr2 : ∀ r' < n, (Tracks (w2 r') u k ↔ r' = j ∧ k ≠ j ∧ ∃ d, get (w r).ghosted u = some d ∧ k ∈ keys d) := by
          intro r' hr'
          unfold Tracks
          constructor
          · rintro (⟨d, hd, hkd⟩ | ⟨d, hd, _⟩)
            · by_cases hrj : r' = j
              · subst hrj
                rw [g2] at hd
                cases hg : get (w r).ghosted u with
                | none => rw [hg] at hd; cases hd
                | some d0 =>
                  rw [hg, harr] at hd
                  rw [hd.1, hdel] at hkd
                  exact ⟨rfl, hkd.2, d0, rfl, hkd.1⟩
              · rw [(g4 r' hr' hrj).2.1] at hd; cases hd
            · rw [hrem r' hr'] at hd
              exact absurd hd (hnr r' hr' d)
          · rintro ⟨rfl, hne, d, hd, hkd⟩
            refine .inl ⟨del d r', ?_, (hdel _ _ _).2 ⟨hkd, hne⟩⟩
            rw [g2, hd, harr]
            refine ⟨rfl, ?_⟩
            intro e
            have := (hdel d r' k).2 ⟨hkd, hne⟩
            rw [e] at this
            simp [keys] at this
        by_cases hkj : k = j
        · subst hkj
          rw [if_pos g3]
          constructor
          · intro hx; cases hx
          · rintro ⟨r', hr', ht⟩
            exact absurd rfl ((htr2 r' hr').1 ht).2.1
        · rw [if_neg (g4 k hk hkj).2.2, get_isSome, h.ghost k hk u]
          constructor
          · rintro ⟨r', hr', ht⟩
            exact ⟨j, hj, (htr2 j hj).2 ⟨rfl, hkj, ((htr r' hr').1 ht).2⟩⟩
          · rintro ⟨r', hr', ht⟩
            exact ⟨r, hr, (htr r hr).2 ⟨rfl, ((htr2 r' hr').1 ht).2.2⟩⟩
  · intro k hk u
    simp only [Pop.moved]
    unfold Cx.ghostAgent
    rw [(hp2 k hk).2.1]
    have hgs := h.gst k hk u
    unfold Cx.ghostAgent at hgs
    cases ho : p.own u with
    | none =>
      have h1 : u ∉ ((recv n O k).map (·.2)).map (·.1) := by
        intro hm
        obtain ⟨r, hr, hm⟩ := (hmem1 k u).1 hm
        exact hin0 r hr u ho (List.mem_map.2 ⟨_, hm, rfl⟩)
      rw [if_neg h1]; exact hgs
    | some x =>
      obtain ⟨r, t⟩ := x
      rcases Option.eq_none_or_eq_some (get (ms r) u) with hdst | ⟨j, hdst⟩
      · simp only [dest, hdst]
        rw [if_neg (hstay k hk u r t ho hdst).2.2, hgs]
        simp only [Option.getD_none]
        split
        · rename_i e
          -- an agent is not a ghost where it is local
          subst e
          cases hgh : p.gh r u with
          | none => rfl
          | some s' =>
            rw [hgh] at hgs
            have : u ∈ keys (w r).ghosts := by
              rw [mem_keys]
              cases hg : get (w r).ghosts u with
              | none => rw [hg] at hgs; cases hgs
              | some g => exact ⟨g, rfl⟩
            obtain ⟨r', hr', ht⟩ := (h.ghost r hk u).1 this
            rcases ht with ⟨d, hd, hkd⟩ | ⟨d, hd, _⟩
            · obtain ⟨_, _, c, e⟩ := h.ghd r' hr' u d hd
              obtain ⟨s2, hs2⟩ := (h.mem_loc hr' u).1 c
              rw [ho] at hs2
              simp only [Option.some.injEq, Prod.mk.injEq] at hs2
              exact absurd hs2.1 (e r hkd).2
            · have := (h.rem r' hr' u d hd).2.1
              rw [ho] at this; cases this
        · rfl
      · simp only [dest, hdst]
        obtain ⟨hj, g1, g2, g3, g4⟩ := hgo u r t j ho hdst
        simp only [Option.getD_some]
        by_cases hkj : j = k
        · subst hkj; rw [if_pos g3, if_pos rfl]; rfl
        · rw [if_neg (g4 k hk (Ne.symm hkj)).2.2, if_neg hkj]; exact hgs
  · intro u x hx
    simp only [Pop.moved] at hx
    obtain ⟨⟨r, t⟩, ho, rfl⟩ := Option.map_eq_some_iff.1 hx
    refine ⟨(h.used _ _ ho).1, ?_⟩
    simp only [dest]
    cases hdst : get (ms r) u with
    | none => exact (h.used _ _ ho).2
    | some j => exact (hgo u r t j ho hdst).1

theorem move_spec {n : Nat} (hn : 0 < n) {w : World S} {p : Pop S} (h : Rel ty n w p) {ms : Nat → List (Nat × Nat)} (hv : p.Valid n (.move ms)) :
    ∃ w', wstep ty n w (.move ms) = some w' ∧ Rel ty n w' (p.step (.move ms)) := by
  obtain ⟨w1, w2, h1, h2, h3⟩ := moved_spec h hv
  obtain ⟨w3, h4, h5⟩ := preSynchAll_none h3
  obtain ⟨w4, h6, h7⟩ := moveOob_none (b := false) h5
  obtain ⟨w5, h8, h9⟩ := synchGhosts_none hn h7
  refine ⟨w5, ?_, h9⟩
  show moveAgents ty n ms w = some w5
  unfold moveAgents
  simp only []
  rw [h1]
  simp only [Option.bind_some]
  rw [h2]
  simp only [Option.bind_some]
  rw [h4]
  simp only [Option.bind_some]
  rw [h6]
  exact h8

/-! ### Histories -/

theorem rel_step {n : Nat} (hn : 0 < n) {w : World S} {p : Pop S} (h : Rel ty n w p) {o : WOp S} (hv : p.Valid n o) :
    ∃ w', wstep ty n w o = some w' ∧ Rel ty n w' (p.step o) := by
  cases o with
  | add r u s => exact add_spec h hv
  | remove r u => exact remove_spec h hv
  | setState r u s => exact setState_spec h hv
  | gmove r pid u pt => exact hv.elim
  | request rs => exact request_spec h hv
  | move ms => exact move_spec hn h hv
  | synch b =>
    obtain ⟨w', h1, h2⟩ := synchronize_none hn (b := b) h
    refine ⟨w', h1, ?_⟩
    cases b <;> exact h2
  | addProj g => exact hv.elim

theorem rel_init (n : Nat) : Rel ty n (World.init (S := S) []) Pop.empty := by
  refine ⟨fun r _ => rfl, fun r _ => rfl, fun r _ => Views.init ty r [], fun r _ => Ok.nil, fun r _ => Ok.nil, ?_, ?_, ?_, ?_, ?_, ?_, ?_, ?_⟩
  · intro r _ u s; simp [World.start, Cx.start, Pop.empty]
  · intro r _ u d hd; simp [World.start, Cx.start] at hd
  · intro r _ u d hd; simp [World.start, Cx.start] at hd
  · intro r _; simp [World.start, Cx.start]
  · intro r _ r' _ u d d' hd; simp [World.start, Cx.start] at hd
  · intro k _ u; simp [World.start, Cx.start, keys, Tracks]
  · intro k _ u; simp [World.start, Cx.start, Cx.ghostAgent, Pop.empty]
  · intro u x hx; simp [Pop.empty] at hx

theorem rel_run {n : Nat} (hn : 0 < n) {ops : List (WOp S)} : ∀ {w : World S} {p : Pop S}, Rel ty n w p → p.ValidRun n ops →
    ∃ w', wrun ty n w ops = some w' ∧ Rel ty n w' (p.run ops) := by
  induction ops with
  | nil => intro w p h _; exact ⟨w, rfl, h⟩
  | cons o ops ih =>
    intro w p h hv
    obtain ⟨w1, h1, h2⟩ := rel_step hn h hv.1
    obtain ⟨w2, h3, h4⟩ := ih h2 hv.2
    refine ⟨w2, ?_, h4⟩
    unfold wrun
    rw [List.foldlM_cons, h1]
    exact h3

/-! ### The theorems -/

variable (ty)

/-- C24 (requests and moves): in every history of a model without projections nothing is raised, and after it an agent is local on exactly the rank
where the moves have put it, with its state, and nowhere else. -/
theorem C24_no_projections_partial {n : Nat} (hn : 0 < n) (ops : List (WOp S)) (hv : Pop.empty.ValidRun n ops) :
    ∃ w, wrun ty n (World.init []) ops = some w ∧ ∀ r < n, ∀ u s, (w r).agent u = some s ↔ (Pop.empty.run ops).own u = some (r, s) := by
  obtain ⟨w, h1, h2⟩ := rel_run hn (rel_init n) hv
  exact ⟨w, h1, h2.loc⟩

/-- C24: one `move_agents` after any history, without reference to the specification: every agent is afterwards exactly where it is sent, or where it
was if it is not sent anywhere, with the same state. -/
theorem C24_move_partial {n : Nat} (hn : 0 < n) (ops : List (WOp S)) (ms : Nat → List (Nat × Nat)) (hv : Pop.empty.ValidRun n (ops ++ [.move ms])) :
    ∃ w w', wrun ty n (World.init []) ops = some w ∧ moveAgents ty n ms w = some w' ∧
      ∀ r < n, ∀ u s, (w' r).agent u = some s ↔
        ∃ r0 < n, (w r0).agent u = some s ∧ ((u, r) ∈ ms r0 ∨ (r = r0 ∧ ∀ k, (u, k) ∉ ms r0)) := by
  have hv' : ∀ (p : Pop S) (ops : List (WOp S)), p.ValidRun n (ops ++ [.move ms]) → p.ValidRun n ops ∧ (p.run ops).Valid n (.move ms) := by
    intro p ops
    induction ops generalizing p with
    | nil => intro h; exact ⟨trivial, h.1⟩
    | cons o ops ih => intro h; exact ⟨⟨h.1, (ih _ h.2).1⟩, (ih _ h.2).2⟩
  obtain ⟨hv1, hv2⟩ := hv' _ _ hv
  obtain ⟨w, h1, h2⟩ := rel_run hn (rel_init n) hv1
  obtain ⟨w', h3, h4⟩ := move_spec hn h2 hv2
  refine ⟨w, w', h1, h3, ?_⟩
  intro r hr u s
  rw [show (w' r).agent u = get (w' r).locals u from rfl, h4.loc r hr]
  show ((Pop.run Pop.empty ops).own u).map (fun x => (dest ms x.1 u, x.2)) = some (r, s) ↔ _
  rw [Option.map_eq_some_iff]
  have hg : ∀ r0 < n, ∀ k, (u, k) ∈ ms r0 ↔ get (ms r0) u = some k := fun r0 h0 k => ⟨fun h => get_of_mem (hv2 r0 h0).1 h, fun h => mem_of_get h⟩
  constructor
  · rintro ⟨⟨r0, t⟩, ho, e⟩
    simp only [Prod.mk.injEq] at e
    obtain ⟨e, rfl⟩ := e
    have h0 := (h2.used _ _ ho).2
    refine ⟨r0, h0, (h2.loc r0 h0 u t).2 ho, ?_⟩
    unfold dest at e
    cases hd : get (ms r0) u with
    | none =>
      rw [hd] at e
      exact .inr ⟨e.symm, fun k hk => by rw [hg r0 h0, hd] at hk; cases hk⟩
    | some j =>
      rw [hd] at e
      exact .inl ((hg r0 h0 r).2 (by rw [hd, ← e]; rfl))
  · rintro ⟨r0, h0, ha, hm⟩
    refine ⟨(r0, s), (h2.loc r0 h0 u s).1 ha, ?_⟩
    simp only [Prod.mk.injEq, and_true]
    unfold dest
    rcases hm with hm | ⟨rfl, hm⟩
    · rw [(hg r0 h0 r).1 hm]; rfl
    · cases hd : get (ms r) u with
      | none => rfl
      | some j => exact absurd ((hg r h0 j).2 hd) (hm j)

/-- C25 (requests and moves): at every point of every history a rank sees of an agent of another rank exactly the state that this agent had at the last
synchronisation. -/
theorem C25_no_projections_partial {n : Nat} (hn : 0 < n) (ops : List (WOp S)) (hv : Pop.empty.ValidRun n ops) :
    ∃ w, wrun ty n (World.init []) ops = some w ∧ ∀ k < n, ∀ u, (w k).ghostAgent u = (Pop.empty.run ops).gh k u := by
  obtain ⟨w, h1, h2⟩ := rel_run hn (rel_init n) hv
  exact ⟨w, h1, h2.gst⟩

/-- C25 and C26: after a synchronisation a ghost is a copy, with the current state, of an agent that is local on another rank; hence the ghosts of
removed agents are gone. -/
theorem C25_synchronize_partial {n : Nat} (hn : 0 < n) (ops : List (WOp S)) (hv : Pop.empty.ValidRun n ops) :
    ∃ w w', wrun ty n (World.init []) ops = some w ∧ synchronize ty n true w = some w' ∧
      (∀ r < n, ∀ u, (w' r).agent u = (w r).agent u) ∧
      ∀ k < n, ∀ u s, (w' k).ghostAgent u = some s → ∃ r < n, r ≠ k ∧ (w' r).agent u = some s := by
  obtain ⟨w, h1, h2⟩ := rel_run hn (rel_init n) hv
  obtain ⟨w', h3, h4⟩ := synchronize_none hn (b := true) h2
  rw [if_pos rfl] at h4
  refine ⟨w, w', h1, h3, ?_, ?_⟩
  · intro r hr u
    rw [show (w' r).agent u = get (w' r).locals u from rfl, show (w r).agent u = get (w r).locals u from rfl]
    apply Option.ext
    intro s
    rw [h4.loc r hr, h2.loc r hr]; rfl
  · intro k hk u s hg
    have hgh := h4.gst k hk u
    rw [hg] at hgh
    have hin : u ∈ keys (w' k).ghosts := by
      rw [mem_keys]
      unfold Cx.ghostAgent at hg
      cases hx : get (w' k).ghosts u with
      | none => rw [hx] at hg; cases hg
      | some g => exact ⟨g, rfl⟩
    have : ∃ x, (Pop.run Pop.empty ops).own u = some x ∧ x.2 = s := by
      have e : ((Pop.run Pop.empty ops).gh k u).bind (fun _ => ((Pop.run Pop.empty ops).own u).map (·.2)) = some s := hgh.symm
      obtain ⟨_, _, e⟩ := Option.bind_eq_some_iff.1 e
      obtain ⟨x, hx, rfl⟩ := Option.map_eq_some_iff.1 e
      exact ⟨x, hx, rfl⟩
    obtain ⟨⟨r, t⟩, ho, rfl⟩ := this
    have hr := (h2.used _ _ ho).2
    refine ⟨r, hr, ?_, (h4.loc r hr u t).2 ho⟩
    obtain ⟨r', hr', ht⟩ := (h4.ghost k hk u).1 hin
    rcases ht with ⟨d, hd, hkd⟩ | ⟨d, hd, _⟩
    · obtain ⟨_, _, c, e⟩ := h4.ghd r' hr' u d hd
      obtain ⟨s2, hs2⟩ := (h4.mem_loc hr' u).1 c
      rw [show (Pop.refresh (Pop.run Pop.empty ops)).own u = some (r, t) from ho] at hs2
      simp only [Option.some.injEq, Prod.mk.injEq] at hs2
      rw [hs2.1]
      exact Ne.symm (e k hkd).2
    · have := (h4.rem r' hr' u d hd).2.1
      rw [show (Pop.refresh (Pop.run Pop.empty ops)).own u = some (r, t) from ho] at this; cases this

/-- C26 (requests and moves): a removed agent has no ghosts after the next `synchronize`, wherever they have been. -/
theorem C26_no_projections_partial {n : Nat} (hn : 0 < n) (ops : List (WOp S)) (r u : Nat) (hv : Pop.empty.ValidRun n (ops ++ [.remove r u, .synch true])) :
    ∃ w, wrun ty n (World.init []) (ops ++ [.remove r u, .synch true]) = some w ∧ ∀ k < n, (w k).agent u = none ∧ (w k).ghostAgent u = none := by
  obtain ⟨w, h1, h2⟩ := rel_run hn (rel_init n) hv
  refine ⟨w, h1, ?_⟩
  intro k hk
  have ho : (Pop.run (S := S) Pop.empty (ops ++ [.remove r u, .synch true])).own u = none := by
    unfold Pop.run
    rw [List.foldl_append]
    simp [Pop.step, Pop.refresh, upd]
  refine ⟨?_, ?_⟩
  · cases hl : get (w k).locals u with
    | none => exact hl
    | some s => rw [h2.loc k hk, ho] at hl; cases hl
  · rw [h2.gst k hk]
    unfold Pop.run
    rw [List.foldl_append]
    simp [Pop.step, Pop.refresh, upd]

/-- A history that the theorems cover: an agent is requested by two ranks, moves to one of them, changes its state, and is removed. -/
def exOps : List (WOp Nat) :=
  [.add 0 7 100, .add 1 8 200, .request (fun k => if k = 1 then [(7, 0)] else if k = 2 then [(7, 0), (8, 1)] else []),
   .move (fun r => if r = 0 then [(7, 1)] else []), .setState 1 7 101, .synch true, .remove 1 8]

example : Pop.empty.ValidRun 3 (exOps ++ [.remove 1 7, .synch true]) := by
  simp only [exOps, List.cons_append, List.nil_append, Pop.ValidRun, Pop.Valid, Pop.step, Pop.empty, Pop.moved, Pop.refresh]
  refine ⟨by decide, by decide, ?_, ?_, ⟨100, by decide⟩, trivial, ⟨200, by decide⟩, ⟨101, by decide⟩, trivial, trivial⟩
  · intro k hk q hq
    have : k = 0 ∨ k = 1 ∨ k = 2 := by omega
    rcases this with rfl | rfl | rfl
    · simp at hq
    · simp at hq; subst hq; exact ⟨by decide, 100, by decide⟩
    · simp at hq
      rcases hq with rfl | rfl
      · exact ⟨by decide, 100, by decide⟩
      · exact ⟨by decide, 200, by decide⟩
  · intro r hr
    have : r = 0 ∨ r = 1 ∨ r = 2 := by omega
    rcases this with rfl | rfl | rfl
    · refine ⟨by decide, ?_⟩
      intro m hm
      simp at hm
      subst hm
      exact ⟨by decide, 100, by decide⟩
    · simp
    · simp

example : ∃ w, wrun id 3 (World.init []) exOps = some w ∧ (w 1).agent 7 = some 101 ∧ (w 0).agent 7 = none ∧ (w 2).ghostAgent 7 = some 101 ∧ (w 1).ghostAgent 7 = none ∧
    (w 2).ghostAgent 8 = some 200 ∧ (w 1).agent 8 = none := by
  refine ⟨_, rfl, ?_⟩
  decide +kernel

end Repast.Context
