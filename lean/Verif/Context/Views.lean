import Verif.Context.Model

namespace Repast.Context
open Repast.Dict Repast.Space Repast.Topology

variable {S P Q : Type} [Proj P Q] (ty : Nat → Nat)

/-! ### Lemmas about folds and collective steps -/

theorem foldlM_inv {α β : Type} {P : β → Prop} {f : β → α → Option β} (h : ∀ b a b', P b → f b a = some b' → P b') :
    ∀ (l : List α) (b b' : β), P b → l.foldlM f b = some b' → P b' := by
  intro l
  induction l with
  | nil => intro b b' hb e; simp at e; exact e ▸ hb
  | cons a l ih =>
    intro b b' hb e
    rw [List.foldlM_cons] at e
    obtain ⟨c, hc, e⟩ := Option.bind_eq_some_iff.1 e
    exact ih c b' (h b a c hb hc) e

theorem foldl_inv {α β : Type} {P : β → Prop} {f : β → α → β} (h : ∀ b a, P b → P (f b a)) :
    ∀ (l : List α) (b : β), P b → P (l.foldl f b) := by
  intro l
  induction l with
  | nil => intro b hb; exact hb
  | cons a l ih => intro b hb; exact ih _ (h b a hb)

theorem each_eq (n : Nat) (f : Nat → Option (Cx S P)) (w : World S P) :
    each n f w = if (List.range n).all (fun r => (f r).isSome) then some (fun r => if r < n then (f r).getD (w r) else w r) else none := by
  unfold each
  have : ∀ r, (((List.range n).map f)[r]?.bind id).getD (w r) = if r < n then (f r).getD (w r) else w r := by
    intro r
    by_cases h : r < n <;> simp [h]
  simp only [this, List.all_map]
  rfl

theorem each_some {n : Nat} {f : Nat → Option (Cx S P)} {w w' : World S P} (h : each n f w = some w') : ∀ r < n, f r = some (w' r) := by
  rw [each_eq] at h
  split at h
  · rename_i ha
    intro r hr
    rw [List.all_eq_true] at ha
    have := ha r (List.mem_range.2 hr)
    cases h
    obtain ⟨c, hc⟩ := Option.isSome_iff_exists.1 this
    simp [hc, hr]
  · cases h

theorem each_of {n : Nat} {f : Nat → Option (Cx S P)} {w : World S P} (g : Nat → Cx S P) (h : ∀ r < n, f r = some (g r)) :
    ∃ w', each n f w = some w' ∧ ∀ r < n, w' r = g r := by
  rw [each_eq]
  rw [if_pos]
  · exact ⟨_, rfl, fun r hr => by simp [h r hr, hr]⟩
  · rw [List.all_eq_true]
    intro r hr
    simp [h r (List.mem_range.1 hr)]

theorem at_some {n r : Nat} {f : Cx S P → Option (Cx S P)} {w w' : World S P} (h : at_ n r f w = some w') :
    r < n ∧ ∃ c, f (w r) = some c ∧ w' = upd w r c := by
  unfold at_ at h
  split at h
  · rename_i hr
    obtain ⟨c, hc, rfl⟩ := Option.map_eq_some_iff.1 h
    exact ⟨hr, c, hc, rfl⟩
  · cases h

theorem at_of {n r : Nat} {f : Cx S P → Option (Cx S P)} {w : World S P} {c : Cx S P} (hr : r < n) (h : f (w r) = some c) :
    at_ n r f w = some (upd w r c) := by
  unfold at_; simp [hr, h]

/-! ### The invariant of the views -/

/-- The two collections of local agents agree. -/
structure Views (c : Cx S P) : Prop where
  ok : Ok c.locals
  same : ∀ t l, get c.byType t = some l → l = (keys c.locals).filter (fun u => decide (ty u = t))
  has : ∀ u ∈ keys c.locals, (get c.byType (ty u)).isSome = true

theorem Views.congr {c c' : Cx S P} (h : Views ty c) (h1 : c'.locals = c.locals) (h2 : c'.byType = c.byType) : Views ty c' :=
  ⟨h1 ▸ h.ok, by rw [h1, h2]; exact h.same, by rw [h1, h2]; exact h.has⟩

theorem Views.init (r : Nat) (gs : List P) : Views ty (Cx.start (S := S) r gs) := ⟨by simp [Cx.start, Ok, keys], by simp [Cx.start], by simp [Cx.start, keys]⟩

theorem Views.setType {c : Cx S P} (h : Views ty c) (u : Nat) (s : S) : Views ty { c with locals := set c.locals u s, byType := addType c.byType (ty u) u } := by
  have hmem : ∀ l, get c.byType (ty u) = some l → (u ∈ l ↔ u ∈ keys c.locals) := by
    intro l hl
    rw [h.same _ _ hl]
    simp
  refine ⟨h.ok.set u s, ?_, ?_⟩
  · intro t l hl
    simp only [addType, get_set] at hl
    simp only [keys_set]
    by_cases ht : ty u = t
    · subst ht
      simp only [if_true, Option.some.injEq] at hl
      cases hg : get c.byType (ty u) with
      | none =>
        have hu : u ∉ keys c.locals := by
          intro hu
          have := h.has u hu
          simp [hg] at this
        have hno : (keys c.locals).filter (fun v => decide (ty v = ty u)) = [] := by
          rw [List.filter_eq_nil_iff]
          intro v hv e
          have := h.has v hv
          simp only [decide_eq_true_eq] at e
          rw [e, hg] at this
          simp at this
        rw [hg] at hl
        simp [hu, hno, ← hl]
      | some l0 =>
        have hm := hmem l0 hg
        rw [hg] at hl
        simp only [Option.getD_some] at hl
        have hs := h.same _ _ hg
        by_cases hu : u ∈ keys c.locals
        · rw [if_pos (hm.2 hu)] at hl
          rw [if_pos hu, ← hl, hs]
        · rw [if_neg (fun x => hu (hm.1 x))] at hl
          rw [if_neg hu, ← hl, hs]
          simp
    · rw [if_neg ht] at hl
      rw [h.same _ _ hl]
      split
      · rfl
      · simp [ht]
  · intro v hv
    simp only [addType, get_set]
    by_cases ht : ty u = ty v
    · simp [ht]
    · rw [if_neg ht]
      refine h.has v ?_
      simp only [keys_set] at hv
      split at hv
      · exact hv
      · rcases List.mem_append.1 hv with hv | hv
        · exact hv
        · simp only [List.mem_singleton] at hv
          subst hv
          exact absurd rfl ht

theorem Views.delType {c : Cx S P} (h : Views ty c) {u : Nat} {d : Dict (List Nat)} (hd : Context.delType c.byType (ty u) u = some d) :
    Views ty { c with locals := del c.locals u, byType := d } := by
  unfold Context.delType at hd
  split at hd
  · cases hd
  · rename_i l0 hg
    split at hd
    · rename_i hu
      cases hd
      have hs := h.same _ _ hg
      refine ⟨h.ok.del u, ?_, ?_⟩
      · intro t l hl
        simp only [get_set] at hl
        simp only [keys_del, List.filter_filter]
        by_cases ht : ty u = t
        · subst ht
          simp only [if_true, Option.some.injEq] at hl
          have hn : l0.Nodup := by rw [hs]; exact List.Pairwise.filter _ h.ok
          rw [← hl, hn.erase_eq_filter, hs, List.filter_filter]
          congr 1
          funext v
          by_cases hv : v = u <;> simp [hv]
        · rw [if_neg ht] at hl
          rw [h.same _ _ hl]
          congr 1
          funext v
          by_cases hv : v = u
          · subst hv; simp [ht]
          · simp [hv]
      · intro v hv
        simp only [get_set]
        by_cases ht : ty u = ty v
        · simp [ht]
        · rw [if_neg ht]
          exact h.has v ((List.mem_filter.1 (by rw [keys_del] at hv; exact hv)).1)
    · cases hd

theorem Views.add {c : Cx S P} (h : Views ty c) (u : Nat) (s : S) : Views ty (c.add ty u s) := (h.setType ty u s).congr ty rfl rfl

theorem Views.remove {c c' : Cx S P} (h : Views ty c) {u : Nat} (e : c.remove ty u = some c') : Views ty c' := by
  unfold Cx.remove at e
  simp only [] at e
  obtain ⟨d, hd, rfl⟩ := Option.map_eq_some_iff.1 e
  exact (h.delType ty hd).congr ty rfl rfl

theorem Views.setState {c c' : Cx S P} (h : Views ty c) {u : Nat} {s : S} (e : c.setState u s = some c') : Views ty c' := by
  unfold Cx.setState at e
  split at e
  · rename_i s0 hs
    cases e
    have : keys (set c.locals u s) = keys c.locals := by rw [keys_set, if_pos (mem_keys_of_get hs)]
    exact ⟨h.ok.set u s, by simp only [this]; exact h.same, by simp only [this]; exact h.has⟩
  · cases e

theorem Views.take {c : Cx S P} (h : Views ty c) {u : Nat} {x : Cx S P × S × Option (Dict Int)} (e : c.take ty u = some x) : Views ty x.1 := by
  unfold Cx.take at e
  obtain ⟨s, hs, e⟩ := Option.bind_eq_some_iff.1 e
  obtain ⟨d, hd, rfl⟩ := Option.map_eq_some_iff.1 e
  exact (h.delType ty hd).congr ty rfl rfl

theorem setGhosted_fields {c c' : Cx S P} {u : Nat} {d : Dict Int} (e : c.setGhosted u d = some c') : c'.locals = c.locals ∧ c'.byType = c.byType := by
  unfold Cx.setGhosted at e
  split at e
  · cases e; exact ⟨rfl, rfl⟩
  · split at e
    · cases e; exact ⟨rfl, rfl⟩
    · cases e

theorem Views.arrive {c : Cx S P} (h : Views ty c) {u : Nat} {s : S} {gh : Option (Dict Int)} {x : Cx S P × Bool} (e : c.arrive ty u s gh = some x) : Views ty x.1 := by
  unfold Cx.arrive at e
  simp only [] at e
  split at e
  · cases e; exact h.add ty u s
  · obtain ⟨c', hc, rfl⟩ := Option.map_eq_some_iff.1 e
    have := setGhosted_fields hc
    exact (h.add ty u s).congr ty this.1 this.2

/-- Steps that do not touch the local agents. -/
def Same (c c' : Cx S P) : Prop := c'.locals = c.locals ∧ c'.byType = c.byType

theorem Same.rfl {c : Cx S P} : Same c c := ⟨Eq.refl _, Eq.refl _⟩
theorem Same.trans {a b c : Cx S P} (h : Same a b) (h' : Same b c) : Same a c := ⟨h'.1.trans h.1, h'.2.trans h.2⟩

theorem removeGhost_same {c c' : Cx S P} {u : Nat} (e : c.removeGhost u = some c') : Same c c' := by
  unfold Cx.removeGhost at e
  split at e
  · cases e; exact .rfl
  · split at e
    · cases e
    · cases e; exact ⟨_root_.rfl, _root_.rfl⟩

theorem projRemove_same (c : Cx S P) (pid u : Nat) : Same c (c.projRemove pid u) := by
  unfold Cx.projRemove; split <;> exact ⟨_root_.rfl, _root_.rfl⟩

theorem clearBuffered_same (c : Cx S P) (pid : Nat) : Same c (c.clearBuffered pid) := by
  unfold Cx.clearBuffered; split <;> exact ⟨_root_.rfl, _root_.rfl⟩

theorem clearOob_same (c : Cx S P) (pid : Nat) : Same c (c.clearOob pid) := by
  unfold Cx.clearOob; split <;> exact ⟨_root_.rfl, _root_.rfl⟩

theorem bufferAdd_same (c : Cx S P) (pid u : Nat) : Same c (c.bufferAdd pid u) := by
  unfold Cx.bufferAdd; split <;> exact ⟨_root_.rfl, _root_.rfl⟩

theorem projMove_same {c c' : Cx S P} {pid u : Nat} {pt : Q} (e : c.projMove pid u pt = some c') : Same c c' := by
  unfold Cx.projMove at e
  split at e
  · cases e
  · obtain ⟨g, -, rfl⟩ := Option.map_eq_some_iff.1 e
    exact ⟨_root_.rfl, _root_.rfl⟩

theorem preSynch_same {c c' : Cx S P} {pid : Nat} (e : c.preSynch pid = some c') : Same c c' := by
  unfold Cx.preSynch at e
  split at e
  · cases e
  · split at e
    · obtain ⟨c1, h1, rfl⟩ := Option.map_eq_some_iff.1 e
      refine Same.trans ?_ (clearBuffered_same _ _)
      exact foldlM_inv (P := fun x => Same c x) (fun b a b' hb hf => hb.trans ((projRemove_same _ _ _).trans (removeGhost_same hf))) _ _ _ .rfl h1
    · cases e; exact .rfl

theorem preSynchAll_same {c c' : Cx S P} (e : c.preSynchAll = some c') : Same c c' :=
  foldlM_inv (P := fun x => Same c x) (fun _ _ _ hb hf => hb.trans (preSynch_same hf)) _ _ _ .rfl e

theorem deleteGhost_same {c c' : Cx S P} {u : Nat} (e : c.deleteGhost u = some c') : Same c c' := by
  unfold Cx.deleteGhost at e
  split at e
  · cases e
  · cases e; exact .rfl

theorem deleteGhosts_same {c c' : Cx S P} {us : List Nat} (e : c.deleteGhosts us = some c') : Same c c' :=
  foldlM_inv (P := fun x => Same c x) (fun _ _ _ hb hf => hb.trans (deleteGhost_same hf)) _ _ _ .rfl e

theorem refGhost_same (c : Cx S P) (u : Nat) (i : Int) : Same c (c.refGhost u i) := by
  unfold Cx.refGhost
  split <;> exact .rfl

theorem projsRemove_same (c : Cx S P) (u : Nat) : Same c (c.projsRemove u) := ⟨_root_.rfl, _root_.rfl⟩

theorem dropGhost_same {c c' : Cx S P} {u : Nat} (e : c.dropGhost u = some c') : Same c c' := by
  unfold Cx.dropGhost at e
  split at e
  · cases e
  · exact (refGhost_same c u 1).trans ((projsRemove_same _ u).trans (deleteGhost_same e))

theorem updateRemoved_same {n : Nat} {w w' : World S P} (e : updateRemoved n w = some w') : ∀ r < n, Same (w r) (w' r) := by
  unfold updateRemoved at e
  split at e
  · intro r hr
    have := each_some e r hr
    obtain ⟨c1, h1, e1⟩ := Option.map_eq_some_iff.1 this
    have hs := foldlM_inv (P := fun x => Same (w r) x) (fun _ _ _ hb hf => hb.trans (dropGhost_same hf)) _ _ _ .rfl h1
    rw [← e1]; exact hs
  · cases e

theorem updateGhost_same {c c' : Cx S P} {u : Nat} {s : S} (e : c.updateGhost u s = some c') : Same c c' := by
  unfold Cx.updateGhost at e
  split at e
  · cases e
  · cases e; exact .rfl

theorem updateStates_same {n : Nat} {w w' : World S P} (e : updateStates n w = some w') : ∀ r < n, Same (w r) (w' r) := by
  unfold updateStates at e
  simp only [] at e
  split at e
  · intro r hr
    exact foldlM_inv (P := fun x => Same (w r) x) (fun _ _ _ hb hf => hb.trans (updateGhost_same hf)) _ _ _ .rfl (each_some e r hr)
  · cases e

theorem updateGhosts_same {n : Nat} {w w' : World S P} (e : updateGhosts n w = some w') : ∀ r < n, Same (w r) (w' r) := by
  unfold updateGhosts at e
  obtain ⟨w1, h1, e⟩ := Option.bind_eq_some_iff.1 e
  intro r hr
  exact (updateRemoved_same h1 r hr).trans (updateStates_same e r hr)

theorem ghostFor_same (c : Cx S P) (u : Nat) (st : S) : Same c (c.ghostFor u st) := by
  unfold Cx.ghostFor
  split
  · exact refGhost_same _ _ _
  · exact .rfl

theorem bufferOne_same {pid : Nat} {c c' : Cx S P} {m : Nat × S × Q} (e : c.bufferOne pid m = some c') : Same c c' :=
  (ghostFor_same _ _ _).trans ((bufferAdd_same _ _ _).trans (projMove_same e))

theorem synchGrid_same {n pid : Nat} {w w' : World S P} (e : synchGrid n pid w = some w') : ∀ r < n, Same (w r) (w' r) := by
  unfold synchGrid at e
  simp only [] at e
  split at e
  · split at e
    · intro r hr
      exact foldlM_inv (P := fun x => Same (w r) x) (fun _ _ _ hb hf => hb.trans (bufferOne_same hf)) _ _ _ .rfl (each_some e r hr)
    · cases e
  · cases e; exact fun _ _ => .rfl

theorem synchGhosts_same {n : Nat} {w w' : World S P} (e : synchGhosts n w = some w') : ∀ r < n, Same (w r) (w' r) := by
  unfold synchGhosts at e
  obtain ⟨w1, h1, e⟩ := Option.bind_eq_some_iff.1 e
  refine foldlM_inv (P := fun x => ∀ r < n, Same (w r) (x r)) ?_ _ _ _ (fun r hr => updateGhosts_same h1 r hr) e
  intro b a b' hb hf r hr
  exact (hb r hr).trans (synchGrid_same hf r hr)

theorem Views.same_ {c c' : Cx S P} (h : Views ty c) (hs : Same c c') : Views ty c' := h.congr ty hs.1 hs.2

theorem Views.gatherOob {n : Nat} {c : Cx S P} (h : Views ty c) {x : Cx S P × List (Nat × OobMsg S Q) × List Nat} (e : c.gatherOob ty n = some x) : Views ty x.1 := by
  unfold Cx.gatherOob at e
  refine foldlM_inv (P := fun x : Cx S P × List (Nat × OobMsg S Q) × List Nat => Views ty x.1) ?_ _ _ _ h e
  intro b a b' hb hf
  obtain ⟨c1, h1, rfl⟩ := Option.map_eq_some_iff.1 hf
  refine Views.same_ ty ?_ (clearOob_same _ _)
  refine foldlM_inv (P := fun x : Cx S P × List (Nat × OobMsg S Q) × List Nat => Views ty x.1) ?_ _ _ _ hb h1
  intro b a b' hb hf
  unfold Cx.gatherOne at hf
  split at hf
  · cases hf
  · split at hf
    · cases hf; exact hb
    · obtain ⟨x, hx, rfl⟩ := Option.map_eq_some_iff.1 hf
      exact (Views.take ty hb hx).same_ ty (projRemove_same _ _ _)

theorem Views.processOob {c : Cx S P} (h : Views ty c) {ms : List (OobMsg S Q)} {x : Cx S P × List Nat} (e : c.processOob ty ms = some x) : Views ty x.1 := by
  unfold Cx.processOob at e
  refine foldlM_inv (P := fun x : Cx S P × List Nat => Views ty x.1) ?_ _ _ _ h e
  intro b m b' hb hf
  unfold Cx.processOne at hf
  obtain ⟨x, hx, hf⟩ := Option.bind_eq_some_iff.1 hf
  obtain ⟨c', hc', rfl⟩ := Option.map_eq_some_iff.1 hf
  refine Views.same_ ty ?_ (projMove_same hc')
  unfold Cx.receiveOob at hx
  split at hx
  · cases hx; exact hb
  · split at hx
    · cases hx
    · obtain ⟨y, hy, rfl⟩ := Option.map_eq_some_iff.1 hx
      exact Views.arrive ty hb hy

theorem Views.moveOob {n : Nat} {b : Bool} {w w' : World S P} (h : ∀ r < n, Views ty (w r)) (e : moveOob ty n b w = some w') : ∀ r < n, Views ty (w' r) := by
  unfold Context.moveOob at e
  simp only [] at e
  obtain ⟨w1, h1, e⟩ := Option.bind_eq_some_iff.1 e
  have hv : ∀ r < n, Views ty (w1 r) := by
    intro r hr
    obtain ⟨x, hx, e⟩ := Option.map_eq_some_iff.1 (each_some h1 r hr)
    exact e ▸ Views.gatherOob ty (h r hr) hx
  intro r hr
  have := each_some e r hr
  obtain ⟨x, hx, this⟩ := Option.bind_eq_some_iff.1 this
  have hp := Views.processOob ty (hv r hr) hx
  split at this
  · exact hp.same_ ty (deleteGhosts_same this)
  · simp only [Option.some.injEq] at this; rw [← this]; exact hp

theorem Views.synchronize {n : Nat} {b : Bool} {w w' : World S P} (h : ∀ r < n, Views ty (w r)) (e : synchronize ty n b w = some w') : ∀ r < n, Views ty (w' r) := by
  unfold Context.synchronize at e
  split at e
  · obtain ⟨w1, h1, e⟩ := Option.bind_eq_some_iff.1 e
    obtain ⟨w2, h2, e⟩ := Option.bind_eq_some_iff.1 e
    have hv1 : ∀ r < n, Views ty (w1 r) := fun r hr => (h r hr).same_ ty (preSynchAll_same (each_some h1 r hr))
    have hv2 := Views.moveOob ty hv1 h2
    exact fun r hr => (hv2 r hr).same_ ty (synchGhosts_same e r hr)
  · exact Views.moveOob ty h e

theorem addReq_same (c : Cx S P) (u : Nat) : Same c (c.addReq u) := by
  unfold Cx.addReq; split <;> exact .rfl

theorem sendRequests_same {n : Nat} {c : Cx S P} {rs : List (Nat × Nat)} {x : Cx S P × List (Nat × Nat)} (e : c.sendRequests n rs = some x) : Same c x.1 := by
  unfold Cx.sendRequests at e
  refine foldlM_inv (P := fun x : Cx S P × List (Nat × Nat) => Same c x.1) ?_ _ _ _ .rfl e
  intro b a b' hb hf
  unfold Cx.sendRequest at hf
  split at hf
  · split at hf
    · cases hf; exact hb
    · cases hf
  · cases hf
    refine hb.trans (Same.trans (addReq_same _ _) ⟨_root_.rfl, _root_.rfl⟩)

theorem tag_same {c c' : Cx S P} {k u : Nat} (e : c.tag k u = some c') : Same c c' := by
  unfold Cx.tag at e
  split at e
  · cases e; exact .rfl
  · split at e
    · cases e; exact .rfl
    · cases e

theorem answer_same {c : Cx S P} {rs : List (Nat × Nat)} {x : Cx S P × List (Nat × Nat × S)} (e : c.answer rs = some x) : Same c x.1 := by
  unfold Cx.answer at e
  refine foldlM_inv (P := fun x : Cx S P × List (Nat × Nat × S) => Same c x.1) ?_ _ _ _ .rfl e
  intro b a b' hb hf
  obtain ⟨c1, h1, hf⟩ := Option.bind_eq_some_iff.1 hf
  obtain ⟨s, hs, rfl⟩ := Option.map_eq_some_iff.1 hf
  exact hb.trans (tag_same h1)

theorem requestAgents_same {n : Nat} {rs : Nat → List (Nat × Nat)} {w w' : World S P} (e : requestAgents n rs w = some w') : ∀ r < n, Same (w r) (w' r) := by
  unfold requestAgents at e
  simp only [] at e
  obtain ⟨w1, h1, e⟩ := Option.bind_eq_some_iff.1 e
  obtain ⟨w2, h2, e⟩ := Option.bind_eq_some_iff.1 e
  intro r hr
  obtain ⟨x, hx, e1⟩ := Option.map_eq_some_iff.1 (each_some h1 r hr)
  obtain ⟨y, hy, e2⟩ := Option.map_eq_some_iff.1 (each_some h2 r hr)
  have s1 : Same (w r) (w1 r) := e1 ▸ sendRequests_same hx
  have s2 : Same (w1 r) (w2 r) := e2 ▸ answer_same hy
  refine s1.trans (s2.trans ?_)
  have := each_some e r hr
  simp only [Option.some.injEq] at this
  rw [← this]
  refine foldl_inv (P := fun x => Same (w2 r) x) ?_ _ _ .rfl
  intro b a hb
  exact hb.trans (Same.trans ⟨_root_.rfl, _root_.rfl⟩ (addReq_same _ _))

theorem Views.moveAgents {n : Nat} {ms : Nat → List (Nat × Nat)} {w w' : World S P} (h : ∀ r < n, Views ty (w r)) (e : moveAgents ty n ms w = some w') :
    ∀ r < n, Views ty (w' r) := by
  unfold Context.moveAgents at e
  obtain ⟨w1, h1, e⟩ := Option.bind_eq_some_iff.1 e
  obtain ⟨w2, h2, e⟩ := Option.bind_eq_some_iff.1 e
  obtain ⟨w3, h3, e⟩ := Option.bind_eq_some_iff.1 e
  obtain ⟨w4, h4, e⟩ := Option.bind_eq_some_iff.1 e
  have v1 : ∀ r < n, Views ty (w1 r) := by
    intro r hr
    obtain ⟨x, hx, e1⟩ := Option.map_eq_some_iff.1 (each_some h1 r hr)
    rw [← e1]
    unfold Cx.sendAway at hx
    refine foldlM_inv (P := fun x : Cx S P × List (Nat × Nat × S × Option (Dict Int)) => Views ty x.1) ?_ _ _ _ (h r hr) hx
    intro b a b' hb hf
    split at hf
    · obtain ⟨y, hy, rfl⟩ := Option.map_eq_some_iff.1 hf
      exact (Views.take ty hb hy).same_ ty (projsRemove_same _ _)
    · cases hf
  have v2 : ∀ r < n, Views ty (w2 r) := by
    intro r hr
    have := each_some h2 r hr
    unfold Cx.arriveAll at this
    obtain ⟨x, hx, this⟩ := Option.bind_eq_some_iff.1 this
    refine Views.same_ ty ?_ (deleteGhosts_same this)
    refine foldlM_inv (P := fun x : Cx S P × List Nat => Views ty x.1) ?_ _ _ _ (v1 r hr) hx
    intro b a b' hb hf
    obtain ⟨y, hy, rfl⟩ := Option.map_eq_some_iff.1 hf
    exact Views.arrive ty hb hy
  have v3 : ∀ r < n, Views ty (w3 r) := fun r hr => (v2 r hr).same_ ty (preSynchAll_same (each_some h3 r hr))
  have v4 := Views.moveOob ty v3 h4
  exact fun r hr => (v4 r hr).same_ ty (synchGhosts_same e r hr)

theorem Views.step {n : Nat} {w w' : World S P} (h : ∀ r < n, Views ty (w r)) {o : WOp S P Q} (e : wstep ty n w o = some w') : ∀ r < n, Views ty (w' r) := by
  have loc : ∀ {k : Nat} {f : Cx S P → Option (Cx S P)}, at_ n k f w = some w' → (∀ c, f (w k) = some c → Views ty c) → ∀ r < n, Views ty (w' r) := by
    intro k f hf hc r hr
    obtain ⟨hk, c, h1, rfl⟩ := at_some hf
    unfold upd
    split
    · exact hc c h1
    · exact h r hr
  cases o with
  | add r u s =>
    unfold wstep at e
    exact loc e fun c hc => by simp only [Option.some.injEq] at hc; rw [← hc]; exact (h r (at_some e).1).add ty u s
  | remove r u =>
    unfold wstep at e
    exact loc e fun c hc => (h r (at_some e).1).remove ty hc
  | setState r u s =>
    unfold wstep at e
    exact loc e fun c hc => (h r (at_some e).1).setState ty hc
  | gmove r pid u pt =>
    unfold wstep at e
    refine loc e fun c hc => (h r (at_some e).1).same_ ty ?_
    unfold Cx.gmove at hc
    split at hc
    · exact projMove_same hc
    · cases hc
  | request rs => exact fun r hr => (h r hr).same_ ty (requestAgents_same e r hr)
  | move ms => exact Views.moveAgents ty h e
  | synch g => exact Views.synchronize ty h e
  | addProj g =>
    unfold wstep at e
    simp only [Option.some.injEq] at e
    intro r hr
    rw [← e]
    exact (h r hr).congr ty rfl rfl

theorem Views.run {n : Nat} {grids : List P} {ops : List (WOp S P Q)} {w : World S P} (e : wrun ty n (World.start grids) ops = some w) : ∀ r < n, Views ty (w r) :=
  foldlM_inv (P := fun x : World S P => ∀ r < n, Views ty (x r)) (fun _ _ _ hb hf => Views.step ty hb hf) _ _ _ (fun r _ => Views.init ty r grids) e

end Repast.Context
