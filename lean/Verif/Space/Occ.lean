import Verif.Space.Refine

/-! What the calls do to the locations of a space, for any kind of points. -/
namespace Repast.Space
variable {P : Type} [DecidableEq P]

/-- The occupants of each location are the agents with this location. -/
def Occ (c : Cfg P) (s : Sp P) : Prop := ∃ t, Coupled c s t

theorem Occ.empty (c : Cfg P) (zero : P) : Occ c (Sp.empty zero) := ⟨_, coupled_empty c zero⟩

theorem Occ.mem {c : Cfg P} {s : Sp P} (h : Occ c s) {u : Nat} {p : P} : u ∈ s.loc p ↔ s.agents u = some (some p) := by
  obtain ⟨t, h⟩ := h
  rw [h.loc, mem_at, h.placed]

theorem Occ.nodup {c : Cfg P} {s : Sp P} (h : Occ c s) (p : P) : (s.loc p).Nodup := by
  obtain ⟨t, h⟩ := h
  rw [h.loc]; exact at_nodup h.nodup p

theorem Occ.count {c : Cfg P} {s : Sp P} (h : Occ c s) (u : Nat) (p : P) : (s.loc p).count u = if s.agents u = some (some p) then 1 else 0 := by
  have h1 := List.nodup_iff_count.1 (h.nodup p) u
  split
  · rename_i e
    have := List.count_pos_iff.2 (h.mem.2 e)
    omega
  · rename_i e
    exact List.count_eq_zero.2 (fun hm => e (h.mem.1 hm))

theorem Occ.step {c : Cfg P} {s : Sp P} (h : Occ c s) (o : Op P) (hadd : ∀ a, o = .add a → s.agents a = none) : Occ c (step c s o).1 := by
  obtain ⟨t, h⟩ := h
  refine ⟨_, (h.step o ?_ (fun p => c.tr p s.wpt) (fun _ _ _ => rfl)).1⟩
  intro a e hk
  have := (h.known a).1 hk
  rw [hadd a e] at this
  cases this

theorem remove_entries (c : Cfg P) (s : Sp P) (a : Nat) : (remove c s a).1.agents = upd s.agents a none := by
  unfold remove
  split
  · rename_i e
    funext x
    simp only [upd]
    split
    · rename_i e'; rw [e', e]
    · rfl
  · rfl
  · rfl

/-- An agent moves; in a space with single occupancy its new location is free. -/
theorem Occ.move {c : Cfg P} {s : Sp P} (h : Occ c s) {u : Nat} (hu : (s.agents u).isSome = true) (pt : P)
    (hf : c.single = true → ∀ v, v ≠ u → s.agents v ≠ some (some (c.tr pt s.wpt))) :
    (move c s u pt).2 = .loc (some (c.tr pt s.wpt)) ∧ (move c s u pt).1.agents = upd s.agents u (some (some (c.tr pt s.wpt))) ∧ (move c s u pt).1.wpt = c.tr pt s.wpt := by
  obtain ⟨cur, hcur⟩ := Option.isSome_iff_exists.1 hu
  unfold Space.move
  simp only [hcur]
  by_cases hc : cur = some (c.tr pt s.wpt)
  · rw [if_pos hc]
    refine ⟨rfl, ?_, rfl⟩
    funext v
    simp only [upd]
    split
    · rename_i hv; rw [hv, hcur, hc]
    · rfl
  · rw [if_neg hc]
    have hput : ∃ l, put c s.loc u (c.tr pt s.wpt) = some l := by
      unfold put
      split
      · rename_i hs
        have : s.loc (c.tr pt s.wpt) = [] := by
          rw [List.eq_nil_iff_forall_not_mem]
          intro v hv
          have hv' := h.mem.1 hv
          by_cases e : v = u
          · subst e
            rw [hcur] at hv'
            simp only [Option.some.injEq] at hv'
            exact hc hv'
          · exact hf hs v e hv'
        rw [if_pos this]
        exact ⟨_, rfl⟩
      · exact ⟨_, rfl⟩
    obtain ⟨l, hl⟩ := hput
    simp only [hl]
    exact ⟨trivial, trivial, trivial⟩

end Repast.Space
