import Verif.Schedule.WorldLemmas

/-! The runner's `next_tick` when `execute()` begins. -/
namespace Repast.Schedule

theorem qinsert_mem (ev : Ev) (l : List Ev) : ev ∈ qinsert ev l := by
  induction l with
  | nil => simp [qinsert]
  | cons x xs ih =>
    simp only [qinsert]
    split
    · simp
    · exact List.mem_cons_of_mem _ ih

theorem qinsert_sub (ev : Ev) (l : List Ev) : ∀ y ∈ l, y ∈ qinsert ev l := by
  induction l with
  | nil => simp
  | cons x xs ih =>
    intro y hy
    simp only [qinsert]
    split
    · exact List.mem_cons_of_mem _ hy
    · rcases List.mem_cons.1 hy with rfl | hy
      · simp
      · exact List.mem_cons_of_mem _ (ih y hy)

theorem pushEvent_sub (s : St) (a p q i c g) : ∀ y ∈ s.queue, y ∈ (pushEvent s a p q i c g).queue := by
  intro y hy
  unfold pushEvent
  dsimp only
  split
  · exact hy
  · split
    · split
      · exact hy
      · exact qinsert_sub _ _ y hy
    · exact hy

theorem applyAct_sub (s : St) (a : Act) : ∀ y ∈ s.queue, y ∈ (applyAct s a).queue := by
  intro y hy
  cases a with
  | sched a p q i l g => exact pushEvent_sub s _ _ _ _ _ _ y hy
  | schedStop t => exact pushEvent_sub s _ _ _ _ _ _ y hy
  | _ => exact hy

theorem acts_sub (l : List Act) (s : St) : ∀ y ∈ s.queue, y ∈ (l.foldl applyAct s).queue := by
  induction l generalizing s with
  | nil => exact fun y hy => hy
  | cons a l ih => exact fun y hy => ih _ y (applyAct_sub s a y hy)

theorem qinsert_mem_or (ev : Ev) (l : List Ev) : ∀ y ∈ qinsert ev l, y = ev ∨ y ∈ l := by
  induction l with
  | nil => simp [qinsert]
  | cons x xs ih =>
    intro y hy
    simp only [qinsert] at hy
    split at hy
    · simpa using hy
    · rcases List.mem_cons.1 hy with rfl | hy
      · simp
      · rcases ih y hy with h | h
        · exact .inl h
        · exact .inr (List.mem_cons_of_mem _ h)

def AtSorted (l : List Ev) : Prop := l.Pairwise (fun a b => a.at_ ≤ b.at_)

theorem qinsert_ordered (ev : Ev) (l : List Ev) (h : AtSorted l) : AtSorted (qinsert ev l) := by
  induction l with
  | nil => simp [qinsert, AtSorted]
  | cons x xs ih =>
    have hx := List.pairwise_cons.1 h
    simp only [qinsert]
    split
    · rename_i hq
      have hle : ev.at_ ≤ x.at_ := by
        simp only [qlt, Bool.or_eq_true, Bool.and_eq_true, decide_eq_true_eq] at hq
        omega
      refine List.pairwise_cons.2 ⟨?_, h⟩
      intro y hy
      rcases List.mem_cons.1 hy with rfl | hy
      · exact hle
      · exact Int.le_trans hle (hx.1 y hy)
    · rename_i hq
      have hle : x.at_ ≤ ev.at_ := by
        simp only [qlt, Bool.or_eq_true, Bool.and_eq_true, decide_eq_true_eq] at hq
        omega
      refine List.pairwise_cons.2 ⟨?_, ih hx.2⟩
      intro y hy
      rcases qinsert_mem_or ev xs y hy with rfl | hy
      · exact hle
      · exact hx.1 y hy

theorem applyAct_ordered (s : St) (a : Act) (h : AtSorted s.queue) : AtSorted (applyAct s a).queue := by
  have hp : ∀ a p q i c g, AtSorted (pushEvent s a p q i c g).queue := by
    intro a p q i c g
    unfold pushEvent
    dsimp only
    split
    · exact h
    · split
      · split
        · exact h
        · exact qinsert_ordered _ _ h
      · exact h
  cases a with
  | sched a p q i l g => exact hp _ _ _ _ _ _
  | schedStop t => exact hp _ _ _ _ _ _
  | _ => exact h

theorem acts_ordered (l : List Act) (s : St) (h : AtSorted s.queue) : AtSorted (l.foldl applyAct s).queue := by
  induction l generalizing s with
  | nil => exact h
  | cons a l ih => exact ih _ (applyAct_ordered s a h)

/-- A stop that is not earlier than a pending event does not change the next tick. -/
theorem schedStop_synced {s : St} {u : Option Int} {y : Ev} (hs : Synced s) (ho : AtSorted s.queue) (hy : y ∈ s.queue)
    (hu : ∀ v, u = some v → y.at_ ≤ v) : Synced (applyAct s (.schedStop u)) := by
  unfold Synced at *
  cases u with
  | none => exact hs
  | some v =>
    simp only [applyAct, pushEvent]
    split
    · split
      · exact hs
      · simp only [hs]
        unfold schedNextTick headTick
        simp only []
        cases hq : s.queue with
        | nil => rw [hq] at hy; simp at hy
        | cons x xs =>
          rw [hq] at hy ho
          have hxy : x.at_ ≤ y.at_ := by
            rcases List.mem_cons.1 hy with rfl | hy
            · exact Int.le_refl _
            · exact (List.pairwise_cons.1 ho).1 y hy
          have := hu v rfl
          simp only [qinsert]
          split
          · rename_i h
            simp only [qlt, Bool.or_eq_true, Bool.and_eq_true, decide_eq_true_eq] at h
            simp only [List.head?_cons, Option.map_some, Option.getD_some]
            omega
          · rfl
    · exact hs

theorem StopsFresh.synced {l : List Act} (h : StopsFresh l) : Synced (l.foldl applyAct St.init) := by
  rcases h with h | ⟨t, p, q, i, lb, g, hm, ht, hu⟩
  · exact setup_synced h
  · obtain ⟨a, b, rfl⟩ := List.append_of_mem hm
    rw [List.foldl_append, List.foldl_cons]
    have h1 : (a.foldl applyAct St.init).tick = startTick := foldl_applyAct_tick _ _
    have h2 := acts_ordered a St.init (by simp [St.init, AtSorted])
    generalize a.foldl applyAct St.init = s at h1 h2
    have h3 : ∃ y ∈ (applyAct s (.sched (some t) p q i lb g)).queue, y.at_ = t := by
      simp only [applyAct, pushEvent]
      rw [if_pos (by omega), if_neg (by omega)]
      exact ⟨_, qinsert_mem _ _, rfl⟩
    have h4 := applyAct_ordered s (.sched (some t) p q i lb g) h2
    have h5 : Synced (applyAct s (.sched (some t) p q i lb g)) := rfl
    generalize applyAct s (.sched (some t) p q i lb g) = s' at h3 h4 h5
    have hub : ∀ u, Act.schedStop (some u) ∈ b → t ≤ u := fun u h => hu u (by simp [h])
    clear hm hu
    induction b generalizing s' with
    | nil => exact h5
    | cons x b ih =>
      obtain ⟨y, hy, rfl⟩ := h3
      rw [List.foldl_cons]
      refine ih _ ⟨y, applyAct_sub s' x y hy, rfl⟩ (applyAct_ordered s' x h4) ?_ (fun u h => hub u (by simp [h]))
      by_cases hx : ∃ u, x = .schedStop u
      · obtain ⟨u, rfl⟩ := hx
        exact schedStop_synced h5 h4 hy (fun v hv => hub v (by simp [hv]))
      · exact applyAct_synced h5 (fun u hu => hx ⟨u, hu⟩)

theorem fresh_synced {l : List Act} (h : StopsFresh l ∨ ∀ t, Act.schedStop t ∉ l) : Synced (l.foldl applyAct St.init) :=
  h.elim StopsFresh.synced fun h => setup_synced' (.inr h)

end Repast.Schedule
