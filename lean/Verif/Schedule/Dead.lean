import Verif.Schedule.Time

/-! Events that can never run: ignored ones, and those accepted for the current tick outside a callback. -/
namespace Repast.Schedule

structure Dead (s : St) (x : Nat) : Prop where
  runs : runsOf x s.trace = []
  id : x < s.nextId
  queue : ∀ y ∈ s.queue, y.id ≠ x
  grp : s.phase = .running → ∀ y ∈ s.grp.all, y.id ≠ x

/-- The events that will be shown dead. -/
def Doomed (tr : List Obs) (x : Nat) : Prop :=
  Obs.ignored x ∈ tr ∨ ∃ ev now, Obs.sched ev now false ∈ tr ∧ ev.at_ = now ∧ ev.id = x

theorem pushEvent_queue_id (s : St) (a p q i c g) : ∀ x ∈ (pushEvent s a p q i c g).queue, x ∈ s.queue ∨ x.id = s.nextId := by
  unfold pushEvent; simp only []; split
  · exact fun x hx => Or.inl hx
  · split
    · split
      · exact fun x hx => Or.inl hx
      · intro x hx
        rcases List.mem_cons.1 ((qinsert_perm _ _).mem_iff.1 hx) with rfl | hx
        · exact Or.inr rfl
        · exact Or.inl hx
    · exact fun x hx => Or.inl hx

theorem applyAct_queue_id (s : St) (a : Act) : ∀ x ∈ (applyAct s a).queue, x ∈ s.queue ∨ x.id = s.nextId := by
  cases a with
  | sched a p q i l g => exact pushEvent_queue_id s a p q i (.user l) g
  | schedStop a => exact pushEvent_queue_id s a _ _ _ _ _
  | _ => exact fun x hx => Or.inl hx

theorem Dead.act {s x} (h : Dead s x) (a : Act) : Dead (applyAct s a) x := by
  have hid := h.id
  refine ⟨?_, ?_, ?_, ?_⟩
  · have := foldl_applyAct_runs [a] s x
    simp only [List.foldl_cons, List.foldl_nil] at this
    rw [this]; exact h.runs
  · have := applyAct_nextId s a; omega
  · intro y hy
    rcases applyAct_queue_id s a y hy with hy | hy
    · exact h.queue y hy
    · omega
  · intro hp y hy
    rw [applyAct_phase] at hp
    rcases applyAct_mem s a y hy with hy | hy
    · exact h.grp hp y hy
    · omega

theorem Dead.acts {x} (l : List Act) {s} (h : Dead s x) : Dead (l.foldl applyAct s) x := by
  induction l generalizing s with
  | nil => exact h
  | cons a l ih => exact ih (h.act a)

theorem Dead.quiet {s t x} (h : Dead s x) (htr : runsOf x t.trace = runsOf x s.trace) (hn : s.nextId ≤ t.nextId)
    (hq : ∀ y ∈ t.queue, y.id ≠ x) (hg : t.phase = .running → ∀ y ∈ t.grp.all, y.id ≠ x) : Dead t x :=
  ⟨by rw [htr]; exact h.runs, Nat.lt_of_lt_of_le h.id hn, hq, hg⟩

theorem Dead.post {e v x} (h3 : Dead v x) : Dead (post e v) x := by
  refine h3.quiet ?_ ?_ ?_ ?_
  · rw [show (Repast.Schedule.post e v).trace = v.trace from congrArg V.trace (post_view e v)]
  · rw [show (Repast.Schedule.post e v).nextId = v.nextId from congrArg V.nextId (post_view e v)]; exact Nat.le_refl _
  · rw [post_queue]; exact h3.queue
  · intro hr y hy
    rw [show (Repast.Schedule.post e v).phase = v.phase from congrArg V.phase (post_view e v)] at hr
    unfold Repast.Schedule.post at hy
    split at hy
    · exact h3.grp hr y ((addDuring_all e v).mem_iff.1 hy)
    · exact h3.grp hr y hy

theorem Dead.step {e s t x} (h : Dead s x) (hm : MStep e s t) : Dead t x := by
  cases hm with
  | act a hp => exact h.act a
  | enter hp =>
    unfold startExecute
    split
    · exact h.quiet rfl (Nat.le_refl _) h.queue h.grp
    · simp only []
      refine h.quiet ?_ (Nat.le_refl _) ?_ ?_
      · simp [runsOf]
      · intro y hy; exact h.queue y ((List.dropWhile_sublist _).subset hy)
      · intro _ y hy
        have h1 := (sort_all _ _ _).mem_iff.1 hy
        have h2 := (foldl_addEvt_all _ _).mem_iff.1 h1
        rw [reset_all, List.append_nil] at h2
        exact h.queue y ((List.takeWhile_sublist _).subset h2)
  | skip hp => exact h.quiet rfl (Nat.le_refl _) h.queue h.grp
  | exec hp => exact h.quiet rfl (Nat.le_refl _) h.queue h.grp
  | event w ev rest hp hx hn =>
    have hall := set_all_perm hn.1
    have hne : ev.id ≠ x := h.grp hp ev (hall.mem_iff.2 (by simp))
    have h1 : Dead { s with grp := { s.grp.set rest w with size := (s.grp.set rest w).size - 1 } } x :=
      h.quiet rfl (Nat.le_refl _) h.queue (fun _ y hy => h.grp hp y (hall.mem_iff.2 (List.mem_cons_of_mem _ hy)))
    have h2 : Dead (callEv e { s with grp := { s.grp.set rest w with size := (s.grp.set rest w).size - 1 } } ev) x := by
      by_cases hv : ev.id ∈ s.voided
      · rw [callEv, if_pos hv]; exact h1
      · obtain ⟨l, hl⟩ := callEv_eq e { s with grp := { s.grp.set rest w with size := (s.grp.set rest w).size - 1 } } ev hv
        rw [hl]
        apply Dead.acts
        refine h1.quiet ?_ (Nat.le_refl _) h1.queue h1.grp
        rw [runsOf_append]; simp [runsOf, hne]
    have h3 : Dead (runEv e { s with grp := s.grp.set rest w } ev) x := by
      simp only [runEv]
      generalize callEv e _ ev = v at h2
      unfold rescheduleEv
      split
      · exact h2
      · split
        · exact h2
        · refine h2.quiet rfl (Nat.le_refl _) ?_ h2.grp
          intro y hy
          rcases List.mem_cons.1 ((qinsert_perm _ _).mem_iff.1 hy) with rfl | hy
          · exact hne
          · exact h2.queue y hy
    exact h3.post
  | unexec hp => exact h.quiet rfl (Nat.le_refl _) h.queue h.grp
  | finish hp => exact h.quiet rfl (Nat.le_refl _) h.queue (by simp)
  | leave hp => exact h.quiet rfl (Nat.le_refl _) h.queue (by simp)
  | endDone i hp => exact h.quiet rfl (Nat.le_refl _) h.queue (by simp)
  | endSkip i id l hp => exact h.quiet rfl (Nat.le_refl _) h.queue (by simp)
  | endRun i id l hp =>
    apply Dead.acts
    refine h.quiet ?_ (Nat.le_refl _) h.queue (by simp)
    rw [runsOf_append]; simp [runsOf]

/-- What a call adds: either nothing doomed, or a dead event. -/
theorem pushEvent_doomed (s : St) (a p q i c g) (x : Nat) (hx : s.grp.executing = true ↔ s.phase = .running)
    (hq : ∀ y ∈ s.queue, y.id < s.nextId) (hr : runsOf s.nextId s.trace = []) (hgr : ∀ y ∈ s.grp.all, y.id < s.nextId)
    (hd : Doomed (pushEvent s a p q i c g).trace x) : Doomed s.trace x ∨ Dead (pushEvent s a p q i c g) x := by
  have hrun : ∀ o : Obs, (∀ ev now, o ≠ .ran ev now) → runsOf s.nextId (s.trace ++ [o]) = [] := by
    intro o ho
    rw [runsOf_append, hr, runsOf_eq_nil (tr := [o])]
    · rfl
    · intro ev now hm
      simp only [List.mem_singleton] at hm
      exact absurd hm.symm (ho ev now)
  have ign : ∀ u : St, u.trace = s.trace ++ [.ignored s.nextId] → u.queue = s.queue → u.grp = s.grp → u.phase = s.phase →
      u.nextId = s.nextId + 1 → Doomed u.trace x → Doomed s.trace x ∨ Dead u x := by
    intro u htr huq hug hup hun hd
    by_cases hxn : x = s.nextId
    · right
      subst hxn
      refine ⟨by rw [htr]; exact hrun _ (by simp), by omega, ?_, ?_⟩
      · intro y hy; rw [huq] at hy; have := hq y hy; omega
      · intro _ y hy; rw [hug] at hy; have := hgr y hy; omega
    · left
      rw [htr] at hd
      rcases hd with hd | ⟨ev, now, hm, ha, hid⟩
      · simp only [List.mem_append, List.mem_singleton, Obs.ignored.injEq, hxn, or_false] at hd
        exact Or.inl hd
      · simp only [List.mem_append, List.mem_singleton, reduceCtorEq, or_false] at hm
        exact Or.inr ⟨ev, now, hm, ha, hid⟩
  have acc : ∀ (u : St) (ev : Ev), u.trace = s.trace ++ [.sched ev s.tick s.grp.executing] → ev.id = s.nextId →
      u.nextId = s.nextId + 1 → u.phase = s.phase → (ev.at_ = s.tick → u.queue = s.queue) →
      Doomed u.trace x → Doomed s.trace x ∨ Dead u x := by
    intro u ev htr hid hun hup huq hd
    rw [htr] at hd
    rcases hd with hd | ⟨ev', now, hm, ha, hid'⟩
    · simp only [List.mem_append, List.mem_singleton, reduceCtorEq, or_false] at hd
      exact Or.inl (Or.inl hd)
    · rcases List.mem_append.1 hm with hm | hm
      · exact Or.inl (Or.inr ⟨ev', now, hm, ha, hid'⟩)
      · right
        simp only [List.mem_singleton, Obs.sched.injEq] at hm
        obtain ⟨rfl, rfl, hex⟩ := hm
        have hxe : x = s.nextId := by omega
        subst hxe
        refine ⟨by rw [htr]; exact hrun _ (by simp), by omega, ?_, ?_⟩
        · intro y hy; rw [huq ha] at hy; have := hq y hy; omega
        · intro hpr
          rw [hup] at hpr
          have := hx.2 hpr
          simp [this] at hex
  revert hd
  unfold pushEvent
  simp only []
  split
  · exact ign _ rfl rfl rfl rfl rfl
  · rename_i t
    split
    · split
      · exact acc _ _ rfl rfl rfl rfl (fun _ => rfl)
      · rename_i hne
        exact acc _ _ rfl rfl rfl rfl (fun h => absurd h hne)
    · exact ign _ rfl rfl rfl rfl rfl

/-- Identities not yet allocated are unused. -/
structure Fresh (s : St) : Prop where
  pending : ∀ y ∈ s.queue ++ s.grp.all, y.id < s.nextId
  runs : ∀ m, s.nextId ≤ m → runsOf m s.trace = []

theorem Inv.fresh {e fl s} (hi : Inv e fl s) : Fresh s := by
  refine ⟨?_, ?_⟩
  · intro y hy
    obtain ⟨ev, now, d, h1, h2⟩ := hi.src y hy
    have := hi.bound _ _ _ h1
    omega
  · intro m hm'
    apply runsOf_eq_nil
    intro ev now hm
    obtain ⟨ev', now', d', h1, h2⟩ := hi.ranSrc ev now hm
    have := hi.bound _ _ _ h1
    omega

theorem pushEvent_pending_id (s : St) (a p q i c g) : ∀ x ∈ (pushEvent s a p q i c g).queue ++ (pushEvent s a p q i c g).grp.all,
    x ∈ s.queue ++ s.grp.all ∨ (x.id = s.nextId ∧ (pushEvent s a p q i c g).nextId = s.nextId + 1) := by
  unfold pushEvent; simp only []; split
  · exact fun x hx => Or.inl hx
  · split
    · split
      · intro x hx
        rcases List.mem_append.1 hx with hx | hx
        · exact Or.inl (List.mem_append_left _ hx)
        · rcases List.mem_cons.1 ((addEvt_all _ _).mem_iff.1 hx) with rfl | hx
          · exact Or.inr ⟨rfl, rfl⟩
          · exact Or.inl (List.mem_append_right _ hx)
      · intro x hx
        rcases List.mem_append.1 hx with hx | hx
        · rcases List.mem_cons.1 ((qinsert_perm _ _).mem_iff.1 hx) with rfl | hx
          · exact Or.inr ⟨rfl, rfl⟩
          · exact Or.inl (List.mem_append_left _ hx)
        · exact Or.inl (List.mem_append_right _ hx)
    · exact fun x hx => Or.inl hx

theorem applyAct_pending_id (s : St) (a : Act) : ∀ x ∈ (applyAct s a).queue ++ (applyAct s a).grp.all,
    x ∈ s.queue ++ s.grp.all ∨ (x.id = s.nextId ∧ (applyAct s a).nextId = s.nextId + 1) := by
  cases a with
  | sched a p q i l g => exact pushEvent_pending_id s a p q i (.user l) g
  | schedStop a => exact pushEvent_pending_id s a _ _ _ _ _
  | _ => exact fun x hx => Or.inl hx

theorem Fresh.act {s} (h : Fresh s) (a : Act) : Fresh (applyAct s a) := by
  have hn := applyAct_nextId s a
  refine ⟨?_, ?_⟩
  · intro y hy
    rcases applyAct_pending_id s a y hy with hy | ⟨hy, hy'⟩
    · have := h.pending y hy; omega
    · omega
  · intro m hm
    have := foldl_applyAct_runs [a] s m
    simp only [List.foldl_cons, List.foldl_nil] at this
    rw [this]; exact h.runs m (by omega)

theorem applyAct_doomed (s : St) (a : Act) (x : Nat) (hx : s.grp.executing = true ↔ s.phase = .running)
    (hi : Fresh s) (hd : Doomed (applyAct s a).trace x) : Doomed s.trace x ∨ Dead (applyAct s a) x := by
  have hb := hi.pending
  have hr := hi.runs s.nextId (Nat.le_refl _)
  have plain : ∀ (tr : List Obs) (o : Obs), (∀ y, o ≠ .ignored y) → (∀ ev now d, o ≠ .sched ev now d) →
      Doomed (tr ++ [o]) x → Doomed tr x := by
    intro tr o h1 h2 hd
    rcases hd with hd | ⟨ev', now, hm, ha, hid'⟩
    · rcases List.mem_append.1 hd with hd | hd
      · exact Or.inl hd
      · simp only [List.mem_singleton] at hd; exact absurd hd.symm (h1 x)
    · rcases List.mem_append.1 hm with hm | hm
      · exact Or.inr ⟨ev', now, hm, ha, hid'⟩
      · simp only [List.mem_singleton] at hm; exact absurd hm.symm (h2 _ _ _)
  cases a with
  | sched a p q i l g =>
    have := pushEvent_doomed s a p q i (.user l) g x hx (fun y hy => hb y (List.mem_append_left _ hy)) hr
      (fun y hy => hb y (List.mem_append_right _ hy)) hd
    rcases this with h | h
    · exact Or.inl h
    · exact Or.inr ⟨h.runs, h.id, h.queue, h.grp⟩
  | schedStop a =>
    exact pushEvent_doomed s a _ _ _ _ _ x hx (fun y hy => hb y (List.mem_append_left _ hy)) hr
      (fun y hy => hb y (List.mem_append_right _ hy)) hd
  | schedEnd l => exact Or.inl (plain _ _ (by simp) (by simp) hd)
  | void y => exact Or.inl (plain _ _ (by simp) (by simp) hd)
  | stop => exact Or.inl (plain _ _ (by simp) (by simp) hd)

theorem applyActs_doomed (l : List Act) (s : St) (x : Nat) (hx : s.grp.executing = true ↔ s.phase = .running)
    (hi : Fresh s) (hd : Doomed (l.foldl applyAct s).trace x) : Doomed s.trace x ∨ Dead (l.foldl applyAct s) x := by
  induction l generalizing s with
  | nil => exact Or.inl hd
  | cons a l ih =>
    have hx' : (applyAct s a).grp.executing = true ↔ (applyAct s a).phase = .running := by
      rw [applyAct_executing, applyAct_phase]; exact hx
    rcases ih (applyAct s a) hx' (hi.act a) hd with h | h
    · rcases applyAct_doomed s a x hx hi h with h | h
      · exact Or.inl h
      · exact Or.inr (h.acts l)
    · exact Or.inr h

theorem doomed_step {e s t} (hg : GInv s) (hi : Inv e none s) (h : ∀ x, Doomed s.trace x → Dead s x) (hm : MStep e s t) :
    ∀ x, Doomed t.trace x → Dead t x := by
  intro x hd
  have old : Doomed s.trace x → Dead t x := fun hd => (h x hd).step hm
  have hxi : s.phase ≠ .running → (s.grp.executing = true ↔ s.phase = .running) := by
    intro hp; simp [hp, hg.idle hp]
  cases hm with
  | act a hp =>
    rcases applyAct_doomed s a x (hxi (by simp [hp])) hi.fresh hd with hd | hd
    · exact old hd
    · exact hd
  | enter hp =>
    apply old
    revert hd
    unfold startExecute
    split
    · exact id
    · rintro (hd | ⟨ev, now, hm, ha, hid⟩)
      · exact Or.inl (by simpa using hd)
      · exact Or.inr ⟨ev, now, by simpa using hm, ha, hid⟩
  | skip hp => exact old hd
  | exec hp => exact old hd
  | event w ev rest hp hx hn =>
    have hall := set_all_perm hn.1
    have hevid : ev.id < s.nextId := hi.fresh.pending ev (List.mem_append_right _ (hall.mem_iff.2 (by simp)))
    -- before the callback
    have hxs : (s.grp.set rest w).executing = true ↔ s.phase = .running := by simp [set_executing, hx, hp]
    have key : Doomed (callEv e { s with grp := { s.grp.set rest w with size := (s.grp.set rest w).size - 1 } } ev).trace x →
        Doomed s.trace x ∨ Dead (callEv e { s with grp := { s.grp.set rest w with size := (s.grp.set rest w).size - 1 } } ev) x := by
      intro hd
      by_cases hv : ev.id ∈ s.voided
      · rw [callEv, if_pos hv] at hd; exact Or.inl hd
      · obtain ⟨l, hl⟩ := callEv_eq e { s with grp := { s.grp.set rest w with size := (s.grp.set rest w).size - 1 } } ev hv
        rw [hl] at hd ⊢
        have hf : Fresh { s with grp := { s.grp.set rest w with size := (s.grp.set rest w).size - 1 },
                                 trace := s.trace ++ [.ran ev s.tick] } := by
          refine ⟨?_, ?_⟩
          · intro y hy
            apply hi.fresh.pending y
            rcases List.mem_append.1 hy with hy | hy
            · exact List.mem_append_left _ hy
            · exact List.mem_append_right _ (hall.mem_iff.2 (List.mem_cons_of_mem _ hy))
          · intro m hm
            simp only [] at hm ⊢
            rw [runsOf_append, hi.fresh.runs m hm]
            have : ev.id ≠ m := by omega
            simp [runsOf, this]
        rcases applyActs_doomed l _ x hxs hf hd with hd | hd
        · left
          rcases hd with hd | ⟨ev, now, hm, ha, hid⟩
          · exact Or.inl (by simpa using hd)
          · exact Or.inr ⟨ev, now, by simpa using hm, ha, hid⟩
        · exact Or.inr hd
    have htr : (post e (runEv e { s with grp := s.grp.set rest w } ev)).trace =
        (callEv e { s with grp := { s.grp.set rest w with size := (s.grp.set rest w).size - 1 } } ev).trace := by
      rw [show (post e (runEv e { s with grp := s.grp.set rest w } ev)).trace = (runEv e { s with grp := s.grp.set rest w } ev).trace
        from congrArg V.trace (post_view _ _)]
      simp only [runEv, rescheduleEv_trace]
    rw [htr] at hd
    rcases key hd with hd | hd
    · exact old hd
    · -- the rest of the step keeps it dead
      by_cases hxe : x = ev.id
      · -- impossible: `ev` has run or is pending
        subst hxe
        by_cases hv : ev.id ∈ s.voided
        · have hc : callEv e { s with grp := { s.grp.set rest w with size := (s.grp.set rest w).size - 1 } } ev =
              { s with grp := { s.grp.set rest w with size := (s.grp.set rest w).size - 1 } } := by rw [callEv, if_pos hv]
          rw [hc] at htr
          rw [htr] at *
          rename_i hd0
          exact old (by rw [hc] at hd0; exact hd0)
        · exfalso
          obtain ⟨l, hl⟩ := callEv_eq e { s with grp := { s.grp.set rest w with size := (s.grp.set rest w).size - 1 } } ev hv
          have h1 := hd.runs
          rw [hl, foldl_applyAct_runs, runsOf_append] at h1
          simp [runsOf] at h1
      · generalize hcv : callEv e { s with grp := { s.grp.set rest w with size := (s.grp.set rest w).size - 1 } } ev = v at *
        have h3 : Dead (runEv e { s with grp := s.grp.set rest w } ev) x := by
          simp only [runEv, hcv]
          unfold rescheduleEv
          split
          · exact hd
          · split
            · exact hd
            · refine hd.quiet rfl (Nat.le_refl _) ?_ hd.grp
              intro y hy
              rcases List.mem_cons.1 ((qinsert_perm _ _).mem_iff.1 hy) with rfl | hy
              · exact fun h => hxe h.symm
              · exact hd.queue y hy
        exact h3.post
  | unexec hp => exact old hd
  | finish hp => exact old hd
  | leave hp => exact old hd
  | endDone i hp => exact old hd
  | endSkip i id l hp => exact old hd
  | endRun i id l hp =>
    have hxx : s.grp.executing = true ↔ (Phase.ending (i+1)) = .running := by
      simp [hg.idle (by simp [hp])]
    have hf : Fresh { s with phase := .ending (i+1), trace := s.trace ++ [.ranEnd id l] } := by
      refine ⟨hi.fresh.pending, ?_⟩
      intro m hm
      simp only [] at hm ⊢
      rw [runsOf_append, hi.fresh.runs m hm]
      simp [runsOf]
    rcases applyActs_doomed _ _ x hxx hf hd with hd | hd
    · apply old
      rcases hd with hd | ⟨ev, now, hm, ha, hid⟩
      · exact Or.inl (by simpa using hd)
      · exact Or.inr ⟨ev, now, by simpa using hm, ha, hid⟩
    · exact hd

theorem run_doomed (e : Env) (ops : List Op) : ∀ x, Doomed (run e ops).trace x → Dead (run e ops) x := by
  have : Inv e none (run e ops) ∧ ∀ x, Doomed (run e ops).trace x → Dead (run e ops) x := by
    refine run_induction e (fun s => Inv e none s ∧ ∀ x, Doomed s.trace x → Dead s x) ?_ ?_ ops
    · refine ⟨Inv.init e, ?_⟩
      intro x hd
      simp [Doomed, St.init] at hd
    · intro s t hg ⟨hi, h⟩ hm
      exact ⟨hi.step hg hm, doomed_step hg hi h hm⟩
  exact this.2

end Repast.Schedule
