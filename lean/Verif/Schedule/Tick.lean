import Verif.Schedule.Plan
import Verif.Schedule.WorldLemmas

/-! What one evaluation of the loop of `Schedule.execute` preserves: an induction principle over its single events. -/
namespace Repast.Schedule

theorem executeEvts_ind (e : Env) (P : St → Prop) (hP : ∀ s t, s.phase = .running → MStep e s t → P s → P t) (w : Which) (l : List Ev) (s : St)
    (hp : s.phase = .running) (hx : s.grp.executing = true) (hl : s.grp.get w = l)
    (h1 : w ≠ .first → s.grp.first = []) (h2 : w = .last → s.grp.prioritized = []) (h : P s) : P (executeEvts e w l s).1 := by
  induction l generalizing s with
  | nil => exact h
  | cons ev rest ih =>
    have hstep := MStep.event (e := e) s w ev rest hp hx ⟨hl, h1, h2⟩
    have hpost := hP _ _ hp hstep h
    simp only [executeEvts]
    have hsame := runEv_same e { s with grp := s.grp.set rest w } ev (by simp [set_executing, hx])
    have hph : (runEv e { s with grp := s.grp.set rest w } ev).phase = .running := by rw [runEv_phase]; exact hp
    have hex : (runEv e { s with grp := s.grp.set rest w } ev).grp.executing = true := by
      rw [hsame.executing]; simp [set_executing, hx]
    split
    · rename_i hi
      simpa only [post, hi, if_true] using hpost
    · rename_i hi
      simp only [post, hi] at hpost
      have hf := hsame.first
      have hpr := hsame.prioritized
      have hla := hsame.last
      exact ih (runEv e { s with grp := s.grp.set rest w } ev) hph hex
        (by cases w <;> simp_all [Group.get, Group.set])
        (by intro hw; rw [hf]; cases w <;> simp_all [Group.set])
        (by intro hw; rw [hpr]; cases w <;> simp_all [Group.set]) (by simpa using hpost)

theorem groupExecute_ind (e : Env) (P : St → Prop) (hP : ∀ s t, s.phase = .running → MStep e s t → P s → P t) (s : St) (hp : s.phase = .running)
    (hi : s.grp.interrupted = false) (h : P s) : P (groupExecute e s) := by
  have h0 : P { s with grp := { s.grp with executing := true } } := hP _ _ hp (.exec s hp) h
  unfold groupExecute
  simp only []
  obtain ⟨a01, a02, a1, a2, a3, a4⟩ := executeEvts_reach e .first s.grp.first { s with grp := { s.grp with executing := true } } hp rfl rfl
    (by simp) (by simp) hi
  have A := executeEvts_ind e P hP .first s.grp.first { s with grp := { s.grp with executing := true } } hp rfl rfl
    (by simp) (by simp) h0
  split
  · exact A
  · rename_i ha
    have ha : (executeEvts e .first s.grp.first { s with grp := { s.grp with executing := true } }).2 = false := by simpa using ha
    obtain ⟨a4, -, -, a5, a6⟩ := a4 ha
    have B := executeEvts_reach e .prioritized _ _ a2 a3 rfl (fun _ => a4) (by simp) (a02 ha)
    have B' := executeEvts_ind e P hP .prioritized _ _ a2 a3 rfl (fun _ => a4) (by simp) A
    simp only [Group.get] at B B'
    obtain ⟨b01, b02, b1, b2, b3, b4⟩ := B
    split
    · exact B'
    · rename_i hb
      have hb := Bool.eq_false_iff.2 hb
      obtain ⟨b4, b5, -, -, b6⟩ := b4 hb
      have C := executeEvts_reach e .last _ _ b2 b3 rfl (fun _ => b5 (by simp)) (fun _ => b4) (b02 hb)
      have C' := executeEvts_ind e P hP .last _ _ b2 b3 rfl (fun _ => b5 (by simp)) (fun _ => b4) B'
      simp only [Group.get] at C C'
      obtain ⟨c01, c02, c1, c2, c3, c4⟩ := C
      split
      · exact C'
      · rename_i hc
        obtain ⟨c4, c5, c6, -, -⟩ := c4 (by simpa using hc)
        exact hP _ _ c2 (.unexec _ c2 (c5 (by simp)) (c6 trivial) c4) C'

/-- What single events and the end of the tick preserve, an evaluation of the loop preserves. -/
theorem loop_ind (e : Env) (P : St → Prop) (hP : ∀ s t, s.phase = .running → MStep e s t → P s → P t) (s : St) (hg : GInv s) (ho : OpInv s) (hp : s.phase = .running) (h : P s) :
    P (step e s .loop) := by
  simp only [step, if_pos hp]
  obtain ⟨r1, r2, r3, r4⟩ := hg.run hp
  split
  · exact groupExecute_ind e P hP s hp r3 h
  · rename_i hs
    refine hP _ _ hp (.finish s hp (by omega) ?_) h
    cases hx : s.grp.executing with
    | false => rfl
    | true =>
      have h1 := ho hp hx
      have := size_of_all r1 r2
      omega

end Repast.Schedule
