import Verif.Schedule.StopProps

/-!
C82: a run with a stop ends. `execute()` (schedule.py:612-624) is a loop over the ticks, each tick is a loop over the events that
are due (schedule.py:431-433), and the end events follow (schedule.py:623-624); nothing in the code bounds any of the three.
-/
namespace Repast.Schedule

/-! ### Specification -/

/-- The calls in the history `tr` that make the loop they are made in longer: an event scheduled for the very tick at which the
call is made, and an end event. -/
def lengthening (tr : List Obs) : List Obs := tr.filter fun o => match o with
  | .sched ev now _ => decide (ev.at_ = now)
  | .schedEnd _ _ => true
  | _ => false

/-- Up to `T`, the repeating events of the history `tr` move on: the next tick is another one. -/
def Advances (e : Env) (T : Int) (tr : List Obs) : Prop :=
  ∀ ev now d i, Obs.sched ev now d ∈ tr → ev.interval = some i → ∀ t, t < T → t < e.adv t i

/-- Every step of `ops` can be taken when it is taken. -/
def Possible (e : Nat → Env) (n : Nat) (setup : Nat → List Act) (ops : List WOp) : Prop :=
  ∀ pre o post, ops = pre ++ o :: post → CanGoOn n (wrun e n setup pre) o

/-! ### Events scheduled for the current tick -/

theorem lengthening_append (a b : List Obs) : lengthening (a ++ b) = lengthening a ++ lengthening b := by
  simp [lengthening, List.filter_append]

theorem schedEnds_le (tr : List Obs) : (schedEnds tr).length ≤ (lengthening tr).length := by
  induction tr with
  | nil => simp [schedEnds]
  | cons o tr ih =>
    have h2 : lengthening (o :: tr) = lengthening [o] ++ lengthening tr := lengthening_append [o] tr
    have h3 : schedEnds (o :: tr) = schedEnds [o] ++ schedEnds tr := schedEnds_append [o] tr
    have h4 : (schedEnds [o]).length ≤ (lengthening [o]).length := by cases o <;> simp [schedEnds, lengthening]
    rw [h2, h3, List.length_append, List.length_append]
    omega

/-- From `s` to `t`: nothing is forgotten, and the group is interrupted only by an event for the current tick. -/
def Adds' (s t : St) : Prop := (lengthening s.trace).length ≤ (lengthening t.trace).length ∧
  (t.grp.interrupted = true → s.grp.interrupted = true ∨ (lengthening s.trace).length < (lengthening t.trace).length)

theorem Adds'.refl (s : St) : Adds' s s := ⟨Nat.le_refl _, fun h => .inl h⟩
theorem Adds'.trans {a b c : St} (h1 : Adds' a b) (h2 : Adds' b c) : Adds' a c := by
  refine ⟨Nat.le_trans h1.1 h2.1, fun h => ?_⟩
  have := h1.1; have := h2.1
  rcases h2.2 h with h | h
  · rcases h1.2 h with h | h
    · exact .inl h
    · right; omega
  · right; omega

theorem pushEvent_adds' (s : St) (a p q i c g) : Adds' s (pushEvent s a p q i c g) := by
  unfold pushEvent Adds'; simp only []
  split
  · simp only [lengthening_append]
    exact ⟨by simp, fun h => .inl h⟩
  · split
    · split
      · rename_i ht
        simp only [lengthening_append]
        simp [lengthening, ht]
      · rename_i ht
        simp only [lengthening_append]
        exact ⟨by simp, fun h => .inl h⟩
    · simp only [lengthening_append]
      exact ⟨by simp, fun h => .inl h⟩

theorem applyAct_adds' (s : St) (a : Act) : Adds' s (applyAct s a) := by
  cases a with
  | sched a p q i l g => exact pushEvent_adds' s a p q i (.user l) g
  | schedStop a => exact pushEvent_adds' s a _ _ _ _ _
  | schedEnd l => simp only [applyAct, Adds', lengthening_append]; exact ⟨by simp, fun h => .inl h⟩
  | void x => simp only [applyAct, Adds', lengthening_append]; exact ⟨by simp, fun h => .inl h⟩
  | stop => simp only [applyAct, Adds', lengthening_append]; exact ⟨by simp, fun h => .inl h⟩

theorem foldl_applyAct_adds' (l : List Act) (s : St) : Adds' s (l.foldl applyAct s) := by
  induction l generalizing s with
  | nil => exact .refl s
  | cons a l ih => exact (applyAct_adds' s a).trans (ih _)

theorem runEv_adds' (e : Env) (s : St) (ev : Ev) : Adds' s (runEv e s ev) := by
  have h1 : ∀ v : St, Adds' v (rescheduleEv e v ev) := by
    intro v; unfold rescheduleEv; split
    · exact .refl v
    · split <;> exact .refl v
  have h2 : Adds' s { s with grp := { s.grp with size := s.grp.size - 1 } } := .refl s
  refine h2.trans (Adds'.trans ?_ (h1 _))
  generalize ({ s with grp := { s.grp with size := s.grp.size - 1 } } : St) = u
  unfold callEv
  split
  · exact .refl u
  · have h3 : Adds' u { u with trace := u.trace ++ [.ran ev u.tick] } := by
      simp only [Adds', lengthening_append]; exact ⟨by simp, fun h => .inl h⟩
    simp only []
    split
    · exact h3.trans (applyAct_adds' _ _)
    · exact h3.trans (foldl_applyAct_adds' _ _)

theorem executeEvts_adds' (e : Env) (w : Which) (l : List Ev) (s : St) (hi : s.grp.interrupted = false) :
    (lengthening s.trace).length ≤ (lengthening (executeEvts e w l s).1.trace).length ∧
    ((executeEvts e w l s).2 = true → (lengthening s.trace).length < (lengthening (executeEvts e w l s).1.trace).length) := by
  induction l generalizing s with
  | nil => simp [executeEvts]
  | cons ev rest ih =>
    simp only [executeEvts]
    have h := runEv_adds' e { s with grp := s.grp.set rest w } ev
    simp only [Adds', set_interrupted, hi] at h
    split
    · rename_i hint
      refine ⟨h.1, fun _ => ?_⟩
      rcases h.2 hint with h | h
      · cases h
      · exact h
    · rename_i hint
      obtain ⟨i1, i2⟩ := ih (runEv e { s with grp := s.grp.set rest w } ev) (by simpa using hint)
      exact ⟨Nat.le_trans h.1 i1, fun hc => Nat.lt_of_le_of_lt h.1 (i2 hc)⟩

/-- One evaluation of the loop of a tick with events left either is the last one or has been made longer by a callback. -/
theorem groupExecute_adds' (e : Env) (s : St) (hg : GInv s) (hp : s.phase = .running) :
    (lengthening s.trace).length ≤ (lengthening (groupExecute e s).trace).length ∧
    ((groupExecute e s).grp.size = 0 ∨ (lengthening s.trace).length < (lengthening (groupExecute e s).trace).length) := by
  have hi := (hg.run hp).2.2.1
  have hgi := (groupExecute_reach e s hp hi).1.ginv hg
  have hph : (groupExecute e s).phase = .running := by rw [groupExecute_phase]; exact hp
  have hsz := (hgi.run hph).2.2.2
  revert hsz
  unfold groupExecute
  simp only []
  obtain ⟨a01, a02, a1, a2, a3, a4⟩ := executeEvts_reach e .first s.grp.first { s with grp := { s.grp with executing := true } } hp rfl rfl
    (by simp) (by simp) hi
  have A := executeEvts_adds' e .first s.grp.first { s with grp := { s.grp with executing := true } } hi
  split
  · rename_i ha
    exact fun _ => ⟨A.1, .inr (A.2 ha)⟩
  · rename_i ha
    have ha : (executeEvts e .first s.grp.first { s with grp := { s.grp with executing := true } }).2 = false := by simpa using ha
    obtain ⟨a4, -, -, a5, a6⟩ := a4 ha
    have B := executeEvts_reach e .prioritized _ _ a2 a3 rfl (fun _ => a4) (by simp) (a02 ha)
    have B' := executeEvts_adds' e .prioritized (executeEvts e .first s.grp.first { s with grp := { s.grp with executing := true } }).1.grp.prioritized _ (a02 ha)
    simp only [Group.get] at B
    obtain ⟨b01, b02, b1, b2, b3, b4⟩ := B
    split
    · rename_i hb
      exact fun _ => ⟨Nat.le_trans A.1 B'.1, .inr (Nat.lt_of_le_of_lt A.1 (B'.2 hb))⟩
    · rename_i hb
      have hb := Bool.eq_false_iff.2 hb
      obtain ⟨b4, b5, -, -, b6⟩ := b4 hb
      have C := executeEvts_reach e .last _ _ b2 b3 rfl (fun _ => b5 (by simp)) (fun _ => b4) (b02 hb)
      have C' := fun l => executeEvts_adds' e .last l _ (b02 hb)
      simp only [Group.get] at C
      obtain ⟨c01, c02, c1, c2, c3, c4⟩ := C
      split
      · rename_i hc
        exact fun _ => ⟨Nat.le_trans A.1 (Nat.le_trans B'.1 (C' _).1), .inr (Nat.lt_of_le_of_lt (Nat.le_trans A.1 B'.1) ((C' _).2 hc))⟩
      · rename_i hc
        obtain ⟨c4, c5, c6, -, -⟩ := c4 (by simpa using hc)
        intro hsz
        refine ⟨Nat.le_trans A.1 (Nat.le_trans B'.1 (C' _).1), .inl ?_⟩
        rw [hsz, c4, c5 (by simp), c6 trivial]
        rfl

/-! ### Nothing is pending for the current tick -/

def Late (T : Int) (s : St) : Prop := ∀ x ∈ s.queue, s.tick < T → s.tick < x.at_

theorem Late.same {T s t} (h : Late T s) (ht : t.tick = s.tick)
    (hq : ∀ x ∈ t.queue, x ∈ s.queue ∨ (s.tick < T → s.tick < x.at_)) : Late T t := by
  intro x hx hT
  rw [ht] at hT ⊢
  rcases hq x hx with hx | hx
  · exact h x hx hT
  · exact hx hT

theorem Advances.left {e T} {a b : List Obs} (h : Advances e T (a ++ b)) : Advances e T a :=
  fun ev now d i hm => h ev now d i (List.mem_append_left _ hm)

theorem Late.step {e s t T} (hg : GInv s) (hi : Inv e none s) (ha : Advances e T s.trace) (h : Late T s) (hm : MStep e s t) : Late T t := by
  cases hm with
  | act a hp =>
    refine h.same (applyAct_tick _ _) (fun x hx => ?_)
    rcases applyAct_queue s a x hx with hx | hx
    · exact .inl hx
    · exact .inr fun _ => hx
  | enter hp hgo =>
    unfold startExecute
    split
    · exact h.same rfl (fun x hx => Or.inl hx)
    · rename_i ev l hq
      have hle : ∀ x ∈ s.queue, ev.at_ ≤ x.at_ := by
        intro x hx
        have hs := hi.sorted
        rw [hq] at hx hs
        rcases List.mem_cons.1 hx with rfl | hx
        · exact Int.le_refl _
        · exact sorted_head_le hs x hx
      intro x hx _
      exact mem_dropWhile_gt hi.sorted hle x hx
  | skip hp => exact h.same rfl (fun x hx => Or.inl hx)
  | exec hp => exact h.same rfl (fun x hx => Or.inl hx)
  | event w ev rest hp hx hn =>
    refine h.same ?_ ?_
    · have : (post e (runEv e { s with grp := s.grp.set rest w } ev)).tick = (runEv e { s with grp := s.grp.set rest w } ev).tick :=
        congrArg V.tick (post_view _ _)
      rw [this, runEv_tick]
    · intro x hxq
      rw [post_queue] at hxq
      rcases runEv_queue _ _ _ x hxq with hxq | hxq | ⟨i, hint, hat⟩
      · exact Or.inl hxq
      · exact .inr fun _ => hxq
      · right
        intro hT
        have hevall : ev ∈ s.grp.all := (set_all_perm hn.1).mem_iff.2 (by simp)
        obtain ⟨a, n, d, k, hs, htk, rfl⟩ := hi.pending_eq (List.mem_append_right _ hevall)
        have hocc : occ e a k = s.tick := by
          cases htk.status with
          | queued _ h2 =>
            have : nth e a k ∈ sel a.id s.grp.all := mem_sel.2 ⟨hevall, rfl⟩
            rw [h2] at this; simp at this
          | grouped _ _ _ h4 => exact h4
          | flying _ _ _ _ h4 => simp at h4
          | gone _ h2 =>
            have : nth e a k ∈ sel a.id s.grp.all := mem_sel.2 ⟨hevall, rfl⟩
            rw [h2] at this; simp at this
        have := ha a n d i hs hint s.tick hT
        rw [hat]
        simp only [nth, hocc]
        exact this
  | unexec hp => exact h.same rfl (fun x hx => Or.inl hx)
  | finish hp => exact h.same rfl (fun x hx => Or.inl hx)
  | leave hp => exact h.same rfl (fun x hx => Or.inl hx)
  | endDone i hp => exact h.same rfl (fun x hx => Or.inl hx)
  | endSkip i id l hp => exact h.same rfl (fun x hx => Or.inl hx)
  | endRun i id l hp =>
    refine h.same ?_ ?_
    · simp [foldl_applyAct_tick]
    · intro x hx
      rcases foldl_applyAct_queue _ _ x hx with hx | hx
      · exact Or.inl hx
      · exact .inr fun _ => hx

theorem run_late (e : Env) (ops : List Op) (T : Int) (ha : Advances e T (run e ops).trace) : Late T (run e ops) := by
  have : Inv e none (run e ops) ∧ (Advances e T (run e ops).trace → Late T (run e ops)) := by
    refine run_induction e (fun s => Inv e none s ∧ (Advances e T s.trace → Late T s)) ?_ ?_ ops
    · exact ⟨Inv.init e, fun _ => by simp [Late, St.init]⟩
    · intro s t hg ⟨hi, h⟩ hm
      refine ⟨hi.step hg hm, fun ha => ?_⟩
      obtain ⟨tl, htl⟩ := hm.trace_prefix hi
      rw [htl] at ha
      exact (h ha.left).step hg hi ha.left hm
  exact this.2 ha

/-! ### What is left to do -/

/-- The tick a rank is at, or is about to enter. -/
def etick (r : Rank) : Int := match r.grant with
  | some m => if r.st.nextTick = m then m else r.st.tick
  | none => r.st.tick

def stageOf (r : Rank) : Nat :=
  if r.grant.isSome then 5 else if r.wait.isSome then 1
  else if r.st.phase = .running then (if 0 < r.st.grp.size then 4 else 3) else 2

def todo (B : Nat) (r : Rank) : Nat := match r.st.phase with
  | .finished => 0
  | .ending i => 1 + (B - i)
  | _ => (B + 2) + (B - (lengthening r.st.trace).length) + stageOf r

def pot (T : Int) (B n : Nat) (r : Rank) : Nat := (4 * n + 1) * (T - etick r).toNat + todo B r

def total (f : Nat → Nat) : Nat → Nat
  | 0 => 0
  | n + 1 => total f n + f n

theorem total_le {f g : Nat → Nat} {n d : Nat} (h : ∀ j, j < n → f j ≤ g j + d) : total f n ≤ total g n + d * n := by
  induction n with
  | zero => simp [total]
  | succ n ih =>
    have := ih (fun j hj => h j (by omega))
    have := h n (by omega)
    simp only [total, Nat.mul_succ]
    omega

theorem total_lt {f g : Nat → Nat} {n d K i : Nat} (h : ∀ j, j < n → f j ≤ g j + d) (hi : i < n) (hK : f i + K ≤ g i + d) :
    total f n + K ≤ total g n + d * n := by
  induction n with
  | zero => omega
  | succ n ih =>
    simp only [total, Nat.mul_succ]
    by_cases hin : i = n
    · subst hin
      have := total_le (n := i) (fun j hj => h j (by omega))
      omega
    · have := ih (fun j hj => h j (by omega)) (by omega)
      have := h n (by omega)
      omega

/-- What is known of a rank of a run in which every rank stops at `T`. -/
structure Here (T : Int) (B : Nat) (r : Rank) : Prop where
  next : r.st.phase = .idle → r.st.go = true → r.st.tick < r.st.nextTick ∧ r.st.nextTick ≤ T ∧ r.st.queue ≠ []
  sync : r.st.phase = .idle → Synced r.st
  wait : ∀ v, r.wait = some v → v = r.st.nextTick ∧ r.st.phase = .idle ∧ r.st.go = true ∧ r.grant = none
  grant : ∀ m, r.grant = some m → r.st.phase = .idle ∧ r.st.go = true
  ginv : GInv r.st
  ends : r.st.endEvts.length ≤ B

theorem wstep_other {e : Nat → Env} {n : Nat} {w : World} {o : WOp} {i j : Nat} (ho : o.rank = some i) (hj : j ≠ i) :
    (wstep e n w o).ranks j = w.ranks j := by
  rcases wstep_cases e n w o j with h | ⟨rfl, -⟩ | ⟨rfl, -⟩ | ⟨rfl, -⟩ | ⟨rfl, -⟩ | ⟨rfl, -⟩ | ⟨rfl, -⟩
  · exact h
  all_goals simp [WOp.rank] at ho
  all_goals exact absurd ho hj

theorem pot_local {e : Nat → Env} {n : Nat} {w : World} {o : WOp} {i : Nat} {T : Int} {B : Nat} (ho : o.rank = some i) (hi : i < n)
    (h1 : etick ((wstep e n w o).ranks i) = etick (w.ranks i)) (h2 : todo B ((wstep e n w o).ranks i) < todo B (w.ranks i)) :
    total (fun k => pot T B n ((wstep e n w o).ranks k)) n < total (fun k => pot T B n (w.ranks k)) n := by
  have := total_lt (f := fun k => pot T B n ((wstep e n w o).ranks k)) (g := fun k => pot T B n (w.ranks k)) (n := n) (d := 0) (K := 1) (i := i)
    (by
      intro j hj
      by_cases hji : j = i
      · subst hji
        simp only [pot, h1]; omega
      · simp only [wstep_other ho hji]; omega) hi (by simp only [pot, h1]; omega)
  omega

theorem pot_step {e : Nat → Env} {n : Nat} {w : World} {o : WOp} {T : Int} {B : Nat} (hw : ∀ i, i < n → Here T B (w.ranks i))
    (hB : ∀ i, i < n → (lengthening ((wstep e n w o).ranks i).st.trace).length ≤ B) (hc : CanGoOn n w o) :
    total (fun k => pot T B n ((wstep e n w o).ranks k)) n < total (fun k => pot T B n (w.ranks k)) n := by
  have hpre : ∀ i, (lengthening (w.ranks i).st.trace).length ≤ (lengthening ((wstep e n w o).ranks i).st.trace).length := by
    intro i
    obtain ⟨tl, ht⟩ := wstep_prefix e n w o i
    rw [ht, lengthening_append, List.length_append]; omega
  cases o with
  | arrive i =>
    obtain ⟨hi, h1, h2, h3, h4⟩ := hc
    have he : (wstep e n w (.arrive i)).ranks i = { w.ranks i with wait := some (w.ranks i).st.nextTick } := by
      simp only [wstep, h1, h2, h3, h4, and_self, if_true]
    refine pot_local (i := i) rfl hi ?_ ?_
    · rw [he]; simp only [etick, h4]
    · rw [he]; simp [todo, h1, stageOf, h3, h4]
  | reduce =>
    obtain ⟨hn, hall⟩ := hc
    obtain ⟨m, hm⟩ : ∃ m, w.allreduce n = some m := by
      unfold World.allreduce
      rw [if_pos (by simpa using hall)]
      cases hmin : ((List.range n).map (fun i => (w.ranks i).wait.getD 0)).min? with
      | some m => exact ⟨m, rfl⟩
      | none =>
        rw [List.min?_eq_none_iff] at hmin
        simp at hmin; omega
    obtain ⟨s1, i, hi, s2⟩ := allreduce_spec hm
    have he : ∀ k, (wstep e n w .reduce).ranks k = { w.ranks k with wait := none, grant := some m } := by
      intro k; simp only [wstep, hm]
    have htodo : ∀ k, k < n → todo B ((wstep e n w .reduce).ranks k) = todo B (w.ranks k) + 4 := by
      intro k hk
      obtain ⟨v, hv, -⟩ := s1 k hk
      obtain ⟨-, h2, -, h4⟩ := (hw k hk).wait v hv
      rw [he]
      simp [todo, h2, stageOf, hv, h4]
    have hle : ∀ k, k < n → etick (w.ranks k) ≤ etick ((wstep e n w .reduce).ranks k) := by
      intro k hk
      obtain ⟨v, hv, -⟩ := s1 k hk
      obtain ⟨-, h2, h3, h4⟩ := (hw k hk).wait v hv
      have := (hw k hk).next h2 h3
      rw [he]
      simp only [etick, h4]
      split <;> omega
    have hlt : (T - etick ((wstep e n w .reduce).ranks i)).toNat + 1 ≤ (T - etick (w.ranks i)).toNat := by
      obtain ⟨h1, h2, h3, h4⟩ := (hw i hi).wait m s2
      have := (hw i hi).next h2 h3
      rw [he]
      simp only [etick, h4, h1, if_true]
      omega
    have := total_lt (f := fun k => pot T B n ((wstep e n w .reduce).ranks k)) (g := fun k => pot T B n (w.ranks k)) (n := n) (d := 4)
      (K := 4 * n + 1) (i := i)
      (by
        intro k hk
        simp only [pot, htodo k hk]
        have : (T - etick ((wstep e n w .reduce).ranks k)).toNat ≤ (T - etick (w.ranks k)).toNat := by have := hle k hk; omega
        have := Nat.mul_le_mul_left (4 * n + 1) this
        omega) hi
      (by
        simp only [pot, htodo i hi]
        have := Nat.mul_le_mul_left (4 * n + 1) hlt
        rw [Nat.mul_add, Nat.mul_one] at this
        omega)
    omega
  | resume i =>
    obtain ⟨hi, hg⟩ := hc
    obtain ⟨m, hm⟩ := Option.isSome_iff_exists.1 hg
    obtain ⟨h1, h2⟩ := (hw i hi).grant m hm
    have he : (wstep e n w (.resume i)).ranks i =
        { st := step (e i) (w.ranks i).st (if (w.ranks i).st.nextTick = m then .enter else .skip) } := by
      simp only [wstep, hm, World.localStep, if_true]
    have hold : todo B (w.ranks i) = (B + 2) + (B - (lengthening (w.ranks i).st.trace).length) + 5 := by
      simp [todo, h1, stageOf, hm]
    have hpi := hpre i
    by_cases hn : (w.ranks i).st.nextTick = m
    · rw [if_pos hn] at he
      rcases enter_tick (e := e i) h1 h2 ((hw i hi).sync h1) with ⟨hq, -⟩ | ⟨ht, hr⟩
      · exact absurd hq ((hw i hi).next h1 h2).2.2
      · refine pot_local (i := i) rfl hi ?_ ?_
        · rw [he]; simp only [etick, hm, hn, if_true]; rw [ht, hn]
        · rw [hold]
          rw [he] at hpi ⊢
          simp only [todo, hr, stageOf, Option.isSome_none, Bool.false_eq_true, if_false, if_true] at hpi ⊢
          split <;> omega
    · rw [if_neg hn] at he
      simp only [step, h1, h2, and_self, if_true] at he
      refine pot_local (i := i) rfl hi ?_ ?_
      · rw [he]; simp only [etick, hm, hn, if_false]
      · rw [hold, he]
        simp [todo, stageOf, h1]
  | loop i =>
    obtain ⟨hi, hr⟩ := hc
    have he : (wstep e n w (.loop i)).ranks i = { st := step (e i) (w.ranks i).st .loop } := by
      simp only [wstep, hr, World.localStep, if_true]
    have hno : (w.ranks i).grant = none ∧ (w.ranks i).wait = none := by
      refine ⟨?_, ?_⟩
      · cases hg : (w.ranks i).grant with
        | none => rfl
        | some m => have := ((hw i hi).grant m hg).1; rw [hr] at this; cases this
      · cases hg : (w.ranks i).wait with
        | none => rfl
        | some m => have := ((hw i hi).wait m hg).2.1; rw [hr] at this; cases this
    have hBi := hB i hi
    refine pot_local (i := i) rfl hi ?_ ?_
    · rw [he]; simp only [etick, hno.1]
      exact step_tick (e i) _ .loop (by simp) (by simp)
    · rw [he] at hBi ⊢
      simp only [step, hr, if_true] at hBi ⊢
      by_cases hsz : 0 < (w.ranks i).st.grp.size
      · rw [if_pos hsz] at hBi ⊢
        have hg := groupExecute_adds' (e i) (w.ranks i).st (hw i hi).ginv hr
        have hph : (groupExecute (e i) (w.ranks i).st).phase = .running := by rw [groupExecute_phase]; exact hr
        simp only [todo, hph, hr, stageOf, hno.1, hno.2, Option.isSome_none, Bool.false_eq_true, if_false, if_true, if_pos hsz] at hBi ⊢
        rcases hg with ⟨g1, g2 | g2⟩
        · rw [if_neg (by omega)]; omega
        · split <;> omega
      · rw [if_neg hsz]
        simp [todo, hr, stageOf, hno.1, hno.2, hsz]
  | leave i =>
    obtain ⟨hi, h1, h2⟩ := hc
    have he : (wstep e n w (.leave i)).ranks i = { st := { (w.ranks i).st with phase := .ending 0 } } := by
      simp only [wstep, h1, h2, and_self, World.localStep, if_true, step]
    have hno : (w.ranks i).grant = none := by
      cases hg : (w.ranks i).grant with
      | none => rfl
      | some m => have := ((hw i hi).grant m hg).2; rw [h2] at this; cases this
    refine pot_local (i := i) rfl hi ?_ ?_
    · rw [he]; simp only [etick, hno]
    · rw [he]; simp only [todo, h1]; omega
  | endEvt i =>
    obtain ⟨hi, j, hr⟩ := hc
    have he : (wstep e n w (.endEvt i)).ranks i = { st := step (e i) (w.ranks i).st .endEvt } := by
      simp only [wstep, hr, World.localStep, if_true]
    have hno : (w.ranks i).grant = none := by
      cases hg : (w.ranks i).grant with
      | none => rfl
      | some m => have := ((hw i hi).grant m hg).1; rw [hr] at this; cases this
    refine pot_local (i := i) rfl hi ?_ ?_
    · rw [he]; simp only [etick, hno]
      exact step_tick (e i) _ .endEvt (by simp) (by simp)
    · have hph : (step (e i) (w.ranks i).st .endEvt).phase = .finished ∨
          ((step (e i) (w.ranks i).st .endEvt).phase = .ending (j + 1) ∧ j < (w.ranks i).st.endEvts.length) := by
        simp only [step, hr]
        cases hj : (w.ranks i).st.endEvts[j]? with
        | none => left; rfl
        | some p =>
          right
          refine ⟨?_, (List.getElem?_eq_some_iff.1 hj).1⟩
          simp only []
          split
          · rfl
          · rw [foldl_applyAct_phase]
      have := (hw i hi).ends
      rw [he]
      rcases hph with h | ⟨h, hl⟩
      · simp only [todo, h, hr]; omega
      · simp only [todo, h, hr]; omega

/-! ### The theorems -/

/-- What is asked of the histories of the ranks. -/
def Asked (e : Nat → Env) (n : Nat) (T : Int) (B : Nat) (setup : Nat → List Act) (w : World) : Prop :=
  AllStop n T setup w ∧ ∀ i, i < n → Advances (e i) T (w.ranks i).st.trace ∧ (lengthening (w.ranks i).st.trace).length ≤ B

theorem Asked.prev {e : Nat → Env} {n : Nat} {w : World} {o : WOp} {T : Int} {B : Nat} {setup : Nat → List Act}
    (h : Asked e n T B setup (wstep e n w o)) : Asked e n T B setup w := by
  refine ⟨h.1.prev, fun i hi => ?_⟩
  obtain ⟨h1, h2⟩ := h.2 i hi
  obtain ⟨tl, ht⟩ := wstep_prefix e n w o i
  rw [ht] at h1 h2
  rw [lengthening_append, List.length_append] at h2
  exact ⟨h1.left, by omega⟩

theorem here (e : Nat → Env) (n : Nat) (setup : Nat → List Act) (ops : List WOp) (hadv : ∀ i, AdvMono (e i))
    (hs : ∀ i, i < n → Synced ((setup i).foldl applyAct St.init)) (T : Int) (B : Nat)
    (h : Asked e n T B setup (wrun e n setup ops)) : ∀ i, i < n → Here T B ((wrun e n setup ops).ranks i) := by
  obtain ⟨L, hL⟩ := wrun_inv e n setup ops hadv hs (fun i hi => (h.1 i hi).1)
  intro i hi
  have hR := hL.rank i hi
  obtain ⟨hall, hmore⟩ := h
  obtain ⟨ha, hB⟩ := hmore i hi
  unfold wrun at *
  generalize ops.filter _ = ops at *
  have hdue := stop_due (hall i hi).2.1
  have hwg := wait_grant e n setup ops i hi _ rfl
  obtain ⟨l, hl⟩ := rank_run e n setup ops i
  have hlate := run_late (e i) l T (by rw [← hl]; exact ha)
  have hgi := run_ginv (e i) l
  have hfa := (run_facts (e i) l).ends
  rw [← hl] at hlate hgi hfa
  refine ⟨?_, hR.sync, ?_, fun m hm => ⟨(hR.grant m hm).1, (hR.grant m hm).2.1⟩, hgi, ?_⟩
  · intro h1 h2
    rcases hdue (by rw [h1]; simp) with h | ⟨hlt, t, ht, hle⟩
    · rw [h2] at h; cases h
    · rcases (hR.sync h1).head with ⟨hq, -⟩ | ⟨ev, q, hq, hn⟩
      · rw [headTick, hq] at ht; simp at ht
      · have h3 := hlate ev (by rw [hq]; simp) hlt
        rw [headTick, hq] at ht
        simp at ht
        rw [hn]
        exact ⟨h3, by omega, by rw [hq]; simp⟩
  · intro v hv
    obtain ⟨h1, h2, h3⟩ := hR.wait v hv
    refine ⟨h1, h2, h3, ?_⟩
    rcases (hwg (.inl (by rw [hv]; rfl))).2.2 with h | h
    · rw [hv] at h; cases h
    · exact h
  · have h1 := schedEnds_le ((ops.foldl (wstep e n) (World.init setup)).ranks i).st.trace
    have h2 : ((ops.foldl (wstep e n) (World.init setup)).ranks i).st.endEvts = schedEnds _ := hfa
    rw [h2]
    exact Nat.le_trans h1 hB

theorem canGoOn_rank {n : Nat} {w : World} {o : WOp} (h : CanGoOn n w o) : ∀ i, o.rank = some i → i < n := by
  intro i hi
  cases o <;> simp [WOp.rank] at hi <;> subst hi <;> exact h.1

theorem wrun_snoc {e : Nat → Env} {n : Nat} {setup : Nat → List Act} {ops : List WOp} {o : WOp} (h : ∀ i, o.rank = some i → i < n) :
    wrun e n setup (ops ++ [o]) = wstep e n (wrun e n setup ops) o := by
  unfold wrun
  rw [List.filter_append, List.foldl_append, List.filter_cons_of_pos]
  · rfl
  · cases o <;> simp [WOp.rank] at h ⊢ <;> exact h

theorem Possible.left {e : Nat → Env} {n : Nat} {setup : Nat → List Act} {a b : List WOp} (h : Possible e n setup (a ++ b)) :
    Possible e n setup a := by
  intro pre o post hp
  exact h pre o (post ++ b) (by rw [hp]; simp)

theorem pot_run (e : Nat → Env) (n : Nat) (setup : Nat → List Act) (ops : List WOp) (hadv : ∀ i, AdvMono (e i))
    (hs : ∀ i, i < n → Synced ((setup i).foldl applyAct St.init)) (T : Int) (B : Nat)
    (h : Asked e n T B setup (wrun e n setup ops)) (hp : Possible e n setup ops) :
    total (fun k => pot T B n ((wrun e n setup ops).ranks k)) n + ops.length ≤
      total (fun k => pot T B n ((World.init setup).ranks k)) n := by
  induction ops using snoc_induction with
  | h0 => simp [wrun]
  | h1 ops o ih =>
    have hc := hp ops o [] (by simp)
    rw [wrun_snoc (canGoOn_rank hc)] at h ⊢
    have := ih h.prev hp.left
    have := pot_step (here e n setup ops hadv hs T B h.prev) (fun i hi => (h.2 i hi).2) hc
    rw [List.length_append, List.length_singleton]
    omega

theorem total_const (n c : Nat) {f : Nat → Nat} (h : ∀ k, k < n → f k ≤ c) : total f n ≤ n * c := by
  induction n with
  | zero => simp [total]
  | succ n ih =>
    have := ih (fun k hk => h k (by omega))
    have := h n (by omega)
    simp only [total, Nat.succ_mul]
    omega

/-- Every rank calls `schedule_stop(T)` before `execute()`, that stop is not voided and nobody is stopped before tick `T`; repeating
events move on; and no rank makes its loops longer more than `B` times. Then only so many steps can be taken, in whatever order the
ranks take them. Partial: it requires that `next_tick` is right when `execute()` begins (`StopsFresh`, see `C73_violation`) and that
intervals are not negative. -/
theorem C82_bounded_partial (e : Nat → Env) (n : Nat) (setup : Nat → List Act) (ops : List WOp) (hadv : ∀ i, AdvMono (e i))
    (T : Int) (B : Nat) (hs : ∀ i, i < n → StopsFresh (setup i))
    (hnn : ∀ i, i < n → NonNegIntervals ((wrun e n setup ops).ranks i).st.trace)
    (hT : ∀ i, i < n → StopsAt T (setup i) ((wrun e n setup ops).ranks i).st.trace)
    (hb : ∀ i, i < n → NotBefore T ((wrun e n setup ops).ranks i).st.trace)
    (ha : ∀ i, i < n → Advances (e i) T ((wrun e n setup ops).ranks i).st.trace)
    (hB : ∀ i, i < n → (lengthening ((wrun e n setup ops).ranks i).st.trace).length ≤ B)
    (hp : Possible e n setup ops) : ops.length ≤ n * ((4 * n + 1) * (T - startTick).toNat + 2 * B + 4) := by
  have h := pot_run e n setup ops hadv (fun i hi => (hs i hi).synced) T B
    ⟨fun i hi => ⟨hnn i hi, hT i hi, hb i hi⟩, fun i hi => ⟨ha i hi, hB i hi⟩⟩ hp
  have h2 : total (fun k => pot T B n ((World.init setup).ranks k)) n ≤ n * ((4 * n + 1) * (T - startTick).toNat + 2 * B + 4) := by
    refine total_const _ _ (fun k hk => ?_)
    have h1 : ((setup k).foldl applyAct St.init).tick = startTick := foldl_applyAct_tick _ _
    have h3 : ((setup k).foldl applyAct St.init).phase = .idle := foldl_applyAct_phase _ _
    simp [pot, World.init, etick, h1, todo, h3, stageOf]
    omega
  omega

/-- Under the same conditions: whichever of the possible steps is taken next, again and again, after finitely many of them `execute()`
has returned on all ranks. -/
theorem C82_ends_partial (e : Nat → Env) (n : Nat) (setup : Nat → List Act) (f : Nat → WOp) (hadv : ∀ i, AdvMono (e i))
    (T : Int) (B : Nat) (hs : ∀ i, i < n → StopsFresh (setup i))
    (hf : ∀ k, (∃ o, CanGoOn n (wrun e n setup ((List.range k).map f)) o) → CanGoOn n (wrun e n setup ((List.range k).map f)) (f k))
    (hnn : ∀ k i, i < n → NonNegIntervals ((wrun e n setup ((List.range k).map f)).ranks i).st.trace)
    (hT : ∀ k i, i < n → StopsAt T (setup i) ((wrun e n setup ((List.range k).map f)).ranks i).st.trace)
    (hb : ∀ k i, i < n → NotBefore T ((wrun e n setup ((List.range k).map f)).ranks i).st.trace)
    (ha : ∀ k i, i < n → Advances (e i) T ((wrun e n setup ((List.range k).map f)).ranks i).st.trace)
    (hB : ∀ k i, i < n → (lengthening ((wrun e n setup ((List.range k).map f)).ranks i).st.trace).length ≤ B) :
    ∃ k, k ≤ n * ((4 * n + 1) * (T - startTick).toNat + 2 * B + 4) ∧
      ∀ i, i < n → ((wrun e n setup ((List.range k).map f)).ranks i).st.phase = .finished := by
  generalize hN : n * ((4 * n + 1) * (T - startTick).toNat + 2 * B + 4) = N
  apply Classical.byContradiction
  intro hcon
  have hgo : ∀ k, k ≤ N → CanGoOn n (wrun e n setup ((List.range k).map f)) (f k) := by
    intro k hk
    rcases (C73_stop_together_partial e n setup ((List.range k).map f) hadv T hs (hnn k) (hT k) (hb k)).1 with h | h
    · exact absurd ⟨k, hk, h⟩ hcon
    · exact hf k h
  have hpos : Possible e n setup ((List.range (N + 1)).map f) := by
    intro pre o post hp
    have hlen : pre.length < N + 1 := by
      have := congrArg List.length hp
      simp at this; omega
    have hpre : pre = (List.range pre.length).map f := by
      have h1 : pre = ((List.range (N + 1)).map f).take pre.length := by rw [hp]; simp
      rw [← List.map_take, List.take_range] at h1
      rw [Nat.min_eq_left (by omega)] at h1
      exact h1
    have ho : o = f pre.length := by
      have h1 : ((List.range (N + 1)).map f)[pre.length]? = some o := by rw [hp]; simp
      simpa [hlen] using h1.symm
    rw [ho, hpre]
    have := hgo pre.length (by omega)
    simpa using this
  have := C82_bounded_partial e n setup ((List.range (N + 1)).map f) hadv T B hs (hnn _) (hT _) (hb _) (ha _) (hB _) hpos
  simp at this
  omega

/-! ### Without the bound -/

/-- An event whose callable schedules an event for the tick at which it runs. -/
def againEnv : Env := exEnv fun _ _ => [one 1]

/-- In the tick, with one event left. -/
structure Again (s : St) : Prop where
  phase : s.phase = .running
  tick : s.tick = 1
  grp : ∃ ev, ev.ptype = .random ∧ ev.interval = none ∧ (∃ l, ev.cb = .user l) ∧ s.grp.first = [] ∧ s.grp.last = [] ∧ s.grp.prioritized = [ev]
  rest : s.grp.random = [] ∧ s.grp.added = [] ∧ s.grp.interrupted = false ∧ s.grp.size = 1
  voided : s.voided = []
  quiet : ∀ o ∈ s.trace, (∀ x, o ≠ .voided x) ∧ o ≠ .stopped ∧ ∀ ev now d, o = .sched ev now d → ev.interval = none

theorem Again.loop {s : St} (h : Again s) : Again (step againEnv s .loop) := by
  obtain ⟨ev, g1, g2, ⟨l, g3⟩, g4, g5, g6⟩ := h.grp
  obtain ⟨r1, r2, r3, r4⟩ := h.rest
  have hq := h.quiet
  simp only [step, h.phase, if_true, r4, show (0 : Int) < 1 by decide]
  have hex : ∀ s : St, executeEvts againEnv .first [] s = (s, false) := fun _ => rfl
  simp only [groupExecute, g4, hex, Bool.false_eq_true, if_false, g6]
  simp [executeEvts, runEv, callEv, h.voided, g3, againEnv, exEnv, one, applyAct, pushEvent, Group.set, h.tick, Group.addEvt, rescheduleEv, g2,
    addDuring, Group.addEvt', Group.sort, ordSort, stableSort, r1, r2, r3, r4, g4, g5]
  constructor <;> simp [h.phase]
  · exact ⟨_, rfl, rfl, ⟨0, rfl⟩, rfl⟩
  · intro o ho
    rcases ho with ho | rfl | rfl
    · obtain ⟨q1, q2, q3⟩ := hq o ho
      exact ⟨q1, q2, fun ev now => ⟨q3 ev now false, q3 ev now true⟩⟩
    · simp
    · simp

/-- A stop at 3, and an event at 1. -/
def againSetup : Nat → List Act := fun _ => [.schedStop (some 3), one 1]

def againOps (k : Nat) : List WOp := [.arrive 0, .reduce, .resume 0] ++ List.replicate k (.loop 0)

def againWorld (k : Nat) : World := wrun (fun _ => againEnv) 1 againSetup (againOps k)

theorem againWorld_succ (k : Nat) : againWorld (k + 1) = wstep (fun _ => againEnv) 1 (againWorld k) (.loop 0) := by
  unfold againWorld againOps
  rw [List.replicate_succ', ← List.append_assoc, wrun_snoc]
  simp [WOp.rank]

theorem again_start : Again ((againWorld 0).ranks 0).st := by
  refine ⟨by decide +kernel, by decide +kernel,
    ⟨{ id := 1, at_ := 1, ord := 1, ptype := .random, prio := none, interval := none, cb := .user 0, tag := none }, rfl, rfl, ⟨0, rfl⟩,
      by decide +kernel, by decide +kernel, by decide +kernel⟩,
    by decide +kernel, by decide +kernel, ?_⟩
  have ht : ((againWorld 0).ranks 0).st.trace =
      [.sched { id := 0, at_ := 3, ord := 0, ptype := .random, prio := none, interval := none, cb := .stop, tag := none } startTick false,
       .sched { id := 1, at_ := 1, ord := 1, ptype := .random, prio := none, interval := none, cb := .user 0, tag := none } startTick false,
       .start 1] := by decide +kernel
  rw [ht]
  intro o ho
  simp only [List.mem_cons, List.not_mem_nil, or_false] at ho
  rcases ho with rfl | rfl | rfl
  · simp only [ne_eq, reduceCtorEq, not_false_eq_true, implies_true, true_and]; rintro ev now d ⟨⟩; rfl
  · simp only [ne_eq, reduceCtorEq, not_false_eq_true, implies_true, true_and]; rintro ev now d ⟨⟩; rfl
  · simp

def againNext (k : Nat) : WOp := if k = 0 then .arrive 0 else if k = 1 then .reduce else if k = 2 then .resume 0 else .loop 0

theorem againNext_ops (j : Nat) : (List.range (j + 3)).map againNext = againOps j := by
  induction j with
  | zero => rfl
  | succ j ih =>
    rw [show j + 1 + 3 = (j + 3) + 1 by omega, List.range_succ, List.map_append, ih]
    unfold againOps
    rw [List.replicate_succ', ← List.append_assoc]
    simp [againNext]

theorem again_all (k : Nat) : Again ((againWorld k).ranks 0).st := by
  induction k with
  | zero => exact again_start
  | succ k ih =>
    rw [againWorld_succ]
    simp only [wstep, ih.phase, if_true, World.localStep]
    exact ih.loop

/-- Without the bound `B` the claim is false: there is a run with a stop, in which all the other conditions hold and in which, after any
number of steps, the process is still in tick 1. -/
theorem C82_violation_same_tick : ∃ (e : Nat → Env) (setup : Nat → List Act) (f : Nat → WOp), (∀ i, AdvMono (e i)) ∧ StopsFresh (setup 0) ∧
    ∀ k, CanGoOn 1 (wrun e 1 setup ((List.range k).map f)) (f k) ∧
      NonNegIntervals ((wrun e 1 setup ((List.range k).map f)).ranks 0).st.trace ∧
      StopsAt 3 (setup 0) ((wrun e 1 setup ((List.range k).map f)).ranks 0).st.trace ∧
      NotBefore 3 ((wrun e 1 setup ((List.range k).map f)).ranks 0).st.trace ∧
      Advances (e 0) 3 ((wrun e 1 setup ((List.range k).map f)).ranks 0).st.trace ∧
      ((wrun e 1 setup ((List.range k).map f)).ranks 0).st.tick ≤ 1 ∧ ((wrun e 1 setup ((List.range k).map f)).ranks 0).st.phase ≠ .finished := by
  refine ⟨fun _ => againEnv, againSetup, againNext,
    fun i t d hd => by simp only [againEnv, exEnv]; omega,
    .inl ⟨[.schedStop (some 3)], _, _, _, _, _, _, [], rfl, by simp⟩, ?_⟩
  have quiet : ∀ tr : List Obs, (∀ o ∈ tr, (∀ x, o ≠ .voided x) ∧ o ≠ .stopped ∧ ∀ ev now d, o = .sched ev now d → ev.interval = none) →
      NonNegIntervals tr ∧ StopsAt 3 (againSetup 0) tr ∧ NotBefore 3 tr ∧ Advances againEnv 3 tr := by
    intro tr h
    refine ⟨?_, ⟨by decide, by simp [againSetup], ?_⟩, ?_, ?_⟩
    · intro ev now d i hm hi
      rw [(h _ hm).2.2 ev now d rfl] at hi; cases hi
    · intro ev now d hm _ _ hv
      exact (h _ hv).1 ev.id rfl
    · intro pre post hp
      exact absurd rfl (h .stopped (by rw [hp]; simp)).2.1
    · intro ev now d i hm hi
      rw [(h _ hm).2.2 ev now d rfl] at hi; cases hi
  have early : ∀ k, (∀ o ∈ ((wrun (fun _ => againEnv) 1 againSetup ((List.range k).map againNext)).ranks 0).st.trace,
      o ∈ ((againWorld 0).ranks 0).st.trace) →
      ∀ o ∈ ((wrun (fun _ => againEnv) 1 againSetup ((List.range k).map againNext)).ranks 0).st.trace, (∀ x, o ≠ .voided x) ∧ o ≠ .stopped ∧
        ∀ ev now d, o = .sched ev now d → ev.interval = none := fun k h o ho => again_start.quiet o (h o ho)
  intro k
  match k with
  | 0 =>
    obtain ⟨q1, q2, q3, q4⟩ := quiet _ (early 0 (by decide +kernel))
    exact ⟨⟨by decide, by decide +kernel⟩, q1, q2, q3, q4, by decide +kernel, by decide +kernel⟩
  | 1 =>
    obtain ⟨q1, q2, q3, q4⟩ := quiet _ (early 1 (by decide +kernel))
    exact ⟨⟨by decide, by decide +kernel⟩, q1, q2, q3, q4, by decide +kernel, by decide +kernel⟩
  | 2 =>
    obtain ⟨q1, q2, q3, q4⟩ := quiet _ (early 2 (by decide +kernel))
    exact ⟨⟨by decide, by decide +kernel⟩, q1, q2, q3, q4, by decide +kernel, by decide +kernel⟩
  | j + 3 =>
    rw [againNext_ops]
    have ha : Again ((wrun (fun _ => againEnv) 1 againSetup (againOps j)).ranks 0).st := again_all j
    obtain ⟨q1, q2, q3, q4⟩ := quiet _ ha.quiet
    refine ⟨?_, q1, q2, q3, q4, by rw [ha.tick]; omega, by rw [ha.phase]; simp⟩
    have : againNext (j + 3) = .loop 0 := by simp [againNext]
    rw [this]
    exact ⟨by omega, ha.phase⟩

/-- Nor is it true if a repeating event does not move on: in no run in which a rank has such an event before `T` does `execute()` return
there, as long as the event is not voided. -/
theorem C82_violation_stall (e : Nat → Env) (n : Nat) (setup : Nat → List Act) (ops : List WOp) (hadv : ∀ i, AdvMono (e i))
    (T : Int) (hs : ∀ i, i < n → StopsFresh (setup i))
    (hnn : ∀ i, i < n → NonNegIntervals ((wrun e n setup ops).ranks i).st.trace)
    (hT : ∀ i, i < n → StopsAt T (setup i) ((wrun e n setup ops).ranks i).st.trace)
    (hb : ∀ i, i < n → NotBefore T ((wrun e n setup ops).ranks i).st.trace)
    (i : Nat) (hi : i < n) (ev : Ev) (now iv : Int) (d : Bool) (hev : Obs.sched ev now d ∈ ((wrun e n setup ops).ranks i).st.trace)
    (hlt : ev.at_ < T) (hnow : now < ev.at_ ∨ d = true) (hint : ev.interval = some iv) (hstall : (e i).adv ev.at_ iv = ev.at_)
    (hv : ¬ IsVoided ev.id ((wrun e n setup ops).ranks i).st.trace) : ((wrun e n setup ops).ranks i).st.phase ≠ .finished := by
  intro hf
  have hst := ((C73_stop_together_partial e n setup ops hadv T hs hnn hT hb).2 i hi).2 (by rw [hf]; simp) (by rw [hf]; simp)
  have hm := wrun_mono e n setup ops hadv hnn i hi
  have h1 := mono_start_le hm hst
  have hocc : ∀ k, occ (e i) ev k = ev.at_ := by
    intro k
    induction k with
    | zero => rfl
    | succ k ih => simp only [occ, hint, ih, hstall]
  obtain ⟨l, hl⟩ : ∃ l, ((wrun e n setup ops).ranks i).st = run (e i) l := by
    unfold wrun
    exact rank_run e n setup (ops.filter _) i
  rw [hl] at hev hv hf hm h1
  obtain ⟨k, -, h2⟩ := C03_repeating (e i) l ev now iv d hev hint
  obtain ⟨hq, -⟩ := h2 hnow hv (by rw [hf]; simp)
  have hmem : ({ ev with at_ := occ (e i) ev k } : Ev) ∈ (run (e i) l).queue := by
    have : ({ ev with at_ := occ (e i) ev k } : Ev) ∈ (run (e i) l).queue.filter (fun x => x.id == ev.id) := by rw [hq]; simp
    exact (List.mem_filter.1 this).1
  have := hm.queue _ hmem
  rw [hocc] at this
  simp only [] at this
  omega

/-! ### Examples -/

/-- A stop at 3, and an event at 1 that repeats with interval 0: after five rounds it is still tick 1. -/
def stallWorld : World :=
  wrun (fun _ => exEnv fun _ _ => []) 1 (fun _ => [.schedStop (some 3), rep 1 0])
    (List.replicate 5 [.arrive 0, .reduce, .resume 0, .loop 0, .loop 0]).flatten

example : (stallWorld.ranks 0).st.phase ≠ .finished ∧ starts (stallWorld.ranks 0).st.trace = [1, 1, 1, 1, 1] := by
  have h0 : ∀ i, i < 1 → i = 0 := by omega
  refine ⟨C82_violation_stall (fun _ => exEnv fun _ _ => []) 1 (fun _ => [.schedStop (some 3), rep 1 0]) _
    (fun i t d hd => by simp only [exEnv]; omega) 3 (fun i hi => .inl ⟨[.schedStop (some 3)], _, _, _, _, _, _, [], rfl, by simp⟩)
    (fun i hi => nonNeg_of_check (by rw [h0 i hi]; decide +kernel)) (fun i hi => stopsAt_of_check (by rw [h0 i hi]; decide +kernel))
    (fun i hi => notBefore_of_check (by rw [h0 i hi]; decide +kernel)) 0 (by omega)
    { id := 1, at_ := 1, ord := 1, ptype := .random, prio := none, interval := some 0, cb := .user 0, tag := none } startTick 0 false
    (by decide +kernel) (by decide) (.inl (by decide)) rfl (by decide) (by unfold IsVoided; decide +kernel), by decide +kernel⟩

/-- A run of the two ranks of `stopSetup` in which rank 0 also makes the end events and a tick longer. -/
def endsEnv : Nat → Env
  | 0 => exEnv (fun h _ => if h.length < 8 then [one 2] else []) (fun h _ => if h.length < 17 then [.schedEnd 1] else [])
  | _ => exEnv fun _ _ => []

def endsOps : List WOp :=
  [.arrive 1, .arrive 0, .reduce, .resume 0, .resume 1, .loop 1, .loop 1,
   .arrive 1, .arrive 0, .reduce, .resume 0, .loop 0, .loop 0, .loop 0, .loop 0, .resume 1, .loop 1, .loop 1,
   .arrive 1, .arrive 0, .reduce, .resume 0, .loop 0, .loop 0, .resume 1, .loop 1, .loop 1,
   .leave 1, .endEvt 1, .leave 0, .endEvt 0, .endEvt 0, .endEvt 0, .endEvt 0]

def endsNext (k : Nat) : WOp := endsOps.getD k .reduce

def endsWorld (k : Nat) : World := wrun endsEnv 2 stopSetup ((List.range k).map endsNext)

def canGoOnCheck (n : Nat) (w : World) : WOp → Bool
  | .arrive i => decide (i < n ∧ (w.ranks i).st.phase = .idle ∧ (w.ranks i).st.go = true ∧ (w.ranks i).wait = none ∧ (w.ranks i).grant = none)
  | .reduce => decide (0 < n) && (List.range n).all fun i => (w.ranks i).wait.isSome
  | .resume i => decide (i < n) && (w.ranks i).grant.isSome
  | .loop i => decide (i < n ∧ (w.ranks i).st.phase = .running)
  | .leave i => decide (i < n ∧ (w.ranks i).st.phase = .idle ∧ (w.ranks i).st.go = false)
  | .endEvt i => decide (i < n) && match (w.ranks i).st.phase with
    | .ending _ => true
    | _ => false

theorem canGoOn_of_check {n : Nat} {w : World} {o : WOp} (h : canGoOnCheck n w o = true) : CanGoOn n w o := by
  cases o with
  | arrive i => simpa [canGoOnCheck, CanGoOn] using h
  | reduce => simpa [canGoOnCheck, CanGoOn] using h
  | resume i => simpa [canGoOnCheck, CanGoOn] using h
  | loop i => simpa [canGoOnCheck, CanGoOn] using h
  | leave i => simpa [canGoOnCheck, CanGoOn] using h
  | endEvt i =>
    simp only [canGoOnCheck, Bool.and_eq_true, decide_eq_true_eq] at h
    refine ⟨h.1, ?_⟩
    cases hp : (w.ranks i).st.phase with
    | ending k => exact ⟨k, rfl⟩
    | _ => rw [hp] at h; simp at h

def advCheck (tr : List Obs) : Bool := tr.all (fun o => match o with
  | .sched ev _ _ => decide (0 < ev.interval.getD 1)
  | _ => true)

theorem adv_of_check {e : Env} {T : Int} {tr : List Obs} (he : e.adv = fun a b => a + b) (h : advCheck tr = true) : Advances e T tr := by
  intro ev now d i hm hi t _
  simp only [advCheck, List.all_eq_true] at h
  have := h _ hm
  simp [hi] at this
  rw [he]; simp only []; omega

theorem endsWorld_late (m : Nat) : endsWorld (34 + m) = endsWorld 34 := by
  induction m with
  | zero => rfl
  | succ m ih =>
    have h1 : endsWorld (34 + (m + 1)) = wstep endsEnv 2 (endsWorld (34 + m)) .reduce := by
      unfold endsWorld
      rw [show 34 + (m + 1) = (34 + m) + 1 by omega, List.range_succ, List.map_append, List.map_singleton, wrun_snoc]
      · have : endsNext (34 + m) = .reduce := by simp [endsNext, endsOps]
        rw [this]
      · simp [endsNext, endsOps, WOp.rank]
    rw [h1, ih]
    have : (endsWorld 34).allreduce 2 = none := by decide +kernel
    simp only [wstep, this]

theorem endsWorld_eq (k : Nat) : ∃ j, j < 35 ∧ endsWorld k = endsWorld j ∧ (k < 34 → j = k) := by
  by_cases hk : k < 34
  · exact ⟨k, by omega, rfl, fun _ => rfl⟩
  · refine ⟨34, by omega, ?_, fun h => absurd h hk⟩
    have := endsWorld_late (k - 34)
    rwa [show 34 + (k - 34) = k by omega] at this

theorem endsChecks : ∀ j, j < 35 → ∀ i, i < 2 → (nonNegCheck ((endsWorld j).ranks i).st.trace && stopsAtCheck 3 (stopSetup i) ((endsWorld j).ranks i).st.trace &&
    notBeforeCheck 3 ((endsWorld j).ranks i).st.trace && advCheck ((endsWorld j).ranks i).st.trace &&
    decide ((lengthening ((endsWorld j).ranks i).st.trace).length ≤ 5)) = true := by decide +kernel

theorem endsGoOn : ∀ j, j < 34 → canGoOnCheck 2 (endsWorld j) (endsNext j) = true := by decide +kernel

/-- the hypotheses of `C82_ends_partial` hold of this run; it has returned on both ranks after 34 steps and not before -/
example : (∃ k, k ≤ 2 * ((4 * 2 + 1) * (3 - startTick).toNat + 2 * 5 + 4) ∧
      ∀ i, i < 2 → ((wrun endsEnv 2 stopSetup ((List.range k).map endsNext)).ranks i).st.phase = .finished) ∧
    ((endsWorld 34).ranks 0).st.phase = .finished ∧ ((endsWorld 33).ranks 0).st.phase = .ending 3 := by
  have henv : ∀ i, (endsEnv i).adv = fun a b => a + b := by
    intro i; unfold endsEnv; split <;> rfl
  have all : ∀ k i, i < 2 → NonNegIntervals ((endsWorld k).ranks i).st.trace ∧ StopsAt 3 (stopSetup i) ((endsWorld k).ranks i).st.trace ∧
      NotBefore 3 ((endsWorld k).ranks i).st.trace ∧ Advances (endsEnv i) 3 ((endsWorld k).ranks i).st.trace ∧
      (lengthening ((endsWorld k).ranks i).st.trace).length ≤ 5 := by
    intro k i hi
    obtain ⟨j, hj, he, -⟩ := endsWorld_eq k
    have h := endsChecks j hj i hi
    simp only [Bool.and_eq_true, decide_eq_true_eq] at h
    obtain ⟨⟨⟨⟨h1, h2⟩, h3⟩, h4⟩, h5⟩ := h
    rw [he]
    exact ⟨nonNeg_of_check h1, stopsAt_of_check h2, notBefore_of_check h3, adv_of_check (henv i) h4, h5⟩
  refine ⟨C82_ends_partial endsEnv 2 stopSetup endsNext (fun i t d hd => by rw [henv]; simp only []; omega) 3 5 stopSetup_fresh ?_
    (fun k i hi => (all k i hi).1) (fun k i hi => (all k i hi).2.1) (fun k i hi => (all k i hi).2.2.1)
    (fun k i hi => (all k i hi).2.2.2.1) (fun k i hi => (all k i hi).2.2.2.2), by decide +kernel, by decide +kernel⟩
  intro k hex
  by_cases hk : k < 34
  · exact canGoOn_of_check (endsGoOn k hk)
  · exfalso
    obtain ⟨o, ho⟩ := hex
    have he : endsWorld k = endsWorld 34 := by
      have := endsWorld_late (k - 34)
      rwa [show 34 + (k - 34) = k by omega] at this
    have ho : CanGoOn 2 (endsWorld 34) o := by rw [← he]; exact ho
    have hfin : ∀ i, i < 2 → ((endsWorld 34).ranks i).st.phase = .finished ∧ ((endsWorld 34).ranks i).wait = none ∧
      ((endsWorld 34).ranks i).grant = none := by decide +kernel
    cases o with
    | arrive i => have := hfin i ho.1; rw [ho.2.1] at this; cases this.1
    | reduce => have := hfin 0 (by omega); have h2 := ho.2 0 (by omega); rw [this.2.1] at h2; cases h2
    | resume i => have := hfin i ho.1; have h2 := ho.2; rw [this.2.2] at h2; cases h2
    | loop i => have := hfin i ho.1; rw [ho.2] at this; cases this.1
    | leave i => have := hfin i ho.1; rw [ho.2.1] at this; cases this.1
    | endEvt i => obtain ⟨h1, k, h2⟩ := ho; have := hfin i h1; rw [h2] at this; cases this.1

end Repast.Schedule
