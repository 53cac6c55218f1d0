import Verif.Schedule.WorldLemmas
import Verif.Mpi.Lib

/-
C74: `SharedScheduleRunner.execute` (schedule.py:612-624) on ranks that run at their own speed, with events that call collective functions themselves: `context.synchronize`, `request_agents` and others. The
reductions of `execute` and the collective operations of the events are operations of the same communicator.

The schedule of a rank is that of `Verif/Schedule/Model`. Simplification: what an event schedules depends on the history of the schedule of its rank and not on what the rank has in its contexts; the model
does the scheduling of a tick first, and then what its callables do to the contexts, in the order in which they are called (the two have no state in common).
-/
namespace Repast.Mpi.Run
open Repast.Schedule (Env St Obs Ev Act)
open Repast.Mpi

variable {σ : Type}

/-- The callables that are called in a piece of history, in order: those of events (schedule.py:71-72, 245) and end events (schedule.py:624). -/
def calls (tr : List Obs) : List Nat := tr.filterMap fun o => match o with
  | .ran ev _ => match ev.cb with
    | .user l => some l
    | .stop => none
  | .ranEnd _ l => some l
  | _ => none

/-- What has been called between two states of a schedule. -/
def fresh (s s' : St) : List Nat := calls (s'.trace.drop s.trace.length)

/-- schedule.py:431-433: the loop of `Schedule.execute`, with `f` evaluations at most; a tick that does not end by then counts as an exception. -/
def finishTick (e : Env) : Nat → St → Option St
  | 0, _ => none
  | f + 1, s => if s.phase = .running then finishTick e f (Schedule.step e s .loop) else some s

/-- schedule.py:623-624: the end events, with `f` evaluations of the loop at most. -/
def finishEnd (e : Env) : Nat → St → Option St
  | 0, _ => none
  | f + 1, s => if s.phase = .finished then some s else finishEnd e f (Schedule.step e s .endEvt)

/-- schedule.py:619-621: what a rank does to its schedule after a reduction with the result `m`. -/
def round (e : Env) (fuel : Nat) (m : Option Int) (s : St) : Option St :=
  if some s.nextTick = m then finishTick e fuel (Schedule.step e s .enter) else some (Schedule.step e s .skip)

/-- schedule.py:612-624 `SharedScheduleRunner.execute`, the first `N` iterations of its loop. `body l` is what the callable `l` does to the context `c` of the rank. -/
def execute (e : Env) (fuel : Nat) (body : Nat → σ → Prog σ) : Nat → St → σ → Prog (St × σ)
  | 0, s, c => .ret (s, c)
  | N + 1, s, c =>
    if s.go = true then
      (Prog.call "schedule.py:618" s.nextTick).bind fun l => (Prog.lift (round e fuel l.min? s)).bind fun s' =>
        (Prog.forM body (fresh s s') c).bind fun c' => execute e fuel body N s' c'
    else
      (Prog.lift (finishEnd e fuel (Schedule.step e s .leave))).bind fun s' => (Prog.forM body (fresh s s') c).bind fun c' => .ret (s', c')

/-! ### Specification -/

/-- The ranks make the same collective calls: in each of the first `N` iterations all of them go on or all of them leave, and the callables that are collective (`coll`) are called in the same order by all;
other callables may be called by any rank at any time. -/
def Aligned (e : Nat → Env) (fuel n : Nat) (coll : Nat → Bool) : Nat → (Nat → St) → Prop
  | 0, _ => True
  | N + 1, S =>
    ((∀ i < n, (S i).go = true) ∧ ∀ S' : Nat → St, (∀ i < n, round (e i) fuel ((List.range n).map fun j => (S j).nextTick).min? (S i) = some (S' i)) →
      (∃ C, ∀ i < n, (fresh (S i) (S' i)).filter coll = C) ∧ Aligned e fuel n coll N S') ∨
    ((∀ i < n, (S i).go = false) ∧ ∀ S' : Nat → St, (∀ i < n, finishEnd (e i) fuel (Schedule.step (e i) (S i) .leave) = some (S' i)) →
      ∃ C, ∀ i < n, (fresh (S i) (S' i)).filter coll = C)

/-- The first `N` iterations of a schedule that is the same on all ranks. -/
def solo (e : Env) (fuel : Nat) : Nat → St → Option St
  | 0, s => some s
  | N + 1, s => if s.go = true then (round e fuel (some s.nextTick) s).bind (solo e fuel N) else finishEnd e fuel (Schedule.step e s .leave)

/-! ### Programs -/

variable {n : Nat} {α β γ : Type}

theorem Prog.bind_assoc (p : Prog α) (q : α → Prog β) (r : β → Prog γ) : (p.bind q).bind r = p.bind fun a => (q a).bind r := by
  induction p with
  | ret a => rfl
  | raise => rfl
  | coll site T m k ih => show Prog.coll _ _ _ _ = Prog.coll _ _ _ _; congr 1; funext l; exact ih l

theorem Prog.forM_append {ι : Type} (body : ι → α → Prog α) (a b : List ι) (x : α) : Prog.forM body (a ++ b) x = (Prog.forM body a x).bind fun y => Prog.forM body b y := by
  induction a generalizing x with
  | nil => rfl
  | cons i a ih =>
    show (body i x).bind _ = ((body i x).bind _).bind _
    rw [Prog.bind_assoc]
    congr 1
    funext y
    exact ih y

theorem Lock.bind_ex {ps : Nat → Prog α} {q : Nat → α → Prog β} {o : Option (Nat → α)} (h : Lock n ps o) (h' : ∀ f, o = some f → ∃ o', Lock n (fun i => q i (f i)) o') :
    ∃ o', Lock n (fun i => (ps i).bind (q i)) o' := by
  cases o with
  | none => exact ⟨_, Lock.bind (o' := fun _ => none) h fun f e => by cases e⟩
  | some f =>
    obtain ⟨o', h'⟩ := h' f rfl
    exact ⟨_, Lock.bind (o' := fun _ => o') h fun g e => by cases e; exact h'⟩

/-! ### One round -/

section
variable {B : Type} (H : Nat → B → σ → Prop) (coll : Nat → Bool) (body : Nat → Nat → σ → Prog σ)

/-- A callable that is not collective. -/
def Local (l : Nat) : Prop := ∀ i c, ∃ x, body i l c = Prog.lift x ∧ ∀ b, H i b c → ∀ c', x = some c' → H i b c'

/-- A callable that all ranks call together. -/
def Together (n l : Nat) : Prop := ∀ b (w : Nat → σ), (∀ i < n, H i b (w i)) → ∃ o, Lock n (fun i => body i l (w i)) o ∧ ∀ w', o = some w' → ∃ b', ∀ i < n, H i b' (w' i)

variable {H coll body}

theorem local_forM (hl : ∀ l, coll l = false → Local H body l) (i : Nat) : ∀ (L : List Nat), (∀ l ∈ L, coll l = false) → ∀ c, ∃ x, Prog.forM (body i) L c = Prog.lift x ∧
    ∀ b, H i b c → ∀ c', x = some c' → H i b c' := by
  intro L
  induction L with
  | nil => intro _ c; exact ⟨some c, rfl, fun b hb c' e => by cases e; exact hb⟩
  | cons l L ih =>
    intro hL c
    obtain ⟨x, h1, h2⟩ := hl l (hL l (by simp)) i c
    cases x with
    | none =>
      refine ⟨none, ?_, fun _ _ _ e => by cases e⟩
      show (body i l c).bind _ = _
      rw [h1]; rfl
    | some d =>
      obtain ⟨y, h3, h4⟩ := ih (fun l hl => hL l (List.mem_cons_of_mem _ hl)) d
      refine ⟨y, ?_, fun b hb c' e => h4 b (h2 b hb d rfl) c' e⟩
      show (body i l c).bind _ = _
      rw [h1]
      exact h3

theorem lock_local (hl : ∀ l, coll l = false → Local H body l) (L : Nat → List Nat) (hL : ∀ i < n, ∀ l ∈ L i, coll l = false) (b : B) (w : Nat → σ) (hw : ∀ i < n, H i b (w i)) :
    ∃ o, Lock n (fun i => Prog.forM (body i) (L i) (w i)) o ∧ ∀ w', o = some w' → ∀ i < n, H i b (w' i) := by
  have hx : ∀ i, ∃ x, i < n → (Prog.forM (body i) (L i) (w i) = Prog.lift x ∧ ∀ b, H i b (w i) → ∀ c', x = some c' → H i b c') := by
    intro i
    by_cases hi : i < n
    · obtain ⟨x, h⟩ := local_forM hl i (L i) (hL i hi) (w i)
      exact ⟨x, fun _ => h⟩
    · exact ⟨none, fun h => absurd h hi⟩
  let x : Nat → Option σ := fun i => Classical.choose (hx i)
  have hxs : ∀ i < n, Prog.forM (body i) (L i) (w i) = Prog.lift (x i) ∧ ∀ b, H i b (w i) → ∀ c', x i = some c' → H i b c' := fun i hi => Classical.choose_spec (hx i) hi
  refine ⟨eachOf n x w, (Lock.each x w).congr fun i hi => (hxs i hi).1, ?_⟩
  intro w' e i hi
  exact (hxs i hi).2 b (hw i hi) (w' i) (eachOf_some e i hi)

theorem takeWhile_all {p : Nat → Bool} {L : List Nat} {l : Nat} (h : l ∈ L.takeWhile p) : p l = true := by
  induction L with
  | nil => cases h
  | cons a L ih =>
    rw [List.takeWhile_cons] at h
    split at h
    · rename_i e
      rcases List.mem_cons.1 h with rfl | h
      · exact e
      · exact ih h
    · cases h

theorem takeWhile_not {L : List Nat} {c : Nat} {C : List Nat} (h : L.filter coll = c :: C) :
    L = L.takeWhile (fun l => !coll l) ++ c :: (L.dropWhile (fun l => !coll l)).tail ∧ coll c = true ∧ ((L.dropWhile (fun l => !coll l)).tail).filter coll = C := by
  induction L with
  | nil => cases h
  | cons a L ih =>
    cases e : coll a with
    | true =>
      rw [List.filter_cons_of_pos e, List.cons.injEq] at h
      obtain ⟨rfl, h⟩ := h
      simp [e, h]
    | false =>
      rw [List.filter_cons_of_neg (by simp [e])] at h
      have := ih h
      simp only [List.takeWhile_cons, List.dropWhile_cons, e, Bool.not_false, if_true, List.cons_append, List.cons.injEq, true_and]
      exact this

theorem lock_calls (hl : ∀ l, coll l = false → Local H body l) (hc : ∀ l, coll l = true → Together H body n l) : ∀ (C : List Nat) (L : Nat → List Nat), (∀ i < n, (L i).filter coll = C) → ∀ (b : B) (w : Nat → σ),
    (∀ i < n, H i b (w i)) → ∃ o, Lock n (fun i => Prog.forM (body i) (L i) (w i)) o ∧ ∀ w', o = some w' → ∃ b', ∀ i < n, H i b' (w' i) := by
  intro C
  induction C with
  | nil =>
    intro L hL b w hw
    obtain ⟨o, h1, h2⟩ := lock_local hl L (fun i hi l hm => by
      have := hL i hi
      rw [List.filter_eq_nil_iff] at this
      simpa using this l hm) b w hw
    exact ⟨o, h1, fun w' e => ⟨b, h2 w' e⟩⟩
  | cons c C ih =>
    intro L hL b w hw
    by_cases hn : 0 < n
    · have hcc : coll c = true := (takeWhile_not (hL 0 hn)).2.1
      obtain ⟨o1, h1, h2⟩ := lock_local hl (fun i => (L i).takeWhile fun l => !coll l) (fun i hi l hm => by
        simpa using takeWhile_all hm) b w hw
      have hsplit : ∀ i < n, Prog.forM (body i) (L i) (w i) = (Prog.forM (body i) ((L i).takeWhile fun l => !coll l) (w i)).bind fun y =>
          (body i c y).bind fun y => Prog.forM (body i) ((L i).dropWhile fun l => !coll l).tail y := by
        intro i hi
        conv => lhs; rw [(takeWhile_not (hL i hi)).1]
        rw [Prog.forM_append]; rfl
      cases o1 with
      | none => exact ⟨none, (Lock.bind (o' := fun _ => none) h1 fun f e => by cases e).congr hsplit, fun w' e => by cases e⟩
      | some w1 =>
        obtain ⟨o2, h3, h4⟩ := hc c hcc b w1 (h2 w1 rfl)
        cases o2 with
        | none =>
          refine ⟨none, (Lock.bind (o' := fun _ => none) h1 fun f e => ?_).congr hsplit, fun w' e => by cases e⟩
          cases e
          exact Lock.bind (o' := fun _ => none) h3 fun f e => by cases e
        | some w2 =>
          obtain ⟨b', hb'⟩ := h4 w2 rfl
          obtain ⟨o3, h5, h6⟩ := ih (fun i => ((L i).dropWhile fun l => !coll l).tail) (fun i hi => (takeWhile_not (hL i hi)).2.2) b' w2 hb'
          refine ⟨o3, (Lock.bind (o' := fun _ => o3) h1 fun f e => ?_).congr hsplit, h6⟩
          cases e
          exact Lock.bind (o' := fun _ => o3) h3 fun f e => by cases e; exact h5
    · exact ⟨some w, .done fun i hi => absurd hi (by omega), fun w' e => ⟨b, fun i hi => absurd hi (by omega)⟩⟩

/-! ### All rounds -/

theorem Lock.cast {ps : Nat → Prog α} {o o' : Option (Nat → α)} (h : Lock n ps o) (e : o = o') : Lock n ps o' := e ▸ h

theorem lift_all {X : Nat → Option α} (d : Nat → α) {q : Nat → α → Prog β} (h : ∀ f : Nat → α, (∀ i < n, X i = some (f i)) → ∃ o, Lock n (fun i => q i (f i)) o) :
    ∃ o, Lock n (fun i => (Prog.lift (X i)).bind (q i)) o :=
  Lock.bind_ex (Lock.each X d) fun f e => h f fun i hi => eachOf_some e i hi

theorem lock_execute (hl : ∀ l, coll l = false → Local H body l) (hc : ∀ l, coll l = true → Together H body n l) (e : Nat → Env) (fuel : Nat) : ∀ (N : Nat) (S : Nat → St), Aligned e fuel n coll N S →
    ∀ (b : B) (w : Nat → σ), (∀ i < n, H i b (w i)) → ∃ o, Lock n (fun i => execute (e i) fuel (body i) N (S i) (w i)) o := by
  intro N
  induction N with
  | zero => intro S _ b w _; exact ⟨some fun i => (S i, w i), .done fun _ _ => rfl⟩
  | succ N ih =>
    rintro S (⟨hg, ha⟩ | ⟨hg, ha⟩) b w hw
    · have h : ∃ o, Lock n (fun i => (Prog.call "schedule.py:618" (S i).nextTick).bind fun l => (Prog.lift (round (e i) fuel l.min? (S i))).bind fun s' =>
          (Prog.forM (body i) (fresh (S i) s') (w i)).bind fun c' => execute (e i) fuel (body i) N s' c') o := by
        obtain ⟨o, h⟩ := lift_all (n := n) (X := fun i => round (e i) fuel ((List.range n).map fun j => (S j).nextTick).min? (S i)) S
          (q := fun i s' => (Prog.forM (body i) (fresh (S i) s') (w i)).bind fun c' => execute (e i) fuel (body i) N s' c') (fun S' hS' => by
            obtain ⟨⟨C, hC⟩, hA⟩ := ha S' hS'
            obtain ⟨o, h1, h2⟩ := lock_calls hl hc C _ hC b w hw
            refine Lock.bind_ex (q := fun i c' => execute (e i) fuel (body i) N (S' i) c') h1 fun w' e' => ?_
            obtain ⟨b', hb'⟩ := h2 w' e'
            exact ih S' hA b' w' hb')
        exact ⟨o, Lock.called (m := fun i => (S i).nextTick) h⟩
      obtain ⟨o, h⟩ := h
      exact ⟨o, h.congr fun i hi => by rw [execute, if_pos (hg i hi)]⟩
    · have h : ∃ o, Lock n (fun i => (Prog.lift (finishEnd (e i) fuel (Schedule.step (e i) (S i) .leave))).bind fun s' =>
          (Prog.forM (body i) (fresh (S i) s') (w i)).bind fun c' => .ret (s', c')) o :=
        lift_all S (q := fun i s' => (Prog.forM (body i) (fresh (S i) s') (w i)).bind fun c' => .ret (s', c')) fun S' hS' => by
          obtain ⟨C, hC⟩ := ha S' hS'
          obtain ⟨o, h1, h2⟩ := lock_calls hl hc C _ hC b w hw
          exact Lock.bind_ex (q := fun i c' => .ret (S' i, c')) h1 fun w' _ => ⟨some fun i => (S' i, w' i), .done fun _ _ => rfl⟩
      obtain ⟨o, h⟩ := h
      exact ⟨o, h.congr fun i hi => by rw [execute, if_neg (by rw [hg i hi]; decide)]⟩

end

/-! ### The same schedule on all ranks -/

theorem finishTick_prefix (e : Env) : ∀ (f : Nat) (s s' : St), finishTick e f s = some s' → ∃ tl, s'.trace = s.trace ++ tl := by
  intro f
  induction f with
  | zero => intro s s' h; cases h
  | succ f ih =>
    intro s s' h
    rw [finishTick] at h
    split at h
    · obtain ⟨t1, h1⟩ := Schedule.step_prefix e s .loop
      obtain ⟨t2, h2⟩ := ih _ _ h
      exact ⟨t1 ++ t2, by rw [h2, h1, List.append_assoc]⟩
    · cases h; exact ⟨[], (List.append_nil _).symm⟩

theorem finishEnd_prefix (e : Env) : ∀ (f : Nat) (s s' : St), finishEnd e f s = some s' → ∃ tl, s'.trace = s.trace ++ tl := by
  intro f
  induction f with
  | zero => intro s s' h; cases h
  | succ f ih =>
    intro s s' h
    rw [finishEnd] at h
    split at h
    · cases h; exact ⟨[], (List.append_nil _).symm⟩
    · obtain ⟨t1, h1⟩ := Schedule.step_prefix e s .endEvt
      obtain ⟨t2, h2⟩ := ih _ _ h
      exact ⟨t1 ++ t2, by rw [h2, h1, List.append_assoc]⟩

theorem round_prefix {e : Env} {fuel : Nat} {m : Option Int} {s s' : St} (h : round e fuel m s = some s') : ∃ tl, s'.trace = s.trace ++ tl := by
  unfold round at h
  split at h
  · obtain ⟨t1, h1⟩ := Schedule.step_prefix e s .enter
    obtain ⟨t2, h2⟩ := finishTick_prefix e _ _ _ h
    exact ⟨t1 ++ t2, by rw [h2, h1, List.append_assoc]⟩
  · cases h; exact Schedule.step_prefix e s .skip

theorem leave_prefix {e : Env} {fuel : Nat} {s s' : St} (h : finishEnd e fuel (Schedule.step e s .leave) = some s') : ∃ tl, s'.trace = s.trace ++ tl := by
  obtain ⟨t1, h1⟩ := Schedule.step_prefix e s .leave
  obtain ⟨t2, h2⟩ := finishEnd_prefix e _ _ _ h
  exact ⟨t1 ++ t2, by rw [h2, h1, List.append_assoc]⟩

theorem solo_prefix (e : Env) (fuel : Nat) : ∀ (N : Nat) (s s' : St), solo e fuel N s = some s' → ∃ tl, s'.trace = s.trace ++ tl := by
  intro N
  induction N with
  | zero => intro s s' h; cases h; exact ⟨[], (List.append_nil _).symm⟩
  | succ N ih =>
    intro s s' h
    rw [solo] at h
    split at h
    · cases e1 : round e fuel (some s.nextTick) s with
      | none => rw [e1] at h; cases h
      | some s1 =>
        rw [e1] at h
        obtain ⟨t1, h1⟩ := round_prefix e1
        obtain ⟨t2, h2⟩ := ih s1 s' h
        exact ⟨t1 ++ t2, by rw [h2, h1, List.append_assoc]⟩
    · exact leave_prefix h

theorem fresh_trans {s s1 s2 : St} (h1 : ∃ tl, s1.trace = s.trace ++ tl) (h2 : ∃ tl, s2.trace = s1.trace ++ tl) : fresh s s2 = fresh s s1 ++ fresh s1 s2 := by
  obtain ⟨t1, h1⟩ := h1
  obtain ⟨t2, h2⟩ := h2
  simp [fresh, calls, h2, h1]

theorem min?_const (t : Int) : ∀ k, ((List.range (k + 1)).map fun _ => t).min? = some t := by
  intro k
  rw [List.min?_eq_some_iff]
  refine ⟨List.mem_map.2 ⟨0, List.mem_range.2 (by omega), rfl⟩, ?_⟩
  intro b hb
  obtain ⟨_, _, rfl⟩ := List.mem_map.1 hb
  exact Int.le_refl _

/-- `Lock.forM`, for the state of all ranks together and what the ranks have of it. -/
theorem lock_forM_view {ι γ : Type} (view : γ → Nat → σ) (Z : γ → Prop) {body : Nat → ι → σ → Prog σ} {F : ι → γ → Option γ} (hb : ∀ j w, Z w → Lock n (fun i => body i j (view w i)) ((F j w).map view))
    (hz : ∀ j w w', Z w → F j w = some w' → Z w') : ∀ (js : List ι) (w : γ), Z w → Lock n (fun i => Prog.forM (body i) js (view w i)) ((js.foldlM (fun w j => F j w) w).map view) := by
  intro js
  induction js with
  | nil => intro w _; exact .done fun _ _ => rfl
  | cons j js ih =>
    intro w hw
    rw [List.foldlM_cons, Option.bind_eq_bind]
    have h1 := hb j w hw
    cases e : F j w with
    | none =>
      rw [e] at h1
      exact Lock.bind (q := fun i c => Prog.forM (body i) js c) (o' := fun _ => none) h1 fun g e => by cases e
    | some w1 =>
      rw [e] at h1
      exact Lock.bind (q := fun i c => Prog.forM (body i) js c) (o' := fun _ => (js.foldlM (fun w j => F j w) w1).map view) h1 fun g eg => by
        cases eg
        exact ih w1 (hz j w w1 hw e)

/-- Ranks with the same schedule: what they call is what one schedule by itself calls. -/
theorem lock_same_view {γ : Type} (view : γ → Nat → σ) {Z : γ → Prop} {body : Nat → Nat → σ → Prog σ} {F : Nat → γ → Option γ} (hn : 0 < n)
    (hb : ∀ l w, Z w → Lock n (fun i => body i l (view w i)) ((F l w).map view)) (hz : ∀ l w w', Z w → F l w = some w' → Z w') (e : Env) (fuel : Nat) : ∀ (N : Nat) (s : St) (w : γ), Z w →
    Lock n (fun i => execute e fuel (body i) N s (view w i)) ((solo e fuel N s).bind fun s' => ((fresh s s').foldlM (fun w l => F l w) w).map fun w' i => (s', view w' i)) := by
  have hfold : ∀ (L : List Nat) w w', Z w → L.foldlM (fun w l => F l w) w = some w' → Z w' := by
    intro L
    induction L with
    | nil => intro w w' hw h; cases h; exact hw
    | cons l L ih =>
      intro w w' hw h
      rw [List.foldlM_cons, Option.bind_eq_bind] at h
      cases e1 : F l w with
      | none => rw [e1] at h; cases h
      | some w1 => rw [e1] at h; exact ih w1 w' (hz l w w1 hw e1) h
  intro N
  induction N with
  | zero =>
    intro s w _
    have : fresh s s = [] := by simp [fresh, calls]
    rw [solo, Option.bind_some, this]
    exact .done fun _ _ => rfl
  | succ N ih =>
    intro s w hw
    obtain ⟨k, rfl⟩ : ∃ k, n = k + 1 := ⟨n - 1, by omega⟩
    cases hg : s.go with
    | true =>
      refine Lock.congr (ps := fun i => (Prog.call "schedule.py:618" s.nextTick).bind fun l => (Prog.lift (round e fuel l.min? s)).bind fun s' =>
          (Prog.forM (body i) (fresh s s') (view w i)).bind fun c' => execute e fuel (body i) N s' c') ?_ fun i hi => by rw [execute, if_pos hg]
      refine Lock.called (m := fun _ => s.nextTick) ?_
      rw [min?_const, solo, if_pos hg]
      cases e1 : round e fuel (some s.nextTick) s with
      | none => exact .raised ⟨0, hn, rfl⟩
      | some s1 =>
        show Lock (k + 1) (fun i => (Prog.forM (body i) (fresh s s1) (view w i)).bind fun c' => execute e fuel (body i) N s1 c') _
        have h1 := lock_forM_view view Z hb hz (fresh s s1) w hw
        cases e3 : (fresh s s1).foldlM (fun w l => F l w) w with
        | none =>
          rw [e3] at h1
          refine Lock.cast (Lock.bind (q := fun i c' => execute e fuel (body i) N s1 c') (o' := fun _ => none) h1 fun _ e' => by cases e') ?_
          rw [Option.bind_some]
          cases e2 : solo e fuel N s1 with
          | none => rfl
          | some s2 =>
            simp only [Option.bind_some]
            rw [fresh_trans (round_prefix e1) (solo_prefix _ _ _ _ _ e2), List.foldlM_append, e3]
            rfl
        | some w1 =>
          rw [e3] at h1
          have h2 := Lock.bind (q := fun i c' => execute e fuel (body i) N s1 c') (o' := fun _ => (solo e fuel N s1).bind fun s' => ((fresh s1 s').foldlM (fun w l => F l w) w1).map fun w' i => (s', view w' i)) h1
            fun v e' => by
              cases e'
              exact ih s1 w1 (hfold _ _ _ hw e3)
          refine Lock.cast h2 ?_
          rw [Option.bind_some]
          cases e2 : solo e fuel N s1 with
          | none => rfl
          | some s2 =>
            simp only [Option.bind_some]
            rw [fresh_trans (round_prefix e1) (solo_prefix _ _ _ _ _ e2), List.foldlM_append, e3]
            rfl
    | false =>
      refine Lock.congr (ps := fun i => (Prog.lift (finishEnd e fuel (Schedule.step e s .leave))).bind fun s' => (Prog.forM (body i) (fresh s s') (view w i)).bind fun c' => .ret (s', c')) ?_
        fun i hi => by rw [execute, if_neg (by rw [hg]; decide)]
      rw [solo, if_neg (by rw [hg]; decide)]
      cases e1 : finishEnd e fuel (Schedule.step e s .leave) with
      | none => exact .raised ⟨0, hn, rfl⟩
      | some s1 =>
        show Lock (k + 1) (fun i => (Prog.forM (body i) (fresh s s1) (view w i)).bind fun c' => .ret (s1, c')) _
        have h1 := lock_forM_view view Z hb hz (fresh s s1) w hw
        have h2 := Lock.bind (q := fun i c' => Prog.ret (s1, c')) (o' := fun w' => some fun i => (s1, w' i)) h1 fun w1 e' => .done fun _ _ => rfl
        refine Lock.cast h2 ?_
        rw [Option.bind_some]
        cases (fresh s s1).foldlM (fun w l => F l w) w <;> rfl

/-- The same, the state of all ranks together being what each has. -/
theorem lock_same {Z : (Nat → σ) → Prop} {body : Nat → Nat → σ → Prog σ} {F : Nat → (Nat → σ) → Option (Nat → σ)} (hn : 0 < n)
    (hb : ∀ l w, Z w → Lock n (fun i => body i l (w i)) (F l w)) (hz : ∀ l w w', Z w → F l w = some w' → Z w') (e : Env) (fuel N : Nat) (s : St) (w : Nat → σ) (hw : Z w) :
    Lock n (fun i => execute e fuel (body i) N s (w i)) ((solo e fuel N s).bind fun s' => ((fresh s s').foldlM (fun w l => F l w) w).map fun w' i => (s', w' i)) :=
  lock_same_view (fun w => w) hn (fun l w hw => by rw [Option.map_id']; exact hb l w hw) hz e fuel N s w hw

end Repast.Mpi.Run
