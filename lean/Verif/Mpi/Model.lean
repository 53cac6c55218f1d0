/-
Processes that run at their own speed and take part in collective operations of MPI.

The collective operations that the code uses in contexts are `alltoall` and `allgather` (context.py:216, 235, 284, 435, 463, 475, 518, 543; space.py:210, 423; network.py:305, 371, 395, 445, 561). A rank that
calls one of them contributes a value, and goes on when all ranks have called it, with what they contributed. Ranks are not otherwise synchronized: one may be several calls behind another.

Simplification: a rank that calls a collective operation waits until all the others have called it, as it does when it needs their values. A rank does not go on if the others' calls are not the
same one (`site` is where the call is in the source): with MPI, this would be an error, or the rank would go on with data that were meant for something else.
-/
namespace Repast.Mpi

/-- What a rank does: it has finished with a result, it has raised an exception, or it calls a collective operation, with the value `m`, and continues with the list of the values of all ranks. What
it does by itself between two such calls is not divided into steps. -/
inductive Prog (α : Type) : Type 1 where
  | ret (a : α)
  | raise
  | coll (site : String) (T : Type) (m : T) (k : List T → Prog α)

/-- What a rank has contributed to a collective operation. -/
structure Sent : Type 1 where
  site : String
  T : Type
  val : T

/-- The ranks: what they still have to do, what they have contributed to collective operations so far, and how many of these operations they have left. -/
structure World (α : Type) : Type 1 where
  prog : Nat → Prog α
  sent : Nat → List Sent
  got : Nat → Nat

/-- The ranks at the beginning. -/
def World.start {α : Type} (ps : Nat → Prog α) : World α := { prog := ps, sent := fun _ => [], got := fun _ => 0 }

/-- The entry for `i` is replaced. -/
def upd {β : Type u} (f : Nat → β) (i : Nat) (b : β) : Nat → β := fun j => if j = i then b else f j

/-- A step of one of the `n` ranks: it calls a collective operation, or goes on after all the others have called the same. -/
inductive Step {α : Type} (n : Nat) : World α → World α → Prop
  | enter {w : World α} {i : Nat} {site : String} {T : Type} {m : T} {k : List T → Prog α} : i < n → w.prog i = .coll site T m k → (w.sent i).length = w.got i →
      Step n w { w with sent := upd w.sent i (w.sent i ++ [⟨site, T, m⟩]) }
  | leave {w : World α} {i : Nat} {site : String} {T : Type} {m : T} {k : List T → Prog α} {l : List T} : i < n → w.prog i = .coll site T m k → (w.sent i).length = w.got i + 1 →
      ((List.range n).map fun j => (w.sent j)[w.got i]?) = (l.map fun x => some ⟨site, T, x⟩) →
      Step n w { w with prog := upd w.prog i (k l), got := upd w.got i (w.got i + 1) }

/-- A number of steps, of any ranks in any order. -/
inductive Steps {α : Type} (n : Nat) : Nat → World α → World α → Prop
  | zero (w : World α) : Steps n 0 w w
  | succ {c : Nat} {w w' w'' : World α} : Steps n c w w' → Step n w' w'' → Steps n (c + 1) w w''

/-- All of the ranks have finished, with the results `f`. -/
def World.Done {α : Type} (n : Nat) (w : World α) (f : Nat → α) : Prop := ∀ i < n, w.prog i = .ret (f i)

/-- Some rank has raised an exception. -/
def World.Raised {α : Type} (n : Nat) (w : World α) : Prop := ∃ i < n, w.prog i = .raise

/-! ### All ranks at the same speed -/

/-- The ranks do the next collective operation together. -/
def Round {α : Type} (n : Nat) (ps ps' : Nat → Prog α) : Prop :=
  ∃ (site : String) (T : Type) (m : Nat → T) (k : Nat → List T → Prog α), ∀ i < n, ps i = .coll site T (m i) (k i) ∧ ps' i = k i ((List.range n).map m)

/-- The ranks do one collective operation after the other together, until all have finished with the given results, or one raises an exception (`none`). -/
inductive Lock {α : Type} (n : Nat) : (Nat → Prog α) → Option (Nat → α) → Prop
  | done {ps : Nat → Prog α} {f : Nat → α} : (∀ i < n, ps i = .ret (f i)) → Lock n ps (some f)
  | raised {ps : Nat → Prog α} : (∃ i < n, ps i = .raise) → Lock n ps none
  | round {ps ps' : Nat → Prog α} {o : Option (Nat → α)} : Round n ps ps' → Lock n ps' o → Lock n ps o

/-! ### Every speed -/

/-- What a rank contributes to the operation that it calls. -/
def Prog.offer {α : Type} : Prog α → Option Sent
  | .coll site T m _ => some ⟨site, T, m⟩
  | _ => none

variable {α : Type} {n : Nat}

/-- How it ends. -/
def Final (n : Nat) (ps : Nat → Prog α) (o : Option (Nat → α)) : Prop :=
  match o with
  | some f => ∀ i < n, ps i = .ret (f i)
  | none => ∃ i < n, ps i = .raise

theorem Lock.trace {ps : Nat → Prog α} {o : Option (Nat → α)} (h : Lock n ps o) : ∃ (R : Nat) (P : Nat → Nat → Prog α), P 0 = ps ∧ (∀ c < R, Round n (P c) (P (c + 1))) ∧ Final n (P R) o := by
  induction h with
  | done h => exact ⟨0, fun _ => _, rfl, by omega, h⟩
  | raised h => exact ⟨0, fun _ => _, rfl, by omega, h⟩
  | @round ps ps' o hr _ ih =>
    obtain ⟨R, P, h0, h1, h2⟩ := ih
    refine ⟨R + 1, fun c => match c with | 0 => ps | c + 1 => P c, rfl, ?_, h2⟩
    intro c hc
    cases c with
    | zero => rw [← h0] at hr; exact hr
    | succ c => exact h1 c (by omega)

/-- Where the ranks are: rank `i` has left `w.got i` operations. -/
structure Inv (n R : Nat) (P : Nat → Nat → Prog α) (w : World α) : Prop where
  le : ∀ i < n, w.got i ≤ R
  prog : ∀ i < n, w.prog i = P (w.got i) i
  len : ∀ i < n, (w.sent i).length = w.got i ∨ ((w.sent i).length = w.got i + 1 ∧ ((w.prog i).offer).isSome = true)
  sent : ∀ i < n, ∀ c < (w.sent i).length, (w.sent i)[c]? = (P c i).offer

theorem map_some_inj {site : String} {T : Type} : ∀ {l l' : List T}, (l.map fun x => some (⟨site, T, x⟩ : Sent)) = (l'.map fun x => some ⟨site, T, x⟩) → l = l' := by
  intro l
  induction l with
  | nil => intro l' h; cases l' with
    | nil => rfl
    | cons a l' => cases h
  | cons a l ih => intro l' h; cases l' with
    | nil => cases h
    | cons b l' =>
      simp only [List.map_cons, List.cons.injEq, Option.some.injEq, Sent.mk.injEq, heq_eq_eq, true_and] at h
      rw [h.1, ih h.2]

/-- All ranks call the same operation. -/
def Meets (n : Nat) (ps : Nat → Prog α) : Prop := ∃ (site : String) (T : Type) (m : Nat → T), ∀ i < n, (ps i).offer = some ⟨site, T, m i⟩

/-- After the last round there is no operation that all ranks call. -/
theorem final_stuck {ps : Nat → Prog α} {o : Option (Nat → α)} (h : Final n ps o) (hn : 0 < n) : ¬ Meets n ps := by
  rintro ⟨site, T, m, hm⟩
  have hall : ∀ i < n, ((ps i).offer).isSome = true := fun i hi => by rw [hm i hi]; rfl
  cases o with
  | some f => have := hall 0 hn; rw [h 0 hn] at this; cases this
  | none => obtain ⟨i, hi, e⟩ := h; have := hall i hi; rw [e] at this; cases this

theorem Inv.step {R : Nat} {P : Nat → Nat → Prog α} (hr : ∀ c < R, Round n (P c) (P (c + 1))) (hf : 0 < n → ¬ Meets n (P R)) {w w' : World α} (h : Inv n R P w) (s : Step n w w') :
    Inv n R P w' := by
  cases s with
  | @enter i site T m k hi hp hl =>
    refine ⟨h.le, h.prog, ?_, ?_⟩
    · intro j hj
      show (upd w.sent i _ j).length = w.got j ∨ ((upd w.sent i _ j).length = w.got j + 1 ∧ ((w.prog j).offer).isSome = true)
      unfold upd
      by_cases e : j = i
      · subst e
        right
        rw [if_pos rfl]
        refine ⟨by rw [List.length_append, hl]; rfl, ?_⟩
        rw [hp]; rfl
      · rw [if_neg e]
        exact h.len j hj
    · intro j hj c hc
      show (upd w.sent i _ j)[c]? = _
      change c < (upd w.sent i _ j).length at hc
      unfold upd at hc ⊢
      split at hc
      · next e =>
        subst e
        rw [if_pos rfl]
        rw [List.length_append, List.length_singleton] at hc
        by_cases hc' : c < (w.sent j).length
        · rw [List.getElem?_append_left hc']
          exact h.sent j hj c hc'
        · have : c = (w.sent j).length := by omega
          subst this
          rw [List.getElem?_concat_length, hl, ← h.prog j hj, hp]
          rfl
      · next e =>
        rw [if_neg e]
        exact h.sent j hj c hc
  | @leave i site T m k l hi hp hl hg =>
    have hsent : ∀ j < n, (w.sent j)[w.got i]? = (P (w.got i) j).offer ∧ ((P (w.got i) j).offer).isSome = true := by
      intro j hj
      have h1 : (((List.range n).map fun j => (w.sent j)[w.got i]?)[j]?) = some ((w.sent j)[w.got i]?) := by
        rw [List.getElem?_map, List.getElem?_range hj]; rfl
      rw [hg, List.getElem?_map] at h1
      have hs : ((w.sent j)[w.got i]?).isSome = true := by
        cases e : l[j]? with
        | none => rw [e] at h1; cases h1
        | some x => rw [e] at h1; rw [← Option.some.inj h1]; rfl
      have hlt : w.got i < (w.sent j).length := by
        rw [Option.isSome_iff_exists] at hs
        obtain ⟨x, hx⟩ := hs
        exact (List.getElem?_eq_some_iff.1 hx).1
      have := h.sent j hj _ hlt
      exact ⟨this, this ▸ hs⟩
    have hlt : w.got i < R := by
      rcases Nat.lt_or_ge (w.got i) R with c | c
      · exact c
      · have : w.got i = R := Nat.le_antisymm (h.le i hi) c
        exfalso
        refine hf (Nat.lt_of_le_of_lt (Nat.zero_le i) hi) ⟨site, T, fun j => l[j]?.getD m, fun j hj => ?_⟩
        rw [← this, ← (hsent j hj).1]
        have h1 : (((List.range n).map fun j => (w.sent j)[w.got i]?)[j]?) = some ((w.sent j)[w.got i]?) := by
          rw [List.getElem?_map, List.getElem?_range hj]; rfl
        rw [hg, List.getElem?_map] at h1
        cases e : l[j]? with
        | none => rw [e] at h1; cases h1
        | some x => rw [e] at h1; show _ = some (Sent.mk site T (l[j]?.getD m)); rw [e]; exact (Option.some.inj h1).symm
    obtain ⟨site', T', m', k', hround⟩ := hr _ hlt
    have hpi := h.prog i hi
    rw [(hround i hi).1, hp] at hpi
    injection hpi with e1 e2 e3 e4
    subst e1; subst e2
    have e3 := eq_of_heq e3
    have e4 := eq_of_heq e4
    have hlm : l = (List.range n).map m' := by
      refine map_some_inj (site := site) ?_
      rw [← hg, List.map_map]
      refine List.map_congr_left fun j hj => ?_
      have hj := List.mem_range.1 hj
      rw [(hsent j hj).1, (hround j hj).1]
      rfl
    refine ⟨?_, ?_, ?_, ?_⟩
    · intro j hj
      show upd w.got i _ j ≤ R
      unfold upd
      split
      · omega
      · exact h.le j hj
    · intro j hj
      show upd w.prog i _ j = P (upd w.got i _ j) j
      unfold upd
      by_cases e : j = i
      · subst e
        rw [if_pos rfl, if_pos rfl, (hround j hi).2, ← e4, hlm]
      · rw [if_neg e, if_neg e]
        exact h.prog j hj
    · intro j hj
      show (w.sent j).length = upd w.got i _ j ∨ ((w.sent j).length = upd w.got i _ j + 1 ∧ ((upd w.prog i _ j).offer).isSome = true)
      unfold upd
      by_cases e : j = i
      · subst e
        left
        rw [if_pos rfl, hl]
      · rw [if_neg e, if_neg e]
        exact h.len j hj
    · exact h.sent

theorem Inv.start {R : Nat} {P : Nat → Nat → Prog α} : Inv n R P (World.start (P 0)) :=
  ⟨fun _ _ => Nat.zero_le _, fun _ _ => rfl, fun _ _ => .inl rfl, fun _ _ _ hc => absurd hc (Nat.not_lt_zero _)⟩

theorem Inv.steps {R : Nat} {P : Nat → Nat → Prog α} (hr : ∀ c < R, Round n (P c) (P (c + 1))) (hf : 0 < n → ¬ Meets n (P R)) {w w' : World α} {c : Nat} (h : Inv n R P w)
    (s : Steps n c w w') : Inv n R P w' := by
  induction s with
  | zero => exact h
  | succ _ s ih => exact (ih h).step hr hf s

/-- A least element. -/
theorem least (f : Nat → Nat) : ∀ n, 0 < n → ∃ i < n, ∀ j < n, f i ≤ f j := by
  intro n
  induction n with
  | zero => intro h; cases h
  | succ n ih =>
    intro _
    by_cases hn : 0 < n
    · obtain ⟨i, hi, hm⟩ := ih hn
      by_cases hc : f i ≤ f n
      · refine ⟨i, by omega, fun j hj => ?_⟩
        by_cases e : j = n
        · rw [e]; exact hc
        · exact hm j (by omega)
      · refine ⟨n, by omega, fun j hj => ?_⟩
        by_cases e : j = n
        · rw [e]; exact Nat.le_refl _
        · have := hm j (by omega); omega
    · refine ⟨0, by omega, fun j hj => ?_⟩
      have : j = 0 := by omega
      rw [this]; exact Nat.le_refl _

/-- Some rank can go on. -/
theorem Inv.progress {R : Nat} {P : Nat → Nat → Prog α} {o : Option (Nat → α)} (hr : ∀ c < R, Round n (P c) (P (c + 1))) (hf : Final n (P R) o) {w : World α} (h : Inv n R P w) :
    (∃ f, o = some f ∧ w.Done n f) ∨ w.Raised n ∨ ∃ w', Step n w w' := by
  by_cases hn : 0 < n
  · obtain ⟨i, hi, hmin⟩ := least w.got n hn
    by_cases hR : w.got i < R
    · right; right
      obtain ⟨site, T, m, k, hround⟩ := hr _ hR
      by_cases hex : ∃ j < n, w.got j = w.got i ∧ (w.sent j).length = w.got j
      · obtain ⟨j, hj, e1, e2⟩ := hex
        refine ⟨_, Step.enter (site := site) (T := T) (m := m j) (k := k j) hj ?_ e2⟩
        rw [h.prog j hj, e1, (hround j hj).1]
      · have hl : (w.sent i).length = w.got i + 1 := by
          rcases h.len i hi with c | c
          · exact absurd ⟨i, hi, rfl, c⟩ hex
          · exact c.1
        refine ⟨_, Step.leave (site := site) (T := T) (m := m i) (k := k i) (l := (List.range n).map m) hi ?_ hl ?_⟩
        · rw [h.prog i hi, (hround i hi).1]
        · rw [List.map_map]
          refine List.map_congr_left fun j hj => ?_
          have hj := List.mem_range.1 hj
          have hlt : w.got i < (w.sent j).length := by
            have hm := hmin j hj
            by_cases e : w.got j = w.got i
            · rcases h.len j hj with c | c
              · exact absurd ⟨j, hj, e, c⟩ hex
              · omega
            · rcases h.len j hj with c | c <;> omega
          rw [h.sent j hj _ hlt, (hround j hj).1]
          rfl
    · have hall : ∀ j < n, w.got j = R := fun j hj => by
        have := hmin j hj
        have := h.le j hj
        omega
      cases o with
      | some f =>
        left
        refine ⟨f, rfl, fun j hj => ?_⟩
        rw [h.prog j hj, hall j hj]
        exact hf j hj
      | none =>
        right; left
        obtain ⟨j, hj, e⟩ := hf
        refine ⟨j, hj, ?_⟩
        rw [h.prog j hj, hall j hj]
        exact e
  · cases o with
    | some f => exact .inl ⟨f, rfl, fun i hi => absurd hi (by omega)⟩
    | none => obtain ⟨i, hi, _⟩ := hf; omega

/-! ### The number of steps -/

/-- How far the ranks are. -/
def total (f : Nat → Nat) : Nat → Nat
  | 0 => 0
  | n + 1 => total f n + f n

theorem total_congr {f g : Nat → Nat} : ∀ {n}, (∀ i < n, f i = g i) → total f n = total g n := by
  intro n
  induction n with
  | zero => intro _; rfl
  | succ n ih => intro h; unfold total; rw [ih fun i hi => h i (by omega), h n (by omega)]

theorem total_le {f : Nat → Nat} {b : Nat} : ∀ {n}, (∀ i < n, f i ≤ b) → total f n ≤ n * b := by
  intro n
  induction n with
  | zero => intro _; exact Nat.zero_le _
  | succ n ih =>
    intro h
    unfold total
    have h1 := ih fun i hi => h i (by omega)
    have h2 := h n (by omega)
    rw [Nat.succ_mul]
    omega

theorem total_succ {f g : Nat → Nat} : ∀ {n i}, i < n → g i = f i + 1 → (∀ j, j ≠ i → g j = f j) → total g n = total f n + 1 := by
  intro n
  induction n with
  | zero => intro i hi; omega
  | succ n ih =>
    intro i hi h1 h2
    unfold total
    by_cases e : i = n
    · subst e
      rw [h1, total_congr fun j hj => h2 j (by omega)]
      omega
    · rw [ih (by omega) h1 h2, h2 n fun c => e c.symm]
      omega

/-- The operations that a rank has called and left. -/
def World.count (w : World α) (i : Nat) : Nat := (w.sent i).length + w.got i

theorem Step.count {w w' : World α} (s : Step n w w') : total w'.count n = total w.count n + 1 := by
  cases s with
  | @enter i site T m k hi hp hl =>
    refine total_succ hi ?_ ?_
    · show (upd w.sent i _ i).length + w.got i = _
      unfold upd World.count
      rw [if_pos rfl, List.length_append, List.length_singleton]
      omega
    · intro j hj
      show (upd w.sent i _ j).length + w.got j = _
      unfold upd World.count
      rw [if_neg hj]
  | @leave i site T m k l hi hp hl hg =>
    refine total_succ hi ?_ ?_
    · show (w.sent i).length + upd w.got i _ i = _
      unfold upd World.count
      rw [if_pos rfl]
      omega
    · intro j hj
      show (w.sent j).length + upd w.got i _ j = _
      unfold upd World.count
      rw [if_neg hj]

theorem Steps.count {w w' : World α} {c : Nat} (s : Steps n c w w') : total w'.count n = total w.count n + c := by
  induction s with
  | zero => rfl
  | succ _ s ih => rw [s.count, ih]; omega

theorem Inv.bound {R : Nat} {P : Nat → Nat → Prog α} {w : World α} (h : Inv n R P w) : total w.count n ≤ n * (2 * R + 1) := by
  refine total_le fun i hi => ?_
  unfold World.count
  have := h.le i hi
  rcases h.len i hi with c | c <;> omega

/-! ### The result -/

/-- If the ranks that do the collective operations together reach the end, then so do ranks that run at any speeds, in any order: there is no order of steps in which they wait for each other or go on for
ever; a rank that has finished has the same result; and no rank raises an exception. If a rank that does them together with the others raises an exception, then the ranks wait for each other only after
some rank has raised one, and none of the others goes on for ever. -/
theorem Lock.any_speed {ps : Nat → Prog α} {o : Option (Nat → α)} (h : Lock n ps o) :
    ∃ bound, ∀ c w, Steps n c (World.start ps) w → c ≤ bound ∧ ((∃ f, o = some f ∧ w.Done n f) ∨ w.Raised n ∨ ∃ w', Step n w w') ∧
      (∀ f, o = some f → ¬ w.Raised n ∧ ∀ i < n, ∀ a, w.prog i = .ret a → a = f i) ∧ (o = none → ∃ i < n, ∀ a, w.prog i ≠ .ret a) := by
  obtain ⟨R, P, h0, hr, hf⟩ := h.trace
  subst h0
  refine ⟨n * (2 * R + 1), fun c w s => ?_⟩
  have hi : Inv n R P w := Inv.start.steps hr (final_stuck hf) s
  have hlast : ∀ i < n, (P (w.got i) i).offer = none → w.got i = R := by
    intro i hin e
    rcases Nat.lt_or_ge (w.got i) R with c | c
    · obtain ⟨site, T, m, k, hround⟩ := hr _ c
      rw [(hround i hin).1] at e
      cases e
    · exact Nat.le_antisymm (hi.le i hin) c
  refine ⟨?_, hi.progress hr hf, ?_, ?_⟩
  · have h1 := s.count
    have h2 := hi.bound
    have h3 : total (World.start (P 0)).count n = 0 := by
      have : total (World.start (P 0)).count n ≤ n * 0 := total_le fun i _ => Nat.le_refl _
      omega
    omega
  · intro f e
    subst e
    refine ⟨?_, ?_⟩
    · rintro ⟨i, hin, e⟩
      rw [hi.prog i hin] at e
      have hR := hlast i hin (by rw [e]; rfl)
      rw [hR, hf i hin] at e
      cases e
    · intro i hin a e
      rw [hi.prog i hin] at e
      have hR := hlast i hin (by rw [e]; rfl)
      rw [hR, hf i hin] at e
      injection e with e
      exact e.symm
  · intro e
    subst e
    obtain ⟨i, hin, e⟩ := hf
    refine ⟨i, hin, fun a ha => ?_⟩
    rw [hi.prog i hin] at ha
    have hR := hlast i hin (by rw [ha]; rfl)
    rw [hR, e] at ha
    cases ha

/-- The ranks may run at any speed: whatever order their steps have, there is a bound on the number of steps, and
 - if `o` are results: no rank raises an exception, the ranks go on until all have finished, and a rank that has finished has its result in `o`;
 - if `o` is an exception: the ranks go on until one raises an exception, and not all of them finish. -/
def AnySpeed (n : Nat) (ps : Nat → Prog α) (o : Option (Nat → α)) : Prop :=
  ∃ bound, ∀ c w, Steps n c (World.start ps) w → c ≤ bound ∧
    match o with
    | some f => ¬ w.Raised n ∧ (w.Done n f ∨ ∃ w', Step n w w') ∧ ∀ i < n, ∀ a, w.prog i = .ret a → a = f i
    | none => (w.Raised n ∨ ∃ w', Step n w w') ∧ ∃ i < n, ∀ a, w.prog i ≠ .ret a

theorem Lock.anySpeed {ps : Nat → Prog α} {o : Option (Nat → α)} (h : Lock n ps o) : AnySpeed n ps o := by
  obtain ⟨bound, h⟩ := h.any_speed
  refine ⟨bound, fun c w s => ?_⟩
  obtain ⟨h1, h2, h3, h4⟩ := h c w s
  refine ⟨h1, ?_⟩
  cases o with
  | some f =>
    refine ⟨(h3 f rfl).1, ?_, (h3 f rfl).2⟩
    rcases h2 with ⟨g, e, h2⟩ | h2 | h2
    · cases e; exact .inl h2
    · exact absurd h2 (h3 f rfl).1
    · exact .inr h2
  | none =>
    refine ⟨?_, h4 rfl⟩
    rcases h2 with ⟨g, e, h2⟩ | h2 | h2
    · cases e
    · exact .inl h2
    · exact .inr h2

/-! ### Ranks that do not call the same operation -/

/-- Where the call is that a rank waits in. -/
def Prog.site {α : Type} (p : Prog α) : Option String := p.offer.map (·.site)

/-- The first calls of `i` and `j` are not the same one. -/
structure Stuck (ps : Nat → Prog α) (i j : Nat) (w : World α) : Prop where
  progI : w.prog i = ps i
  progJ : w.prog j = ps j
  gotI : w.got i = 0
  gotJ : w.got j = 0
  sentI : w.sent i = [] ∨ ∃ s, (ps i).offer = some s ∧ w.sent i = [s]
  sentJ : w.sent j = [] ∨ ∃ s, (ps j).offer = some s ∧ w.sent j = [s]

theorem Stuck.symm {ps : Nat → Prog α} {i j : Nat} {w : World α} (h : Stuck ps i j w) : Stuck ps j i w := ⟨h.progJ, h.progI, h.gotJ, h.gotI, h.sentJ, h.sentI⟩

theorem Stuck.wait {ps : Nat → Prog α} {i j : Nat} {w : World α} (h : Stuck ps i j w) (hj : j < n) (hs : (ps i).site ≠ (ps j).site) {site : String} {T : Type} {m : T} {k : List T → Prog α} {l : List T}
    (hp : w.prog i = .coll site T m k) (hl : ((List.range n).map fun j => (w.sent j)[w.got i]?) = (l.map fun x => some ⟨site, T, x⟩)) : False := by
  have e : (w.sent j)[w.got i]? ∈ l.map fun x => some (⟨site, T, x⟩ : Sent) := by
    rw [← hl]
    exact List.mem_map.2 ⟨j, List.mem_range.2 hj, rfl⟩
  obtain ⟨x, -, e⟩ := List.mem_map.1 e
  rw [h.gotI] at e
  rcases h.sentJ with c | ⟨s, ho, c⟩
  · rw [c] at e; cases e
  · rw [c] at e
    cases e
    refine hs ?_
    unfold Prog.site
    rw [ho, ← h.progI, hp]; rfl

theorem Stuck.step {ps : Nat → Prog α} {i j : Nat} {w w' : World α} (hi : i < n) (hj : j < n) (hs : (ps i).site ≠ (ps j).site) (h : Stuck ps i j w) (s : Step n w w') : Stuck ps i j w' := by
  cases s with
  | @enter q site T m k hq hp hl =>
    have one : ∀ p, w.prog p = ps p → w.got p = 0 → (w.sent p = [] ∨ ∃ s, (ps p).offer = some s ∧ w.sent p = [s]) →
        (upd w.sent q (w.sent q ++ [⟨site, T, m⟩]) p = [] ∨ ∃ s, (ps p).offer = some s ∧ upd w.sent q (w.sent q ++ [⟨site, T, m⟩]) p = [s]) := by
      intro p h1 h2 h3
      unfold upd
      by_cases e : p = q
      · subst e
        rw [h2] at hl
        rw [if_pos rfl, List.length_eq_zero_iff.1 hl]
        exact .inr ⟨_, by rw [← h1, hp]; rfl, rfl⟩
      · rw [if_neg e]; exact h3
    exact ⟨h.progI, h.progJ, h.gotI, h.gotJ, one i h.progI h.gotI h.sentI, one j h.progJ h.gotJ h.sentJ⟩
  | @leave q site T m k l hq hp hl hc =>
    have hqi : i ≠ q := fun e => by subst e; exact h.wait hj hs hp hc
    have hqj : j ≠ q := fun e => by subst e; exact h.symm.wait hi (Ne.symm hs) hp hc
    refine ⟨?_, ?_, ?_, ?_, h.sentI, h.sentJ⟩
    · show upd _ _ _ i = _; unfold upd; rw [if_neg hqi]; exact h.progI
    · show upd _ _ _ j = _; unfold upd; rw [if_neg hqj]; exact h.progJ
    · show upd _ _ _ i = _; unfold upd; rw [if_neg hqi]; exact h.gotI
    · show upd _ _ _ j = _; unfold upd; rw [if_neg hqj]; exact h.gotJ

/-- Two ranks whose next calls are not the same one never go on. -/
theorem Stuck.steps {ps : Nat → Prog α} {i j c : Nat} {w : World α} (hi : i < n) (hj : j < n) (hs : (ps i).site ≠ (ps j).site) (s : Steps n c (World.start ps) w) : w.prog i = ps i ∧ w.prog j = ps j := by
  have : Stuck ps i j w := by
    generalize hw : World.start ps = w0 at s
    induction s with
    | zero => subst hw; exact ⟨rfl, rfl, rfl, rfl, .inl rfl, .inl rfl⟩
    | succ _ s ih => exact (ih hw).step hi hj hs s
  exact ⟨this.progI, this.progJ⟩

/-! ### Ranks that wait for ever -/

/-- Rank `i` waits for ever: after some operations that all ranks call together, it calls one that some other rank does not call. -/
inductive Halts {α : Type} (n i : Nat) : (Nat → Prog α) → Prop
  | stuck {ps : Nat → Prog α} : ¬ Meets n ps → ((ps i).offer).isSome = true → Halts n i ps
  | round {ps ps' : Nat → Prog α} : Round n ps ps' → Halts n i ps' → Halts n i ps

theorem Halts.trace {i : Nat} {ps : Nat → Prog α} (h : Halts n i ps) :
    ∃ (R : Nat) (P : Nat → Nat → Prog α), P 0 = ps ∧ (∀ c < R, Round n (P c) (P (c + 1))) ∧ ¬ Meets n (P R) ∧ ((P R i).offer).isSome = true := by
  induction h with
  | stuck h1 h2 => exact ⟨0, fun _ => _, rfl, by omega, h1, h2⟩
  | @round ps ps' hr _ ih =>
    obtain ⟨R, P, h0, h1, h2⟩ := ih
    refine ⟨R + 1, fun c => match c with | 0 => ps | c + 1 => P c, rfl, ?_, h2⟩
    intro c hc
    cases c with
    | zero => rw [← h0] at hr; exact hr
    | succ c => exact h1 c (by omega)

/-- It waits for ever, whatever speed the ranks have. -/
theorem Halts.waits {i c : Nat} {ps : Nat → Prog α} {w : World α} (h : Halts n i ps) (hi : i < n) (s : Steps n c (World.start ps) w) : ((w.prog i).offer).isSome = true := by
  obtain ⟨R, P, h0, hr, h1, h2⟩ := h.trace
  subst h0
  have hw : Inv n R P w := Inv.start.steps hr (fun _ => h1) s
  rw [hw.prog i hi]
  rcases Nat.lt_or_ge (w.got i) R with c | c
  · obtain ⟨site, T, m, k, hround⟩ := hr _ c
    rw [(hround i hi).1]; rfl
  · rw [Nat.le_antisymm (hw.le i hi) c]; exact h2

end Repast.Mpi
