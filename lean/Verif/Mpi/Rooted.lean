import Verif.Mpi.Model

/-!
Collective operations with a root: `comm.Reduce(..., 0)` (logging.py:141) and `comm.gather(..., root=0)` (logging.py:398). Only rank 0 needs the values of the others: they need not wait in these operations.

MPI leaves it open whether they do. Here a rank other than 0 that has contributed its value may go on at once, or at any later time; so it may be many operations ahead of rank 0.
-/
namespace Repast.Mpi

variable {α : Type} {n : Nat}

/-- logging.py:141 `comm.Reduce(self._data[:self._idx], recv_buf, self._op, 0)`; logging.py:398 `self._comm.gather(self._rows, root=0)`. -/
def reduceSite : String := "logging.py:141"
def gatherSite : String := "logging.py:398"

/-- The operations that have a root. -/
def Rooted (site : String) : Prop := site = reduceSite ∨ site = gatherSite

/-- A step of one of the `n` ranks: as before, or a rank other than 0 that has contributed its value to an operation with a root, and does not use the result, goes on without waiting. -/
inductive RStep {α : Type} (n : Nat) : World α → World α → Prop
  | wait {w w' : World α} : Step n w w' → RStep n w w'
  | pass {w : World α} {i : Nat} {site : String} {T : Type} {m : T} {k : List T → Prog α} : i < n → i ≠ 0 → Rooted site → w.prog i = .coll site T m k → (∀ l l', k l = k l') →
      (w.sent i).length = w.got i + 1 → RStep n w { w with prog := upd w.prog i (k []), got := upd w.got i (w.got i + 1) }

/-- A number of steps, of any ranks in any order. -/
inductive RSteps {α : Type} (n : Nat) : Nat → World α → World α → Prop
  | zero (w : World α) : RSteps n 0 w w
  | succ {c : Nat} {w w' w'' : World α} : RSteps n c w w' → RStep n w' w'' → RSteps n (c + 1) w w''

/-- The ranks may run at any speed, those other than 0 without waiting in operations with a root: whatever order their steps have, there is a bound on the number of steps, and
 - if `o` are results: no rank raises an exception, the ranks go on until all have finished, and a rank that has finished has its result in `o`;
 - if `o` is an exception: the ranks go on until one raises an exception, and not all of them finish. -/
def AnyPace (n : Nat) (ps : Nat → Prog α) (o : Option (Nat → α)) : Prop :=
  ∃ bound, ∀ c w, RSteps n c (World.start ps) w → c ≤ bound ∧
    match o with
    | some f => ¬ w.Raised n ∧ (w.Done n f ∨ ∃ w', RStep n w w') ∧ ∀ i < n, ∀ a, w.prog i = .ret a → a = f i
    | none => (w.Raised n ∨ ∃ w', RStep n w w') ∧ ∃ i < n, ∀ a, w.prog i ≠ .ret a

/-! ### What a rank does that does not wait -/

/-- The rank goes on without the values of the others. -/
def Prog.skip : Prog α → Prog α
  | .coll _ _ _ k => k []
  | p => p

/-- How many operations there are if the rank never waits. -/
def Prog.depth : Prog α → Nat
  | .coll _ _ _ k => (k []).depth + 1
  | _ => 0

/-- What rank `i` has still to do after `c` operations: with the others until the last operation `R` that they do together, after that alone. -/
def path (R : Nat) (P : Nat → Nat → Prog α) (i : Nat) : Nat → Prog α
  | 0 => P 0 i
  | c + 1 => if c < R then P (c + 1) i else (path R P i c).skip

theorem path_le {R : Nat} {P : Nat → Nat → Prog α} {i c : Nat} (h : c ≤ R) : path R P i c = P c i := by
  cases c with
  | zero => rfl
  | succ c => unfold path; rw [if_pos (by omega)]

theorem path_skip {R : Nat} {P : Nat → Nat → Prog α} {i c : Nat} (h : R ≤ c) : path R P i (c + 1) = (path R P i c).skip := by
  show (if c < R then _ else _) = _
  rw [if_neg (by omega)]

theorem path_idle {R : Nat} {P : Nat → Nat → Prog α} {i : Nat} (h : (P R i).offer = none) : ∀ {c}, R ≤ c → path R P i c = P R i := by
  intro c
  induction c with
  | zero => intro hc; rw [path_le (by omega)]; have : R = 0 := by omega
            rw [this]
  | succ c ih =>
    intro hc
    by_cases e : c + 1 ≤ R
    · rw [path_le e]; have : R = c + 1 := by omega
      rw [this]
    · rw [path_skip (by omega), ih (by omega)]
      cases hp : P R i with
      | ret a => rfl
      | raise => rfl
      | coll site T m k => rw [hp] at h; cases h

/-- Where the ranks are: rank `i` has left `w.got i` operations. -/
structure RInv (n R : Nat) (P : Nat → Nat → Prog α) (w : World α) : Prop where
  le : ∀ i < n, w.got i ≤ R ∨ w.got i + (w.prog i).depth ≤ R + (P R i).depth
  prog : ∀ i < n, w.prog i = path R P i (w.got i)
  len : ∀ i < n, (w.sent i).length = w.got i ∨ ((w.sent i).length = w.got i + 1 ∧ ((w.prog i).offer).isSome = true)
  sent : ∀ i < n, ∀ c < (w.sent i).length, (w.sent i)[c]? = (path R P i c).offer

theorem RInv.enter {R : Nat} {P : Nat → Nat → Prog α} {w : World α} (h : RInv n R P w) {i : Nat} {site : String} {T : Type} {m : T} {k : List T → Prog α} (hp : w.prog i = .coll site T m k)
    (hl : (w.sent i).length = w.got i) : RInv n R P { w with sent := upd w.sent i (w.sent i ++ [⟨site, T, m⟩]) } := by
  refine ⟨h.le, h.prog, ?_, ?_⟩
  · intro j hj
    show (upd w.sent i _ j).length = w.got j ∨ ((upd w.sent i _ j).length = w.got j + 1 ∧ ((w.prog j).offer).isSome = true)
    unfold upd
    by_cases e : j = i
    · subst e
      right
      rw [if_pos rfl]
      refine ⟨by rw [List.length_append, hl]; rfl, ?_⟩
      rw [hp]; rfl
    · rw [if_neg e]
      exact h.len j hj
  · intro j hj c hc
    show (upd w.sent i _ j)[c]? = _
    change c < (upd w.sent i _ j).length at hc
    unfold upd at hc ⊢
    split at hc
    · next e =>
      subst e
      rw [if_pos rfl]
      rw [List.length_append, List.length_singleton] at hc
      by_cases hc' : c < (w.sent j).length
      · rw [List.getElem?_append_left hc']
        exact h.sent j hj c hc'
      · have : c = (w.sent j).length := by omega
        subst this
        rw [List.getElem?_concat_length, hl, ← h.prog j hj, hp]
        rfl
    · next e =>
      rw [if_neg e]
      exact h.sent j hj c hc

/-- A rank goes on to the next part of its path. -/
theorem RInv.next {R : Nat} {P : Nat → Nat → Prog α} {w : World α} (h : RInv n R P w) {i : Nat} (hi : i < n) {p : Prog α} (hl : (w.sent i).length = w.got i + 1)
    (hp : p = path R P i (w.got i + 1)) (hd : R ≤ w.got i → p.depth + 1 ≤ (w.prog i).depth) : RInv n R P { w with prog := upd w.prog i p, got := upd w.got i (w.got i + 1) } := by
  refine ⟨?_, ?_, ?_, h.sent⟩
  · intro j hj
    show upd w.got i _ j ≤ R ∨ upd w.got i _ j + (upd w.prog i _ j).depth ≤ _
    unfold upd
    by_cases e : j = i
    · subst e
      rw [if_pos rfl, if_pos rfl]
      by_cases hR : R ≤ w.got j
      · right
        have := hd hR
        rcases h.le j hj with c | c
        · have e : w.got j = R := by omega
          have hq : w.prog j = P R j := by rw [h.prog j hj, e, path_le (Nat.le_refl R)]
          rw [hq] at this
          omega
        · omega
      · left; omega
    · rw [if_neg e, if_neg e]
      exact h.le j hj
  · intro j hj
    show upd w.prog i _ j = path R P j (upd w.got i _ j)
    unfold upd
    by_cases e : j = i
    · subst e
      rw [if_pos rfl, if_pos rfl]; exact hp
    · rw [if_neg e, if_neg e]
      exact h.prog j hj
  · intro j hj
    show (w.sent j).length = upd w.got i _ j ∨ ((w.sent j).length = upd w.got i _ j + 1 ∧ ((upd w.prog i _ j).offer).isSome = true)
    unfold upd
    by_cases e : j = i
    · subst e
      left
      rw [if_pos rfl, hl]
    · rw [if_neg e, if_neg e]
      exact h.len j hj

theorem RInv.step {R : Nat} {P : Nat → Nat → Prog α} (hr : ∀ c < R, Round n (P c) (P (c + 1))) (hf : 0 < n → ∃ q < n, (P R q).offer = none) {w w' : World α} (h : RInv n R P w) (s : RStep n w w') :
    RInv n R P w' := by
  cases s with
  | wait s =>
    cases s with
    | enter hi hp hl => exact h.enter hp hl
    | @leave i site T m k l hi hp hl hg =>
      have hsent : ∀ j < n, (w.sent j)[w.got i]? = (path R P j (w.got i)).offer ∧ ((path R P j (w.got i)).offer).isSome = true := by
        intro j hj
        have h1 : (((List.range n).map fun j => (w.sent j)[w.got i]?)[j]?) = some ((w.sent j)[w.got i]?) := by
          rw [List.getElem?_map, List.getElem?_range hj]; rfl
        rw [hg, List.getElem?_map] at h1
        have hs : ((w.sent j)[w.got i]?).isSome = true := by
          cases e : l[j]? with
          | none => rw [e] at h1; cases h1
          | some x => rw [e] at h1; rw [← Option.some.inj h1]; rfl
        have hlt : w.got i < (w.sent j).length := by
          rw [Option.isSome_iff_exists] at hs
          obtain ⟨x, hx⟩ := hs
          exact (List.getElem?_eq_some_iff.1 hx).1
        have := h.sent j hj _ hlt
        exact ⟨this, this ▸ hs⟩
      have hlt : w.got i < R := by
        rcases Nat.lt_or_ge (w.got i) R with c | c
        · exact c
        · obtain ⟨q, hq, e⟩ := hf (Nat.lt_of_le_of_lt (Nat.zero_le i) hi)
          have := (hsent q hq).2
          rw [path_idle e c, e] at this
          cases this
      obtain ⟨site', T', m', k', hround⟩ := hr _ hlt
      have hpi := h.prog i hi
      rw [path_le (Nat.le_of_lt hlt), (hround i hi).1, hp] at hpi
      injection hpi with e1 e2 e3 e4
      subst e1; subst e2
      have e3 := eq_of_heq e3
      have e4 := eq_of_heq e4
      have hlm : l = (List.range n).map m' := by
        refine map_some_inj (site := site) ?_
        rw [← hg, List.map_map]
        refine List.map_congr_left fun j hj => ?_
        have hj := List.mem_range.1 hj
        rw [(hsent j hj).1, path_le (Nat.le_of_lt hlt), (hround j hj).1]
        rfl
      refine h.next hi hl ?_ (fun hR => absurd hR (by omega))
      rw [path_le (by omega), (hround i hi).2, ← e4, hlm]
  | @pass i site T m k hi h0 hs hp hk hl =>
    refine h.next hi hl ?_ ?_
    · rcases Nat.lt_or_ge (w.got i) R with c | c
      · obtain ⟨site', T', m', k', hround⟩ := hr _ c
        have hpi := h.prog i hi
        rw [path_le (Nat.le_of_lt c), (hround i hi).1, hp] at hpi
        injection hpi with e1 e2 e3 e4
        subst e1; subst e2
        have e4 := eq_of_heq e4
        rw [path_le (by omega), (hround i hi).2, ← e4]
        exact hk _ _
      · rw [path_skip c, ← h.prog i hi, hp]; rfl
    · intro _
      rw [hp]; exact Nat.le_refl _

theorem RInv.start {R : Nat} {P : Nat → Nat → Prog α} : RInv n R P (World.start (P 0)) :=
  ⟨fun _ _ => .inl (Nat.zero_le _), fun _ _ => rfl, fun _ _ => .inl rfl, fun _ _ _ hc => absurd hc (Nat.not_lt_zero _)⟩

theorem RInv.steps {R : Nat} {P : Nat → Nat → Prog α} (hr : ∀ c < R, Round n (P c) (P (c + 1))) (hf : 0 < n → ∃ q < n, (P R q).offer = none) {w w' : World α} {c : Nat} (h : RInv n R P w)
    (s : RSteps n c w w') : RInv n R P w' := by
  induction s with
  | zero => exact h
  | succ _ s ih => exact (ih h).step hr hf s

/-- Some rank can go on. -/
theorem RInv.progress {R : Nat} {P : Nat → Nat → Prog α} {o : Option (Nat → α)} (hr : ∀ c < R, Round n (P c) (P (c + 1))) (hf : Final n (P R) o) {w : World α} (h : RInv n R P w) :
    (∃ f, o = some f ∧ w.Done n f) ∨ w.Raised n ∨ ∃ w', Step n w w' := by
  by_cases hn : 0 < n
  · obtain ⟨i, hi, hmin⟩ := least w.got n hn
    by_cases hR : w.got i < R
    · right; right
      obtain ⟨site, T, m, k, hround⟩ := hr _ hR
      by_cases hex : ∃ j < n, w.got j = w.got i ∧ (w.sent j).length = w.got j
      · obtain ⟨j, hj, e1, e2⟩ := hex
        refine ⟨_, Step.enter (site := site) (T := T) (m := m j) (k := k j) hj ?_ e2⟩
        rw [h.prog j hj, e1, path_le (Nat.le_of_lt hR), (hround j hj).1]
      · have hl : (w.sent i).length = w.got i + 1 := by
          rcases h.len i hi with c | c
          · exact absurd ⟨i, hi, rfl, c⟩ hex
          · exact c.1
        refine ⟨_, Step.leave (site := site) (T := T) (m := m i) (k := k i) (l := (List.range n).map m) hi ?_ hl ?_⟩
        · rw [h.prog i hi, path_le (Nat.le_of_lt hR), (hround i hi).1]
        · rw [List.map_map]
          refine List.map_congr_left fun j hj => ?_
          have hj := List.mem_range.1 hj
          have hlt : w.got i < (w.sent j).length := by
            have hm := hmin j hj
            by_cases e : w.got j = w.got i
            · rcases h.len j hj with c | c
              · exact absurd ⟨j, hj, e, c⟩ hex
              · omega
            · rcases h.len j hj with c | c <;> omega
          rw [h.sent j hj _ hlt, path_le (Nat.le_of_lt hR), (hround j hj).1]
          rfl
    · have hall : ∀ j < n, R ≤ w.got j := fun j hj => by
        have := hmin j hj
        omega
      cases o with
      | some f =>
        left
        refine ⟨f, rfl, fun j hj => ?_⟩
        rw [h.prog j hj, path_idle (by rw [hf j hj]; rfl) (hall j hj)]
        exact hf j hj
      | none =>
        right; left
        obtain ⟨j, hj, e⟩ := hf
        refine ⟨j, hj, ?_⟩
        rw [h.prog j hj, path_idle (by rw [e]; rfl) (hall j hj)]
        exact e
  · cases o with
    | some f => exact .inl ⟨f, rfl, fun i hi => absurd hi (by omega)⟩
    | none => obtain ⟨i, hi, _⟩ := hf; omega

/-! ### The number of steps -/

theorem RStep.count {w w' : World α} (s : RStep n w w') : total w'.count n = total w.count n + 1 := by
  cases s with
  | wait s => exact s.count
  | @pass i site T m k hi h0 hs hp hk hl =>
    refine total_succ hi ?_ ?_
    · show (w.sent i).length + upd w.got i _ i = _
      unfold upd World.count
      rw [if_pos rfl]
      omega
    · intro j hj
      show (w.sent j).length + upd w.got i _ j = _
      unfold upd World.count
      rw [if_neg hj]

theorem RSteps.count {w w' : World α} {c : Nat} (s : RSteps n c w w') : total w'.count n = total w.count n + c := by
  induction s with
  | zero => rfl
  | succ _ s ih => rw [s.count, ih]; omega

theorem le_total {f : Nat → Nat} : ∀ {n i}, i < n → f i ≤ total f n := by
  intro n
  induction n with
  | zero => intro i hi; omega
  | succ n ih =>
    intro i hi
    unfold total
    by_cases e : i = n
    · subst e; omega
    · have := ih (i := i) (by omega); omega

theorem RInv.bound {R : Nat} {P : Nat → Nat → Prog α} {w : World α} (h : RInv n R P w) : total w.count n ≤ n * (2 * (R + total (fun i => (P R i).depth) n) + 1) := by
  refine total_le fun i hi => ?_
  unfold World.count
  have h1 := h.le i hi
  have h2 : (P R i).depth ≤ total (fun i => (P R i).depth) n := le_total (f := fun i => (P R i).depth) hi
  rcases h.len i hi with c | c <;> omega

/-! ### The result -/

theorem Lock.anyPace {ps : Nat → Prog α} {o : Option (Nat → α)} (h : Lock n ps o) : AnyPace n ps o := by
  obtain ⟨R, P, h0, hr, hf⟩ := h.trace
  subst h0
  have hq : 0 < n → ∃ q < n, (P R q).offer = none := by
    intro hn
    cases o with
    | some f => exact ⟨0, hn, by rw [hf 0 hn]; rfl⟩
    | none => obtain ⟨q, hq, e⟩ := hf; exact ⟨q, hq, by rw [e]; rfl⟩
  refine ⟨n * (2 * (R + total (fun i => (P R i).depth) n) + 1), fun c w s => ?_⟩
  have hi : RInv n R P w := RInv.start.steps hr hq s
  have hend : ∀ i < n, (P R i).offer = none → (w.prog i).offer = none → w.prog i = P R i := by
    intro i hin h1 e
    rcases Nat.lt_or_ge (w.got i) R with c | c
    · obtain ⟨site, T, m, k, hround⟩ := hr _ c
      rw [hi.prog i hin, path_le (Nat.le_of_lt c), (hround i hin).1] at e
      cases e
    · rw [hi.prog i hin, path_idle h1 c]
  have hp := hi.progress hr hf
  refine ⟨?_, ?_⟩
  · have h1 := s.count
    have h2 := hi.bound
    have h3 : total (World.start (P 0)).count n = 0 := by
      have : total (World.start (P 0)).count n ≤ n * 0 := total_le fun i _ => Nat.le_refl _
      omega
    omega
  · cases o with
    | some f =>
      have hr' : ¬ w.Raised n := by
        rintro ⟨i, hin, e⟩
        have := hend i hin (by rw [hf i hin]; rfl) (by rw [e]; rfl)
        rw [e, hf i hin] at this
        cases this
      refine ⟨hr', ?_, ?_⟩
      · rcases hp with ⟨g, e, hp⟩ | hp | ⟨w', hp⟩
        · cases e; exact .inl hp
        · exact absurd hp hr'
        · exact .inr ⟨w', .wait hp⟩
      · intro i hin a e
        have := hend i hin (by rw [hf i hin]; rfl) (by rw [e]; rfl)
        rw [e, hf i hin] at this
        injection this
    | none =>
      refine ⟨?_, ?_⟩
      · rcases hp with ⟨g, e, hp⟩ | hp | ⟨w', hp⟩
        · cases e
        · exact .inl hp
        · exact .inr ⟨w', .wait hp⟩
      · obtain ⟨i, hin, e⟩ := hf
        refine ⟨i, hin, fun a ha => ?_⟩
        have := hend i hin (by rw [e]; rfl) (by rw [ha]; rfl)
        rw [ha, e] at this
        cases this

end Repast.Mpi
