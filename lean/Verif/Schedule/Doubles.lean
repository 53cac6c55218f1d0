import Verif.Schedule.Props
import Verif.Tree.RoundBounds

/-!
C81: the ticks of repeating events as numbers. In `Verif/Schedule/Model` ticks are the bit patterns of doubles, and `at += interval` is an arbitrary function;
here the bit patterns are given their values and the function rounds.
-/
namespace Repast.Schedule
open Repast.Tree

/-! ### Bit patterns -/

/-- The value of the bit pattern of a double that is not negative, in units of `2^-1074`: 52 bits of fraction below the exponent. (Patterns beyond those of
64 bits are taken to continue the pattern: overflow is not modelled.) -/
def unitsN (c : Nat) : Nat := if c < 2 ^ 52 then c else (2 ^ 52 + c % 2 ^ 52) * 2 ^ (c / 2 ^ 52 - 1)

/-- The sign is a bit of its own. -/
def units (c : Int) : Int := if 0 ≤ c then unitsN c.toNat else -unitsN (-c).toNat

/-- The number a bit pattern stands for. -/
def val (c : Int) : Rat := (units c : Rat) * 2 ^ (-1074 : Int)

/-- schedule.py:118 on doubles: the sum is rounded to the nearest double. -/
def Doubles (e : Env) : Prop := ∀ a i, val (e.adv a i) = rnd (val a + val i)

theorem unitsN_succ (c : Nat) : unitsN c < unitsN (c + 1) := by
  unfold unitsN
  by_cases h : c + 1 < 2 ^ 52
  · rw [if_pos h, if_pos (by omega)]; omega
  · rw [if_neg h]
    by_cases h' : c < 2 ^ 52
    · rw [if_pos h']
      have : c + 1 = 2 ^ 52 := by omega
      rw [this]; omega
    · rw [if_neg h']
      by_cases hr : c % 2 ^ 52 + 1 < 2 ^ 52
      · rw [show (c + 1) % 2 ^ 52 = c % 2 ^ 52 + 1 by omega, show (c + 1) / 2 ^ 52 = c / 2 ^ 52 by omega]
        exact Nat.mul_lt_mul_of_pos_right (by omega) (Nat.two_pow_pos _)
      · rw [show (c + 1) % 2 ^ 52 = 0 by omega, show (c + 1) / 2 ^ 52 - 1 = (c / 2 ^ 52 - 1) + 1 by omega, Nat.pow_succ 2 (c / 2 ^ 52 - 1)]
        have hp := Nat.two_pow_pos (c / 2 ^ 52 - 1)
        have hm : 2 ^ 52 + c % 2 ^ 52 < 2 ^ 53 := by omega
        have := Nat.mul_lt_mul_of_pos_right hm hp
        omega

theorem unitsN_mono {a b : Nat} (h : a < b) : unitsN a < unitsN b := by
  induction b with
  | zero => omega
  | succ b ih =>
    have := unitsN_succ b
    by_cases e : a = b
    · subst e; exact this
    · have := ih (by omega); omega

theorem unitsN_zero : unitsN 0 = 0 := by decide

theorem units_lt {a b : Int} (h : a < b) : units a < units b := by
  unfold units
  by_cases ha : 0 ≤ a
  · rw [if_pos ha, if_pos (by omega)]
    exact_mod_cast unitsN_mono (show a.toNat < b.toNat by omega)
  · rw [if_neg ha]
    have h0 := unitsN_mono (show 0 < (-a).toNat by omega)
    by_cases hb : 0 ≤ b
    · rw [if_pos hb]; omega
    · rw [if_neg hb]
      have := unitsN_mono (show (-b).toNat < (-a).toNat by omega)
      omega

theorem val_lt {a b : Int} (h : a < b) : val a < val b := by
  unfold val
  exact Rat.mul_lt_mul_of_pos_right (Rat.intCast_lt_intCast.2 (units_lt h)) (two_pos _)

/-- Bit patterns are ordered as the numbers. -/
theorem val_lt_iff {a b : Int} : val a < val b ↔ a < b := by
  refine ⟨fun h => ?_, val_lt⟩
  rcases Int.lt_trichotomy a b with h' | h' | h'
  · exact h'
  · subst h'; exact absurd h (by grind)
  · have := val_lt h'; grind

theorem val_le_iff {a b : Int} : val a ≤ val b ↔ a ≤ b := by
  have := val_lt_iff (a := b) (b := a)
  constructor
  · intro h; have : ¬ b < a := fun h' => by have := this.2 h'; grind
    omega
  · intro h
    have : ¬ val b < val a := fun h' => by have := this.1 h'; omega
    grind

theorem val_inj {a b : Int} : val a = val b ↔ a = b := by
  refine ⟨fun h => ?_, fun h => by rw [h]⟩
  have h1 := val_le_iff.1 (show val a ≤ val b by grind)
  have h2 := val_le_iff.1 (show val b ≤ val a by grind)
  omega

/-- The two constants of `Verif/Schedule/Model`. -/
theorem val_consts : val noTick = -1 ∧ val startTick = rnd (-(1 / 10 ^ 39)) ∧ val 0 = 0 := by decide +kernel

/-- Numbers of 53 bits have bit patterns. -/
theorem unitsN_surj : ∀ (s n : Nat), n ≤ 2 ^ 53 → ∃ c, unitsN c = n * 2 ^ s := by
  intro s
  induction s with
  | zero =>
    intro n h
    refine ⟨n, ?_⟩
    unfold unitsN
    by_cases h1 : n < 2 ^ 52
    · rw [if_pos h1]; omega
    · rw [if_neg h1]
      by_cases h2 : n = 2 ^ 53
      · subst h2; decide
      · rw [show n / 2 ^ 52 - 1 = 0 by omega]; omega
  | succ s ih =>
    intro n h
    by_cases h1 : n < 2 ^ 52
    · obtain ⟨c, hc⟩ := ih (n * 2) (by omega)
      exact ⟨c, by rw [hc, Nat.pow_succ, Nat.mul_assoc, Nat.mul_comm 2]⟩
    · refine ⟨(s + 1) * 2 ^ 52 + n, ?_⟩
      unfold unitsN
      rw [if_neg (by omega)]
      by_cases h2 : n = 2 ^ 53
      · subst h2
        rw [show ((s + 1) * 2 ^ 52 + 2 ^ 53) % 2 ^ 52 = 0 by omega, show ((s + 1) * 2 ^ 52 + 2 ^ 53) / 2 ^ 52 - 1 = s + 2 by omega, Nat.pow_succ 2 (s + 1)]
        omega
      · rw [show ((s + 1) * 2 ^ 52 + n) % 2 ^ 52 = n - 2 ^ 52 by omega, show ((s + 1) * 2 ^ 52 + n) / 2 ^ 52 - 1 = s + 1 by omega,
          show 2 ^ 52 + (n - 2 ^ 52) = n by omega]


theorem units_surj (n : Int) (s : Nat) (h1 : -2 ^ 53 ≤ n) (h2 : n ≤ 2 ^ 53) : ∃ c, units c = n * 2 ^ s := by
  obtain ⟨c, hc⟩ := unitsN_surj s n.natAbs (by omega)
  by_cases hn : 0 ≤ n
  · refine ⟨c, ?_⟩
    unfold units
    rw [if_pos (by omega), Int.toNat_natCast, hc, show n = (n.natAbs : Int) by omega]
    simp
  · refine ⟨-(c : Int), ?_⟩
    unfold units
    by_cases h0 : 0 ≤ -(c : Int)
    · exfalso
      have : c = 0 := by omega
      rw [this, unitsN_zero] at hc
      have := Nat.mul_pos (show 0 < n.natAbs by omega) (Nat.two_pow_pos s)
      omega
    · rw [if_neg h0, Int.neg_neg, Int.toNat_natCast, hc, show n = -(n.natAbs : Int) by omega]
      simp [Int.neg_mul]

theorem bits_val (c : Int) : Bits (val c) := by
  have key (c : Nat) : ∃ (n s : Nat), n ≤ 2 ^ 53 ∧ unitsN c = n * 2 ^ s := by
    unfold unitsN
    by_cases h : c < 2 ^ 52
    · exact ⟨c, 0, by omega, by rw [if_pos h]; omega⟩
    · exact ⟨2 ^ 52 + c % 2 ^ 52, c / 2 ^ 52 - 1, by omega, by rw [if_neg h]⟩
  have sc (n s : Nat) : ((n * 2 ^ s : Nat) : Rat) * 2 ^ (-1074 : Int) = ((n : Int) : Rat) * 2 ^ ((s : Int) + -1074) := by
    rw [two_add, two_nat, ← Rat.mul_assoc]
    congr 1
    exact_mod_cast rfl
  unfold val units
  by_cases h : 0 ≤ c
  · obtain ⟨n, s, hn, e⟩ := key c.toNat
    rw [if_pos h, e]
    exact ⟨n, s + -1074, by omega, by omega, sc n s⟩
  · obtain ⟨n, s, hn, e⟩ := key (-c).toNat
    rw [if_neg h, e]
    refine ⟨-(n : Int), s + -1074, by omega, by omega, ?_⟩
    have := sc n s
    rw [Rat.intCast_neg, Rat.intCast_neg]
    have e2 : (((n * 2 ^ s : Nat) : Int) : Rat) = ((n * 2 ^ s : Nat) : Rat) := rfl
    rw [e2]
    grind

/-- The sum of two doubles, rounded, is a double. -/
theorem sum_pattern (a i : Int) : ∃ c, val c = rnd (val a + val i) := by
  have hs : val a + val i = ((units a + units i : Int) : Rat) * 2 ^ (-1074 : Int) := by
    unfold val; rw [Rat.intCast_add]; grind
  generalize units a + units i = N at hs
  rw [hs]
  have pos (N : Int) (hN : 0 < N) : ∃ c, val c = rnd ((N : Rat) * 2 ^ (-1074 : Int)) := by
    by_cases hb : N ≤ 2 ^ 53
    · obtain ⟨c, hc⟩ := units_surj N 0 (by omega) hb
      refine ⟨c, ?_⟩
      rw [rnd_bits ⟨N, -1074, by omega, hb, rfl⟩]
      unfold val
      rw [hc]; simp
    · have hq : 0 < (N : Rat) * 2 ^ (-1074 : Int) := Rat.mul_pos (Rat.intCast_pos.2 hN) (two_pos _)
      obtain ⟨n, n0, n1, hr⟩ := rnd_scaled hq
      have hu : (-1074 : Int) ≤ ilog2 ((N : Rat) * 2 ^ (-1074 : Int)) - 52 := by
        have h1 := lt_ilog2 hq
        have h2 : (2 : Rat) ^ (53 + -1074 : Int) < (N : Rat) * 2 ^ (-1074 : Int) := by
          rw [two_add]
          refine Rat.mul_lt_mul_of_pos_right ?_ (two_pos _)
          have : ((2 ^ 53 : Int) : Rat) < N := Rat.intCast_lt_intCast.2 (by omega)
          have h53 : (2 : Rat) ^ (53 : Int) = ((2 ^ 53 : Int) : Rat) := by decide +kernel
          rw [h53]; exact this
        have h3 := two_le_iff (Rat.le_trans (Rat.le_of_lt h2) (Rat.le_of_lt h1))
        omega
      generalize ilog2 ((N : Rat) * 2 ^ (-1074 : Int)) - 52 = u at *
      obtain ⟨c, hc⟩ := units_surj n (u + 1074).toNat (by omega) n1
      refine ⟨c, ?_⟩
      rw [hr]
      unfold val
      rw [hc, Rat.intCast_mul, Rat.mul_assoc]
      congr 1
      have e1 : ((2 ^ (u + 1074).toNat : Int) : Rat) = 2 ^ (((u + 1074).toNat : Nat) : Int) := by
        rw [two_nat, Rat.natCast_pow, Rat.intCast_pow]; rfl
      rw [e1, ← two_add]
      congr 1
      omega
  have val_neg (c : Int) : val (-c) = -val c := by
    have : units (-c) = -units c := by
      unfold units
      by_cases h0 : c = 0
      · subst h0; decide
      · by_cases h : 0 ≤ c
        · rw [if_neg (by omega), if_pos h, Int.neg_neg]
        · rw [if_pos (by omega), if_neg h, Int.neg_neg]
    unfold val
    rw [this, Rat.intCast_neg]; grind
  rcases Int.lt_trichotomy N 0 with h | h | h
  · obtain ⟨c, hc⟩ := pos (-N) (by omega)
    refine ⟨-c, ?_⟩
    rw [val_neg, hc, Rat.intCast_neg, Rat.neg_mul, rnd_neg, Rat.neg_neg]
  · subst h
    refine ⟨0, ?_⟩
    rw [show ((0 : Int) : Rat) * 2 ^ (-1074 : Int) = 0 by grind, rnd_zero]
    exact val_consts.2.2
  · exact pos N h

/-- The bit pattern of a number given in units of `2^-1074`. -/
def codeN (N : Nat) : Nat := if N < 2 ^ 52 then N else (N.log2 - 52) * 2 ^ 52 + N / 2 ^ (N.log2 - 52)

def code (N : Int) : Int := if 0 ≤ N then codeN N.toNat else -codeN (-N).toNat

theorem codeN_units (c : Nat) : codeN (unitsN c) = c := by
  unfold unitsN
  by_cases h : c < 2 ^ 52
  · rw [if_pos h]; unfold codeN; rw [if_pos h]
  · rw [if_neg h]
    have hk : c = (c / 2 ^ 52 - 1) * 2 ^ 52 + (2 ^ 52 + c % 2 ^ 52) := by omega
    have hm : 2 ^ 52 + c % 2 ^ 52 < 2 ^ 53 := by omega
    have hm' : 2 ^ 52 ≤ 2 ^ 52 + c % 2 ^ 52 := by omega
    generalize c / 2 ^ 52 - 1 = k at *
    generalize 2 ^ 52 + c % 2 ^ 52 = m at *
    have hp := Nat.two_pow_pos k
    have hl : (m * 2 ^ k).log2 = 52 + k := by
      refine (Nat.log2_eq_iff ?_).2 ⟨?_, ?_⟩
      · have := Nat.mul_pos (show 0 < m by omega) hp; omega
      · rw [Nat.pow_add]; exact Nat.mul_le_mul_right _ hm'
      · rw [show 52 + k + 1 = 53 + k by omega, Nat.pow_add]; exact Nat.mul_lt_mul_of_pos_right hm hp
    have hge : ¬ m * 2 ^ k < 2 ^ 52 := by
      have := Nat.le_mul_of_pos_right m hp
      omega
    unfold codeN
    rw [if_neg hge, hl, show 52 + k - 52 = k by omega, Nat.mul_div_cancel _ hp]
    omega

theorem code_units (c : Int) : code (units c) = c := by
  unfold units
  by_cases h : 0 ≤ c
  · rw [if_pos h]
    unfold code
    rw [if_pos (by omega), Int.toNat_natCast, codeN_units]
    omega
  · rw [if_neg h]
    have := unitsN_mono (show 0 < (-c).toNat by omega)
    unfold code
    rw [if_neg (by omega), Int.neg_neg, Int.toNat_natCast, codeN_units]
    omega

/-- Addition of doubles on bit patterns. -/
def addDoubles (a i : Int) : Int := code (rnd (val a + val i) * 2 ^ (1074 : Int)).num

/-- Whatever else the environment does, its addition can be that of doubles. -/
theorem addDoubles_doubles (e : Env) : Doubles { e with adv := addDoubles } := by
  intro a i
  obtain ⟨c, hc⟩ := sum_pattern a i
  have : addDoubles a i = c := by
    unfold addDoubles
    rw [← hc]
    have : val c * 2 ^ (1074 : Int) = (units c : Rat) := by
      unfold val
      rw [Rat.mul_assoc, ← two_add]
      have : (2 : Rat) ^ ((-1074 : Int) + 1074) = 1 := by decide +kernel
      rw [this]; grind
    rw [this, Rat.num_intCast, code_units]
  show val (addDoubles a i) = _
  rw [this, hc]

/-! ### C81 -/

theorem Doubles.mono {e : Env} (h : Doubles e) : AdvMono e := by
  intro t i hi
  rw [← val_le_iff, h]
  have : val 0 ≤ val i := val_le_iff.2 hi
  rw [val_consts.2.2] at this
  exact (rnd_between (bits_val t)).2 (by grind)

/-- The start, and the interval added `n` times, each sum rounded. -/
def sums (s w : Rat) : Nat → Rat
  | 0 => s
  | n + 1 => rnd (sums s w n + w)

theorem Doubles.occ {e : Env} (h : Doubles e) {ev : Ev} {i : Int} (hint : ev.interval = some i) (n : Nat) :
    val (occ e ev n) = sums (val ev.at_) (val i) n := by
  induction n with
  | zero => rfl
  | succ n ih =>
    have : Schedule.occ e ev (n + 1) = e.adv (Schedule.occ e ev n) i := by
      rw [Schedule.occ]; simp [hint]
    rw [this, h, ih]; rfl

theorem nth_run {e : Env} (h : Doubles e) {ops : List Op} {ev : Ev} {now i : Int} {d : Bool} (hs : Obs.sched ev now d ∈ (run e ops).trace)
    (hint : ev.interval = some i) {n : Nat} {x : Ev} {t : Int} (ht : (runsOf ev.id (run e ops).trace)[n]? = some (x, t)) :
    t = Schedule.occ e ev n ∧ val t = sums (val ev.at_) (val i) n := by
  obtain ⟨k, h1, -⟩ := C03_repeating e ops ev now i d hs hint
  rw [h1, List.getElem?_map] at ht
  cases hr : (List.range k)[n]? with
  | none => rw [hr] at ht; simp at ht
  | some m =>
    rw [hr] at ht
    have hm : m = n := by
      rw [List.getElem?_eq_some_iff] at hr
      obtain ⟨_, hr⟩ := hr
      rw [List.getElem_range] at hr
      exact hr.symm
    subst hm
    simp only [Option.map_some, Option.some.injEq, Prod.mk.injEq] at ht
    exact ⟨ht.2.symm, by rw [← ht.2]; exact h.occ hint m⟩

/-- C81 for starts and intervals that are multiples of `2^-j`, as long as the ticks are at most `2^(53 - j)`: run `n` of a repeating event (counted from 0) is at
the tick that is its start and `n` times its interval, which is also the tick of whatever else is scheduled for that number. -/
theorem C81_exact_partial {e : Env} (h : Doubles e) {ops : List Op} {ev : Ev} {now i : Int} {d : Bool} (hs : Obs.sched ev now d ∈ (run e ops).trace)
    (hint : ev.interval = some i) {a w : Int} {j : Nat} (ha : val ev.at_ = (a : Rat) / 2 ^ j) (hw : val i = (w : Rat) / 2 ^ j)
    {n : Nat} {x : Ev} {t : Int} (ht : (runsOf ev.id (run e ops).trace)[n]? = some (x, t)) (hb : ∀ m : Nat, m ≤ n → -2 ^ 53 ≤ a + m * w ∧ a + m * w ≤ 2 ^ 53) :
    val t = val ev.at_ + n * val i ∧ ∀ t', val t' = val ev.at_ + n * val i → t' = t := by
  have key : val t = val ev.at_ + n * val i := by
    obtain ⟨-, ht⟩ := nth_run h hs hint ht
    rw [ht, ha, hw]
    have : ∀ m, m ≤ n → sums ((a : Rat) / 2 ^ j) ((w : Rat) / 2 ^ j) m = ((a + m * w : Int) : Rat) / 2 ^ j := by
      intro m
      induction m with
      | zero => intro _; simp [sums]
      | succ m ih =>
        intro hm
        rw [sums, ih (by omega)]
        have e : ((a + m * w : Int) : Rat) / 2 ^ j + (w : Rat) / 2 ^ j = ((a + (m + 1 : Nat) * w : Int) : Rat) / 2 ^ j := by
          rw [show a + ((m + 1 : Nat) : Int) * w = a + m * w + w by rw [Int.natCast_succ, Int.add_mul]; omega, Rat.intCast_add (a + m * w)]
          grind
        rw [e]
        exact rnd_bits (Bits.dyadic j (hb _ hm).1 (hb _ hm).2)
    rw [this n (Nat.le_refl _), Rat.intCast_add, Rat.intCast_mul, Rat.intCast_natCast]
    grind
  exact ⟨key, fun t' h' => val_inj.1 (h'.trans key.symm)⟩

/-- C81 up to rounding: for starts and intervals that are not negative, the tick of run `n` is the start and `n` times the interval, with a relative error of
`n` roundings. -/
theorem C81_near_partial {e : Env} (h : Doubles e) {ops : List Op} {ev : Ev} {now i : Int} {d : Bool} (hs : Obs.sched ev now d ∈ (run e ops).trace)
    (hint : ev.interval = some i) (h0 : 0 ≤ ev.at_) (hi : 0 ≤ i) {n : Nat} {x : Ev} {t : Int} (ht : (runsOf ev.id (run e ops).trace)[n]? = some (x, t)) :
    (val ev.at_ + n * val i) * (1 - 1 / 2 ^ 53) ^ n ≤ val t ∧ val t ≤ (val ev.at_ + n * val i) * (1 + 1 / 2 ^ 53) ^ n := by
  obtain ⟨-, hv⟩ := nth_run h hs hint ht
  rw [hv]
  have s0 : 0 ≤ val ev.at_ := by have := val_le_iff.2 h0; rwa [val_consts.2.2] at this
  have w0 : 0 ≤ val i := by have := val_le_iff.2 hi; rwa [val_consts.2.2] at this
  generalize val ev.at_ = s at *
  generalize val i = w at *
  have e53 : (1 : Rat) / 2 ^ 53 = 1 / 9007199254740992 := by decide +kernel
  rw [e53]
  have lo0 (n : Nat) : (0 : Rat) ≤ (1 - 1 / 9007199254740992) ^ n := Rat.pow_nonneg (by decide +kernel)
  have lo1 (n : Nat) : (1 - 1 / 9007199254740992 : Rat) ^ n ≤ 1 := by
    induction n with
    | zero => rw [Rat.pow_zero]; exact Rat.le_refl
    | succ n ih => rw [Rat.pow_succ]; have := lo0 n; grind
  have hi1 (n : Nat) : (1 : Rat) ≤ (1 + 1 / 9007199254740992 : Rat) ^ n := by
    induction n with
    | zero => rw [Rat.pow_zero]; exact Rat.le_refl
    | succ n ih => rw [Rat.pow_succ]; grind
  clear ht hv
  induction n with
  | zero => rw [Rat.pow_zero, Rat.pow_zero, sums]; constructor <;> · rw [show ((0 : Nat) : Rat) = 0 from rfl]; grind
  | succ n ih =>
    obtain ⟨i1, i2⟩ := ih
    rw [sums, Rat.pow_succ, Rat.pow_succ, Rat.natCast_add, show ((1 : Nat) : Rat) = 1 from rfl]
    have n0 : (0 : Rat) ≤ n := Rat.natCast_nonneg
    have nw : 0 ≤ (n : Rat) * w := Rat.mul_nonneg n0 w0
    have l0 := lo0 n
    have l1 := lo1 n
    have u1 := hi1 n
    generalize (1 - 1 / 9007199254740992 : Rat) ^ n = L at *
    generalize (1 + 1 / 9007199254740992 : Rat) ^ n = U at *
    have p1 : 0 ≤ (s + n * w) * L := Rat.mul_nonneg (by grind) l0
    have q0 : 0 ≤ sums s w n + w := by grind
    obtain ⟨r1, r2⟩ := rnd_near (q := sums s w n + w) (B := sums s w n + w) (by grind) Rat.le_refl
    have e53' : (2 : Rat) ^ 53 = 9007199254740992 := by decide +kernel
    rw [e53'] at r1 r2
    have wL : w * L ≤ w * 1 := Rat.mul_le_mul_of_nonneg_left l1 w0
    have wU : w * 1 ≤ w * U := Rat.mul_le_mul_of_nonneg_left u1 w0
    generalize rnd (sums s w n + w) = r at *
    generalize sums s w n = q at *
    rw [show ((n : Rat) + 1) * w = n * w + w by grind]
    generalize (n : Rat) * w = nw' at *
    have c1 : (0 : Rat) ≤ 1 - 1 / 9007199254740992 := by decide +kernel
    have c2 : (0 : Rat) ≤ 1 + 1 / 9007199254740992 := by decide +kernel
    have m1 := Rat.mul_le_mul_of_nonneg_right (show (s + nw') * L + w * L ≤ q + w by grind) c1
    have m2 := Rat.mul_le_mul_of_nonneg_right (show q + w ≤ (s + nw') * U + w * U by grind) c2
    constructor
    · rw [show (s + (nw' + w)) * (L * (1 - 1 / 9007199254740992)) = ((s + nw') * L + w * L) * (1 - 1 / 9007199254740992) by grind]
      refine Rat.le_trans m1 ?_
      grind
    · rw [show (s + (nw' + w)) * (U * (1 + 1 / 9007199254740992)) = ((s + nw') * U + w * U) * (1 + 1 / 9007199254740992) by grind]
      refine Rat.le_trans ?_ m2
      grind

/-- C81: time goes on. With intervals that are not negative the ticks do not decrease, and a repeating event's next run is at a later tick if the interval is more than
about `2^-53` times the tick. -/
theorem C81_time_partial {e : Env} (h : Doubles e) {ops : List Op} (hnn : NonNegIntervals (run e ops).trace) :
    (clock (run e ops).trace).Pairwise (· ≤ ·) ∧
    ∀ ev now i d, Obs.sched ev now d ∈ (run e ops).trace → ev.interval = some i → ∀ n x y t t', (runsOf ev.id (run e ops).trace)[n]? = some (x, t) →
      (runsOf ev.id (run e ops).trace)[n + 1]? = some (y, t') → 0 ≤ t → val t + val i < 2 ^ 53 * val i → t < t' := by
  refine ⟨(C01_time_monotone e ops h.mono hnn).1, ?_⟩
  intro ev now i d hs hint n x y t t' ht ht' h0 hlt
  have e1 := (nth_run h hs hint ht).2
  have e2 := (nth_run h hs hint ht').2
  rw [sums, ← e1] at e2
  rw [← val_lt_iff, e2]
  have t0 : 0 ≤ val t := by have := val_le_iff.2 h0; rwa [val_consts.2.2] at this
  have i0 : 0 ≤ val i := by have := val_le_iff.2 (hnn ev now d i hs hint); rwa [val_consts.2.2] at this
  have e53 : (2 : Rat) ^ 53 = 9007199254740992 := by decide +kernel
  have r := rnd_near (q := val t + val i) (B := val t + val i) (by grind) Rat.le_refl
  rw [e53] at r hlt
  grind

/-- C81 is violated: an event that starts at 0 with the interval 0.1 runs the eleventh time at `1 - 2^-53`, not at 1, where an event scheduled for 1 runs; one with
the interval 0.2 runs the sixteenth time after 3, where a stop scheduled for 3 stops the simulation. -/
theorem C81_violation_drift {e : Env} (h : Doubles e) {ops : List Op} {ev : Ev} {now i : Int} {d : Bool} (hs : Obs.sched ev now d ∈ (run e ops).trace)
    (hint : ev.interval = some i) (h0 : ev.at_ = 0) {x : Ev} {t : Int} :
    (val i = rnd (1 / 10) → (runsOf ev.id (run e ops).trace)[10]? = some (x, t) → val t = 1 - 1 / 2 ^ 53) ∧
    (val i = rnd (1 / 5) → (runsOf ev.id (run e ops).trace)[15]? = some (x, t) → 3 < val t) := by
  refine ⟨fun hi ht => ?_, fun hi ht => ?_⟩
  · rw [(nth_run h hs hint ht).2, h0, hi, val_consts.2.2]; decide +kernel
  · rw [(nth_run h hs hint ht).2, h0, hi, val_consts.2.2]; decide +kernel

/-- C81 is violated: an event at `2^53` (or later) with interval 1 stays there. All its runs are at that tick, and as long as it is not voided the simulation does not get
beyond it. -/
theorem C81_violation_stall {e : Env} (h : Doubles e) {ops : List Op} (hnn : NonNegIntervals (run e ops).trace) {ev : Ev} {now i : Int} {d : Bool}
    (hs : Obs.sched ev now d ∈ (run e ops).trace) (hint : ev.interval = some i) (h0 : val ev.at_ = 2 ^ 53) (hi : val i = 1) :
    (∀ p ∈ runsOf ev.id (run e ops).trace, p.2 = ev.at_) ∧
    ((now < ev.at_ ∨ d = true) → ¬ IsVoided ev.id (run e ops).trace → (run e ops).phase ≠ .running → (run e ops).tick ≤ ev.at_) := by
  have hocc : ∀ n, Schedule.occ e ev n = ev.at_ := by
    intro n
    rw [← val_inj, h.occ hint, h0, hi]
    induction n with
    | zero => rfl
    | succ n ih => rw [sums, ih]; decide +kernel
  obtain ⟨k, h1, h2⟩ := C03_repeating e ops ev now i d hs hint
  refine ⟨?_, fun hacc hv hph => ?_⟩
  · intro p hp
    rw [h1, List.mem_map] at hp
    obtain ⟨n, -, rfl⟩ := hp
    exact hocc n
  · obtain ⟨hq, -⟩ := h2 hacc hv hph
    have hm : ({ ev with at_ := Schedule.occ e ev k } : Ev) ∈ (run e ops).queue := by
      have : ({ ev with at_ := Schedule.occ e ev k } : Ev) ∈ (run e ops).queue.filter (fun x => x.id == ev.id) := by rw [hq]; simp
      exact (List.mem_filter.1 this).1
    have := (run_mono e ops h.mono hnn).queue _ hm
    rw [hocc] at this
    exact this

/-- An environment with the addition of doubles. -/
def dblEnv : Env := { exEnv (fun _ _ => []) with adv := addDoubles }

/-- 0.5, and a quarter. -/
def half : Int := code (2 ^ 1073)
def quarter : Int := code (2 ^ 1072)

/-- The hypotheses: an event that starts at 0.5 and repeats with interval 0.25, and a tick at which it runs for the third time together with an event at 1. -/
example : Doubles dblEnv ∧ val half = (2 : Int) / 2 ^ 2 ∧ val quarter = (1 : Int) / 2 ^ 2 ∧
    let s := run dblEnv [.act (rep half quarter), .act (one (code (2 ^ 1074))), .enter, .loop, .loop, .enter, .loop, .loop, .enter, .loop, .loop, .loop]
    (runsOf 0 s.trace)[2]?.map (fun p => val p.2) = some 1 ∧ (runsOf 1 s.trace).map (fun p => val p.2) = [1] := by
  refine ⟨addDoubles_doubles _, by decide +kernel, by decide +kernel, by decide +kernel, by decide +kernel⟩

/-- The hypotheses of the violations: an event every 0.1 ticks, and one that stays. -/
example : (let s := run dblEnv (.act (rep 0 (code (rnd (1 / 10) * (2 : Rat) ^ (1074 : Int)).num)) :: (List.replicate 11 [Op.enter, .loop, .loop]).flatten)
    (runsOf 0 s.trace)[10]?.map (fun p => val p.2) = some (1 - 1 / 2 ^ 53 : Rat) ∧ s.tick = code (2 ^ 1074) - 1) ∧
    (let s := run dblEnv [.act (rep (code (2 ^ 1127)) (code (2 ^ 1074))), .enter, .loop, .loop, .enter, .loop, .loop, .enter, .loop, .loop]
    val (code (2 ^ 1127)) = 2 ^ 53 ∧ (runsOf 0 s.trace).length = 3 ∧ s.tick = code (2 ^ 1127) ∧ s.phase = .idle) := by
  refine ⟨⟨by decide +kernel, by decide +kernel⟩, by decide +kernel, by decide +kernel, by decide +kernel, by decide +kernel⟩

end Repast.Schedule
