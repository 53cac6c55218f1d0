import Verif.Tree.Rounding

/-! C50 with the rounding of doubles: what the borders do keep to. -/
namespace Repast.Tree
open Repast.Space (Box)

/-! ### Rounding -/

theorem roundEven_le {q : Rat} {n : Int} (h : q ≤ n) : roundEven q ≤ n := by
  have h1 := Rat.floor_le q
  have h2 : q.floor ≤ n := by have := Rat.floor_monotone h; rwa [Rat.floor_intCast] at this
  by_cases e : q.floor = n
  · have hd : q - q.floor < 1 / 2 := by rw [e]; grind
    unfold roundEven
    simp only
    rw [if_pos hd]
    exact h2
  · unfold roundEven
    simp only
    split
    · omega
    · split
      · omega
      · split <;> omega

theorem le_roundEven {q : Rat} {n : Int} (h : (n : Rat) ≤ q) : n ≤ roundEven q := by
  have h2 : n ≤ q.floor := Rat.le_floor_iff.2 h
  unfold roundEven
  simp only
  split
  · omega
  · split
    · omega
    · split <;> omega

theorem roundEven_near (q : Rat) : (roundEven q : Rat) - q ≤ 1 / 2 ∧ q - roundEven q ≤ 1 / 2 := by
  have h1 := Rat.floor_le q
  have h2 := Rat.lt_floor_add_one q
  rw [Rat.intCast_add] at h2
  unfold roundEven
  simp only
  split
  · grind
  · split
    · rw [Rat.intCast_add]; grind
    · split
      · grind
      · rw [Rat.intCast_add]; grind

theorem two_pos (e : Int) : (0 : Rat) < 2 ^ e := Rat.zpow_pos (by decide)

theorem two_add (a b : Int) : (2 : Rat) ^ (a + b) = 2 ^ a * 2 ^ b := Rat.zpow_add (by decide) a b

theorem two_nat (n : Nat) : (2 : Rat) ^ (n : Int) = ((2 ^ n : Nat) : Rat) := by
  rw [Rat.zpow_natCast]
  induction n with
  | zero => rfl
  | succ n ih => rw [Rat.pow_succ, ih, Nat.pow_succ, Rat.natCast_mul]; rfl

theorem two_one_le {a : Int} (h : 0 ≤ a) : (1 : Rat) ≤ 2 ^ a := by
  obtain ⟨n, rfl⟩ := Int.eq_ofNat_of_zero_le h
  rw [two_nat]
  have : 1 ≤ 2 ^ n := Nat.one_le_two_pow
  exact_mod_cast this

theorem two_mono {a b : Int} (h : a ≤ b) : (2 : Rat) ^ a ≤ 2 ^ b := by
  have e : b = a + (b - a) := by omega
  rw [e, two_add]
  have h1 := two_one_le (a := b - a) (by omega)
  have h2 := two_pos a
  have := Rat.mul_le_mul_of_nonneg_left h1 (Rat.le_of_lt h2)
  grind

theorem two_le_iff {a b : Int} (h : (2 : Rat) ^ a ≤ 2 ^ b) : a ≤ b := by
  rcases Int.le_total a b with h' | h'
  · exact h'
  · by_cases e : a = b
    · omega
    · exfalso
      have h1 := two_mono (a := b + 1) (b := a) (by omega)
      rw [two_add] at h1
      have h2 := two_pos b
      have : (2 : Rat) ^ (1 : Int) = 2 := Rat.zpow_one 2
      rw [this] at h1
      grind

theorem mul_den (q : Rat) : q * (q.den : Rat) = (q.num : Rat) := by
  have h := q.den_pos
  rw [Rat.mul_def', Rat.num_natCast, Rat.den_natCast, Nat.mul_one]
  have := Rat.mkRat_mul_right (n := q.num) (d := 1) (a := q.den) (by omega)
  rw [Nat.one_mul] at this
  rw [this]
  exact Rat.mkRat_self (q.num : Rat)

/-- The magnitude of a number. -/
theorem ilog2_le {q : Rat} (h : 0 < q) : (2 : Rat) ^ ilog2 q ≤ q := by
  unfold ilog2
  simp only
  split
  · rename_i h'; exact h'
  · have hn : 0 < q.num := by
      have h1 := Rat.num_nonneg.2 (Rat.le_of_lt h)
      have h2 : q.num ≠ 0 := fun e => by
        have : q = 0 := Rat.num_eq_zero.1 e
        grind
      omega
    have hd : 0 < q.den := q.den_pos
    have n1 : 2 ^ q.num.natAbs.log2 ≤ q.num.natAbs := Nat.log2_self_le (by omega)
    have d1 : q.den < 2 ^ (q.den.log2 + 1) := Nat.lt_log2_self
    have hq : q * (q.den : Rat) = (q.num : Rat) := mul_den q
    have e1 : (2 : Rat) ^ ((q.num.natAbs.log2 : Int) - (q.den.log2 : Int) - 1) * 2 ^ ((q.den.log2 + 1 : Nat) : Int) = 2 ^ ((q.num.natAbs.log2 : Nat) : Int) := by
      rw [← two_add]
      congr 1
      omega
    rw [two_nat, two_nat] at e1
    have n2 : ((2 ^ q.num.natAbs.log2 : Nat) : Rat) ≤ (q.num : Rat) := by
      have : ((q.num.natAbs : Nat) : Int) = q.num := by omega
      rw [← this]
      exact_mod_cast n1
    have d2 : (q.den : Rat) ≤ ((2 ^ (q.den.log2 + 1) : Nat) : Rat) := by
      have := Nat.le_of_lt d1
      exact_mod_cast this
    have hdp : (0 : Rat) < ((2 ^ (q.den.log2 + 1) : Nat) : Rat) := by
      have := Nat.two_pow_pos (q.den.log2 + 1)
      exact_mod_cast this
    refine Rat.le_of_mul_le_mul_right (c := ((2 ^ (q.den.log2 + 1) : Nat) : Rat)) ?_ hdp
    rw [e1]
    have := Rat.mul_le_mul_of_nonneg_left d2 (Rat.le_of_lt h)
    grind

theorem lt_ilog2 {q : Rat} (h : 0 < q) : q < (2 : Rat) ^ (ilog2 q + 1) := by
  unfold ilog2
  simp only
  split
  · have hn : 0 < q.num := by
      have h1 := Rat.num_nonneg.2 (Rat.le_of_lt h)
      have h2 : q.num ≠ 0 := fun e => by
        have : q = 0 := Rat.num_eq_zero.1 e
        grind
      omega
    have hd : 0 < q.den := q.den_pos
    have n1 : q.num.natAbs < 2 ^ (q.num.natAbs.log2 + 1) := Nat.lt_log2_self
    have d1 : 2 ^ q.den.log2 ≤ q.den := Nat.log2_self_le (by omega)
    have hq : q * (q.den : Rat) = (q.num : Rat) := mul_den q
    have e1 : (2 : Rat) ^ ((q.num.natAbs.log2 : Int) - (q.den.log2 : Int) + 1) * 2 ^ ((q.den.log2 : Nat) : Int) = 2 ^ ((q.num.natAbs.log2 + 1 : Nat) : Int) := by
      rw [← two_add]
      congr 1
      omega
    rw [two_nat, two_nat] at e1
    have n2 : (q.num : Rat) < ((2 ^ (q.num.natAbs.log2 + 1) : Nat) : Rat) := by
      have : ((q.num.natAbs : Nat) : Int) = q.num := by omega
      rw [← this]
      exact_mod_cast n1
    have d2 : ((2 ^ q.den.log2 : Nat) : Rat) ≤ (q.den : Rat) := by exact_mod_cast d1
    have hdp : (0 : Rat) ≤ ((2 ^ q.den.log2 : Nat) : Rat) := by
      have := Nat.zero_le (2 ^ q.den.log2)
      exact_mod_cast this
    refine Rat.lt_of_mul_lt_mul_right (c := ((2 ^ q.den.log2 : Nat) : Rat)) ?_ hdp
    rw [e1]
    have := Rat.mul_le_mul_of_nonneg_left d2 (Rat.le_of_lt h)
    grind
  · rename_i h'
    rw [Int.sub_add_cancel]
    grind

theorem rnd_zero : rnd 0 = 0 := by unfold rnd; rw [if_pos rfl]

theorem rnd_pos {q : Rat} (h : 0 < q) : rnd q = (roundEven (q / (2 : Rat) ^ (ilog2 q - 52)) : Rat) * (2 : Rat) ^ (ilog2 q - 52) := by
  unfold rnd
  rw [if_neg (by grind), if_pos h]

/-- The result of rounding has 53 bits. -/
theorem rnd_scaled {q : Rat} (h : 0 < q) : ∃ n : Int, 0 ≤ n ∧ n ≤ 2 ^ 53 ∧ rnd q = (n : Rat) * 2 ^ (ilog2 q - 52) := by
  rw [rnd_pos h]
  have hup := lt_ilog2 h
  generalize hu : ilog2 q - 52 = u at *
  rw [show ilog2 q + 1 = 53 + u by omega, two_add] at hup
  have pu := two_pos u
  have hdiv : q / 2 ^ u * 2 ^ u = q := Rat.div_mul_cancel (by grind)
  refine ⟨roundEven (q / 2 ^ u), ?_, ?_, rfl⟩
  · refine le_roundEven (Rat.le_of_mul_le_mul_right (c := 2 ^ u) ?_ pu)
    rw [hdiv]
    have : ((0 : Int) : Rat) * 2 ^ u = 0 := by rw [show ((0 : Int) : Rat) = 0 from rfl]; grind
    grind
  · refine roundEven_le (Rat.le_of_mul_le_mul_right (c := 2 ^ u) ?_ pu)
    rw [hdiv]
    have : (2 : Rat) ^ (53 : Int) = ((2 ^ 53 : Int) : Rat) := by decide +kernel
    rw [← this]
    exact Rat.le_of_lt hup

theorem rnd_neg (q : Rat) : rnd (-q) = -rnd q := by
  by_cases h0 : q = 0
  · subst h0
    rw [show (-0 : Rat) = 0 by decide, rnd_zero]; decide
  · by_cases h : 0 < q
    · rw [rnd_pos h]
      unfold rnd
      rw [if_neg (by grind), if_neg (by grind), Rat.neg_neg]
    · have h' : 0 < -q := by grind
      rw [rnd_pos h']
      unfold rnd
      rw [if_neg h0, if_neg h, Rat.neg_neg]

/-- The numbers with at most 53 bits, `n * 2 ^ j`. -/
def Bits (d : Rat) : Prop := ∃ (n j : Int), -2 ^ 53 ≤ n ∧ n ≤ 2 ^ 53 ∧ d = (n : Rat) * 2 ^ j

theorem Bits.neg {d : Rat} (h : Bits d) : Bits (-d) := by
  obtain ⟨n, j, h1, h2, rfl⟩ := h
  exact ⟨-n, j, by omega, by omega, by rw [Rat.intCast_neg]; grind⟩

theorem Bits.int {n : Int} (h1 : -2 ^ 53 ≤ n) (h2 : n ≤ 2 ^ 53) : Bits n := ⟨n, 0, h1, h2, by rw [Rat.zpow_zero]; grind⟩

theorem mul_two_int (n : Int) {j : Int} (hj : 0 ≤ j) : ∃ m : Int, (n : Rat) * 2 ^ j = m := by
  obtain ⟨k, rfl⟩ := Int.eq_ofNat_of_zero_le hj
  exact ⟨n * (2 ^ k : Nat), by rw [two_nat, Rat.intCast_mul]; rfl⟩

/-- Rounding does not cross a number of 53 bits. -/
theorem rnd_between_pos {q d : Rat} (hq : 0 < q) (hd : Bits d) : (q ≤ d → rnd q ≤ d) ∧ (d ≤ q → d ≤ rnd q) := by
  obtain ⟨n, j, n1, n2, rfl⟩ := hd
  rw [rnd_pos hq]
  have hlow := ilog2_le hq
  generalize hu : ilog2 q - 52 = u at *
  have he : ilog2 q = u + 52 := by omega
  rw [he] at hlow
  have pu := two_pos u
  have pj := two_pos j
  have hdiv : q / 2 ^ u * 2 ^ u = q := Rat.div_mul_cancel (by grind)
  have h52 : (2 : Rat) ^ (52 : Int) = ((2 ^ 52 : Int) : Rat) := by decide +kernel
  have hbig : ((2 ^ 52 : Int) : Rat) ≤ q / 2 ^ u := by
    refine Rat.le_of_mul_le_mul_right (c := 2 ^ u) ?_ pu
    rw [hdiv, ← h52, ← two_add, Int.add_comm]
    exact hlow
  have hn : (n : Rat) ≤ ((2 ^ 53 : Int) : Rat) := by exact_mod_cast n2
  have h53 : ((2 ^ 53 : Int) : Rat) * 2 ^ j = 2 ^ (53 + j) := by
    rw [two_add]; congr 1
  have hle : (n : Rat) * 2 ^ j ≤ 2 ^ (53 + j) := by
    rw [← h53]; exact Rat.mul_le_mul_of_nonneg_right hn (Rat.le_of_lt pj)
  by_cases hj : u ≤ j
  · obtain ⟨m, hm⟩ := mul_two_int n (j := j - u) (by omega)
    have e : (n : Rat) * 2 ^ j = m * 2 ^ u := by
      rw [← hm, Rat.mul_assoc, ← two_add]; congr 2; omega
    rw [e]
    constructor
    · intro h
      refine Rat.mul_le_mul_of_nonneg_right ?_ (Rat.le_of_lt pu)
      have : q / 2 ^ u ≤ m := Rat.le_of_mul_le_mul_right (c := 2 ^ u) (by rw [hdiv]; exact h) pu
      exact_mod_cast roundEven_le this
    · intro h
      refine Rat.mul_le_mul_of_nonneg_right ?_ (Rat.le_of_lt pu)
      have : (m : Rat) ≤ q / 2 ^ u := Rat.le_of_mul_le_mul_right (c := 2 ^ u) (by rw [hdiv]; exact h) pu
      exact_mod_cast le_roundEven this
  · constructor
    · intro h
      have h1 : (2 : Rat) ^ (u + 52) ≤ 2 ^ (53 + j) := Rat.le_trans hlow (Rat.le_trans h hle)
      have h2 := two_le_iff h1
      have e : u + 52 = 53 + j := by omega
      rw [e] at hlow
      have eq1 : q = 2 ^ (53 + j) := Rat.le_antisymm (Rat.le_trans h hle) hlow
      have eq2 : (n : Rat) * 2 ^ j = 2 ^ (53 + j) := Rat.le_antisymm hle (by rw [← eq1]; exact h)
      have eq3 : q / 2 ^ u ≤ ((2 ^ 52 : Int) : Rat) := by
        refine Rat.le_of_mul_le_mul_right (c := 2 ^ u) ?_ pu
        rw [hdiv, ← h52, ← two_add, eq1, ← e, Int.add_comm]
        exact Rat.le_refl
      have := roundEven_le eq3
      have h3 : (roundEven (q / 2 ^ u) : Rat) ≤ ((2 ^ 52 : Int) : Rat) := by exact_mod_cast this
      have h4 := Rat.mul_le_mul_of_nonneg_right h3 (Rat.le_of_lt pu)
      rw [← h52, ← two_add, show (52 : Int) + u = 53 + j by omega, ← eq2] at h4
      exact h4
    · intro h
      have := le_roundEven hbig
      have h3 : ((2 ^ 52 : Int) : Rat) ≤ (roundEven (q / 2 ^ u) : Rat) := by exact_mod_cast this
      have h4 := Rat.mul_le_mul_of_nonneg_right h3 (Rat.le_of_lt pu)
      rw [← h52, ← two_add] at h4
      exact Rat.le_trans hle (Rat.le_trans (two_mono (by omega)) h4)

theorem rnd_between {q d : Rat} (hd : Bits d) : (q ≤ d → rnd q ≤ d) ∧ (d ≤ q → d ≤ rnd q) := by
  by_cases h0 : q = 0
  · subst h0; rw [rnd_zero]; exact ⟨id, id⟩
  · by_cases h : 0 < q
    · exact rnd_between_pos h hd
    · have := rnd_between_pos (q := -q) (by grind) hd.neg
      rw [rnd_neg] at this
      exact ⟨fun h => by have := this.2 (by grind); grind, fun h => by have := this.1 (by grind); grind⟩

/-- The error of rounding. -/
theorem rnd_near_pos {q : Rat} (hq : 0 < q) : -(q / 2 ^ 53) ≤ rnd q - q ∧ rnd q - q ≤ q / 2 ^ 53 := by
  rw [rnd_pos hq]
  have hlow := ilog2_le hq
  generalize hu : ilog2 q - 52 = u at *
  rw [show ilog2 q = 52 + u by omega, two_add] at hlow
  have pu := two_pos u
  have hdiv : q / 2 ^ u * 2 ^ u = q := Rat.div_mul_cancel (by grind)
  obtain ⟨h1, h2⟩ := roundEven_near (q / 2 ^ u)
  have h52 : (2 : Rat) ^ (52 : Int) = 4503599627370496 := by decide +kernel
  have h53 : (2 : Rat) ^ (53 : Nat) = 9007199254740992 := by decide +kernel
  rw [h52] at hlow
  rw [h53]
  have k1 := Rat.mul_le_mul_of_nonneg_right h1 (Rat.le_of_lt pu)
  have k2 := Rat.mul_le_mul_of_nonneg_right h2 (Rat.le_of_lt pu)
  grind

/-- Rounding changes a number of absolute value at most `B` by at most `B / 2^53`. -/
theorem rnd_near {q B : Rat} (h1 : -B ≤ q) (h2 : q ≤ B) : -(B / 2 ^ 53) ≤ rnd q - q ∧ rnd q - q ≤ B / 2 ^ 53 := by
  have h53 : (2 : Rat) ^ (53 : Nat) = 9007199254740992 := by decide +kernel
  by_cases h0 : q = 0
  · subst h0; rw [rnd_zero, h53]; grind
  · by_cases h : 0 < q
    · have := rnd_near_pos h
      rw [h53] at *; grind
    · have := rnd_near_pos (q := -q) (by grind)
      rw [rnd_neg] at this
      rw [h53] at *; grind

theorem rnd_bits {d : Rat} (hd : Bits d) : rnd d = d :=
  Rat.le_antisymm ((rnd_between hd).1 Rat.le_refl) ((rnd_between hd).2 Rat.le_refl)

theorem rnd_rnd (q : Rat) : rnd (rnd q) = rnd q := by
  have pos {q : Rat} (h : 0 < q) : Bits (rnd q) := by
    obtain ⟨n, n0, n1, e⟩ := rnd_scaled h
    exact ⟨n, _, by omega, n1, e⟩
  by_cases h0 : q = 0
  · subst h0; rw [rnd_zero, rnd_zero]
  · by_cases h : 0 < q
    · exact rnd_bits (pos h)
    · have := (pos (q := -q) (by grind)).neg
      rw [rnd_neg, Rat.neg_neg] at this
      exact rnd_bits this

/-! ### C50 -/

/-- The number `53` bits hold: bounds of a space up to it are doubles. -/
abbrev big : Int := 2 ^ 53

theorem fmod_between (a : Rat) {b : Rat} (hb : 0 < b) : -b < fmod a b ∧ fmod a b < b := by
  obtain ⟨h1, h2, -⟩ := fmod_spec a hb
  by_cases h : 0 ≤ a
  · have := h1 h; grind
  · have := h2 (by grind); grind

/-- C50 with the rounding of doubles, for a dimension `[lo, hi)` whose bounds are doubles: neither border leads below `lo` or beyond `hi`. Missing: `hi`
itself is outside of the dimension, and is reached (`C50_rounding_periodic`, `C50_rounding_sticky`). -/
theorem C50_rounding_closed_partial {lo hi : Int} (h : lo < hi) (h1 : -big ≤ lo) (h2 : hi ≤ big) (v : Rat) :
    ((lo : Rat) ≤ dperiodic1 lo hi (hi - lo) v ∧ dperiodic1 lo hi (hi - lo) v ≤ hi) ∧ (lo : Rat) ≤ dsticky1 lo hi v ∧ dsticky1 lo hi v ≤ hi := by
  have bl : Bits lo := Bits.int h1 (by unfold big at *; omega)
  have bh : Bits hi := Bits.int (by unfold big at *; omega) h2
  have hlt : (lo : Rat) < hi := Rat.intCast_lt_intCast.2 h
  have he : ((hi - lo : Int) : Rat) = hi - lo := Rat.intCast_sub ..
  constructor
  · unfold dperiodic1
    simp only
    have := fmod_between (rnd (v - lo)) (b := ((hi - lo : Int) : Rat)) (by grind)
    generalize fmod (rnd (v - lo)) ((hi - lo : Int) : Rat) = nc at *
    split
    · exact ⟨(rnd_between bl).2 (by grind), (rnd_between bh).1 (by grind)⟩
    · exact ⟨(rnd_between bl).2 (by grind), (rnd_between bh).1 (by grind)⟩
  · have ho : 0 ≤ rnd offset := by decide +kernel
    have := (rnd_between (q := (hi : Rat) - rnd offset) bh).1 (by grind)
    unfold dsticky1
    grind

/-- C50 with the rounding of doubles: in a dimension whose upper bound is at most `2^26` sticky borders lead to a coordinate in the dimension, and keep a
coordinate at a distance of at least `2^-26` from the upper bound. -/
theorem C50_rounding_sticky_partial {lo hi : Int} (h : lo < hi) (h1 : -2 ^ 26 < hi) (h2 : hi ≤ 2 ^ 26) (v : Rat) :
    (lo : Rat) ≤ dsticky1 lo hi v ∧ dsticky1 lo hi v < hi ∧ ((lo : Rat) ≤ v → v ≤ hi - 1 / 2 ^ 26 → dsticky1 lo hi v = v) := by
  have hlt : (lo : Rat) + 1 ≤ hi := by
    have : ((lo + 1 : Int) : Rat) ≤ hi := Rat.intCast_le_intCast.2 h
    rwa [Rat.intCast_add] at this
  have o1 : 1 / 2 ^ 27 ≤ rnd offset := by decide +kernel
  have o2 : rnd offset ≤ 1 / 2 ^ 26 := by decide +kernel
  have e27 : (1 : Rat) / 2 ^ 27 = 1 / 134217728 := by decide +kernel
  have e26 : (1 : Rat) / 2 ^ 26 = 1 / 67108864 := by decide +kernel
  have z27 : (2 : Rat) ^ (-27 : Int) = 1 / 134217728 := by decide +kernel
  have z26 : (2 : Rat) ^ (-26 : Int) = 1 / 67108864 := by decide +kernel
  have b27 : Bits ((hi : Rat) - 1 / 134217728) := ⟨hi * 134217728 - 1, -27, by omega, by omega, by
    rw [z27, Rat.intCast_sub, Rat.intCast_mul]; grind⟩
  have b26 : Bits ((hi : Rat) - 1 / 67108864) := ⟨hi * 67108864 - 1, -26, by omega, by omega, by
    rw [z26, Rat.intCast_sub, Rat.intCast_mul]; grind⟩
  have r1 := (rnd_between (q := (hi : Rat) - rnd offset) b27).1 (by grind)
  have r2 := (rnd_between (q := (hi : Rat) - rnd offset) b26).2 (by grind)
  unfold dsticky1
  grind

/-- C50 with the rounding of doubles: periodic borders change a coordinate by a multiple of the extent up to an error, `2^-53` times the size of the distance
from the lower bound and of the bounds. -/
theorem C50_rounding_periodic_partial {lo hi : Int} (h : lo < hi) {v B M : Rat} (hv1 : -B ≤ v - lo) (hv2 : v - lo ≤ B) (hM1 : -M ≤ lo) (hM2 : hi ≤ M) :
    ∃ k : Int, -((B + M) / 2 ^ 53) ≤ dperiodic1 lo hi (hi - lo) v - (v + k * (hi - lo)) ∧
      dperiodic1 lo hi (hi - lo) v - (v + k * (hi - lo)) ≤ (B + M) / 2 ^ 53 := by
  have hlt : (lo : Rat) < hi := Rat.intCast_lt_intCast.2 h
  have he : ((hi - lo : Int) : Rat) = hi - lo := Rat.intCast_sub ..
  have h53 : (2 : Rat) ^ (53 : Nat) = 9007199254740992 := by decide +kernel
  have hb := fmod_between (rnd (v - lo)) (b := ((hi - lo : Int) : Rat)) (by grind)
  obtain ⟨-, -, k, hk⟩ := fmod_spec (rnd (v - lo)) (b := ((hi - lo : Int) : Rat)) (by grind)
  have n1 := rnd_near hv1 hv2
  unfold dperiodic1
  simp only
  generalize fmod (rnd (v - lo)) ((hi - lo : Int) : Rat) = nc at *
  rw [h53] at n1 ⊢
  split
  · have n2 := rnd_near (q := (hi : Rat) + nc) (B := M) (by grind) (by grind)
    rw [h53] at n2
    refine ⟨1 - k, ?_⟩
    rw [Rat.intCast_sub]
    grind
  · have n2 := rnd_near (q := (lo : Rat) + nc) (B := M) (by grind) (by grind)
    rw [h53] at n2
    refine ⟨-k, ?_⟩
    rw [Rat.intCast_neg]
    grind

/-- C50 with the rounding of doubles: in a dimension `[0, hi)` periodic borders keep a coordinate of the dimension. -/
theorem C50_rounding_inside_partial {hi : Int} {v : Rat} (hd : IsDouble v) (h0 : 0 ≤ v) (h1 : v < hi) : dperiodic1 0 hi hi v = v := by
  have e0 : ((0 : Int) : Rat) = 0 := rfl
  have e : v - ((0 : Int) : Rat) = v := by rw [e0]; grind
  have hd' : rnd v = v := hd
  have hb := (fmod_spec v (b := (hi : Rat)) (by grind)).1 h0
  obtain ⟨-, -, k, hk⟩ := fmod_spec v (b := (hi : Rat)) (by grind)
  have hk0 : k = 0 := by
    have p : (0 : Rat) < hi := by grind
    have k1 : (hi : Rat) * k < hi * 1 := by grind
    have k2 : (hi : Rat) * (-1) < hi * k := by grind
    have k1' : (k : Rat) < ((1 : Int) : Rat) := Rat.lt_of_mul_lt_mul_left k1 (Rat.le_of_lt p)
    have k2' : ((-1 : Int) : Rat) < k := Rat.lt_of_mul_lt_mul_left k2 (Rat.le_of_lt p)
    rw [Rat.intCast_lt_intCast] at k1' k2'
    omega
  subst hk0
  have hf : fmod v (hi : Rat) = v := by rw [hk, e0]; grind
  unfold dperiodic1
  simp only [e, hd', hf]
  rw [if_neg (by grind), e0, show (0 : Rat) + v = v by grind]
  exact hd'

/-- C50 is violated: in a periodic dimension `[-1, 1)` the coordinate `1 - 2^-53`, a double in the dimension, is moved to the other end. -/
theorem C50_rounding_jump : IsDouble (1 - 1 / 2 ^ 53) ∧ (1 - 1 / 2 ^ 53 : Rat) < 1 ∧ dperiodic1 (-1) 1 2 (1 - 1 / 2 ^ 53) = -1 := by decide +kernel

theorem Bits.dyadic {m : Int} (j : Nat) (h1 : -2 ^ 53 ≤ m) (h2 : m ≤ 2 ^ 53) : Bits ((m : Rat) / 2 ^ j) :=
  ⟨m, -(j : Int), h1, h2, by rw [Rat.zpow_neg, Rat.zpow_natCast, Rat.div_def]⟩

/-- C50 with the rounding of doubles, for coordinates that are multiples of `2^-j`, in dimensions and at coordinates that are at most `2^(52 - j)`: nothing is
rounded, and periodic borders lead to a coordinate in the dimension by adding a multiple of the extent. -/
theorem C50_rounding_dyadic_partial {lo hi n : Int} {j : Nat} (h : lo < hi) (h1 : -2 ^ 52 ≤ lo * 2 ^ j) (h2 : hi * 2 ^ j ≤ 2 ^ 52) (n1 : -2 ^ 52 ≤ n)
    (n2 : n ≤ 2 ^ 52) :
    (lo : Rat) ≤ dperiodic1 lo hi (hi - lo) ((n : Rat) / 2 ^ j) ∧ dperiodic1 lo hi (hi - lo) ((n : Rat) / 2 ^ j) < hi ∧
    ∃ k : Int, dperiodic1 lo hi (hi - lo) ((n : Rat) / 2 ^ j) = (n : Rat) / 2 ^ j + k * (hi - lo) := by
  have hlt : (lo : Rat) < hi := Rat.intCast_lt_intCast.2 h
  have he : ((hi - lo : Int) : Rat) = hi - lo := Rat.intCast_sub ..
  have pp : (0 : Rat) < 2 ^ j := by
    have : (0 : Rat) < 2 ^ (j : Int) := two_pos j
    rwa [Rat.zpow_natCast] at this
  have pz : (0 : Int) < 2 ^ j := Int.pow_pos (by decide)
  have hc : ((2 ^ j : Int) : Rat) = 2 ^ j := by rw [Rat.intCast_pow]; rfl
  have lo_hi : lo * 2 ^ j < hi * 2 ^ j := Int.mul_lt_mul_of_pos_right h pz
  -- a multiple of `2^-j` between the bounds is not rounded
  have exact (m : Int) (m1 : (lo : Rat) ≤ (m : Rat) / 2 ^ j) (m2 : (m : Rat) / 2 ^ j ≤ hi) : rnd ((m : Rat) / 2 ^ j) = (m : Rat) / 2 ^ j := by
    have e1 := Rat.mul_le_mul_of_nonneg_right m1 (Rat.le_of_lt pp)
    have e2 := Rat.mul_le_mul_of_nonneg_right m2 (Rat.le_of_lt pp)
    rw [Rat.div_mul_cancel (by grind), ← hc, ← Rat.intCast_mul, Rat.intCast_le_intCast] at e1 e2
    exact rnd_bits (Bits.dyadic j (by omega) (by omega))
  have ha : rnd ((n : Rat) / 2 ^ j - lo) = (n : Rat) / 2 ^ j - lo := by
    have e : (n : Rat) / 2 ^ j - lo = ((n - lo * 2 ^ j : Int) : Rat) / 2 ^ j := by
      rw [Rat.intCast_sub, Rat.intCast_mul, hc]; grind
    rw [e]
    exact rnd_bits (Bits.dyadic j (by omega) (by omega))
  unfold dperiodic1
  simp only [ha]
  have hb := fmod_between ((n : Rat) / 2 ^ j - lo) (b := ((hi - lo : Int) : Rat)) (by grind)
  obtain ⟨-, -, k, hk⟩ := fmod_spec ((n : Rat) / 2 ^ j - lo) (b := ((hi - lo : Int) : Rat)) (by grind)
  generalize fmod ((n : Rat) / 2 ^ j - lo) ((hi - lo : Int) : Rat) = nc at *
  have shift (k : Int) : (n : Rat) / 2 ^ j + k * (hi - lo) = ((n + k * (hi - lo) * 2 ^ j : Int) : Rat) / 2 ^ j := by
    rw [Rat.intCast_add, Rat.intCast_mul, Rat.intCast_mul, hc, he]; grind
  split
  · have e : (hi : Rat) + nc = (n : Rat) / 2 ^ j + ((1 - k : Int) : Rat) * (hi - lo) := by
      rw [hk, he, Rat.intCast_sub]; grind
    have r : rnd ((hi : Rat) + nc) = hi + nc := by
      rw [e, shift]
      refine exact _ ?_ ?_ <;> rw [← shift, ← e] <;> grind
    rw [r]
    exact ⟨by grind, by grind, _, e⟩
  · have e : (lo : Rat) + nc = (n : Rat) / 2 ^ j + ((-k : Int) : Rat) * (hi - lo) := by
      rw [hk, he, Rat.intCast_neg]; grind
    have r : rnd ((lo : Rat) + nc) = lo + nc := by
      rw [e, shift]
      refine exact _ ?_ ?_ <;> rw [← shift, ← e] <;> grind
    rw [r]
    exact ⟨by grind, by grind, _, e⟩

/-- The hypotheses: a dimension and a coordinate outside of it, with twenty binary digits. -/
example : ((-3 : Int) < 10) ∧ -2 ^ 52 ≤ (-3 : Int) * 2 ^ 20 ∧ (10 : Int) * 2 ^ 20 ≤ 2 ^ 52 ∧ (-2 ^ 52 ≤ (30408705 : Int)) ∧
    dperiodic1 (-3) 10 13 ((30408705 : Int) / 2 ^ 20) = 3 + 1 / 2 ^ 20 ∧ -big ≤ -3 ∧ dsticky1 (-3) 10 11 < 10 ∧ IsDouble (5 / 2 : Rat) := by decide +kernel

end Repast.Tree
