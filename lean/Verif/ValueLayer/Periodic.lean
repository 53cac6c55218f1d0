import Verif.ValueLayer.SharedProps

/-! C40: the buffers of shared value layers with periodic borders, as far as they are right: what the tensors (`grid`, value_layer.py:416-421) hold. -/
namespace Repast.ValueLayer
open Repast.Space Repast.Geometry Repast.Topology

/-! ### Specification -/

/-- The process grids and layers of the theorem: periodic borders, one or two dimensions, origin 0, at least three processes in each dimension, and a buffer that is smaller than the local bounds of each
process. -/
structure Wrapping (t : Topo) (buf : Nat) : Prop where
  ok : t.Ok
  per : t.periodic = true
  nd : t.nd ≤ 2
  px : 3 ≤ t.px
  py : t.nd = 2 → 3 ≤ t.py
  x0 : t.box.xmin = 0
  y0 : t.box.ymin = 0
  buf1 : 1 ≤ buf
  fx : ((buf + 1 : Nat) : Int) * t.px ≤ t.box.xext
  fy : t.nd = 2 → ((buf + 1 : Nat) : Int) * t.py ≤ t.box.yext

/-- The location that `grid[row, col]` of rank `k` (`grid[col]` in one dimension) stands for: the tensor has the local bounds of the rank in the middle and a buffer on each side, and the world is periodic. -/
def spot (t : Topo) (buf k row col : Nat) : Pt :=
  ⟨((t.bounds k).xmin - buf + col) % t.box.xext, if t.nd = 1 then 0 else ((t.bounds k).ymin - buf + row) % t.box.yext, 0⟩

/-- The value of a location of rank `r` in the tensor of this rank. -/
def own {V : Type} (t : Topo) (buf : Nat) (r : Nat) (m : Ten V) (q : Pt) : V :=
  m.at_ 0 (if t.nd = 1 then 0 else (q.y - (t.bounds r).ymin + buf).toNat) (q.x - (t.bounds r).xmin + buf).toNat

/-- The tensors have the local bounds with a buffer on each side. -/
def Shaped {V : Type} (t : Topo) (buf : Nat) (w : Nat → Layer V) : Prop :=
  ∀ k, k < t.size → (w k).ten.nx = ((t.bounds k).xext + 2 * buf).toNat ∧ (w k).ten.ny = if t.nd = 1 then 1 else ((t.bounds k).yext + 2 * buf).toNat

/-- Each entry of each tensor in `w'` is what the owner of its location has in `w`. -/
def Wraps {V : Type} (t : Topo) (buf : Nat) (w w' : Nat → Layer V) : Prop :=
  ∀ k row col, k < t.size → row < (w' k).ten.ny → col < (w' k).ten.nx → ∃ r, r < t.size ∧ (t.bounds r).contains (spot t buf k row col) = true ∧
    (w' k).ten.at_ 0 row col = own t buf r (w r).ten (spot t buf k row col)

/-! ### One dimension of the process grid -/

theorem emod_cases {G v : Int} (h1 : -G ≤ v) (h2 : v < 2 * G) : v < 0 ∧ v % G = v + G ∨ 0 ≤ v ∧ v < G ∧ v % G = v ∨ G ≤ v ∧ v % G = v - G := by
  rcases Int.lt_or_le v 0 with h | h
  · left
    refine ⟨h, ?_⟩
    have : v % G = (v + G) % G := by rw [Int.add_emod_right]
    rw [this, Int.emod_eq_of_lt (by omega) (by omega)]
  · rcases Int.lt_or_le v G with h' | h'
    · exact .inr (.inl ⟨h, h', Int.emod_eq_of_lt h h'⟩)
    · right; right
      refine ⟨h', ?_⟩
      have : v % G = (v - G) % G := by rw [Int.sub_emod_right]
      rw [this, Int.emod_eq_of_lt (by omega) (by omega)]

/-- Where a process puts what it receives: the first place in its tensor. -/
def start1 (G : Int) (p c' : Nat) (buf : Nat) (v : Int) : Int :=
  let x := v + (buf - cut 0 G p c')
  if x < 0 then x + G else if G ≤ x then x - G else x

section
variable {G : Int} {p c c' buf : Nat}

theorem ring_facts (hp : 3 ≤ p) (hb : ((buf + 1 : Nat) : Int) * p ≤ G) (hc : c < p) :
    cut 0 G p 0 = 0 ∧ cut 0 G p p = G ∧ (∀ i, cut 0 G p i + buf + 1 ≤ cut 0 G p (i + 1)) ∧ (∀ i j, i ≤ j → cut 0 G p i ≤ cut 0 G p j) ∧ 0 ≤ cut 0 G p c ∧ cut 0 G p (c + 1) ≤ G := by
  have hG : 0 ≤ G := by
    have : (0 : Int) ≤ ((buf + 1 : Nat) : Int) * p := by exact_mod_cast Nat.zero_le _
    exact Int.le_trans this hb
  have h1 := fun i => cut_buf (p := p) (buf := buf + 1) (by omega) hb i
  refine ⟨cut_zero 0 G p (by omega), by rw [cut_all 0 G p (by omega), Int.zero_add], fun i => ?_, fun i j h => cut_mono (gmin := 0) hG (by omega) h, (cut_range (by omega) hG (by omega)).1, (cut_range (by omega) hG (by omega)).2⟩
  have := h1 i
  omega

/-- What `c` sends to `c'` is of `c`, and `c'` has room for it. -/
theorem ring_in (hp : 3 ≤ p) (hb : ((buf + 1 : Nat) : Int) * p ≤ G) (h1 : 1 ≤ buf) (hc : c < p) (hc' : c' < p) (ha : Adj true p c c') :
    let r := sideRange (cut 0 G p c) (cut 0 G p (c + 1)) buf ((c' : Int) - c)
    let s := start1 G p c' buf r.1
    r.1 < r.2 ∧ cut 0 G p c ≤ r.1 ∧ r.2 ≤ cut 0 G p (c + 1) ∧ 0 ≤ s ∧ s + (r.2 - r.1) ≤ cut 0 G p (c' + 1) - cut 0 G p c' + 2 * buf := by
  obtain ⟨z, a, st, mo, lo, hi⟩ := ring_facts hp hb hc
  obtain ⟨-, -, -, -, lo', hi'⟩ := ring_facts hp hb hc'
  have s1 := st c
  have s2 := st c'
  have s3 := st (c + 1)
  have s4 := st (c' + 1)
  have s5 := st 0
  have s6 := st 1
  have s7 := mo 2 (p - 1) (by omega)
  have s8 := st (p - 1)
  rw [Nat.sub_add_cancel (by omega : 1 ≤ p)] at s8
  have m1 : c + 2 ≤ p → cut 0 G p (c + 1 + 1) ≤ cut 0 G p p := fun h => mo _ _ (by omega)
  have m2 : c' + 2 ≤ p → cut 0 G p (c' + 1 + 1) ≤ cut 0 G p p := fun h => mo _ _ (by omega)
  unfold start1 sideRange
  simp only
  rcases ha with h | h | h | ⟨-, h | h⟩
  · subst h
    rw [if_neg (by omega), if_neg (by omega)]
    simp only
    split
    · omega
    · split <;> omega
  · subst h
    rw [if_neg (by omega), if_pos (by omega)]
    simp only
    split
    · omega
    · split <;> omega
  · subst h
    rw [if_pos (by omega)]
    simp only
    split
    · omega
    · split
      · have := m2
        rcases Nat.lt_or_ge (c' + 2) p with h | h
        · have := m1 (by omega); omega
        · have e : c' = p - 2 := by omega
          have e2 : cut 0 G p c' ≥ cut 0 G p 1 := mo _ _ (by omega)
          have e0 : cut 0 G p (0 + 1) = cut 0 G p 1 := rfl
          omega
      · omega
  · obtain ⟨rfl, h⟩ := h
    have e : c' = p - 1 := by omega
    rw [if_pos (by omega)]
    simp only
    have e2 : cut 0 G p (0 + 1 + 1) ≤ cut 0 G p c' := mo _ _ (by omega)
    have e3 : cut 0 G p (c' + 1) = G := by rw [h, a]
    split
    · omega
    · split <;> omega
  · obtain ⟨rfl, h⟩ := h
    rw [if_neg (by omega), if_pos (by omega)]
    simp only
    have e3 : cut 0 G p (c + 1) = G := by rw [h, a]
    split
    · omega
    · split <;> omega

/-- The places of the tensor of `c'` in which it puts what `c` sends are those of the locations of `c`. -/
theorem ring_iff (hp : 3 ≤ p) (hb : ((buf + 1 : Nat) : Int) * p ≤ G) (h1 : 1 ≤ buf) (hc : c < p) (hc' : c' < p) (i : Int) (hi : 0 ≤ i ∧ i < cut 0 G p (c' + 1) - cut 0 G p c' + 2 * buf) :
    let r := sideRange (cut 0 G p c) (cut 0 G p (c + 1)) buf ((c' : Int) - c)
    let s := start1 G p c' buf r.1
    ((Adj true p c c' ∧ s ≤ i ∧ i < s + (r.2 - r.1)) ↔ InDim 0 G p c ((cut 0 G p c' - buf + i) % G)) ∧
    (Adj true p c c' → s ≤ i → i < s + (r.2 - r.1) → (cut 0 G p c' - buf + i) % G = r.1 + (i - s)) := by
  obtain ⟨z, a, st, mo, lo, hi1⟩ := ring_facts hp hb hc
  obtain ⟨-, -, -, -, lo', hi'⟩ := ring_facts hp hb hc'
  have s1 := st c
  have s2 := st c'
  have s5 := st 0
  have s6 := st 1
  have s7 := mo 2 (p - 1) (by omega)
  have s8 := st (p - 1)
  rw [Nat.sub_add_cancel (by omega : 1 ≤ p)] at s8
  have e0 : cut 0 G p (0 + 1) = cut 0 G p 1 := rfl
  have e1 : cut 0 G p (1 + 1) = cut 0 G p 2 := rfl
  have far : cut 0 G p (c' + 1) - cut 0 G p c' + 2 * buf < G := by
    rcases Nat.lt_or_ge (c' + 1) p with h | h
    · rcases Nat.lt_or_ge 0 c' with h' | h'
      · have := mo 1 c' (by omega)
        have := st (c' + 1)
        have := mo (c' + 1 + 1) p (by omega)
        omega
      · have e : c' = 0 := by omega
        subst e
        omega
    · have e : c' = p - 1 := by omega
      have := mo 2 c' (by omega)
      omega
  have one : ∀ j, 1 ≤ j → (buf : Int) + 1 ≤ cut 0 G p j := fun j hj => by have := mo 1 j hj; omega
  have top : ∀ j, j + 1 ≤ p → cut 0 G p j + buf + 1 ≤ G := fun j hj => by
    have := mo j (p - 1) (by omega)
    omega
  have hem := emod_cases (G := G) (v := cut 0 G p c' - buf + i) (by omega) (by omega)
  generalize hv : (cut 0 G p c' - buf + i) % G = v at hem
  simp only
  unfold InDim
  by_cases ha : Adj true p c c'
  · simp only [ha, true_and, forall_const]
    rcases ha with h | h | h | ⟨-, h | h⟩
    · subst h
      have hr : sideRange (cut 0 G p c') (cut 0 G p (c' + 1)) buf ((c' : Int) - c') = (cut 0 G p c', cut 0 G p (c' + 1)) := by
        unfold sideRange; rw [if_neg (by omega), if_neg (by omega)]
      rw [hr]
      unfold start1
      simp only
      rw [if_neg (by omega), if_neg (by omega)]
      omega
    · subst h
      have hr : sideRange (cut 0 G p c) (cut 0 G p (c + 1)) buf (((c + 1 : Nat) : Int) - c) = (cut 0 G p (c + 1) - buf, cut 0 G p (c + 1)) := by
        unfold sideRange; rw [if_neg (by omega), if_pos (by omega)]; simp
      rw [hr]
      have g1 := one (c + 1) (by omega)
      have g2 : c = 0 → cut 0 G p (c + 1 + 1) + buf + 1 ≤ G := fun h => top _ (by omega)
      have g3 : c = 0 ∨ (buf : Int) + 1 ≤ cut 0 G p c := by
        rcases Nat.eq_zero_or_pos c with h | h
        · exact .inl h
        · exact .inr (one c h)
      unfold start1
      simp only
      rw [if_neg (by omega), if_neg (by omega)]
      omega
    · subst h
      have hr : sideRange (cut 0 G p (c' + 1)) (cut 0 G p (c' + 1 + 1)) buf ((c' : Int) - ((c' + 1 : Nat) : Int)) = (cut 0 G p (c' + 1), cut 0 G p (c' + 1) + buf) := by
        unfold sideRange; rw [if_pos (by omega)]
      rw [hr]
      have g1 := top (c' + 1) (by omega)
      have g3 : c' + 1 + 1 < p ∧ cut 0 G p (c' + 1 + 1) + buf + 1 ≤ G ∨ c' + 1 + 1 = p ∧ (buf : Int) + 1 ≤ cut 0 G p c' := by
        rcases Nat.lt_or_ge (c' + 1 + 1) p with h | h
        · exact .inl ⟨h, top _ (by omega)⟩
        · exact .inr ⟨by omega, one c' (by omega)⟩
      unfold start1
      simp only
      rw [if_neg (by omega), if_neg (by omega)]
      omega
    · obtain ⟨rfl, h⟩ := h
      have e : c' = p - 1 := by omega
      have hr : sideRange (cut 0 G p 0) (cut 0 G p (0 + 1)) buf ((c' : Int) - ((0 : Nat) : Int)) = (0, (buf : Int)) := by
        unfold sideRange; rw [if_pos (by omega), z]; simp
      rw [hr]
      unfold start1
      simp only
      have e2 : cut 0 G p 2 ≤ cut 0 G p c' := mo _ _ (by omega)
      have e3 : cut 0 G p (c' + 1) = G := by rw [h, a]
      rw [if_pos (by omega)]
      omega
    · obtain ⟨rfl, h⟩ := h
      have e : c = p - 1 := by omega
      have hr : sideRange (cut 0 G p c) (cut 0 G p (c + 1)) buf (((0 : Nat) : Int) - c) = (cut 0 G p (c + 1) - buf, cut 0 G p (c + 1)) := by
        unfold sideRange; rw [if_neg (by omega), if_pos (by omega)]; simp
      rw [hr]
      unfold start1
      simp only
      have e3 : cut 0 G p (c + 1) = G := by rw [h, a]
      have e4 : cut 0 G p 2 ≤ cut 0 G p c := mo _ _ (by omega)
      rw [if_neg (by omega), if_pos (by omega)]
      omega
  · refine ⟨⟨fun h => absurd h.1 ha, fun h => absurd ?_ ha⟩, fun h => absurd h ha⟩
    unfold Adj
    simp only [true_and]
    rcases hem with ⟨q1, q2⟩ | ⟨q1, q2, q3⟩ | ⟨q1, q2⟩
    · -- left of the world: `c'` is the first and `c` the last
      have f1 : c' = 0 := by
        rcases Nat.eq_zero_or_pos c' with h | h
        · exact h
        · have := mo 1 c' h; omega
      have f2 : c + 1 = p := by
        rcases Nat.lt_or_ge (c + 1) p with h' | h'
        · have := mo (c + 1) (p - 1) (by omega); omega
        · omega
      exact .inr (.inr (.inr (.inr ⟨f1, f2⟩)))
    · rcases Nat.lt_trichotomy c c' with h | h | h
      · rcases Nat.lt_or_ge (c + 1) c' with h' | h'
        · have g1 := mo (c + 1) (c' - 1) (by omega)
          have g2 := st (c' - 1)
          rw [Nat.sub_add_cancel (by omega : 1 ≤ c')] at g2
          omega
        · omega
      · omega
      · rcases Nat.lt_or_ge (c' + 1) c with h' | h'
        · have g1 := mo (c' + 1 + 1) c (by omega)
          have g2 := st (c' + 1)
          omega
        · omega
    · have f1 : c' + 1 = p := by
        rcases Nat.lt_or_ge (c' + 1) p with h' | h'
        · have := mo (c' + 1) (p - 1) (by omega); omega
        · omega
      have f2 : c = 0 := by
        rcases Nat.eq_zero_or_pos c with h | h
        · exact h
        · have := mo 1 c h; omega
      exact .inr (.inr (.inr (.inl ⟨f2, f1⟩)))
end

/-! ### What is sent to whom -/

theorem reach_wrapping {p c c' : Nat} (hp : 3 ≤ p) (hc : c < p) (hc' : c' < p) [Decidable (Adj true p c c')] : reach (offsets2 true p c) p c c' = if Adj true p c c' then 1 else 0 := by
  unfold reach
  rw [countP_offsets2]
  simp only [true_or, true_and, decide_eq_true_eq, Int.add_zero, wrapCoord_self hc, wrapCoord_succ hc, wrapCoord_pred hc]
  by_cases ha : Adj true p c c'
  · rw [if_pos ha]
    unfold Adj at ha
    simp only [true_and] at ha
    (repeat' split) <;> omega
  · rw [if_neg ha]
    unfold Adj at ha
    simp only [true_and] at ha
    (repeat' split) <;> omega

/-- Processes `s` and `k` are neighbours. -/
def AdjW (t : Topo) (s k : Nat) : Prop := s ≠ k ∧ Adj true t.px (t.coords s).x (t.coords k).x ∧ Adj true t.py (t.coords s).y (t.coords k).y

instance (p c c' : Nat) : Decidable (Adj true p c c') := by unfold Adj; infer_instance
instance (t : Topo) (s k : Nat) : Decidable (AdjW t s k) := by unfold AdjW; infer_instance

theorem wrapping_nd {t : Topo} {buf : Nat} (h : Wrapping t buf) : t.nd = 1 ∧ t.box.yext = 0 ∧ t.box.zext = 0 ∧ t.py = 1 ∧ t.pz = 1 ∨ t.nd = 2 ∧ 0 < t.box.yext ∧ t.box.zext = 0 ∧ t.pz = 1 := by
  have h1 := h.ok.nd
  have h2 := h.nd
  have h3 := h.ok.y1
  have h4 := h.ok.z1
  rcases numDims_cases h.ok.box with ⟨a, b, c⟩ | ⟨a, b, c⟩ | ⟨a, b, c⟩
  · left; refine ⟨by omega, b, c, h3 (by omega), h4 (by omega)⟩
  · right; refine ⟨by omega, b, c, h4 (by omega)⟩
  · omega

theorem count_wrapping {t : Topo} {buf : Nat} (h : Wrapping t buf) {s k : Nat} (hs : s < t.size) (hk : k < t.size) :
    ((t.neighbors s).map (·.rank)).count k = if AdjW t s k then 1 else 0 := by
  obtain ⟨lx, ly, lz⟩ := coords_lt h.ok hs
  obtain ⟨kx, ky, kz⟩ := coords_lt h.ok hk
  have hpx := h.px
  by_cases hne : s = k
  · subst hne
    rw [if_neg (fun h => h.1 rfl), List.count_eq_zero]
    intro hm
    obtain ⟨n, hn, e⟩ := List.mem_map.1 hm
    exact ((C35_neighbors_partial h.ok (fun _ _ => by omega) hs s).1 ⟨n, hn, e⟩).2.1 rfl
  · rcases wrapping_nd h with ⟨n1, hy, hz, py, pz⟩ | ⟨n1, hy, hz, pz⟩
    · rw [count1 h.ok n1 hs hk (fun e => hne e.symm), h.per, reach_wrapping hpx lx kx]
      have hy : Adj true t.py (t.coords s).y (t.coords k).y := .inl (by omega)
      by_cases hx : Adj true t.px (t.coords s).x (t.coords k).x
      · rw [if_pos hx, if_pos ⟨hne, hx, hy⟩]
      · rw [if_neg hx, if_neg (fun h => hx h.2.1)]
    · rw [count2 h.ok n1 hs hk (fun e => hne e.symm), h.per, reach_wrapping hpx lx kx, reach_wrapping (h.py n1) ly ky]
      by_cases hx : Adj true t.px (t.coords s).x (t.coords k).x
      · by_cases hy : Adj true t.py (t.coords s).y (t.coords k).y
        · rw [if_pos hx, if_pos hy, if_pos ⟨hne, hx, hy⟩]
        · rw [if_neg hy, if_neg (show ¬ AdjW t s k from fun h => hy h.2.2), Nat.mul_zero]
      · rw [if_neg hx, if_neg (show ¬ AdjW t s k from fun h => hx h.2.1), Nat.zero_mul]

/-- The buffers of rank `s` for rank `k`: one if they are neighbours. -/
theorem buffers_wrapping {t : Topo} {buf : Nat} (h : Wrapping t buf) {s : Nat} (hs : s < t.size) :
    ∃ bs, t.buffers s buf = some bs ∧ ∀ k, k < t.size → bs.filter (fun b => b.1 = k) = if AdjW t s k then [(k, rngTo t buf s k)] else [] := by
  have hpx := h.px
  have hnn : ∀ n ∈ t.neighbors s, n.rank < t.size ∧ n.c = t.coords n.rank := fun n hn =>
    ⟨((C35_neighbors_partial h.ok (fun _ _ => by omega) hs _).1 ⟨n, hn, rfl⟩).1, neighbors_coord h.ok hn⟩
  rcases wrapping_nd h with ⟨n1, hy, hz, py, pz⟩ | ⟨n1, hy, hz, pz⟩
  · unfold Topo.buffers
    simp only [n1, if_true]
    refine ⟨_, rfl, fun k hk => ?_⟩
    rw [List.filter_map]
    have e := withSeen_filter (f := fun n => (n.c.sub (t.coords s)).1) (g := fun n => flip1 (n.c.sub (t.coords s)).1)
      (fun r => ((t.coords r).sub (t.coords s)).1) (fun r => flip1 ((t.coords r).sub (t.coords s)).1) k (t.neighbors s)
      (fun n hn => by rw [(hnn n hn).2]) (fun n hn => by rw [(hnn n hn).2]) []
    rw [if_neg (by simp), count_wrapping h hs hk] at e
    have e' : List.filter ((fun b : Nat × Rng => decide (b.1 = k)) ∘ fun e : Nat × Int => (e.1, bufferBounds 1 (t.bounds s) buf e.2 0 0))
        (withSeen (fun n => (n.c.sub (t.coords s)).1) (fun n => flip1 (n.c.sub (t.coords s)).1) [] (t.neighbors s)) =
        List.filter (fun e => decide (e.1 = k)) (withSeen (fun n => (n.c.sub (t.coords s)).1) (fun n => flip1 (n.c.sub (t.coords s)).1) [] (t.neighbors s)) := rfl
    rw [e', e]
    split
    · rename_i heq
      split at heq
      · cases heq
      · rename_i hn; rw [if_neg hn]; rfl
    · rename_i m heq
      split at heq
      · rename_i hn
        obtain rfl : m = 0 := by omega
        rw [if_pos hn]
        simp only [List.replicate, List.map_cons, List.map_nil, rngTo, n1, Coord.sub]
        rfl
      · cases heq
  · unfold Topo.buffers
    have hlen : ∀ k, ((t.neighbors s).map (·.rank)).count k ≠ 0 → fixedFor t (t.coords s) (t.neighbors s) k = [(((t.coords k).x : Int) - (t.coords s).x, ((t.coords k).y : Int) - (t.coords s).y)] := by
      intro k hc
      have hk : k < t.size := by
        obtain ⟨n, hn, rfl⟩ := List.mem_map.1 (List.count_pos_iff.1 (Nat.pos_of_ne_zero hc))
        exact (hnn n hn).1
      have hone : ((t.neighbors s).map (·.rank)).count k = 1 := by
        rw [count_wrapping h hs hk] at hc ⊢
        split
        · rfl
        · rename_i hh; rw [if_neg hh] at hc; exact absurd rfl hc
      unfold fixedFor
      cases hf : (t.neighbors s).find? (fun n => decide (n.rank = k)) with
      | none =>
        exfalso
        obtain ⟨n, hn, e⟩ := List.mem_map.1 (List.count_pos_iff.1 (Nat.pos_of_ne_zero hc))
        have := List.find?_eq_none.1 hf n hn
        simp only [decide_eq_true_eq] at this
        exact this e
      | some n =>
        have h1 := List.find?_some hf
        have h2 := List.mem_of_find?_eq_some hf
        simp only [decide_eq_true_eq] at h1
        simp only [hone, fixedOffsets, (hnn n h2).2, h1, Coord.sub]
    obtain ⟨l, e1, e2⟩ := nextOffsets_filter (fixedFor t (t.coords s) (t.neighbors s)) (t.neighbors s) [] (fun k => by
      by_cases hc : ((t.neighbors s).map (·.rank)).count k = 0
      · exact .inr hc
      · left
        rw [hlen k hc]
        have hk : k < t.size := by
          obtain ⟨n, hn, rfl⟩ := List.mem_map.1 (List.count_pos_iff.1 (Nat.pos_of_ne_zero hc))
          exact (hnn n hn).1
        rw [count_wrapping h hs hk] at hc ⊢
        split
        · rfl
        · rename_i hh; rw [if_neg hh] at hc; exact absurd rfl hc)
    simp only [n1, if_neg (by omega : ¬ 2 = 1), if_true, e1]
    refine ⟨_, rfl, fun k hk => ?_⟩
    rw [List.filter_map]
    have e' : List.filter ((fun b : Nat × Rng => decide (b.1 = k)) ∘ fun e : Nat × Int × Int => (e.1, bufferBounds 2 (t.bounds s) buf e.2.1 e.2.2 0)) l =
        List.filter (fun e => decide (e.1 = k)) l := rfl
    have hl := hlen k
    rw [e', e2 k]
    rw [count_wrapping h hs hk] at hl ⊢
    by_cases ha : AdjW t s k
    · rw [if_pos ha] at hl ⊢
      rw [if_neg (by omega), hl (by omega), if_pos ha]
      simp [rngTo, n1]
    · rw [if_neg ha, if_pos rfl, if_neg ha]; rfl


theorem Wrapping.fits {t : Topo} {buf : Nat} (h : Wrapping t buf) : t.Fits := by
  refine ⟨fun n => ?_, fun n => by have := h.nd; omega⟩
  have h1 := h.fy (by have := h.nd; omega)
  have h2 : (t.py : Int) ≤ ((buf + 1 : Nat) : Int) * t.py := by exact_mod_cast Nat.le_mul_of_pos_left _ (by omega)
  exact Int.le_trans h2 h1

/-! ### Tensors -/

section
variable {V : Type} {t : Topo} {buf : Nat}

theorem boundsX (h : Wrapping t buf) (k : Nat) : (t.bounds k).xmin = (lx t k).1 ∧ (t.bounds k).xext = (lx t k).2 - (lx t k).1 := by
  have hx := Topology.bounds_x h.ok k
  rw [h.x0] at hx
  exact hx

theorem boundsY (h : Wrapping t buf) (n : t.nd = 2) (k : Nat) : (t.bounds k).ymin = (ly t k).1 ∧ (t.bounds k).yext = (ly t k).2 - (ly t k).1 := by
  have hy := Topology.bounds_y h.ok (by omega) k
  rw [h.y0] at hy
  unfold ly
  rw [if_neg (by omega)]
  exact hy

/-- What the layers have in common. -/
structure WDims (t : Topo) (buf k : Nat) (l : Layer V) : Prop where
  nx : l.ten.nx = ((lx t k).2 - (lx t k).1 + 2 * buf).toNat
  ny : l.ten.ny = if t.nd = 1 then 1 else ((ly t k).2 - (ly t k).1 + 2 * buf).toNat
  tx : l.ptTr.x = buf - (lx t k).1
  ty : t.nd = 2 → l.ptTr.y = buf - (ly t k).1
  nd : l.nd = t.nd
  box : l.box = bufBox t buf k
  per : l.periodic = true

/-- A slice with `h` rows from `y`, and `w` columns from `x`. -/
def block (y h x w : Int) : Rect := { r0 := y.toNat, r1 := (y + h).toNat, c0 := x.toNat, c1 := (x + w).toNat }

theorem rectOf_block {k : Nat} {l : Layer V} (hd : WDims t buf k l) {y h x w : Int} (hy : 0 ≤ y ∧ 0 ≤ h ∧ y + h ≤ l.ten.ny) (hx : 0 ≤ x ∧ 0 ≤ w ∧ x + w ≤ l.ten.nx) :
    rectOf l.ten y (y + h) x (x + w) = block y h x w := by
  have key : ∀ (N : Nat) (i : Int), 0 ≤ i → i ≤ N → norm N i = i.toNat := by
    intro N i h1 h2
    unfold norm
    rw [if_neg (by omega)]
    omega
  unfold rectOf block
  rw [key _ _ hy.1 (by omega), key _ _ (by omega) hy.2.2, key _ _ hx.1 (by omega), key _ _ (by omega) hx.2.2]

/-- Where rank `s` takes what it sends to `k`, and where `k` puts it: the first column and the first row. -/
def sendX (t : Topo) (buf s k : Nat) : Int := (sx t buf s k).1 - (lx t s).1 + buf
def sendY (t : Topo) (buf s k : Nat) : Int := if t.nd = 1 then 0 else (sy t buf s k).1 - (ly t s).1 + buf
def recvX (t : Topo) (buf s k : Nat) : Int := start1 t.box.xext t.px (t.coords k).x buf (sx t buf s k).1
def recvY (t : Topo) (buf s k : Nat) : Int := if t.nd = 1 then 0 else start1 t.box.yext t.py (t.coords k).y buf (sy t buf s k).1

theorem wx_in (h : Wrapping t buf) {s k : Nat} (hs : s < t.size) (hk : k < t.size) (ha : AdjW t s k) :
    (sx t buf s k).1 < (sx t buf s k).2 ∧ (lx t s).1 ≤ (sx t buf s k).1 ∧ (sx t buf s k).2 ≤ (lx t s).2 ∧ 0 ≤ recvX t buf s k ∧
      recvX t buf s k + ((sx t buf s k).2 - (sx t buf s k).1) ≤ (lx t k).2 - (lx t k).1 + 2 * buf :=
  ring_in h.px h.fx h.buf1 (coords_lt h.ok hs).1 (coords_lt h.ok hk).1 ha.2.1

theorem wy_in (h : Wrapping t buf) (n : t.nd = 2) {s k : Nat} (hs : s < t.size) (hk : k < t.size) (ha : AdjW t s k) :
    (sy t buf s k).1 < (sy t buf s k).2 ∧ (ly t s).1 ≤ (sy t buf s k).1 ∧ (sy t buf s k).2 ≤ (ly t s).2 ∧ 0 ≤ recvY t buf s k ∧
      recvY t buf s k + ((sy t buf s k).2 - (sy t buf s k).1) ≤ (ly t k).2 - (ly t k).1 + 2 * buf := by
  unfold recvY sy ly
  simp only [n, if_neg (by omega : ¬ 2 = 1)]
  exact ring_in (h.py n) (h.fy n) h.buf1 (coords_lt h.ok hs).2.1 (coords_lt h.ok hk).2.1 ha.2.2

theorem meta_wrapping (h : Wrapping t buf) (s k : Nat) : metaOf t.nd (rngTo t buf s k) =
    { h := (sy t buf s k).2 - (sy t buf s k).1, w := (sx t buf s k).2 - (sx t buf s k).1, y0 := (sy t buf s k).1, x0 := (sx t buf s k).1 } := by
  have hx := Topology.bounds_x h.ok s
  have ex : (t.bounds s).xmax = cut t.box.xmin t.box.xext t.px ((t.coords s).x + 1) := by unfold Box.xmax; omega
  rw [h.x0] at hx ex
  unfold metaOf rngTo bufferBounds sx sy
  rcases wrapping_nd h with ⟨n1, hy, hz, py, pz⟩ | ⟨n1, hy, hz, pz⟩
  · simp only [n1, if_true, hx.1, ex]
    rfl
  · have hb := Topology.bounds_y h.ok (by omega) s
    have ey : (t.bounds s).ymax = cut t.box.ymin t.box.yext t.py ((t.coords s).y + 1) := by unfold Box.ymax; omega
    rw [h.y0] at hb ey
    simp only [n1, if_neg (by omega : ¬ 2 = 1), if_pos (by omega : 1 < 2), hx.1, ex, hb.1, ey]

theorem sendRect_wrapping (h : Wrapping t buf) {s k : Nat} (hs : s < t.size) (hk : k < t.size) (ha : AdjW t s k) {l : Layer V} (hd : WDims t buf s l) :
    sendRect t.nd l (metaOf t.nd (rngTo t buf s k)) = block (sendY t buf s k) ((sy t buf s k).2 - (sy t buf s k).1) (sendX t buf s k) ((sx t buf s k).2 - (sx t buf s k).1) := by
  have hx := wx_in h hs hk ha
  have ex := hd.tx
  have nx := hd.nx
  have ny := hd.ny
  rw [meta_wrapping h]
  unfold sendRect
  simp only
  have e1 : (sx t buf s k).1 + l.ptTr.x = sendX t buf s k := by unfold sendX; omega
  rw [e1]
  have hX : 0 ≤ sendX t buf s k ∧ 0 ≤ (sx t buf s k).2 - (sx t buf s k).1 ∧ sendX t buf s k + ((sx t buf s k).2 - (sx t buf s k).1) ≤ l.ten.nx := by unfold sendX; omega
  rcases wrapping_nd h with ⟨n1, -⟩ | ⟨n1, -⟩
  · rw [if_pos n1]
    rw [if_pos n1] at ny
    have e2 : sendY t buf s k = 0 ∧ sy t buf s k = (0, 1) := by simp [sendY, sy, n1]
    rw [e2.1, e2.2]
    exact rectOf_block (h := 1) (y := 0) hd (by omega) hX
  · have hy := wy_in h n1 hs hk ha
    have ey := hd.ty n1
    rw [if_neg (by omega)] at ny
    rw [if_neg (by omega)]
    have e2 : (sy t buf s k).1 + l.ptTr.y = sendY t buf s k := by unfold sendY; rw [if_neg (by omega)]; omega
    rw [e2]
    refine rectOf_block hd ?_ hX
    unfold sendY; rw [if_neg (by omega)]; omega

theorem recvRect_wrapping (h : Wrapping t buf) {s k : Nat} (hs : s < t.size) (hk : k < t.size) (ha : AdjW t s k) {l : Layer V} (hd : WDims t buf k l) (i : Nat) :
    recvRect t buf k l i (metaOf t.nd (rngTo t buf s k)) = block (recvY t buf s k) ((sy t buf s k).2 - (sy t buf s k).1) (recvX t buf s k) ((sx t buf s k).2 - (sx t buf s k).1) := by
  have hx := wx_in h hs hk ha
  have ex := hd.tx
  have nx := hd.nx
  have ny := hd.ny
  have hpx := h.px
  rw [meta_wrapping h]
  unfold recvRect
  simp only
  have e1 : ∀ loc, wrapStart t.periodic buf ((sx t buf s k).1 + l.ptTr.x) t.box.xext loc t.px = recvX t buf s k := by
    intro loc
    unfold wrapStart recvX start1
    rw [if_pos (by omega), ex]
    rfl
  have hX : 0 ≤ recvX t buf s k ∧ 0 ≤ (sx t buf s k).2 - (sx t buf s k).1 ∧ recvX t buf s k + ((sx t buf s k).2 - (sx t buf s k).1) ≤ l.ten.nx := by omega
  rcases wrapping_nd h with ⟨n1, -⟩ | ⟨n1, -⟩
  · rw [if_pos n1, e1]
    rw [if_pos n1] at ny
    have e2 : recvY t buf s k = 0 ∧ sy t buf s k = (0, 1) := by simp [recvY, sy, n1]
    rw [e2.1, e2.2]
    exact rectOf_block (h := 1) (y := 0) hd (by omega) hX
  · have hy := wy_in h n1 hs hk ha
    have ey := hd.ty n1
    have hpy := h.py n1
    rw [if_neg (by omega)] at ny
    rw [if_neg (by omega)]
    have e2 : cts t l.ptTr.x i = l.ptTr.x := by unfold cts; rw [if_neg (by omega)]
    have e3 : rts t l.ptTr.y i = l.ptTr.y := by unfold rts; rw [if_neg (by omega)]
    have e4 : ∀ loc, wrapStart t.periodic buf ((sy t buf s k).1 + l.ptTr.y) t.box.yext loc t.py = recvY t buf s k := by
      intro loc
      have g1 : (ly t k).1 = cut 0 t.box.yext t.py (t.coords k).y := by unfold ly; rw [if_neg (by omega)]
      have g2 : recvY t buf s k = start1 t.box.yext t.py (t.coords k).y buf (sy t buf s k).1 := by unfold recvY; rw [if_neg (by omega)]
      rw [g2]
      unfold wrapStart start1
      rw [if_pos (by omega), ey, g1]
    rw [e2, e3, e1, e4]
    exact rectOf_block hd (by omega) hX

/-! ### The values received -/

theorem wowns_iff (h : Wrapping t buf) (r : Nat) (q : Pt) : (t.bounds r).contains q = true ↔
    InDim 0 t.box.xext t.px (t.coords r).x q.x ∧ (t.nd = 2 → InDim 0 t.box.yext t.py (t.coords r).y q.y) := by
  rw [bounds_contains h.ok h.fits, h.x0, h.y0]
  rcases wrapping_nd h with ⟨n1, hy, hz, py, pz⟩ | ⟨n1, hy, hz, pz⟩
  · simp [n1, hy, hz]
  · simp [n1, hy, hz]

theorem wowns_unique (h : Wrapping t buf) {r r' : Nat} {q : Pt} (h1 : Owns t r q) (h2 : Owns t r' q) : r' = r := by
  obtain ⟨c1, c2⟩ := C33_partition_partial h.ok h.fits q
  obtain ⟨r0, -, -, u⟩ := c1 (c2 r h1.1 h1.2)
  rw [u r h1.1 h1.2, u r' h2.1 h2.2]

/-- The place is in the tensor of rank `k`. -/
def InTen (t : Topo) (buf k row col : Nat) : Prop :=
  (col : Int) < (lx t k).2 - (lx t k).1 + 2 * buf ∧ if t.nd = 1 then row = 0 else (row : Int) < (ly t k).2 - (ly t k).1 + 2 * buf

/-- The places where `k` puts what `s` sends are those of the locations of `s`. -/
theorem place_iff (h : Wrapping t buf) {s k : Nat} (hs : s < t.size) (hk : k < t.size) {row col : Nat} (hq : InTen t buf k row col) :
    ((AdjW t s k ∧ (recvX t buf s k ≤ col ∧ col < recvX t buf s k + ((sx t buf s k).2 - (sx t buf s k).1)) ∧
      (recvY t buf s k ≤ row ∧ row < recvY t buf s k + ((sy t buf s k).2 - (sy t buf s k).1))) ↔ Owns t s (spot t buf k row col) ∧ s ≠ k) ∧
    (Owns t s (spot t buf k row col) → s ≠ k → (spot t buf k row col).x = (sx t buf s k).1 + (col - recvX t buf s k) ∧
      (t.nd = 2 → (spot t buf k row col).y = (sy t buf s k).1 + (row - recvY t buf s k))) := by
  obtain ⟨cx, cy, cz⟩ := coords_lt h.ok hs
  obtain ⟨kx, ky, kz⟩ := coords_lt h.ok hk
  obtain ⟨q1, q2⟩ := hq
  have bx := boundsX h k
  have X := ring_iff h.px h.fx h.buf1 cx kx (col : Int) ⟨by omega, q1⟩
  have ex : (spot t buf k row col).x = (cut 0 t.box.xext t.px (t.coords k).x - buf + col) % t.box.xext := by
    unfold spot; simp only; rw [bx.1]; rfl
  simp only [← ex] at X
  rcases wrapping_nd h with ⟨n1, hy, hz, py, pz⟩ | ⟨n1, hy, hz, pz⟩
  · rw [if_pos n1] at q2
    have e2 : recvY t buf s k = 0 ∧ sy t buf s k = (0, 1) := by simp [recvY, sy, n1]
    have ay : Adj true t.py (t.coords s).y (t.coords k).y := .inl (by omega)
    have ho : Owns t s (spot t buf k row col) ↔ InDim 0 t.box.xext t.px (t.coords s).x (spot t buf k row col).x := by
      unfold Owns
      rw [wowns_iff h]
      exact ⟨fun a => a.2.1, fun a => ⟨hs, a, fun n2 => by omega⟩⟩
    refine ⟨?_, fun o _ => ⟨?_, fun n2 => by omega⟩⟩
    · rw [ho, ← X.1, e2.1, e2.2]
      constructor
      · rintro ⟨a, b, c⟩; exact ⟨⟨a.2.1, b.1, b.2⟩, a.1⟩
      · rintro ⟨⟨a, b, c⟩, d⟩; exact ⟨⟨d, a, ay⟩, ⟨b, c⟩, by simp only; omega⟩
    · obtain ⟨a, b, c⟩ := X.1.2 (ho.1 o)
      exact X.2 a b c
  · rw [if_neg (by omega)] at q2
    have by_ := boundsY h n1 k
    have ely : ∀ r, ly t r = (cut 0 t.box.yext t.py (t.coords r).y, cut 0 t.box.yext t.py ((t.coords r).y + 1)) := by intro r; unfold ly; rw [if_neg (by omega)]
    rw [ely k] at q2
    have Y := ring_iff (h.py n1) (h.fy n1) h.buf1 cy ky (row : Int) ⟨by omega, q2⟩
    have ey : (spot t buf k row col).y = (cut 0 t.box.yext t.py (t.coords k).y - buf + row) % t.box.yext := by
      unfold spot; simp only; rw [if_neg (by omega), by_.1, ely]
    have g2 : recvY t buf s k = start1 t.box.yext t.py (t.coords k).y buf (sy t buf s k).1 := by unfold recvY; rw [if_neg (by omega)]
    have g3 : sy t buf s k = sideRange (cut 0 t.box.yext t.py (t.coords s).y) (cut 0 t.box.yext t.py ((t.coords s).y + 1)) buf (((t.coords k).y : Int) - (t.coords s).y) := by
      unfold sy; rw [if_neg (by omega)]
    simp only [← ey, ← g3, ← g2] at Y
    have ho : Owns t s (spot t buf k row col) ↔ InDim 0 t.box.xext t.px (t.coords s).x (spot t buf k row col).x ∧ InDim 0 t.box.yext t.py (t.coords s).y (spot t buf k row col).y := by
      unfold Owns
      rw [wowns_iff h]
      exact ⟨fun a => ⟨a.2.1, a.2.2 n1⟩, fun a => ⟨hs, a.1, fun _ => a.2⟩⟩
    refine ⟨?_, fun o _ => ?_⟩
    · rw [ho, ← X.1, ← Y.1]
      constructor
      · rintro ⟨a, b, c⟩; exact ⟨⟨⟨a.2.1, b.1, b.2⟩, ⟨a.2.2, c.1, c.2⟩⟩, a.1⟩
      · rintro ⟨⟨⟨a, b, c⟩, ⟨a', b', c'⟩⟩, d⟩; exact ⟨⟨d, a, a'⟩, ⟨b, c⟩, ⟨b', c'⟩⟩
    · obtain ⟨⟨a, b, c⟩, ⟨a', b', c'⟩⟩ := (and_congr X.1 Y.1).2 (ho.1 o)
      exact ⟨X.2 a b c, fun _ => Y.2 a' b' c'⟩

theorem step_wrapping (h : Wrapping t buf) {w : Nat → Layer V} (hw : ∀ k, k < t.size → WDims t buf k (w k))
    (junk : Nat → V) {s k : Nat} (hs : s < t.size) (hk : k < t.size) (m : Ten V) :
    ∃ msg m', sent t buf (w s) junk s k = some msg ∧ store t buf k (w k) msg.2 0 (msg.1.takeWhile fun e => e.first t.nd ≠ 0) m = some m' ∧
      (m'.nx = m.nx ∧ m'.ny = m.ny ∧ m'.nz = m.nz) ∧
      ∀ row col, InTen t buf k row col → (Owns t s (spot t buf k row col) ∧ s ≠ k → m'.at_ 0 row col = own t buf s (w s).ten (spot t buf k row col)) ∧
        (¬ (Owns t s (spot t buf k row col) ∧ s ≠ k) → m'.at_ 0 row col = m.at_ 0 row col) := by
  obtain ⟨bs, hbs, hfil⟩ := buffers_wrapping h hs
  have ds := hw s hs
  have dk := hw k hk
  by_cases ha : AdjW t s k
  · have hx := wx_in h hs hk ha
    have hy : (sy t buf s k).1 < (sy t buf s k).2 ∧ 0 ≤ recvY t buf s k ∧ 0 ≤ sendY t buf s k := by
      rcases wrapping_nd h with ⟨n1, -⟩ | ⟨n1, -⟩
      · simp [recvY, sendY, sy, n1]
      · have := wy_in h n1 hs hk ha
        have e : sendY t buf s k = (sy t buf s k).1 - (ly t s).1 + buf := by unfold sendY; rw [if_neg (by omega)]
        omega
    have hX : 0 ≤ sendX t buf s k := by unfold sendX; omega
    have hbl : ∀ (y x : Int), 0 ≤ y → 0 ≤ x → ((block y ((sy t buf s k).2 - (sy t buf s k).1) x ((sx t buf s k).2 - (sx t buf s k).1)).h : Int) = (sy t buf s k).2 - (sy t buf s k).1 ∧
        ((block y ((sy t buf s k).2 - (sy t buf s k).1) x ((sx t buf s k).2 - (sx t buf s k).1)).w : Int) = (sx t buf s k).2 - (sx t buf s k).1 := by
      intro y x h1 h2
      unfold block Rect.h Rect.w
      simp only
      omega
    have hsz := hbl (sendY t buf s k) (sendX t buf s k) hy.2.2 hX
    have hkz := hbl (recvY t buf s k) (recvX t buf s k) hy.2.1 hx.2.2.2.1
    have hroom : 1 ≤ room t := by unfold room; repeat' split
                                  all_goals omega
    generalize hS : block (sendY t buf s k) ((sy t buf s k).2 - (sy t buf s k).1) (sendX t buf s k) ((sx t buf s k).2 - (sx t buf s k).1) = S at hsz
    generalize hR : block (recvY t buf s k) ((sy t buf s k).2 - (sy t buf s k).1) (recvX t buf s k) ((sx t buf s k).2 - (sx t buf s k).1) = R at hkz
    have hmsz : (metaOf t.nd (rngTo t buf s k)).size = S.h * S.w := by
      rw [meta_wrapping h]
      unfold Meta.size
      simp only
      rw [← hsz.1, ← hsz.2]
      rw [← Int.natCast_mul]; rfl
    refine ⟨([metaOf t.nd (rngTo t buf s k)], (w s).ten.read S), m.write R ((w s).ten.read S), ?_, ?_, ⟨rfl, rfl, rfl⟩, ?_⟩
    · unfold sent
      simp only [hbs, hfil k hk, if_pos ha, Option.bind_eq_bind, Option.bind_some, List.map_cons, List.map_nil, List.length_cons, List.length_nil]
      rw [if_neg (by omega)]
      simp only [allSome, sendRect_wrapping h hs hk ha ds, hS, hmsz, if_true, Option.bind_eq_bind, Option.bind_some, Option.pure_def]
      congr 2
      unfold fill
      simp only [List.foldl_cons, List.foldl_nil, List.sum_cons, List.sum_nil, Nat.add_zero]
      rw [List.drop_eq_nil_of_le (by simp [length_read]), List.append_nil]
    · have hfirst : (metaOf t.nd (rngTo t buf s k)).first t.nd ≠ 0 := by
        rw [meta_wrapping h]
        unfold Meta.first
        split
        · simp only; omega
        · simp only; omega
      rw [List.takeWhile_cons_of_pos (by simp [hfirst]), List.takeWhile_nil]
      unfold store
      simp only [recvRect_wrapping h hs hk ha dk, hR]
      rw [if_pos (by rw [meta_wrapping h]; exact ⟨hkz.1, hkz.2⟩)]
      unfold store
      rw [List.take_of_length_le (by rw [length_read, hmsz]; exact Nat.le_refl _)]
    · intro row col hq
      obtain ⟨hiff, hval⟩ := place_iff h hs hk hq
      have hwr := write_read m (w s).ten (rc := R) (rs := S) (by omega) (by omega) 0 row col
      have hin : (R.r0 ≤ row ∧ row < R.r1 ∧ R.c0 ≤ col ∧ col < R.c1) ↔ (Owns t s (spot t buf k row col) ∧ s ≠ k) := by
        rw [← hiff, ← hR]
        unfold block
        simp only
        constructor
        · rintro ⟨a, b, c, d⟩; exact ⟨ha, by omega, by omega⟩
        · rintro ⟨a, b, c⟩; omega
      constructor
      · intro ho
        have hi := hin.2 ho
        rw [hwr, if_pos hi]
        obtain ⟨v1, v2⟩ := hval ho.1 ho.2
        have bx := boundsX h s
        rw [← hR] at hi ⊢
        rw [← hS]
        unfold block at hi ⊢
        simp only at hi ⊢
        unfold own
        congr 1
        · rcases wrapping_nd h with ⟨n1, -⟩ | ⟨n1, -⟩
          · have e2 : recvY t buf s k = 0 ∧ sendY t buf s k = 0 ∧ sy t buf s k = (0, 1) := by simp [recvY, sendY, sy, n1]
            rw [if_pos n1]
            rw [e2.1, e2.2.2] at hi
            rw [e2.1, e2.2.1]
            simp only at hi
            omega
          · have e : sendY t buf s k = (sy t buf s k).1 - (ly t s).1 + buf := by unfold sendY; rw [if_neg (by omega)]
            have := boundsY h n1 s
            have v2 := v2 n1
            rw [if_neg (by omega)]
            omega
        · have : sendX t buf s k = (sx t buf s k).1 - (lx t s).1 + buf := rfl
          omega
      · intro ho
        rw [hwr, if_neg (fun hh => ho (hin.1 hh))]
  · refine ⟨([], []), m, ?_, ?_, ⟨rfl, rfl, rfl⟩, fun row col hq => ⟨fun ho => absurd ((place_iff h hs hk hq).1.2 ho).1 ha, fun _ => rfl⟩⟩
    · unfold sent
      simp [hbs, hfil k hk, if_neg ha, allSome, fill]
    · rfl

theorem receive_wrapping (h : Wrapping t buf) {w : Nat → Layer V} (hw : ∀ k, k < t.size → WDims t buf k (w k))
    (junk : Nat → Nat → Nat → V) {k : Nat} (hk : k < t.size) (L : List Nat) (hL : ∀ s ∈ L, s < t.size) (m : Ten V) :
    ∃ m', receive t buf w junk k L m = some m' ∧ (m'.nx = m.nx ∧ m'.ny = m.ny ∧ m'.nz = m.nz) ∧
      ∀ row col r, InTen t buf k row col → Owns t r (spot t buf k row col) → m'.at_ 0 row col = if r ∈ L ∧ r ≠ k then own t buf r (w r).ten (spot t buf k row col) else m.at_ 0 row col := by
  induction L generalizing m with
  | nil => exact ⟨m, rfl, ⟨rfl, rfl, rfl⟩, fun row col r _ _ => by simp⟩
  | cons s L ih =>
    obtain ⟨msg, m1, e1, e2, e3, e4⟩ := step_wrapping h hw (junk s k) (hL s (by simp)) hk m
    obtain ⟨m2, f1, f2, f3⟩ := ih (fun s hs => hL s (List.mem_cons_of_mem _ hs)) m1
    refine ⟨m2, ?_, by omega, fun row col r hq ho => ?_⟩
    · unfold receive
      simp only [e1, e2, f1, Option.bind_eq_bind, Option.bind_some]
    · rw [f3 row col r hq ho]
      by_cases hrk : r = k
      · rw [if_neg (fun h => h.2 hrk), if_neg (fun h => h.2 hrk)]
        refine (e4 row col hq).2 fun hh => hh.2 ?_
        rw [← hrk]; exact wowns_unique h ho hh.1
      · by_cases hrs : r = s
        · subst hrs
          rw [if_pos (show r ∈ r :: L ∧ r ≠ k from ⟨by simp, hrk⟩)]
          split
          · rfl
          · exact (e4 row col hq).1 ⟨ho, hrk⟩
        · have e : m1.at_ 0 row col = m.at_ 0 row col := (e4 row col hq).2 fun hh => hrs (wowns_unique h hh.1 ho)
          simp only [List.mem_cons, hrs, false_or, e]

theorem wbuffers_ne (h : Wrapping t buf) {k : Nat} (hk : k < t.size) : ∃ bs, t.buffers k buf = some bs ∧ bs ≠ [] := by
  obtain ⟨bs, e1, e2⟩ := buffers_wrapping h hk
  obtain ⟨kx, ky, kz⟩ := coords_lt h.ok hk
  refine ⟨bs, e1, ?_⟩
  have hpx := h.px
  let x' := if (t.coords k).x = 0 then 1 else (t.coords k).x - 1
  have hx' : x' < t.px ∧ x' ≠ (t.coords k).x ∧ (x' = (t.coords k).x + 1 ∨ (t.coords k).x = x' + 1) := by
    simp only [x']; split <;> omega
  have hc := coords_rankOf (t := t) (c := ⟨x', (t.coords k).y, (t.coords k).z⟩) ky kz
  have hlt := rankOf_lt (t := t) (c := ⟨x', (t.coords k).y, (t.coords k).z⟩) hx'.1 ky kz
  have := e2 _ hlt
  rw [if_pos] at this
  · rintro rfl
    simp at this
  · refine ⟨fun e => ?_, ?_, ?_⟩
    · have := congrArg Coord.x hc
      rw [← e] at this
      exact hx'.2.1 this.symm
    · rw [hc]; unfold Adj; simp only; omega
    · rw [hc]; exact .inl rfl

theorem wself (h : Wrapping t buf) (k : Nat) (m : Ten V) : bufferSelf t buf k m = some m := by
  have hpx := h.px
  have hpy := h.py
  unfold bufferSelf
  rw [if_pos h.per, if_neg (by omega)]
  simp only [Option.bind_eq_bind, Option.bind_some]
  rw [if_neg (by omega)]

/-- The place of a location of rank `k` in its own tensor. -/
theorem own_self (h : Wrapping t buf) {k : Nat} (hk : k < t.size) {row col : Nat} (hq : InTen t buf k row col) (ho : Owns t k (spot t buf k row col)) (m : Ten V) :
    own t buf k m (spot t buf k row col) = m.at_ 0 row col := by
  obtain ⟨kx, ky, kz⟩ := coords_lt h.ok hk
  obtain ⟨q1, q2⟩ := hq
  obtain ⟨o1, o2⟩ := (wowns_iff h k _).1 ho.2
  have bx := boundsX h k
  have self : ∀ {lo hi : Int} {c : Nat}, sideRange lo hi buf ((c : Int) - c) = (lo, hi) := by
    intro lo hi c
    unfold sideRange
    rw [if_neg (by omega), if_neg (by omega)]
  have X := ring_iff h.px h.fx h.buf1 kx kx (col : Int) ⟨by omega, q1⟩
  have ex : (spot t buf k row col).x = (cut 0 t.box.xext t.px (t.coords k).x - buf + col) % t.box.xext := by
    unfold spot; simp only; rw [bx.1]; rfl
  have s1 : ∀ {G : Int} {p c : Nat}, cut 0 G p (c + 1) ≤ G → 0 ≤ cut 0 G p c → cut 0 G p c + buf + 1 ≤ cut 0 G p (c + 1) → start1 G p c buf (cut 0 G p c) = buf := by
    intro G p c h1 h2 h3
    unfold start1
    simp only
    rw [if_neg (by omega), if_neg (by omega)]
    omega
  have F := ring_facts h.px h.fx kx
  simp only [← ex, self, s1 F.2.2.2.2.2 F.2.2.2.2.1 (F.2.2.1 _)] at X
  obtain ⟨a, b, c⟩ := X.1.2 o1
  have vx := X.2 a b c
  have elx : (lx t k).1 = cut 0 t.box.xext t.px (t.coords k).x := rfl
  unfold own
  congr 1
  · rcases wrapping_nd h with ⟨n1, -⟩ | ⟨n1, -⟩
    · rw [if_pos n1] at q2 ⊢
      exact q2.symm
    · rw [if_neg (by omega)] at q2
      have by_ := boundsY h n1 k
      have ely : ∀ r, ly t r = (cut 0 t.box.yext t.py (t.coords r).y, cut 0 t.box.yext t.py ((t.coords r).y + 1)) := by intro r; unfold ly; rw [if_neg (by omega)]
      rw [ely k] at q2 by_
      have Y := ring_iff (h.py n1) (h.fy n1) h.buf1 ky ky (row : Int) ⟨by omega, q2⟩
      have ey : (spot t buf k row col).y = (cut 0 t.box.yext t.py (t.coords k).y - buf + row) % t.box.yext := by
        unfold spot; simp only; rw [if_neg (by omega), by_.1]
      have F := ring_facts (h.py n1) (h.fy n1) ky
      simp only [← ey, self, s1 F.2.2.2.2.2 F.2.2.2.2.1 (F.2.2.1 _)] at Y
      obtain ⟨a, b, c⟩ := Y.1.2 (o2 n1)
      have vy := Y.2 a b c
      rw [if_neg (by omega)]
      simp only at by_
      omega
  · omega

theorem synchRank_wrapping (h : Wrapping t buf) {w : Nat → Layer V} (hw : ∀ k, k < t.size → WDims t buf k (w k))
    (junk : Nat → Nat → Nat → V) {k : Nat} (hk : k < t.size) :
    ∃ m', synchRank t buf w junk k = some m' ∧ (m'.nx = (w k).ten.nx ∧ m'.ny = (w k).ten.ny ∧ m'.nz = (w k).ten.nz) ∧
      ∀ row col r, InTen t buf k row col → Owns t r (spot t buf k row col) → m'.at_ 0 row col = own t buf r (w r).ten (spot t buf k row col) := by
  obtain ⟨bs, b1, b2⟩ := wbuffers_ne h hk
  obtain ⟨m', e1, e2, e3⟩ := receive_wrapping h hw junk hk (List.range t.size) (by simp) (w k).ten
  refine ⟨m', ?_, e2, fun row col r hq ho => ?_⟩
  · unfold synchRank
    simp only [b1, e1, if_neg b2, Option.bind_eq_bind, Option.bind_some]
    exact wself h k m'
  · rw [e3 row col r hq ho]
    by_cases hrk : r = k
    · subst hrk; rw [if_neg (by simp)]; exact (own_self h hk hq ho _).symm
    · rw [if_pos ⟨List.mem_range.2 ho.1, hrk⟩]

theorem inTen {k row col : Nat} {l : Layer V} (hd : WDims t buf k l) (hr : row < l.ten.ny) (hc : col < l.ten.nx) : InTen t buf k row col := by
  rw [hd.ny] at hr
  rw [hd.nx] at hc
  refine ⟨by omega, ?_⟩
  split
  · rename_i n1; rw [if_pos n1] at hr; omega
  · rename_i n1; rw [if_neg n1] at hr; omega

theorem shaped_of (h : Wrapping t buf) {w : Nat → Layer V} (hw : ∀ k, k < t.size → WDims t buf k (w k)) : Shaped t buf w := by
  intro k hk
  have hd := hw k hk
  refine ⟨by rw [hd.nx, (boundsX h k).2], ?_⟩
  rw [hd.ny]
  rcases wrapping_nd h with ⟨n1, -⟩ | ⟨n1, -⟩
  · rw [if_pos n1, if_pos n1]
  · rw [if_neg (by omega), if_neg (by omega), (boundsY h n1 k).2]

/-- Every place has an owner. -/
theorem spot_owner (h : Wrapping t buf) (k row col : Nat) : ∃ r, Owns t r (spot t buf k row col) := by
  have hx := h.ok.box.x
  obtain ⟨r, hr, hc, -⟩ := (C33_partition_partial h.ok h.fits (spot t buf k row col)).1 (by
    rw [contains_iff h.ok.box]
    unfold InBounds
    rw [h.x0, h.y0]
    refine ⟨⟨Int.emod_nonneg _ (by omega), by rw [Int.zero_add]; exact Int.emod_lt_of_pos _ hx⟩, fun hy => ?_, fun hz => ?_⟩
    · rcases wrapping_nd h with ⟨n1, hy', -⟩ | ⟨n1, -⟩
      · omega
      · unfold spot
        simp only
        rw [if_neg (by omega)]
        exact ⟨Int.emod_nonneg _ (by omega), by rw [Int.zero_add]; exact Int.emod_lt_of_pos _ hy⟩
    · have := wrapping_nd h; omega)
  exact ⟨r, hr, hc⟩

theorem wsize (h : Wrapping t buf) : 1 < t.size := by
  unfold Topo.size
  have : 3 * 1 * 1 ≤ t.px * t.py * t.pz := Nat.mul_le_mul (Nat.mul_le_mul h.px h.ok.py) h.ok.pz
  omega

theorem synch_wrapping (h : Wrapping t buf) {w : Nat → Layer V} (hw : ∀ k, k < t.size → WDims t buf k (w k)) (junk : Nat → Nat → Nat → V) :
    ∃ w', synch t buf junk w = some w' ∧ (∀ k, k < t.size → WDims t buf k (w' k)) ∧ Wraps t buf w w' := by
  have hall : ((List.range t.size).all fun k => (synchRank t buf w junk k).isSome) = true := by
    rw [List.all_eq_true]
    intro k hk
    obtain ⟨m', e, -⟩ := synchRank_wrapping h hw junk (List.mem_range.1 hk)
    rw [e]; rfl
  have hsize := wsize h
  have hst : ∀ k, k < t.size → WDims t buf k { w k with ten := (synchRank t buf w junk k).getD (w k).ten } := by
    intro k hk
    obtain ⟨m', e, ⟨e1, e2, e3⟩, -⟩ := synchRank_wrapping h hw junk hk
    have hs := hw k hk
    refine ⟨?_, ?_, hs.tx, hs.ty, hs.nd, hs.box, hs.per⟩
    · rw [e]; exact e1.trans hs.nx
    · rw [e]; exact e2.trans hs.ny
  refine ⟨_, by unfold synch; rw [if_neg (by omega), if_pos hall], hst, ?_⟩
  intro k row col hk hr hc
  obtain ⟨r, ho⟩ := spot_owner h k row col
  obtain ⟨m', e, -, e4⟩ := synchRank_wrapping h hw junk hk
  refine ⟨r, ho.1, ho.2, ?_⟩
  rw [← e4 row col r (inTen (hst k hk) hr hc) ho]
  simp only [e, Option.getD_some]

/-! ### The constructor -/

theorem bufBox_wrapping (h : Wrapping t buf) {k : Nat} (hk : k < t.size) :
    ((bufBox t buf k).xmin = (if (lx t k).1 = 0 then 0 else (lx t k).1 - buf) ∧ (bufBox t buf k).xext = (lx t k).2 - (lx t k).1 + 2 * buf) ∧
    (t.nd = 1 → (bufBox t buf k).yext = 0) ∧
    (t.nd = 2 → (bufBox t buf k).ymin = (if (ly t k).1 = 0 then 0 else (ly t k).1 - buf) ∧ (bufBox t buf k).yext = (ly t k).2 - (ly t k).1 + 2 * buf) ∧ (bufBox t buf k).zext = 0 := by
  obtain ⟨kx, ky, kz⟩ := coords_lt h.ok hk
  have bx := boundsX h k
  have hsize := wsize h
  have F := ring_facts h.px h.fx kx
  have elx : (lx t k).1 = cut 0 t.box.xext t.px (t.coords k).x := rfl
  have eb : bufBox t buf k = ⟨(bufDimP t.box.xmin (t.bounds k).xmin (t.bounds k).xext buf).1, (bufDimP t.box.xmin (t.bounds k).xmin (t.bounds k).xext buf).2,
      (if 0 < t.box.yext then bufDimP t.box.ymin (t.bounds k).ymin (t.bounds k).yext buf else (0, 0)).1,
      (if 0 < t.box.yext then bufDimP t.box.ymin (t.bounds k).ymin (t.bounds k).yext buf else (0, 0)).2, 0, 0⟩ := by
    unfold bufBox
    simp only
    rw [if_pos hsize]
    simp only [h.per, if_true]
  rw [eb]
  unfold bufDimP
  simp only
  refine ⟨⟨?_, by omega⟩, fun n1 => ?_, fun n2 => ?_, trivial⟩
  · rw [h.x0, bx.1]
    split <;> split <;> omega
  · rcases wrapping_nd h with ⟨-, hy, -⟩ | ⟨n1, -⟩
    · rw [if_neg (by omega)]
    · omega
  · have by_ := boundsY h n2 k
    have F := ring_facts (h.py n2) (h.fy n2) ky
    have ely : (ly t k).1 = cut 0 t.box.yext t.py (t.coords k).y := by unfold ly; rw [if_neg (by omega)]
    rw [if_pos (by have := wrapping_nd h; omega)]
    simp only
    refine ⟨?_, by omega⟩
    rw [h.y0, by_.1]
    split <;> split <;> omega

/-- The bounds of a rank other than the first ones are farther than the buffer from the origin. -/
theorem wlow (h : Wrapping t buf) {k : Nat} (hk : k < t.size) : ((lx t k).1 = 0 ∨ (buf : Int) < (lx t k).1) ∧ (lx t k).1 + buf < (lx t k).2 ∧
    (t.nd = 2 → ((ly t k).1 = 0 ∨ (buf : Int) < (ly t k).1) ∧ (ly t k).1 + buf < (ly t k).2) := by
  have key : ∀ {G : Int} {p c : Nat}, 3 ≤ p → ((buf + 1 : Nat) : Int) * p ≤ G → c < p → (cut 0 G p c = 0 ∨ (buf : Int) < cut 0 G p c) ∧ cut 0 G p c + buf < cut 0 G p (c + 1) := by
    intro G p c hp hb hc
    obtain ⟨z, a, st, mo, lo, hi⟩ := ring_facts hp hb hc
    refine ⟨?_, by have := st c; omega⟩
    cases c with
    | zero => exact .inl z
    | succ c =>
      right
      have := mo 1 (c + 1) (by omega)
      have := st 0
      simp only [Nat.zero_add] at this
      omega
  obtain ⟨kx, ky, kz⟩ := coords_lt h.ok hk
  have K := key h.px h.fx kx
  refine ⟨K.1, K.2, fun n2 => ?_⟩
  unfold ly
  rw [if_neg (by omega)]
  exact key (h.py n2) (h.fy n2) ky

theorem new_wrapping (h : Wrapping t buf) (rand : Nat → Nat → Nat → V) {k : Nat} (hk : k < t.size) :
    WDims t buf k { Layer.new (bufBox t buf k) t.periodic rand with ptTr := patch t buf (Layer.new (bufBox t buf k) t.periodic rand).ptTr } := by
  obtain ⟨⟨b1, b2⟩, b3, b4, b5⟩ := bufBox_wrapping h hk
  obtain ⟨l1, l2, l3⟩ := wlow h hk
  have hb1 := h.buf1
  rcases wrapping_nd h with ⟨n1, -⟩ | ⟨n1, -⟩
  · have hn : Layer.new (bufBox t buf k) t.periodic rand = { nd := 1, box := bufBox t buf k, periodic := t.periodic, tpt := ⟨0, 0, 0⟩, ten := { nz := 1, ny := 1, nx := (bufBox t buf k).xext.toNat, at_ := rand }, ptTr := ⟨0 - (bufBox t buf k).xmin, 0, 0⟩, nghTr := ⟨0 - (bufBox t buf k).xmin, 0, 0⟩ } := by
      unfold Layer.new
      rw [if_pos (b3 n1)]
    rw [hn]
    refine ⟨?_, ?_, ?_, fun n2 => by omega, n1.symm, rfl, h.per⟩
    · simp only; rw [b2]
    · simp only; rw [if_pos n1]
    · unfold patch
      rw [if_pos h.per, h.x0, b1]
      simp only
      split <;> split <;> omega
  · obtain ⟨c1, c2⟩ := b4 n1
    have l3 := l3 n1
    have hn : Layer.new (bufBox t buf k) t.periodic rand = { nd := 2, box := bufBox t buf k, periodic := t.periodic, tpt := ⟨0, 0, 0⟩, ten := { nz := 1, ny := (bufBox t buf k).yext.toNat, nx := (bufBox t buf k).xext.toNat, at_ := rand }, ptTr := ⟨0 - (bufBox t buf k).xmin, 0 - (bufBox t buf k).ymin, 0⟩, nghTr := ⟨0 - (bufBox t buf k).xmin, 0 - (bufBox t buf k).ymin, 0⟩ } := by
      unfold Layer.new
      rw [if_neg (by omega), if_pos b5]
    rw [hn]
    refine ⟨?_, ?_, ?_, fun n2 => ?_, n1.symm, rfl, h.per⟩
    · simp only; rw [b2]
    · simp only; rw [if_neg (by omega), c2]
    · unfold patch
      rw [if_pos h.per, h.x0, b1]
      simp only
      split <;> split <;> omega
    · unfold patch
      rw [if_pos h.per, h.y0, c1]
      simp only
      split <;> split <;> omega

theorem construct_wrapping (h : Wrapping t buf) (rand : Nat → Nat → Nat → V) (v : Option V) {k : Nat} (hk : k < t.size) :
    ∃ l, construct t buf rand v k = some l ∧ WDims t buf k l ∧ ∀ x, v = some x → ∀ q, Owns t k q → own t buf k l.ten q = x := by
  have hd := new_wrapping h rand hk
  have hnd := h.nd
  generalize hl : ({ Layer.new (bufBox t buf k) t.periodic rand with ptTr := patch t buf (Layer.new (bufBox t buf k) t.periodic rand).ptTr } : Layer V) = l at hd
  refine ⟨initValue t k v l, ?_, ?_, ?_⟩
  · unfold construct
    simp only [if_neg (by omega : ¬ t.nd = 3), wself h, Option.map_some, hl]
  · unfold initValue
    cases v with
    | none => exact hd
    | some v => exact ⟨hd.nx, hd.ny, hd.tx, hd.ty, hd.nd, hd.box, hd.per⟩
  · rintro x rfl q ho
    obtain ⟨o1, o2⟩ := (wowns_iff h k q).1 ho.2
    obtain ⟨l1, l2, l3⟩ := wlow h hk
    have bx := boundsX h k
    have nx := hd.nx
    have ny := hd.ny
    have tx := hd.tx
    have o1 : (lx t k).1 ≤ q.x ∧ q.x < (lx t k).2 := o1
    have e1 : (t.bounds k).xmin + l.ptTr.x = buf := by omega
    have e2 : (t.bounds k).xmin + (t.bounds k).xext + l.ptTr.x = buf + ((lx t k).2 - (lx t k).1) := by omega
    unfold own initValue
    simp only
    rcases wrapping_nd h with ⟨n1, -⟩ | ⟨n1, -⟩
    · rw [if_pos n1, if_pos n1, e1, e2]
      rw [if_pos n1] at ny
      have := rectOf_block (y := 0) (h := 1) (x := buf) (w := (lx t k).2 - (lx t k).1) hd (by omega) (by omega)
      rw [Int.zero_add] at this
      rw [this]
      apply write_replicate
      unfold block
      simp only
      omega
    · have by_ := boundsY h n1 k
      have ty := hd.ty n1
      have l3 := l3 n1
      rw [if_neg (by omega)] at ny
      have o2 : (ly t k).1 ≤ q.y ∧ q.y < (ly t k).2 := by have := o2 n1; unfold ly; rw [if_neg (by omega)]; exact this
      have e3 : (t.bounds k).ymin + l.ptTr.y = buf := by omega
      have e4 : (t.bounds k).ymin + (t.bounds k).yext + l.ptTr.y = buf + ((ly t k).2 - (ly t k).1) := by omega
      rw [if_neg (by omega), if_neg (by omega), e1, e2, e3, e4]
      rw [rectOf_block (y := buf) (h := (ly t k).2 - (ly t k).1) (x := buf) (w := (lx t k).2 - (lx t k).1) hd (by omega) (by omega)]
      apply write_replicate
      unfold block
      simp only
      omega

theorem create_wrapping (h : Wrapping t buf) (junk : Nat → Nat → Nat → V) (rand : Nat → Nat → Nat → Nat → V) (v : Option V) :
    ∃ w, create t buf junk rand v = some w ∧ (∀ k, k < t.size → WDims t buf k (w k)) ∧
      ∀ x, v = some x → ∀ k row col, k < t.size → row < (w k).ten.ny → col < (w k).ten.nx → (w k).ten.at_ 0 row col = x := by
  have hsize := wsize h
  have hall : ((List.range t.size).all fun k => (construct t buf (rand k) v k).isSome) = true := by
    rw [List.all_eq_true]
    intro k hk
    obtain ⟨m', e, -⟩ := construct_wrapping h (rand k) v (List.mem_range.1 hk)
    rw [e]; rfl
  let w0 := fun k => (construct t buf (rand k) v k).getD (Layer.new (bufBox t buf k) t.periodic (rand k))
  have hw0 : ∀ k, k < t.size → WDims t buf k (w0 k) ∧ ∀ x, v = some x → ∀ q, Owns t k q → own t buf k (w0 k).ten q = x := by
    intro k hk
    obtain ⟨l, e, e1, e2⟩ := construct_wrapping h (rand k) v hk
    simp only [w0, e, Option.getD_some]
    exact ⟨e1, e2⟩
  obtain ⟨w, e1, e2, e3⟩ := synch_wrapping h (fun k hk => (hw0 k hk).1) junk
  refine ⟨w, ?_, e2, fun x hx k row col hk hr hc => ?_⟩
  · unfold create
    rw [if_pos hall, if_pos hsize]
    exact e1
  · obtain ⟨r, hr, ho, e⟩ := e3 k row col hk hr hc
    rw [e]
    exact (hw0 r hr).2 x hx _ ⟨hr, ho⟩

theorem step_dims {k : Nat} {l : Layer V} (hd : WDims t buf k l) (o : Op V) : WDims t buf k (l.step o).1 := by
  cases o with
  | get p => exact ⟨hd.nx, hd.ny, hd.tx, hd.ty, hd.nd, hd.box, hd.per⟩
  | set p v =>
    unfold Layer.step Layer.set
    simp only
    split
    · exact ⟨hd.nx, hd.ny, hd.tx, hd.ty, hd.nd, hd.box, hd.per⟩
    · exact ⟨hd.nx, hd.ny, hd.tx, hd.ty, hd.nd, hd.box, hd.per⟩
  | nghs p => exact hd

theorem srun_wrapping (h : Wrapping t buf) (ops : List (SOp V × (Nat → Nat → Nat → V))) {w : Nat → Layer V}
    (hw : ∀ k, k < t.size → WDims t buf k (w k)) :
    ∃ w', srun t buf w ops = some w' ∧ ∀ k, k < t.size → WDims t buf k (w' k) := by
  induction ops generalizing w with
  | nil => exact ⟨w, rfl, hw⟩
  | cons o ops ih =>
    obtain ⟨o, junk⟩ := o
    cases o with
    | call r o =>
      refine ih (w := upd w r ((w r).step o).1) fun k hk => ?_
      unfold upd
      split
      · rename_i e
        subst e
        exact step_dims (hw k hk) o
      · exact hw k hk
    | synch =>
      obtain ⟨w', e1, e2, e3⟩ := synch_wrapping h hw junk
      obtain ⟨w'', f1, f2⟩ := ih e2
      refine ⟨w'', ?_, f2⟩
      unfold srun
      simp only [e1, Option.bind_eq_bind, Option.bind_some]
      exact f1

/-- In two dimensions, `get` of a location within the buffer, and not below the origin, returns the entry of its place. -/
theorem get_wrapping (h : Wrapping t buf) (n2 : t.nd = 2) {k : Nat} (hk : k < t.size) {l : Layer V} (hd : WDims t buf k l) {u : Pt} (hu : 0 ≤ u.x ∧ 0 ≤ u.y)
    (hx : (lx t k).1 - buf ≤ u.x ∧ u.x < (lx t k).2 + buf) (hy : (ly t k).1 - buf ≤ u.y ∧ u.y < (ly t k).2 + buf) :
    (l.get u).2 = .val (l.ten.at_ 0 (u.y - (ly t k).1 + buf).toNat (u.x - (lx t k).1 + buf).toNat) := by
  obtain ⟨⟨b1, b2⟩, -, b4, b5⟩ := bufBox_wrapping h hk
  obtain ⟨b6, b7⟩ := b4 n2
  obtain ⟨l1, l2, l3⟩ := wlow h hk
  have l3 := l3 n2
  have tx := hd.tx
  have ty := hd.ty n2
  have nx := hd.nx
  have ny := hd.ny
  rw [if_neg (by omega)] at ny
  have hbx : (bufBox t buf k).xmin ≤ u.x ∧ u.x < (bufBox t buf k).xmin + (bufBox t buf k).xext := by rw [b1, b2]; split <;> omega
  have hby : (bufBox t buf k).ymin ≤ u.y ∧ u.y < (bufBox t buf k).ymin + (bufBox t buf k).yext := by rw [b6, b7]; split <;> omega
  have htr : (l.transform u).x = u.x ∧ (l.transform u).y = u.y := by
    unfold Layer.transform
    rw [hd.per, hd.box, if_pos rfl]
    unfold Space.periodic
    rw [if_neg (by omega), if_pos (by omega)]
    exact ⟨periodic1_inside (by omega) hbx, periodic1_inside (by omega) hby⟩
  unfold Layer.get
  simp only
  have hc : l.cell (l.transform u) = some (0, (u.y - (ly t k).1 + buf).toNat, (u.x - (lx t k).1 + buf).toNat) := by
    unfold Layer.cell index
    rw [if_neg (by rw [hd.nd]; omega), if_pos (by rw [hd.nd]; omega), htr.1, htr.2, tx, ty]
    rw [if_pos (by omega), if_pos (by omega), if_pos (by omega), if_pos (by omega)]
    simp only [Option.bind_eq_bind, Option.bind_some, Option.pure_def]
    congr 4 <;> omega
  rw [hc]
end

/-! ### C40 -/

/-- C40 (what is missing: `get` and `set` of locations that wrap around, see the violations in `SharedProps`; process grids with one or two processes in a dimension; an origin other than
0): after any calls on layers with periodic borders and synchronizations, none of which fails, a synchronization makes each entry of the tensor of each rank the one that the owner of its
location, across the borders, has in its local bounds. -/
theorem C40_periodic_partial {V : Type} {t : Topo} {buf : Nat} (h : Wrapping t buf) (junk0 junk : Nat → Nat → Nat → V) (rand : Nat → Nat → Nat → Nat → V) (v : Option V)
    (ops : List (SOp V × (Nat → Nat → Nat → V))) :
    ∃ w0 w w', create t buf junk0 rand v = some w0 ∧ srun t buf w0 ops = some w ∧ synch t buf junk w = some w' ∧ Shaped t buf w ∧ Shaped t buf w' ∧ Wraps t buf w w' ∧
      ∀ x, v = some x → ∀ k row col, k < t.size → row < (w0 k).ten.ny → col < (w0 k).ten.nx → (w0 k).ten.at_ 0 row col = x := by
  obtain ⟨w0, e0, d0, i0⟩ := create_wrapping h junk0 rand v
  obtain ⟨w, e1, e2⟩ := srun_wrapping h ops d0
  obtain ⟨w', f1, f2, f3⟩ := synch_wrapping h e2 junk
  exact ⟨w0, w, w', e0, e1, f1, shaped_of h e2, shaped_of h f2, f3, i0⟩

/-- C40 (what is missing: see `C40_periodic_partial`): in two dimensions `get` on every rank then returns, for every location that is within `buf` of the local bounds, and not below the
origin, what `get` returned on the owner of the location that it stands for before the synchronization. -/
theorem C40_periodic_get_partial {V : Type} {t : Topo} {buf : Nat} (h : Wrapping t buf) (n2 : t.nd = 2) (junk0 junk : Nat → Nat → Nat → V) (rand : Nat → Nat → Nat → Nat → V) (v : Option V)
    (ops : List (SOp V × (Nat → Nat → Nat → V))) :
    ∃ w0 w w', create t buf junk0 rand v = some w0 ∧ srun t buf w0 ops = some w ∧ synch t buf junk w = some w' ∧
      ∀ k u, k < t.size → 0 ≤ u.x → 0 ≤ u.y → (t.bounds k).xmin - buf ≤ u.x → u.x < (t.bounds k).xmin + (t.bounds k).xext + buf →
        (t.bounds k).ymin - buf ≤ u.y → u.y < (t.bounds k).ymin + (t.bounds k).yext + buf →
        ∃ r x, r < t.size ∧ (t.bounds r).contains ⟨u.x % t.box.xext, u.y % t.box.yext, 0⟩ = true ∧
          ((w r).get ⟨u.x % t.box.xext, u.y % t.box.yext, 0⟩).2 = .val x ∧ ((w' k).get u).2 = .val x := by
  obtain ⟨w0, e0, d0, i0⟩ := create_wrapping h junk0 rand v
  obtain ⟨w, e1, e2⟩ := srun_wrapping h ops d0
  obtain ⟨w', f1, f2, f3⟩ := synch_wrapping h e2 junk
  refine ⟨w0, w, w', e0, e1, f1, fun k u hk u1 u2 u3 u4 u5 u6 => ?_⟩
  have bx := boundsX h k
  have by_ := boundsY h n2 k
  have dk := f2 k hk
  have nx := dk.nx
  have ny := dk.ny
  rw [if_neg (by omega)] at ny
  obtain ⟨r, hr, ho, e⟩ := f3 k (u.y - (ly t k).1 + buf).toNat (u.x - (lx t k).1 + buf).toNat hk (by omega) (by omega)
  have es : spot t buf k (u.y - (ly t k).1 + buf).toNat (u.x - (lx t k).1 + buf).toNat = ⟨u.x % t.box.xext, u.y % t.box.yext, 0⟩ := by
    unfold spot
    rw [if_neg (by omega), bx.1, by_.1]
    congr 2 <;> omega
  rw [es] at ho e
  obtain ⟨o1, o2⟩ := (wowns_iff h r _).1 ho
  have o1 : (lx t r).1 ≤ u.x % t.box.xext ∧ u.x % t.box.xext < (lx t r).2 := o1
  have o2 : (ly t r).1 ≤ u.y % t.box.yext ∧ u.y % t.box.yext < (ly t r).2 := by have := o2 n2; unfold ly; rw [if_neg (by omega)]; exact this
  have m1 : 0 ≤ u.x % t.box.xext := Int.emod_nonneg _ (by have := h.ok.box.x; omega)
  have m2 : 0 ≤ u.y % t.box.yext := Int.emod_nonneg _ (by have := wrapping_nd h; omega)
  have gr := get_wrapping h n2 hr (e2 r hr) (u := ⟨u.x % t.box.xext, u.y % t.box.yext, 0⟩) ⟨m1, m2⟩ (by simp only; omega) (by simp only; omega)
  have gk := get_wrapping h n2 hk dk ⟨u1, u2⟩ (by omega) (by omega)
  refine ⟨r, _, hr, ho, gr, ?_⟩
  rw [gk, e]
  unfold own
  rw [if_neg (by omega), (boundsX h r).1, (boundsY h n2 r).1]

theorem exT2_wrapping : Wrapping (exT2 3 3 9 9) 1 where
  ok := ⟨⟨by decide, by decide, by decide, by decide⟩, by decide, by decide, by decide, by decide, by decide, by decide⟩
  per := rfl
  nd := by decide
  px := by decide
  py := fun _ => by decide
  x0 := rfl
  y0 := rfl
  buf1 := by decide
  fx := by decide
  fy := fun _ => by decide

theorem exT1_wrapping : Wrapping (exT1 3 true 0 9) 2 where
  ok := ⟨⟨by decide, by decide, by decide, by decide⟩, by decide, by decide, by decide, by decide, by decide, by decide⟩
  per := rfl
  nd := by decide
  px := by decide
  py := fun h => absurd h (by decide)
  x0 := rfl
  y0 := rfl
  buf1 := by decide
  fx := by decide
  fy := fun h => absurd h (by decide)

/-- The tensor of rank `k`. -/
def tensor (w : Option (Nat → Layer Int)) (k : Nat) : Option (List (List Int)) :=
  w.map fun w => (List.range (w k).ten.ny).map fun j => (List.range (w k).ten.nx).map fun i => (w k).ten.at_ 0 j i

example : tensor (demo (exT2 3 3 9 9) 1 (fun _ p => 10 * p.y + p.x) (plane 9 9)) 0 =
    some [[88, 80, 81, 82, 83], [8, 0, 1, 2, 3], [18, 10, 11, 12, 13], [28, 20, 21, 22, 23], [38, 30, 31, 32, 33]] := by decide +kernel

/-- C40 is violated if the buffer is as large as the local bounds: the translation of the second rank is corrected as if it were the first. Three processes with two locations each, and a buffer of
two: rank 1 finds 0, which no rank has set there, at its own locations 2 and 3 (the middle of its tensor). -/
theorem C40_violation_wide : tensor (demo (exT1 3 true 0 6) 2 (fun _ p => p.x + 1) (row 6)) 1 = some [[5, 6, 0, 0, 0, 0]] := by decide +kernel

/-- C40 is violated with two processes in each dimension: what a rank sends to the same neighbour for several places of its tensor is overwritten. Entry (0, 0) of rank 0 is the value of (3, 3), the
location is (5, 5). In one dimension the first entry of rank 1 is the value of 1, the location is 2. -/
theorem C40_violation_pairs :
    (tensor (demo (exT2 2 2 6 6) 1 (fun _ p => 10 * p.y + p.x) (plane 6 6)) 0).map (·.head?) = some (some [33, 30, 31, 32, 33]) ∧
    (tensor (demo (exT1 2 true 0 6) 1 (fun _ p => p.x) (row 6)) 1) = some [[1, 3, 4, 5, 1]] := by decide +kernel

/-- C40 is violated with three processes in the first dimension and one in the second: there is no room for the regions sent, and the layer cannot be created. With two in the second
dimension there is. -/
theorem C40_violation_slab : demo (exT2 3 1 9 6) 1 (fun _ p => p.x) [] = none ∧ (demo (exT2 3 2 9 6) 1 (fun _ p => p.x) []).isSome = true :=
  ⟨Option.isNone_iff_eq_none.1 (by decide +kernel), by decide +kernel⟩

/-- C40 is violated with two processes in the first dimension and one in the second: a rank gives itself the rows above and below its local bounds, which are right, but the columns to the left and
right of them, and the corners, are all those of the last column of the other rank. With the dimensions the other way round the corners are wrong, and one is never set. -/
theorem C40_violation_self :
    tensor (demo (exT2 2 1 6 6) 1 (fun _ p => 10 * p.y + p.x) (plane 6 6)) 0 = some [[5, 50, 51, 52, 5], [5, 0, 1, 2, 5], [15, 10, 11, 12, 15], [25, 20, 21, 22, 25],
      [35, 30, 31, 32, 35], [45, 40, 41, 42, 45], [55, 50, 51, 52, 55], [5, 0, 1, 2, 5]] ∧
    tensor (demo (exT2 1 2 6 6) 1 (fun _ p => 10 * p.y + p.x) (plane 6 6)) 0 = some [[50, 50, 51, 52, 53, 54, 55, -1], [5, 0, 1, 2, 3, 4, 5, 0], [15, 10, 11, 12, 13, 14, 15, 10],
      [25, 20, 21, 22, 23, 24, 25, 20], [50, 50, 51, 52, 53, 54, 55, -1]] := by decide +kernel

/-- C40 is violated by periodic layers whose origin is not 0: a layer of nine locations from -2 on, on three processes with a buffer of 1, cannot be created, because the translation of rank 1 is corrected
as if it were the first; with locations from 3 on, rank 0 finds 0, which no rank has set, at its own locations 3 and 4, and the value of 3 at 5. The
origin 1, the width of the buffer, is right in one dimension and in two. -/
theorem C40_violation_origin_periodic :
    demo (exT1 3 true (-2) 9) 1 (fun _ p => p.x) [] = none ∧
    tensor (demo (exT1 3 true 3 9) 1 (fun _ p => p.x) (row 12)) 0 = some [[11, 0, 0, 3, 6]] ∧
    tensor (demo (exT1 3 true 1 9) 1 (fun _ p => p.x) (row 10)) 0 = some [[9, 1, 2, 3, 4]] ∧
    tensor (demo { exT2 3 3 9 9 with box := ⟨1, 9, 1, 9, 0, 0⟩ } 1 (fun _ p => 10 * p.y + p.x) (plane 10 10)) 0 =
      some [[99, 91, 92, 93, 94], [19, 11, 12, 13, 14], [29, 21, 22, 23, 24], [39, 31, 32, 33, 34], [49, 41, 42, 43, 44]] :=
  ⟨Option.isNone_iff_eq_none.1 (by decide +kernel), by decide +kernel, by decide +kernel, by decide +kernel⟩

/-- C40 is violated with one process in the first dimension and several in the second, with sticky borders too: the buffered bounds are empty (value_layer.py:628-631 lacks the case that
647-650 has for y), and the layer cannot be created. (`MPI.Compute_dims` puts the larger numbers first, so that it gives no such process grids.) -/
theorem C40_violation_column : (bufBox { exT2 1 2 4 4 with periodic := false } 1 0).xext = 0 ∧ demo { exT2 1 2 4 4 with periodic := false } 1 (fun _ p => p.x) [] = none :=
  ⟨by decide +kernel, Option.isNone_iff_eq_none.1 (by decide +kernel)⟩

end Repast.ValueLayer
