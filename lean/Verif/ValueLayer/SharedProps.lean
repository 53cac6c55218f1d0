import Verif.ValueLayer.Shared
import Verif.ValueLayer.Props
import Verif.Topology.BufferMain

/-! C40: the buffers of shared value layers. -/
namespace Repast.ValueLayer
open Repast.Space Repast.Geometry Repast.Topology

/-! ### One dimension of the process grid (borders not periodic) -/

/-- The range of process `c` with its buffers. -/
def loB (G : Int) (p c : Nat) (buf : Int) : Int := if 0 < c then cut 0 G p c - buf else 0
def hiB (G : Int) (p c : Nat) (buf : Int) : Int := if c + 1 < p then cut 0 G p (c + 1) + buf else G

theorem cut_buf {G : Int} {p buf : Nat} (hp : 0 < p) (hb : (buf : Int) * p ≤ G) (i : Nat) : cut 0 G p i + buf ≤ cut 0 G p (i + 1) := by
  have h1 : 0 ≤ G % p := Int.emod_nonneg _ (by omega)
  have h2 : (buf : Int) ≤ G / p := by rw [Int.le_ediv_iff_mul_le (by omega)]; exact hb
  have h3 : G / p * ((i + 1 : Nat) : Int) = G / p * i + G / p := by rw [Int.natCast_add, Int.mul_add]; simp
  unfold cut
  omega

theorem cut_range {G : Int} {p c : Nat} (hp : 0 < p) (hG : 0 ≤ G) (hc : c ≤ p) : 0 ≤ cut 0 G p c ∧ cut 0 G p c ≤ G := by
  have h1 := cut_mono (gmin := 0) hG hp (c := 0) (d := c) (by omega)
  have h2 := cut_mono (gmin := 0) hG hp hc
  rw [cut_zero _ _ _ hp] at h1
  rw [cut_all _ _ _ hp] at h2
  omega

/-- The part of the range of `c` to send to `c'` is the part in the buffered range of `c'`. -/
theorem side_iff {G : Int} {p c c' buf : Nat} (hp : 0 < p) (hG : 0 ≤ G) (hb : (buf : Int) * p ≤ G) (hc : c < p) (hc' : c' < p) (v : Int) :
    (c' = c ∨ c' = c + 1 ∨ c = c' + 1) ∧ InSide (cut 0 G p c) (cut 0 G p (c + 1)) buf ((c' : Int) - c) v ↔
    InDim 0 G p c v ∧ loB G p c' buf ≤ v ∧ v < hiB G p c' buf := by
  have hs := cut_buf hp hb
  have hm := fun c d h => cut_mono (gmin := 0) hG hp (c := c) (d := d) h
  have h0 := cut_zero 0 G p hp
  have h1 := cut_all 0 G p hp
  unfold InSide InDim sideRange loB hiB
  constructor
  · rintro ⟨h | h | h, h2⟩
    · subst h
      rw [if_neg (by omega), if_neg (by omega)] at h2
      have e1 := hm 0 c' (by omega)
      have e2 := hm (c' + 1) p (by omega)
      simp only at h2
      refine ⟨h2, ?_, ?_⟩ <;> split <;> omega
    · subst h
      rw [if_neg (by omega), if_pos (by omega)] at h2
      have e2 := hs c
      have e3 := hs (c + 1)
      have e4 := hm (c + 1) p (by omega)
      simp only at h2
      refine ⟨by omega, ?_, ?_⟩
      · rw [if_pos (by omega)]; omega
      · split <;> omega
    · subst h
      rw [if_pos (by omega)] at h2
      have e1 := hs c'
      have e2 := hs (c' + 1)
      have e4 := hm 0 c' (by omega)
      simp only at h2
      refine ⟨by omega, ?_, ?_⟩
      · split <;> omega
      · rw [if_pos (by omega)]; omega
  · rintro ⟨⟨h2, h3⟩, h4, h5⟩
    rcases Nat.lt_trichotomy c c' with h | h | h
    · by_cases h' : c' = c + 1
      · subst h'
        rw [if_pos (by omega)] at h4
        refine ⟨by omega, ?_⟩
        rw [if_neg (by omega), if_pos (by omega)]
        simp only; omega
      · rw [if_pos (by omega)] at h4
        obtain ⟨d, rfl⟩ : ∃ d, c' = d + 1 := ⟨c' - 1, by omega⟩
        have e1 := hs d
        have e2 := hm (c + 1) d (by omega)
        omega
    · subst h
      refine ⟨by omega, ?_⟩
      rw [if_neg (by omega), if_neg (by omega)]
      exact ⟨h2, h3⟩
    · by_cases h' : c = c' + 1
      · subst h'
        rw [if_pos (by omega)] at h5
        refine ⟨by omega, ?_⟩
        rw [if_pos (by omega)]
        simp only; omega
      · rw [if_pos (by omega)] at h5
        have e1 := hs (c' + 1)
        have e2 := hm (c' + 1 + 1) c (by omega)
        omega

/-- The ranges sent are not empty. -/
theorem side_lt {G : Int} {p c buf : Nat} (hp : 0 < p) (hb : (buf : Int) * p ≤ G) (h1 : 1 ≤ buf) (o : Int) :
    (sideRange (cut 0 G p c) (cut 0 G p (c + 1)) buf o).1 < (sideRange (cut 0 G p c) (cut 0 G p (c + 1)) buf o).2 := by
  have hs := cut_buf hp hb c
  unfold sideRange
  split
  · simp only; omega
  · split
    · simp only; omega
    · simp only; omega

theorem loB_range {G : Int} {p c buf : Nat} (hp : 0 < p) (hG : 0 ≤ G) (hb : (buf : Int) * p ≤ G) (hc : c < p) : 0 ≤ loB G p c buf ∧ hiB G p c buf ≤ G := by
  have hm := fun c d h => cut_mono (gmin := 0) hG hp (c := c) (d := d) h
  have h0 := cut_zero 0 G p hp
  have h1 := cut_all 0 G p hp
  unfold loB hiB
  constructor
  · split
    · obtain ⟨d, rfl⟩ : ∃ d, c = d + 1 := ⟨c - 1, by omega⟩
      have := cut_buf hp hb d
      have := hm 0 d (by omega)
      omega
    · omega
  · split
    · have := cut_buf hp hb (c + 1)
      have := hm (c + 1 + 1) p (by omega)
      omega
    · omega

theorem near1_B {G v : Int} {p c buf : Nat} (hv : InRange 0 G v) (hp : 0 < p) (hc : c < p) :
    Near1 false G buf (cut 0 G p c) (cut 0 G p (c + 1) - cut 0 G p c) v ↔ loB G p c buf ≤ v ∧ v < hiB G p c buf := by
  have h0 := cut_zero 0 G p hp
  have h1 := cut_all 0 G p hp
  unfold InRange at hv
  unfold Near1 loB hiB
  constructor
  · rintro ⟨j, hj, h2⟩
    rw [hj rfl] at h2
    constructor <;> split <;> omega
  · rintro ⟨h2, h3⟩
    refine ⟨0, fun _ => rfl, ?_⟩
    constructor
    · split at h2
      · omega
      · obtain rfl : c = 0 := by omega
        omega
    · split at h3
      · omega
      · obtain rfl : c + 1 = p := by omega
        omega

theorem pos_dim {G : Int} {p : Nat} (hp : 0 < p) (h : (p : Int) ≤ G) (c : Nat) (hc : c < p) :
    (0 < cut 0 G p c ↔ 0 < c) ∧ (cut 0 G p (c + 1) < G ↔ c + 1 < p) := by
  have hG : 0 ≤ G := by omega
  have h0 := cut_zero 0 G p hp
  have h1 := cut_all 0 G p hp
  have hm := fun c d h => cut_mono (gmin := 0) hG hp (c := c) (d := d) h
  have hd := fun c => dim_pos (gmin := 0) (c := c) hp h
  constructor
  · constructor
    · intro h2
      rcases Nat.eq_zero_or_pos c with rfl | h
      · omega
      · exact h
    · intro h2
      have := hm 1 c h2
      have := hd 0
      simp only [Nat.zero_add] at this
      omega
  · constructor
    · intro h2
      by_cases h3 : c + 1 < p
      · exact h3
      · obtain rfl : c + 1 = p := by omega
        omega
    · intro h2
      have := hm (c + 1 + 1) p h2
      have := hd (c + 1)
      omega

theorem bufDimX_eq {G : Int} {p c buf : Nat} (hp : 2 ≤ p) (h : (p : Int) ≤ G) (hc : c < p) :
    bufDimX 0 G (cut 0 G p c) (cut 0 G p (c + 1) - cut 0 G p c) buf = (loB G p c buf, hiB G p c buf - loB G p c buf) := by
  obtain ⟨a, b⟩ := pos_dim (by omega) h c hc
  have h0 := cut_zero 0 G p (by omega)
  have h1 := cut_all 0 G p (by omega)
  unfold bufDimX loB hiB
  simp only [a, Prod.ext_iff]
  by_cases h2 : 0 < c
  · by_cases h3 : c + 1 < p
    · have := b.2 h3
      simp only [if_pos h2, if_pos h3]
      rw [if_pos (by omega)]
      constructor <;> (try simp only) <;> omega
    · have e : c + 1 = p := by omega
      rw [e]
      simp only [if_pos h2, if_neg (Nat.lt_irrefl p)]
      rw [if_neg (by omega)]
      constructor <;> (try simp only) <;> omega
  · obtain rfl : c = 0 := by omega
    have h3 : 0 + 1 < p := by omega
    have := b.2 h3
    simp only [if_neg h2, if_pos h3]
    rw [if_pos (by omega)]
    constructor <;> (try simp only) <;> omega

theorem bufDimY_eq {G : Int} {p c buf : Nat} (hp : 0 < p) (h : (p : Int) ≤ G) (hc : c < p) :
    bufDimY 0 G (cut 0 G p c) (cut 0 G p (c + 1) - cut 0 G p c) buf = (loB G p c buf, hiB G p c buf - loB G p c buf) := by
  obtain ⟨a, b⟩ := pos_dim (by omega) h c hc
  have h0 := cut_zero 0 G p (by omega)
  have h1 := cut_all 0 G p (by omega)
  unfold bufDimY loB hiB
  simp only [a, Prod.ext_iff]
  by_cases h2 : 0 < c
  · by_cases h3 : c + 1 < p
    · have := b.2 h3
      simp only [if_pos h2, if_pos h3]
      rw [if_pos (by omega)]
      constructor <;> (try simp only) <;> omega
    · have e : c + 1 = p := by omega
      rw [e]
      simp only [if_pos h2, if_neg (Nat.lt_irrefl p)]
      rw [if_neg (by omega)]
      constructor <;> (try simp only) <;> omega
  · obtain rfl : c = 0 := by omega
    by_cases h3 : 0 + 1 < p
    · have := b.2 h3
      simp only [if_neg h2, if_pos h3]
      rw [if_pos (by omega)]
      constructor <;> (try simp only) <;> omega
    · obtain rfl : p = 1 := by omega
      have h1 : cut 0 G 1 (0 + 1) = 0 + G := h1
      simp only [if_neg h2, if_neg h3]
      rw [if_neg (by omega)]
      constructor <;> (try simp only) <;> omega

/-! ### What is sent to whom -/

/-- The process grids and layers of the theorem: borders not periodic, one or two dimensions, origin 0, at least two processes in the first dimension (MPI
gives the first dimension the most processes), and a buffer that fits in the local bounds. -/
structure Sticky (t : Topo) (buf : Nat) : Prop where
  ok : t.Ok
  fits : t.Fits
  per : t.periodic = false
  nd : t.nd ≤ 2
  px : 2 ≤ t.px
  x0 : t.box.xmin = 0
  y0 : t.box.ymin = 0
  buf1 : 1 ≤ buf
  buf : BufFits t buf

theorem reach_sticky {p c c' : Nat} (hc : c < p) (hc' : c' < p) :
    reach (offsets2 false p c) p c c' = if c' = c ∨ c' = c + 1 ∨ c = c' + 1 then 1 else 0 := by
  unfold reach
  rw [countP_offsets2]
  simp only [Bool.false_eq_true, false_or, decide_eq_true_eq, Int.add_zero, wrapCoord_self hc, wrapCoord_succ hc, wrapCoord_pred hc]
  by_cases h1 : c' = c
  · subst h1
    rw [if_neg, if_pos rfl, if_neg, if_pos (.inl rfl)]
    · rintro ⟨h, e⟩; rw [if_neg (by omega)] at e; omega
    · rintro ⟨h, e⟩; rw [if_neg (by omega)] at e; omega
  · rw [if_neg (show ¬ c = c' from fun e => h1 e.symm)]
    by_cases h2 : c' = c + 1
    · subst h2
      rw [if_neg, if_pos, if_pos (.inr (.inl rfl))]
      · exact ⟨hc', if_neg (by omega)⟩
      · rintro ⟨h, e⟩; rw [if_neg (by omega)] at e; omega
    · by_cases h3 : c = c' + 1
      · subst h3
        rw [if_pos, if_neg, if_pos (.inr (.inr rfl))]
        · rintro ⟨h, e⟩; rw [if_neg (by omega)] at e; omega
        · exact ⟨by omega, by rw [if_neg (by omega)]; omega⟩
      · rw [if_neg, if_neg, if_neg (by omega)]
        · rintro ⟨h, e⟩; rw [if_neg (by omega)] at e; omega
        · rintro ⟨h, e⟩; rw [if_neg (by omega)] at e; omega

/-- Processes `s` and `k` are neighbours. -/
def AdjT (t : Topo) (s k : Nat) : Prop :=
  s ≠ k ∧ ((t.coords k).x = (t.coords s).x ∨ (t.coords k).x = (t.coords s).x + 1 ∨ (t.coords s).x = (t.coords k).x + 1) ∧
  ((t.coords k).y = (t.coords s).y ∨ (t.coords k).y = (t.coords s).y + 1 ∨ (t.coords s).y = (t.coords k).y + 1)

instance (t : Topo) (s k : Nat) : Decidable (AdjT t s k) := by unfold AdjT; infer_instance

/-- The range `s` sends to `k`. -/
def rngTo (t : Topo) (buf s k : Nat) : Rng :=
  bufferBounds t.nd (t.bounds s) buf (((t.coords k).x : Int) - (t.coords s).x) (((t.coords k).y : Int) - (t.coords s).y) 0

theorem sticky_nd {t : Topo} {buf : Nat} (h : Sticky t buf) : t.nd = 1 ∧ t.box.yext = 0 ∧ t.box.zext = 0 ∧ t.py = 1 ∧ t.pz = 1 ∨ t.nd = 2 ∧ 0 < t.box.yext ∧ t.box.zext = 0 ∧ t.pz = 1 := by
  have h1 := h.ok.nd
  have h2 := h.nd
  have h3 := h.ok.y1
  have h4 := h.ok.z1
  rcases numDims_cases h.ok.box with ⟨a, b, c⟩ | ⟨a, b, c⟩ | ⟨a, b, c⟩
  · left; refine ⟨by omega, b, c, h3 (by omega), h4 (by omega)⟩
  · right; refine ⟨by omega, b, c, h4 (by omega)⟩
  · omega

theorem count_sticky {t : Topo} {buf : Nat} (h : Sticky t buf) {s k : Nat} (hs : s < t.size) (hk : k < t.size) :
    ((t.neighbors s).map (·.rank)).count k = if AdjT t s k then 1 else 0 := by
  obtain ⟨lx, ly, lz⟩ := coords_lt h.ok hs
  obtain ⟨kx, ky, kz⟩ := coords_lt h.ok hk
  by_cases hne : s = k
  · subst hne
    rw [if_neg (fun h => h.1 rfl), List.count_eq_zero]
    intro hm
    obtain ⟨n, hn, e⟩ := List.mem_map.1 hm
    exact ((C35_neighbors_partial h.ok (fun _ hp => by rw [h.per] at hp; cases hp) hs s).1 ⟨n, hn, e⟩).2.1 rfl
  · rcases sticky_nd h with ⟨n1, hy, hz, py, pz⟩ | ⟨n1, hy, hz, pz⟩
    · rw [count1 h.ok n1 hs hk (fun e => hne e.symm), h.per, reach_sticky lx kx]
      unfold AdjT
      have : (t.coords k).y = (t.coords s).y := by omega
      simp [this, hne]
    · rw [count2 h.ok n1 hs hk (fun e => hne e.symm), h.per, reach_sticky lx kx, reach_sticky ly ky]
      split
      · split
        · rename_i a b; rw [if_pos (show AdjT t s k from ⟨hne, a, b⟩)]
        · rename_i a b; rw [if_neg (show ¬ AdjT t s k from fun h => b h.2.2)]
      · rename_i a; rw [if_neg (show ¬ AdjT t s k from fun h => a h.2.1), Nat.zero_mul]

/-- The buffers of rank `s` for rank `k`: one if they are neighbours. -/
theorem buffers_sticky {t : Topo} {buf : Nat} (h : Sticky t buf) {s : Nat} (hs : s < t.size) :
    ∃ bs, t.buffers s buf = some bs ∧ ∀ k, k < t.size → bs.filter (fun b => b.1 = k) = if AdjT t s k then [(k, rngTo t buf s k)] else [] := by
  have hnn : ∀ n ∈ t.neighbors s, n.rank < t.size ∧ n.c = t.coords n.rank := fun n hn =>
    ⟨((C35_neighbors_partial h.ok (fun _ hp => by rw [h.per] at hp; cases hp) hs _).1 ⟨n, hn, rfl⟩).1, neighbors_coord h.ok hn⟩
  rcases sticky_nd h with ⟨n1, hy, hz, py, pz⟩ | ⟨n1, hy, hz, pz⟩
  · unfold Topo.buffers
    simp only [n1, if_true]
    refine ⟨_, rfl, fun k hk => ?_⟩
    rw [List.filter_map]
    have e := withSeen_filter (f := fun n => (n.c.sub (t.coords s)).1) (g := fun n => flip1 (n.c.sub (t.coords s)).1)
      (fun r => ((t.coords r).sub (t.coords s)).1) (fun r => flip1 ((t.coords r).sub (t.coords s)).1) k (t.neighbors s)
      (fun n hn => by rw [(hnn n hn).2]) (fun n hn => by rw [(hnn n hn).2]) []
    rw [if_neg (by simp), count_sticky h hs hk] at e
    have e' : List.filter ((fun b : Nat × Rng => decide (b.1 = k)) ∘ fun e : Nat × Int => (e.1, bufferBounds 1 (t.bounds s) buf e.2 0 0))
        (withSeen (fun n => (n.c.sub (t.coords s)).1) (fun n => flip1 (n.c.sub (t.coords s)).1) [] (t.neighbors s)) =
        List.filter (fun e => decide (e.1 = k)) (withSeen (fun n => (n.c.sub (t.coords s)).1) (fun n => flip1 (n.c.sub (t.coords s)).1) [] (t.neighbors s)) := rfl
    rw [e', e]
    split
    · rename_i heq
      split at heq
      · cases heq
      · rename_i hn; rw [if_neg hn]; rfl
    · rename_i m heq
      split at heq
      · rename_i hn
        obtain rfl : m = 0 := by omega
        rw [if_pos hn]
        simp only [List.replicate, List.map_cons, List.map_nil, rngTo, n1, Coord.sub]
        rfl
      · cases heq
  · unfold Topo.buffers
    have hlen : ∀ k, ((t.neighbors s).map (·.rank)).count k ≠ 0 → fixedFor t (t.coords s) (t.neighbors s) k = [(((t.coords k).x : Int) - (t.coords s).x, ((t.coords k).y : Int) - (t.coords s).y)] := by
      intro k hc
      have hk : k < t.size := by
        obtain ⟨n, hn, rfl⟩ := List.mem_map.1 (List.count_pos_iff.1 (Nat.pos_of_ne_zero hc))
        exact (hnn n hn).1
      have hone : ((t.neighbors s).map (·.rank)).count k = 1 := by
        rw [count_sticky h hs hk] at hc ⊢
        split
        · rfl
        · rename_i hh; rw [if_neg hh] at hc; exact absurd rfl hc
      unfold fixedFor
      cases hf : (t.neighbors s).find? (fun n => decide (n.rank = k)) with
      | none =>
        exfalso
        obtain ⟨n, hn, e⟩ := List.mem_map.1 (List.count_pos_iff.1 (Nat.pos_of_ne_zero hc))
        have := List.find?_eq_none.1 hf n hn
        simp only [decide_eq_true_eq] at this
        exact this e
      | some n =>
        have h1 := List.find?_some hf
        have h2 := List.mem_of_find?_eq_some hf
        simp only [decide_eq_true_eq] at h1
        simp only [hone, fixedOffsets, (hnn n h2).2, h1, Coord.sub]
    obtain ⟨l, e1, e2⟩ := nextOffsets_filter (fixedFor t (t.coords s) (t.neighbors s)) (t.neighbors s) [] (fun k => by
      by_cases hc : ((t.neighbors s).map (·.rank)).count k = 0
      · exact .inr hc
      · left
        rw [hlen k hc]
        have hk : k < t.size := by
          obtain ⟨n, hn, rfl⟩ := List.mem_map.1 (List.count_pos_iff.1 (Nat.pos_of_ne_zero hc))
          exact (hnn n hn).1
        rw [count_sticky h hs hk] at hc ⊢
        split
        · rfl
        · rename_i hh; rw [if_neg hh] at hc; exact absurd rfl hc)
    simp only [n1, if_neg (by omega : ¬ 2 = 1), if_true, e1]
    refine ⟨_, rfl, fun k hk => ?_⟩
    rw [List.filter_map]
    have e' : List.filter ((fun b : Nat × Rng => decide (b.1 = k)) ∘ fun e : Nat × Int × Int => (e.1, bufferBounds 2 (t.bounds s) buf e.2.1 e.2.2 0)) l =
        List.filter (fun e => decide (e.1 = k)) l := rfl
    have hl := hlen k
    rw [e', e2 k]
    rw [count_sticky h hs hk] at hl ⊢
    by_cases ha : AdjT t s k
    · rw [if_pos ha] at hl ⊢
      rw [if_neg (by omega), hl (by omega), if_pos ha]
      simp [rngTo, n1]
    · rw [if_neg ha, if_pos rfl, if_neg ha]; rfl

/-! ### The buffered bounds -/

/-- The second dimension of the buffered range of `k`; a layer of one dimension has one row. -/
def ylo (t : Topo) (buf k : Nat) : Int := if t.nd = 1 then 0 else loB t.box.yext t.py (t.coords k).y buf
def yhi (t : Topo) (buf k : Nat) : Int := if t.nd = 1 then 1 else hiB t.box.yext t.py (t.coords k).y buf
def xlo (t : Topo) (buf k : Nat) : Int := loB t.box.xext t.px (t.coords k).x buf
def xhi (t : Topo) (buf k : Nat) : Int := hiB t.box.xext t.px (t.coords k).x buf

theorem sticky_le {t : Topo} {buf : Nat} (h : Sticky t buf) : (t.px : Int) ≤ t.box.xext := by
  have h1 := h.buf.1.1
  have h2 := h.buf1
  have : (t.px : Int) ≤ buf * t.px := by
    have : t.px ≤ buf * t.px := Nat.le_mul_of_pos_left _ h2
    exact_mod_cast this
  omega

theorem bufBox_sticky {t : Topo} {buf : Nat} (h : Sticky t buf) {k : Nat} (hk : k < t.size) :
    bufBox t buf k = { xmin := xlo t buf k, xext := xhi t buf k - xlo t buf k, ymin := ylo t buf k, yext := if t.nd = 1 then 0 else yhi t buf k - ylo t buf k,
                       zmin := 0, zext := 0 } := by
  obtain ⟨kx, ky, kz⟩ := coords_lt h.ok hk
  have hsize : 1 < t.size := by
    unfold Topo.size
    have : 2 * 1 * 1 ≤ t.px * t.py * t.pz := Nat.mul_le_mul (Nat.mul_le_mul h.px h.ok.py) h.ok.pz
    omega
  have hx := bounds_x h.ok k
  rw [h.x0] at hx
  have e1 := bufDimX_eq (buf := buf) h.px (sticky_le h) kx
  unfold bufBox xlo xhi ylo yhi
  rcases sticky_nd h with ⟨n1, hy, hz, py, pz⟩ | ⟨n1, hy, hz, pz⟩
  · simp only [if_pos hsize, h.per, Bool.false_eq_true, if_false, hy, if_neg (Int.lt_irrefl 0), n1, if_true, h.x0, hx.1, hx.2, e1]
  · have hb := bounds_y h.ok (by omega) k
    rw [h.y0] at hb
    have e2 := bufDimY_eq (buf := buf) h.ok.py (h.fits.1 (by omega)) ky
    simp only [if_pos hsize, h.per, Bool.false_eq_true, if_false, hy, if_true, n1, if_neg (by omega : ¬ 2 = 1), h.x0, h.y0, hx.1, hx.2, hb.1, hb.2, e1, e2]

/-- The ranges sent from `s` to `k`. -/
def sx (t : Topo) (buf s k : Nat) : Int × Int :=
  sideRange (cut 0 t.box.xext t.px (t.coords s).x) (cut 0 t.box.xext t.px ((t.coords s).x + 1)) buf (((t.coords k).x : Int) - (t.coords s).x)
def sy (t : Topo) (buf s k : Nat) : Int × Int :=
  if t.nd = 1 then (0, 1) else sideRange (cut 0 t.box.yext t.py (t.coords s).y) (cut 0 t.box.yext t.py ((t.coords s).y + 1)) buf (((t.coords k).y : Int) - (t.coords s).y)

theorem meta_sticky {t : Topo} {buf : Nat} (h : Sticky t buf) (s k : Nat) : metaOf t.nd (rngTo t buf s k) =
    { h := (sy t buf s k).2 - (sy t buf s k).1, w := (sx t buf s k).2 - (sx t buf s k).1, y0 := (sy t buf s k).1, x0 := (sx t buf s k).1 } := by
  have hx := bounds_x h.ok s
  have ex : (t.bounds s).xmax = cut t.box.xmin t.box.xext t.px ((t.coords s).x + 1) := by unfold Box.xmax; omega
  rw [h.x0] at hx ex
  unfold metaOf rngTo bufferBounds sx sy
  rcases sticky_nd h with ⟨n1, hy, hz, py, pz⟩ | ⟨n1, hy, hz, pz⟩
  · simp only [n1, if_true, hx.1, ex]
    rfl
  · have hb := bounds_y h.ok (by omega) s
    have ey : (t.bounds s).ymax = cut t.box.ymin t.box.yext t.py ((t.coords s).y + 1) := by unfold Box.ymax; omega
    rw [h.y0] at hb ey
    simp only [n1, if_neg (by omega : ¬ 2 = 1), if_pos (by omega : 1 < 2), hx.1, ex, hb.1, ey]

theorem side_in {G : Int} {p c c' buf : Nat} (hp : 0 < p) (hG : 0 ≤ G) (hb : (buf : Int) * p ≤ G) (h1 : 1 ≤ buf) (hc : c < p) (hc' : c' < p)
    (ha : c' = c ∨ c' = c + 1 ∨ c = c' + 1) {o : Int} (ho : o = (c' : Int) - c) :
    (sideRange (cut 0 G p c) (cut 0 G p (c + 1)) buf o).1 < (sideRange (cut 0 G p c) (cut 0 G p (c + 1)) buf o).2 ∧
    loB G p c' buf ≤ (sideRange (cut 0 G p c) (cut 0 G p (c + 1)) buf o).1 ∧ (sideRange (cut 0 G p c) (cut 0 G p (c + 1)) buf o).2 ≤ hiB G p c' buf ∧
    loB G p c buf ≤ (sideRange (cut 0 G p c) (cut 0 G p (c + 1)) buf o).1 ∧ (sideRange (cut 0 G p c) (cut 0 G p (c + 1)) buf o).2 ≤ hiB G p c buf := by
  have hlt := side_lt (c := c) hp hb h1 o
  subst ho
  generalize hr : sideRange (cut 0 G p c) (cut 0 G p (c + 1)) buf ((c' : Int) - c) = r at *
  have key : ∀ v, r.1 ≤ v ∧ v < r.2 → loB G p c' buf ≤ v ∧ v < hiB G p c' buf ∧ loB G p c buf ≤ v ∧ v < hiB G p c buf := by
    intro v hv
    obtain ⟨i1, i2, i3⟩ := (side_iff hp hG hb hc hc' v).1 ⟨ha, by unfold InSide; rw [hr]; exact hv⟩
    refine ⟨i2, i3, ?_⟩
    refine ((side_iff hp hG hb hc hc v).1 ⟨.inl rfl, ?_⟩).2
    unfold InSide sideRange
    rw [if_neg (by omega), if_neg (by omega)]
    exact i1
  have k1 := key r.1 ⟨by omega, by omega⟩
  have k2 := key (r.2 - 1) ⟨by omega, by omega⟩
  omega

theorem x_in {t : Topo} {buf : Nat} (h : Sticky t buf) {s k : Nat} (hs : s < t.size) (hk : k < t.size) (ha : AdjT t s k) :
    (sx t buf s k).1 < (sx t buf s k).2 ∧ xlo t buf k ≤ (sx t buf s k).1 ∧ (sx t buf s k).2 ≤ xhi t buf k ∧
    xlo t buf s ≤ (sx t buf s k).1 ∧ (sx t buf s k).2 ≤ xhi t buf s :=
  side_in h.ok.px (Int.le_of_lt h.ok.box.x) h.buf.1.1 h.buf1 (coords_lt h.ok hs).1 (coords_lt h.ok hk).1 ha.2.1 rfl

theorem y_in {t : Topo} {buf : Nat} (h : Sticky t buf) {s k : Nat} (hs : s < t.size) (hk : k < t.size) (ha : AdjT t s k) :
    (sy t buf s k).1 < (sy t buf s k).2 ∧ ylo t buf k ≤ (sy t buf s k).1 ∧ (sy t buf s k).2 ≤ yhi t buf k ∧
    ylo t buf s ≤ (sy t buf s k).1 ∧ (sy t buf s k).2 ≤ yhi t buf s := by
  unfold sy ylo yhi
  rcases sticky_nd h with ⟨n1, hy, hz, py, pz⟩ | ⟨n1, hy, hz, pz⟩
  · simp [n1]
  · simp only [n1, if_neg (by omega : ¬ 2 = 1)]
    exact side_in h.ok.py (Int.le_of_lt hy) (h.buf.2.1 hy).1 h.buf1 (coords_lt h.ok hs).2.1 (coords_lt h.ok hk).2.1 ha.2.2 rfl

theorem xlo_range {t : Topo} {buf : Nat} (h : Sticky t buf) {k : Nat} (hk : k < t.size) : 0 ≤ xlo t buf k ∧ xhi t buf k ≤ t.box.xext :=
  loB_range h.ok.px (Int.le_of_lt h.ok.box.x) h.buf.1.1 (coords_lt h.ok hk).1

theorem ylo_range {t : Topo} {buf : Nat} (h : Sticky t buf) {k : Nat} (hk : k < t.size) : 0 ≤ ylo t buf k ∧ (t.nd = 2 → yhi t buf k ≤ t.box.yext) ∧
    (t.py = 1 → ylo t buf k = 0) := by
  unfold ylo yhi
  obtain ⟨kx, ky, kz⟩ := coords_lt h.ok hk
  rcases sticky_nd h with ⟨n1, hy, hz, py, pz⟩ | ⟨n1, hy, hz, pz⟩
  · simp [n1]
  · simp only [n1, if_neg (by omega : ¬ 2 = 1)]
    have := loB_range h.ok.py (Int.le_of_lt hy) (h.buf.2.1 hy).1 ky
    refine ⟨this.1, fun _ => this.2, fun e => ?_⟩
    unfold loB
    rw [if_neg (by omega)]

/-- What the layers have in common. -/
structure Dims {V : Type} (t : Topo) (buf k : Nat) (l : Layer V) : Prop where
  nx : l.ten.nx = (xhi t buf k - xlo t buf k).toNat
  ny : l.ten.ny = (yhi t buf k - ylo t buf k).toNat
  tx : l.ptTr.x = - xlo t buf k
  ty : l.ptTr.y = - ylo t buf k

theorem xlo_lt {t : Topo} {buf : Nat} (h : Sticky t buf) {k : Nat} (hk : k < t.size) : xlo t buf k < xhi t buf k := by
  obtain ⟨kx, ky, kz⟩ := coords_lt h.ok hk
  have hG := Int.le_of_lt h.ok.box.x
  have e1 := dim_pos (gmin := 0) (c := (t.coords k).x) h.ok.px (sticky_le h)
  have e2 := (side_iff (buf := buf) h.ok.px hG h.buf.1.1 kx kx (cut 0 t.box.xext t.px (t.coords k).x)).1 ⟨.inl rfl, by
    unfold InSide sideRange
    rw [if_neg (by omega), if_neg (by omega)]
    simp only; omega⟩
  unfold xlo xhi
  omega

theorem ylo_lt {t : Topo} {buf : Nat} (h : Sticky t buf) {k : Nat} (hk : k < t.size) : ylo t buf k < yhi t buf k := by
  obtain ⟨kx, ky, kz⟩ := coords_lt h.ok hk
  unfold ylo yhi
  rcases sticky_nd h with ⟨n1, hy, hz, py, pz⟩ | ⟨n1, hy, hz, pz⟩
  · simp [n1]
  · simp only [n1, if_neg (by omega : ¬ 2 = 1)]
    have hG := Int.le_of_lt hy
    have e1 := dim_pos (gmin := 0) (c := (t.coords k).y) h.ok.py (h.fits.1 (by omega))
    have e2 := (side_iff (buf := buf) h.ok.py hG (h.buf.2.1 hy).1 ky ky (cut 0 t.box.yext t.py (t.coords k).y)).1 ⟨.inl rfl, by
      unfold InSide sideRange
      rw [if_neg (by omega), if_neg (by omega)]
      simp only; omega⟩
    omega

theorem dims_of {V : Type} {t : Topo} {buf : Nat} (h : Sticky t buf) {k : Nat} (hk : k < t.size) {l : Layer V} (hl : Static (bufBox t buf k) false l) :
    Dims t buf k l := by
  have hb := bufBox_sticky h hk
  have h1 := hl.nx
  have h2 := hl.ny
  have h3 := hl.pt
  have hlt := ylo_lt h hk
  rw [hb] at h1 h2 h3
  unfold trOf at h3
  rcases sticky_nd h with ⟨n1, hy, hz, py, pz⟩ | ⟨n1, hy, hz, pz⟩
  · simp only [n1, if_true] at h1 h2 h3
    refine ⟨h1, ?_, by rw [h3]; simp, by rw [h3]; simp [ylo, n1]⟩
    rw [h2]; simp [ylo, yhi, n1]
  · simp only [n1, if_neg (by omega : ¬ 2 = 1)] at h1 h2 h3
    rw [if_neg (by omega)] at h2
    simp only [if_neg (by omega : ¬ yhi t buf k - ylo t buf k = 0)] at h3
    exact ⟨h1, h2, by rw [h3]; simp, by rw [h3]; simp⟩

/-! ### Slices -/

theorem norm_eq {N i : Int} (h : 0 ≤ i ∧ i ≤ N) : norm N.toNat i = i.toNat := by
  unfold norm
  rw [if_neg (by omega)]
  omega

theorem length_read {V : Type} (t : Ten V) (r : Rect) : (t.read r).length = r.h * r.w := by simp [Ten.read]

theorem write_read {V : Type} (m a : Ten V) {rc rs : Rect} (hw : rs.w = rc.w) (hh : rs.h = rc.h) (k j i : Nat) :
    (m.write rc (a.read rs)).at_ k j i =
      if rc.r0 ≤ j ∧ j < rc.r1 ∧ rc.c0 ≤ i ∧ i < rc.c1 then a.at_ 0 (rs.r0 + (j - rc.r0)) (rs.c0 + (i - rc.c0)) else m.at_ k j i := by
  unfold Ten.write
  simp only
  split
  · rename_i hin
    obtain ⟨h1, h2, h3, h4⟩ := hin
    have hw' : i - rc.c0 < rc.w := by unfold Rect.w; omega
    have hh' : j - rc.r0 < rc.h := by unfold Rect.h; omega
    have hlt : (j - rc.r0) * rc.w + (i - rc.c0) < rs.h * rs.w := by
      rw [hw, hh]
      have : (j - rc.r0 + 1) * rc.w ≤ rc.h * rc.w := Nat.mul_le_mul_right _ hh'
      rw [Nat.add_mul] at this
      omega
    have hpos : 0 < rc.w := by omega
    rw [List.getD_eq_getElem?_getD, Ten.read, List.getElem?_map, List.getElem?_range hlt]
    simp only [Option.map_some, Option.getD_some, hw]
    rw [Nat.mul_comm, Nat.mul_add_div hpos, Nat.div_eq_of_lt hw', Nat.mul_add_mod, Nat.mod_eq_of_lt hw', Nat.add_zero]
  · rfl

/-- The slice of a range in the tensor of rank `k`. -/
def slice (t : Topo) (buf k : Nat) (x y : Int × Int) : Rect :=
  { r0 := (y.1 - ylo t buf k).toNat, r1 := (y.2 - ylo t buf k).toNat, c0 := (x.1 - xlo t buf k).toNat, c1 := (x.2 - xlo t buf k).toNat }

theorem rectOf_slice {V : Type} {t : Topo} {buf k : Nat} {l : Layer V} (hd : Dims t buf k l) {x y : Int × Int}
    (hx : x.1 < x.2 ∧ xlo t buf k ≤ x.1 ∧ x.2 ≤ xhi t buf k) (hy : y.1 < y.2 ∧ ylo t buf k ≤ y.1 ∧ y.2 ≤ yhi t buf k)
    {r0 r1 c0 c1 : Int} (e0 : r0 = y.1 - ylo t buf k) (e1 : r1 = y.2 - ylo t buf k) (e2 : c0 = x.1 - xlo t buf k) (e3 : c1 = x.2 - xlo t buf k) :
    rectOf l.ten r0 r1 c0 c1 = slice t buf k x y := by
  subst e0 e1 e2 e3
  unfold rectOf slice
  rw [hd.nx, hd.ny, norm_eq (by omega), norm_eq (by omega), norm_eq (by omega), norm_eq (by omega)]

theorem slice_size {t : Topo} {buf k : Nat} {x y : Int × Int}
    (hx : x.1 < x.2 ∧ xlo t buf k ≤ x.1) (hy : y.1 < y.2 ∧ ylo t buf k ≤ y.1) :
    ((slice t buf k x y).h : Int) = y.2 - y.1 ∧ ((slice t buf k x y).w : Int) = x.2 - x.1 := by
  unfold slice Rect.h Rect.w
  simp only
  omega

theorem sendRect_sticky {V : Type} {t : Topo} {buf : Nat} (h : Sticky t buf) {s k : Nat} (hs : s < t.size) (hk : k < t.size) (ha : AdjT t s k)
    {l : Layer V} (hd : Dims t buf s l) : sendRect t.nd l (metaOf t.nd (rngTo t buf s k)) = slice t buf s (sx t buf s k) (sy t buf s k) := by
  have hx := x_in h hs hk ha
  have hy := y_in h hs hk ha
  rw [meta_sticky h]
  unfold sendRect
  have ex := hd.tx
  have ey := hd.ty
  split
  · rename_i n1
    refine rectOf_slice hd (by omega) (by omega) ?_ ?_ ?_ ?_
    · simp [sy, ylo, n1]
    · simp [sy, ylo, n1]
    · simp only; omega
    · simp only; omega
  · refine rectOf_slice hd (by omega) (by omega) ?_ ?_ ?_ ?_ <;> simp only <;> omega

theorem wrapStart_eq {buf : Nat} {v full loc : Int} {p : Nat} (h : 1 < p → 0 ≤ v ∧ v < full) : wrapStart false buf v full loc p = v := by
  unfold wrapStart
  split
  · rename_i hp
    have := h hp
    rw [if_neg (by omega), if_neg (by omega)]
  · simp

theorem recvRect_sticky {V : Type} {t : Topo} {buf : Nat} (h : Sticky t buf) {s k : Nat} (hs : s < t.size) (hk : k < t.size) (ha : AdjT t s k)
    {l : Layer V} (hd : Dims t buf k l) (i : Nat) : recvRect t buf k l i (metaOf t.nd (rngTo t buf s k)) = slice t buf k (sx t buf s k) (sy t buf s k) := by
  have hx := x_in h hs hk ha
  have hy := y_in h hs hk ha
  have hxr := xlo_range h hk
  have hyr := ylo_range h hk
  have ex := hd.tx
  have ey := hd.ty
  have hpx := h.px
  have e1 : rts t l.ptTr.y i = - ylo t buf k := by
    unfold rts
    split
    · rename_i hh; rw [hyr.2.2 hh.2.1]; rfl
    · exact ey
  have e2 : cts t l.ptTr.x i = - xlo t buf k := by
    unfold cts
    rw [if_neg (by omega)]; exact ex
  rw [meta_sticky h]
  unfold recvRect
  simp only [h.per]
  split
  · rename_i n1
    rw [wrapStart_eq (fun _ => by omega)]
    refine rectOf_slice hd (by omega) (by omega) ?_ ?_ ?_ ?_
    · simp [sy, ylo, n1]
    · simp [sy, ylo, n1]
    · omega
    · omega
  · rename_i n1
    have n2 : t.nd = 2 := by have := sticky_nd h; omega
    have := hyr.2.1 n2
    rw [e1, e2, wrapStart_eq (fun _ => by omega), wrapStart_eq (fun _ => by omega)]
    refine rectOf_slice hd (by omega) (by omega) ?_ ?_ ?_ ?_ <;> omega

/-! ### The values received -/

/-- The location is in the buffered range of `k`. -/
def InBuf (t : Topo) (buf k : Nat) (q : Pt) : Prop :=
  (xlo t buf k ≤ q.x ∧ q.x < xhi t buf k) ∧ (t.nd = 2 → ylo t buf k ≤ q.y ∧ q.y < yhi t buf k)

/-- The value of a location in the tensor of rank `k`. -/
def vAt {V : Type} (t : Topo) (buf k : Nat) (m : Ten V) (q : Pt) : V :=
  m.at_ 0 (if t.nd = 1 then 0 else (q.y - ylo t buf k).toNat) (q.x - xlo t buf k).toNat

/-- The location belongs to rank `r`. -/
def Owns (t : Topo) (r : Nat) (q : Pt) : Prop := r < t.size ∧ (t.bounds r).contains q = true

theorem owns_iff {t : Topo} {buf : Nat} (h : Sticky t buf) (r : Nat) (q : Pt) : (t.bounds r).contains q = true ↔
    InDim 0 t.box.xext t.px (t.coords r).x q.x ∧ (t.nd = 2 → InDim 0 t.box.yext t.py (t.coords r).y q.y) := by
  rw [bounds_contains h.ok h.fits, h.x0, h.y0]
  rcases sticky_nd h with ⟨n1, hy, hz, py, pz⟩ | ⟨n1, hy, hz, pz⟩
  · simp [n1, hy, hz]
  · simp [n1, hy, hz]

theorem owns_unique {t : Topo} {buf : Nat} (h : Sticky t buf) {r r' : Nat} {q : Pt} (h1 : Owns t r q) (h2 : Owns t r' q) : r' = r := by
  obtain ⟨c1, c2⟩ := C33_partition_partial h.ok h.fits q
  obtain ⟨r0, -, -, u⟩ := c1 (c2 r h1.1 h1.2)
  rw [u r h1.1 h1.2, u r' h2.1 h2.2]

/-- Of the locations in the buffered range of `k`, those in the range sent by `s` are those of `s`. -/
theorem sent_iff {t : Topo} {buf : Nat} (h : Sticky t buf) {s k : Nat} (hs : s < t.size) (hk : k < t.size) {q : Pt} (hq : InBuf t buf k q) :
    (AdjT t s k ∧ ((sx t buf s k).1 ≤ q.x ∧ q.x < (sx t buf s k).2) ∧ (t.nd = 2 → (sy t buf s k).1 ≤ q.y ∧ q.y < (sy t buf s k).2)) ↔
    Owns t s q ∧ s ≠ k := by
  obtain ⟨lx, ly, lz⟩ := coords_lt h.ok hs
  obtain ⟨kx, ky, kz⟩ := coords_lt h.ok hk
  have X := side_iff (buf := buf) h.ok.px (Int.le_of_lt h.ok.box.x) h.buf.1.1 lx kx q.x
  unfold InSide at X
  constructor
  · rintro ⟨ha, i1, i2⟩
    refine ⟨⟨hs, (owns_iff h s q).2 ⟨(X.1 ⟨ha.2.1, i1⟩).1, fun n2 => ?_⟩⟩, ha.1⟩
    have hy : 0 < t.box.yext := by have := sticky_nd h; omega
    have Y := side_iff (buf := buf) h.ok.py (Int.le_of_lt hy) (h.buf.2.1 hy).1 ly ky q.y
    have i2 := i2 n2
    unfold sy at i2
    rw [if_neg (by omega)] at i2
    exact (Y.1 ⟨ha.2.2, i2⟩).1
  · rintro ⟨ho, hne⟩
    obtain ⟨o1, o2⟩ := (owns_iff h s q).1 ho.2
    obtain ⟨x1, x2⟩ := X.2 ⟨o1, hq.1⟩
    rcases sticky_nd h with ⟨n1, hy, hz, py, pz⟩ | ⟨n1, hy, hz, pz⟩
    · exact ⟨⟨hne, x1, .inl (by omega)⟩, x2, fun n2 => by omega⟩
    · have Y := side_iff (buf := buf) h.ok.py (Int.le_of_lt hy) (h.buf.2.1 hy).1 ly ky q.y
      have hq2 := hq.2 n1
      unfold ylo yhi at hq2
      rw [if_neg (by omega), if_neg (by omega)] at hq2
      obtain ⟨y1, y2⟩ := Y.2 ⟨o2 n1, hq2⟩
      refine ⟨⟨hne, x1, y1⟩, x2, fun _ => ?_⟩
      unfold sy
      rw [if_neg (by omega)]
      exact y2

theorem step_sticky {V : Type} {t : Topo} {buf : Nat} (h : Sticky t buf) {w : Nat → Layer V} (hw : ∀ k, k < t.size → Static (bufBox t buf k) false (w k))
    (junk : Nat → V) {s k : Nat} (hs : s < t.size) (hk : k < t.size) (m : Ten V) :
    ∃ msg m', sent t buf (w s) junk s k = some msg ∧ store t buf k (w k) msg.2 0 (msg.1.takeWhile fun e => e.first t.nd ≠ 0) m = some m' ∧
      (m'.nx = m.nx ∧ m'.ny = m.ny ∧ m'.nz = m.nz) ∧
      ∀ q, InBuf t buf k q → (Owns t s q ∧ s ≠ k → vAt t buf k m' q = vAt t buf s (w s).ten q) ∧ (¬ (Owns t s q ∧ s ≠ k) → vAt t buf k m' q = vAt t buf k m q) := by
  obtain ⟨bs, hbs, hfil⟩ := buffers_sticky h hs
  have ds := dims_of h hs (hw s hs)
  have dk := dims_of h hk (hw k hk)
  by_cases ha : AdjT t s k
  · have hx := x_in h hs hk ha
    have hy := y_in h hs hk ha
    have hsz := slice_size (t := t) (buf := buf) (k := s) (x := sx t buf s k) (y := sy t buf s k) (by omega) (by omega)
    have hkz := slice_size (t := t) (buf := buf) (k := k) (x := sx t buf s k) (y := sy t buf s k) (by omega) (by omega)
    have hroom : 1 ≤ room t := by unfold room; repeat' split
                                  all_goals omega
    have hmsz : (metaOf t.nd (rngTo t buf s k)).size = (slice t buf s (sx t buf s k) (sy t buf s k)).h * (slice t buf s (sx t buf s k) (sy t buf s k)).w := by
      rw [meta_sticky h]
      unfold Meta.size
      simp only
      rw [← hsz.1, ← hsz.2]
      rw [← Int.natCast_mul]; rfl
    refine ⟨([metaOf t.nd (rngTo t buf s k)], (w s).ten.read (slice t buf s (sx t buf s k) (sy t buf s k))),
      m.write (slice t buf k (sx t buf s k) (sy t buf s k)) ((w s).ten.read (slice t buf s (sx t buf s k) (sy t buf s k))), ?_, ?_, ⟨rfl, rfl, rfl⟩, ?_⟩
    · unfold sent
      simp only [hbs, hfil k hk, if_pos ha, Option.bind_eq_bind, Option.bind_some, List.map_cons, List.map_nil, List.length_cons, List.length_nil]
      rw [if_neg (by omega)]
      simp only [allSome, sendRect_sticky h hs hk ha ds, hmsz, if_true, Option.bind_eq_bind, Option.bind_some, Option.pure_def]
      congr 2
      unfold fill
      simp only [List.foldl_cons, List.foldl_nil, List.sum_cons, List.sum_nil, Nat.add_zero]
      rw [List.drop_eq_nil_of_le (by simp [length_read]), List.append_nil]
    · have hfirst : (metaOf t.nd (rngTo t buf s k)).first t.nd ≠ 0 := by
        rw [meta_sticky h]
        unfold Meta.first
        split
        · simp only; omega
        · simp only; omega
      rw [List.takeWhile_cons_of_pos (by simp [hfirst]), List.takeWhile_nil]
      unfold store
      simp only [recvRect_sticky h hs hk ha dk]
      rw [if_pos (by rw [meta_sticky h]; exact ⟨hkz.1, hkz.2⟩)]
      unfold store
      rw [List.take_of_length_le (by rw [length_read, hmsz]; exact Nat.le_refl _)]
    · intro q hq
      have hiff := sent_iff h hs hk hq
      have hwr := write_read m (w s).ten (rc := slice t buf k (sx t buf s k) (sy t buf s k)) (rs := slice t buf s (sx t buf s k) (sy t buf s k))
        (by omega) (by omega) 0 (if t.nd = 1 then 0 else (q.y - ylo t buf k).toNat) (q.x - xlo t buf k).toNat
      have hin : ((slice t buf k (sx t buf s k) (sy t buf s k)).r0 ≤ (if t.nd = 1 then 0 else (q.y - ylo t buf k).toNat) ∧
          (if t.nd = 1 then 0 else (q.y - ylo t buf k).toNat) < (slice t buf k (sx t buf s k) (sy t buf s k)).r1 ∧
          (slice t buf k (sx t buf s k) (sy t buf s k)).c0 ≤ (q.x - xlo t buf k).toNat ∧
          (q.x - xlo t buf k).toNat < (slice t buf k (sx t buf s k) (sy t buf s k)).c1) ↔ (Owns t s q ∧ s ≠ k) := by
        rw [← hiff]
        unfold slice
        have hq1 := hq.1
        rcases sticky_nd h with ⟨n1, -, -, -, -⟩ | ⟨n1, -, -, -⟩
        · have hsy : sy t buf s k = (0, 1) := by simp [sy, n1]
          have hyl : ylo t buf k = 0 := by simp [ylo, n1]
          simp only [n1, if_true, hsy, hyl]
          constructor
          · rintro ⟨a, b, c, d⟩; exact ⟨ha, by omega, by omega⟩
          · rintro ⟨a, b, c⟩; omega
        · have hq2 := hq.2 n1
          simp only [n1, if_neg (by omega : ¬ 2 = 1), forall_const]
          constructor
          · rintro ⟨a, b, c, d⟩; exact ⟨ha, by omega, by omega⟩
          · rintro ⟨a, b, c⟩; omega
      unfold vAt
      constructor
      · intro ho
        rw [hwr, if_pos (hin.2 ho)]
        have hi := hin.2 ho
        unfold slice at hi ⊢
        simp only at hi ⊢
        have hq1 := hq.1
        congr 1
        · split at hi
          · rename_i n1
            have hsy : sy t buf s k = (0, 1) := by simp [sy, n1]
            have hyl : ∀ k, ylo t buf k = 0 := by simp [ylo, n1]
            rw [if_pos n1, if_pos n1, hsy, hyl s, hyl k]; rfl
          · rename_i n1
            rw [if_neg n1, if_neg n1]
            have hq2 := hq.2 (by have := sticky_nd h; omega)
            omega
        · omega
      · intro ho
        rw [hwr, if_neg (fun hh => ho (hin.1 hh))]
  · refine ⟨([], []), m, ?_, ?_, ⟨rfl, rfl, rfl⟩, fun q hq => ⟨fun ho => absurd ((sent_iff h hs hk hq).2 ho).1 ha, fun _ => rfl⟩⟩
    · unfold sent
      simp [hbs, hfil k hk, if_neg ha, allSome, fill]
    · rfl

theorem receive_sticky {V : Type} {t : Topo} {buf : Nat} (h : Sticky t buf) {w : Nat → Layer V} (hw : ∀ k, k < t.size → Static (bufBox t buf k) false (w k))
    (junk : Nat → Nat → Nat → V) {k : Nat} (hk : k < t.size) (L : List Nat) (hL : ∀ s ∈ L, s < t.size) (m : Ten V) :
    ∃ m', receive t buf w junk k L m = some m' ∧ (m'.nx = m.nx ∧ m'.ny = m.ny ∧ m'.nz = m.nz) ∧
      ∀ q r, InBuf t buf k q → Owns t r q → vAt t buf k m' q = if r ∈ L ∧ r ≠ k then vAt t buf r (w r).ten q else vAt t buf k m q := by
  induction L generalizing m with
  | nil => exact ⟨m, rfl, ⟨rfl, rfl, rfl⟩, fun q r _ _ => by simp⟩
  | cons s L ih =>
    obtain ⟨msg, m1, e1, e2, e3, e4⟩ := step_sticky h hw (junk s k) (hL s (by simp)) hk m
    obtain ⟨m2, f1, f2, f3⟩ := ih (fun s hs => hL s (List.mem_cons_of_mem _ hs)) m1
    refine ⟨m2, ?_, by omega, fun q r hq ho => ?_⟩
    · unfold receive
      simp only [e1, e2, f1, Option.bind_eq_bind, Option.bind_some]
    · rw [f3 q r hq ho]
      by_cases hrk : r = k
      · rw [if_neg (fun h => h.2 hrk), if_neg (fun h => h.2 hrk)]
        refine (e4 q hq).2 fun hh => hh.2 ?_
        rw [← hrk]; exact owns_unique h ho hh.1
      · by_cases hrs : r = s
        · subst hrs
          rw [if_pos (show r ∈ r :: L ∧ r ≠ k from ⟨by simp, hrk⟩)]
          split
          · rfl
          · exact (e4 q hq).1 ⟨ho, hrk⟩
        · have e : vAt t buf k m1 q = vAt t buf k m q := (e4 q hq).2 fun hh => hrs (owns_unique h hh.1 ho)
          simp only [List.mem_cons, hrs, false_or, e]

/-- Every rank has a neighbour. -/
theorem buffers_ne {t : Topo} {buf : Nat} (h : Sticky t buf) {k : Nat} (hk : k < t.size) : ∃ bs, t.buffers k buf = some bs ∧ bs ≠ [] := by
  obtain ⟨bs, e1, e2⟩ := buffers_sticky h hk
  obtain ⟨kx, ky, kz⟩ := coords_lt h.ok hk
  refine ⟨bs, e1, ?_⟩
  have hpx := h.px
  -- a process next to `k` in the first dimension
  let x' := if (t.coords k).x = 0 then 1 else (t.coords k).x - 1
  have hx' : x' < t.px ∧ x' ≠ (t.coords k).x ∧ (x' = (t.coords k).x + 1 ∨ (t.coords k).x = x' + 1) := by
    simp only [x']; split <;> omega
  have hc := coords_rankOf (t := t) (c := ⟨x', (t.coords k).y, (t.coords k).z⟩) ky kz
  have hlt := rankOf_lt (t := t) (c := ⟨x', (t.coords k).y, (t.coords k).z⟩) hx'.1 ky kz
  have := e2 _ hlt
  rw [if_pos] at this
  · rintro rfl
    simp at this
  · refine ⟨fun e => ?_, ?_, ?_⟩
    · have := congrArg Coord.x hc
      rw [← e] at this
      exact hx'.2.1 this.symm
    · rw [hc]; exact .inr hx'.2.2
    · rw [hc]; exact .inl rfl

theorem synchRank_sticky {V : Type} {t : Topo} {buf : Nat} (h : Sticky t buf) {w : Nat → Layer V} (hw : ∀ k, k < t.size → Static (bufBox t buf k) false (w k))
    (junk : Nat → Nat → Nat → V) {k : Nat} (hk : k < t.size) :
    ∃ m', synchRank t buf w junk k = some m' ∧ (m'.nx = (w k).ten.nx ∧ m'.ny = (w k).ten.ny ∧ m'.nz = (w k).ten.nz) ∧
      ∀ q r, InBuf t buf k q → Owns t r q → vAt t buf k m' q = vAt t buf r (w r).ten q := by
  obtain ⟨bs, b1, b2⟩ := buffers_ne h hk
  obtain ⟨m', e1, e2, e3⟩ := receive_sticky h hw junk hk (List.range t.size) (by simp) (w k).ten
  refine ⟨m', ?_, e2, fun q r hq ho => ?_⟩
  · unfold synchRank
    simp only [b1, e1, if_neg b2, Option.bind_eq_bind, Option.bind_some]
    unfold bufferSelf
    rw [h.per]; rfl
  · rw [e3 q r hq ho]
    by_cases hrk : r = k
    · subst hrk; rw [if_neg (by simp)]
    · rw [if_pos ⟨List.mem_range.2 ho.1, hrk⟩]

/-! ### From tensors to `get` -/

theorem box_sticky {t : Topo} {buf : Nat} (h : Sticky t buf) {k : Nat} (hk : k < t.size) : (bufBox t buf k).Ok := by
  have h1 := xlo_lt h hk
  have h2 := ylo_lt h hk
  rw [bufBox_sticky h hk]
  refine ⟨?_, ?_, ?_, ?_⟩
  · simp only; omega
  · simp only; split <;> omega
  · simp only; omega
  · intro hh; simp only at hh; omega

theorem get_val {V : Type} {b : Box} (hb : b.Ok) {periodic : Bool} {l : Layer V} (hl : Static b periodic l) {q : Pt} (hq : InBounds b q) :
    (l.get q).2 = .val (valAt b l.ten.at_ q) := by
  have := (Holds.get hb (l := l) (m := fun p => valAt b l.ten.at_ p) ⟨hl, fun p _ _ _ => rfl⟩ q).2
  rw [this]
  congr 1
  obtain ⟨h1, h2, h3⟩ := hq
  unfold valAt place
  simp only
  rw [place1_inside h1]
  congr 1
  · split
    · rename_i hh; rw [place1_inside (h3 hh)]
    · rfl
  · split
    · rename_i hh; rw [place1_inside (h2 hh)]
    · rfl

theorem get_sticky {V : Type} {t : Topo} {buf : Nat} (h : Sticky t buf) {k : Nat} (hk : k < t.size) {l : Layer V} (hl : Static (bufBox t buf k) false l)
    {q : Pt} (hq : InBuf t buf k q) : (l.get q).2 = .val (vAt t buf k l.ten q) := by
  have hb := bufBox_sticky h hk
  have h1 := xlo_lt h hk
  have h2 := ylo_lt h hk
  have hq1 := hq.1
  have hin : InBounds (bufBox t buf k) q := by
    rw [hb]
    refine ⟨⟨by simp only; omega, by simp only; omega⟩, fun hh => ?_, fun hh => by simp only at hh; omega⟩
    simp only at hh ⊢
    split at hh
    · omega
    · rename_i n1
      rw [if_neg n1]
      have hq2 := hq.2 (by have := sticky_nd h; omega)
      exact ⟨by omega, by omega⟩
  rw [get_val (box_sticky h hk) hl hin]
  congr 1
  unfold valAt vAt
  rw [hb]
  simp only
  congr 1
  by_cases n1 : t.nd = 1
  · simp [n1]
  · rw [if_neg n1, if_neg n1, if_pos (by omega)]

/-- A location within `buf` of the local bounds of `k` is in the buffered range. -/
theorem near_inBuf {t : Topo} {buf : Nat} (h : Sticky t buf) {k : Nat} (hk : k < t.size) {q : Pt} (hq : t.box.contains q = true) :
    Near t buf k q ↔ InBuf t buf k q := by
  obtain ⟨kx, ky, kz⟩ := coords_lt h.ok hk
  have hin := (contains_iff h.ok.box q).1 hq
  have hx := bounds_x h.ok k
  have h1 := hin.1
  rw [h.x0] at hx h1
  unfold Near InBuf
  rw [h.per, hx.1, hx.2, near1_B h1 h.ok.px kx]
  refine and_congr Iff.rfl ?_
  rcases sticky_nd h with ⟨n1, hy, hz, py, pz⟩ | ⟨n1, hy, hz, pz⟩
  · simp [n1, hy, hz]
  · have hb := bounds_y h.ok (by omega) k
    have h2 := hin.2.1 hy
    rw [h.y0] at hb h2
    simp only [n1, hy, hz, hb.1, hb.2, near1_B h2 h.ok.py ky, ylo, yhi, if_neg (by omega : ¬ 2 = 1), forall_const, Int.lt_irrefl, false_imp_iff, and_true]

/-! ### C40 -/

/-- Every rank sees, in its local bounds and within `buf` of them, what the owners of the locations see. `w` are the layers before, `w'` after. -/
def Mirrors {V : Type} (t : Topo) (buf : Nat) (w w' : Nat → Layer V) : Prop :=
  ∀ k q, k < t.size → t.box.contains q = true → Near t buf k q →
    ∃ r v, r < t.size ∧ (t.bounds r).contains q = true ∧ ((w r).get q).2 = .val v ∧ ((w' k).get q).2 = .val v

theorem owner_inBuf {t : Topo} {buf : Nat} (h : Sticky t buf) {r : Nat} {q : Pt} (ho : Owns t r q) : InBuf t buf r q := by
  obtain ⟨lx, ly, lz⟩ := coords_lt h.ok ho.1
  obtain ⟨o1, o2⟩ := (owns_iff h r q).1 ho.2
  have hid : ∀ {lo hi b v : Int}, lo ≤ v ∧ v < hi → InSide lo hi b (((0 : Nat) : Int)) v := by
    intro lo hi b v hv
    unfold InSide sideRange
    rw [if_neg (by omega), if_neg (by omega)]
    exact hv
  refine ⟨((side_iff (buf := buf) h.ok.px (Int.le_of_lt h.ok.box.x) h.buf.1.1 lx lx q.x).1 ⟨.inl rfl, ?_⟩).2, fun n2 => ?_⟩
  · rw [Int.sub_self]; exact hid o1
  · have hy : 0 < t.box.yext := by have := sticky_nd h; omega
    have := ((side_iff (buf := buf) h.ok.py (Int.le_of_lt hy) (h.buf.2.1 hy).1 ly ly q.y).1 ⟨.inl rfl, by rw [Int.sub_self]; exact hid (o2 n2)⟩).2
    unfold ylo yhi
    rw [if_neg (by omega), if_neg (by omega)]
    exact this

theorem synch_sticky {V : Type} {t : Topo} {buf : Nat} (h : Sticky t buf) {w : Nat → Layer V} (hw : ∀ k, k < t.size → Static (bufBox t buf k) false (w k))
    (junk : Nat → Nat → Nat → V) :
    ∃ w', synch t buf junk w = some w' ∧ (∀ k, k < t.size → Static (bufBox t buf k) false (w' k)) ∧ Mirrors t buf w w' := by
  have hall : ((List.range t.size).all fun k => (synchRank t buf w junk k).isSome) = true := by
    rw [List.all_eq_true]
    intro k hk
    obtain ⟨m', e, -⟩ := synchRank_sticky h hw junk (List.mem_range.1 hk)
    rw [e]; rfl
  have hst : ∀ k, k < t.size → Static (bufBox t buf k) false { w k with ten := (synchRank t buf w junk k).getD (w k).ten } := by
    intro k hk
    obtain ⟨m', e, ⟨e1, e2, e3⟩, -⟩ := synchRank_sticky h hw junk hk
    have hs := hw k hk
    refine ⟨hs.nd, hs.box, hs.per, ?_, ?_, ?_, hs.pt, hs.ngh⟩
    · rw [e]; exact e1.trans hs.nx
    · rw [e]; exact e2.trans hs.ny
    · rw [e]; exact e3.trans hs.nz
  have hsize : 1 < t.size := by
    unfold Topo.size
    have : 2 * 1 * 1 ≤ t.px * t.py * t.pz := Nat.mul_le_mul (Nat.mul_le_mul h.px h.ok.py) h.ok.pz
    omega
  refine ⟨_, by unfold synch; rw [if_neg (by omega), if_pos hall], hst, ?_⟩
  · intro k q hk hq hn
    obtain ⟨r, hr, hc, -⟩ := (C33_partition_partial h.ok h.fits q).1 hq
    have hin := (near_inBuf h hk hq).1 hn
    obtain ⟨m', e, -, e4⟩ := synchRank_sticky h hw junk hk
    refine ⟨r, vAt t buf r (w r).ten q, hr, hc, get_sticky h hr (hw r hr) (owner_inBuf h ⟨hr, hc⟩), ?_⟩
    rw [get_sticky h hk (hst k hk) hin, ← e4 q r hin ⟨hr, hc⟩]
    simp only [e, Option.getD_some]

/-! The constructor. -/

theorem write_replicate {V : Type} (m : Ten V) (rc : Rect) (v : V) {k j i : Nat} (hin : rc.r0 ≤ j ∧ j < rc.r1 ∧ rc.c0 ≤ i ∧ i < rc.c1) :
    (m.write rc (List.replicate (rc.h * rc.w) v)).at_ k j i = v := by
  unfold Ten.write
  simp only
  rw [if_pos hin]
  obtain ⟨h1, h2, h3, h4⟩ := hin
  have hw' : i - rc.c0 < rc.w := by unfold Rect.w; omega
  have hh' : j - rc.r0 < rc.h := by unfold Rect.h; omega
  have hlt : (j - rc.r0) * rc.w + (i - rc.c0) < rc.h * rc.w := by
    have : (j - rc.r0 + 1) * rc.w ≤ rc.h * rc.w := Nat.mul_le_mul_right _ hh'
    rw [Nat.add_mul] at this
    omega
  rw [List.getD_eq_getElem?_getD, List.getElem?_replicate, if_pos hlt]
  rfl

/-- The ranges of the local bounds. -/
def lx (t : Topo) (k : Nat) : Int × Int := (cut 0 t.box.xext t.px (t.coords k).x, cut 0 t.box.xext t.px ((t.coords k).x + 1))
def ly (t : Topo) (k : Nat) : Int × Int := if t.nd = 1 then (0, 1) else (cut 0 t.box.yext t.py (t.coords k).y, cut 0 t.box.yext t.py ((t.coords k).y + 1))

theorem local_in {t : Topo} {buf : Nat} (h : Sticky t buf) {k : Nat} (hk : k < t.size) :
    ((lx t k).1 < (lx t k).2 ∧ xlo t buf k ≤ (lx t k).1 ∧ (lx t k).2 ≤ xhi t buf k) ∧ ((ly t k).1 < (ly t k).2 ∧ ylo t buf k ≤ (ly t k).1 ∧ (ly t k).2 ≤ yhi t buf k) := by
  obtain ⟨kx, ky, kz⟩ := coords_lt h.ok hk
  have e : ∀ {lo hi : Int}, sideRange lo hi buf (((0 : Nat) : Int)) = (lo, hi) := by
    intro lo hi
    unfold sideRange
    rw [if_neg (by omega), if_neg (by omega)]
  have X := side_in (o := ((0 : Nat) : Int)) h.ok.px (Int.le_of_lt h.ok.box.x) h.buf.1.1 h.buf1 kx kx (.inl rfl) (by omega)
  rw [e] at X
  refine ⟨⟨X.1, X.2.1, X.2.2.1⟩, ?_⟩
  rcases sticky_nd h with ⟨n1, hy, hz, py, pz⟩ | ⟨n1, hy, hz, pz⟩
  · simp [ly, ylo, yhi, n1]
  · have Y := side_in (o := ((0 : Nat) : Int)) h.ok.py (Int.le_of_lt hy) (h.buf.2.1 hy).1 h.buf1 ky ky (.inl rfl) (by omega)
    rw [e] at Y
    simp only [ly, ylo, yhi, n1, if_neg (by omega : ¬ 2 = 1)]
    exact ⟨Y.1, Y.2.1, Y.2.2.1⟩

theorem construct_sticky {V : Type} {t : Topo} {buf : Nat} (h : Sticky t buf) (rand : Nat → Nat → Nat → V) (v : Option V) {k : Nat} (hk : k < t.size) :
    ∃ l, construct t buf rand v k = some l ∧ Static (bufBox t buf k) false l ∧
      ∀ x, v = some x → ∀ q, Owns t k q → vAt t buf k l.ten q = x := by
  have hs := (holds_new (bufBox t buf k) false rand).static
  have hd := dims_of h hk hs
  have hnd := h.nd
  have hself : ∀ m : Ten V, bufferSelf t buf k m = some m := by intro m; unfold bufferSelf; rw [h.per]; rfl
  have hp : ∀ p, patch t buf p = p := by intro p; unfold patch; rw [h.per]; rfl
  refine ⟨initValue t k v (Layer.new (bufBox t buf k) false rand), ?_, ?_, ?_⟩
  · unfold construct
    simp only [if_neg (by omega : ¬ t.nd = 3), hself, hp, h.per, Option.map_some]
  · unfold initValue
    cases v with
    | none => exact hs
    | some v => exact ⟨hs.nd, hs.box, hs.per, hs.nx, hs.ny, hs.nz, hs.pt, hs.ngh⟩
  · rintro x rfl q ho
    obtain ⟨o1, o2⟩ := (owns_iff h k q).1 ho.2
    obtain ⟨i1, i2⟩ := local_in h hk
    have hx := bounds_x h.ok k
    rw [h.x0] at hx
    have hrc : (if t.nd = 1 then rectOf (Layer.new (bufBox t buf k) false rand).ten 0 1 ((t.bounds k).xmin + (Layer.new (bufBox t buf k) false rand).ptTr.x)
          ((t.bounds k).xmin + (t.bounds k).xext + (Layer.new (bufBox t buf k) false rand).ptTr.x)
        else rectOf (Layer.new (bufBox t buf k) false rand).ten ((t.bounds k).ymin + (Layer.new (bufBox t buf k) false rand).ptTr.y)
          ((t.bounds k).ymin + (t.bounds k).yext + (Layer.new (bufBox t buf k) false rand).ptTr.y) ((t.bounds k).xmin + (Layer.new (bufBox t buf k) false rand).ptTr.x)
          ((t.bounds k).xmin + (t.bounds k).xext + (Layer.new (bufBox t buf k) false rand).ptTr.x)) = slice t buf k (lx t k) (ly t k) := by
      have ex := hd.tx
      have ey := hd.ty
      split
      · rename_i n1
        refine rectOf_slice hd i1 i2 ?_ ?_ ?_ ?_
        · simp [ly, ylo, n1]
        · simp [ly, ylo, n1]
        · unfold lx; simp only; omega
        · unfold lx; simp only; omega
      · rename_i n1
        have n2 : t.nd = 2 := by have := sticky_nd h; omega
        have hb := bounds_y h.ok (by omega) k
        rw [h.y0] at hb
        refine rectOf_slice hd i1 i2 ?_ ?_ ?_ ?_
        · unfold ly; rw [if_neg n1]; simp only; omega
        · unfold ly; rw [if_neg n1]; simp only; omega
        · unfold lx; simp only; omega
        · unfold lx; simp only; omega
    unfold vAt initValue
    simp only
    rw [hrc]
    apply write_replicate
    unfold InDim at o1 o2
    have i3 := i1
    unfold lx at i3
    simp only at i3
    unfold slice
    simp only
    by_cases n1 : t.nd = 1
    · simp only [lx, ly, ylo, n1, if_true]
      omega
    · have n2 : t.nd = 2 := by have := sticky_nd h; omega
      have o2 := o2 n2
      rw [if_neg n1]
      unfold ly at i2
      rw [if_neg n1] at i2
      simp only at i2
      simp only [lx, ly, if_neg n1]
      omega

/-- C40 (what is missing: periodic borders, an origin other than 0, and process grids with one process in the first dimension, see the violations
below): a new layer is created without error, and every location of a layer with an initial value, local or within `buf` of the local bounds, has
that value on every rank; a layer with random values has the owner's values. -/
theorem C40_create_partial {V : Type} {t : Topo} {buf : Nat} (h : Sticky t buf) (junk : Nat → Nat → Nat → V) (rand : Nat → Nat → Nat → Nat → V) (v : Option V) :
    ∃ w, create t buf junk rand v = some w ∧ Mirrors t buf w w ∧
      ∀ x, v = some x → ∀ k q, k < t.size → t.box.contains q = true → Near t buf k q → ((w k).get q).2 = .val x := by
  have hsize : 1 < t.size := by
    unfold Topo.size
    have : 2 * 1 * 1 ≤ t.px * t.py * t.pz := Nat.mul_le_mul (Nat.mul_le_mul h.px h.ok.py) h.ok.pz
    omega
  have hall : ((List.range t.size).all fun k => (construct t buf (rand k) v k).isSome) = true := by
    rw [List.all_eq_true]
    intro k hk
    obtain ⟨m', e, -⟩ := construct_sticky h (rand k) v (List.mem_range.1 hk)
    rw [e]; rfl
  let w0 := fun k => (construct t buf (rand k) v k).getD (Layer.new (bufBox t buf k) t.periodic (rand k))
  have hw0 : ∀ k, k < t.size → Static (bufBox t buf k) false (w0 k) ∧ ∀ x, v = some x → ∀ q, Owns t k q → vAt t buf k (w0 k).ten q = x := by
    intro k hk
    obtain ⟨l, e, e1, e2⟩ := construct_sticky h (rand k) v hk
    simp only [w0, e, Option.getD_some]
    exact ⟨e1, e2⟩
  obtain ⟨w, e1, e2, e3⟩ := synch_sticky h (fun k hk => (hw0 k hk).1) junk
  have hold : ∀ k q, Owns t k q → ((w0 k).get q).2 = ((w k).get q).2 := by
    intro k q ho
    have hq := (C33_partition_partial h.ok h.fits q).2 k ho.1 ho.2
    obtain ⟨r, x, hr, hc, g1, g2⟩ := e3 k q ho.1 hq ((near_inBuf h ho.1 hq).2 (owner_inBuf h ho))
    obtain rfl := owns_unique h ho ⟨hr, hc⟩
    rw [g1, g2]
  refine ⟨w, ?_, ?_, ?_⟩
  · unfold create
    rw [if_pos hall, if_pos hsize]
    exact e1
  · intro k q hk hq hn
    obtain ⟨r, x, hr, hc, g1, g2⟩ := e3 k q hk hq hn
    exact ⟨r, x, hr, hc, by rw [← hold r q ⟨hr, hc⟩]; exact g1, g2⟩
  · intro x hx k q hk hq hn
    obtain ⟨r, y, hr, hc, g1, g2⟩ := e3 k q hk hq hn
    rw [get_sticky h hr (hw0 r hr).1 (owner_inBuf h ⟨hr, hc⟩), (hw0 r hr).2 x hx q ⟨hr, hc⟩] at g1
    rw [g2, ← g1]

theorem create_static {V : Type} {t : Topo} {buf : Nat} (h : Sticky t buf) (junk : Nat → Nat → Nat → V) (rand : Nat → Nat → Nat → Nat → V) (v : Option V)
    {w : Nat → Layer V} (hw : create t buf junk rand v = some w) : ∀ k, k < t.size → Static (bufBox t buf k) false (w k) := by
  unfold create at hw
  split at hw
  · have hw0 : ∀ k, k < t.size → Static (bufBox t buf k) false ((construct t buf (rand k) v k).getD (Layer.new (bufBox t buf k) t.periodic (rand k))) := by
      intro k hk
      obtain ⟨l, e, e1, e2⟩ := construct_sticky h (rand k) v hk
      rw [e]; exact e1
    simp only at hw
    split at hw
    · obtain ⟨w', e1, e2, e3⟩ := synch_sticky h hw0 junk
      rw [e1] at hw
      cases hw
      exact e2
    · cases hw; exact hw0
  · cases hw

theorem srun_static {V : Type} {t : Topo} {buf : Nat} (h : Sticky t buf) (ops : List (SOp V × (Nat → Nat → Nat → V))) {w : Nat → Layer V}
    (hw : ∀ k, k < t.size → Static (bufBox t buf k) false (w k)) :
    ∃ w', srun t buf w ops = some w' ∧ ∀ k, k < t.size → Static (bufBox t buf k) false (w' k) := by
  induction ops generalizing w with
  | nil => exact ⟨w, rfl, hw⟩
  | cons o ops ih =>
    obtain ⟨o, junk⟩ := o
    cases o with
    | call r o =>
      refine ih (w := upd w r ((w r).step o).1) fun k hk => ?_
      unfold upd
      split
      · rename_i e
        subst e
        exact (Holds.step (box_sticky h hk) (m := fun p => valAt (bufBox t buf k) (w k).ten.at_ p) ⟨hw k hk, fun p _ _ _ => rfl⟩ o).1.static
      · exact hw k hk
    | synch =>
      obtain ⟨w', e1, e2, e3⟩ := synch_sticky h hw junk
      obtain ⟨w'', f1, f2⟩ := ih e2
      refine ⟨w'', ?_, f2⟩
      unfold srun
      simp only [e1, Option.bind_eq_bind, Option.bind_some]
      exact f1

/-- C40 (what is missing: see `C40_create_partial`): after any calls on the layers of any ranks and synchronizations, none of which fails, a synchronization makes `get` on
every rank return, for every location in the rank's local bounds and within `buf` of them, the value `get` returned on the owner of the location before
the synchronization. `junk` is what the send buffers hold before they are filled. -/
theorem C40_mirror_partial {V : Type} {t : Topo} {buf : Nat} (h : Sticky t buf) (junk0 junk : Nat → Nat → Nat → V) (rand : Nat → Nat → Nat → Nat → V) (v : Option V)
    (ops : List (SOp V × (Nat → Nat → Nat → V))) :
    ∃ w0 w w', create t buf junk0 rand v = some w0 ∧ srun t buf w0 ops = some w ∧ synch t buf junk w = some w' ∧ Mirrors t buf w w' := by
  obtain ⟨w0, e0, -⟩ := C40_create_partial h junk0 rand v
  obtain ⟨w, e1, e2⟩ := srun_static h ops (create_static h junk0 rand v e0)
  obtain ⟨w', f1, f2, f3⟩ := synch_sticky h e2 junk
  exact ⟨w0, w, w', e0, e1, f1, f3⟩

/-! Examples and violations. -/

/-- A 10 by 7 layer on 3 by 2 processes. -/
def exT : Topo := { nd := 2, px := 3, py := 2, pz := 1, periodic := false, box := ⟨0, 10, 0, 7, 0, 0⟩ }

example : Sticky exT 2 ∧ Near exT 2 0 ⟨5, 5, 0⟩ ∧ (exT.bounds 3).contains ⟨5, 5, 0⟩ = true :=
  ⟨⟨⟨⟨by decide, by decide, by decide, by decide⟩, by decide, by decide, by decide, by decide, by decide, by decide⟩, ⟨by decide, by decide⟩, rfl, by decide, by decide, rfl, rfl,
    by decide, ⟨⟨by decide, by decide⟩, fun _ => ⟨by decide, by decide⟩, fun h => absurd h (by decide)⟩⟩,
   ⟨⟨0, fun _ => rfl, by decide⟩, fun _ => ⟨0, fun _ => rfl, by decide⟩, fun h => absurd h (by decide)⟩, by decide⟩

/-- The grid after creation and synchronization of a layer of integers in which each rank has set its own locations: `f r` is what rank `r` writes. -/
def demo (t : Topo) (buf : Nat) (f : Nat → Pt → Int) (pts : List Pt) : Option (Nat → Layer Int) := do
  let w ← create t buf (fun _ _ _ => -7) (fun _ _ _ _ => -1) (some 0)
  let ops := (List.range t.size).flatMap fun r => (pts.filter (fun p => (t.bounds r).contains p)).map fun p => (SOp.call r (.set p (f r p)), fun _ _ _ => (-7 : Int))
  let w ← srun t buf w ops
  synch t buf (fun _ _ _ => -7) w

/-- What `get(p)` returns on rank `k`. -/
def look (w : Option (Nat → Layer Int)) (k : Nat) (p : Pt) : Option (Res Int) := w.map fun w => ((w k).get p).2

def row (n : Nat) : List Pt := (List.range n).map fun i : Nat => ⟨(i : Int), 0, 0⟩
def plane (n m : Nat) : List Pt := (List.range m).flatMap fun j : Nat => (List.range n).map fun i : Nat => ⟨(i : Int), (j : Int), 0⟩

example : look (demo exT 2 (fun _ p => 10 * p.y + p.x) (plane 10 7)) 0 ⟨5, 5, 0⟩ = some (.val 55) := by decide +kernel

def exT1 (px : Nat) (periodic : Bool) (xmin n : Int) : Topo := { nd := 1, px := px, py := 1, pz := 1, periodic := periodic, box := ⟨xmin, n, 0, 0, 0, 0⟩ }
def exT2 (px py : Nat) (n m : Int) : Topo := { nd := 2, px := px, py := py, pz := 1, periodic := true, box := ⟨0, n, 0, m, 0, 0⟩ }

/-- C40 is violated by periodic layers of one dimension: `get` and `set` do not use the corrected translation on rank 0. Three processes, nine locations, each rank sets
every location `p` it owns to `p`, and the layers are synchronized: rank 0 then finds the value 8 at its own location 0, and rank 2, next to location 0, finds 1 there. -/
theorem C40_violation_periodic1 : look (demo (exT1 3 true 0 9) 1 (fun _ p => p.x) (row 9)) 0 ⟨0, 0, 0⟩ = some (.val 8) ∧
    look (demo (exT1 3 true 0 9) 1 (fun _ p => p.x) (row 9)) 2 ⟨9, 0, 0⟩ = some (.val 1) := by decide +kernel

/-- C40 is violated on a single process: the synchronization of any layer fails, with sticky borders as well. -/
theorem C40_violation_single {V : Type} (t : Topo) (h : t.size = 1) (buf : Nat) (junk : Nat → Nat → Nat → V) (w : Nat → Layer V) : synch t buf junk w = none := by
  unfold synch
  rw [if_pos (by omega)]

/-- A periodic layer of one dimension cannot be created on a single process. -/
theorem C40_violation_single_periodic {V : Type} (n : Int) (buf : Nat) (junk : Nat → Nat → Nat → V) (rand : Nat → Nat → Nat → Nat → V) (v : Option V) :
    create (exT1 1 true 0 n) buf junk rand v = none := by
  have : construct (exT1 1 true 0 n) buf (rand 0) v 0 = none := by
    unfold construct bufferSelf bufferSelfX
    rfl
  unfold create
  rw [if_neg]
  intro h
  rw [List.all_eq_true] at h
  have h := h 0 (List.mem_range.2 Nat.one_pos)
  rw [this] at h
  cases h

/-- C40 is violated by periodic layers with two processes in a dimension: the two buffers for a rank overwrite each other in the send buffer. Two processes, a 4 by 4
layer, location (x, y) holds `10 * y + x`: rank 0 finds the value of location (3, 0) in its buffer at (2, 0). -/
theorem C40_violation_two : look (demo (exT2 2 1 4 4) 1 (fun _ p => 10 * p.y + p.x) (plane 4 4)) 0 ⟨2, 0, 0⟩ = some (.val 3) := by decide +kernel

/-- C40 is violated by periodic layers in two dimensions on the first rank: the buffer holds the values, but `get` reads others. 3 by 3 processes, a 9 by 9
layer: rank 0 finds the value of (3, 0) at (8, 0), which is next to its location (0, 0), and an error at (4, 0). -/
theorem C40_violation_first : look (demo (exT2 3 3 9 9) 1 (fun _ p => 10 * p.y + p.x) (plane 9 9)) 0 ⟨8, 0, 0⟩ = some (.val 3) ∧
    look (demo (exT2 3 3 9 9) 1 (fun _ p => 10 * p.y + p.x) (plane 9 9)) 0 ⟨4, 0, 0⟩ = some .error := by decide +kernel

/-- C40 is violated by layers with an origin other than 0, which cannot be created even with sticky borders. -/
theorem C40_violation_origin : demo (exT1 2 false 5 6) 1 (fun _ p => p.x) [] = none := Option.isNone_iff_eq_none.1 (by decide +kernel)

/-- `get` of a location that is neither local nor in the buffer is not an error: it returns the value of another location. Two processes, six locations: rank 0 finds the
value of location 3 at location 5. -/
theorem C40_far : look (demo (exT1 2 false 0 6) 1 (fun _ p => p.x) (row 6)) 0 ⟨5, 0, 0⟩ = some (.val 3) := by decide +kernel

end Repast.ValueLayer
