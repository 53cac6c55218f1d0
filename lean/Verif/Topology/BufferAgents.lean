import Verif.Topology.BufferMain

namespace Repast.Topology
open Repast.Space

theorem pyRange_mem {a b v : Int} : v ∈ pyRange a b ↔ a ≤ v ∧ v < b := by
  unfold pyRange
  simp only [List.mem_map, List.mem_range]
  constructor
  · rintro ⟨i, hi, rfl⟩; omega
  · rintro ⟨h1, h2⟩; exact ⟨(v - a).toNat, by omega, by omega⟩

theorem pyRange_nodup (a b : Int) : (pyRange a b).Nodup := by
  unfold pyRange
  refine List.Pairwise.map _ (fun i j h e => h ?_) List.nodup_range
  omega

theorem nodup_flatMap {α β : Type} {l : List α} {f : α → List β} (hl : l.Nodup) (hf : ∀ a ∈ l, (f a).Nodup)
    (hd : ∀ a ∈ l, ∀ b ∈ l, a ≠ b → ∀ x, x ∈ f a → x ∉ f b) : (l.flatMap f).Nodup := by
  induction l with
  | nil => simp
  | cons a l ih =>
    rw [List.flatMap_cons, List.nodup_append]
    rw [List.nodup_cons] at hl
    refine ⟨hf a (by simp), ih hl.2 (fun b hb => hf b (List.mem_cons_of_mem _ hb)) (fun b hb c hc => hd b (List.mem_cons_of_mem _ hb) c (List.mem_cons_of_mem _ hc)), ?_⟩
    intro x hx y hy e
    subst e
    obtain ⟨b, hb, hxb⟩ := List.mem_flatMap.1 hy
    exact hd a (by simp) b (List.mem_cons_of_mem _ hb) (by rintro rfl; exact hl.1 hb) x hx hxb

/-- The point has coordinate 0 in the dimensions the space does not have. -/
def FlatPt (nd : Nat) (p : Pt) : Prop := (nd = 1 → p.y = 0) ∧ (nd ≠ 3 → p.z = 0)

theorem gatherPts_mem {nd : Nat} (hnd : nd = 1 ∨ nd = 2 ∨ nd = 3) {g : Rng} {p : Pt} : p ∈ gatherPts nd g ↔ Hits nd p g ∧ FlatPt nd p := by
  obtain ⟨x, y, z⟩ := p
  unfold gatherPts Hits FlatPt
  rcases hnd with rfl | rfl | rfl
  · simp only [if_true, List.mem_map, pyRange_mem, Pt.mk.injEq]
    constructor
    · rintro ⟨v, hv, rfl, rfl, rfl⟩; simp; omega
    · rintro ⟨⟨h, -, -⟩, h1, h2⟩; exact ⟨x, h, rfl, (h1 (by simp)).symm, (h2 (by simp)).symm⟩
  · rw [if_neg (by omega), if_pos rfl]
    simp only [List.mem_flatMap, List.mem_map, pyRange_mem, Pt.mk.injEq]
    constructor
    · rintro ⟨v, hv, w, hw, rfl, rfl, rfl⟩; simp; omega
    · rintro ⟨⟨h, h', -⟩, -, h2⟩; exact ⟨x, h, y, h' (by omega), rfl, rfl, (h2 (by simp)).symm⟩
  · rw [if_neg (by omega), if_neg (by omega)]
    simp only [List.mem_flatMap, List.mem_map, pyRange_mem, Pt.mk.injEq]
    constructor
    · rintro ⟨v, hv, w, hw, u, hu, rfl, rfl, rfl⟩; simp; omega
    · rintro ⟨⟨h, h', h''⟩, -, -⟩; exact ⟨x, h, y, h' (by omega), z, h'' (by simp), rfl, rfl, rfl⟩

theorem gatherPts_nodup (nd : Nat) (g : Rng) : (gatherPts nd g).Nodup := by
  unfold gatherPts
  split
  · exact List.Pairwise.map _ (fun i j h e => h (by simpa using e)) (pyRange_nodup _ _)
  · split
    · refine nodup_flatMap (pyRange_nodup _ _) (fun x _ => List.Pairwise.map _ (fun i j h e => h (by simpa using e)) (pyRange_nodup _ _)) ?_
      intro a _ b _ hab q hq hq'
      obtain ⟨_, _, rfl⟩ := List.mem_map.1 hq
      obtain ⟨_, _, e⟩ := List.mem_map.1 hq'
      simp at e
      exact hab e.1.symm
    · refine nodup_flatMap (pyRange_nodup _ _) (fun x _ => nodup_flatMap (pyRange_nodup _ _) (fun x _ => List.Pairwise.map _ (fun i j h e => h (by simpa using e)) (pyRange_nodup _ _)) ?_) ?_
      · intro a _ b _ hab q hq hq'
        obtain ⟨_, _, rfl⟩ := List.mem_map.1 hq
        obtain ⟨_, _, e⟩ := List.mem_map.1 hq'
        simp at e
        exact hab e.1.symm
      · intro a _ b _ hab q hq hq'
        obtain ⟨_, _, hq⟩ := List.mem_flatMap.1 hq
        obtain ⟨_, _, rfl⟩ := List.mem_map.1 hq
        obtain ⟨_, _, hq'⟩ := List.mem_flatMap.1 hq'
        obtain ⟨_, _, e⟩ := List.mem_map.1 hq'
        simp at e
        exact hab e.1.symm

theorem count_gather (pts : List Pt) (loc : Pt → List Nat) (a : Nat) (p : Pt) :
    (pts.flatMap fun q => (loc q).map fun a => (a, q)).count (a, p) = pts.count p * (loc p).count a := by
  induction pts with
  | nil => simp
  | cons q qs ih =>
    rw [List.flatMap_cons, List.count_append, ih, List.count_cons, Nat.add_mul]
    by_cases e : q = p
    · subst e
      have : ((loc q).map fun a => (a, q)).count (a, q) = (loc q).count a := by
        rw [List.count, List.countP_map, List.count]
        apply List.countP_congr
        intro b _
        simp
      simp [this, Nat.add_comm]
    · have : ((loc q).map fun a => (a, q)).count (a, p) = 0 := by
        rw [List.count_eq_zero]
        intro hm
        obtain ⟨_, _, h⟩ := List.mem_map.1 hm
        simp at h
        exact e h.2
      simp [this, e]

theorem sendTo_count {nd : Nat} (hnd : nd = 1 ∨ nd = 2 ∨ nd = 3) (bs : List (Nat × Rng)) (loc : Pt → List Nat) (k a : Nat) {p : Pt} (hp : FlatPt nd p) :
    (sendTo nd bs loc k).count (a, p) = (bs.filter (fun b => b.1 = k)).countP (fun b => Hits nd p b.2) * (loc p).count a := by
  unfold sendTo
  induction bs.filter (fun b => b.1 = k) with
  | nil => simp
  | cons b bs ih =>
    rw [List.flatMap_cons, List.count_append, ih, count_gather, List.countP_cons, Nat.add_mul]
    have : (gatherPts nd b.2).count p = if Hits nd p b.2 then 1 else 0 := by
      split
      · rename_i hh
        have h1 := List.nodup_iff_count.1 (gatherPts_nodup nd b.2) p
        have h2 := List.count_pos_iff.2 ((gatherPts_mem hnd).2 ⟨hh, hp⟩)
        omega
      · rename_i hh
        exact List.count_eq_zero.2 (fun hm => hh ((gatherPts_mem hnd).1 hm).1)
    rw [this]
    simp [Nat.add_comm]

theorem nd_cases {t : Topo} (h : t.Ok) : t.nd = 1 ∨ t.nd = 2 ∨ t.nd = 3 := by
  rw [h.nd]; rcases numDims_cases h.box with hh | hh | hh <;> omega

/-- C36: the agents sent to a rank at a synchronization. Rank `r` sends an agent at the point `p` of its local bounds to another rank `k` exactly once if
`p` is within `buf` of the local bounds of `k` (around the edges if periodic), and otherwise not at all. `loc` is the occupancy of the space of
rank `r`. Missing (`_partial`): the periodic process grids excluded by `GoodGrid`, for which it is false (`C36_crash`, `C36_twice`, `C36_missing`);
buffers larger than the local bounds, or than half of them where two ranks meet on both sides of a periodic space
(`C36_overlap`); spaces with more processes than rows (`C33_violation`). -/
theorem C36_sent_partial {t : Topo} (h : t.Ok) (hf : t.Fits) (hg : GoodGrid t) {buf : Nat} (hb : BufFits t buf) {r k : Nat} (hr : r < t.size)
    (hk : k < t.size) (hne : k ≠ r) (loc : Pt → List Nat) {a : Nat} {p : Pt} (hp : (t.bounds r).contains p = true) (hfl : FlatPt t.nd p)
    (ha : (loc p).count a = 1) :
    ∃ bs, t.buffers r buf = some bs ∧ (Near t buf k p → (sendTo t.nd bs loc k).count (a, p) = 1) ∧ (¬ Near t buf k p → (a, p) ∉ sendTo t.nd bs loc k) := by
  obtain ⟨bs, h1, h2, h3⟩ := buffers_cover h hf hg hb hr hk hne hp
  refine ⟨bs, h1, ?_, ?_⟩
  · intro hn
    rw [sendTo_count (nd_cases h) _ _ _ _ hfl, h2 hn, ha]
  · intro hn
    rw [← List.count_eq_zero, sendTo_count (nd_cases h) _ _ _ _ hfl, h3 hn, ha]

theorem inSide_sub {lo hi buf o v : Int} (hb : buf ≤ hi - lo) (h : InSide lo hi buf o v) : lo ≤ v ∧ v < hi := by
  unfold InSide sideRange at h
  split at h
  · simp only [] at h; omega
  · split at h
    · simp only [] at h; omega
    · exact h

theorem dim_buf {gmin gext : Int} {p buf : Nat} (hp : 0 < p) (hb : (buf : Int) * p ≤ gext) (c : Nat) : (buf : Int) ≤ cut gmin gext p (c + 1) - cut gmin gext p c := by
  have h1 : 0 ≤ gext % p := Int.emod_nonneg _ (by omega)
  have h2 : (buf : Int) ≤ gext / p := by rw [Int.le_ediv_iff_mul_le (by omega)]; exact hb
  have h3 : gext / p * ((c + 1 : Nat) : Int) = gext / p * c + gext / p := by rw [Int.natCast_add, Int.mul_add]; simp
  unfold cut
  omega

theorem buffers_form {t : Topo} {r buf : Nat} {bs : List (Nat × Rng)} (h : t.buffers r buf = some bs) {b : Nat × Rng} (hb : b ∈ bs) :
    ∃ ox oy oz, b.2 = bufferBounds t.nd (t.bounds r) buf ox oy oz := by
  unfold Topo.buffers at h
  simp only [] at h
  split at h
  · cases h
    obtain ⟨e, _, rfl⟩ := List.mem_map.1 hb
    exact ⟨_, _, _, rfl⟩
  · split at h
    · obtain ⟨l, _, rfl⟩ := Option.map_eq_some_iff.1 h
      obtain ⟨e, _, rfl⟩ := List.mem_map.1 hb
      exact ⟨_, _, _, rfl⟩
    · cases h
      obtain ⟨e, _, rfl⟩ := List.mem_map.1 hb
      exact ⟨_, _, _, rfl⟩

/-- C36: a rank sends only agents located in its own local bounds (ghosts of other ranks are not passed on), with their locations. -/
theorem C36_only_local_partial {t : Topo} (h : t.Ok) (hf : t.Fits) {buf : Nat} (hb : BufFits t buf) {r : Nat} {bs : List (Nat × Rng)} (hbs : t.buffers r buf = some bs)
    (loc : Pt → List Nat) {k a : Nat} {p : Pt} (hm : (a, p) ∈ sendTo t.nd bs loc k) : a ∈ loc p ∧ (t.bounds r).contains p = true := by
  unfold sendTo at hm
  obtain ⟨b, hbm, hm⟩ := List.mem_flatMap.1 hm
  obtain ⟨q, hq, hm⟩ := List.mem_flatMap.1 hm
  obtain ⟨a', ha, e⟩ := List.mem_map.1 hm
  simp only [Prod.mk.injEq] at e
  obtain ⟨rfl, rfl⟩ := e
  refine ⟨ha, ?_⟩
  obtain ⟨ox, oy, oz, e⟩ := buffers_form hbs (List.mem_filter.1 hbm).1
  have hh := ((gatherPts_mem (nd_cases h)).1 hq).1
  rw [e, hits_iff h] at hh
  obtain ⟨h1, h2, h3⟩ := hh
  rw [bounds_contains h hf]
  have hnd := h.nd
  refine ⟨inSide_sub (dim_buf h.px hb.1.1 _) h1, fun hy => inSide_sub (dim_buf h.py (hb.2.1 hy).1 _) (h2 ?_), fun hz => inSide_sub (dim_buf h.pz (hb.2.2 hz).1 _) (h3 ?_)⟩
  · rcases numDims_cases h.box with hh | hh | hh <;> omega
  · rcases numDims_cases h.box with hh | hh | hh <;> omega

/-- The example topology with a buffer of 1 meets the hypotheses; an agent in the corner of rank 0 is near all of the other ranks, around the edges. -/
example : GoodGrid exTopo ∧ BufFits exTopo 1 := by
  unfold GoodGrid BufFits BufFits1 exTopo; simp

example : (exTopo.buffers 0 1).map (fun bs => [1, 2, 3, 4, 5].map fun k => sendTo 2 bs (fun p => if p = ⟨-4, 2, 0⟩ then [7] else []) k) =
    some [[(7, ⟨-4, 2, 0⟩)], [], [], [(7, ⟨-4, 2, 0⟩)], [(7, ⟨-4, 2, 0⟩)]] := by decide +kernel

/-- A periodic two dimensional space of `n` by `m` processes. -/
def grid2 (n m : Nat) : Topo := { nd := 2, px := n, py := m, pz := 1, periodic := true, box := ⟨0, 12, 0, 12, 0, 0⟩ }

/-- C36 is violated on a periodic two-dimensional space of three processes (which MPI arranges 3 by 1): the computation of the buffers reads beyond the
end of an empty vector. -/
theorem C36_crash : (grid2 3 1).Ok ∧ (grid2 3 1).Fits ∧ BufFits (grid2 3 1) 1 ∧ (grid2 3 1).buffers 0 1 = none :=
  ⟨⟨⟨by decide, by decide, by decide, by decide⟩, by decide, by decide, by decide, by decide, by decide, by decide⟩, by unfold Topo.Fits; decide, by unfold BufFits BufFits1; decide, by decide +kernel⟩

/-- C36 is violated on a periodic two-dimensional space of two processes: an agent in a corner is sent twice to the other rank. -/
theorem C36_twice : (grid2 2 1).Ok ∧ (grid2 2 1).Fits ∧ BufFits (grid2 2 1) 1 ∧ ((grid2 2 1).bounds 0).contains ⟨0, 0, 0⟩ = true ∧
    (((grid2 2 1).buffers 0 1).map fun bs => sendTo 2 bs (fun p => if p = ⟨0, 0, 0⟩ then [7] else []) 1) = some [(7, ⟨0, 0, 0⟩), (7, ⟨0, 0, 0⟩)] :=
  ⟨⟨⟨by decide, by decide, by decide, by decide⟩, by decide, by decide, by decide, by decide, by decide, by decide⟩, by unfold Topo.Fits; decide, by unfold BufFits BufFits1; decide, by decide, by decide +kernel⟩

/-- A periodic three dimensional space of 2 by 2 by 2 processes. -/
def grid3 : Topo := { nd := 3, px := 2, py := 2, pz := 2, periodic := true, box := ⟨0, 8, 0, 8, 0, 8⟩ }

/-- C36 is violated on a periodic three-dimensional space of eight processes: an agent of rank 0 within the buffer of rank 6 is not sent to it. -/
theorem C36_missing : grid3.Ok ∧ grid3.Fits ∧ BufFits grid3 1 ∧ (grid3.bounds 0).contains ⟨0, 3, 0⟩ = true ∧ Near grid3 1 6 ⟨0, 3, 0⟩ ∧
    (grid3.buffers 0 1).map (fun bs => sendTo 3 bs (fun p => if p = ⟨0, 3, 0⟩ then [7] else []) 6) = some [] :=
  ⟨⟨⟨by decide, by decide, by decide, by decide⟩, by decide, by decide, by decide, by decide, by decide, by decide⟩, by unfold Topo.Fits; decide,
    by unfold BufFits BufFits1; decide, by decide,
    ⟨⟨1, by decide, by decide, by decide⟩, fun _ => ⟨0, by decide, by decide, by decide⟩, fun _ => ⟨0, by decide, by decide, by decide⟩⟩,
    by decide +kernel⟩

/-- C36 is violated if the buffer is more than half of the local bounds and two ranks meet on both sides: an agent in the middle is sent twice. -/
theorem C36_overlap : ∃ t : Topo, t.Ok ∧ t.Fits ∧ GoodGrid t ∧ (3 : Int) * t.px ≤ t.box.xext ∧
    (t.buffers 0 3).map (fun bs => sendTo 1 bs (fun p => if p = ⟨2, 0, 0⟩ then [7] else []) 1) = some [(7, ⟨2, 0, 0⟩), (7, ⟨2, 0, 0⟩)] :=
  ⟨{ nd := 1, px := 2, py := 1, pz := 1, periodic := true, box := ⟨0, 10, 0, 0, 0, 0⟩ },
    ⟨⟨by decide, by decide, by decide, by decide⟩, by decide, by decide, by decide, by decide, by decide, by decide⟩, by unfold Topo.Fits; decide,
    by unfold GoodGrid; decide, by decide, by decide +kernel⟩

end Repast.Topology
