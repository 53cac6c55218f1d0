import Verif.Context.Sends
import Verif.Context.GridView

/-! Shared grids, with single or multiple occupancy, as a kind of shared space. -/
namespace Repast.Context
open Repast.Dict Repast.Space Repast.Topology

/-! ### Which ranks get buffers -/

theorem withSeen_ranks {β : Type} {f g : Ngh → β} : ∀ (ns : List Ngh) (seen : List Nat), ∀ b ∈ withSeen f g seen ns, ∃ n ∈ ns, n.rank = b.1 := by
  intro ns
  induction ns with
  | nil => intro seen b hb; simp [withSeen] at hb
  | cons n ns ih =>
    intro seen b hb
    simp only [withSeen, List.mem_cons] at hb
    rcases hb with rfl | hb
    · exact ⟨n, by simp, rfl⟩
    · obtain ⟨m, hm, e⟩ := ih _ b hb
      exact ⟨m, by simp [hm], e⟩

theorem nextOffsets_ranks {β : Type} {F : Nat → List β} : ∀ (ns : List Ngh) (seen : List Nat) (l : List (Nat × β)), nextOffsets F seen ns = some l →
    ∀ b ∈ l, ∃ n ∈ ns, n.rank = b.1 := by
  intro ns
  induction ns with
  | nil => intro seen l h b hb; simp [nextOffsets] at h; subst h; simp at hb
  | cons n ns ih =>
    intro seen l h b hb
    simp only [nextOffsets, Option.bind_eq_bind, Option.bind_eq_some_iff] at h
    obtain ⟨o, -, l', hl', h⟩ := h
    simp only [Option.pure_def, Option.some.injEq] at h
    subst h
    rcases List.mem_cons.1 hb with rfl | hb
    · exact ⟨n, by simp, rfl⟩
    · obtain ⟨m, hm, e⟩ := ih _ l' hl' b hb
      exact ⟨m, by simp [hm], e⟩

theorem buffers_ranks {t : Topo} {r buf : Nat} {bs : List (Nat × Rng)} (h : t.buffers r buf = some bs) {b : Nat × Rng} (hb : b ∈ bs) :
    ∃ n ∈ t.neighbors r, n.rank = b.1 := by
  unfold Topo.buffers at h
  simp only [] at h
  split at h
  · cases h
    obtain ⟨e, he, rfl⟩ := List.mem_map.1 hb
    exact withSeen_ranks _ _ e he
  · split at h
    · obtain ⟨l, hl, rfl⟩ := Option.map_eq_some_iff.1 h
      obtain ⟨e, he, rfl⟩ := List.mem_map.1 hb
      exact nextOffsets_ranks _ _ _ hl e he
    · cases h
      obtain ⟨e, he, rfl⟩ := List.mem_map.1 hb
      exact withSeen_ranks _ _ e he

theorem good_nd1 {t : Topo} (hg : GoodGrid t) : t.nd = 1 → t.periodic = true → 1 < t.px := fun h1 h2 => (hg h2).1 h1

theorem buffers_some {t : Topo} (h : t.Ok) (hf : t.Fits) (hg : GoodGrid t) {buf : Nat} (hb : BufFits t buf) (h0 : 0 < buf) {r : Nat} (hr : r < t.size) :
    ∃ bs, t.buffers r buf = some bs := by
  by_cases hs : t.size = 1
  · have hn : t.neighbors r = [] := by
      rw [List.eq_nil_iff_forall_not_mem]
      intro n hn
      obtain ⟨h1, h2, -⟩ := (C35_neighbors_partial h (good_nd1 hg) hr n.rank).1 ⟨n, hn, rfl⟩
      omega
    unfold Topo.buffers
    simp only [hn]
    split
    · exact ⟨_, rfl⟩
    · split
      · exact ⟨_, rfl⟩
      · exact ⟨_, rfl⟩
  · obtain ⟨k, hk, hne⟩ : ∃ k, k < t.size ∧ k ≠ r := by
      by_cases h1 : r = 0
      · exact ⟨1, by omega, by omega⟩
      · exact ⟨0, by omega, by omega⟩
    have hp : (t.bounds r).contains ⟨cut t.box.xmin t.box.xext t.px (t.coords r).x, cut t.box.ymin t.box.yext t.py (t.coords r).y, cut t.box.zmin t.box.zext t.pz (t.coords r).z⟩ = true := by
      rw [bounds_contains h hf]
      refine ⟨?_, fun hy => ?_, fun hz => ?_⟩
      · have := dim_buf (gmin := t.box.xmin) h.px hb.1.1 (t.coords r).x
        unfold InDim; simp only; omega
      · have := dim_buf (gmin := t.box.ymin) h.py (hb.2.1 hy).1 (t.coords r).y
        unfold InDim; simp only; omega
      · have := dim_buf (gmin := t.box.zmin) h.pz (hb.2.2 hz).1 (t.coords r).z
        unfold InDim; simp only; omega
    obtain ⟨bs, e, -⟩ := buffers_cover h hf hg hb hr hk hne hp
    exact ⟨bs, e⟩

/-- The grids for which this is right: a box with room for the processes, and, if there is a buffer, a process grid as in C36. -/
structure Setting (t : Topo) (buf : Nat) : Prop where
  ok : t.Ok
  fits : t.Fits
  flat : FlatBox t.box
  good : 0 < buf → GoodGrid t
  room : 0 < buf → BufFits t buf

/-- The geometry of a shared grid. With single occupancy the locations are exclusive. -/
def gridGeo (t : Topo) (single : Bool) (buf : Nat) : Geo Pt where
  n := t.size
  buf := buf
  dest := dest1 t
  valid q := t.box.contains q = true ∧ Flat t.box q
  inside r q := (t.bounds r).contains q
  owner := owner t
  near := Near t buf
  excl := single = true

theorem gridGeo_aim (t : Topo) (single : Bool) (buf r : Nat) (o : Option (Option Pt)) : (gridGeo t single buf).aim r o = aim t r o := by
  cases o with
  | none => rfl
  | some o => cases o <;> rfl

theorem grid_sends {t : Topo} {single : Bool} {buf r : Nat} {s : DSp} (hs : Setting t buf) (h0 : 0 < buf) (hr : r < t.size) (h : DOk t single r s)
    (hin : ∀ u q, s.base.agents u = some (some q) → (t.bounds r).contains q = true) :
    ∃ bs, t.buffers r buf = some bs ∧ (∀ k a p, k < t.size → ((a, p) ∈ sendTo t.nd bs s.base.loc k ↔ s.base.agents a = some (some p) ∧ k ≠ r ∧ Near t buf k p)) ∧
      ∀ k < t.size, (sendTo t.nd bs s.base.loc k).Nodup := by
  have ht := hs.ok
  have hf := hs.fits
  have hg := hs.good h0
  have hbf := hs.room h0
  obtain ⟨bs, hbs⟩ := buffers_some ht hf hg hbf h0 hr
  have hself : ∀ {k a p}, (a, p) ∈ sendTo t.nd bs s.base.loc k → k ≠ r := by
    intro k a p hm
    unfold sendTo at hm
    obtain ⟨b, hbm, -⟩ := List.mem_flatMap.1 hm
    obtain ⟨h1, h2⟩ := List.mem_filter.1 hbm
    obtain ⟨nb, hn1, hn2⟩ := buffers_ranks hbs h1
    have := ((C35_neighbors_partial ht (good_nd1 hg) hr nb.rank).1 ⟨nb, hn1, rfl⟩).2.1
    simp only [decide_eq_true_eq] at h2
    omega
  have hsent : ∀ {k a p}, k < t.size → k ≠ r → s.base.agents a = some (some p) →
      (Near t buf k p → (sendTo t.nd bs s.base.loc k).count (a, p) = 1) ∧ (¬ Near t buf k p → (a, p) ∉ sendTo t.nd bs s.base.loc k) := by
    intro k a p hk hne ha
    obtain ⟨bs', hb1, hb2, hb3⟩ := C36_sent_partial ht hf hg hbf hr hk hne s.base.loc (a := a) (hin _ _ ha) (flat_pt ht (h.pts _ _ ha).2) (by
      rw [h.occ.count, ha]; simp)
    rw [hbs] at hb1
    cases hb1
    exact ⟨hb2, hb3⟩
  have hmem : ∀ k a p, k < t.size → ((a, p) ∈ sendTo t.nd bs s.base.loc k ↔ s.base.agents a = some (some p) ∧ k ≠ r ∧ Near t buf k p) := by
    intro k a p hk
    constructor
    · intro hm
      have hne := hself hm
      obtain ⟨a1, a2⟩ := C36_only_local_partial ht hf hbf hbs _ hm
      have ha := h.occ.mem.1 a1
      refine ⟨ha, hne, ?_⟩
      apply Classical.byContradiction
      intro hn
      exact (hsent hk hne ha).2 hn hm
    · rintro ⟨ha, hne, hnr⟩
      exact List.count_pos_iff.1 (by rw [(hsent hk hne ha).1 hnr]; omega)
  refine ⟨bs, hbs, hmem, ?_⟩
  intro k hk
  rw [List.nodup_iff_count]
  rintro ⟨a, p⟩
  by_cases hm : (a, p) ∈ sendTo t.nd bs s.base.loc k
  · obtain ⟨ha, hne, hnr⟩ := (hmem k a p hk).1 hm
    exact Nat.le_of_eq ((hsent hk hne ha).1 hnr)
  · rw [List.count_eq_zero.2 hm]; omega

/-- Shared grids. -/
def gridKind {t : Topo} {buf : Nat} (hs : Setting t buf) (single : Bool) : Kind (gridGeo t single buf) GridSp where
  new := GCfg.new ⟨t, single, buf⟩
  Ok r g := g.cfg = ⟨t, single, buf⟩ ∧ DOk t single r g.st
  n_pos := Nat.mul_pos (Nat.mul_pos hs.ok.px hs.ok.py) hs.ok.pz
  owner_spec h := owner_spec hs.ok hs.fits h.1
  dest_valid q := dest1_spec hs.ok hs.flat q
  dest_id h := dest1_inside hs.ok hs.flat h.1 h.2
  new_ok r := ⟨rfl, DOk.empty t single r⟩
  new_at := rfl
  valid h e := h.2.pts _ _ e
  bufSize h := by
    rename_i r p
    show p.cfg.buf = buf
    rw [h.1]
  oob h u := by rw [gridGeo_aim]; exact h.2.oob u
  add := by
    rintro r ⟨cfg, st⟩ u ⟨rfl, h⟩ hu
    obtain ⟨a, b⟩ := h.add hu
    exact ⟨⟨rfl, a⟩, b⟩
  remove := by
    rintro r ⟨cfg, st⟩ ⟨rfl, h⟩ u
    obtain ⟨a, b⟩ := h.remove u
    exact ⟨⟨rfl, a⟩, b⟩
  move := by
    rintro r ⟨cfg, st⟩ u ⟨rfl, h⟩ hu q hf
    obtain ⟨a, b, c⟩ := h.move hs.ok hs.fits hs.flat hu q hf
    refine ⟨⟨⟨t, single, buf⟩, (dcall t single r st (.base (.move u q))).1⟩, ?_, ⟨rfl, b⟩, c⟩
    have hc : GridSp.call r ⟨⟨t, single, buf⟩, st⟩ (.base (.move u q)) = (⟨⟨t, single, buf⟩, (dcall t single r st (.base (.move u q))).1⟩, .loc (some (dest1 t q))) := by
      rw [← a]; rfl
    show (match GridSp.call r ⟨⟨t, single, buf⟩, st⟩ (.base (.move u q)) with | (_, .error) => none | (g, _) => some g) = _
    rw [hc]
  clear := by
    rintro r ⟨cfg, st⟩ ⟨rfl, h⟩ hn
    obtain ⟨a, b⟩ := h.clear (fun u => by rw [← gridGeo_aim t single buf]; exact hn u)
    exact ⟨⟨rfl, a⟩, congrArg (fun x => x.agents) b⟩
  sends := by
    rintro r ⟨cfg, st⟩ h0 hr ⟨rfl, h⟩ hin
    obtain ⟨bs, a, b, c⟩ := grid_sends hs h0 hr h hin
    refine ⟨_, ?_, sends_spec b (fun a p q h1 h2 => by rw [h1] at h2; simpa using h2) c⟩
    show (t.buffers r buf).map _ = _
    rw [a]
    rfl

end Repast.Context
