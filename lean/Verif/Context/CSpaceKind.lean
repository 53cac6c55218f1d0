import Verif.Context.CSpaceView
import Verif.Context.GridKind

/-! Shared continuous spaces of two and three dimensions as a kind of shared space. -/
namespace Repast.Context
open Repast.Space Repast.Topology Repast.Tree

theorem collect_some {α β : Type} {f : α → Option β} {g : α → β} : ∀ {l : List α}, (∀ a ∈ l, f a = some (g a)) → collect f l = some (l.map g) := by
  intro l
  induction l with
  | nil => intro _; rfl
  | cons a l ih =>
    intro h
    simp only [collect, h a (by simp), ih (fun b hb => h b (by simp [hb])), Option.map_some, List.map_cons]

/-- The spaces for which this is right: as for grids, with two or three dimensions. -/
structure CSetting (t : Topo) (buf : Nat) : Prop extends Setting t buf where
  dims : t.nd ≠ 1

theorem CSetting.set {t : Topo} {buf : Nat} (h : CSetting t buf) : CSet t := ⟨h.ok, h.fits, h.flat, h.dims⟩

theorem sideRange_pos {lo hi : Int} {buf : Nat} (h0 : 0 < buf) (h : lo + (buf : Int) ≤ hi) (o : Int) : (sideRange lo hi buf o).1 < (sideRange lo hi buf o).2 := by
  unfold sideRange
  split
  · simp only; omega
  · split
    · simp only; omega
    · simp only; omega

/-- A buffer is a box with all the dimensions of the space. -/
theorem buffer_box {t : Topo} {buf : Nat} (hs : CSetting t buf) (h0 : 0 < buf) {r : Nat} {bs : List (Nat × Rng)} (hbs : t.buffers r buf = some bs) {b : Nat × Rng} (hb : b ∈ bs) :
    0 < (Rng.box b.2).yext ∧ ((Rng.box b.2).zext = 0 ∧ t.nd = 2 ∨ 0 < (Rng.box b.2).zext ∧ t.nd = 3) := by
  obtain ⟨ox, oy, oz, e⟩ := buffers_form hbs hb
  have ht := hs.ok
  have hbf := hs.room h0
  have hnd := ht.nd
  have hd := hs.dims
  unfold Rng.box
  rw [e]
  unfold bufferBounds
  simp only
  rcases numDims_cases ht.box with ⟨h1, -, -⟩ | ⟨h1, h2, h3⟩ | ⟨h1, h2, h3⟩
  · omega
  · have hy := sideRange_pos (lo := (t.bounds r).ymin) (hi := (t.bounds r).ymax) h0 (by
      obtain ⟨y1, y2⟩ := bounds_y ht (by omega) r
      have := dim_buf (gmin := t.box.ymin) ht.py (hbf.2.1 h2).1 (t.coords r).y
      unfold Box.ymax; omega) oy
    rw [if_pos (by omega), if_neg (by omega)]
    exact ⟨by omega, Or.inl ⟨rfl, by omega⟩⟩
  · have hy := sideRange_pos (lo := (t.bounds r).ymin) (hi := (t.bounds r).ymax) h0 (by
      obtain ⟨y1, y2⟩ := bounds_y ht (by omega) r
      have := dim_buf (gmin := t.box.ymin) ht.py (hbf.2.1 h2).1 (t.coords r).y
      unfold Box.ymax; omega) oy
    have hz := sideRange_pos (lo := (t.bounds r).zmin) (hi := (t.bounds r).zmax) h0 (by
      obtain ⟨y1, y2⟩ := bounds_z ht (by omega) r
      have := dim_buf (gmin := t.box.zmin) ht.pz (hbf.2.2 h3).1 (t.coords r).z
      unfold Box.zmax; omega) oz
    rw [if_pos (by omega), if_pos (by omega)]
    exact ⟨by omega, Or.inr ⟨by omega, by omega⟩⟩

theorem box_hits {nd : Nat} {g : Rng} (hy : 0 < (Rng.box g).yext) (hz : (Rng.box g).zext = 0 ∧ nd = 2 ∨ 0 < (Rng.box g).zext ∧ nd = 3) (p : CPt) :
    (Rng.box g).containsC p = true ↔ Hits nd p.down g := by
  rw [containsC_down]
  have ex : (Rng.box g).xmax = g.x1 := by unfold Box.xmax Rng.box; simp only; omega
  have ey : (Rng.box g).ymax = g.y1 := by unfold Box.ymax Rng.box; simp only; omega
  have ez : (Rng.box g).zmax = g.z1 := by unfold Box.zmax Rng.box; simp only; omega
  unfold Box.contains Hits Box.numDims
  simp only [ex, ey, ez]
  rcases hz with ⟨h1, rfl⟩ | ⟨h1, rfl⟩
  · rw [if_neg (by omega), if_pos hy]
    simp only [Bool.and_eq_true, decide_eq_true_eq]
    simp [Rng.box]
  · rw [if_pos h1]
    simp only [Bool.and_eq_true, decide_eq_true_eq]
    simp [Rng.box, and_assoc]

/-- The location of an agent that has one. -/
def ptOf (s : CS) (a : Nat) : CPt := match s.agents a with
  | some (some k) => s.pts k
  | _ => ⟨0, 0, 0⟩

theorem ptOf_eq {s : CS} {a : Nat} {p : CPt} (h : s.base.agents a = some (some p)) : withPt s a = some (a, p) ∧ ptOf s a = p := by
  simp only [CS.base, Option.map_eq_some_iff] at h
  obtain ⟨o, h1, h2⟩ := h
  obtain ⟨k, rfl, h3⟩ := h2
  unfold withPt ptOf
  rw [h1]
  exact ⟨by simp only [h3], h3⟩

theorem count_flatten {α β : Type} [BEq β] [LawfulBEq β] (f : α → List β) (P : α → Bool) (x : β) : ∀ (l : List α), (∀ a ∈ l, (f a).count x = if P a = true then 1 else 0) →
    (l.map f).flatten.count x = l.countP P := by
  intro l
  induction l with
  | nil => intro _; simp
  | cons a l ih =>
    intro h
    rw [List.map_cons, List.flatten_cons, List.count_append, ih (fun b hb => h b (by simp [hb])), h a (by simp), List.countP_cons]
    omega

theorem cspace_sends {g : CSCfg} {r : Nat} {s : CDSp} (hs : CSetting g.topo g.buf) (h0 : 0 < g.buf) (hr : r < g.topo.size) (h : COk g r s)
    (hin : ∀ u q, s.cs.base.agents u = some (some q) → (g.topo.bounds r).containsC q = true) :
    ∃ (bs : List (Nat × Rng)) (send : Nat → List (Nat × CPt)), g.topo.buffers r g.buf = some bs ∧ (∀ k, csendTo g.space bs s.cs k = some (send k)) ∧
      (∀ k a p, k < g.topo.size → ((a, p) ∈ send k ↔ s.cs.base.agents a = some (some p) ∧ k ≠ r ∧ CNear g.topo g.buf k p)) ∧
      ∀ k < g.topo.size, (send k).Nodup := by
  have ht := hs.ok
  have hf := hs.fits
  have hg := hs.good h0
  have hbf := hs.room h0
  have hd : g.space.bounds.numDims ≠ 1 := by show g.topo.box.numDims ≠ 1; rw [← ht.nd]; exact hs.dims
  obtain ⟨bs, hbs⟩ := buffers_some ht hf hg hbf h0 hr
  obtain ⟨ab, hi⟩ := h.inv
  -- the query of each buffer
  have hq : ∀ b ∈ bs, ∃ l, getWithin g.space s.cs (Rng.box b.2) = some l ∧ l.Nodup ∧
      ∀ a, a ∈ l ↔ ∃ p, s.cs.base.agents a = some (some p) ∧ Hits g.topo.nd p.down b.2 := by
    intro b hb
    obtain ⟨hy, hz⟩ := buffer_box hs h0 hbs hb
    obtain ⟨l, l1, l2, l3⟩ := hi.within hd (Rng.box b.2) ⟨hy, fun h3 => by
      have : g.topo.box.numDims = 3 := of_decide_eq_true h3
      rw [← ht.nd] at this
      rcases hz with hz | hz
      · omega
      · exact hz.1⟩
    refine ⟨l, l1, l2, fun a => (l3 a).trans ?_⟩
    constructor
    · rintro ⟨p, e1, e2⟩; exact ⟨p, e1, (box_hits hy hz p).1 e2⟩
    · rintro ⟨p, e1, e2⟩; exact ⟨p, e1, (box_hits hy hz p).2 e2⟩
  have hall : ∀ b ∈ bs, (getWithin g.space s.cs (Rng.box b.2)).bind (collect (withPt s.cs)) =
      some (((getWithin g.space s.cs (Rng.box b.2)).getD []).map fun a => (a, ptOf s.cs a)) := by
    intro b hb
    obtain ⟨l, l1, l2, l3⟩ := hq b hb
    rw [l1]
    simp only [Option.bind_some, Option.getD_some]
    apply collect_some
    intro a ha
    obtain ⟨p, e1, -⟩ := (l3 a).1 ha
    obtain ⟨f1, f2⟩ := ptOf_eq e1
    rw [f1, f2]
  refine ⟨bs, fun k => ((bs.filter (fun b => b.1 = k)).map fun b => ((getWithin g.space s.cs (Rng.box b.2)).getD []).map fun a => (a, ptOf s.cs a)).flatten, hbs, ?_, ?_⟩
  · intro k
    unfold csendTo
    rw [collect_some (fun b hb => hall b (List.mem_filter.1 hb).1)]
    rfl
  · generalize hsd : (fun k => ((bs.filter (fun b => b.1 = k)).map fun b => ((getWithin g.space s.cs (Rng.box b.2)).getD []).map fun a => (a, ptOf s.cs a)).flatten) = send
    have hsend : ∀ k, send k = ((bs.filter (fun b => b.1 = k)).map fun b => ((getWithin g.space s.cs (Rng.box b.2)).getD []).map fun a => (a, ptOf s.cs a)).flatten :=
      fun k => by rw [← hsd]
    have hbase : ∀ {k a p}, (a, p) ∈ send k → s.cs.base.agents a = some (some p) ∧ k ≠ r := by
      intro k a p hm
      rw [hsend] at hm
      obtain ⟨l, hl, hm⟩ := List.mem_flatten.1 hm
      obtain ⟨b, hb, rfl⟩ := List.mem_map.1 hl
      obtain ⟨hb, hbk⟩ := List.mem_filter.1 hb
      obtain ⟨a', ha', e⟩ := List.mem_map.1 hm
      simp only [Prod.mk.injEq] at e
      obtain ⟨rfl, rfl⟩ := e
      obtain ⟨l, l1, l2, l3⟩ := hq b hb
      rw [l1] at ha'
      obtain ⟨p, e1, -⟩ := (l3 a').1 ha'
      refine ⟨by rw [(ptOf_eq e1).2]; exact e1, ?_⟩
      obtain ⟨nb, hn1, hn2⟩ := buffers_ranks hbs hb
      have := ((C35_neighbors_partial ht (good_nd1 hg) hr nb.rank).1 ⟨nb, hn1, rfl⟩).2.1
      simp only [decide_eq_true_eq] at hbk
      omega
    have hcount : ∀ {k a p}, s.cs.base.agents a = some (some p) → (send k).count (a, p) = (bs.filter (fun b => b.1 = k)).countP (fun b => Hits g.topo.nd p.down b.2) := by
      intro k a p ha
      rw [hsend]
      apply count_flatten
      intro b hb
      obtain ⟨l, l1, l2, l3⟩ := hq b (List.mem_filter.1 hb).1
      rw [l1]
      simp only [Option.getD_some]
      have hnd : (l.map fun a => (a, ptOf s.cs a)).Nodup := nodup_map_inj l2 (fun x _ y _ e => by simp only [Prod.mk.injEq] at e; exact e.1)
      have hle := List.nodup_iff_count.1 hnd (a, p)
      have hiff : (a, p) ∈ (l.map fun a => (a, ptOf s.cs a)) ↔ Hits g.topo.nd p.down b.2 := by
        rw [List.mem_map]
        constructor
        · rintro ⟨a', ha', e⟩
          simp only [Prod.mk.injEq] at e
          obtain ⟨rfl, e⟩ := e
          obtain ⟨p', e1, e2⟩ := (l3 a').1 ha'
          rw [ha] at e1
          simp only [Option.some.injEq] at e1
          rw [e1]; exact e2
        · intro hh
          exact ⟨a, (l3 a).2 ⟨p, ha, hh⟩, by rw [(ptOf_eq ha).2]⟩
      by_cases hh : Hits g.topo.nd p.down b.2
      · have := List.count_pos_iff.2 (hiff.2 hh)
        simp only [hh, decide_true, if_true]
        omega
      · rw [List.count_eq_zero.2 (fun hm => hh (hiff.1 hm))]
        simp [hh]
    have hsent : ∀ {k a p}, k < g.topo.size → k ≠ r → s.cs.base.agents a = some (some p) →
        (CNear g.topo g.buf k p → (send k).count (a, p) = 1) ∧ (¬ CNear g.topo g.buf k p → (send k).count (a, p) = 0) := by
      intro k a p hk hne ha
      obtain ⟨bs', hb1, hb2, hb3⟩ := buffers_cover ht hf hg hbf hr hk hne (p := p.down) (by rw [← containsC_down]; exact hin _ _ ha)
      rw [hbs] at hb1
      cases hb1
      rw [hcount ha, cnear_down]
      exact ⟨hb2, hb3⟩
    have hmem : ∀ k a p, k < g.topo.size → ((a, p) ∈ send k ↔ s.cs.base.agents a = some (some p) ∧ k ≠ r ∧ CNear g.topo g.buf k p) := by
      intro k a p hk
      constructor
      · intro hm
        obtain ⟨ha, hne⟩ := hbase hm
        refine ⟨ha, hne, ?_⟩
        apply Classical.byContradiction
        intro hn
        exact List.count_eq_zero.1 ((hsent hk hne ha).2 hn) hm
      · rintro ⟨ha, hne, hnr⟩
        exact List.count_pos_iff.1 (by rw [(hsent hk hne ha).1 hnr]; omega)
    refine ⟨hmem, ?_⟩
    intro k hk
    rw [List.nodup_iff_count]
    rintro ⟨a, p⟩
    by_cases hm : (a, p) ∈ send k
    · obtain ⟨ha, hne, hnr⟩ := (hmem k a p hk).1 hm
      exact Nat.le_of_eq ((hsent hk hne ha).1 hnr)
    · rw [List.count_eq_zero.2 hm]; omega

/-- The geometry of a shared continuous space. The locations are exclusive, whatever the occupancy type: with multiple occupancy the tree is not right if agents
share a location (`C37_lost`, `C37_crash`). -/
def cspaceGeo (g : CSCfg) : Geo CPt where
  n := g.topo.size
  buf := g.buf
  dest := cdest g.topo
  valid := CValid g.topo
  inside r q := (g.topo.bounds r).containsC q
  owner := cowner g.topo
  near := CNear g.topo g.buf
  excl := True

theorem cspaceGeo_aim (g : CSCfg) (r : Nat) (o : Option (Option CPt)) : (cspaceGeo g).aim r o = caim g.topo r o := by
  cases o with
  | none => rfl
  | some o => cases o <;> rfl

theorem cspace_where {g : CSCfg} {s : CDSp} : Proj.where_ (CSpaceSp.mk g (some s)) = s.cs.base.agents := rfl

theorem CSpaceSp.call_some {g : CSCfg} {r : Nat} {s s' : CDSp} {o : Op CPt} {res : Res CPt} (h : ccall g r s o = some (s', res)) :
    CSpaceSp.call r ⟨g, some s⟩ o = (⟨g, some s'⟩, res) := by
  unfold CSpaceSp.call
  simp only [Option.bind_some, h]

/-- Shared continuous spaces. -/
def cspaceKind {g : CSCfg} (hs : CSetting g.topo g.buf) : Kind (cspaceGeo g) CSpaceSp where
  new := g.new
  Ok r p := ∃ s, p = ⟨g, some s⟩ ∧ COk g r s
  n_pos := Nat.mul_pos (Nat.mul_pos hs.ok.px hs.ok.py) hs.ok.pz
  owner_spec h := cowner_spec hs.ok hs.fits h.1
  dest_valid q := cdest_spec hs.ok hs.flat q
  dest_id h := cdest_inside hs.ok hs.flat h
  new_ok r := ⟨_, rfl, COk.new g r⟩
  new_at := rfl
  valid := by
    rintro r p u q ⟨s, rfl, h⟩ e
    exact h.pts u q e
  bufSize := by
    rintro r p ⟨s, rfl, h⟩
    rfl
  oob := by
    rintro r p ⟨s, rfl, h⟩ u
    rw [cspaceGeo_aim]
    exact h.oob u
  add := by
    rintro r p u ⟨s, rfl, h⟩ hu
    obtain ⟨s', res, e1, e2, e3⟩ := h.add hs.set hu
    have hc := CSpaceSp.call_some e1
    refine ⟨⟨s', ?_, e2⟩, ?_⟩
    · show (CSpaceSp.call r ⟨g, some s⟩ (.add u)).1 = _
      rw [hc]
    · show Proj.where_ (CSpaceSp.call r ⟨g, some s⟩ (.add u)).1 = _
      rw [hc]; exact e3
  remove := by
    rintro r p ⟨s, rfl, h⟩ u
    obtain ⟨s', res, e1, e2, e3⟩ := h.remove hs.set u
    have hc := CSpaceSp.call_some e1
    refine ⟨⟨s', ?_, e2⟩, ?_⟩
    · show (CSpaceSp.call r ⟨g, some s⟩ (.remove u)).1 = _
      rw [hc]
    · show Proj.where_ (CSpaceSp.call r ⟨g, some s⟩ (.remove u)).1 = _
      rw [hc]; exact e3
  move := by
    rintro r p u ⟨s, rfl, h⟩ hu q hf
    obtain ⟨s', e1, e2, e3⟩ := h.move hs.set hu q (hf trivial)
    have hc := CSpaceSp.call_some e1
    refine ⟨⟨g, some s'⟩, ?_, ⟨s', rfl, e2⟩, e3⟩
    show (match CSpaceSp.call r ⟨g, some s⟩ (.move u q) with | (_, .error) => none | (g, _) => some g) = _
    rw [hc]
  clear := by
    rintro r p ⟨s, rfl, h⟩ hn
    exact ⟨⟨_, rfl, h.clear (fun u => by rw [← cspaceGeo_aim]; exact hn u)⟩, rfl⟩
  sends := by
    rintro r p h0 hr ⟨s, rfl, h⟩ hin
    obtain ⟨bs, send, e1, e2, e3, e4⟩ := cspace_sends hs h0 hr h hin
    obtain ⟨b1, b2⟩ := sends_spec e3 (fun a p q h1 h2 => by rw [h1] at h2; simpa using h2) e4
    refine ⟨_, ?_, b1, b2⟩
    show ((g.topo.buffers r g.buf).bind fun bs => (collect (fun k => (csendTo g.space bs s.cs k).map fun l => l.map fun m => (k, m.1, m.2)) (List.range g.topo.size)).map List.flatten) = _
    rw [e1]
    simp only [Option.bind_some]
    rw [collect_some (g := fun k => (send k).map fun m => (k, m.1, m.2)) (fun k _ => by rw [e2]; rfl)]
    simp [List.flatMap]

end Repast.Context
