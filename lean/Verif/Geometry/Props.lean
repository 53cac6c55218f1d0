import Verif.Geometry.Model

/-! C38: the neighbourhood finders. -/
namespace Repast.Geometry

/-! ### Specification -/

/-- The three cells at distance at most one, in ascending order. -/
def near (v : Int) : List Int := [v - 1, v, v + 1]

/-- The Moore neighbourhood: `x` varies fastest. -/
def moore2 (x y : Int) : List (Int × Int) := (near y).flatMap (fun b => (near x).map (fun a => (a, b)))
def moore3 (x y z : Int) : List (Int × Int × Int) := (near z).flatMap (fun c => (near y).flatMap (fun b => (near x).map (fun a => (a, b, c))))

def MM.has (m : MM) (v : Int) : Bool := decide (m.lo ≤ v) && decide (v ≤ m.hi)

/-- `t` is the cell of the range that differs from `v` by a multiple of the extent. -/
def WrapsTo (m : MM) (v t : Int) : Prop := m.lo ≤ t ∧ t ≤ m.hi ∧ ∃ k, v = t + k * (m.hi - m.lo + 1)

/-! ### columns -/

theorem sel_cols {α : Type} (L : List α) (g f : α → Int) (p : Int → Bool) :
    sel (L.map g) ((L.map f).map p) = (L.filter (fun a => p (f a))).map g := by
  unfold sel
  induction L with
  | nil => rfl
  | cons a L ih =>
    simp only [List.map_cons, List.zip_cons_cons, List.filter_cons]
    split
    · simp only [List.map_cons, ih]
    · exact ih

theorem mask_eq (m : MM) (l : List Int) : mask m.lo m.hi l = l.map m.has := rfl

theorem sticky1d_eq (x : Int) (mx : MM) : sticky1d x mx = (near x).filter mx.has := by
  have h : shift x xoff1 = (near x).map id := by
    simp [shift, xoff1, near, Int.sub_eq_add_neg]
  simp only [sticky1d, mask_eq, h, sel_cols]
  simp

theorem sticky2d_eq (x y : Int) (mx my : MM) :
    let pts := (moore2 x y).filter (fun p => mx.has p.1 && my.has p.2)
    sticky2d x y mx my false = [pts.map (·.1), pts.map (·.2)] ∧ sticky2d x y mx my true = [pts.map (·.2), pts.map (·.1)] := by
  intro pts
  have hx : shift x xoff2 = (moore2 x y).map (·.1) := by
    simp [shift, xoff2, tile, xoff1, moore2, near, Int.sub_eq_add_neg]
  have hy : shift y yoff2 = (moore2 x y).map (·.2) := by
    simp [shift, yoff2, moore2, near, Int.sub_eq_add_neg]
  have hp : pts = ((moore2 x y).filter (fun p => mx.has p.1)).filter (fun p => my.has p.2) := by
    rw [List.filter_filter]
    simp only [pts]
    congr 1
    funext p
    exact Bool.and_comm _ _
  simp only [sticky2d, mask_eq, hx, hy, sel_cols, hp]
  exact ⟨rfl, rfl⟩

theorem sticky3d_eq (x y z : Int) (mx my mz : MM) :
    let pts := (moore3 x y z).filter (fun p => mx.has p.1 && my.has p.2.1 && mz.has p.2.2)
    sticky3d x y z mx my mz false = [pts.map (·.1), pts.map (·.2.1), pts.map (·.2.2)] ∧
    sticky3d x y z mx my mz true = [pts.map (·.2.2), pts.map (·.2.1), pts.map (·.1)] := by
  intro pts
  have hx : shift x xoff3 = (moore3 x y z).map (·.1) := by
    simp [shift, xoff3, tile, xoff1, moore3, near, Int.sub_eq_add_neg, List.replicate]
  have hy : shift y yoff3 = (moore3 x y z).map (·.2.1) := by
    simp [shift, yoff3, tile, yoff2, moore3, near, Int.sub_eq_add_neg, List.replicate]
  have hz : shift z zoff3 = (moore3 x y z).map (·.2.2) := by
    simp [shift, zoff3, moore3, near, Int.sub_eq_add_neg, List.replicate]
  have hp : pts = (((moore3 x y z).filter (fun p => mx.has p.1)).filter (fun p => my.has p.2.1)).filter (fun p => mz.has p.2.2) := by
    rw [List.filter_filter, List.filter_filter]
    simp only [pts]
    congr 1
    funext p
    rw [Bool.and_comm (mz.has _), Bool.and_comm (my.has _), Bool.and_comm]
    cases mx.has p.1 <;> cases my.has p.2.1 <;> cases mz.has p.2.2 <;> rfl
  simp only [sticky3d, mask_eq, hx, hy, hz, sel_cols, hp]
  exact ⟨rfl, rfl⟩

/-! ### the Moore neighbourhood -/

theorem mem_near (v a : Int) : a ∈ near v ↔ (v - a).natAbs ≤ 1 := by
  simp [near]; omega

theorem mem_moore2 (x y a b : Int) : (a, b) ∈ moore2 x y ↔ (x - a).natAbs ≤ 1 ∧ (y - b).natAbs ≤ 1 := by
  simp only [moore2, List.mem_flatMap, List.mem_map, Prod.mk.injEq, mem_near]
  constructor
  · rintro ⟨b', hb, a', ha, rfl, rfl⟩; exact ⟨ha, hb⟩
  · rintro ⟨ha, hb⟩; exact ⟨b, hb, a, ha, rfl, rfl⟩

theorem mem_moore3 (x y z a b c : Int) : (a, b, c) ∈ moore3 x y z ↔ (x - a).natAbs ≤ 1 ∧ (y - b).natAbs ≤ 1 ∧ (z - c).natAbs ≤ 1 := by
  simp only [moore3, List.mem_flatMap, List.mem_map, Prod.mk.injEq, mem_near]
  constructor
  · rintro ⟨c', hc, b', hb, a', ha, rfl, rfl, rfl⟩; exact ⟨ha, hb, hc⟩
  · rintro ⟨ha, hb, hc⟩; exact ⟨c, hc, b, hb, a, ha, rfl, rfl, rfl⟩

/-- row order: by `y`, then by `x` -/
def Before2 (p q : Int × Int) : Prop := p.2 < q.2 ∨ p.2 = q.2 ∧ p.1 < q.1
def Before3 (p q : Int × Int × Int) : Prop := p.2.2 < q.2.2 ∨ p.2.2 = q.2.2 ∧ (p.2.1 < q.2.1 ∨ p.2.1 = q.2.1 ∧ p.1 < q.1)

theorem moore2_sorted (x y : Int) : (moore2 x y).Pairwise Before2 := by
  simp [moore2, near, Before2]; omega

theorem moore3_sorted (x y z : Int) : (moore3 x y z).Pairwise Before3 := by
  simp [moore3, near, Before3]; omega

/-! ### C38, sticky -/

/-- C38: `find_1d_nghs_sticky` returns, in ascending order, exactly the cells of the range at distance at most one. -/
theorem C38_sticky_1d (x : Int) (mx : MM) :
    (sticky1d x mx).Pairwise (· < ·) ∧ ∀ a, a ∈ sticky1d x mx ↔ (x - a).natAbs ≤ 1 ∧ mx.lo ≤ a ∧ a ≤ mx.hi := by
  rw [sticky1d_eq]
  refine ⟨List.Pairwise.sublist List.filter_sublist (by simp [near]; omega), fun a => ?_⟩
  simp [List.mem_filter, mem_near, MM.has]

/-- C38: `find_2d_nghs_sticky` returns a row of x and a row of y coordinates (or y and x in PyTorch order) of one list of points: exactly the cells of the
ranges in the Moore neighbourhood, each once, by rows (strictly ascending in y, then x). -/
theorem C38_sticky_2d (x y : Int) (mx my : MM) :
    ∃ pts : List (Int × Int), sticky2d x y mx my false = [pts.map (·.1), pts.map (·.2)] ∧ sticky2d x y mx my true = [pts.map (·.2), pts.map (·.1)] ∧
      pts.Pairwise Before2 ∧
      ∀ a b, (a, b) ∈ pts ↔ ((x - a).natAbs ≤ 1 ∧ (y - b).natAbs ≤ 1) ∧ (mx.lo ≤ a ∧ a ≤ mx.hi) ∧ (my.lo ≤ b ∧ b ≤ my.hi) := by
  refine ⟨_, (sticky2d_eq x y mx my).1, (sticky2d_eq x y mx my).2, List.Pairwise.sublist List.filter_sublist (moore2_sorted x y), fun a b => ?_⟩
  simp [List.mem_filter, mem_moore2, MM.has]

/-- C38: `find_3d_nghs_sticky`, likewise. -/
theorem C38_sticky_3d (x y z : Int) (mx my mz : MM) :
    ∃ pts : List (Int × Int × Int), sticky3d x y z mx my mz false = [pts.map (·.1), pts.map (·.2.1), pts.map (·.2.2)] ∧
      sticky3d x y z mx my mz true = [pts.map (·.2.2), pts.map (·.2.1), pts.map (·.1)] ∧
      pts.Pairwise Before3 ∧
      ∀ a b c, (a, b, c) ∈ pts ↔ ((x - a).natAbs ≤ 1 ∧ (y - b).natAbs ≤ 1 ∧ (z - c).natAbs ≤ 1) ∧
        (mx.lo ≤ a ∧ a ≤ mx.hi) ∧ (my.lo ≤ b ∧ b ≤ my.hi) ∧ (mz.lo ≤ c ∧ c ≤ mz.hi) := by
  refine ⟨_, (sticky3d_eq x y z mx my mz).1, (sticky3d_eq x y z mx my mz).2, List.Pairwise.sublist List.filter_sublist (moore3_sorted x y z),
    fun a b c => ?_⟩
  simp [List.mem_filter, mem_moore3, MM.has, and_assoc]

/-! ### C38, periodic -/

/-- one coordinate -/
def wrap (m : MM) (v : Int) : Int :=
  let nc := (v - m.lo).fmod (m.hi - m.lo + 1); if nc < 0 then m.hi + nc else m.lo + nc

theorem wrapAll_eq (m : MM) (l : List Int) : wrapAll m l = l.map (wrap m) := rfl

theorem wrap_spec {m : MM} (h : m.lo ≤ m.hi) (v : Int) : WrapsTo m v (wrap m v) := by
  have hpos : 0 < m.hi - m.lo + 1 := by omega
  have h1 := Int.fmod_nonneg_of_pos (v - m.lo) hpos
  have h2 := Int.fmod_lt_of_pos (v - m.lo) hpos
  have h3 := Int.mul_fdiv_add_fmod (v - m.lo) (m.hi - m.lo + 1)
  unfold wrap WrapsTo
  simp only []
  rw [if_neg (by omega)]
  refine ⟨by omega, by omega, (v - m.lo).fdiv (m.hi - m.lo + 1), ?_⟩
  rw [Int.mul_comm]
  omega

/-- There is only one such cell. -/
theorem WrapsTo.unique {m : MM} {v t t' : Int} (h : WrapsTo m v t) (h' : WrapsTo m v t') : t = t' := by
  obtain ⟨h1, h2, k, e⟩ := h
  obtain ⟨h1', h2', k', e'⟩ := h'
  have hd : t - t' = (k' - k) * (m.hi - m.lo + 1) := by rw [Int.sub_mul]; omega
  by_cases hk : k' = k
  · rw [hk] at hd; simp at hd; omega
  · exfalso
    rcases Int.lt_or_gt_of_ne hk with hlt | hlt
    · have : (k' - k) * (m.hi - m.lo + 1) ≤ (-1) * (m.hi - m.lo + 1) := Int.mul_le_mul_of_nonneg_right (by omega) (by omega)
      omega
    · have : 1 * (m.hi - m.lo + 1) ≤ (k' - k) * (m.hi - m.lo + 1) := Int.mul_le_mul_of_nonneg_right (by omega) (by omega)
      omega

theorem wrap_eq_iff {m : MM} (h : m.lo ≤ m.hi) (v t : Int) : t = wrap m v ↔ WrapsTo m v t :=
  ⟨fun e => e ▸ wrap_spec h v, fun e => e.unique (wrap_spec h v)⟩

/-- With at least three cells, the neighbours of a cell are different from each other. -/
theorem wrap_inj {m : MM} (h : m.lo + 2 ≤ m.hi) {v a b : Int} (ha : (v - a).natAbs ≤ 1) (hb : (v - b).natAbs ≤ 1) (e : wrap m a = wrap m b) : a = b := by
  obtain ⟨_, _, k, e1⟩ := wrap_spec (m := m) (by omega) a
  obtain ⟨_, _, k', e2⟩ := wrap_spec (m := m) (by omega) b
  have hd : a - b = (k - k') * (m.hi - m.lo + 1) := by rw [Int.sub_mul]; omega
  by_cases hk : k = k'
  · rw [hk] at hd; simp at hd; omega
  · exfalso
    rcases Int.lt_or_gt_of_ne hk with hlt | hlt
    · have : (k - k') * (m.hi - m.lo + 1) ≤ (-1) * (m.hi - m.lo + 1) := Int.mul_le_mul_of_nonneg_right (by omega) (by omega)
      omega
    · have : 1 * (m.hi - m.lo + 1) ≤ (k - k') * (m.hi - m.lo + 1) := Int.mul_le_mul_of_nonneg_right (by omega) (by omega)
      omega

/-- Two lists of the same length with corresponding elements related. -/
def All2 {α β : Type} (R : α → β → Prop) : List α → List β → Prop
  | [], [] => True
  | a :: l, b :: m => R a b ∧ All2 R l m
  | _, _ => False

theorem all2_map {α β : Type} {R : α → β → Prop} {f : α → β} (h : ∀ a, R a (f a)) (l : List α) : All2 R l (l.map f) := by
  induction l with
  | nil => trivial
  | cons a l ih => exact ⟨h a, ih⟩

theorem nodup_map_on {α β : Type} {f : α → β} {l : List α} (h : ∀ a ∈ l, ∀ b ∈ l, f a = f b → a = b) (hn : l.Nodup) : (l.map f).Nodup := by
  induction l with
  | nil => simp
  | cons a l ih =>
    simp only [List.nodup_cons] at hn
    simp only [List.map_cons, List.nodup_cons, List.mem_map, not_exists, not_and]
    refine ⟨fun b hb e => ?_, ih (fun x hx y hy => h x (List.mem_cons_of_mem _ hx) y (List.mem_cons_of_mem _ hy)) hn.2⟩
    have := h b (List.mem_cons_of_mem _ hb) a (by simp) e
    exact hn.1 (this ▸ hb)

/-- C38: `find_1d_nghs_periodic` returns the wrapped positions of `x - 1, x, x + 1`, in this order; they are different if the range has at least three cells. -/
theorem C38_periodic_1d (x : Int) (mx : MM) (h : mx.lo ≤ mx.hi) :
    All2 (WrapsTo mx) [x - 1, x, x + 1] (periodic1d x mx) ∧ (mx.lo + 2 ≤ mx.hi → (periodic1d x mx).Nodup) := by
  have e : periodic1d x mx = (near x).map (wrap mx) := by
    simp [periodic1d, wrapAll_eq, shift, xoff1, near, Int.sub_eq_add_neg]
  rw [e]
  refine ⟨all2_map (wrap_spec h) _, fun h3 => nodup_map_on (fun a ha b hb => ?_) (by simp [near]; omega)⟩
  exact wrap_inj h3 ((mem_near x a).1 ha) ((mem_near x b).1 hb)

/-- C38: `find_2d_nghs_periodic` returns the coordinates of the nine wrapped cells of the Moore neighbourhood in the fixed order of `moore2` (by rows of
y, x varying fastest), whatever the point and the ranges; they are different if the ranges have at least three cells. -/
theorem C38_periodic_2d (x y : Int) (mx my : MM) (hx : mx.lo ≤ mx.hi) (hy : my.lo ≤ my.hi) :
    ∃ pts : List (Int × Int), periodic2d x y mx my false = [pts.map (·.1), pts.map (·.2)] ∧ periodic2d x y mx my true = [pts.map (·.2), pts.map (·.1)] ∧
      pts.length = 9 ∧ All2 (fun p q => WrapsTo mx p.1 q.1 ∧ WrapsTo my p.2 q.2) (moore2 x y) pts ∧
      (mx.lo + 2 ≤ mx.hi → my.lo + 2 ≤ my.hi → pts.Nodup) := by
  refine ⟨(moore2 x y).map (fun p => (wrap mx p.1, wrap my p.2)), ?_, ?_, by simp [moore2, near], all2_map (fun p => ⟨wrap_spec hx _, wrap_spec hy _⟩) _,
    fun h3 h4 => nodup_map_on ?_ ?_⟩
  · simp [periodic2d, wrapAll_eq, shift, xoff2, yoff2, tile, xoff1, moore2, near, Int.sub_eq_add_neg]
  · simp [periodic2d, wrapAll_eq, shift, xoff2, yoff2, tile, xoff1, moore2, near, Int.sub_eq_add_neg]
  · rintro ⟨a, b⟩ ha ⟨c, d⟩ hc e
    simp only [Prod.mk.injEq] at e
    have ha := (mem_moore2 x y a b).1 ha
    have hc := (mem_moore2 x y c d).1 hc
    rw [wrap_inj h3 ha.1 hc.1 e.1, wrap_inj h4 ha.2 hc.2 e.2]
  · refine (moore2_sorted x y).imp (fun {p q} h e => ?_)
    subst e
    unfold Before2 at h
    omega

/-- C38: `find_3d_nghs_periodic`, likewise with 27 cells. -/
theorem C38_periodic_3d (x y z : Int) (mx my mz : MM) (hx : mx.lo ≤ mx.hi) (hy : my.lo ≤ my.hi) (hz : mz.lo ≤ mz.hi) :
    ∃ pts : List (Int × Int × Int), periodic3d x y z mx my mz false = [pts.map (·.1), pts.map (·.2.1), pts.map (·.2.2)] ∧
      periodic3d x y z mx my mz true = [pts.map (·.2.2), pts.map (·.2.1), pts.map (·.1)] ∧
      pts.length = 27 ∧ All2 (fun p q => WrapsTo mx p.1 q.1 ∧ WrapsTo my p.2.1 q.2.1 ∧ WrapsTo mz p.2.2 q.2.2) (moore3 x y z) pts ∧
      (mx.lo + 2 ≤ mx.hi → my.lo + 2 ≤ my.hi → mz.lo + 2 ≤ mz.hi → pts.Nodup) := by
  refine ⟨(moore3 x y z).map (fun p => (wrap mx p.1, wrap my p.2.1, wrap mz p.2.2)), ?_, ?_, by simp [moore3, near],
    all2_map (fun p => ⟨wrap_spec hx _, wrap_spec hy _, wrap_spec hz _⟩) _, fun h3 h4 h5 => nodup_map_on ?_ ?_⟩
  · simp [periodic3d, wrapAll_eq, shift, xoff3, yoff3, zoff3, yoff2, tile, xoff1, moore3, near, Int.sub_eq_add_neg, List.replicate]
  · simp [periodic3d, wrapAll_eq, shift, xoff3, yoff3, zoff3, yoff2, tile, xoff1, moore3, near, Int.sub_eq_add_neg, List.replicate]
  · rintro ⟨a, b, c⟩ ha ⟨d, e, f⟩ hd he
    simp only [Prod.mk.injEq] at he
    have ha := (mem_moore3 x y z a b c).1 ha
    have hd := (mem_moore3 x y z d e f).1 hd
    rw [wrap_inj h3 ha.1 hd.1 he.1, wrap_inj h4 ha.2.1 hd.2.1 he.2.1, wrap_inj h5 ha.2.2 hd.2.2 he.2.2]
  · refine (moore3_sorted x y z).imp (fun {p q} h e => ?_)
    subst e
    unfold Before3 at h
    omega

/-- The limits of the statement: with fewer than three cells in a dimension a periodic neighbourhood lists cells more than once. -/
theorem C38_periodic_small : periodic1d 0 ⟨0, 1⟩ = [1, 0, 1] := by decide

/-- `get_num_dims` is the number of dimensions `BoundingBox` of the C++ side has (`Repast.Space.Box.numDims`), for the boxes of the library. -/
theorem C38_num_dims (yext zext : Int) (hy : 0 ≤ yext) (hz : 0 ≤ zext) :
    getNumDims yext zext = if 0 < zext then 3 else if 0 < yext then 2 else 1 := by
  unfold getNumDims
  repeat' split
  all_goals omega

example : sticky2d 0 5 ⟨0, 10⟩ ⟨0, 10⟩ false = [[0, 1, 0, 1, 0, 1], [4, 4, 5, 5, 6, 6]] ∧
    periodic2d 0 5 ⟨0, 10⟩ ⟨0, 5⟩ true = [[4, 4, 4, 5, 5, 5, 0, 0, 0], [10, 0, 1, 10, 0, 1, 10, 0, 1]] ∧
    sticky1d 4 ⟨2, 10⟩ = [3, 4, 5] ∧ periodic1d 4 ⟨4, 10⟩ = [10, 4, 5] := by decide +kernel

end Repast.Geometry
