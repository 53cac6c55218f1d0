import Verif.Files.Free
import Verif.Util.List

/-
C46, C47, C48 (for the loggers) and C53: `ReducingDataSet` and `TabularLogger`.
-/
namespace Repast.Files

/-! ### Files -/

theorem lookup_cons' (e : Text × Text) (l : List (Text × Text)) (q : Text) : (e :: l).lookup q = if q = e.1 then some e.2 else l.lookup q := by
  rw [List.lookup_cons]
  by_cases h : q = e.1
  · simp [h]
  · have : (q == e.1) = false := by simpa using h
    simp [this, h]

theorem lookup_append (l : List (Text × Text)) (p t q : Text) :
    (appendFile l p t).lookup q = if q = p then some (((l.lookup p).getD []) ++ t) else l.lookup q := by
  induction l with
  | nil =>
    unfold appendFile
    rw [lookup_cons']
    by_cases h : q = p <;> simp [h]
  | cons e l ih =>
    unfold appendFile
    by_cases he : e.1 = p
    · rw [if_pos he, lookup_cons', lookup_cons', lookup_cons']
      by_cases h : q = p <;> simp [h, he]
    · rw [if_neg he, lookup_cons', lookup_cons', lookup_cons', ih]
      by_cases h : q = p
      · subst h
        have : q ≠ e.1 := fun h => he h.symm
        simp [this]
      · simp [h]

theorem lookup_write (l : List (Text × Text)) (p t q : Text) : (writeFile l p t).lookup q = if q = p then some t else l.lookup q := by
  induction l with
  | nil =>
    unfold writeFile
    rw [lookup_cons']
  | cons e l ih =>
    unfold writeFile
    by_cases he : e.1 = p
    · rw [if_pos he, lookup_cons', lookup_cons']
      by_cases h : q = p <;> simp [h, he]
    · rw [if_neg he, lookup_cons', lookup_cons', ih]
      by_cases h : q = p
      · subst h
        have : q ≠ e.1 := fun h => he h.symm
        simp [this]
      · simp [h]

theorem makeParent_files {fs fs' : FS} {d : Text} (h : makeParent fs d = some fs') : fs'.files = fs.files ∧ ∀ x ∈ fs.dirs, x ∈ fs'.dirs := by
  unfold makeParent at h
  split at h
  · cases h; exact ⟨rfl, fun _ h => h⟩
  · split at h
    · cases h
    · cases h
      exact ⟨rfl, fun x hx => by simp [hx]⟩

theorem create_files {fs fs' : FS} {d p t : Text} (h : create fs d p t = some fs') : fs'.files = writeFile fs.files p t ∧ fs'.dirs = fs.dirs := by
  unfold create at h
  split at h
  · cases h; exact ⟨rfl, rfl⟩
  · cases h

theorem findFree_fresh {fs : FS} {dir name q : Text} (h : findFree fs dir name = some q) : q ∉ fs.names := by
  by_cases hn : name = []
  · subst hn; simp [findFree] at h
  · obtain ⟨q', h1, h2, _⟩ := find_free_spec fs dir name hn
    rw [h] at h1
    cases h1
    exact h2

/-! ### `ReducingDataSet` -/

section
variable {T V : Type} (f : Fmt T V)

/-- The calls of `log`, with their ticks and values. -/
def logged (ops : List (DOp T V)) : List (T × (Nat → Nat → V)) := ops.filterMap fun o => match o with
  | .log t v => some (t, v)
  | .write => none

/-- The row of one call of `log`: the tick, and for each column the reduction of the values of all ranks at that call. -/
def rowOf (cols : List (Col V)) (n : Nat) (c : T × (Nat → Nat → V)) : Text :=
  f.tick c.1 ++ (cols.mapIdx fun j col => f.delim ++ f.val (col.op ((List.range n).map fun r => c.2 r j))).flatten ++ "\n".toList

theorem mapM_some' {α β : Type} {l : List α} {f : α → Option β} (g : α → β) (h : ∀ a ∈ l, f a = some (g a)) : l.mapM f = some (l.map g) := by
  induction l with
  | nil => rfl
  | cons a l ih =>
    rw [List.mapM_cons, h a (by simp), ih (fun b hb => h b (by simp [hb]))]
    rfl

/-- What the loggers hold: `pend` are the calls that are not yet written. -/
structure Holds (d : RDS T V) (pend : List (T × (Nat → Nat → V))) : Prop where
  ticks : d.ticks = pend.map (·.1)
  len : ∀ r < d.n, (d.logs r).length = d.cols.length
  idx : ∀ r < d.n, ∀ (j : Nat) (l : RLog V), (d.logs r)[j]? = some l → l.idx = pend.length ∧ pend.length ≤ l.data.length ∧
    ∀ (i : Nat) (c : T × (Nat → Nat → V)), pend[i]? = some c → l.data[i]? = some (c.2 r j)

theorem Holds.col {d : RDS T V} {pend : List (T × (Nat → Nat → V))} (h : Holds d pend) {r : Nat} (hr : r < d.n) {j : Nat} (hj : j < d.cols.length) :
    ∃ l, (d.logs r)[j]? = some l := by
  rw [← h.len r hr] at hj
  exact ⟨_, List.getElem?_eq_getElem hj⟩

theorem reduce_eq {d : RDS T V} {pend : List (T × (Nat → Nat → V))} (h : Holds d pend) (hn : 0 < d.n) {j : Nat} (hj : j < d.cols.length) (c : Col V) :
    d.reduce c j = some (pend.map fun p => c.op ((List.range d.n).map fun r => p.2 r j)) := by
  obtain ⟨l0, h0⟩ := h.col hn hj
  unfold RDS.reduce
  rw [h0, Option.bind_some, if_pos]
  · congr 1
    apply List.ext_getElem?
    intro i
    rw [List.getElem?_map, List.getElem?_map, (h.idx 0 hn j l0 h0).1]
    by_cases hi : i < pend.length
    · rw [List.getElem?_range hi, List.getElem?_eq_getElem hi]
      simp only [Option.map_some, Option.some.injEq]
      congr 1
      have : ∀ r ∈ List.range d.n, ((d.logs r)[j]?.bind fun l => l.data[i]?) = some (pend[i].2 r j) := by
        intro r hr
        rw [List.mem_range] at hr
        obtain ⟨l, hl⟩ := h.col hr hj
        rw [hl, Option.bind_some]
        exact (h.idx r hr j l hl).2.2 i _ (List.getElem?_eq_getElem hi)
      revert this
      generalize List.range d.n = l
      intro this
      induction l with
      | nil => rfl
      | cons r l ih =>
        rw [List.filterMap_cons, this r (by simp), List.map_cons, ih (fun r hr => this r (by simp [hr]))]
    · rw [List.getElem?_eq_none (by simpa using hi), List.getElem?_eq_none (by simpa using hi)]
      rfl
  · unfold ranks
    rw [List.all_eq_true]
    intro r hr
    rw [List.mem_range] at hr
    obtain ⟨l, hl⟩ := h.col hr hj
    rw [hl]
    simp only [Option.any_some, decide_eq_true_eq]
    have h1 := h.idx r hr j l hl
    have h2 := h.idx 0 hn j l0 h0
    exact ⟨h1.1.trans h2.1.symm, h1.1 ▸ h1.2.1⟩

theorem reduceAll_eq {d : RDS T V} {pend : List (T × (Nat → Nat → V))} (h : Holds d pend) (hn : 0 < d.n) :
    d.reduceAll = some (d.cols.zipIdx.map fun cj => pend.map fun p => cj.1.op ((List.range d.n).map fun r => p.2 r cj.2)) := by
  unfold RDS.reduceAll
  apply mapM_some'
  intro cj hcj
  apply reduce_eq h hn
  rw [List.mem_zipIdx_iff_getElem?] at hcj
  have := hcj
  exact (List.getElem?_eq_some_iff.1 this).1

theorem rowsText_eq {d : RDS T V} {pend : List (T × (Nat → Nat → V))} (h : Holds d pend) (hn : 0 < d.n) :
    (d.reduceAll.bind fun vals => rowsText f d.ticks vals) = some (pend.flatMap (rowOf f d.cols d.n)) := by
  rw [reduceAll_eq h hn, Option.bind_some]
  unfold rowsText
  rw [h.ticks]
  rw [mapM_some' (g := fun ti : T × Nat => match pend[ti.2]? with | some p => rowOf f d.cols d.n p | none => [])]
  · rw [Option.map_some, List.flatMap]
    congr 2
    apply List.ext_getElem?
    intro i
    simp only [List.getElem?_map, List.getElem?_zipIdx]
    cases hp : pend[i]? with
    | none => rfl
    | some p => simp [hp]
  · intro ti hti
    rw [List.mem_zipIdx_iff_getElem?, List.getElem?_map, Option.map_eq_some_iff] at hti
    obtain ⟨p, hp, hpt⟩ := hti
    simp only [hp]
    rw [mapM_some' (g := fun c : List V => (c[ti.2]?).getD (p.2 0 0))]
    · simp only [Option.map_some, List.map_map, Option.some.injEq]
      unfold rowText rowOf
      rw [hpt]
      congr 2
      rw [List.flatMap, List.map_map]
      congr 1
      apply List.ext_getElem?
      intro j
      simp only [List.getElem?_map, List.getElem?_zipIdx, List.getElem?_mapIdx]
      cases d.cols[j]? with
      | none => rfl
      | some c => simp [hp]
    · intro c hc
      rw [List.mem_map] at hc
      obtain ⟨cj, _, rfl⟩ := hc
      simp [hp]

theorem write_eq {x : FS × RDS T V} {pend : List (T × (Nat → Nat → V))} (h : Holds x.2 pend) (hn : 0 < x.2.n) :
    RDS.write f x = some ({ x.1 with files := appendFile x.1.files x.2.path (pend.flatMap (rowOf f x.2.cols x.2.n)) },
      { x.2 with ticks := [], logs := fun r => (x.2.logs r).map fun l => { l with idx := 0 } }) := by
  have := rowsText_eq f h hn
  unfold RDS.write
  cases hr : x.2.reduceAll with
  | none => rw [hr] at this; cases this
  | some vals =>
    rw [hr, Option.bind_some] at this
    rw [Option.bind_some, this, Option.map_some]

theorem holds_written {d : RDS T V} {pend : List (T × (Nat → Nat → V))} (h : Holds d pend) :
    Holds { d with ticks := ([] : List T), logs := fun r => (d.logs r).map fun l => { l with idx := 0 } } [] := by
  refine ⟨rfl, ?_, ?_⟩
  · intro r hr; simpa using h.len r hr
  · intro r hr j l hl
    simp only [List.getElem?_map, Option.map_eq_some_iff] at hl
    obtain ⟨l', hl', rfl⟩ := hl
    exact ⟨rfl, by simp, by simp⟩

theorem holds_logAll {d : RDS T V} {pend : List (T × (Nat → Nat → V))} (h : Holds d pend) (t : T) (v : Nat → Nat → V) :
    Holds (d.logAll t v) (pend ++ [(t, v)]) := by
  refine ⟨by simp [RDS.logAll, h.ticks], ?_, ?_⟩
  · intro r hr
    have := h.len r hr
    simp [RDS.logAll, this]
  · intro r hr j l hl
    simp only [RDS.logAll, List.getElem?_mapIdx, Option.map_eq_some_iff] at hl
    obtain ⟨⟨l', c⟩, hl', rfl⟩ := hl
    rw [List.getElem?_zip_eq_some] at hl'
    obtain ⟨h1, h2, h3⟩ := h.idx r hr j l' hl'.1
    unfold RLog.log
    simp only []
    have hlen : pend.length < (if l'.idx = l'.data.length then l'.data ++ List.replicate 500 c.zero else l'.data).length := by
      split
      · rw [List.length_append, List.length_replicate]; omega
      · omega
    refine ⟨by simp [h1], ?_, ?_⟩
    · simp only [List.length_set, List.length_append, List.length_cons, List.length_nil]
      omega
    · intro i p hp
      rw [h1] at *
      by_cases hi : i = pend.length
      · subst hi
        rw [List.getElem?_append_right (by omega)] at hp
        simp only [Nat.sub_self, List.getElem?_cons_zero, Option.some.injEq] at hp
        subst hp
        rw [List.getElem?_set_self hlen]
      · rw [List.getElem?_set_ne (fun e => hi e.symm)]
        have hi' : i < pend.length := by
          have := (List.getElem?_eq_some_iff.1 hp).1
          simp at this
          omega
        rw [List.getElem?_append_left hi'] at hp
        have h4 := h3 i p hp
        split
        · rw [List.getElem?_append_left (List.getElem?_eq_some_iff.1 h4).1, h4]
        · exact h4

/-- The state after some calls: `done` are the calls whose rows are in the file. -/
structure RInv (cols : List (Col V)) (n : Nat) (path : Text) (fs0 : FS) (x : FS × RDS T V) (calls : List (T × (Nat → Nat → V))) : Prop where
  ecols : x.2.cols = cols
  en : x.2.n = n
  epath : x.2.path = path
  split : ∃ done pend, calls = done ++ pend ∧ Holds x.2 pend ∧ x.1.read path = some (header f cols ++ done.flatMap (rowOf f cols n))
  other : ∀ q, q ≠ path → x.1.read q = fs0.read q

theorem rinv_write {cols : List (Col V)} {n : Nat} {path : Text} {fs0 : FS} {x : FS × RDS T V} {calls : List (T × (Nat → Nat → V))}
    (hn : 0 < n) (h : RInv f cols n path fs0 x calls) :
    ∃ y, RDS.write f x = some y ∧ RInv f cols n path fs0 y calls ∧ y.1.read path = some (header f cols ++ calls.flatMap (rowOf f cols n)) := by
  obtain ⟨done, pend, h1, h2, h3⟩ := h.split
  have e1 := h.ecols
  have e2 := h.en
  have e3 := h.epath
  have hr : (appendFile x.1.files x.2.path (pend.flatMap (rowOf f x.2.cols x.2.n))).lookup path =
      some (header f cols ++ calls.flatMap (rowOf f cols n)) := by
    rw [lookup_append, if_pos e3.symm, e1, e2, e3, h1]
    have h3' : x.1.files.lookup path = _ := h3
    rw [h3']
    simp
  refine ⟨_, write_eq f h2 (e2 ▸ hn), ⟨e1, e2, e3, ⟨calls, [], by simp, holds_written h2, hr⟩, ?_⟩, hr⟩
  intro q hq
  show (appendFile x.1.files x.2.path _).lookup q = _
  rw [lookup_append, if_neg (by rw [e3]; exact hq)]
  exact h.other q hq

theorem full_eq {d : RDS T V} {pend : List (T × (Nat → Nat → V))} (h : Holds d pend) (hc : d.cols ≠ []) {r : Nat} (hr : r < d.n) :
    d.full r = some (decide (d.buf ≤ pend.length)) := by
  obtain ⟨l, hl⟩ := h.col hr (List.length_pos_iff.2 hc)
  unfold RDS.full
  rw [hl, Option.map_some, (h.idx r hr 0 l hl).1]

theorem rinv_log {cols : List (Col V)} {n : Nat} {path : Text} {fs0 : FS} {x : FS × RDS T V} {calls : List (T × (Nat → Nat → V))}
    (hn : 0 < n) (hc : cols ≠ []) (h : RInv f cols n path fs0 x calls) (t : T) (v : Nat → Nat → V) :
    ∃ y, RDS.log f x t v = some y ∧ RInv f cols n path fs0 y (calls ++ [(t, v)]) := by
  obtain ⟨done, pend, h1, h2, h3⟩ := h.split
  have hd : RInv f cols n path fs0 (x.1, x.2.logAll t v) (calls ++ [(t, v)]) := by
    refine ⟨h.ecols, h.en, h.epath, ⟨done, pend ++ [(t, v)], by rw [h1]; simp, holds_logAll h2 t v, h3⟩, h.other⟩
  have hcx : (x.2.logAll t v).cols ≠ [] := by
    show x.2.cols ≠ []
    rw [h.ecols]
    exact hc
  have hf := fun r hr => full_eq (holds_logAll h2 t v) hcx (r := r) hr
  unfold RDS.log
  simp only []
  by_cases hb : (x.2.logAll t v).buf ≤ ((pend ++ [(t, v)]).length : Int)
  · rw [if_pos]
    · obtain ⟨y, h4, h5, _⟩ := rinv_write f hn hd
      exact ⟨y, h4, h5⟩
    · unfold ranks
      rw [List.all_eq_true]
      intro r hr
      rw [hf r (List.mem_range.1 hr)]
      simpa using hb
  · rw [if_neg, if_pos]
    · exact ⟨_, rfl, hd⟩
    · unfold ranks
      rw [List.all_eq_true]
      intro r hr
      rw [hf r (List.mem_range.1 hr)]
      simpa using hb
    · unfold ranks
      rw [List.all_eq_true]
      intro hall
      have := hall 0 (List.mem_range.2 (by rw [show (x.2.logAll t v).n = x.2.n from rfl, h.en]; exact hn))
      rw [hf 0 (by rw [show (x.2.logAll t v).n = x.2.n from rfl, h.en]; exact hn)] at this
      simp at this
      simp at hb
      omega

theorem rinv_run {cols : List (Col V)} {n : Nat} {path : Text} {fs0 : FS} (hn : 0 < n) (hc : cols ≠ []) (ops : List (DOp T V)) :
    ∀ {x : FS × RDS T V} {calls : List (T × (Nat → Nat → V))}, RInv f cols n path fs0 x calls →
    ∃ y, RDS.run f x ops = some y ∧ RInv f cols n path fs0 y (calls ++ logged ops) := by
  induction ops with
  | nil => intro x calls h; exact ⟨x, rfl, by simpa [logged] using h⟩
  | cons o ops ih =>
    intro x calls h
    have : ∃ y, RDS.step f x o = some y ∧ RInv f cols n path fs0 y (calls ++ logged [o]) := by
      cases o with
      | log t v => exact rinv_log f hn hc h t v
      | write =>
        obtain ⟨y, h1, h2, _⟩ := rinv_write f hn h
        exact ⟨y, h1, by simpa [logged] using h2⟩
    obtain ⟨y, h1, h2⟩ := this
    obtain ⟨z, h3, h4⟩ := ih h2
    refine ⟨z, ?_, ?_⟩
    · unfold RDS.run
      rw [List.foldlM_cons, h1]
      exact h3
    · have e : logged (o :: ops) = logged [o] ++ logged ops := by
        unfold logged
        rw [← List.filterMap_append]
        rfl
      rw [e, ← List.append_assoc]
      exact h4

theorem rinv_new {cols : List (Col V)} {n : Nat} {buf : Int} {fs : FS} {dir name : Text} {x : FS × RDS T V}
    (h : RDS.new f cols n buf fs dir name = some x) : findFree fs dir name = some x.2.path ∧ RInv f cols n x.2.path fs x [] := by
  unfold RDS.new at h
  obtain ⟨path, h1, h⟩ := Option.bind_eq_some_iff.1 h
  obtain ⟨fs1, h2, h⟩ := Option.bind_eq_some_iff.1 h
  obtain ⟨fs2, h3, h⟩ := Option.map_eq_some_iff.1 h
  subst h
  have hl : ∀ q, fs2.read q = if q = path then some (header f cols) else fs.read q := by
    intro q
    unfold FS.read
    rw [(create_files h3).1, lookup_write, (makeParent_files h2).1]
  refine ⟨h1, rfl, rfl, rfl, ⟨[], [], rfl, ⟨rfl, ?_, ?_⟩, ?_⟩, ?_⟩
  · intro r _; simp
  · intro r _ j l hl
    simp only [List.getElem?_map, Option.map_eq_some_iff] at hl
    obtain ⟨c, _, rfl⟩ := hl
    exact ⟨rfl, by simp, by simp⟩
  · rw [hl, if_pos rfl]; simp
  · intro q hq
    rw [hl, if_neg hq]

/-- C46: whatever the buffer size, the columns, the number of ranks and the calls of `log` and `write`: nothing is raised, and after `close` the file
contains the header, and for each call of `log` one row, in the order of the calls, with the reductions of the values that the ranks had at that call. No other file
is changed. -/
theorem C46_rows {cols : List (Col V)} {n : Nat} {buf : Int} {fs : FS} {dir name : Text} {x : FS × RDS T V} (hn : 0 < n) (hc : cols ≠ [])
    (h : RDS.new f cols n buf fs dir name = some x) (ops : List (DOp T V)) :
    ∃ y z, RDS.run f x ops = some y ∧ RDS.write f y = some z ∧
      z.1.read x.2.path = some ("tick".toList ++ cols.flatMap (fun c => f.delim ++ c.name) ++ "\n".toList ++ (logged ops).flatMap (rowOf f cols n)) ∧
      ∀ q, q ≠ x.2.path → z.1.read q = fs.read q := by
  obtain ⟨y, h1, h2⟩ := rinv_run f hn hc ops (rinv_new f h).2
  obtain ⟨z, h3, h4, h5⟩ := rinv_write f hn h2
  refine ⟨y, z, h1, h3, ?_, h4.other⟩
  rw [h5]
  rfl

/-- C46: at every moment the file contains the header and the rows of the first calls of `log`: a crash loses at most the rows that are still in memory. If the
buffer size is positive then these are fewer than the buffer size. -/
theorem C46_prefix {cols : List (Col V)} {n : Nat} {buf : Int} {fs : FS} {dir name : Text} {x : FS × RDS T V} (hn : 0 < n) (hc : cols ≠ [])
    (h : RDS.new f cols n buf fs dir name = some x) (ops : List (DOp T V)) :
    ∃ y k, RDS.run f x ops = some y ∧ k ≤ (logged ops).length ∧ (0 < buf → (logged ops).length - k < buf) ∧
      y.1.read x.2.path = some (header f cols ++ ((logged ops).take k).flatMap (rowOf f cols n)) := by
  have key : ∀ ops : List (DOp T V), ∃ y, RDS.run f x ops = some y ∧ RInv f cols n x.2.path fs y (logged ops) ∧ y.2.buf = buf ∧
      (0 < buf → (y.2.ticks.length : Int) < buf) := by
    intro ops
    induction ops using snoc_induction with
    | h0 =>
      refine ⟨x, rfl, (rinv_new f h).2, ?_⟩
      unfold RDS.new at h
      obtain ⟨path, h1, h⟩ := Option.bind_eq_some_iff.1 h
      obtain ⟨fs1, h2, h⟩ := Option.bind_eq_some_iff.1 h
      obtain ⟨fs2, h3, h⟩ := Option.map_eq_some_iff.1 h
      subst h
      exact ⟨rfl, fun h => by simpa using h⟩
    | h1 ops o ih =>
      obtain ⟨y, h1, h2, h3, h4⟩ := ih
      have hrun : ∀ z, RDS.step f y o = some z → RDS.run f x (ops ++ [o]) = some z := by
        intro z hz
        unfold RDS.run
        rw [List.foldlM_append]
        show (RDS.run f x ops).bind _ = _
        rw [h1, Option.bind_some, List.foldlM_cons, hz]
        rfl
      have hl : logged (ops ++ [o]) = logged ops ++ logged [o] := by unfold logged; rw [List.filterMap_append]
      obtain ⟨done, pend, e1, e2, e3⟩ := h2.split
      cases o with
      | write =>
        obtain ⟨z, h5, h6, _⟩ := rinv_write f hn h2
        refine ⟨z, hrun z h5, by rw [hl]; simpa [logged] using h6, ?_⟩
        rw [write_eq f e2 (by rw [h2.en]; exact hn)] at h5
        cases h5
        exact ⟨h3, fun h => by simpa using h⟩
      | log t v =>
        obtain ⟨z, h5, h6⟩ := rinv_log f hn hc h2 t v
        refine ⟨z, hrun z h5, by rw [hl]; exact h6, ?_⟩
        have e2' := holds_logAll e2 t v
        unfold RDS.log at h5
        simp only [] at h5
        split at h5
        · rw [write_eq f e2' (by show 0 < y.2.n; rw [h2.en]; exact hn)] at h5
          cases h5
          exact ⟨h3, fun h => by simpa using h⟩
        · rename_i hnf
          split at h5
          · rename_i hf
            cases h5
            refine ⟨h3, fun hb => ?_⟩
            unfold ranks at hf
            rw [List.all_eq_true] at hf
            have h0 : 0 < (y.2.logAll t v).n := by show 0 < y.2.n; rw [h2.en]; exact hn
            have := hf 0 (List.mem_range.2 h0)
            rw [full_eq e2' (by show y.2.cols ≠ []; rw [h2.ecols]; exact hc) h0] at this
            simp only [beq_iff_eq, Option.some.injEq, decide_eq_false_iff_not, Int.not_le] at this
            rw [e2'.ticks, List.length_map]
            have hb' : (y.2.logAll t v).buf = buf := h3
            rw [hb'] at this
            exact this
          · cases h5
  obtain ⟨y, h1, h2, h3, h4⟩ := key ops
  obtain ⟨done, pend, e1, e2, e3⟩ := h2.split
  refine ⟨y, done.length, h1, by rw [e1]; simp, fun hb => ?_, ?_⟩
  · have := h4 hb
    rw [e2.ticks] at this
    rw [e1]
    simp at this ⊢
    omega
  · rw [e3, e1]
    simp

/-- C48: a data set writes to a file that did not exist, and changes no other file. -/
theorem C48_data_set {cols : List (Col V)} {n : Nat} {buf : Int} {fs : FS} {dir name : Text} {x : FS × RDS T V} (hn : 0 < n) (hc : cols ≠ [])
    (h : RDS.new f cols n buf fs dir name = some x) (ops : List (DOp T V)) :
    ∃ y, RDS.run f x ops = some y ∧ ¬ IsThere fs x.2.path ∧ ∀ q, IsThere fs q → y.1.read q = fs.read q := by
  simp only [isThere_iff]
  obtain ⟨h0, h1⟩ := rinv_new f h
  obtain ⟨y, h2, h3⟩ := rinv_run f hn hc ops h1
  have hp := findFree_fresh h0
  exact ⟨y, h2, hp, fun q hq => h3.other q (fun e => hp (e ▸ hq))⟩

/-- C53: a data set can be created for every file in a directory: one that exists, or that can be made. The file contains the header. -/
theorem C53_data_set_partial (cols : List (Col V)) (n : Nat) (buf : Int) (fs : FS) (dir name : Text) (hd : dir ≠ []) (hn : name ≠ [])
    (hf : dir ∉ fs.files.map (·.1)) : ∃ x, RDS.new f cols n buf fs dir name = some x ∧ x.1.read x.2.path = some (header f cols) := by
  obtain ⟨path, hp⟩ := findFree_isSome fs dir name hn
  have h2 : ∃ fs1, makeParent fs dir = some fs1 ∧ dir ∈ fs1.dirs := by
    unfold makeParent
    by_cases hh : fs.has dir
    · rw [if_pos ⟨hd, hh⟩]
      rw [has_iff] at hh
      unfold FS.names at hh
      rw [List.mem_append] at hh
      exact ⟨fs, rfl, hh.resolve_left hf⟩
    · rw [if_neg (fun h => hh h.2), if_neg hd]
      exact ⟨_, rfl, by simp⟩
  obtain ⟨fs1, h2, h3⟩ := h2
  have h4 : ∃ fs2, create fs1 dir path (header f cols) = some fs2 := by
    unfold create
    rw [if_pos]
    · exact ⟨_, rfl⟩
    · unfold pathDir
      split
      · exact .inl rfl
      · exact .inr h3
  obtain ⟨fs2, h4⟩ := h4
  have hx : RDS.new f cols n buf fs dir name = some (fs2, { cols := cols, n := n, buf := buf, path := path, ticks := [], logs := fun _ => cols.map fun c => RLog.new c.zero }) := by
    unfold RDS.new
    rw [hp, Option.bind_some, h2, Option.bind_some, h4, Option.map_some]
  refine ⟨_, hx, ?_⟩
  unfold FS.read
  rw [(create_files h4).1, lookup_write, if_pos rfl]

/-- C53 is violated for a file name without a directory: `os.makedirs('')` raises a `FileNotFoundError`. -/
theorem C53_violation_data_set (cols : List (Col V)) (n : Nat) (buf : Int) (fs : FS) (name : Text) : RDS.new f cols n buf fs [] name = none := by
  unfold RDS.new
  cases findFree fs [] name with
  | none => rfl
  | some p => simp [makeParent]

end

/-! ### `TabularLogger` -/

section
variable {R : Type} (csv : R → Text)

/-- The rows that rank `r` logs in a history, each with the number of writes before it (`w` is the number of writes before the history). -/
def rowsOf (r : Nat) (w : Nat) : List (TOp R) → List (Nat × R)
  | [] => []
  | .row k a :: ops => if k = r then (w, a) :: rowsOf r w ops else rowsOf r w ops
  | .write :: ops => rowsOf r (w + 1) ops

def writes : List (TOp R) → Nat
  | [] => 0
  | .row _ _ :: ops => writes ops
  | .write :: ops => writes ops + 1

/-- A row in the file: the number of writes before it was logged, its rank, and its values. -/
structure Entry (R : Type) where
  phase : Nat
  rank : Nat
  row : R

/-- The order of the rows: those of earlier writes come first, then those of smaller ranks. -/
def Entry.le (a b : Entry R) : Prop := a.phase < b.phase ∨ (a.phase = b.phase ∧ a.rank ≤ b.rank)

theorem rowsOf_append (r w : Nat) (a b : List (TOp R)) : rowsOf r w (a ++ b) = rowsOf r w a ++ rowsOf r (w + writes a) b := by
  induction a generalizing w with
  | nil => rfl
  | cons o a ih =>
    cases o with
    | row k v =>
      by_cases h : k = r <;> simp [rowsOf, writes, h, ih]
    | write => simp only [List.cons_append, rowsOf, writes, ih]; congr 2; omega

/-- The state after a history: `L` are the rows in the file. -/
structure TInv (head : Text) (n : Nat) (path : Text) (fs0 : FS) (x : FS × Tab R) (ops : List (TOp R)) (L : List (Entry R)) : Prop where
  en : x.2.n = n
  epath : x.2.path = path
  content : x.1.read path = some (head ++ L.flatMap fun e => csv e.row)
  other : ∀ q, q ≠ path → x.1.read q = fs0.read q
  sorted : L.Pairwise Entry.le
  phase : ∀ e ∈ L, e.phase < writes ops
  rank : ∀ e ∈ L, e.rank < n
  rows : ∀ r < n, rowsOf r 0 ops = (L.filter fun e => e.rank = r).map (fun e => (e.phase, e.row)) ++ (x.2.rows r).map fun a => (writes ops, a)

theorem writes_append (a b : List (TOp R)) : writes (a ++ b) = writes a + writes b := by
  induction a with
  | nil => simp [writes]
  | cons o a ih => cases o <;> simp [writes, ih] ; omega

/-- The rows of all ranks, in the order of the ranks. -/
def gathered (n w : Nat) (rows : Nat → List R) : List (Entry R) := (List.range n).flatMap fun r => (rows r).map fun a => ⟨w, r, a⟩

theorem filter_gathered (n w : Nat) (rows : Nat → List R) {r : Nat} (hr : r < n) :
    (gathered n w rows).filter (fun e => e.rank = r) = (rows r).map fun a => ⟨w, r, a⟩ := by
  unfold gathered
  induction n with
  | zero => omega
  | succ n ih =>
    rw [List.range_succ, List.flatMap_append, List.filter_append]
    by_cases h : r = n
    · subst h
      have h1 : ((List.range r).flatMap fun r => (rows r).map fun a => (⟨w, r, a⟩ : Entry R)).filter (fun e => e.rank = r) = [] := by
        rw [List.filter_eq_nil_iff]
        intro e he
        rw [List.mem_flatMap] at he
        obtain ⟨k, hk, he⟩ := he
        rw [List.mem_map] at he
        obtain ⟨a, _, rfl⟩ := he
        rw [List.mem_range] at hk
        simp
        omega
      rw [h1]
      simp only [List.flatMap_cons, List.flatMap_nil, List.append_nil, List.nil_append]
      rw [List.filter_eq_self]
      intro e he
      rw [List.mem_map] at he
      obtain ⟨a, _, rfl⟩ := he
      simp
    · rw [ih (by omega)]
      have : ([n].flatMap fun r => (rows r).map fun a => (⟨w, r, a⟩ : Entry R)).filter (fun e => e.rank = r) = [] := by
        rw [List.filter_eq_nil_iff]
        intro e he
        simp only [List.flatMap_cons, List.flatMap_nil, List.append_nil, List.mem_map] at he
        obtain ⟨a, _, rfl⟩ := he
        simp
        omega
      rw [this, List.append_nil]

theorem gathered_mem {n w : Nat} {rows : Nat → List R} {e : Entry R} (h : e ∈ gathered n w rows) : e.phase = w ∧ e.rank < n := by
  unfold gathered at h
  rw [List.mem_flatMap] at h
  obtain ⟨k, hk, he⟩ := h
  rw [List.mem_map] at he
  obtain ⟨a, _, rfl⟩ := he
  exact ⟨rfl, List.mem_range.1 hk⟩

theorem gathered_sorted (n w : Nat) (rows : Nat → List R) : (gathered n w rows).Pairwise Entry.le := by
  induction n with
  | zero => simp [gathered]
  | succ n ih =>
    have e : gathered (n + 1) w rows = gathered n w rows ++ (rows n).map fun a => ⟨w, n, a⟩ := by
      unfold gathered
      rw [List.range_succ, List.flatMap_append]
      simp
    rw [e, List.pairwise_append]
    refine ⟨ih, ?_, ?_⟩
    · rw [List.pairwise_map]
      exact List.pairwise_of_forall (fun _ _ => .inr ⟨rfl, Nat.le_refl _⟩)
    · intro a ha b hb
      obtain ⟨h1, h2⟩ := gathered_mem ha
      rw [List.mem_map] at hb
      obtain ⟨v, _, rfl⟩ := hb
      exact .inr ⟨h1, by simp; omega⟩

theorem tinv_row {head : Text} {n : Nat} {path : Text} {fs0 : FS} {x : FS × Tab R} {ops : List (TOp R)} {L : List (Entry R)}
    (h : TInv csv head n path fs0 x ops L) (r : Nat) (a : R) : TInv csv head n path fs0 (Tab.step csv x (.row r a)) (ops ++ [.row r a]) L := by
  have hw : writes (ops ++ [.row r a]) = writes ops := by rw [writes_append]; rfl
  refine ⟨h.en, h.epath, h.content, h.other, h.sorted, by rw [hw]; exact h.phase, h.rank, ?_⟩
  intro k hk
  rw [rowsOf_append, h.rows k hk, hw]
  show _ = _ ++ (if k = r then x.2.rows k ++ [a] else x.2.rows k).map _
  by_cases e : k = r
  · subst e
    simp [rowsOf]
  · have : r ≠ k := fun h => e h.symm
    simp [rowsOf, e, this]

theorem tinv_write {head : Text} {n : Nat} {path : Text} {fs0 : FS} {x : FS × Tab R} {ops : List (TOp R)} {L : List (Entry R)}
    (h : TInv csv head n path fs0 x ops L) :
    TInv csv head n path fs0 (Tab.step csv x .write) (ops ++ [.write]) (L ++ gathered n (writes ops) x.2.rows) := by
  have hw : writes (ops ++ [.write]) = writes ops + 1 := by rw [writes_append]; rfl
  refine ⟨h.en, h.epath, ?_, ?_, ?_, ?_, ?_, ?_⟩
  · show (appendFile x.1.files x.2.path _).lookup path = _
    rw [lookup_append, if_pos h.epath.symm, h.epath]
    have : x.1.files.lookup path = _ := h.content
    rw [this, h.en]
    unfold gathered
    simp [List.flatMap_append, List.flatMap_assoc, List.flatMap_map]
  · intro q hq
    show (appendFile x.1.files x.2.path _).lookup q = _
    rw [lookup_append, if_neg (by rw [h.epath]; exact hq)]
    exact h.other q hq
  · rw [List.pairwise_append]
    refine ⟨h.sorted, gathered_sorted _ _ _, ?_⟩
    intro a ha b hb
    exact .inl (by rw [(gathered_mem hb).1]; exact h.phase a ha)
  · intro e he
    rw [hw]
    rcases List.mem_append.1 he with he | he
    · have := h.phase e he; omega
    · rw [(gathered_mem he).1]; omega
  · intro e he
    rcases List.mem_append.1 he with he | he
    · exact h.rank e he
    · exact (gathered_mem he).2
  · intro r hr
    rw [rowsOf_append, h.rows r hr, List.filter_append, filter_gathered _ _ _ hr]
    simp [Tab.step, rowsOf]

theorem tinv_run {head : Text} {n : Nat} {fs : FS} {dir name : Text} {x : FS × Tab R} (h : Tab.new head n fs dir name = some x) (ops : List (TOp R)) :
    findFree fs dir name = some x.2.path ∧ ∃ L, TInv csv head n x.2.path fs (Tab.run csv x ops) ops L := by
  unfold Tab.new at h
  obtain ⟨path, h1, h⟩ := Option.bind_eq_some_iff.1 h
  obtain ⟨fs1, h2, h⟩ := Option.bind_eq_some_iff.1 h
  obtain ⟨fs2, h3, h⟩ := Option.map_eq_some_iff.1 h
  subst h
  refine ⟨h1, ?_⟩
  have hl : ∀ q, fs2.read q = if q = path then some head else fs.read q := by
    intro q
    unfold FS.read
    rw [(create_files h3).1, lookup_write, (makeParent_files h2).1]
  induction ops using snoc_induction with
  | h0 =>
    refine ⟨[], rfl, rfl, ?_, ?_, by simp, by simp, by simp, ?_⟩
    · show fs2.read path = _
      rw [hl, if_pos rfl]; simp
    · intro q hq
      show fs2.read q = _
      rw [hl, if_neg hq]
    · intro r _; simp [rowsOf, Tab.run]
  | h1 ops o ih =>
    obtain ⟨L, hL⟩ := ih
    have e : Tab.run csv (fs2, ({ n := n, path := path, rows := fun _ => [] } : Tab R)) (ops ++ [o]) = Tab.step csv (Tab.run csv (fs2, { n := n, path := path, rows := fun _ => [] }) ops) o := by
      unfold Tab.run
      rw [List.foldl_append]
      rfl
    rw [e]
    cases o with
    | row r a => exact ⟨L, tinv_row csv hL r a⟩
    | write => exact ⟨_, tinv_write csv hL⟩

/-- C47: after any history that ends with `write` (or `close`) the file contains the headers and then rows in an order such that for each rank these are
exactly the rows that it logged, in the order in which it logged them; rows that were logged before an earlier write come first, and among the rows of
one write those of smaller ranks. -/
theorem C47_rows {head : Text} {n : Nat} {fs : FS} {dir name : Text} {x : FS × Tab R} (h : Tab.new head n fs dir name = some x) (ops : List (TOp R)) :
    ∃ L : List (Entry R), (Tab.run csv x (ops ++ [.write])).1.read x.2.path = some (head ++ L.flatMap fun e => csv e.row) ∧
      (∀ r < n, (L.filter fun e => e.rank = r).map (fun e => (e.phase, e.row)) = rowsOf r 0 ops) ∧ (∀ e ∈ L, e.rank < n) ∧ L.Pairwise Entry.le := by
  obtain ⟨_, L0, hL⟩ := tinv_run csv h ops
  have e : Tab.run csv x (ops ++ [.write]) = Tab.step csv (Tab.run csv x ops) .write := by
    unfold Tab.run
    rw [List.foldl_append]
    rfl
  rw [e]
  have hw := tinv_write csv hL
  refine ⟨_, hw.content, ?_, hw.rank, hw.sorted⟩
  intro r hr
  have := hw.rows r hr
  rw [rowsOf_append] at this
  simpa [rowsOf, Tab.step] using this.symm

/-- C48: a tabular logger writes to a file that did not exist, and changes no other file. -/
theorem C48_tabular {head : Text} {n : Nat} {fs : FS} {dir name : Text} {x : FS × Tab R} (h : Tab.new head n fs dir name = some x) (ops : List (TOp R)) :
    ¬ IsThere fs x.2.path ∧ ∀ q, IsThere fs q → (Tab.run csv x ops).1.read q = fs.read q := by
  simp only [isThere_iff]
  obtain ⟨h0, L0, hL⟩ := tinv_run csv h ops
  have hp := findFree_fresh h0
  exact ⟨hp, fun q hq => hL.other q (fun e => hp (e ▸ hq))⟩

/-- C53: a tabular logger can be created for every file in a directory other than the current one: one that exists, or that can be made. -/
theorem C53_tabular_partial (head : Text) (n : Nat) (fs : FS) (dir name : Text) (hd : pathDir dir ≠ []) (hn : name ≠ [])
    (hf : dir ∉ fs.files.map (·.1)) : ∃ x : FS × Tab R, Tab.new head n fs dir name = some x ∧ x.1.read x.2.path = some head := by
  have hdd : pathDir dir = dir := by
    unfold pathDir at hd ⊢
    split at hd
    · exact absurd rfl hd
    · rename_i h; rw [if_neg h]
  obtain ⟨path, hp⟩ := findFree_isSome fs dir name hn
  have h2 : ∃ fs1, makeParent fs dir = some fs1 ∧ dir ∈ fs1.dirs := by
    unfold makeParent
    by_cases hh : fs.has dir
    · rw [if_pos ⟨hdd ▸ hd, hh⟩]
      rw [has_iff] at hh
      unfold FS.names at hh
      rw [List.mem_append] at hh
      exact ⟨fs, rfl, hh.resolve_left hf⟩
    · rw [if_neg (fun h => hh h.2), if_neg (hdd ▸ hd)]
      exact ⟨_, rfl, by simp⟩
  obtain ⟨fs1, h2, h3⟩ := h2
  have h4 : ∃ fs2, create fs1 dir path head = some fs2 := by
    unfold create
    rw [if_pos (.inr (by rw [hdd]; exact h3))]
    exact ⟨_, rfl⟩
  obtain ⟨fs2, h4⟩ := h4
  have hx : Tab.new head n fs dir name = some (fs2, ({ n := n, path := path, rows := fun _ => [] } : Tab R)) := by
    unfold Tab.new
    rw [hp, Option.bind_some, hdd, h2, Option.bind_some, h4, Option.map_some]
  refine ⟨_, hx, ?_⟩
  unfold FS.read
  rw [(create_files h4).1, lookup_write, if_pos rfl]

/-- C53 is violated for a file in the current directory, even as `./name`. -/
theorem C53_violation_tabular (head : Text) (n : Nat) (fs : FS) (dir name : Text) (hd : dir = [] ∨ dir = ".".toList) :
    (Tab.new head n fs dir name : Option (FS × Tab R)) = none := by
  have : pathDir dir = [] := by
    unfold pathDir
    rcases hd with rfl | rfl
    · rfl
    · rfl
  unfold Tab.new
  rw [this]
  cases findFree fs dir name with
  | none => rfl
  | some p => simp [makeParent]

end

/-! ### Examples: the hypotheses are satisfiable -/

/-- Numbers as text. -/
def exFmt : Fmt Nat Nat := { delim := ",".toList, tick := fun n => (toString n).toList, val := fun n => (toString n).toList }

/-- A sum and a maximum. -/
def exCols : List (Col Nat) := [⟨"total".toList, List.sum, 0⟩, ⟨"max".toList, fun l => l.foldl max 0, 0⟩]

/-- An existing file. -/
def exFS : FS := ⟨["out".toList], [("out/a.csv".toList, "x".toList)]⟩

example : ((RDS.new exFmt exCols 3 2 exFS "out".toList "a.csv".toList).bind fun x =>
    (RDS.run exFmt x [.log 1 (fun r j => r + j), .log 2 (fun r _ => 2 * r), .log 3 (fun _ _ => 5)]).bind fun y =>
      (RDS.write exFmt y).map fun z => (x.2.path, y.1.read x.2.path, z.1.read x.2.path, z.1.read "out/a.csv".toList)) =
    some ("out/a_1.csv".toList, some "tick,total,max\n1,3,3\n2,6,4\n".toList, some "tick,total,max\n1,3,3\n2,6,4\n3,15,5\n".toList, some "x".toList) := by
  decide +kernel

example : ((Tab.new "a\n".toList 2 exFS "out".toList "t".toList : Option (FS × Tab Nat)).map fun x =>
    (Tab.run (fun v => (toString v).toList ++ "\n".toList) x [.row 1 7, .row 0 5, .row 1 6, .write, .row 0 3, .write]).1.read x.2.path) =
    some (some "a\n5\n7\n6\n3\n".toList) := by
  decide +kernel

end Repast.Files
