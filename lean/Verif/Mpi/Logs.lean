import Verif.Mpi.Rooted
import Verif.Mpi.Lib
import Verif.Files.Logging

/-!
Data sets (`ReducingDataSet`) and tabular loggers (`TabularLogger`) of ranks that run at their own speed: logging.py:125-143, 260-411, as programs of the single ranks.

`Files` is the state of all ranks together, as in C46 and C47 (`RDS`, `Tab`), here with any number of data sets and loggers that are created at any time. `view r` is what rank `r` has of it: its own values, and
on rank 0 also the file system, the paths of the files and the ticks.

Simplification: the other ranks also look for a free file name (logging.py:284), but do not use it; they have no paths here.
-/
namespace Repast.Mpi.Logs
open Repast.Files

variable {T V R : Type}

/-! ### All ranks together -/

/-- The file system, the data sets and the tabular loggers. -/
structure Files (T V R : Type) where
  fs : FS
  sets : List (RDS T V)
  tabs : List (Tab R)

/-- What a model does with data sets and loggers. `v r j` is the value of column `j` on rank `r`. -/
inductive LOp (T V R : Type) where
  | newSet (cols : List (Col V)) (buf : Int) (dir name : Text)
  | newTab (head dir name : Text)
  | log (j : Nat) (t : T) (v : Nat → Nat → V)
  | write (j : Nat)
  | row (j r : Nat) (a : R)
  | flush (j : Nat)

/-- The functions of `Files/Model.lean` for one of the data sets or loggers: logging.py:266-344 and 357-411. -/
def lstep (n : Nat) (f : Fmt T V) (csv : R → Text) (L : Files T V R) : LOp T V R → Option (Files T V R)
  | .newSet cols buf dir name => (RDS.new f cols n buf L.fs dir name).map fun x => { L with fs := x.1, sets := L.sets ++ [x.2] }
  | .newTab head dir name => (Tab.new head n L.fs dir name).map fun x => { L with fs := x.1, tabs := L.tabs ++ [x.2] }
  | .log j t v => (L.sets[j]?).bind fun d => (RDS.log f (L.fs, d) t v).map fun x => { L with fs := x.1, sets := L.sets.set j x.2 }
  | .write j => (L.sets[j]?).bind fun d => (RDS.write f (L.fs, d)).map fun x => { L with fs := x.1, sets := L.sets.set j x.2 }
  | .row j r a => (L.tabs[j]?).map fun d => { L with tabs := L.tabs.set j (Tab.step csv (L.fs, d) (.row r a)).2 }
  | .flush j => (L.tabs[j]?).map fun d => let x := Tab.step csv (L.fs, d) .write; { L with fs := x.1, tabs := L.tabs.set j x.2 }

def lrun (n : Nat) (f : Fmt T V) (csv : R → Text) (L : Files T V R) (ops : List (LOp T V R)) : Option (Files T V R) := ops.foldlM (lstep n f csv) L

/-! ### One rank -/

/-- logging.py:260-299: the data set of one rank; the path and the ticks are used on rank 0 only. -/
structure RSet (T V : Type) where
  cols : List (Col V)
  buf : Int
  path : Text
  ticks : List T
  logs : List (RLog V)

/-- logging.py:346-371: the tabular logger of one rank. -/
structure RTab (R : Type) where
  path : Text
  rows : List R

/-- What one rank has. -/
structure RFiles (T V R : Type) where
  fs : FS
  sets : List (RSet T V)
  tabs : List (RTab R)

def emptyFS : FS := ⟨[], []⟩

/-- logging.py:125-143 `reduce`, on rank 0: the buffers of the ranks are reduced element by element; `none` if they have different lengths. -/
def reduceVals (c : Col V) (k : Nat) (bufs : List (List V)) : Option (List V) :=
  if bufs.all fun b => b.length = k then some ((List.range k).map fun i => c.op (bufs.filterMap fun b => b[i]?)) else none

/-- logging.py:328: `[x.reduce(self._comm) for x in self._data_loggers]`. `Reduce` returns nothing on other ranks than 0 (`recv_buf` is `None`). -/
def reduceCols (r : Nat) : List (Col V × RLog V) → Prog (List (List V))
  | [] => .ret []
  | x :: xs => (Prog.call reduceSite (x.2.data.take x.2.idx)).bind fun bufs =>
      (Prog.lift (if r = 0 then reduceVals x.1 x.2.idx bufs else some [])).bind fun v => (reduceCols r xs).bind fun vs => .ret (v :: vs)

/-- logging.py:142, 329-344: the second part of `write`, with the reduced values. -/
def writeRows (f : Fmt T V) (r : Nat) (fs : FS) (s : RSet T V) (vals : List (List V)) : Prog (FS × RSet T V) :=
  let s' : RSet T V := { s with logs := s.logs.map fun l => { l with idx := 0 } }
  if r = 0 then Prog.lift ((rowsText f s.ticks vals).map fun t => ({ fs with files := appendFile fs.files s.path t }, { s' with ticks := [] })) else .ret (fs, s')

/-- logging.py:323-344 `write` (also `close`, logging.py:301-305). -/
def writeOwn (f : Fmt T V) (r : Nat) (fs : FS) (s : RSet T V) : Prog (FS × RSet T V) :=
  (reduceCols r (s.cols.zip s.logs)).bind fun vals => writeRows f r fs s vals

/-- logging.py:307-318: the first part of `log`. -/
def RSet.logOwn (r : Nat) (s : RSet T V) (t : T) (v : Nat → V) : RSet T V :=
  { s with ticks := if r = 0 then s.ticks ++ [t] else s.ticks, logs := (s.logs.zip s.cols).mapIdx fun j lc => lc.1.log lc.2.zero (v j) }

/-- logging.py:307-321 `log`. -/
def logOwn (f : Fmt T V) (r : Nat) (fs : FS) (s : RSet T V) (t : T) (v : Nat → V) : Prog (FS × RSet T V) :=
  let s := s.logOwn r t v
  (Prog.lift (s.logs[0]?)).bind fun l => if s.buf ≤ l.idx then writeOwn f r fs s else .ret (fs, s)

/-- logging.py:392-405 `write` of a tabular logger. -/
def flushOwn (csv : R → Text) (r : Nat) (fs : FS) (s : RTab R) : Prog (FS × RTab R) :=
  (Prog.call gatherSite s.rows).bind fun all =>
    let fs : FS := if r = 0 then { fs with files := appendFile fs.files s.path (all.flatMap fun rows => rows.flatMap csv) } else fs
    .ret (fs, { s with rows := [] })

/-- What rank `r` does of an operation. -/
def part (f : Fmt T V) (csv : R → Text) (r : Nat) (o : LOp T V R) (c : RFiles T V R) : Prog (RFiles T V R) :=
  match o with
  | .newSet cols buf dir name =>
    let s : RSet T V := { cols := cols, buf := buf, path := [], ticks := [], logs := cols.map fun c => RLog.new c.zero }
    if r = 0 then
      Prog.lift ((findFree c.fs dir name).bind fun path => (makeParent c.fs dir).bind fun fs => (create fs dir path (header f cols)).map fun fs =>
        { c with fs := fs, sets := c.sets ++ [{ s with path := path }] })
    else .ret { c with sets := c.sets ++ [s] }
  | .newTab head dir name =>
    if r = 0 then
      Prog.lift ((findFree c.fs dir name).bind fun path => (makeParent c.fs (pathDir dir)).bind fun fs => (create fs dir path head).map fun fs =>
        { c with fs := fs, tabs := c.tabs ++ [{ path := path, rows := [] }] })
    else .ret { c with tabs := c.tabs ++ [{ path := [], rows := [] }] }
  | .log j t v => (Prog.lift (c.sets[j]?)).bind fun s => (logOwn f r c.fs s t (v r)).bind fun x => .ret { c with fs := x.1, sets := c.sets.set j x.2 }
  | .write j => (Prog.lift (c.sets[j]?)).bind fun s => (writeOwn f r c.fs s).bind fun x => .ret { c with fs := x.1, sets := c.sets.set j x.2 }
  | .row j q a => (Prog.lift (c.tabs[j]?)).bind fun s => .ret (if q = r then { c with tabs := c.tabs.set j { s with rows := s.rows ++ [a] } } else c)
  | .flush j => (Prog.lift (c.tabs[j]?)).bind fun s => (flushOwn csv r c.fs s).bind fun x => .ret { c with fs := x.1, tabs := c.tabs.set j x.2 }

/-- What rank `r` does of a history. -/
def parts (f : Fmt T V) (csv : R → Text) (r : Nat) (ops : List (LOp T V R)) (c : RFiles T V R) : Prog (RFiles T V R) := Prog.forM (part f csv r) ops c

/-! ### What a rank has -/

def viewSet (r : Nat) (d : RDS T V) : RSet T V := { cols := d.cols, buf := d.buf, path := if r = 0 then d.path else [], ticks := if r = 0 then d.ticks else [], logs := d.logs r }
def viewTab (r : Nat) (d : Tab R) : RTab R := { path := if r = 0 then d.path else [], rows := d.rows r }
def view (r : Nat) (L : Files T V R) : RFiles T V R := { fs := if r = 0 then L.fs else emptyFS, sets := L.sets.map (viewSet r), tabs := L.tabs.map (viewTab r) }

/-- The loggers of all ranks hold as many values. -/
structure Fit (n : Nat) (L : Files T V R) : Prop where
  sets : ∀ d ∈ L.sets, d.n = n ∧ ∃ pend, Holds d pend
  tabs : ∀ d ∈ L.tabs, d.n = n

variable {n : Nat}

theorem lift_some {α β : Type} (a : α) (q : α → Prog β) : (Prog.lift (some a)).bind q = q a := rfl

/-- The reduction of a column. -/
def reduced (n : Nat) (z : Col V × (Nat → RLog V)) : List V :=
  (List.range (z.2 0).idx).map fun i => z.1.op ((List.range n).filterMap fun r => (z.2 r).data[i]?)

theorem reduceVals_eq (z : Col V × (Nat → RLog V)) (h : ∀ r < n, (z.2 r).idx = (z.2 0).idx ∧ (z.2 r).idx ≤ (z.2 r).data.length) :
    reduceVals z.1 (z.2 0).idx ((List.range n).map fun r => (z.2 r).data.take (z.2 r).idx) = some (reduced n z) := by
  unfold reduceVals
  rw [if_pos]
  · unfold reduced
    congr 1
    refine List.map_congr_left fun i hi => ?_
    rw [List.filterMap_map]
    congr 1
    have hi := List.mem_range.1 hi
    have : ∀ r ∈ List.range n, ((z.2 r).data.take (z.2 r).idx)[i]? = (z.2 r).data[i]? := by
      intro r hr
      rw [List.getElem?_take, if_pos (by rw [(h r (List.mem_range.1 hr)).1]; exact hi)]
    revert this
    generalize List.range n = l
    intro this
    induction l with
    | nil => rfl
    | cons r l ih =>
      rw [List.filterMap_cons, List.filterMap_cons, ih fun r hr => this r (List.mem_cons_of_mem _ hr)]
      simp only [Function.comp]
      rw [this r List.mem_cons_self]
  · rw [List.all_eq_true]
    intro b hb
    obtain ⟨r, hr, rfl⟩ := List.mem_map.1 hb
    have := h r (List.mem_range.1 hr)
    rw [decide_eq_true_eq, List.length_take]
    omega

theorem lock_reduceCols (zs : List (Col V × (Nat → RLog V))) (h : ∀ z ∈ zs, ∀ r < n, (z.2 r).idx = (z.2 0).idx ∧ (z.2 r).idx ≤ (z.2 r).data.length) :
    Lock n (fun i => reduceCols i (zs.map fun z => (z.1, z.2 i))) (some fun i => if i = 0 then zs.map (reduced n) else zs.map fun _ => []) := by
  induction zs with
  | nil => exact .done fun i _ => by simp [reduceCols]
  | cons z zs ih =>
    have ih := ih fun z hz => h z (List.mem_cons_of_mem _ hz)
    have hz := h z List.mem_cons_self
    refine Lock.called (site := reduceSite) (m := fun i => (z.2 i).data.take (z.2 i).idx) ?_
    have e : ∀ i < n, (if i = 0 then reduceVals z.1 (z.2 i).idx ((List.range n).map fun i => (z.2 i).data.take (z.2 i).idx) else some []) = some (if i = 0 then reduced n z else []) := by
      intro i hi
      by_cases c : i = 0
      · subst c
        rw [if_pos rfl, if_pos rfl]
        exact reduceVals_eq z hz
      · rw [if_neg c, if_neg c]
    have hb := Lock.bind (q := fun i vs => Prog.ret ((if i = 0 then reduced n z else []) :: vs)) ih (o' := fun f => some fun i => (if i = 0 then reduced n z else []) :: f i) fun f _ => .done fun i _ => rfl
    refine (hb.congr fun i hi => ?_).ofSome fun i _ => ?_
    · show (Prog.lift (if i = 0 then _ else _)).bind _ = _
      rw [e i hi]
      rfl
    · by_cases c : i = 0
      · simp [c]
      · simp [c]

/-- The columns with the loggers of all ranks. -/
def columns (d : RDS T V) (dflt : RLog V) : List (Col V × (Nat → RLog V)) := d.cols.zipIdx.map fun cj => (cj.1, fun r => ((d.logs r)[cj.2]?).getD dflt)

theorem columns_view {d : RDS T V} {pend : List (T × (Nat → Nat → V))} (h : Holds d pend) (dflt : RLog V) {r : Nat} (hr : r < d.n) :
    (columns d dflt).map (fun z => (z.1, z.2 r)) = d.cols.zip (d.logs r) := by
  apply List.ext_getElem?
  intro j
  unfold columns
  rw [List.map_map, List.getElem?_map, List.getElem?_zipIdx]
  cases hc : d.cols[j]? with
  | none =>
    have : d.cols.length ≤ j := List.getElem?_eq_none_iff.1 hc
    rw [List.getElem?_eq_none (by rw [List.length_zip]; omega)]
    rfl
  | some c =>
    have hj := (List.getElem?_eq_some_iff.1 hc).1
    obtain ⟨l, hl⟩ := h.col hr hj
    rw [(List.getElem?_zip_eq_some (z := (c, l))).2 ⟨hc, hl⟩]
    simp [hl]

theorem columns_even {d : RDS T V} {pend : List (T × (Nat → Nat → V))} (h : Holds d pend) (hn : 0 < d.n) (dflt : RLog V) :
    ∀ z ∈ columns d dflt, ∀ r < d.n, (z.2 r).idx = (z.2 0).idx ∧ (z.2 r).idx ≤ (z.2 r).data.length := by
  intro z hz r hr
  obtain ⟨cj, hcj, rfl⟩ := List.mem_map.1 hz
  rw [List.mem_zipIdx_iff_getElem?] at hcj
  have hj := (List.getElem?_eq_some_iff.1 hcj).1
  obtain ⟨l, hl⟩ := h.col hr hj
  obtain ⟨l0, hl0⟩ := h.col hn hj
  have h1 := h.idx r hr _ l hl
  have h0 := h.idx 0 hn _ l0 hl0
  simp only [hl, hl0, Option.getD_some]
  omega

theorem columns_reduced {d : RDS T V} {pend : List (T × (Nat → Nat → V))} (h : Holds d pend) (hn : 0 < d.n) (dflt : RLog V) :
    d.reduceAll = some ((columns d dflt).map (reduced d.n)) := by
  unfold RDS.reduceAll columns
  rw [List.map_map]
  apply mapM_some'
  intro cj hcj
  rw [List.mem_zipIdx_iff_getElem?] at hcj
  have hj := (List.getElem?_eq_some_iff.1 hcj).1
  rw [reduce_eq h hn hj]
  obtain ⟨l0, hl0⟩ := h.col hn hj
  simp only [Function.comp, reduced, hl0, Option.getD_some]
  rw [(h.idx 0 hn _ l0 hl0).1]
  congr 1
  apply List.ext_getElem?
  intro i
  rw [List.getElem?_map, List.getElem?_map]
  by_cases hi : i < pend.length
  · rw [List.getElem?_range hi, List.getElem?_eq_getElem hi]
    simp only [Option.map_some, Option.some.injEq]
    congr 1
    have : ∀ r ∈ List.range d.n, ((((d.logs r)[cj.2]?).getD dflt).data[i]?) = some (pend[i].2 r cj.2) := by
      intro r hr
      obtain ⟨l, hl⟩ := h.col (List.mem_range.1 hr) hj
      rw [hl, Option.getD_some]
      exact (h.idx r (List.mem_range.1 hr) _ l hl).2.2 i _ (List.getElem?_eq_getElem hi)
    revert this
    generalize List.range d.n = l
    intro this
    induction l with
    | nil => rfl
    | cons r l ih => rw [List.filterMap_cons, this r List.mem_cons_self, List.map_cons, ih fun r hr => this r (List.mem_cons_of_mem _ hr)]
  · rw [List.getElem?_eq_none (by simpa using hi), List.getElem?_eq_none (by simpa using hi)]
    rfl

/-- What rank `r` has of the file system and a data set. -/
def viewPair (r : Nat) (x : FS × RDS T V) : FS × RSet T V := (if r = 0 then x.1 else emptyFS, viewSet r x.2)

theorem lock_writeOwn (f : Fmt T V) (hn : 0 < n) (fs : FS) {d : RDS T V} (hd : d.n = n) {pend : List (T × (Nat → Nat → V))} (h : Holds d pend) :
    Lock n (fun r => writeOwn f r (if r = 0 then fs else emptyFS) (viewSet r d)) ((RDS.write f (fs, d)).map fun x r => viewPair r x) := by
  have hn' : 0 < d.n := hd ▸ hn
  let dflt : RLog V := ⟨[], 0⟩
  have hw := write_eq f (x := (fs, d)) h hn'
  have ht := rowsText_eq f h hn'
  rw [columns_reduced h hn' dflt, Option.bind_some] at ht
  rw [hw, Option.map_some]
  have hl := lock_reduceCols (n := n) (columns d dflt) (by rw [← hd]; exact columns_even h hn' dflt)
  have hb := Lock.bind (q := fun r vals => writeRows f r (if r = 0 then fs else emptyFS) (viewSet r d) vals)
    (o' := fun _ => some fun r => viewPair r ({ fs with files := appendFile fs.files d.path (pend.flatMap (rowOf f d.cols d.n)) },
      { d with ticks := [], logs := fun r => (d.logs r).map fun l => { l with idx := 0 } })) hl fun g e => ?_
  · refine hb.congr fun r hr => ?_
    unfold writeOwn
    show (reduceCols r (d.cols.zip (d.logs r))).bind _ = _
    rw [← columns_view h dflt (hd ▸ hr)]
  · cases e
    refine .done fun r hr => ?_
    by_cases c : r = 0
    · subst c
      simp only [writeRows, viewSet, viewPair, if_true]
      rw [← hd, ht]
      rfl
    · simp only [writeRows, viewSet, viewPair, if_neg c]

theorem view_logAll (r : Nat) (d : RDS T V) (t : T) (v : Nat → Nat → V) : (viewSet r d).logOwn r t (v r) = viewSet r (d.logAll t v) := by
  unfold RSet.logOwn viewSet RDS.logAll
  by_cases c : r = 0
  · simp [c]
  · simp [c]

theorem lock_logOwn (f : Fmt T V) (hn : 0 < n) (fs : FS) {d : RDS T V} (hd : d.n = n) {pend : List (T × (Nat → Nat → V))} (h : Holds d pend) (t : T) (v : Nat → Nat → V) :
    Lock n (fun r => logOwn f r (if r = 0 then fs else emptyFS) (viewSet r d) t (v r)) ((RDS.log f (fs, d) t v).map fun x r => viewPair r x) := by
  have h' := holds_logAll h t v
  have hd' : (d.logAll t v).n = n := hd
  unfold RDS.log
  simp only []
  by_cases hc : (d.logAll t v).cols = []
  · have hlen : ∀ r < n, ((d.logAll t v).logs r)[0]? = none := by
      intro r hr
      have := h'.len r (hd' ▸ hr)
      rw [hc] at this
      rw [List.length_eq_zero_iff.1 this]; rfl
    have hf : ∀ r < n, (d.logAll t v).full r = none := fun r hr => by unfold RDS.full; rw [hlen r hr]; rfl
    have h0 : ∀ b, ¬ (ranks (d.logAll t v).n (fun r => (d.logAll t v).full r == some b) = true) := by
      intro b hall
      unfold ranks at hall
      rw [List.all_eq_true] at hall
      have := hall 0 (List.mem_range.2 (hd' ▸ hn))
      rw [hf 0 hn] at this
      cases this
    rw [if_neg (h0 true), if_neg (h0 false)]
    refine .raised ⟨0, hn, ?_⟩
    unfold logOwn
    simp only [view_logAll]
    show (Prog.lift (((d.logAll t v).logs 0)[0]?)).bind _ = _
    rw [hlen 0 hn]; rfl
  · have hf := fun r hr => full_eq h' hc (r := r) hr
    have e : ∀ r < n, logOwn f r (if r = 0 then fs else emptyFS) (viewSet r d) t (v r) =
        if (d.logAll t v).buf ≤ ((pend ++ [(t, v)]).length : Int) then writeOwn f r (if r = 0 then fs else emptyFS) (viewSet r (d.logAll t v)) else .ret (viewPair r (fs, d.logAll t v)) := by
      intro r hr
      unfold logOwn
      simp only [view_logAll]
      obtain ⟨l, hl⟩ := h'.col (r := r) (hd' ▸ hr) (List.length_pos_iff.2 hc)
      show (Prog.lift (((d.logAll t v).logs r)[0]?)).bind _ = _
      rw [hl, lift_some, (h'.idx r (hd' ▸ hr) 0 l hl).1]
      rfl
    by_cases hb : (d.logAll t v).buf ≤ ((pend ++ [(t, v)]).length : Int)
    · rw [if_pos]
      · exact (lock_writeOwn f hn fs hd' h').congr fun r hr => by rw [e r hr, if_pos hb]
      · unfold ranks
        rw [List.all_eq_true]
        intro r hr
        rw [hf r (List.mem_range.1 hr)]
        simpa using hb
    · rw [if_neg, if_pos]
      · exact .done fun r hr => by rw [e r hr, if_neg hb]
      · unfold ranks
        rw [List.all_eq_true]
        intro r hr
        rw [hf r (List.mem_range.1 hr)]
        simpa using hb
      · unfold ranks
        rw [List.all_eq_true]
        intro hall
        have := hall 0 (List.mem_range.2 (hd' ▸ hn))
        rw [hf 0 (hd' ▸ hn)] at this
        simp at this
        simp at hb
        omega

/-! ### The invariant -/

theorem log_holds {f : Fmt T V} (hn : 0 < n) {fs : FS} {d : RDS T V} (hd : d.n = n) (h : ∃ pend, Holds d pend) {t : T} {v : Nat → Nat → V} {x : FS × RDS T V} (e : RDS.log f (fs, d) t v = some x) :
    x.2.n = n ∧ ∃ pend, Holds x.2 pend := by
  obtain ⟨pend, h⟩ := h
  have h' := holds_logAll h t v
  unfold RDS.log at e
  simp only [] at e
  split at e
  · rw [write_eq f (x := (fs, d.logAll t v)) h' (by show 0 < d.n; omega)] at e
    cases e
    exact ⟨hd, _, holds_written h'⟩
  · split at e
    · cases e
      exact ⟨hd, _, h'⟩
    · cases e

theorem write_holds {f : Fmt T V} (hn : 0 < n) {fs : FS} {d : RDS T V} (hd : d.n = n) (h : ∃ pend, Holds d pend) {x : FS × RDS T V} (e : RDS.write f (fs, d) = some x) :
    x.2.n = n ∧ ∃ pend, Holds x.2 pend := by
  obtain ⟨pend, h⟩ := h
  rw [write_eq f (x := (fs, d)) h (by show 0 < d.n; omega)] at e
  cases e
  exact ⟨hd, _, holds_written h⟩

theorem mem_set {α : Type} {l : List α} {j : Nat} {a x : α} (h : x ∈ l.set j a) : x = a ∨ x ∈ l := by
  rw [List.mem_iff_getElem?] at h
  obtain ⟨i, h⟩ := h
  rw [List.getElem?_set] at h
  split at h
  · split at h
    · cases h; exact .inl rfl
    · cases h
  · exact .inr (List.mem_of_getElem? h)

theorem Fit.step {f : Fmt T V} {csv : R → Text} (hn : 0 < n) {L L' : Files T V R} (h : Fit n L) {o : LOp T V R} (e : lstep n f csv L o = some L') : Fit n L' := by
  cases o with
  | newSet cols buf dir name =>
    obtain ⟨x, hx, rfl⟩ := Option.map_eq_some_iff.1 e
    have hi := (rinv_new f hx).2
    obtain ⟨done, pend, -, hp, -⟩ := hi.split
    refine ⟨fun d hd => ?_, h.tabs⟩
    rcases List.mem_append.1 hd with hd | hd
    · exact h.sets d hd
    · rw [List.mem_singleton.1 hd]; exact ⟨hi.en, pend, hp⟩
  | newTab head dir name =>
    obtain ⟨x, hx, rfl⟩ := Option.map_eq_some_iff.1 e
    refine ⟨h.sets, fun d hd => ?_⟩
    rcases List.mem_append.1 hd with hd | hd
    · exact h.tabs d hd
    · rw [List.mem_singleton.1 hd]
      unfold Tab.new at hx
      obtain ⟨path, h1, hx⟩ := Option.bind_eq_some_iff.1 hx
      obtain ⟨fs1, h2, hx⟩ := Option.bind_eq_some_iff.1 hx
      obtain ⟨fs2, h3, hx⟩ := Option.map_eq_some_iff.1 hx
      subst hx
      rfl
  | log j t v =>
    obtain ⟨d, hd, e⟩ := Option.bind_eq_some_iff.1 e
    obtain ⟨x, hx, rfl⟩ := Option.map_eq_some_iff.1 e
    have h0 := h.sets d (List.mem_of_getElem? hd)
    refine ⟨fun y hy => ?_, h.tabs⟩
    rcases mem_set hy with rfl | hy
    · exact log_holds hn h0.1 h0.2 hx
    · exact h.sets y hy
  | write j =>
    obtain ⟨d, hd, e⟩ := Option.bind_eq_some_iff.1 e
    obtain ⟨x, hx, rfl⟩ := Option.map_eq_some_iff.1 e
    have h0 := h.sets d (List.mem_of_getElem? hd)
    refine ⟨fun y hy => ?_, h.tabs⟩
    rcases mem_set hy with rfl | hy
    · exact write_holds hn h0.1 h0.2 hx
    · exact h.sets y hy
  | row j r a =>
    obtain ⟨d, hd, rfl⟩ := Option.map_eq_some_iff.1 e
    refine ⟨h.sets, fun y hy => ?_⟩
    rcases mem_set hy with rfl | hy
    · exact h.tabs d (List.mem_of_getElem? hd)
    · exact h.tabs y hy
  | flush j =>
    obtain ⟨d, hd, rfl⟩ := Option.map_eq_some_iff.1 e
    refine ⟨h.sets, fun y hy => ?_⟩
    rcases mem_set hy with rfl | hy
    · exact h.tabs d (List.mem_of_getElem? hd)
    · exact h.tabs y hy

/-! ### The ranks at the same speed -/

theorem view_set (r : Nat) (L : Files T V R) (j : Nat) (x : FS × RDS T V) :
    view r { L with fs := x.1, sets := L.sets.set j x.2 } = { view r L with fs := (viewPair r x).1, sets := (view r L).sets.set j (viewPair r x).2 } := by
  unfold view viewPair
  rw [List.map_set]

theorem view_sets (r : Nat) (L : Files T V R) (j : Nat) : (view r L).sets[j]? = (L.sets[j]?).map (viewSet r) := List.getElem?_map ..
theorem view_tabs (r : Nat) (L : Files T V R) (j : Nat) : (view r L).tabs[j]? = (L.tabs[j]?).map (viewTab r) := List.getElem?_map ..

theorem lock_flushOwn (csv : R → Text) (fs : FS) {d : Tab R} (hd : d.n = n) :
    Lock n (fun r => flushOwn csv r (if r = 0 then fs else emptyFS) (viewTab r d))
      (some fun r => (if r = 0 then (Tab.step csv (fs, d) .write).1 else emptyFS, viewTab r (Tab.step csv (fs, d) .write).2)) := by
  refine Lock.called (site := gatherSite) (m := fun r => (viewTab r d).rows) (.done fun r hr => ?_)
  by_cases c : r = 0
  · subst c
    simp only [if_true, viewTab, Tab.step, List.flatMap_map, hd]
  · simp only [if_neg c, viewTab, Tab.step]

theorem lock_part (f : Fmt T V) (csv : R → Text) (hn : 0 < n) {L : Files T V R} (h : Fit n L) (o : LOp T V R) :
    Lock n (fun r => part f csv r o (view r L)) ((lstep n f csv L o).map fun L' r => view r L') := by
  cases o with
  | newSet cols buf dir name =>
    show Lock n _ (((RDS.new f cols n buf L.fs dir name).map _).map _)
    unfold RDS.new
    cases h1 : findFree L.fs dir name with
    | none => exact .raised ⟨0, hn, by simp only [part, view, if_true]; rw [h1]; rfl⟩
    | some path =>
      rw [Option.bind_some]
      cases h2 : makeParent L.fs dir with
      | none => exact .raised ⟨0, hn, by simp only [part, view, if_true]; rw [h1, Option.bind_some, h2]; rfl⟩
      | some fs =>
        rw [Option.bind_some]
        cases h3 : create fs dir path (header f cols) with
        | none => exact .raised ⟨0, hn, by simp only [part, view, if_true]; rw [h1, Option.bind_some, h2, Option.bind_some, h3]; rfl⟩
        | some fs' =>
          refine .done fun r hr => ?_
          by_cases c : r = 0
          · subst c
            simp only [part, view, if_true]
            rw [h1, Option.bind_some, h2, Option.bind_some, h3]
            simp [viewSet, Prog.lift]
          · simp [part, view, viewSet, if_neg c]
  | newTab head dir name =>
    show Lock n _ (((Tab.new head n L.fs dir name).map _).map _)
    unfold Tab.new
    cases h1 : findFree L.fs dir name with
    | none => exact .raised ⟨0, hn, by simp only [part, view, if_true]; rw [h1]; rfl⟩
    | some path =>
      rw [Option.bind_some]
      cases h2 : makeParent L.fs (pathDir dir) with
      | none => exact .raised ⟨0, hn, by simp only [part, view, if_true]; rw [h1, Option.bind_some, h2]; rfl⟩
      | some fs =>
        rw [Option.bind_some]
        cases h3 : create fs dir path head with
        | none => exact .raised ⟨0, hn, by simp only [part, view, if_true]; rw [h1, Option.bind_some, h2, Option.bind_some, h3]; rfl⟩
        | some fs' =>
          refine .done fun r hr => ?_
          by_cases c : r = 0
          · subst c
            simp only [part, view, if_true]
            rw [h1, Option.bind_some, h2, Option.bind_some, h3]
            simp [viewTab, Prog.lift]
          · simp [part, view, viewTab, if_neg c]
  | log j t v =>
    cases hd : L.sets[j]? with
    | none => simp only [lstep, hd]; exact .raised ⟨0, hn, by simp only [part, view_sets, hd]; rfl⟩
    | some d =>
      simp only [lstep, hd, Option.bind_some]
      obtain ⟨h1, pend, h2⟩ := h.sets d (List.mem_of_getElem? hd)
      have hl := Lock.bind_ret (g := fun r (x : FS × RSet T V) => ({ view r L with fs := x.1, sets := (view r L).sets.set j x.2 } : RFiles T V R))
        (o' := fun g r => { view r L with fs := (g r).1, sets := (view r L).sets.set j (g r).2 }) (lock_logOwn f hn L.fs h1 h2 t v) fun _ _ _ _ => rfl
      rw [Option.map_map] at hl ⊢
      refine Eq.mp (congrArg (Lock n _) ?_) (hl.congr fun r hr => ?_)
      rotate_left
      · simp only [part, view_sets, hd, Option.map_some, lift_some]
        rfl
      · congr 1
        funext x r
        exact (view_set r L j x).symm
  | write j =>
    cases hd : L.sets[j]? with
    | none => simp only [lstep, hd]; exact .raised ⟨0, hn, by simp only [part, view_sets, hd]; rfl⟩
    | some d =>
      simp only [lstep, hd, Option.bind_some]
      obtain ⟨h1, pend, h2⟩ := h.sets d (List.mem_of_getElem? hd)
      have hl := Lock.bind_ret (g := fun r (x : FS × RSet T V) => ({ view r L with fs := x.1, sets := (view r L).sets.set j x.2 } : RFiles T V R))
        (o' := fun g r => { view r L with fs := (g r).1, sets := (view r L).sets.set j (g r).2 }) (lock_writeOwn f hn L.fs h1 h2) fun _ _ _ _ => rfl
      rw [Option.map_map] at hl ⊢
      refine Eq.mp (congrArg (Lock n _) ?_) (hl.congr fun r hr => ?_)
      rotate_left
      · simp only [part, view_sets, hd, Option.map_some, lift_some]
        rfl
      · congr 1
        funext x r
        exact (view_set r L j x).symm
  | row j q a =>
    cases hd : L.tabs[j]? with
    | none => simp only [lstep, hd]; exact .raised ⟨0, hn, by simp only [part, view_tabs, hd]; rfl⟩
    | some d =>
      simp only [lstep, hd, Option.map_some]
      refine .done fun r hr => ?_
      simp only [part, view_tabs, hd, Option.map_some, lift_some]
      congr 1
      unfold view
      simp only [List.map_set]
      by_cases c : q = r
      · subst c
        simp [viewTab, Tab.step]
      · rw [if_neg c]
        have e : viewTab r (Tab.step csv (L.fs, d) (.row q a)).2 = viewTab r d := by
          simp [viewTab, Tab.step, Ne.symm c]
        rw [e]
        congr 1
        apply List.ext_getElem?
        intro i
        rw [List.getElem?_set]
        split
        · next e =>
          subst e
          rw [List.getElem?_map, hd]
          have := (List.getElem?_eq_some_iff.1 hd).1
          simp [this]
        · rfl
  | flush j =>
    cases hd : L.tabs[j]? with
    | none => simp only [lstep, hd]; exact .raised ⟨0, hn, by simp only [part, view_tabs, hd]; rfl⟩
    | some d =>
      simp only [lstep, hd, Option.map_some]
      have h1 := h.tabs d (List.mem_of_getElem? hd)
      have hl := Lock.bind_ret (g := fun r (x : FS × RTab R) => ({ view r L with fs := x.1, tabs := (view r L).tabs.set j x.2 } : RFiles T V R))
        (o' := fun g r => { view r L with fs := (g r).1, tabs := (view r L).tabs.set j (g r).2 }) (lock_flushOwn csv L.fs h1) fun _ _ _ _ => rfl
      refine Eq.mp (congrArg (Lock n _) ?_) (hl.congr fun r hr => ?_)
      rotate_left
      · simp only [part, view_tabs, hd, Option.map_some, lift_some]
        rfl
      · rw [Option.map_some]
        congr 1
        funext r
        unfold view
        simp only [List.map_set]

theorem lock_parts (f : Fmt T V) (csv : R → Text) (hn : 0 < n) : ∀ (ops : List (LOp T V R)) {L : Files T V R}, Fit n L →
    Lock n (fun r => parts f csv r ops (view r L)) ((lrun n f csv L ops).map fun L' r => view r L') := by
  intro ops
  induction ops with
  | nil => intro L _; exact .done fun _ _ => rfl
  | cons o ops ih =>
    intro L h
    have hp := lock_part f csv hn h o
    unfold lrun
    rw [List.foldlM_cons]
    cases e : lstep n f csv L o with
    | none =>
      rw [e] at hp
      exact Lock.bind (q := fun r c => Prog.forM (part f csv r) ops c) (o' := fun _ => none) hp fun g e => by cases e
    | some L' =>
      rw [e] at hp
      exact Lock.bind (q := fun r c => Prog.forM (part f csv r) ops c) (o' := fun _ => (lrun n f csv L' ops).map fun L' r => view r L') hp fun g eg => by
        cases eg
        exact ih (h.step hn e)

end Repast.Mpi.Logs
