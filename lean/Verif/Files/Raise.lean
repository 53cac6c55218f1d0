import Verif.Files.Logging

/-!
C67: a data source that raises an exception.

Model of logging.py:115-143 and 307-344 for one process (`comm` of size 1), where reading a data source may raise: the program catches the exception and goes
on. The file is the text written so far (`open(..., 'a')`; leaving the `with` block by an exception writes what was passed to `write`).
-/
namespace Repast.Files

variable {T V : Type}

/-- logging.py:281-292: the data set of the only rank. `out` is the content of its file. -/
structure Solo (T V : Type) where
  cols : List (Col V)
  buf : Int
  out : Text
  ticks : List T
  logs : List (RLog V)

/-- logging.py:266-299: the constructor (the choice and the creation of the file are in `RDS.new`). -/
def Solo.new (f : Fmt T V) (cols : List (Col V)) (buf : Int) : Solo T V :=
  { cols := cols, buf := buf, out := header f cols, ticks := [], logs := cols.map fun c => RLog.new c.zero }

/-- logging.py:118-121: the array is enlarged before the data source is read. -/
def RLog.grow (zero : V) (l : RLog V) : RLog V :=
  { l with data := if l.idx = l.data.length then l.data ++ List.replicate 500 zero else l.data }

/-- logging.py:317-318: the loop over the loggers; `vals` are the values of the data sources, `none` for one that raises. The second result tells whether all
were read. -/
def logLoop : List (RLog V × Col V) → List (Option V) → List (RLog V) × Bool
  | [], _ => ([], true)
  | (l, c) :: rest, some v :: vs => let r := logLoop rest vs; (l.log c.zero v :: r.1, r.2)
  | (l, c) :: rest, _ => (l.grow c.zero :: rest.map (·.1), false)

/-- logging.py:334-341: the columns of row `i`; the delimiter is written before the value is looked up. The second result tells whether all values were there. -/
def rowPart (f : Fmt T V) (i : Nat) : List (List V) → Text × Bool
  | [] => ([], true)
  | c :: cs => match c[i]? with
    | none => (f.delim, false)
    | some v => let r := rowPart f i cs; (f.delim ++ f.val v ++ r.1, r.2)

/-- logging.py:333-342: the loop over the rows. -/
def rowLoop (f : Fmt T V) (cols : List (List V)) : Nat → List T → Text × Bool
  | _, [] => ([], true)
  | i, t :: ts =>
    let r := rowPart f i cols
    if r.2 then let q := rowLoop f cols (i + 1) ts; (f.tick t ++ r.1 ++ ['\n'] ++ q.1, q.2)
    else (f.tick t ++ r.1, false)

/-- logging.py:323-344 `write`; the result tells whether it returned (`false`: an `IndexError`). -/
def Solo.write (f : Fmt T V) (d : Solo T V) : Solo T V × Bool :=
  let vals := (d.cols.zip d.logs).map fun cl => (cl.2.data.take cl.2.idx).map fun v => cl.1.op [v]
  let r := rowLoop f vals 0 d.ticks
  let d := { d with out := d.out ++ r.1, logs := d.logs.map fun l => { l with idx := 0 } }
  if r.2 then ({ d with ticks := [] }, true) else (d, false)

/-- logging.py:307-321 `log`; the result tells whether it returned. `[0]` of an empty list of loggers raises. -/
def Solo.log (f : Fmt T V) (d : Solo T V) (t : T) (vals : List (Option V)) : Solo T V × Bool :=
  let r := logLoop (d.logs.zip d.cols) vals
  let d := { d with ticks := d.ticks ++ [t], logs := r.1 }
  if r.2 then
    match d.logs with
    | [] => (d, false)
    | l :: _ => if d.buf ≤ l.idx then d.write f else (d, true)
  else (d, false)

/-- The calls of the program. -/
inductive SCall (T V : Type) where
  | log (t : T) (vals : List (Option V))
  | write

def Solo.step (f : Fmt T V) (d : Solo T V) : SCall T V → Solo T V × Bool
  | .log t vs => d.log f t vs
  | .write => d.write f

/-- The data set after some calls, whatever they raised. -/
def Solo.run (f : Fmt T V) (d : Solo T V) (ops : List (SCall T V)) : Solo T V := ops.foldl (fun d o => (d.step f o).1) d

section
variable (f : Fmt T V)

/-! ### lemmas -/

/-- Every logger is there, none has more values than there are ticks. -/
structure Solo.Behind (d : Solo T V) : Prop where
  len : d.logs.length = d.cols.length
  idx : ∀ l ∈ d.logs, l.idx ≤ d.ticks.length

/-- Some logger has fewer values than there are ticks. -/
def Solo.Short (d : Solo T V) : Prop := ∃ l ∈ d.logs, l.idx < d.ticks.length

theorem logLoop_len (ls : List (RLog V × Col V)) (vs : List (Option V)) : (logLoop ls vs).1.length = ls.length := by
  induction ls generalizing vs with
  | nil => rfl
  | cons x ls ih =>
    obtain ⟨l, c⟩ := x
    match vs with
    | [] => simp [logLoop]
    | none :: vs => simp [logLoop]
    | some v :: vs => simp [logLoop, ih vs]

theorem logLoop_idx (ls : List (RLog V × Col V)) (vs : List (Option V)) (j : Nat) (l' : RLog V) (h : (logLoop ls vs).1[j]? = some l') :
    ∃ x : RLog V × Col V, ls[j]? = some x ∧ l'.idx ≤ x.1.idx + 1 := by
  induction ls generalizing vs j with
  | nil => simp [logLoop] at h
  | cons x ls ih =>
    obtain ⟨l, c⟩ := x
    have hrest : ∀ (j : Nat) (l' : RLog V), (l.grow c.zero :: ls.map (·.1))[j]? = some l' → ∃ x : RLog V × Col V, ((l, c) :: ls)[j]? = some x ∧ l'.idx ≤ x.1.idx + 1 := by
      intro j l' h
      cases j with
      | zero => simp only [List.getElem?_cons_zero, Option.some.injEq] at h; exact ⟨_, rfl, by rw [← h]; exact Nat.le_succ _⟩
      | succ j =>
        simp only [List.getElem?_cons_succ, List.getElem?_map, Option.map_eq_some_iff] at h
        obtain ⟨y, h1, h2⟩ := h
        exact ⟨y, by simpa using h1, by rw [← h2]; exact Nat.le_succ _⟩
    match vs with
    | [] => exact hrest j l' h
    | none :: vs => exact hrest j l' h
    | some v :: vs =>
      cases j with
      | zero => simp only [logLoop, List.getElem?_cons_zero, Option.some.injEq] at h; exact ⟨_, rfl, by rw [← h]; exact Nat.le_refl _⟩
      | succ j =>
        simp only [logLoop, List.getElem?_cons_succ] at h
        simpa using ih vs j h

/-- A source that raises: its logger gets no value. -/
theorem logLoop_raise (ls : List (RLog V × Col V)) (vs : List (Option V)) (h : (logLoop ls vs).2 = false) :
    ∃ (j : Nat) (x : RLog V × Col V) (l' : RLog V), ls[j]? = some x ∧ (logLoop ls vs).1[j]? = some l' ∧ l'.idx = x.1.idx := by
  induction ls generalizing vs with
  | nil => simp [logLoop] at h
  | cons x ls ih =>
    obtain ⟨l, c⟩ := x
    match vs with
    | [] => exact ⟨0, (l, c), l.grow c.zero, rfl, rfl, rfl⟩
    | none :: vs => exact ⟨0, (l, c), l.grow c.zero, rfl, rfl, rfl⟩
    | some v :: vs =>
      obtain ⟨j, x, l', h1, h2, h3⟩ := ih vs (by simpa [logLoop] using h)
      exact ⟨j + 1, x, l', by simpa using h1, by simpa [logLoop] using h2, h3⟩

theorem logLoop_ok (ls : List (RLog V × Col V)) (vs : List (Option V)) :
    (logLoop ls vs).2 = true ↔ ls.length ≤ vs.length ∧ ∀ j < ls.length, vs[j]? ≠ some none := by
  induction ls generalizing vs with
  | nil => simp [logLoop]
  | cons x ls ih =>
    obtain ⟨l, c⟩ := x
    match vs with
    | [] => simp [logLoop]
    | none :: vs =>
      simp only [logLoop, List.length_cons, Bool.false_eq_true, false_iff]
      rintro ⟨-, h⟩
      exact h 0 (by omega) rfl
    | some v :: vs =>
      simp only [logLoop, ih vs, List.length_cons, Nat.add_le_add_iff_right]
      constructor
      · rintro ⟨h1, h2⟩
        refine ⟨h1, fun j hj => ?_⟩
        cases j with
        | zero => simp
        | succ j => simpa using h2 j (by omega)
      · rintro ⟨h1, h2⟩
        exact ⟨h1, fun j hj => by simpa using h2 (j + 1) (by omega)⟩

theorem rowPart_ok (i : Nat) (cols : List (List V)) : (rowPart f i cols).2 = true ↔ ∀ c ∈ cols, i < c.length := by
  induction cols with
  | nil => simp [rowPart]
  | cons c cs ih =>
    rw [List.forall_mem_cons, ← ih]
    show (match c[i]? with | none => (f.delim, false) | some v => (f.delim ++ f.val v ++ (rowPart f i cs).1, (rowPart f i cs).2)).2 = true ↔ _
    cases h : c[i]? with
    | none => simp only [Bool.false_eq_true, false_iff]; rw [List.getElem?_eq_none_iff] at h; omega
    | some v => obtain ⟨h1, -⟩ := List.getElem?_eq_some_iff.1 h; simp [h1]

theorem rowLoop_ok (cols : List (List V)) (i : Nat) (ts : List T) : (rowLoop f cols i ts).2 = true ↔ ∀ c ∈ cols, ts = [] ∨ i + ts.length ≤ c.length := by
  induction ts generalizing i with
  | nil => simp [rowLoop]
  | cons t ts ih =>
    have h := rowPart_ok f i cols
    unfold rowLoop
    by_cases hr : (rowPart f i cols).2 = true
    · simp only [hr, if_true, ih, List.length_cons]
      have h := h.1 hr
      constructor
      · intro h1 c hc
        have := h c hc
        rcases h1 c hc with h1 | h1
        · subst h1; simp; omega
        · right; omega
      · intro h1 c hc
        rcases h1 c hc with h1 | h1
        · simp at h1
        · right; omega
    · simp only [hr, Bool.false_eq_true, if_false, false_iff, reduceCtorEq, false_or]
      intro h1
      exact hr (h.2 fun c hc => by have := h1 c hc; simp at this; omega)

theorem write_short {d : Solo T V} (hl : d.logs.length = d.cols.length) (h : d.Short) : (d.write f).2 = false ∧ (d.write f).1.Short := by
  obtain ⟨l, hl1, hl2⟩ := h
  have hr : (rowLoop f ((d.cols.zip d.logs).map fun cl => (cl.2.data.take cl.2.idx).map fun v => cl.1.op [v]) 0 d.ticks).2 = false := by
    rw [Bool.eq_false_iff]
    intro hr
    rw [rowLoop_ok] at hr
    obtain ⟨j, hj⟩ := List.mem_iff_getElem?.1 hl1
    have hjl : j < d.cols.length := by rw [← hl]; exact (List.getElem?_eq_some_iff.1 hj).1
    have hm : (d.cols[j], l) ∈ d.cols.zip d.logs := by
      rw [List.mem_iff_getElem?]
      exact ⟨j, by rw [List.getElem?_zip_eq_some]; exact ⟨List.getElem?_eq_getElem hjl, hj⟩⟩
    rcases hr _ (List.mem_map_of_mem hm) with h1 | h1
    · rw [h1] at hl2; simp at hl2
    · simp only [List.length_map, List.length_take] at h1; omega
  simp only [Solo.write, hr, Bool.false_eq_true, if_false, true_and]
  exact ⟨{ l with idx := 0 }, List.mem_map_of_mem hl1, by show 0 < d.ticks.length; omega⟩

theorem write_behind {d : Solo T V} (h : d.Behind) : (d.write f).1.Behind ∧ (d.write f).1.cols = d.cols := by
  unfold Solo.write
  dsimp only
  split
  · refine ⟨⟨by simp [h.len], ?_⟩, rfl⟩
    intro l hl
    obtain ⟨l0, -, rfl⟩ := List.mem_map.1 hl
    simp
  · refine ⟨⟨by simp [h.len], ?_⟩, rfl⟩
    intro l hl
    obtain ⟨l0, -, rfl⟩ := List.mem_map.1 hl
    simp

/-- The loop of `log` and the new tick. -/
def Solo.noted (d : Solo T V) (t : T) (vals : List (Option V)) : Solo T V :=
  { d with ticks := d.ticks ++ [t], logs := (logLoop (d.logs.zip d.cols) vals).1 }

theorem noted_behind {d : Solo T V} (h : d.Behind) (t : T) (vals : List (Option V)) : (d.noted t vals).Behind := by
  refine ⟨by simp [Solo.noted, logLoop_len, h.len], ?_⟩
  intro l hl
  obtain ⟨j, hj⟩ := List.mem_iff_getElem?.1 hl
  obtain ⟨x, h1, h2⟩ := logLoop_idx _ _ _ _ hj
  rw [List.getElem?_zip_eq_some] at h1
  have := h.idx x.1 (List.mem_of_getElem? h1.1)
  simp only [Solo.noted, List.length_append, List.length_singleton]
  omega

theorem noted_short {d : Solo T V} (h : d.Behind) (hs : d.Short) (t : T) (vals : List (Option V)) : (d.noted t vals).Short := by
  obtain ⟨l, hl, hlt⟩ := hs
  obtain ⟨j, hj⟩ := List.mem_iff_getElem?.1 hl
  have hjl : j < d.logs.length := (List.getElem?_eq_some_iff.1 hj).1
  have hlen : j < (logLoop (d.logs.zip d.cols) vals).1.length := by rw [logLoop_len, List.length_zip, h.len]; rw [h.len] at hjl; omega
  obtain ⟨x, h1, h2⟩ := logLoop_idx _ _ _ _ (List.getElem?_eq_getElem hlen)
  rw [List.getElem?_zip_eq_some] at h1
  have : x.1 = l := by have := h1.1; rw [hj] at this; exact (Option.some.inj this).symm
  refine ⟨_, List.getElem_mem hlen, ?_⟩
  simp only [Solo.noted, List.length_append, List.length_singleton]
  rw [this] at h2
  omega

theorem log_cases (d : Solo T V) (t : T) (vals : List (Option V)) :
    (d.log f t vals = (d.noted t vals, false)) ∨ ((logLoop (d.logs.zip d.cols) vals).2 = true ∧
      (d.log f t vals = (d.noted t vals, true) ∨ d.log f t vals = (d.noted t vals).write f)) := by
  unfold Solo.log Solo.noted
  dsimp only
  split
  · rename_i hr
    split
    · rename_i h; left; rw [h]
    · rename_i h
      right
      refine ⟨hr, ?_⟩
      rw [h]
      split
      · exact .inr rfl
      · exact .inl rfl
  · exact .inl rfl

theorem step_behind {d : Solo T V} (h : d.Behind) (o : SCall T V) : (d.step f o).1.Behind ∧ (d.step f o).1.cols = d.cols := by
  cases o with
  | write => exact write_behind f h
  | log t vals =>
    have hb := noted_behind h t vals
    rcases log_cases f d t vals with e | ⟨-, e | e⟩ <;> simp only [Solo.step, e]
    · exact ⟨hb, rfl⟩
    · exact ⟨hb, rfl⟩
    · exact write_behind f hb

theorem step_short {d : Solo T V} (h : d.Behind) (hs : d.Short) (o : SCall T V) : (d.step f o).1.Short := by
  cases o with
  | write => exact (write_short f h.len hs).2
  | log t vals =>
    have hb := noted_behind h t vals
    have hs := noted_short h hs t vals
    rcases log_cases f d t vals with e | ⟨-, e | e⟩ <;> simp only [Solo.step, e]
    · exact hs
    · exact hs
    · exact (write_short f hb.len hs).2

theorem run_behind {d : Solo T V} (h : d.Behind) (ops : List (SCall T V)) : (d.run f ops).Behind ∧ (d.run f ops).cols = d.cols := by
  induction ops generalizing d with
  | nil => exact ⟨h, rfl⟩
  | cons o ops ih =>
    have h1 := step_behind f h o
    have h2 := ih h1.1
    exact ⟨h2.1, h2.2.trans h1.2⟩

theorem run_short {d : Solo T V} (h : d.Behind) (hs : d.Short) (ops : List (SCall T V)) : (d.run f ops).Short := by
  induction ops generalizing d with
  | nil => exact hs
  | cons o ops ih => exact ih (step_behind f h o).1 (step_short f h hs o)

theorem new_behind (cols : List (Col V)) (buf : Int) : (Solo.new f cols buf : Solo T V).Behind := by
  refine ⟨by simp [Solo.new], ?_⟩
  intro l hl
  obtain ⟨c, -, rfl⟩ := List.mem_map.1 hl
  exact Nat.zero_le _

theorem Solo.run_append (d : Solo T V) (a b : List (SCall T V)) : d.run f (a ++ b) = (d.run f a).run f b := List.foldl_append

/-! ### C67 -/

/-- C67 is false for every data set: once a data source has raised in a call of `log`, every later `write` (and `close`) raises, whatever the program logged before and
does afterwards. `vals` are the values of the sources in that call, `none` for one that raises. -/
theorem C67_violation (cols : List (Col V)) (buf : Int) (before after : List (SCall T V)) (t : T) (vals : List (Option V)) (j : Nat) (hj : j < cols.length)
    (hv : vals[j]? = some none) : (((Solo.new f cols buf).run f (before ++ [.log t vals] ++ after)).write f).2 = false := by
  have h0 := run_behind f (new_behind f cols buf) before
  rw [Solo.run_append, Solo.run_append]
  generalize (Solo.new f cols buf).run f before = d at h0
  have hraise : (logLoop (d.logs.zip d.cols) vals).2 = false := by
    rw [Bool.eq_false_iff]
    intro h
    refine ((logLoop_ok _ _).1 h).2 j ?_ hv
    rw [List.length_zip, h0.1.len, h0.2]
    show j < min cols.length cols.length
    omega
  have hs : (d.noted t vals).Short := by
    obtain ⟨i, x, l', h1, h2, h3⟩ := logLoop_raise _ _ hraise
    rw [List.getElem?_zip_eq_some] at h1
    have := h0.1.idx x.1 (List.mem_of_getElem? h1.1)
    refine ⟨l', List.mem_of_getElem? h2, ?_⟩
    simp only [Solo.noted, List.length_append, List.length_singleton]
    omega
  have he : (d.step f (.log t vals)).1 = d.noted t vals := by
    rcases log_cases f d t vals with e | ⟨e, -⟩
    · simp only [Solo.step, e]
    · rw [hraise] at e; cases e
  have hb := noted_behind h0.1 t vals
  have hlist : d.run f [SCall.log t vals] = d.noted t vals := he
  rw [hlist]
  exact (write_short f (run_behind f hb after).1.len (run_short f hb hs after)).1

/-- C67, what holds: whatever raises, the file only grows: what has been written is not changed. -/
theorem C67_kept_partial (cols : List (Col V)) (buf : Int) (before after : List (SCall T V)) :
    ((Solo.new f cols buf).run f before).out <+: ((Solo.new f cols buf).run f (before ++ after)).out := by
  rw [Solo.run_append]
  generalize (Solo.new f cols buf).run f before = d
  induction after generalizing d with
  | nil => exact List.prefix_refl _
  | cons o ops ih =>
    refine List.IsPrefix.trans ?_ (ih _)
    have hw : ∀ d : Solo T V, d.out <+: (d.write f).1.out := by
      intro d
      unfold Solo.write
      dsimp only
      split <;> exact List.prefix_append _ _
    cases o with
    | write => exact hw d
    | log t vals =>
      rcases log_cases f d t vals with e | ⟨-, e | e⟩ <;> simp only [Solo.step, e]
      · exact List.prefix_refl _
      · exact List.prefix_refl _
      · exact hw (d.noted t vals)

/-! ### nothing raises -/

/-- The row of a call of `log` with the values `vs`. -/
def soloRow (cols : List (Col V)) (c : T × List V) : Text :=
  f.tick c.1 ++ ((cols.zip c.2).flatMap fun cv => f.delim ++ f.val (cv.1.op [cv.2])) ++ "\n".toList

/-- The calls of `log` with their values, if no source raises. -/
def soloLogged : List (SCall T V) → List (T × List V)
  | [] => []
  | .log t vs :: ops => (t, vs.filterMap id) :: soloLogged ops
  | .write :: ops => soloLogged ops

/-- No source raises in a call. -/
def SCall.Fine (n : Nat) : SCall T V → Prop
  | .log _ vs => vs.length = n ∧ none ∉ vs
  | .write => True

theorem rowPart_text (i : Nat) (cols : List (List V)) (ws : List V) (hl : ws.length = cols.length) (h : ∀ (j : Nat) c, cols[j]? = some c → c[i]? = ws[j]?) :
    rowPart f i cols = (ws.flatMap fun w => f.delim ++ f.val w, true) := by
  induction cols generalizing ws with
  | nil => cases ws <;> simp_all [rowPart]
  | cons c cs ih =>
    cases ws with
    | nil => simp at hl
    | cons w ws =>
      have h0 : c[i]? = some w := h 0 c rfl
      have := ih ws (by simpa using hl) (fun j c hc => by simpa using h (j + 1) c (by simpa using hc))
      show (match c[i]? with | none => (f.delim, false) | some v => (f.delim ++ f.val v ++ (rowPart f i cs).1, (rowPart f i cs).2)) = _
      rw [h0, this]
      simp

theorem rowLoop_text (cols : List (List V)) (i : Nat) (rows : List (T × List V))
    (h : ∀ (k : Nat) r, rows[k]? = some r → r.2.length = cols.length ∧ ∀ (j : Nat) c, cols[j]? = some c → c[i + k]? = r.2[j]?) :
    rowLoop f cols i (rows.map (·.1)) = (rows.flatMap fun r => f.tick r.1 ++ (r.2.flatMap fun w => f.delim ++ f.val w) ++ ['\n'], true) := by
  induction rows generalizing i with
  | nil => rfl
  | cons r rows ih =>
    obtain ⟨h1, h2⟩ := h 0 r rfl
    have h3 := rowPart_text f i cols r.2 h1 h2
    have h4 := ih (i + 1) (fun k r hr => by
      obtain ⟨h5, h6⟩ := h (k + 1) r (by simpa using hr)
      refine ⟨h5, fun j c hc => ?_⟩
      rw [← h6 j c hc]
      congr 1; omega)
    simp only [List.map_cons, rowLoop, h3, h4, if_true, List.flatMap_cons]

/-- What the data set holds: `pend` are the calls that are not yet written. -/
structure Solo.Filled (cols : List (Col V)) (d : Solo T V) (pend : List (T × List V)) : Prop where
  same : d.cols = cols
  ticks : d.ticks = pend.map (·.1)
  len : d.logs.length = cols.length
  full : ∀ p ∈ pend, p.2.length = cols.length
  vals : ∀ (j : Nat) l, d.logs[j]? = some l → l.idx = pend.length ∧ pend.length ≤ l.data.length ∧ ∀ (k : Nat) p, pend[k]? = some p → l.data[k]? = p.2[j]?

theorem write_filled {cols : List (Col V)} {d : Solo T V} {pend : List (T × List V)} (h : d.Filled cols pend) :
    (d.write f).2 = true ∧ (d.write f).1.Filled cols [] ∧ (d.write f).1.out = d.out ++ pend.flatMap (soloRow f cols) := by
  have hr : rowLoop f ((d.cols.zip d.logs).map fun cl => (cl.2.data.take cl.2.idx).map fun v => cl.1.op [v]) 0 d.ticks =
      (pend.flatMap (soloRow f cols), true) := by
    have := rowLoop_text f ((d.cols.zip d.logs).map fun cl => (cl.2.data.take cl.2.idx).map fun v => cl.1.op [v]) 0
      (pend.map fun p => (p.1, (cols.zip p.2).map fun cv => cv.1.op [cv.2])) (by
      intro k r hr
      rw [List.getElem?_map, Option.map_eq_some_iff] at hr
      obtain ⟨p, hp, rfl⟩ := hr
      have hpl := h.full p (List.mem_of_getElem? hp)
      have hk : k < pend.length := (List.getElem?_eq_some_iff.1 hp).1
      refine ⟨by simp [h.same, h.len, hpl], ?_⟩
      intro j c hc
      rw [List.getElem?_map, Option.map_eq_some_iff] at hc
      obtain ⟨⟨c0, l⟩, hcl, rfl⟩ := hc
      rw [List.getElem?_zip_eq_some] at hcl
      obtain ⟨h1, h2⟩ := hcl
      obtain ⟨h3, h4, h5⟩ := h.vals j l h2
      have h5 := h5 k p hp
      simp only at h1 ⊢
      rw [h.same] at h1
      have hj : j < p.2.length := by rw [hpl]; exact (List.getElem?_eq_some_iff.1 h1).1
      rw [List.getElem?_map, List.getElem?_map, Nat.zero_add, List.getElem?_take, if_pos (by omega), h5, List.getElem?_eq_getElem hj]
      rw [(List.getElem?_zip_eq_some (l₁ := cols) (l₂ := p.2) (i := j) (z := (c0, p.2[j]))).2 ⟨h1, List.getElem?_eq_getElem hj⟩]
      rfl)
    rw [List.map_map] at this
    rw [h.ticks]
    refine this.trans ?_
    rw [List.flatMap_map]
    congr 2
    funext p
    simp [soloRow, List.flatMap_map]
  simp only [Solo.write, hr, if_true, true_and]
  refine ⟨⟨h.same, rfl, by simp [h.len], by simp, ?_⟩, trivial⟩
  intro j l hl
  simp only [List.getElem?_map, Option.map_eq_some_iff] at hl
  obtain ⟨l0, -, rfl⟩ := hl
  exact ⟨rfl, Nat.zero_le _, by simp⟩

theorem logLoop_some (ls : List (RLog V × Col V)) (vs : List (Option V)) (ws : List V) (hw : vs = ws.map some) (hl : ws.length = ls.length) :
    (logLoop ls vs).2 = true ∧ ∀ (j : Nat) l', (logLoop ls vs).1[j]? = some l' → ∃ x w, ls[j]? = some x ∧ ws[j]? = some w ∧ l' = x.1.log x.2.zero w := by
  subst hw
  induction ls generalizing ws with
  | nil => simp [logLoop]
  | cons x ls ih =>
    obtain ⟨l, c⟩ := x
    cases ws with
    | nil => simp at hl
    | cons w ws =>
      obtain ⟨h1, h2⟩ := ih ws (by simpa using hl)
      refine ⟨by simpa [logLoop] using h1, ?_⟩
      intro j l' h
      cases j with
      | zero => simp only [List.map_cons, logLoop, List.getElem?_cons_zero, Option.some.injEq] at h; exact ⟨_, w, rfl, rfl, h.symm⟩
      | succ j =>
        simp only [List.map_cons, logLoop, List.getElem?_cons_succ] at h
        simpa using h2 j l' h

theorem RLog.log_at (zero : V) (l : RLog V) (v : V) (h : l.idx ≤ l.data.length) :
    (l.log zero v).idx = l.idx + 1 ∧ l.idx + 1 ≤ (l.log zero v).data.length ∧ (l.log zero v).data[l.idx]? = some v ∧
    ∀ k, k < l.idx → (l.log zero v).data[k]? = l.data[k]? := by
  refine ⟨rfl, ?_, ?_, ?_⟩
  · simp only [RLog.log, List.length_set]
    split
    · rw [List.length_append, List.length_replicate]; omega
    · omega
  · simp only [RLog.log]
    rw [List.getElem?_set_self]
    split
    · rw [List.length_append, List.length_replicate]; omega
    · omega
  · intro k hk
    simp only [RLog.log]
    rw [List.getElem?_set_ne (by omega)]
    split
    · rw [List.getElem?_append_left (by omega)]
    · rfl

theorem noted_filled {cols : List (Col V)} {d : Solo T V} {pend : List (T × List V)} (h : d.Filled cols pend) (t : T) (ws : List V) (hw : ws.length = cols.length) :
    (logLoop (d.logs.zip d.cols) (ws.map some)).2 = true ∧ (d.noted t (ws.map some)).Filled cols (pend ++ [(t, ws)]) := by
  obtain ⟨h1, h2⟩ := logLoop_some (d.logs.zip d.cols) _ ws rfl (by simp [h.len, h.same, hw])
  refine ⟨h1, h.same, by simp [Solo.noted, h.ticks], by simp [Solo.noted, logLoop_len, h.len, h.same], ?_, ?_⟩
  · intro p hp
    rcases List.mem_append.1 hp with hp | hp
    · exact h.full p hp
    · simp at hp; subst hp; exact hw
  · intro j l' hl
    obtain ⟨x, w, h3, h4, rfl⟩ := h2 j l' hl
    rw [List.getElem?_zip_eq_some] at h3
    obtain ⟨h5, h6, h7⟩ := h.vals j x.1 h3.1
    obtain ⟨g1, g2, g3, g4⟩ := RLog.log_at x.2.zero x.1 w (by omega)
    refine ⟨by rw [g1, h5]; simp, by rw [List.length_append]; simp only [List.length_singleton]; omega, ?_⟩
    intro k p hp
    by_cases hk : k < pend.length
    · rw [List.getElem?_append_left hk] at hp
      rw [g4 k (by omega)]
      exact h7 k p hp
    · have hk2 : k = pend.length := by
        have := (List.getElem?_eq_some_iff.1 hp).1
        simp at this; omega
      subst hk2
      simp at hp
      subst hp
      rw [← h5, g3, h4]

theorem all_some (vs : List (Option V)) (h : none ∉ vs) : vs = (vs.filterMap id).map some := by
  induction vs with
  | nil => rfl
  | cons v vs ih =>
    simp only [List.mem_cons, not_or] at h
    cases v with
    | none => exact absurd rfl h.1
    | some v => simp only [List.filterMap_cons, id, List.map_cons, ← ih h.2]

/-- C67, without exceptions: if no source raises nothing else does, and after the final `write` the file has the header and a row for each call of `log`, whatever the buffer
size. -/
theorem C67_fine_partial (cols : List (Col V)) (hc : cols ≠ []) (buf : Int) (ops : List (SCall T V)) (h : ∀ o ∈ ops, o.Fine cols.length) :
    (∀ a o b, ops = a ++ o :: b → (((Solo.new f cols buf).run f a).step f o).2 = true) ∧
    (((Solo.new f cols buf).run f ops).write f).2 = true ∧
    (((Solo.new f cols buf).run f ops).write f).1.out = header f cols ++ (soloLogged ops).flatMap (soloRow f cols) := by
  have hstep : ∀ (d : Solo T V) (pend : List (T × List V)) (o : SCall T V), d.Filled cols pend → o.Fine cols.length → (d.step f o).2 = true ∧
      ∃ pend', (d.step f o).1.Filled cols pend' ∧
        (d.step f o).1.out ++ pend'.flatMap (soloRow f cols) = d.out ++ pend.flatMap (soloRow f cols) ++ (soloLogged [o]).flatMap (soloRow f cols) := by
    intro d pend o hd ho
    cases o with
    | write =>
      obtain ⟨h1, h2, h3⟩ := write_filled f hd
      exact ⟨h1, [], h2, by simp [Solo.step, h3, soloLogged]⟩
    | log t vs =>
      obtain ⟨h1, h2⟩ := ho
      have hvs := all_some vs h2
      have hws : (vs.filterMap id).length = cols.length := by
        have := congrArg List.length hvs
        rw [List.length_map] at this
        omega
      obtain ⟨h3, h4⟩ := noted_filled hd t _ hws
      rw [← hvs] at h3 h4
      rcases log_cases f d t vs with e | ⟨-, e | e⟩
      · exfalso
        unfold Solo.log at e
        simp only [h3, if_true] at e
        have hne : (logLoop (d.logs.zip d.cols) vs).1 ≠ [] := by
          intro h0
          have := logLoop_len (d.logs.zip d.cols) vs
          rw [h0] at this
          simp [hd.len, hd.same] at this
          exact hc (List.length_eq_zero_iff.1 this.symm)
        cases hl : (logLoop (d.logs.zip d.cols) vs).1 with
        | nil => exact hne hl
        | cons l ls =>
          rw [hl] at e
          simp only at e
          split at e
          · have := (write_filled f h4).1
            unfold Solo.noted at this
            rw [hl, e] at this
            cases this
          · simp at e
      · simp only [Solo.step, e]
        exact ⟨trivial, _, h4, by simp [Solo.noted, soloLogged]⟩
      · obtain ⟨g1, g2, g3⟩ := write_filled f h4
        simp only [Solo.step, e]
        exact ⟨g1, [], g2, by rw [g3]; simp [Solo.noted, soloLogged]⟩
  have hrun : ∀ (ops : List (SCall T V)) (d : Solo T V) (pend : List (T × List V)), d.Filled cols pend → (∀ o ∈ ops, o.Fine cols.length) →
      ∃ pend', (d.run f ops).Filled cols pend' ∧
        (d.run f ops).out ++ pend'.flatMap (soloRow f cols) = d.out ++ pend.flatMap (soloRow f cols) ++ (soloLogged ops).flatMap (soloRow f cols) := by
    intro ops
    induction ops with
    | nil => intro d pend hd _; exact ⟨pend, hd, by simp [Solo.run, soloLogged]⟩
    | cons o ops ih =>
      intro d pend hd ho
      obtain ⟨-, p1, h1, h2⟩ := hstep d pend o hd (ho o (by simp))
      obtain ⟨p2, h3, h4⟩ := ih _ p1 h1 (fun o h => ho o (List.mem_cons_of_mem _ h))
      refine ⟨p2, h3, ?_⟩
      show ((d.step f o).1.run f ops).out ++ _ = _
      rw [h4, h2]
      cases o <;> simp [soloLogged]
  have hnew : (Solo.new f cols buf : Solo T V).Filled cols [] := by
    refine ⟨rfl, rfl, by simp [Solo.new], by simp, ?_⟩
    intro j l hl
    simp only [Solo.new, List.getElem?_map, Option.map_eq_some_iff] at hl
    obtain ⟨c, -, rfl⟩ := hl
    exact ⟨rfl, Nat.zero_le _, by simp⟩
  refine ⟨?_, ?_⟩
  · rintro a o b rfl
    obtain ⟨p, h1, -⟩ := hrun a _ [] hnew (fun o h' => h o (by simp [h']))
    exact (hstep _ p o h1 (h o (by simp))).1
  · obtain ⟨p, h1, h2⟩ := hrun ops _ [] hnew h
    obtain ⟨g1, -, g3⟩ := write_filled f h1
    refine ⟨g1, ?_⟩
    rw [g3, h2]
    simp [Solo.new]

end

/-! ### examples -/

/-- One process, two columns; the second source raises at tick 2. -/
def exCalls : List (SCall Nat Nat) := [.log 1 [some 10, some 11], .log 2 [some 20, none], .log 3 [some 30, some 31]]

example : (1 < exCols.length) ∧ ([some 20, none] : List (Option Nat))[1]? = some none := by decide

/-- The value of tick 3 is written beside tick 2, the next row is cut, and a second `close` writes the ticks again without values. -/
example : (((Solo.new exFmt exCols 100).run exFmt exCalls).write exFmt).1.out = "tick,total,max\n1,10,11\n2,20,31\n3,30,".toList ∧
    ((((Solo.new exFmt exCols 100).run exFmt exCalls).write exFmt).1.write exFmt).1.out = "tick,total,max\n1,10,11\n2,20,31\n3,30,1,".toList := by decide +kernel

example : ∀ o ∈ [SCall.log 1 [some 10, some 11], .write, .log 3 [some 30, some 31]], (o : SCall Nat Nat).Fine exCols.length := by
  simp [SCall.Fine, exCols]

end Repast.Files
