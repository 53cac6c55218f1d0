import Verif.Files.Logging

/-
C59: `DCDataSource` and `create_loggers` (logging.py:147-257), together with the data set that the loggers are added to.
-/
namespace Repast.Files

/-- A field of a dataclass: its name, and its annotated type. -/
structure Field (D : Type) where
  name : Text
  type : D

/-- logging.py:147-181: a `DCDataSource`: the field, the name of the column, and the numpy type. -/
structure DCSource (D : Type) where
  field : Text
  name : Text
  dtype : D

/-- logging.py:153-181: the constructor; the `ValueError` is `none`. Simplification: `np.dtype` of the annotated type raises nothing. -/
def DCSource.new {D : Type} (fields : List (Field D)) (field : Text) (name : Option Text) : Option (DCSource D) :=
  (fields.find? fun f => f.name = field).map fun f => { field := field, name := name.getD field, dtype := f.type }

/-- logging.py:64-82: a `ReducingDataLogger` as it is made: its source and its operation. -/
structure Logger (D V : Type) where
  source : DCSource D
  op : List V → V

variable {D V T : Type}

/-- The argument `names`: a dictionary from names of fields to names of columns, which can be `None`. -/
abbrev Names := List (Text × Option Text)

/-- logging.py:215-257 `create_loggers`; an exception is `none`. -/
def createLoggers (fields : List (Field D)) (op : List V → V) (names : Option Names) : Option (List (Logger D V)) :=
  match names with
  | none => fields.mapM fun f => (DCSource.new fields f.name none).map fun s => ⟨s, op⟩
  | some m =>
    ((fields.filter fun f => (m.lookup f.name).isSome).mapM fun f =>
      (DCSource.new fields f.name (some (((m.lookup f.name).getD none).getD f.name))).map fun s => (⟨s, op⟩ : Logger D V)).bind fun ls =>
        if ls.length = 0 then none else some ls

/-- What a column asks for: the field `f` is to be logged with the name `h`. -/
def Asked (names : Option Names) (f h : Text) : Prop :=
  match names with
  | none => h = f
  | some m => m.lookup f = some (some h) ∨ (m.lookup f = some none ∧ h = f)

theorem new_field {fields : List (Field D)} (hn : (fields.map (·.name)).Nodup) {f : Field D} (hf : f ∈ fields) (name : Option Text) :
    DCSource.new fields f.name name = some ⟨f.name, name.getD f.name, f.type⟩ := by
  unfold DCSource.new
  have : fields.find? (fun g => decide (g.name = f.name)) = some f := by
    induction fields with
    | nil => cases hf
    | cons g l ih =>
      rw [List.find?_cons]
      rw [List.map_cons, List.nodup_cons] at hn
      rcases List.mem_cons.1 hf with e | e
      · subst e; simp
      · have : ¬ g.name = f.name := fun x => hn.1 (x ▸ List.mem_map_of_mem e)
        simp [this, ih hn.2 e]
  rw [this]
  rfl

theorem createLoggers_eq (fields : List (Field D)) (hn : (fields.map (·.name)).Nodup) (op : List V → V) (names : Option Names) :
    createLoggers fields op names = match names with
      | none => some (fields.map fun f => ⟨⟨f.name, f.name, f.type⟩, op⟩)
      | some m => if (fields.filter fun f => (m.lookup f.name).isSome) = [] then none else
        some ((fields.filter fun f => (m.lookup f.name).isSome).map fun f => ⟨⟨f.name, ((m.lookup f.name).getD none).getD f.name, f.type⟩, op⟩) := by
  unfold createLoggers
  cases names with
  | none =>
    exact mapM_some' _ fun f hf => by rw [new_field hn hf]; rfl
  | some m =>
    dsimp only
    rw [mapM_some' (fun f => ⟨⟨f.name, ((m.lookup f.name).getD none).getD f.name, f.type⟩, op⟩) fun f hf => by
      rw [new_field hn (List.mem_filter.1 hf).1]; rfl]
    rw [Option.bind_some, List.length_map]
    simp only [List.length_eq_zero_iff]

/-- C59: the loggers that `create_loggers` makes are in the order of the fields of the dataclass, at most one for each field (also without `names`), and there is
one for the field `f` with the column name `h` exactly if `names` asks for it; each has the operation and the type of its field. -/
theorem C59_columns (fields : List (Field D)) (hn : (fields.map (·.name)).Nodup) (op : List V → V) (names : Option Names) (ls : List (Logger D V))
    (h : createLoggers fields op names = some ls) :
    (ls.map (·.source.field)).Sublist (fields.map (·.name)) ∧
    (∀ f h, (∃ l ∈ ls, l.source.field = f ∧ l.source.name = h) ↔ f ∈ fields.map (·.name) ∧ Asked names f h) ∧
    ∀ l ∈ ls, l.op = op ∧ ∃ f ∈ fields, f.name = l.source.field ∧ f.type = l.source.dtype := by
  rw [createLoggers_eq fields hn] at h
  cases names with
  | none =>
    cases h
    refine ⟨?_, fun f h => ⟨?_, ?_⟩, ?_⟩
    · rw [List.map_map]; exact List.Sublist.refl _
    · rintro ⟨l, hl, rfl, rfl⟩
      obtain ⟨g, hg, rfl⟩ := List.mem_map.1 hl
      exact ⟨List.mem_map_of_mem hg, rfl⟩
    · rintro ⟨hf, e⟩
      obtain ⟨g, hg, rfl⟩ := List.mem_map.1 hf
      exact ⟨_, List.mem_map_of_mem hg, rfl, Eq.symm e⟩
    · intro l hl
      obtain ⟨g, hg, rfl⟩ := List.mem_map.1 hl
      exact ⟨rfl, g, hg, rfl, rfl⟩
  | some m =>
    dsimp only at h
    split at h
    · cases h
    · cases h
      refine ⟨?_, fun f h => ⟨?_, ?_⟩, ?_⟩
      · rw [List.map_map]; exact List.filter_sublist.map _
      · rintro ⟨l, hl, rfl, rfl⟩
        obtain ⟨g, hg, rfl⟩ := List.mem_map.1 hl
        obtain ⟨hg, hs⟩ := List.mem_filter.1 hg
        refine ⟨List.mem_map_of_mem hg, ?_⟩
        obtain ⟨o, ho⟩ := Option.isSome_iff_exists.1 hs
        dsimp only [Asked]
        rw [ho]
        cases o with
        | none => exact Or.inr ⟨rfl, rfl⟩
        | some x => exact Or.inl rfl
      · rintro ⟨hf, e⟩
        obtain ⟨g, hg, rfl⟩ := List.mem_map.1 hf
        rcases e with e | ⟨e, rfl⟩
        · exact ⟨_, List.mem_map_of_mem (List.mem_filter.2 ⟨hg, by rw [e]; rfl⟩), rfl, by simp [e]⟩
        · exact ⟨_, List.mem_map_of_mem (List.mem_filter.2 ⟨hg, by rw [e]; rfl⟩), rfl, by simp [e]⟩
      · intro l hl
        obtain ⟨g, hg, rfl⟩ := List.mem_map.1 hl
        exact ⟨rfl, g, (List.mem_filter.1 hg).1, rfl, rfl⟩

/-- C59: `create_loggers` raises exactly if `names` is given and has none of the fields. -/
theorem C59_raises (fields : List (Field D)) (hn : (fields.map (·.name)).Nodup) (op : List V → V) (names : Option Names) :
    createLoggers fields op names = none ↔ ∃ m, names = some m ∧ ∀ f ∈ fields, m.lookup f.name = none := by
  rw [createLoggers_eq fields hn]
  cases names with
  | none => simp
  | some m =>
    dsimp only
    split
    · rename_i h
      refine ⟨fun _ => ⟨m, rfl, fun f hf => ?_⟩, fun _ => rfl⟩
      have := List.filter_eq_nil_iff.1 h f hf
      rw [Bool.not_eq_true, Option.isSome_eq_false_iff, Option.isNone_iff_eq_none] at this
      exact this
    · rename_i h
      refine ⟨fun h => by (cases h), ?_⟩
      rintro ⟨m', e, hm⟩
      cases e
      exact absurd (List.filter_eq_nil_iff.2 fun f hf => by simp [hm f hf]) h

/-! ### The data set -/

/-- Numpy: the zero of a type, and storing a value in an array of the type (which converts it). -/
structure Numpy (D V : Type) where
  zero : D → V
  store : D → V → V

/-- The column of a logger. -/
def Logger.col (np : Numpy D V) (l : Logger D V) : Col V := { name := l.source.name, op := l.op, zero := np.zero l.source.dtype }

/-- What happens with the data set: `log` at a tick, when the dataclass objects of the ranks have these values, or `write`. -/
inductive SOp (T V : Type) where
  | log (t : T) (vals : Nat → Text → V)
  | write

/-- logging.py:115-123, 191-200: the values that the loggers store: `getattr` of the field, converted to the type of the array. -/
def SOp.toD (np : Numpy D V) (ls : List (Logger D V)) (dflt : V) : SOp T V → DOp T V
  | .log t vals => .log t fun r j => match ls[j]? with
    | some l => np.store l.source.dtype (vals r l.source.field)
    | none => dflt
  | .write => .write

/-- The calls of `log`. -/
def slogged (ops : List (SOp T V)) : List (T × (Nat → Text → V)) := ops.filterMap fun o => match o with
  | .log t v => some (t, v)
  | .write => none

/-- C59: a data set with the loggers that one or several calls of `create_loggers` made, on any number of ranks, with any buffer size and after any calls of `log`
and `write`, has after `close` in its file the header with the names of the columns, and a row for each call of `log`: the tick, and for each logger the
reduction of the values that its field has on the ranks at that call. Missing (`_partial`): values that are not of the annotated type, which numpy
converts (`C59_violation_type`). -/
theorem C59_file_partial (np : Numpy D V) (dflt : V) (f : Fmt T V) (ls : List (Logger D V)) (hl : ls ≠ []) {n : Nat} (hn : 0 < n) {buf : Int} {fs : FS} {dir name : Text}
    {x : FS × RDS T V} (h : RDS.new f (ls.map (Logger.col np)) n buf fs dir name = some x) (ops : List (SOp T V))
    (hty : ∀ t vals, SOp.log t vals ∈ ops → ∀ r, ∀ l ∈ ls, np.store l.source.dtype (vals r l.source.field) = vals r l.source.field) :
    ∃ y z, RDS.run f x (ops.map (SOp.toD np ls dflt)) = some y ∧ RDS.write f y = some z ∧
      z.1.read x.2.path = some ("tick".toList ++ ls.flatMap (fun l => f.delim ++ l.source.name) ++ "\n".toList ++
        (slogged ops).flatMap fun c =>
          f.tick c.1 ++ ls.flatMap (fun l => f.delim ++ f.val (l.op ((List.range n).map fun r => c.2 r l.source.field))) ++ "\n".toList) := by
  obtain ⟨y, z, h1, h2, h3, h4⟩ := C46_rows f hn (by simpa using hl) h (ops.map (SOp.toD np ls dflt))
  refine ⟨y, z, h1, h2, ?_⟩
  rw [h3]
  congr 2
  · congr 2
    rw [List.flatMap_map]
    rfl
  · clear h1 h2 h3 h4 h x
    induction ops with
    | nil => rfl
    | cons o ops ih =>
      have ih := ih fun t v hv => hty t v (List.mem_cons_of_mem _ hv)
      cases o with
      | write => exact ih
      | log t vals =>
        have e1 : logged ((SOp.log t vals :: ops).map (SOp.toD np ls dflt)) = (t, fun r j => match ls[j]? with
            | some l => np.store l.source.dtype (vals r l.source.field)
            | none => dflt) :: logged (ops.map (SOp.toD np ls dflt)) := rfl
        have e2 : slogged (SOp.log t vals :: ops) = (t, vals) :: slogged ops := rfl
        rw [e1, e2, List.flatMap_cons, List.flatMap_cons, ih]
        congr 1
        unfold rowOf
        dsimp only
        congr 2
        rw [List.flatMap_def]
        congr 1
        apply List.ext_getElem?
        intro j
        rw [List.getElem?_mapIdx, List.getElem?_map, List.getElem?_map]
        cases hj : ls[j]? with
        | none => rfl
        | some l =>
          simp only [Option.map_some, Logger.col]
          congr 4
          apply List.map_congr_left
          intro r _
          exact hty t vals List.mem_cons_self r l (List.mem_of_getElem? hj)

/-! ### Concrete cases -/

/-- Two types, of integers and of numbers with one decimal (written in tenths). -/
def tenths : Numpy Bool Int where
  zero _ := 0
  store t v := if t then v / 10 * 10 else v

def meets : List (Field Bool) := [⟨"total".toList, true⟩, ⟨"min".toList, true⟩, ⟨"mean".toList, false⟩]

example : (meets.map (·.name)).Nodup ∧
    ((createLoggers meets (List.sum : List Int → Int) (some [("mean".toList, some "m".toList), ("total".toList, none)])).map fun ls =>
      ls.map fun l => (l.source.field, l.source.name, l.source.dtype)) =
      some [("total".toList, "total".toList, true), ("mean".toList, "m".toList, false)] := by decide +kernel

/-- The sum of the totals and of the means. -/
def meetLoggers : List (Logger Bool Int) := [⟨⟨"total".toList, "total".toList, true⟩, List.sum⟩, ⟨⟨"mean".toList, "m".toList, false⟩, List.sum⟩]

def meetFmt : Fmt Nat Int := { delim := [','], tick := fun t => (toString t).toList, val := fun v => (toString v).toList }

/-- The values of the two ranks at two calls. -/
def meetOps : List (SOp Nat Int) := [.log 1 fun r f => if f = "mean".toList then 5 else 10 * (r + 1), .write, .log 2 fun _ _ => 20]

/-- The hypotheses of `C59_file_partial` can be met. -/
example : createLoggers meets (List.sum : List Int → Int) (some [("mean".toList, some "m".toList), ("total".toList, none)]) = some meetLoggers ∧
    (RDS.new meetFmt (meetLoggers.map (Logger.col tenths)) 2 100 ⟨["d".toList], []⟩ "d".toList "f".toList).isSome = true ∧
    ∀ t vals, SOp.log t vals ∈ meetOps → ∀ r, ∀ l ∈ meetLoggers, tenths.store l.source.dtype (vals r l.source.field) = vals r l.source.field := by
  refine ⟨rfl, by decide +kernel, ?_⟩
  intro t vals hm r l hl
  simp only [meetOps, List.mem_cons, List.not_mem_nil, or_false, SOp.log.injEq, reduceCtorEq, false_or] at hm
  simp only [meetLoggers, List.mem_cons, List.not_mem_nil, or_false] at hl
  rcases hm with ⟨_, rfl⟩ | ⟨_, rfl⟩ <;> rcases hl with rfl | rfl <;> simp [tenths] <;> omega

/-- C59 is violated: a field that is annotated as `int` but has the value 1.5 is logged as 1. -/
theorem C59_violation_type :
    let ls : List (Logger Bool Int) := [⟨⟨"total".toList, "total".toList, true⟩, List.sum⟩]
    ((RDS.new meetFmt (ls.map (Logger.col tenths)) 1 100 ⟨["d".toList], []⟩ "d".toList "f".toList).bind fun x =>
      (RDS.run meetFmt x ([SOp.log 1 fun _ _ => 15].map (SOp.toD tenths ls 0))).bind fun y => (RDS.write meetFmt y).bind fun z => z.1.read x.2.path) =
      some "tick,total\n1,10\n".toList := by decide +kernel

/-- C59 is violated: a name in `names` that is not a field of the dataclass, for example because of a typo, is ignored if there is another one that is. -/
theorem C59_violation_typo : ((createLoggers meets (List.sum : List Int → Int) (some [("totals".toList, none), ("min".toList, none)])).map fun ls => ls.map (·.source.name)) =
    some ["min".toList] := by decide +kernel

end Repast.Files
