/-
Model of the files that repast4py writes: `/repo/src/repast4py/util.py` (`find_free_filename`), `/repo/src/repast4py/logging.py`, and
`/repo/src/repast4py/parameters.py` with `/repo/src/repast4py/random.py`.

The file system is the list of the existing directories and of the existing files with their contents. Nobody else writes to it. Exceptions are `none`.
Values and ticks are arbitrary types, with an arbitrary text representation (`str`).
-/
namespace Repast.Files

/-- A text. -/
abbrev Text := List Char

/-- Directories by their path, and files by their path, with their contents. -/
structure FS where
  dirs : List Text
  files : List (Text × Text)

def FS.names (fs : FS) : List Text := fs.files.map (·.1) ++ fs.dirs

/-- `Path.exists`, `os.path.exists`. -/
def FS.has (fs : FS) (p : Text) : Bool := fs.names.contains p

/-- The content of a file. -/
def FS.read (fs : FS) (p : Text) : Option Text := fs.files.lookup p

/-- The text is written at the end of the file, which is created if it does not exist (`open(path, 'a')`). -/
def appendFile (l : List (Text × Text)) (p t : Text) : List (Text × Text) :=
  match l with
  | [] => [(p, t)]
  | e :: l => if e.1 = p then (p, e.2 ++ t) :: l else e :: appendFile l p t

/-- The file has the content (`open(path, 'w')`). -/
def writeFile (l : List (Text × Text)) (p t : Text) : List (Text × Text) :=
  match l with
  | [] => [(p, t)]
  | e :: l => if e.1 = p then (p, t) :: l else e :: writeFile l p t

/-- The path of a name in a directory; the current directory is the empty text. -/
def join (dir name : Text) : Text := if dir = [] then name else dir ++ '/' :: name

/-- `str(Path(dir + '/' + name))` drops a leading `.` (simplification: other normalisations of `pathlib` are not modelled). -/
def pathDir (dir : Text) : Text := if dir = ['.'] then [] else dir

/-- `Path.stem` and `Path.suffix`: `i = name.rfind('.')`, and if `0 < i < len(name) - 1` then the name is split at `i`. -/
def splitExt (name : Text) : Text × Text :=
  let ext := (name.reverse.takeWhile (· != '.')).reverse
  let i := name.length - ext.length - 1
  if '.' ∈ name ∧ 0 < i ∧ i < name.length - 1 then (name.take i, name.drop i) else (name, [])

/-- `op.with_name(f'{op.stem}_{infix}{suffix}')` (util.py:82) -/
def candidate (dir name : Text) (k : Nat) : Text := join dir ((splitExt name).1 ++ '_' :: Nat.toDigits 10 k ++ (splitExt name).2)

/-- util.py:81-83: the loop. `fuel` bounds the number of iterations; `C48_find_free` shows that the bound of `findFree` is never reached. -/
def search (ex : Text → Bool) (cand : Nat → Text) : Nat → Nat → Text → Option Text
  | 0, _, _ => none
  | fuel + 1, infix_, p => if ex p then search ex cand fuel (infix_ + 1) (cand infix_) else some p

/-- util.py:63-85 `find_free_filename`. (A path without a name is an existing directory: `with_name` raises a `ValueError`.) -/
def findFree (fs : FS) (dir name : Text) : Option Text :=
  if name = [] then none
  else search fs.has (candidate (pathDir dir) name) (fs.names.length + 1) 1 (join (pathDir dir) name)

/-- `if not os.path.exists(parent): os.makedirs(parent)` (logging.py:289-291, 365-367). `os.makedirs('')` is an exception.
(Simplification: intermediate directories are not recorded.) -/
def makeParent (fs : FS) (parent : Text) : Option FS :=
  if parent ≠ [] ∧ fs.has parent then some fs
  else if parent = [] then none
  else some { fs with dirs := fs.dirs ++ [parent] }

/-- `with open(path, 'w')`: the directory must exist. -/
def create (fs : FS) (dir path text : Text) : Option FS :=
  if pathDir dir = [] ∨ pathDir dir ∈ fs.dirs then some { fs with files := writeFile fs.files path text } else none

/-! ### `ReducingDataLogger` and `ReducingDataSet` -/

variable {T V : Type}

/-- logging.py:64-82: the array of a `ReducingDataLogger`, and `_idx`. The array is created with 500 zeros. -/
structure RLog (V : Type) where
  data : List V
  idx : Nat

/-- logging.py:78-82 -/
def RLog.new (zero : V) : RLog V := { data := List.replicate 500 zero, idx := 0 }

/-- logging.py:115-123 `log`, of the value of the data source. -/
def RLog.log (zero : V) (l : RLog V) (v : V) : RLog V :=
  let data := if l.idx = l.data.length then l.data ++ List.replicate 500 zero else l.data
  { data := data.set l.idx v, idx := l.idx + 1 }

/-- A column: the name of its logger, the reduction (what `comm.Reduce` computes from the values of the ranks, in the order of the ranks), and the zero of
its type. -/
structure Col (V : Type) where
  name : Text
  op : List V → V
  zero : V

/-- How values are written, and the delimiter. -/
structure Fmt (T V : Type) where
  delim : Text
  tick : T → Text
  val : V → Text

/-- The data sets of all of the ranks: logging.py:281-292. `logs r` are the loggers of rank `r`; `ticks` and the file are those of rank 0. -/
structure RDS (T V : Type) where
  cols : List (Col V)
  n : Nat
  buf : Int
  path : Text
  ticks : List T
  logs : Nat → List (RLog V)

/-- logging.py:295-299 -/
def header (f : Fmt T V) (cols : List (Col V)) : Text :=
  "tick".toList ++ cols.flatMap (fun c => f.delim ++ c.name) ++ ['\n']

/-- logging.py:266-299: the constructor, for `fpath` in directory `dir` with name `name`. -/
def RDS.new (f : Fmt T V) (cols : List (Col V)) (n : Nat) (buf : Int) (fs : FS) (dir name : Text) : Option (FS × RDS T V) :=
  (findFree fs dir name).bind fun path => (makeParent fs dir).bind fun fs => (create fs dir path (header f cols)).map fun fs =>
    (fs, { cols := cols, n := n, buf := buf, path := path, ticks := [], logs := fun _ => cols.map fun c => RLog.new c.zero })

/-- `all` as in Python. -/
def ranks (n : Nat) (P : Nat → Bool) : Bool := (List.range n).all P

/-- logging.py:125-143 `reduce` of the column `j`. MPI requires that the ranks send equally many values. The values are those of rank 0. -/
def RDS.reduce (d : RDS T V) (c : Col V) (j : Nat) : Option (List V) :=
  ((d.logs 0)[j]?).bind fun l0 =>
    if ranks d.n fun r => ((d.logs r)[j]?).any fun l => l.idx = l0.idx ∧ l.idx ≤ l.data.length then
      some ((List.range l0.idx).map fun i => c.op ((List.range d.n).filterMap fun r => ((d.logs r)[j]?).bind fun l => l.data[i]?))
    else none

/-- The reductions of all columns. -/
def RDS.reduceAll (d : RDS T V) : Option (List (List V)) := d.cols.zipIdx.mapM fun cj => d.reduce cj.1 cj.2

/-- logging.py:334-342: one row. `vals[i]` is an `IndexError` if there is no such value. -/
def rowText (f : Fmt T V) (t : T) (vs : List V) : Text := f.tick t ++ vs.flatMap (fun v => f.delim ++ f.val v) ++ ['\n']

/-- logging.py:330-342: the rows. -/
def rowsText (f : Fmt T V) (ticks : List T) (cols : List (List V)) : Option Text :=
  (ticks.zipIdx.mapM fun ti => (cols.mapM fun c => c[ti.2]?).map fun vs => rowText f ti.1 vs).map (·.flatten)

/-- logging.py:323-344 `write`, on all ranks; also `close` (logging.py:301-305). -/
def RDS.write (f : Fmt T V) (x : FS × RDS T V) : Option (FS × RDS T V) :=
  x.2.reduceAll.bind fun vals => (rowsText f x.2.ticks vals).map fun t =>
    ({ x.1 with files := appendFile x.1.files x.2.path t },
      { x.2 with ticks := [], logs := fun r => (x.2.logs r).map fun l => { l with idx := 0 } })

/-- logging.py:307-318 `log` on all of the ranks, without the final `write`. `v r j` is the value of the data source of column `j` on rank `r`. -/
def RDS.logAll (d : RDS T V) (t : T) (v : Nat → Nat → V) : RDS T V :=
  { d with ticks := d.ticks ++ [t], logs := fun r => ((d.logs r).zip d.cols).mapIdx fun j lc => lc.1.log lc.2.zero (v r j) }

/-- logging.py:320: does rank `r` call `write`? -/
def RDS.full (d : RDS T V) (r : Nat) : Option Bool := ((d.logs r)[0]?).map fun l => decide (d.buf ≤ l.idx)

/-- logging.py:307-321 `log` on all of the ranks. If some but not all ranks call `write` the program hangs (`none`). -/
def RDS.log (f : Fmt T V) (x : FS × RDS T V) (t : T) (v : Nat → Nat → V) : Option (FS × RDS T V) :=
  let d := x.2.logAll t v
  if ranks d.n fun r => d.full r == some true then RDS.write f (x.1, d)
  else if ranks d.n fun r => d.full r == some false then some (x.1, d)
  else none

/-- The collective operations on a data set. -/
inductive DOp (T V : Type) where
  | log (t : T) (v : Nat → Nat → V)
  | write

def RDS.step (f : Fmt T V) (x : FS × RDS T V) : DOp T V → Option (FS × RDS T V)
  | .log t v => RDS.log f x t v
  | .write => RDS.write f x

def RDS.run (f : Fmt T V) (x : FS × RDS T V) (ops : List (DOp T V)) : Option (FS × RDS T V) := ops.foldlM (RDS.step f) x

/-! ### `TabularLogger` -/

variable {R : Type}

/-- logging.py:357-361: the loggers of all of the ranks; `rows r` are the rows of rank `r`. -/
structure Tab (R : Type) where
  n : Nat
  path : Text
  rows : Nat → List R

/-- logging.py:357-371: the constructor. `csv` is how `csv.writer` writes a row, `head` how it writes the headers. The parent directory is that of the
normalised path. -/
def Tab.new (head : Text) (n : Nat) (fs : FS) (dir name : Text) : Option (FS × Tab R) :=
  (findFree fs dir name).bind fun path => (makeParent fs (pathDir dir)).bind fun fs => (create fs dir path head).map fun fs =>
    (fs, { n := n, path := path, rows := fun _ => [] })

inductive TOp (R : Type) where
  | row (r : Nat) (a : R)
  | write

/-- logging.py:373-390 `log_row` and 392-405 `write` (also `close`, 407-411). `comm.gather` lists the rows in the order of the ranks. -/
def Tab.step (csv : R → Text) (x : FS × Tab R) : TOp R → FS × Tab R
  | .row r a => (x.1, { x.2 with rows := fun k => if k = r then x.2.rows k ++ [a] else x.2.rows k })
  | .write => ({ x.1 with files := appendFile x.1.files x.2.path ((List.range x.2.n).flatMap fun r => (x.2.rows r).flatMap csv) },
      { x.2 with rows := fun _ => [] })

def Tab.run (csv : R → Text) (x : FS × Tab R) (ops : List (TOp R)) : FS × Tab R := ops.foldl (Tab.step csv) x

/-! ### Parameters -/

/-- A parameter value; `null` is `None`. -/
inductive Val (V : Type) where
  | null
  | val (v : V)

/-- A dictionary of parameters. -/
abbrev Params (V : Type) := List (Text × Val V)

def Params.set (d : Params V) (k : Text) (v : Val V) : Params V :=
  match d with
  | [] => [(k, v)]
  | e :: d => if e.1 = k then (k, v) :: d else e :: Params.set d k v

/-- `params.update(...)` -/
def Params.update (d e : Params V) : Params V := e.foldl (fun d kv => d.set kv.1 kv.2) d

/-- The module variables: `parameters.params`, and `random.seed` (what the random number generators are initialised with). -/
structure Globals (V : Type) where
  params : Params V
  seed : Val V

/-- random.py:28-41 `init`; `now` is `int(time.time())`. -/
def randomInit (now : V) (seed : Val V) : Val V :=
  match seed with
  | .null => .val now
  | s => s

/-- parameters.py:48-79 `init_params`, on one rank. `file` is what the YAML parser returns for the file, `none` if it is empty; `over` is the parsed JSON text,
`none` if the text is empty. `dump` is the dump file, `text` its content. -/
def initParams (now : V) (text : Params V → Text) (fs : FS) (g : Globals V) (file : Option (Params V)) (over : Option (Params V))
    (dump : Option (Text × Text)) : Option (FS × Globals V) :=
  file.bind fun p =>
    let p := match over with
      | none => p
      | some o => p.update o
    let seed := match p.lookup "random.seed".toList with
      | some s => randomInit now s
      | none => g.seed
    let g : Globals V := { params := p, seed := seed }
    match dump with
    | none => some (fs, g)
    | some (dir, name) => (findFree fs dir name).bind fun path => (create fs dir path (text p)).map fun fs => (fs, g)

end Repast.Files
