/-
C58: the random state survives a checkpoint round trip; C60: values saved with `save` are restored. Model of random.py, and of checkpoint.py:64-77, 264-301.

Simplifications: numpy's generators and torch's are arbitrary deterministic machines (`Lib`); the `state` of a bit generator is a copy of its state, and setting it
copies (numpy). The user does not assign `random.default_rng` or `random.seed` themselves.
-/
namespace Repast.Rand

/-- Numpy and torch: what seeding and drawing do. `M` are the methods of a generator with their arguments, `V` what they return. -/
structure Lib (G T M V : Type) where
  /-- `np.random.default_rng(seed)` -/
  seeded : Int → G
  /-- A call of a method of a generator. -/
  draw : M → G → V × G
  /-- `torch.manual_seed(seed)` -/
  tseeded : Int → T
  /-- A torch function that uses its default generator, e.g. `torch.rand` (value_layer.py:31, 112, 224). -/
  tdraw : M → T → V × T

/-- random.py:20-28: a Python process: the generator objects (by reference), and the variables `default_rng` and `seed` of the module; torch's generator. -/
structure Proc (G T : Type) where
  gens : Nat → G
  next : Nat
  default : Nat
  seed : Int
  torch : T

variable {G T M V : Type}

/-- random.py:28-41 `init`; `now` is `int(time.time())`. -/
def Proc.init (L : Lib G T M V) (p : Proc G T) (s : Option Int) (now : Int) : Proc G T :=
  let seed := s.getD now
  { gens := fun r => if r = p.next then L.seeded seed else p.gens r
    next := p.next + 1, default := p.next, seed := seed, torch := L.tseeded seed }

/-- random.py:44: importing the module. -/
def Proc.start (L : Lib G T M V) (now : Int) : Proc G T :=
  Proc.init L { gens := fun _ => L.seeded 0, next := 0, default := 0, seed := 0, torch := L.tseeded 0 } none now

/-- A method of the generator object `r` is called. -/
def Proc.call (L : Lib G T M V) (p : Proc G T) (r : Nat) (m : M) : V × Proc G T :=
  let x := L.draw m (p.gens r)
  (x.1, { p with gens := fun i => if i = r then x.2 else p.gens i })

/-- What a program does: `random.init`, a method of `random.default_rng`, a method of a generator that it has a reference to, a torch function, or a look at
`random.seed`. -/
inductive ROp (M : Type) where
  | init (s : Option Int) (now : Int)
  | draw (m : M)
  | drawOf (r : Nat) (m : M)
  | torch (m : M)
  | seed

/-- What a program gets. -/
inductive Got (V : Type) where
  | nothing
  | value (v : V)
  | seed (s : Int)
  deriving DecidableEq

def step (L : Lib G T M V) (p : Proc G T) : ROp M → Got V × Proc G T
  | .init s now => (.nothing, p.init L s now)
  | .draw m => (.value (p.call L p.default m).1, (p.call L p.default m).2)
  | .drawOf r m => (.value (p.call L r m).1, (p.call L r m).2)
  | .torch m => (.value (L.tdraw m p.torch).1, { p with torch := (L.tdraw m p.torch).2 })
  | .seed => (.seed p.seed, p)

/-- A history of calls. -/
def run (L : Lib G T M V) (p : Proc G T) (ops : List (ROp M)) : Proc G T := ops.foldl (fun p o => (step L p o).2) p

/-- `n` steps of a program, whose next call depends on what it got so far: what it gets. -/
def exec (L : Lib G T M V) (prog : List (Got V) → ROp M) : Nat → Proc G T → List (Got V) → List (Got V)
  | 0, _, got => got
  | n + 1, p, got => exec L prog n (step L p (prog got)).2 (got ++ [(step L p (prog got)).1])

/-- checkpoint.py:57: `random_state`, empty at first. -/
structure Ckp (G : Type) where
  random : Option (Int × G)

/-- checkpoint.py:48-62 -/
def Ckp.new : Ckp G := ⟨none⟩

/-- checkpoint.py:64-68 `save_random` -/
def Ckp.saveRandom (_ : Ckp G) (p : Proc G T) : Ckp G := ⟨some (p.seed, p.gens p.default)⟩

/-- checkpoint.py:70-76 `restore_random`. Without `save_random` an `IndexError` (`none`). -/
def Ckp.restoreRandom (k : Ckp G) (p : Proc G T) : Option (Proc G T) :=
  k.random.map fun s => { p with seed := s.1, gens := fun i => if i = p.default then s.2 else p.gens i }

/-! ### C58 -/

/-- The call uses the random numbers of `repast4py.random` only: the default generator, through the module or through a reference `r` to it, and `init` with a seed. -/
def Plain (r : Nat) : ROp M → Prop
  | .init s _ => s.isSome
  | .draw _ => True
  | .drawOf i _ => i = r
  | .torch _ => False
  | .seed => True

/-- The two processes: the default generators, and those that the references `r` and `r'` refer to, are in the same state. -/
structure Same (r r' : Nat) (p p' : Proc G T) : Prop where
  seed : p.seed = p'.seed
  def_ : p.gens p.default = p'.gens p'.default
  ref : p.gens r = p'.gens r'
  isDef : p.default = r ↔ p'.default = r'
  lt : r < p.next
  lt' : r' < p'.next
  dlt : p.default < p.next
  dlt' : p'.default < p'.next

/-- The same call in another process, where the reference `r` is `r'`. -/
def ROp.rename (r r' : Nat) : ROp M → ROp M
  | .drawOf i m => .drawOf (if i = r then r' else i) m
  | o => o

theorem same_step (L : Lib G T M V) {r r' : Nat} {p p' : Proc G T} (h : Same r r' p p') {o : ROp M} (ho : Plain r o) :
    (step L p o).1 = (step L p' (o.rename r r')).1 ∧ Same r r' (step L p o).2 (step L p' (o.rename r r')).2 := by
  have hs := h.seed; have hd := h.def_; have hr := h.ref; have hi := h.isDef
  have h1 := h.lt; have h2 := h.lt'; have h3 := h.dlt; have h4 := h.dlt'
  cases o with
  | init s now =>
    obtain ⟨s, rfl⟩ := Option.isSome_iff_exists.1 (show s.isSome from ho)
    refine ⟨rfl, rfl, ?_, ?_, ?_, ?_, ?_, ?_, ?_⟩ <;> simp only [step, ROp.rename, Proc.init]
    · simp
    · rw [if_neg (by omega), if_neg (by omega)]; exact hr
    all_goals omega
  | draw m =>
    refine ⟨?_, hs, ?_, ?_, hi, h1, h2, h3, h4⟩ <;> simp only [step, ROp.rename, Proc.call]
    · rw [hd]
    · simp [hd]
    · by_cases e : p.default = r
      · have e' := hi.1 e
        rw [if_pos e.symm, if_pos e'.symm, hd]
      · have e' : ¬ p'.default = r' := fun x => e (hi.2 x)
        rw [if_neg (Ne.symm e), if_neg (Ne.symm e'), hr]
  | drawOf i m =>
    have : i = r := ho
    subst this
    refine ⟨?_, hs, ?_, ?_, hi, h1, h2, h3, h4⟩ <;> simp only [step, ROp.rename, Proc.call, if_true]
    · rw [hr]
    · by_cases e : p.default = i
      · rw [if_pos e, if_pos (hi.1 e), hr]
      · rw [if_neg e, if_neg (fun x => e (hi.2 x)), hd]
    · rw [hr]
  | torch m => exact (ho : False).elim
  | seed => exact ⟨by simp [step, ROp.rename, hs], h⟩

theorem same_exec (L : Lib G T M V) (prog : List (Got V) → ROp M) {r r' : Nat} (hp : ∀ g, Plain r (prog g)) (n : Nat) {p p' : Proc G T} (h : Same r r' p p')
    (got : List (Got V)) : exec L prog n p got = exec L (fun g => (prog g).rename r r') n p' got := by
  induction n generalizing p p' got with
  | zero => rfl
  | succ n ih =>
    obtain ⟨a, b⟩ := same_step L h (hp got)
    simp only [exec]
    rw [← a]
    exact ih b _

theorem default_lt_run (L : Lib G T M V) (now : Int) (ops : List (ROp M)) : (run L (Proc.start L now) ops).default < (run L (Proc.start L now) ops).next := by
  unfold run
  have : ∀ p : Proc G T, p.default < p.next → (ops.foldl (fun p o => (step L p o).2) p).default < (ops.foldl (fun p o => (step L p o).2) p).next := by
    induction ops with
    | nil => exact fun p h => h
    | cons o ops ih =>
      intro p h
      apply ih
      cases o with
      | init s now => show p.next < p.next + 1; omega
      | draw m => exact h
      | drawOf i m => exact h
      | torch m => exact h
      | seed => exact h
  exact this _ (by show 0 < 0 + 1; omega)

/-- C58: after whatever happened in a process, `save_random`, and `restore_random` in another process in which also anything happened before, a program that uses
`repast4py.random` only (also through references to the default generator from before the save and the restore, and also when its calls depend on what it got before)
gets in the other process the values that it would have got in the first one, and reads the same seed. Missing (`_partial`): torch's generator, which `init` seeds too
(`C58_violation_torch`). -/
theorem C58_resume_partial (L : Lib G T M V) (now now' : Int) (ops ops' : List (ROp M)) (k : Ckp G) :
    let p := run L (Proc.start L now) ops
    let p' := run L (Proc.start L now') ops'
    ∃ q, (k.saveRandom p).restoreRandom p' = some q ∧
      ∀ (prog : List (Got V) → ROp M) (n : Nat), (∀ g, Plain p.default (prog g)) →
        exec L (fun g => (prog g).rename p.default p'.default) n q [] = exec L prog n p [] := by
  intro p p'
  refine ⟨_, rfl, fun prog n hp => ?_⟩
  symm
  refine same_exec L prog hp n (p := p) (p' := { p' with seed := p.seed, gens := fun i => if i = p'.default then p.gens p.default else p'.gens i })
    ⟨rfl, ?_, ?_, ?_, ?_, ?_, ?_, ?_⟩ []
  · simp
  · simp
  · simp
  · exact default_lt_run L now ops
  · exact default_lt_run L now' ops'
  · exact default_lt_run L now ops
  · exact default_lt_run L now' ops'

/-- C58: `restore_random` without `save_random` raises. -/
theorem C58_empty (p : Proc G T) : (Ckp.new : Ckp G).restoreRandom p = none := rfl

/-- C58: with the same seed two processes get the same values, also from torch, whatever happened in them before. -/
theorem C58_init (L : Lib G T M V) (p p' : Proc G T) (s now now' : Int) (prog : List (Got V) → ROp M) (n : Nat)
    (hp : ∀ g, match prog g with | .drawOf _ _ => False | .init s _ => s.isSome = true | _ => True) :
    exec L prog n (p.init L (some s) now) [] = exec L prog n (p'.init L (some s) now') [] := by
  have key : ∀ (q q' : Proc G T) (got : List (Got V)), q.seed = q'.seed → q.torch = q'.torch → q.gens q.default = q'.gens q'.default →
      exec L prog n q got = exec L prog n q' got := by
    induction n with
    | zero => intros; rfl
    | succ n ih =>
      intro q q' got h1 h2 h3
      have := hp got
      simp only [exec]
      generalize prog got = o at this
      cases o with
      | init s now =>
        obtain ⟨s, rfl⟩ := Option.isSome_iff_exists.1 this
        exact ih _ _ _ rfl rfl (by simp [step, Proc.init])
      | draw m =>
        have e : (step L q (.draw m)).1 = (step L q' (.draw m)).1 := by simp [step, Proc.call, h3]
        rw [e]
        exact ih _ _ _ h1 h2 (by simp [step, Proc.call, h3])
      | drawOf r m => exact this.elim
      | torch m =>
        have e : (step L q (.torch m)).1 = (step L q' (.torch m)).1 := by simp [step, h2]
        rw [e]
        exact ih _ _ _ h1 (by simp [step, h2]) h3
      | seed =>
        have e : (step L q (.seed : ROp M)).1 = (step L q' .seed).1 := by simp [step, h1]
        rw [e]
        exact ih _ _ _ h1 h2 h3
  exact key _ _ _ rfl rfl (by simp [Proc.init])

/-- Generators that count, as a concrete case. -/
def counting : Lib Int Int Int Int where
  seeded s := 100 * s
  draw m g := (g * m, g + 1)
  tseeded s := 1000 * s
  tdraw m g := (g * m, g + 1)

/-- The hypotheses can be met by a program that draws, looks at what it got, draws through a reference, and seeds: the values after the restore are those without. -/
example :
    let prog : List (Got Int) → ROp Int := fun g => if g.length = 0 then .draw 2 else if g = [.value 1402] then .drawOf 1 3 else if g.length = 2 then .seed
      else if g.length = 3 then .init (some 5) 0 else .draw 1
    let p := run counting (Proc.start counting 3) [.init (some 7) 0, .draw 1, .torch 1]
    p.default = 1 ∧ (∀ g, Plain p.default (prog g)) ∧ exec counting prog 5 p [] = [.value 1402, .value 2106, .seed 7, .nothing, .value 500] := by
  refine ⟨by decide, fun g => ?_, by decide⟩
  show Plain 1 _
  dsimp only
  split
  · trivial
  · split
    · rfl
    · split
      · trivial
      · split
        · rfl
        · trivial

/-- C58 is violated for torch's generator, although `random.init` seeds it too: after `init(7)` and one call of `torch.rand`, `save_random`, and `restore_random` in
another process in which `init(7)` was called, the next call of `torch.rand`, for example for a value layer with random values, gives the value that the first process
already had, not the next one. -/
theorem C58_violation_torch :
    let p := run counting (Proc.start counting 3) [.init (some 7) 0, .torch 1]
    let p' := run counting (Proc.start counting 9) [.init (some 7) 0]
    ∃ q, ((Ckp.new : Ckp Int).saveRandom p).restoreRandom p' = some q ∧
      (step counting p (.torch 1)).1 = .value 7001 ∧ (step counting q (.torch 1)).1 = .value 7000 :=
  ⟨_, rfl, by decide, by decide⟩

/-! ### C60: `save` and `restore` -/

/-- checkpoint.py:60: `other_state`, whose values are references to objects. -/
structure Other (K : Type) where
  state : List (K × Nat)

/-- What happens between the creation of a checkpoint and pickling it: objects change (the object `r` becomes `v`), and `save` is called. -/
inductive KOp (K V : Type) where
  | change (r : Nat) (v : V)
  | save (key : K) (r : Nat)

variable {K : Type} [DecidableEq K]

/-- `d[key] = r` -/
def put (key : K) (r : Nat) : List (K × Nat) → List (K × Nat)
  | [] => [(key, r)]
  | e :: l => if e.1 = key then (key, r) :: l else e :: put key r l

/-- checkpoint.py:264-271 `save`; the objects are a function of references. -/
def kstep (x : (Nat → V) × Other K) : KOp K V → (Nat → V) × Other K
  | .change r v => (fun i => if i = r then v else x.1 i, x.2)
  | .save key r => (x.1, ⟨put key r x.2.state⟩)

/-- Pickling and loading: the values of the objects at that time. -/
def Other.dump (heap : Nat → V) (o : Other K) : List (K × V) := o.state.map fun e => (e.1, heap e.2)

/-- checkpoint.py:273-301 `restore` (the restorer with its further arguments is `f`); a `KeyError` is `none`. -/
def restore {W : Type} (d : List (K × V)) (key : K) (f : V → W) : Option W := (d.lookup key).map f

/-- The object that was saved last with the key. -/
def lastSaved (key : K) (ops : List (KOp K V)) : Option Nat :=
  (ops.filterMap fun o => match o with | .save k r => if k = key then some r else none | _ => none).getLast?

theorem lookup_one (e : K × Nat) (l : List (K × Nat)) (k : K) : (e :: l).lookup k = if k = e.1 then some e.2 else l.lookup k := by
  rw [List.lookup_cons]
  by_cases h : k = e.1
  · simp [h]
  · have : (k == e.1) = false := by simpa using h
    simp [this, h]

theorem lookup_put (k key : K) (r : Nat) (l : List (K × Nat)) : (put key r l).lookup k = if k = key then some r else l.lookup k := by
  induction l with
  | nil => rw [put, lookup_one]
  | cons e l ih =>
    unfold put
    by_cases he : e.1 = key
    · rw [if_pos he, lookup_one, lookup_one]
      by_cases h : k = key
      · simp [h]
      · have : ¬ k = e.1 := fun x => h (x.trans he)
        simp [h, this]
    · rw [if_neg he, lookup_one, lookup_one, ih]
      by_cases h : k = e.1
      · subst h
        simp [he]
      · simp [h]

theorem lookup_state (heap : Nat → V) (ops : List (KOp K V)) (key : K) : (ops.foldl kstep (heap, ⟨[]⟩)).2.state.lookup key = lastSaved key ops := by
  have : ∀ x : (Nat → V) × Other K, (ops.foldl kstep x).2.state.lookup key = (lastSaved key ops).or (x.2.state.lookup key) := by
    induction ops with
    | nil => simp [lastSaved]
    | cons o ops ih =>
      intro x
      rw [List.foldl_cons, ih]
      cases o with
      | change r v => simp [lastSaved, kstep]
      | save k r =>
        simp only [kstep, lookup_put]
        unfold lastSaved
        rw [List.filterMap_cons]
        by_cases h : k = key
        · subst h
          simp only [if_true]
          rw [List.getLast?_cons]
          cases (ops.filterMap fun o => match o with | .save k' r => if k' = k then some r else none | _ => none).getLast? <;> simp
        · have h' : ¬ key = k := fun x => h x.symm
          simp [h, h']
  rw [this]
  simp

theorem lookup_dump (heap : Nat → V) (o : Other K) (key : K) : (o.dump heap).lookup key = (o.state.lookup key).map heap := by
  unfold Other.dump
  induction o.state with
  | nil => rfl
  | cons e l ih =>
    rw [List.map_cons, List.lookup_cons, List.lookup_cons]
    cases key == e.1 <;> simp [ih]

/-- C60: whatever is saved and changed, `restore(key, f)` after pickling and loading gives what `f` makes of the value that the object which was saved last with this
key has when the checkpoint is pickled, and raises if nothing was saved with the key. Missing (`_partial`): the value at the time of `save`, see
`C60_violation_changed`. -/
theorem C60_restored_partial {W : Type} (heap : Nat → V) (ops : List (KOp K V)) (key : K) (f : V → W) :
    let x := ops.foldl kstep (heap, (⟨[]⟩ : Other K))
    restore (x.2.dump x.1) key f = (lastSaved key ops).map fun r => f (x.1 r) := by
  intro x
  unfold restore
  rw [lookup_dump, lookup_state, Option.map_map]
  rfl

/-- C60: if the object does not change between the last `save` with this key and pickling, the value at the time of `save` is restored. -/
theorem C60_unchanged_partial {W : Type} (heap : Nat → V) (before after : List (KOp K V)) (key : K) (r : Nat) (f : V → W)
    (h : ∀ o ∈ after, match o with | .change i _ => i ≠ r | .save k _ => k ≠ key) :
    let x := (before ++ .save key r :: after).foldl kstep (heap, (⟨[]⟩ : Other K))
    restore (x.2.dump x.1) key f = some (f ((before.foldl kstep (heap, (⟨[]⟩ : Other K))).1 r)) := by
  intro x
  have := C60_restored_partial heap (before ++ .save key r :: after) key f
  simp only at this
  rw [this]
  have e : lastSaved key (before ++ .save key r :: after) = some r := by
    unfold lastSaved
    rw [List.filterMap_append, List.filterMap_cons]
    simp only [if_true]
    have : (after.filterMap fun o => match o with | .save k r => if k = key then some r else none | _ => none) = [] := by
      rw [List.filterMap_eq_nil_iff]
      intro o ho
      have := h o ho
      cases o with
      | change i v => rfl
      | save k i => exact if_neg this
    rw [this]
    simp
  rw [e, Option.map_some]
  congr 2
  rw [List.foldl_append, List.foldl_cons]
  generalize hb : before.foldl kstep (heap, (⟨[]⟩ : Other K)) = b
  have g : ∀ y : (Nat → V) × Other K, (after.foldl kstep y).1 r = y.1 r := by
    clear this e x hb
    induction after with
    | nil => exact fun _ => rfl
    | cons o after ih =>
      intro y
      rw [List.foldl_cons, ih (fun o ho => h o (List.mem_cons_of_mem _ ho))]
      have := h o List.mem_cons_self
      cases o with
      | change i v => exact if_neg (Ne.symm this)
      | save k i => rfl
  rw [g]
  rfl

example : let x := [KOp.save "a" 0, .change 0 5, .save "b" 1, .save "a" 2].foldl kstep ((fun r => 10 * r : Nat → Nat), (⟨[]⟩ : Other String))
    restore (x.2.dump x.1) "a" (· + 1) = some 21 ∧ restore (x.2.dump x.1) "b" (· + 1) = some 11 ∧ restore (x.2.dump x.1) "c" (· + 1) = none := by decide

/-- C60 is violated: `save` keeps a reference. If the object (a list, say) changes after `save` and before the checkpoint is pickled, the changed value is restored. -/
theorem C60_violation_changed : ∃ (heap : Nat → Nat) (ops : List (KOp String Nat)),
    let x := (KOp.save "a" 0 :: ops).foldl kstep (heap, (⟨[]⟩ : Other String))
    heap 0 = 1 ∧ restore (x.2.dump x.1) "a" id = some 2 :=
  ⟨fun _ => 1, [.change 0 2], by decide⟩

end Repast.Rand
