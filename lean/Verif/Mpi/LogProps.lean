import Verif.Mpi.Logs

/-!
C75: data sets and tabular loggers on ranks that run at their own speed, the ranks other than 0 without waiting for the others in `write`; and several of them beside each other.
-/
namespace Repast.Mpi.Logs
open Repast.Files

variable {T V R : Type} {n : Nat}

/-! ### Specification -/

/-- A call of `log` or `write` of data set `j`. -/
def setOp (j : Nat) : LOp T V R → Option (DOp T V)
  | .log i t v => if i = j then some (.log t v) else none
  | .write i => if i = j then some .write else none
  | _ => none

/-- A call of `log_row` or `write` of logger `j`. -/
def tabOp (j : Nat) : LOp T V R → Option (TOp R)
  | .row i r a => if i = j then some (.row r a) else none
  | .flush i => if i = j then some .write else none
  | _ => none

/-- The calls of `log` and `write` of data set `j`. -/
def setOps (j : Nat) (ops : List (LOp T V R)) : List (DOp T V) := ops.filterMap (setOp j)

/-- The calls of `log_row` and `write` of logger `j`. -/
def tabOps (j : Nat) (ops : List (LOp T V R)) : List (TOp R) := ops.filterMap (tabOp j)

/-- How many data sets are created. -/
def newSets : List (LOp T V R) → Nat
  | [] => 0
  | .newSet .. :: ops => newSets ops + 1
  | _ :: ops => newSets ops

/-- How many tabular loggers are created. -/
def newTabs : List (LOp T V R) → Nat
  | [] => 0
  | .newTab .. :: ops => newTabs ops + 1
  | _ :: ops => newTabs ops

/-- Before the first logger. -/
def noFiles (fs : FS) : Files T V R := ⟨fs, [], []⟩

/-- What rank `r` has before it has a logger: the file system is that of rank 0. -/
def nothing (r : Nat) (fs : FS) : RFiles T V R := { fs := if r = 0 then fs else emptyFS, sets := [], tabs := [] }

/-! ### What an operation changes -/

/-- A text is appended, or nothing happens. -/
def addText (fs : FS) (p : Text) : Option Text → FS
  | none => fs
  | some t => { fs with files := appendFile fs.files p t }

theorem read_addText (fs : FS) (p : Text) (t : Option Text) (q : Text) :
    (addText fs p t).read q = if q = p then (match t with | none => fs.read p | some t => some ((fs.read p).getD [] ++ t)) else fs.read q := by
  cases t with
  | none => unfold addText; split <;> simp_all
  | some t =>
    unfold addText FS.read
    simp only [lookup_append]

theorem write_adds {f : Fmt T V} {fs : FS} {d : RDS T V} {x : FS × RDS T V} (h : RDS.write f (fs, d) = some x) :
    x.2.path = d.path ∧ ∃ t, ∀ fs', RDS.write f (fs', d) = some (addText fs' d.path t, x.2) := by
  unfold RDS.write at h
  obtain ⟨vals, h1, h⟩ := Option.bind_eq_some_iff.1 h
  obtain ⟨t, h2, rfl⟩ := Option.map_eq_some_iff.1 h
  refine ⟨rfl, some t, fun fs' => ?_⟩
  unfold RDS.write
  simp only [] at h1 h2
  simp only [h1, Option.bind_some, h2, Option.map_some]
  rfl

theorem step_adds {f : Fmt T V} {fs : FS} {d : RDS T V} {o : DOp T V} {x : FS × RDS T V} (h : RDS.step f (fs, d) o = some x) :
    x.2.path = d.path ∧ ∃ t, ∀ fs', RDS.step f (fs', d) o = some (addText fs' d.path t, x.2) := by
  cases o with
  | write => exact write_adds h
  | log t v =>
    simp only [RDS.step, RDS.log] at h ⊢
    split at h
    · next c => simp only [c, if_true]; exact write_adds h
    · next c =>
      split at h
      · next c' => cases h; exact ⟨rfl, none, fun fs' => by rw [if_neg c, if_pos c']; rfl⟩
      · cases h

theorem tab_adds (csv : R → Text) (d : Tab R) (o : TOp R) :
    ∃ t d', d'.path = d.path ∧ ∀ fs, Tab.step csv (fs, d) o = (addText fs d.path t, d') := by
  cases o with
  | row r a => exact ⟨none, { d with rows := fun k => if k = r then d.rows k ++ [a] else d.rows k }, rfl, fun _ => rfl⟩
  | write => exact ⟨some ((List.range d.n).flatMap fun r => (d.rows r).flatMap csv), { d with rows := fun _ => [] }, rfl, fun _ => rfl⟩

theorem fresh_unread {fs : FS} {dir name q : Text} (h : findFree fs dir name = some q) : fs.read q = none := by
  have := findFree_fresh h
  unfold FS.read
  rw [List.lookup_eq_none_iff]
  intro e he
  have : e.1 ≠ q := fun e' => this (by unfold FS.names; rw [List.mem_append]; exact .inl (List.mem_map.2 ⟨e, he, e'⟩))
  simpa using fun h => this h.symm

theorem newSet_reads {f : Fmt T V} {cols : List (Col V)} {buf : Int} {fs : FS} {dir name : Text} {x : FS × RDS T V} (h : RDS.new f cols n buf fs dir name = some x) :
    fs.read x.2.path = none ∧ (x.1.read x.2.path).isSome ∧ ∀ q, q ≠ x.2.path → x.1.read q = fs.read q := by
  obtain ⟨h1, h2⟩ := rinv_new f h
  obtain ⟨done, pend, -, -, h3⟩ := h2.split
  exact ⟨fresh_unread h1, by rw [h3]; rfl, h2.other⟩

theorem newTab_reads {head : Text} {fs : FS} {dir name : Text} {x : FS × Tab R} (h : Tab.new head n fs dir name = some x) :
    fs.read x.2.path = none ∧ (x.1.read x.2.path).isSome ∧ ∀ q, q ≠ x.2.path → x.1.read q = fs.read q := by
  obtain ⟨h1, L, h2⟩ := tinv_run (fun _ => []) h []
  exact ⟨fresh_unread h1, by rw [show x.1.read _ = _ from h2.content]; rfl, h2.other⟩

/-! ### The files of the loggers are different -/

def Files.paths (L : Files T V R) : List Text := L.sets.map (·.path) ++ L.tabs.map (·.path)

structure Apart (L : Files T V R) : Prop where
  nodup : L.paths.Nodup
  there : ∀ p ∈ L.paths, (L.fs.read p).isSome

theorem nodup_inj {α : Type} {l : List α} (h : l.Nodup) {i j : Nat} {a : α} (hi : l[i]? = some a) (hj : l[j]? = some a) : i = j := by
  obtain ⟨h1, e1⟩ := List.getElem?_eq_some_iff.1 hi
  obtain ⟨h2, e2⟩ := List.getElem?_eq_some_iff.1 hj
  exact (List.getElem_inj h).1 (e1.trans e2.symm)

theorem map_set_same {α β : Type} {g : α → β} {l : List α} {j : Nat} {a b : α} (h : l[j]? = some a) (e : g b = g a) : (l.set j b).map g = l.map g := by
  apply List.ext_getElem?
  intro i
  rw [List.getElem?_map, List.getElem?_map, List.getElem?_set]
  split
  · next hi => subst hi; rw [h, if_pos (List.getElem?_eq_some_iff.1 h).1]; simp [e]
  · rfl

variable {f : Fmt T V} {csv : R → Text}

/-- What one operation does to the loggers and to the files. -/
structure Moves (f : Fmt T V) (csv : R → Text) (L : Files T V R) (o : LOp T V R) (L' : Files T V R) : Prop where
  apart : Apart L'
  set : ∀ j d, L.sets[j]? = some d → match setOp j o with
    | none => L'.sets[j]? = some d ∧ L'.fs.read d.path = L.fs.read d.path
    | some p => ∃ x, RDS.step f (L.fs, d) p = some x ∧ L'.sets[j]? = some x.2 ∧ L'.fs = x.1
  tab : ∀ j d, L.tabs[j]? = some d → match tabOp j o with
    | none => L'.tabs[j]? = some d ∧ L'.fs.read d.path = L.fs.read d.path
    | some p => L'.tabs[j]? = some (Tab.step csv (L.fs, d) p).2 ∧ L'.fs = (Tab.step csv (L.fs, d) p).1
  paths : ∀ p ∈ L.paths, p ∈ L'.paths
  fresh : ∀ p ∈ L'.paths, p ∈ L.paths ∨ L.fs.read p = none
  other : ∀ q, q ∉ L'.paths → L'.fs.read q = L.fs.read q

theorem set_paths {L : Files T V R} {j : Nat} {d : RDS T V} (h : L.sets[j]? = some d) : d.path ∈ L.paths :=
  List.mem_append.2 (.inl (List.mem_map.2 ⟨d, List.mem_of_getElem? h, rfl⟩))

theorem tab_paths {L : Files T V R} {j : Nat} {d : Tab R} (h : L.tabs[j]? = some d) : d.path ∈ L.paths :=
  List.mem_append.2 (.inr (List.mem_map.2 ⟨d, List.mem_of_getElem? h, rfl⟩))

theorem Apart.sets {L : Files T V R} (h : Apart L) {i j : Nat} {d d' : RDS T V} (hi : L.sets[i]? = some d) (hj : L.sets[j]? = some d') (c : i ≠ j) : d.path ≠ d'.path := by
  intro e
  have h1 : (L.sets.map (·.path))[i]? = some d.path := by rw [List.getElem?_map, hi]; rfl
  have h2 : (L.sets.map (·.path))[j]? = some d.path := by rw [List.getElem?_map, hj, e]; rfl
  exact c (nodup_inj (List.nodup_append.1 h.nodup).1 h1 h2)

theorem Apart.tabs {L : Files T V R} (h : Apart L) {i j : Nat} {d d' : Tab R} (hi : L.tabs[i]? = some d) (hj : L.tabs[j]? = some d') (c : i ≠ j) : d.path ≠ d'.path := by
  intro e
  have h1 : (L.tabs.map (·.path))[i]? = some d.path := by rw [List.getElem?_map, hi]; rfl
  have h2 : (L.tabs.map (·.path))[j]? = some d.path := by rw [List.getElem?_map, hj, e]; rfl
  exact c (nodup_inj (List.nodup_append.1 h.nodup).2.1 h1 h2)

theorem Apart.both {L : Files T V R} (h : Apart L) {i j : Nat} {d : RDS T V} {d' : Tab R} (hi : L.sets[i]? = some d) (hj : L.tabs[j]? = some d') : d.path ≠ d'.path :=
  (List.nodup_append.1 h.nodup).2.2 _ (List.mem_map.2 ⟨d, List.mem_of_getElem? hi, rfl⟩) _ (List.mem_map.2 ⟨d', List.mem_of_getElem? hj, rfl⟩)

theorem there_addText {fs : FS} {ps : List Text} (h : ∀ p ∈ ps, (fs.read p).isSome) (p : Text) (t : Option Text) : ∀ q ∈ ps, ((addText fs p t).read q).isSome := by
  intro q hq
  rw [read_addText]
  split
  · next e => subst e; cases t with
    | none => exact h _ hq
    | some t => rfl
  · exact h q hq

theorem moves_set {L : Files T V R} (h : Apart L) {j : Nat} {d : RDS T V} (hd : L.sets[j]? = some d) {p : DOp T V} {x : FS × RDS T V} (hx : RDS.step f (L.fs, d) p = some x)
    {o : LOp T V R} (ho : ∀ i, setOp i o = if j = i then some p else none) (ht : ∀ i, tabOp i o = none) :
    Moves f csv L o { L with fs := x.1, sets := L.sets.set j x.2 } := by
  obtain ⟨hp, t, hs⟩ := step_adds hx
  have e1 : x.1 = addText L.fs d.path t := by have := (hs L.fs).symm.trans hx; injection this with this; rw [← this]
  have ep : Files.paths { L with fs := x.1, sets := L.sets.set j x.2 } = L.paths := by
    unfold Files.paths
    rw [map_set_same hd hp]
  refine ⟨⟨by rw [ep]; exact h.nodup, by rw [ep, e1]; exact there_addText h.there _ _⟩, ?_, ?_, fun p hp => (by rw [ep]; exact hp), fun p hp => .inl (by rw [ep] at hp; exact hp), ?_⟩
  · intro i d' hi
    rw [ho i]
    by_cases c : j = i
    · subst c
      rw [if_pos rfl]
      rw [hd] at hi
      cases hi
      exact ⟨x, hx, by simp [List.getElem?_set, (List.getElem?_eq_some_iff.1 hd).1], rfl⟩
    · rw [if_neg c]
      refine ⟨by rw [List.getElem?_set_ne c]; exact hi, ?_⟩
      show x.1.read _ = _
      rw [e1, read_addText, if_neg (h.sets hi hd (Ne.symm c))]
  · intro i d' hi
    rw [ht i]
    refine ⟨hi, ?_⟩
    show x.1.read _ = _
    rw [e1, read_addText, if_neg (Ne.symm (h.both hd hi))]
  · intro q hq
    rw [ep] at hq
    show x.1.read _ = _
    rw [e1, read_addText, if_neg fun e => hq (by rw [e]; exact set_paths hd)]

theorem moves_tab {L : Files T V R} (h : Apart L) {j : Nat} {d : Tab R} (hd : L.tabs[j]? = some d) (p : TOp R)
    {o : LOp T V R} (ho : ∀ i, tabOp i o = if j = i then some p else none) (ht : ∀ i, setOp i o = none) :
    Moves f csv L o { L with fs := (Tab.step csv (L.fs, d) p).1, tabs := L.tabs.set j (Tab.step csv (L.fs, d) p).2 } := by
  obtain ⟨t, d1, hp, hs⟩ := tab_adds csv d p
  have ep : Files.paths { L with fs := (Tab.step csv (L.fs, d) p).1, tabs := L.tabs.set j (Tab.step csv (L.fs, d) p).2 } = L.paths := by
    unfold Files.paths
    rw [map_set_same hd (by rw [hs]; exact hp)]
  refine ⟨⟨by rw [ep]; exact h.nodup, by rw [ep, hs]; exact there_addText h.there _ _⟩, ?_, ?_, fun p hp => (by rw [ep]; exact hp), fun p hp => .inl (by rw [ep] at hp; exact hp), ?_⟩
  · intro i d' hi
    rw [ht i]
    refine ⟨hi, ?_⟩
    show (Tab.step csv (L.fs, d) p).1.read _ = _
    rw [hs, read_addText, if_neg (h.both hi hd)]
  · intro i d' hi
    rw [ho i]
    by_cases c : j = i
    · subst c
      rw [if_pos rfl]
      rw [hd] at hi
      cases hi
      exact ⟨by simp [List.getElem?_set, (List.getElem?_eq_some_iff.1 hd).1], rfl⟩
    · rw [if_neg c]
      refine ⟨by rw [List.getElem?_set_ne c]; exact hi, ?_⟩
      show (Tab.step csv (L.fs, d) p).1.read _ = _
      rw [hs, read_addText, if_neg (h.tabs hi hd (Ne.symm c))]
  · intro q hq
    rw [ep] at hq
    show (Tab.step csv (L.fs, d) p).1.read _ = _
    rw [hs, read_addText, if_neg fun e => hq (by rw [e]; exact tab_paths hd)]

theorem moves {L L' : Files T V R} (h : Apart L) {o : LOp T V R} (e : lstep n f csv L o = some L') : Moves f csv L o L' := by
  cases o with
  | newSet cols buf dir name =>
    obtain ⟨x, hx, rfl⟩ := Option.map_eq_some_iff.1 e
    obtain ⟨h1, h2, h3⟩ := newSet_reads hx
    have hnew : x.2.path ∉ L.paths := fun hp => by have := h.there _ hp; rw [h1] at this; cases this
    have hm : ∀ p, p ∈ Files.paths { L with fs := x.1, sets := L.sets ++ [x.2] } ↔ p = x.2.path ∨ p ∈ L.paths := by
      intro p
      simp only [Files.paths, List.map_append, List.mem_append, List.map_cons, List.map_nil, List.mem_singleton]
      constructor
      · rintro ((h | h) | h)
        · exact .inr (.inl h)
        · exact .inl h
        · exact .inr (.inr h)
      · rintro (h | h | h)
        · exact .inl (.inr h)
        · exact .inl (.inl h)
        · exact .inr h
    have hr : ∀ p ∈ L.paths, x.1.read p = L.fs.read p := fun p hp => h3 p fun e => hnew (by rw [← e]; exact hp)
    refine ⟨⟨?_, ?_⟩, ?_, ?_, fun p hp => (hm p).2 (.inr hp), fun p hp => ((hm p).1 hp).symm.imp id fun e => by rw [e]; exact h1, fun q hq => h3 q fun e => hq ((hm q).2 (.inl e))⟩
    · have hn := List.nodup_append.1 h.nodup
      simp only [Files.paths, List.map_append, List.map_cons, List.map_nil]
      refine List.nodup_append.2 ⟨List.nodup_append.2 ⟨hn.1, by simp, ?_⟩, hn.2.1, ?_⟩
      · intro a ha b hb e
        rw [List.mem_singleton.1 hb] at e
        exact hnew (by rw [← e]; exact List.mem_append.2 (.inl ha))
      · intro a ha b hb e
        rcases List.mem_append.1 ha with ha | ha
        · exact hn.2.2 a ha b hb e
        · rw [List.mem_singleton.1 ha] at e
          exact hnew (by rw [e]; exact List.mem_append.2 (.inr hb))
    · intro p hp
      rcases (hm p).1 hp with rfl | hp
      · exact h2
      · show (x.1.read p).isSome; rw [hr p hp]; exact h.there p hp
    · intro j d hd
      exact ⟨by rw [List.getElem?_append_left (List.getElem?_eq_some_iff.1 hd).1]; exact hd, hr _ (set_paths hd)⟩
    · intro j d hd
      exact ⟨hd, hr _ (tab_paths hd)⟩
  | newTab head dir name =>
    obtain ⟨x, hx, rfl⟩ := Option.map_eq_some_iff.1 e
    obtain ⟨h1, h2, h3⟩ := newTab_reads hx
    have hnew : x.2.path ∉ L.paths := fun hp => by have := h.there _ hp; rw [h1] at this; cases this
    have hm : ∀ p, p ∈ Files.paths { L with fs := x.1, tabs := L.tabs ++ [x.2] } ↔ p = x.2.path ∨ p ∈ L.paths := by
      intro p
      simp only [Files.paths, List.map_append, List.mem_append, List.map_cons, List.map_nil, List.mem_singleton]
      constructor
      · rintro (h | h | h)
        · exact .inr (.inl h)
        · exact .inr (.inr h)
        · exact .inl h
      · rintro (h | h | h)
        · exact .inr (.inr h)
        · exact .inl h
        · exact .inr (.inl h)
    have hr : ∀ p ∈ L.paths, x.1.read p = L.fs.read p := fun p hp => h3 p fun e => hnew (by rw [← e]; exact hp)
    refine ⟨⟨?_, ?_⟩, ?_, ?_, fun p hp => (hm p).2 (.inr hp), fun p hp => ((hm p).1 hp).symm.imp id fun e => by rw [e]; exact h1, fun q hq => h3 q fun e => hq ((hm q).2 (.inl e))⟩
    · simp only [Files.paths, List.map_append, List.map_cons, List.map_nil, ← List.append_assoc]
      refine List.nodup_append.2 ⟨h.nodup, by simp, ?_⟩
      intro a ha b hb e
      rw [List.mem_singleton.1 hb] at e
      exact hnew (by rw [← e]; exact ha)
    · intro p hp
      rcases (hm p).1 hp with rfl | hp
      · exact h2
      · show (x.1.read p).isSome; rw [hr p hp]; exact h.there p hp
    · intro j d hd
      exact ⟨hd, hr _ (set_paths hd)⟩
    · intro j d hd
      exact ⟨by rw [List.getElem?_append_left (List.getElem?_eq_some_iff.1 hd).1]; exact hd, hr _ (tab_paths hd)⟩
  | log j t v =>
    obtain ⟨d, hd, e⟩ := Option.bind_eq_some_iff.1 e
    obtain ⟨x, hx, rfl⟩ := Option.map_eq_some_iff.1 e
    exact moves_set h hd (p := .log t v) hx (fun i => rfl) fun i => rfl
  | write j =>
    obtain ⟨d, hd, e⟩ := Option.bind_eq_some_iff.1 e
    obtain ⟨x, hx, rfl⟩ := Option.map_eq_some_iff.1 e
    exact moves_set h hd (p := .write) hx (fun i => rfl) fun i => rfl
  | row j r a =>
    obtain ⟨d, hd, rfl⟩ := Option.map_eq_some_iff.1 e
    exact moves_tab h hd (.row r a) (fun i => rfl) fun i => rfl
  | flush j =>
    obtain ⟨d, hd, rfl⟩ := Option.map_eq_some_iff.1 e
    exact moves_tab h hd .write (fun i => rfl) fun i => rfl

/-! ### A logger beside others does what it does alone -/

theorem run_cons {α σ : Type} {g : σ → α → Option σ} {s t : σ} {a : α} {l : List α} (h : (a :: l).foldlM g s = some t) : ∃ u, g s a = some u ∧ l.foldlM g u = some t := by
  rw [List.foldlM_cons] at h
  exact Option.bind_eq_some_iff.1 h

theorem alone_set : ∀ (ops : List (LOp T V R)) {L L' : Files T V R}, Apart L → lrun n f csv L ops = some L' → ∀ {j : Nat} {d : RDS T V}, L.sets[j]? = some d →
    ∀ {fs : FS}, fs.read d.path = L.fs.read d.path →
    ∃ y, RDS.run f (fs, d) (setOps j ops) = some y ∧ L'.sets[j]? = some y.2 ∧ y.2.path = d.path ∧ L'.fs.read d.path = y.1.read d.path := by
  intro ops
  induction ops with
  | nil => intro L L' _ e j d hd fs hr; cases e; exact ⟨_, rfl, hd, rfl, hr.symm⟩
  | cons o ops ih =>
    intro L L' h e j d hd fs hr
    obtain ⟨L1, e1, e2⟩ := run_cons e
    have hm := moves h e1
    have hs := hm.set j d hd
    cases c : setOp j o with
    | none =>
      rw [c] at hs
      have : setOps j (o :: ops) = setOps j ops := by unfold setOps; rw [List.filterMap_cons_none c]
      rw [this]
      exact ih hm.apart e2 hs.1 (hr.trans hs.2.symm)
    | some p =>
      rw [c] at hs
      obtain ⟨x, hx, h1, h2⟩ := hs
      have : setOps j (o :: ops) = p :: setOps j ops := by unfold setOps; rw [List.filterMap_cons_some c]
      rw [this]
      obtain ⟨hp, t, ht⟩ := step_adds hx
      have e1 : x.1 = addText L.fs d.path t := by have := (ht L.fs).symm.trans hx; injection this with this; rw [← this]
      obtain ⟨y, hy, h3, h4, h5⟩ := ih hm.apart e2 h1 (fs := addText fs d.path t) (by rw [h2, e1, hp, read_addText, read_addText, hr])
      refine ⟨y, ?_, h3, h4.trans hp, by rw [← hp]; exact h5⟩
      unfold RDS.run
      rw [List.foldlM_cons, ht fs]
      exact hy

theorem alone_tab : ∀ (ops : List (LOp T V R)) {L L' : Files T V R}, Apart L → lrun n f csv L ops = some L' → ∀ {j : Nat} {d : Tab R}, L.tabs[j]? = some d →
    ∀ {fs : FS}, fs.read d.path = L.fs.read d.path →
    ∃ y, Tab.run csv (fs, d) (tabOps j ops) = y ∧ L'.tabs[j]? = some y.2 ∧ y.2.path = d.path ∧ L'.fs.read d.path = y.1.read d.path := by
  intro ops
  induction ops with
  | nil => intro L L' _ e j d hd fs hr; cases e; exact ⟨_, rfl, hd, rfl, hr.symm⟩
  | cons o ops ih =>
    intro L L' h e j d hd fs hr
    obtain ⟨L1, e1, e2⟩ := run_cons e
    have hm := moves h e1
    have hs := hm.tab j d hd
    cases c : tabOp j o with
    | none =>
      rw [c] at hs
      have : tabOps j (o :: ops) = tabOps j ops := by unfold tabOps; rw [List.filterMap_cons_none c]
      rw [this]
      exact ih hm.apart e2 hs.1 (hr.trans hs.2.symm)
    | some p =>
      rw [c] at hs
      obtain ⟨h1, h2⟩ := hs
      have : tabOps j (o :: ops) = p :: tabOps j ops := by unfold tabOps; rw [List.filterMap_cons_some c]
      rw [this]
      obtain ⟨t, d1, hp, ht⟩ := tab_adds csv d p
      rw [ht] at h1 h2
      obtain ⟨y, hy, h3, h4, h5⟩ := ih hm.apart e2 h1 (fs := addText fs d.path t) (by rw [h2, hp, read_addText, read_addText, hr])
      refine ⟨y, ?_, h3, h4.trans hp, by rw [← hp]; exact h5⟩
      unfold Tab.run
      rw [List.foldl_cons, ht fs]
      exact hy

theorem apart_run : ∀ (ops : List (LOp T V R)) {L L' : Files T V R}, Apart L → lrun n f csv L ops = some L' →
    Apart L' ∧ (∀ p ∈ L.paths, p ∈ L'.paths) ∧ ∀ q, q ∉ L'.paths → L'.fs.read q = L.fs.read q := by
  intro ops
  induction ops with
  | nil => intro L L' h e; cases e; exact ⟨h, fun _ h => h, fun _ _ => rfl⟩
  | cons o ops ih =>
    intro L L' h e
    obtain ⟨L1, e1, e2⟩ := run_cons e
    have hm := moves h e1
    obtain ⟨h1, h2, h3⟩ := ih hm.apart e2
    exact ⟨h1, fun p hp => h2 p (hm.paths p hp), fun q hq => (h3 q hq).trans (hm.other q fun hp => hq (h2 q hp))⟩

theorem apart_none (fs : FS) : Apart (noFiles fs : Files T V R) := ⟨List.nodup_nil, fun _ h => by cases h⟩
theorem fit_none (n : Nat) (fs : FS) : Fit n (noFiles fs : Files T V R) := ⟨fun _ h => (by cases h), fun _ h => (by cases h)⟩

theorem set_length {α : Type} (l : List α) (j : Nat) (a : α) : (l.set j a).length = l.length := List.length_set

theorem counts : ∀ (ops : List (LOp T V R)) {L L' : Files T V R}, lrun n f csv L ops = some L' →
    L'.sets.length = L.sets.length + newSets ops ∧ L'.tabs.length = L.tabs.length + newTabs ops := by
  intro ops
  induction ops with
  | nil => intro L L' e; cases e; exact ⟨rfl, rfl⟩
  | cons o ops ih =>
    intro L L' e
    obtain ⟨L1, e1, e2⟩ := run_cons e
    obtain ⟨h1, h2⟩ := ih e2
    cases o with
    | newSet cols buf dir name =>
      obtain ⟨x, hx, rfl⟩ := Option.map_eq_some_iff.1 e1
      simp only [List.length_append, List.length_singleton, newSets, newTabs] at *
      omega
    | newTab head dir name =>
      obtain ⟨x, hx, rfl⟩ := Option.map_eq_some_iff.1 e1
      simp only [List.length_append, List.length_singleton, newSets, newTabs] at *
      omega
    | log j t v =>
      obtain ⟨d, hd, e1⟩ := Option.bind_eq_some_iff.1 e1
      obtain ⟨x, hx, rfl⟩ := Option.map_eq_some_iff.1 e1
      simp only [List.length_set, newSets, newTabs] at *; exact ⟨h1, h2⟩
    | write j =>
      obtain ⟨d, hd, e1⟩ := Option.bind_eq_some_iff.1 e1
      obtain ⟨x, hx, rfl⟩ := Option.map_eq_some_iff.1 e1
      simp only [List.length_set, newSets, newTabs] at *; exact ⟨h1, h2⟩
    | row j r a =>
      obtain ⟨d, hd, rfl⟩ := Option.map_eq_some_iff.1 e1
      simp only [List.length_set, newSets, newTabs] at *; exact ⟨h1, h2⟩
    | flush j =>
      obtain ⟨d, hd, rfl⟩ := Option.map_eq_some_iff.1 e1
      simp only [List.length_set, newSets, newTabs] at *; exact ⟨h1, h2⟩

theorem log_ok (f : Fmt T V) {d : RDS T V} {pend : List (T × (Nat → Nat → V))} (h : Holds d pend) (hn : 0 < d.n) (hc : d.cols ≠ []) (o : DOp T V) (fs : FS) :
    ∃ x, RDS.step f (fs, d) o = some x ∧ x.2.cols = d.cols := by
  have hi : Files.RInv f d.cols d.n d.path ⟨[], [(d.path, header f d.cols)]⟩ (⟨[], [(d.path, header f d.cols)]⟩, d) pend :=
    ⟨rfl, rfl, rfl, ⟨[], pend, rfl, h, by simp [FS.read, List.lookup]⟩, fun _ _ => rfl⟩
  have : ∃ y, RDS.step f (⟨[], [(d.path, header f d.cols)]⟩, d) o = some y ∧ y.2.cols = d.cols := by
    cases o with
    | log t v => obtain ⟨y, h1, h2⟩ := rinv_log f hn hc hi t v; exact ⟨y, h1, h2.ecols⟩
    | write => obtain ⟨y, h1, h2, _⟩ := rinv_write f hn hi; exact ⟨y, h1, h2.ecols⟩
  obtain ⟨y, hy, hc⟩ := this
  obtain ⟨_, t, ht⟩ := step_adds hy
  exact ⟨_, ht fs, hc⟩

/-- An operation of a logger that exists. -/
def Known (s t : Nat) : LOp T V R → Prop
  | .log j _ _ => j < s
  | .write j => j < s
  | .row j _ _ => j < t
  | .flush j => j < t
  | _ => False

theorem ops_ok (hn : 0 < n) : ∀ (ops : List (LOp T V R)) {L : Files T V R}, Fit n L → (∀ d ∈ L.sets, d.cols ≠ []) → (∀ o ∈ ops, Known L.sets.length L.tabs.length o) →
    ∃ L', lrun n f csv L ops = some L' := by
  intro ops
  induction ops with
  | nil => intro L _ _ _; exact ⟨L, rfl⟩
  | cons o ops ih =>
    intro L h hc ho
    have hx := ho o List.mem_cons_self
    have key : ∃ L1, lstep n f csv L o = some L1 ∧ (∀ d ∈ L1.sets, d.cols ≠ []) ∧ L1.sets.length = L.sets.length ∧ L1.tabs.length = L.tabs.length := by
      have hset : ∀ j p, j < L.sets.length → ∃ d x, L.sets[j]? = some d ∧ RDS.step f (L.fs, d) p = some x ∧ ∀ d ∈ L.sets.set j x.2, d.cols ≠ [] := by
        intro j p hj
        have hd := List.getElem?_eq_getElem hj
        obtain ⟨h1, pend, h2⟩ := h.sets _ (List.mem_of_getElem? hd)
        have hcd := hc _ (List.mem_of_getElem? hd)
        obtain ⟨x, hx, he⟩ := log_ok f h2 (by omega) hcd p L.fs
        refine ⟨_, x, hd, hx, fun d' hd' => ?_⟩
        rcases mem_set hd' with rfl | hd'
        · rw [he]; exact hcd
        · exact hc d' hd'
      cases o with
      | newSet => cases hx
      | newTab => cases hx
      | log j t v =>
        obtain ⟨d, x, h1, h2, h3⟩ := hset j (.log t v) hx
        have e : lstep n f csv L (.log j t v) = some { L with fs := x.1, sets := L.sets.set j x.2 } := by simp only [lstep, h1, Option.bind_some]; rw [show RDS.log f (L.fs, d) t v = some x from h2]; rfl
        exact ⟨_, e, h3, List.length_set, rfl⟩
      | write j =>
        obtain ⟨d, x, h1, h2, h3⟩ := hset j .write hx
        have e : lstep n f csv L (.write j) = some { L with fs := x.1, sets := L.sets.set j x.2 } := by simp only [lstep, h1, Option.bind_some]; rw [show RDS.write f (L.fs, d) = some x from h2]; rfl
        exact ⟨_, e, h3, List.length_set, rfl⟩
      | row j r a =>
        have hd := List.getElem?_eq_getElem (l := L.tabs) hx
        have e : lstep n f csv L (.row j r a) = some { L with tabs := L.tabs.set j (Tab.step csv (L.fs, L.tabs[j]'hx) (.row r a)).2 } := by simp only [lstep, hd, Option.map_some]
        exact ⟨_, e, hc, rfl, List.length_set⟩
      | flush j =>
        have hd := List.getElem?_eq_getElem (l := L.tabs) hx
        have e : lstep n f csv L (.flush j) = some { L with fs := (Tab.step csv (L.fs, L.tabs[j]'hx) .write).1, tabs := L.tabs.set j (Tab.step csv (L.fs, L.tabs[j]'hx) .write).2 } := by
          simp only [lstep, hd, Option.map_some]
        exact ⟨_, e, hc, rfl, List.length_set⟩
    obtain ⟨L1, e1, h1, h2, h3⟩ := key
    obtain ⟨L', e2⟩ := ih (h.step hn e1) h1 (by rw [h2, h3]; exact fun o ho' => ho o (List.mem_cons_of_mem _ ho'))
    exact ⟨L', by unfold lrun; rw [List.foldlM_cons, e1]; exact e2⟩

theorem fit_run (hn : 0 < n) : ∀ (ops : List (LOp T V R)) {L L' : Files T V R}, Fit n L → lrun n f csv L ops = some L' → Fit n L' := by
  intro ops
  induction ops with
  | nil => intro L L' h e; cases e; exact h
  | cons o ops ih =>
    intro L L' h e
    obtain ⟨L1, e1, e2⟩ := run_cons e
    exact ih (h.step hn e1) e2

theorem run_append {L L' : Files T V R} {a b : List (LOp T V R)} (h : lrun n f csv L (a ++ b) = some L') : ∃ L1, lrun n f csv L a = some L1 ∧ lrun n f csv L1 b = some L' := by
  unfold lrun at h
  rw [List.foldlM_append] at h
  exact Option.bind_eq_some_iff.1 h

theorem new_set_alone {fs : FS} {cols : List (Col V)} {buf : Int} {dir name : Text} {pre post : List (LOp T V R)} {L : Files T V R}
    (h : lrun n f csv (noFiles fs) (pre ++ .newSet cols buf dir name :: post) = some L) :
    ∃ fs1 x y, RDS.new f cols n buf fs1 dir name = some x ∧ RDS.run f x (setOps (newSets pre) post) = some y ∧ L.sets[newSets pre]? = some y.2 ∧ y.2.path = x.2.path ∧
      L.fs.read x.2.path = y.1.read x.2.path ∧ fs.read x.2.path = none := by
  obtain ⟨L1, e1, e⟩ := run_append h
  obtain ⟨L2, e2, e3⟩ := run_cons e
  obtain ⟨ha, _, ho⟩ := apart_run pre (apart_none fs) e1
  have hc := (counts pre e1).1
  have hm := moves ha e2
  obtain ⟨x, hx, rfl⟩ := Option.map_eq_some_iff.1 e2
  have hj : (L1.sets ++ [x.2])[newSets pre]? = some x.2 := by
    rw [show newSets pre = L1.sets.length by rw [hc]; simp [noFiles]]
    simp
  obtain ⟨y, h1, h2, h3, h4⟩ := alone_set post hm.apart e3 hj (fs := x.1) rfl
  refine ⟨L1.fs, x, y, hx, h1, h2, h3, h4, ?_⟩
  have hf := (newSet_reads hx).1
  rw [show fs.read x.2.path = L1.fs.read x.2.path from (ho _ fun hp => ?_).symm]
  · exact hf
  · have := ha.there _ hp
    rw [hf] at this
    cases this

theorem new_tab_alone {fs : FS} {head dir name : Text} {pre post : List (LOp T V R)} {L : Files T V R}
    (h : lrun n f csv (noFiles fs) (pre ++ .newTab head dir name :: post) = some L) :
    ∃ fs1 x y, Tab.new head n fs1 dir name = some x ∧ Tab.run csv x (tabOps (newTabs pre) post) = y ∧ L.tabs[newTabs pre]? = some y.2 ∧ y.2.path = x.2.path ∧
      L.fs.read x.2.path = y.1.read x.2.path ∧ fs.read x.2.path = none := by
  obtain ⟨L1, e1, e⟩ := run_append h
  obtain ⟨L2, e2, e3⟩ := run_cons e
  obtain ⟨ha, _, ho⟩ := apart_run pre (apart_none fs) e1
  have hc := (counts pre e1).2
  have hm := moves ha e2
  obtain ⟨x, hx, rfl⟩ := Option.map_eq_some_iff.1 e2
  have hj : (L1.tabs ++ [x.2])[newTabs pre]? = some x.2 := by
    rw [show newTabs pre = L1.tabs.length by rw [hc]; simp [noFiles]]
    simp
  obtain ⟨y, h1, h2, h3, h4⟩ := alone_tab post hm.apart e3 hj (fs := x.1) rfl
  refine ⟨L1.fs, x, y, hx, h1, h2, h3, h4, ?_⟩
  have hf := (newTab_reads hx).1
  rw [show fs.read x.2.path = L1.fs.read x.2.path from (ho _ fun hp => ?_).symm]
  · exact hf
  · have := ha.there _ hp
    rw [hf] at this
    cases this

/-! ### C75 -/

/-- C75: any number of data sets and tabular loggers, created at any time, and any history of calls: the ranks, which run at their own speed and of which those other than 0 need not wait for the others in
`write`, all finish, none raises an exception, and each has in the end what the history gives if all ranks do each of its operations together; or, if the history raises an exception, then some rank raises one. -/
theorem C75_any_pace (f : Fmt T V) (csv : R → Text) (hn : 0 < n) (fs : FS) (ops : List (LOp T V R)) :
    AnyPace n (fun r => parts f csv r ops (nothing r fs)) ((lrun n f csv (noFiles fs) ops).map fun L r => view r L) :=
  (lock_parts f csv hn ops (fit_none n fs)).anyPace

/-- C75: operations of loggers that exist raise no exception, if all data sets have columns. -/
theorem C75_no_exception (f : Fmt T V) (csv : R → Text) (hn : 0 < n) (fs : FS) (pre post : List (LOp T V R)) {L : Files T V R} (h : lrun n f csv (noFiles fs) pre = some L)
    (hc : ∀ d ∈ L.sets, d.cols ≠ []) (ho : ∀ o ∈ post, Known (newSets pre) (newTabs pre) o) : ∃ L', lrun n f csv (noFiles fs) (pre ++ post) = some L' := by
  obtain ⟨h1, h2⟩ := counts pre h
  obtain ⟨L', e⟩ := ops_ok (csv := csv) hn post (fit_run hn pre (fit_none n fs) h) hc (by rw [h1, h2]; simpa [noFiles] using ho)
  refine ⟨L', ?_⟩
  unfold lrun at *
  rw [List.foldlM_append, h]
  exact e

/-- C75: however fast the ranks are: when rank 0 has finished, the file of a data set that was written at the end contains the header and one row for each call of its `log`, in the order of the calls, with the
reductions of the values that the ranks had at that call; whatever other data sets and loggers there are. The file did not exist before. -/
theorem C75_data_set (hn : 0 < n) {cols : List (Col V)} (hc : cols ≠ []) {fs : FS} {buf : Int} {dir name : Text} {pre post : List (LOp T V R)} {L : Files T V R}
    (h : lrun n f csv (noFiles fs) (pre ++ .newSet cols buf dir name :: (post ++ [.write (newSets pre)])) = some L)
    {c : Nat} {w : World (RFiles T V R)} (hw : RSteps n c (World.start fun r => parts f csv r (pre ++ .newSet cols buf dir name :: (post ++ [.write (newSets pre)])) (nothing r fs)) w)
    {a : RFiles T V R} (ha : w.prog 0 = .ret a) :
    ∃ s, a.sets[newSets pre]? = some s ∧ fs.read s.path = none ∧
      a.fs.read s.path = some ("tick".toList ++ cols.flatMap (fun c => f.delim ++ c.name) ++ "\n".toList ++ (logged (setOps (newSets pre) post)).flatMap (rowOf f cols n)) := by
  obtain ⟨bound, hb⟩ := C75_any_pace f csv hn fs (pre ++ .newSet cols buf dir name :: (post ++ [.write (newSets pre)]))
  have hb := hb c w hw
  rw [h] at hb
  have e := hb.2.2.2 0 hn a ha
  obtain ⟨fs1, x, y, h1, h2, h3, h4, h5, h6⟩ := new_set_alone h
  obtain ⟨y', z, h7, h8, h9, _⟩ := C46_rows f hn hc h1 (setOps (newSets pre) post)
  have ey : y = z := by
    have : setOps (newSets pre) (post ++ [LOp.write (newSets pre)]) = setOps (newSets pre) post ++ [.write] := by
      unfold setOps
      rw [List.filterMap_append]
      simp [setOp]
    rw [this] at h2
    unfold RDS.run at h2 h7
    rw [List.foldlM_append, h7] at h2
    have h2 : RDS.write f y' >>= pure = some y := h2
    rw [h8] at h2
    injection h2 with h2
    exact h2.symm
  subst ey
  subst e
  refine ⟨viewSet 0 y.2, ?_, ?_, ?_⟩
  · simp only [view, List.getElem?_map, h3]; rfl
  · show fs.read y.2.path = none
    rw [h4]; exact h6
  · show L.fs.read y.2.path = _
    rw [h4, h5, h9]

/-- C75: after any history, also without a `write` at the end, the file of a data set contains the header and the rows of the first calls of its `log`; with a positive buffer size `buf` fewer than `buf` are missing. -/
theorem C75_data_set_prefix (hn : 0 < n) {cols : List (Col V)} (hc : cols ≠ []) {fs : FS} {buf : Int} {dir name : Text} {pre post : List (LOp T V R)} {L : Files T V R}
    (h : lrun n f csv (noFiles fs) (pre ++ .newSet cols buf dir name :: post) = some L)
    {c : Nat} {w : World (RFiles T V R)} (hw : RSteps n c (World.start fun r => parts f csv r (pre ++ .newSet cols buf dir name :: post) (nothing r fs)) w)
    {a : RFiles T V R} (ha : w.prog 0 = .ret a) :
    ∃ (s : RSet T V) (k : Nat), a.sets[newSets pre]? = some s ∧ (0 < buf → (logged (setOps (newSets pre) post)).length - k < buf) ∧
      a.fs.read s.path = some ("tick".toList ++ cols.flatMap (fun c => f.delim ++ c.name) ++ "\n".toList ++ ((logged (setOps (newSets pre) post)).take k).flatMap (rowOf f cols n)) := by
  obtain ⟨bound, hb⟩ := C75_any_pace f csv hn fs (pre ++ .newSet cols buf dir name :: post)
  have hb := hb c w hw
  rw [h] at hb
  have e := hb.2.2.2 0 hn a ha
  obtain ⟨fs1, x, y, h1, h2, h3, h4, h5, h6⟩ := new_set_alone h
  obtain ⟨z, k, h7, _, h8, h9⟩ := C46_prefix f hn hc h1 (setOps (newSets pre) post)
  rw [h2] at h7
  cases h7
  subst e
  refine ⟨viewSet 0 y.2, k, ?_, h8, ?_⟩
  · simp only [view, List.getElem?_map, h3]; rfl
  · show L.fs.read y.2.path = _
    rw [h4, h5, h9]
    rfl

/-- C75: however fast the ranks are: when rank 0 has finished, the file of a tabular logger that was written at the end contains the header, and of each rank exactly the rows that it logged, in the order in which
it logged them; rows that were logged before an earlier write come first, and among the rows of one write those of smaller ranks. -/
theorem C75_tabular (hn : 0 < n) {fs : FS} {head dir name : Text} {pre post : List (LOp T V R)} {L : Files T V R}
    (h : lrun n f csv (noFiles fs) (pre ++ .newTab head dir name :: (post ++ [.flush (newTabs pre)])) = some L)
    {c : Nat} {w : World (RFiles T V R)} (hw : RSteps n c (World.start fun r => parts f csv r (pre ++ .newTab head dir name :: (post ++ [.flush (newTabs pre)])) (nothing r fs)) w)
    {a : RFiles T V R} (ha : w.prog 0 = .ret a) :
    ∃ (s : RTab R) (E : List (Entry R)), a.tabs[newTabs pre]? = some s ∧ fs.read s.path = none ∧ a.fs.read s.path = some (head ++ E.flatMap fun e => csv e.row) ∧
      (∀ r < n, (E.filter fun e => e.rank = r).map (fun e => (e.phase, e.row)) = rowsOf r 0 (tabOps (newTabs pre) post)) ∧ (∀ e ∈ E, e.rank < n) ∧ E.Pairwise Entry.le := by
  obtain ⟨bound, hb⟩ := C75_any_pace f csv hn fs (pre ++ .newTab head dir name :: (post ++ [.flush (newTabs pre)]))
  have hb := hb c w hw
  rw [h] at hb
  have e := hb.2.2.2 0 hn a ha
  obtain ⟨fs1, x, y, h1, h2, h3, h4, h5, h6⟩ := new_tab_alone h
  obtain ⟨E, h7, h8⟩ := C47_rows csv h1 (tabOps (newTabs pre) post)
  have : tabOps (newTabs pre) (post ++ [LOp.flush (newTabs pre)]) = tabOps (newTabs pre) post ++ [.write] := by
    unfold tabOps
    rw [List.filterMap_append]
    simp [tabOp]
  rw [this] at h2
  subst e
  refine ⟨viewTab 0 y.2, E, ?_, ?_, ?_, h8⟩
  · simp only [view, List.getElem?_map, h3]; rfl
  · show fs.read y.2.path = none
    rw [h4]; exact h6
  · show L.fs.read y.2.path = _
    rw [h4, h5, ← h2, h7]

/-- C75: data sets and loggers write to different files; files that existed before are not changed. -/
theorem C75_own_files {fs : FS} {ops : List (LOp T V R)} {L : Files T V R} (h : lrun n f csv (noFiles fs) ops = some L) :
    (L.sets.map (·.path) ++ L.tabs.map (·.path)).Nodup ∧ ∀ q, (fs.read q).isSome → L.fs.read q = fs.read q := by
  have key : ∀ (ops : List (LOp T V R)) {L L' : Files T V R}, Apart L → lrun n f csv L ops = some L' → ∀ q ∈ L'.paths, (L.fs.read q).isSome → q ∈ L.paths := by
    intro ops
    induction ops with
    | nil => intro L L' _ e q hq _; cases e; exact hq
    | cons o ops ih =>
      intro L L' h e q hq hr
      obtain ⟨L1, e1, e2⟩ := run_cons e
      have hm := moves h e1
      have hq1 : q ∈ L1.paths := ih hm.apart e2 q hq (by
        by_cases c : q ∈ L1.paths
        · exact hm.apart.there q c
        · rw [hm.other q c]; exact hr)
      rcases hm.fresh q hq1 with h | h
      · exact h
      · rw [h] at hr; cases hr
  obtain ⟨h1, _, h2⟩ := apart_run ops (apart_none fs) h
  refine ⟨h1.nodup, fun q hq => h2 q fun hp => ?_⟩
  have := key ops (apart_none fs) h q hp hq
  cases this

theorem finishes {α : Type} {ps : Nat → Prog α} {g : Nat → α} (h : AnyPace n ps (some g)) : ∀ {c : Nat} {w : World α}, RSteps n c (World.start ps) w → ∃ c' w', RSteps n c' (World.start ps) w' ∧ w'.Done n g := by
  obtain ⟨bound, h⟩ := h
  have key : ∀ k c w, c + k = bound + 1 → RSteps n c (World.start ps) w → ∃ c' w', RSteps n c' (World.start ps) w' ∧ w'.Done n g := by
    intro k
    induction k with
    | zero => intro c w e hw; have := (h c w hw).1; omega
    | succ k ih =>
      intro c w e hw
      rcases (h c w hw).2.2.1 with hd | ⟨w', hs⟩
      · exact ⟨c, w, hw, hd⟩
      · exact ih (c + 1) w' (by omega) (.succ hw hs)
  intro c w hw
  exact key (bound + 1 - c) c w (by have := (h c w hw).1; omega) hw

/-- C75: the ranks do finish. -/
theorem C75_finish (hn : 0 < n) {fs : FS} {ops : List (LOp T V R)} {L : Files T V R} (h : lrun n f csv (noFiles fs) ops = some L) :
    ∃ c w, RSteps n c (World.start fun r => parts f csv r ops (nothing r fs)) w ∧ ∀ r < n, w.prog r = .ret (view r L) := by
  have ha := C75_any_pace f csv hn fs ops
  rw [h] at ha
  obtain ⟨c, w, h1, h2⟩ := finishes ha (.zero _)
  exact ⟨c, w, h1, h2⟩

/-! ### Examples -/

/-- Two data sets with buffers of different sizes and a tabular logger, which are used in turns. -/
def exLogs : List (LOp Nat Nat Nat) :=
  [.newSet exCols 1 "out".toList "a.csv".toList, .newTab "a\n".toList "out".toList "a.csv".toList, .log 0 1 (fun r j => r + j), .newSet exCols 3 "out".toList "a.csv".toList, .row 0 1 7,
    .log 1 1 (fun r _ => r), .log 0 2 (fun _ j => j), .row 0 0 5, .flush 0, .log 1 2 (fun _ _ => 4), .row 0 2 9, .flush 0, .write 1, .write 0]

def exCsv (a : Nat) : Text := (toString a).toList ++ "\n".toList

example : (lrun 3 exFmt exCsv (noFiles exFS) exLogs).map (fun L => (L.fs.files, L.sets.map (·.path), L.tabs.map (·.path))) = some (
    [("out/a.csv".toList, "x".toList), ("out/a_1.csv".toList, "tick,total,max\n1,3,3\n2,0,1\n".toList), ("out/a_2.csv".toList, "a\n5\n7\n9\n".toList),
      ("out/a_3.csv".toList, "tick,total,max\n1,3,2\n2,12,4\n".toList)],
    ["out/a_1.csv".toList, "out/a_3.csv".toList], ["out/a_2.csv".toList]) := by
  decide +kernel

/-- The hypotheses of `C75_data_set`, for the second data set. -/
example : ∃ L c w a, lrun 3 exFmt exCsv (noFiles exFS) (exLogs.take 3 ++ .newSet exCols 3 "out".toList "a.csv".toList :: ((exLogs.drop 4).take 8 ++ [.write (newSets (exLogs.take 3))])) = some L ∧
    RSteps 3 c (World.start fun r => parts exFmt exCsv r (exLogs.take 3 ++ .newSet exCols 3 "out".toList "a.csv".toList :: ((exLogs.drop 4).take 8 ++ [.write (newSets (exLogs.take 3))])) (nothing r exFS)) w ∧
    w.prog 0 = .ret a := by
  have h : (lrun 3 exFmt exCsv (noFiles exFS) (exLogs.take 3 ++ .newSet exCols 3 "out".toList "a.csv".toList :: ((exLogs.drop 4).take 8 ++ [.write (newSets (exLogs.take 3))]))).isSome := by decide +kernel
  obtain ⟨L, h⟩ := Option.isSome_iff_exists.1 h
  obtain ⟨c, w, h1, h2⟩ := C75_finish (by omega) h
  exact ⟨L, c, w, _, h, h1, h2 0 (by omega)⟩

/-- The hypotheses of `C75_tabular`. -/
example : ∃ L c w a, lrun 3 exFmt exCsv (noFiles exFS) (exLogs.take 1 ++ .newTab "a\n".toList "out".toList "a.csv".toList :: ((exLogs.drop 2).take 9 ++ [.flush (newTabs (exLogs.take 1))])) = some L ∧
    RSteps 3 c (World.start fun r => parts exFmt exCsv r (exLogs.take 1 ++ .newTab "a\n".toList "out".toList "a.csv".toList :: ((exLogs.drop 2).take 9 ++ [.flush (newTabs (exLogs.take 1))])) (nothing r exFS)) w ∧
    w.prog 0 = .ret a := by
  have h : (lrun 3 exFmt exCsv (noFiles exFS) (exLogs.take 1 ++ .newTab "a\n".toList "out".toList "a.csv".toList :: ((exLogs.drop 2).take 9 ++ [.flush (newTabs (exLogs.take 1))]))).isSome := by decide +kernel
  obtain ⟨L, h⟩ := Option.isSome_iff_exists.1 h
  obtain ⟨c, w, h1, h2⟩ := C75_finish (by omega) h
  exact ⟨L, c, w, _, h, h1, h2 0 (by omega)⟩

/-- The hypotheses of `C75_no_exception`. -/
example : ∃ L, lrun 3 exFmt exCsv (noFiles exFS) (exLogs.take 4) = some L ∧ (∀ d ∈ L.sets, d.cols ≠ []) ∧ ∀ o ∈ exLogs.drop 4, Known (newSets (exLogs.take 4)) (newTabs (exLogs.take 4)) o := by
  have h : (lrun 3 exFmt exCsv (noFiles exFS) (exLogs.take 4)).isSome := by decide +kernel
  have h' : ((lrun 3 exFmt exCsv (noFiles exFS) (exLogs.take 4)).map fun L => L.sets.all fun d => !d.cols.isEmpty) = some true := by decide +kernel
  obtain ⟨L, h⟩ := Option.isSome_iff_exists.1 h
  refine ⟨L, h, ?_, ?_⟩
  · rw [h] at h'
    simpa using h'
  · intro o ho
    simp only [exLogs, List.drop, List.take, newSets, newTabs] at ho ⊢
    simp only [List.mem_cons, List.not_mem_nil, or_false] at ho
    rcases ho with rfl | rfl | rfl | rfl | rfl | rfl | rfl | rfl | rfl | rfl <;> simp [Known]

end Repast.Mpi.Logs
