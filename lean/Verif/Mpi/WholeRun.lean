import Verif.Mpi.WholeProps
import Verif.Mpi.RunProps

/-!
C74 for whole models: `SharedScheduleRunner.execute` (schedule.py:612-624) on ranks that have their own speed, with events that use agents, spaces, networks, value layers, data sets and tabular loggers.
-/
namespace Repast.Mpi.Run
open Repast.Schedule Repast.Mpi Repast.Mpi.Whole
open Repast.Context (Proj)
open Repast.Mixed (Kept HasM)
open Repast.Network (All)
open Repast.Mpi.Layers
open Repast.Files

variable {S A P Q V T U R : Type} {n : Nat}

/-! ### Specification -/

/-- What only one rank takes part in. -/
def wholeOwn : Whole.Turn S A Q P V T U R → Bool
  | .own _ => true
  | _ => false

/-! ### Lemmas -/

variable [Proj P Q] [Kept P] {k : Nat} {bs : List (Nat × String)}

/-- What rank `r` has fits the model `G` of all ranks: only agents, the values of layers and the rows of tabular loggers may be different. -/
structure Part (n k : Nat) (bs : List (Nat × String)) (r : Nat) (G : Model S A P V T U R) (c : Rk S A P V T U R) : Prop where
  lays : ∀ x ∈ G.lays, x.t.size = n
  files : Logs.Fit n G.files
  mx : HasM k bs c.mx
  same : c.lays.map (fun x => (x.t, x.buf)) = G.lays.map fun x => (x.t, x.buf)
  fs : c.files.fs = (Logs.view r G.files).fs
  sets : c.files.sets = (Logs.view r G.files).sets
  tabs : c.files.tabs.map Logs.RTab.path = (Logs.view r G.files).tabs.map Logs.RTab.path

theorem part_view {G : Model S A P V T U R} (h : Fit n k bs G) {r : Nat} (hr : r < n) : Part n k bs r G (G.view r) where
  lays := h.lays
  files := h.files
  mx := h.mx r hr
  same := by simp [Model.view, Lay.view]
  fs := rfl
  sets := rfl
  tabs := rfl

theorem map_set_same {α β : Type} {g : α → β} {l : List α} {j : Nat} {x y : α} (hx : l[j]? = some x) (e : g y = g x) : (l.set j y).map g = l.map g := by
  apply List.ext_getElem?
  intro i
  rw [List.getElem?_map, List.getElem?_map, List.getElem?_set]
  split
  · next c =>
    subst c
    have := (List.getElem?_eq_some_iff.1 hx).1
    rw [if_pos this, hx, Option.map_some, Option.map_some, e]
  · rfl

theorem Part.act {r : Nat} {G : Model S A P V T U R} {c : Rk S A P V T U R} (h : Part n k bs r G c) (a : Whole.Act S A Q V R) : All (Part n k bs r G) (Whole.Act.run c a) := by
  intro c' e
  cases a with
  | agent a =>
    obtain ⟨m, hm, rfl⟩ := Option.map_eq_some_iff.1 e
    exact { h with mx := Mix.HasM.act h.mx a m hm }
  | put j o =>
    obtain ⟨x, hx, e⟩ := Option.bind_eq_some_iff.1 e
    split at e
    · cases e
    · cases e
      exact { h with same := (map_set_same (y := { x with l := (x.l.step o).1 }) hx rfl).trans h.same }
  | row j a =>
    obtain ⟨s, hs, rfl⟩ := Option.map_eq_some_iff.1 e
    exact { h with tabs := (map_set_same (y := { s with rows := s.rows ++ [a] }) hs rfl).trans h.tabs }

/-- The model of all ranks, from what the ranks have. -/
def gather (G : Model S A P V T U R) (w : Nat → Rk S A P V T U R) : Model S A P V T U R where
  mx := fun i => (w i).mx
  lays := G.lays.mapIdx fun j x => { x with w := fun i => (((w i).lays[j]?).map RLay.l).getD (x.w i) }
  files := { G.files with tabs := G.files.tabs.mapIdx fun j d => { d with rows := fun i => (((w i).files.tabs[j]?).map Logs.RTab.rows).getD [] } }

theorem gather_fit {G : Model S A P V T U R} {w : Nat → Rk S A P V T U R} (hn : 0 < n) (h : ∀ i < n, Part n k bs i G (w i)) : Fit n k bs (gather G w) where
  mx := fun i hi => (h i hi).mx
  lays := by
    intro x hx
    obtain ⟨j, hj⟩ := List.mem_iff_getElem?.1 hx
    simp only [gather, List.getElem?_mapIdx, Option.map_eq_some_iff] at hj
    obtain ⟨y, hy, rfl⟩ := hj
    exact (h 0 hn).lays y (List.mem_of_getElem? hy)
  files := {
    sets := (h 0 hn).files.sets
    tabs := by
      intro x hx
      obtain ⟨j, hj⟩ := List.mem_iff_getElem?.1 hx
      simp only [gather, List.getElem?_mapIdx, Option.map_eq_some_iff] at hj
      obtain ⟨y, hy, rfl⟩ := hj
      exact (h 0 hn).files.tabs y (List.mem_of_getElem? hy) }

theorem gather_view {G : Model S A P V T U R} {w : Nat → Rk S A P V T U R} {i : Nat} (h : Part n k bs i G (w i)) : (gather G w).view i = w i := by
  have h1 : ((gather G w).view i).lays = (w i).lays := by
    apply List.ext_getElem?
    intro j
    have e := congrArg (fun l => l[j]?) h.same
    simp only [List.getElem?_map] at e
    simp only [Model.view, gather, List.getElem?_map, List.getElem?_mapIdx]
    cases hx : G.lays[j]? with
    | none =>
      rw [hx] at e
      cases hy : (w i).lays[j]? with
      | none => rfl
      | some y => rw [hy] at e; cases e
    | some x =>
      rw [hx] at e
      cases hy : (w i).lays[j]? with
      | none => rw [hy] at e; cases e
      | some y =>
        rw [hy] at e
        simp only [Option.map_some, Option.some.injEq, Prod.mk.injEq] at e
        obtain ⟨e1, e2⟩ := e
        cases y
        simp only at e1 e2
        subst e1 e2
        simp [Lay.view, hy]
  have h2 : ((gather G w).view i).files.tabs = (w i).files.tabs := by
    apply List.ext_getElem?
    intro j
    have e := congrArg (fun l => l[j]?) h.tabs
    simp only [Logs.view, List.getElem?_map] at e
    simp only [Model.view, gather, Logs.view, List.getElem?_map, List.getElem?_mapIdx]
    cases hx : G.files.tabs[j]? with
    | none =>
      rw [hx] at e
      cases hy : (w i).files.tabs[j]? with
      | none => rfl
      | some y => rw [hy] at e; cases e
    | some x =>
      rw [hx] at e
      cases hy : (w i).files.tabs[j]? with
      | none => rw [hy] at e; cases e
      | some y =>
        rw [hy] at e
        simp only [Option.map_some, Option.some.injEq] at e
        cases y
        simp only at e
        subst e
        simp [Logs.viewTab, hy]
  have h3 : ((gather G w).view i).files.fs = (w i).files.fs := h.fs.symm
  have h4 : ((gather G w).view i).files.sets = (w i).files.sets := h.sets.symm
  have h5 : ((gather G w).view i).mx = (w i).mx := rfl
  generalize (gather G w).view i = c at h1 h2 h3 h4 h5
  generalize w i = d at h1 h2 h3 h4 h5
  obtain ⟨cm, cl, cf, cs, ct⟩ := c
  obtain ⟨dm, dl, df, ds, dt⟩ := d
  simp only at h1 h2 h3 h4 h5
  subst h1 h2 h3 h4 h5
  rfl

variable {b : Bool} {f : Fmt T U} {csv : R → Text}

theorem whole_local (model : Nat → List (Whole.Turn S A Q P V T U R)) (l : Nat) (h : (model l).any (fun t => !wholeOwn t) = false) :
    Local (Part n k bs) (fun i l c => Whole.script n i b f csv (model l) c) l := by
  intro i c
  have key : ∀ (G : Option (Model S A P V T U R)), ∀ c, ∃ x, Prog.forM (Whole.turn n i b f csv) (model l) c = Prog.lift x ∧ ((∃ g, G = some g ∧ Part n k bs i g c) → All (fun c => ∃ g, G = some g ∧ Part n k bs i g c) x) :=
    fun G => forM_own (model l) (fun t ht c => by
    cases t with
    | own g =>
      exact ⟨_, rfl, fun ⟨G0, e, hc⟩ => fun c' e' => ⟨G0, e, All.foldlM (p := Part n k bs i G0) (fun c a hc => Part.act hc a) _ _ hc c' e'⟩⟩
    | _ => exact absurd (List.any_eq_true.2 ⟨_, ht, rfl⟩) (by rw [h]; decide))
  obtain ⟨x, e, _⟩ := key none c
  refine ⟨x, e, fun G hb c' hc' => ?_⟩
  obtain ⟨y, e', hy⟩ := key (some G) c
  have : x = y := by
    rw [e] at e'
    cases x <;> cases y <;> first | rfl | (cases e'; done) | (cases e'; rfl)
  obtain ⟨g, e1, e2⟩ := hy ⟨G, rfl, hb⟩ c' (this ▸ hc')
  cases e1
  exact e2

theorem lock_turns (hn : 0 < n) (ts : List (Whole.Turn S A Q P V T U R)) (ht : ∀ t ∈ ts, t.Of n) {G : Model S A P V T U R} (h : Fit n k bs G) :
    Lock n (fun r => Whole.script n r b f csv ts (G.view r)) ((turns n b f csv G ts).map fun G' r => G'.view r) ∧ ∀ G', turns n b f csv G ts = some G' → Fit n k bs G' := by
  obtain ⟨ops, h1, h2, h3⟩ := lock_script (b := b) (f := f) (csv := csv) hn ts h ht
  rw [h1.run] at h3
  exact ⟨h3, fun G' e => h.run hn h2 (by rw [h1.run]; exact e)⟩

theorem whole_together (hn : 0 < n) (model : Nat → List (Whole.Turn S A Q P V T U R)) (l : Nat) (ht : ∀ t ∈ model l, t.Of n) :
    Together (Part n k bs) (fun i l c => Whole.script n i b f csv (model l) c) n l := by
  intro G w hw
  obtain ⟨h1, h2⟩ := lock_turns (b := b) (f := f) (csv := csv) hn (model l) ht (gather_fit hn hw)
  refine ⟨_, h1.congr fun i hi => by rw [gather_view (hw i hi)], fun w' e => ?_⟩
  obtain ⟨G', e', rfl⟩ := Option.map_eq_some_iff.1 e
  exact ⟨G', fun i hi => part_view (h2 G' e') hi⟩

/-! ### Theorems -/

/-- C74: a whole model, with shared spaces, networks, value layers, data sets and tabular loggers. `pre` is what the ranks do before they call `execute`: they construct value layers and loggers, add agents. If the
ranks agree about the events that they all take part in, then no rank waits for ever, whatever speeds the ranks have, and whether or not the calls of MPI at which only rank 0 gets something make the other ranks
wait. -/
theorem C74_whole_partial (hn : 0 < n) (nf : Bool) (f : Fmt T U) (csv : R → Text) (ps : List P) (dirs : List Bool) (fs : FS) (pre : List (Whole.Turn S A Q P V T U R)) (hp : ∀ t ∈ pre, t.Of n)
    (model : Nat → List (Whole.Turn S A Q P V T U R)) (ht : ∀ l, ∀ t ∈ model l, t.Of n) (e : Nat → Env) (setup : Nat → List Act) (h : Agree n (fun l => (model l).any fun t => !wholeOwn t) e setup) (fuel N : Nat) :
    ∃ o, AnyPace n (fun r => (Whole.script n r nf f csv pre ((Model.start ps dirs fs).view r)).bind fun c =>
      execute (e r) fuel (fun l c => Whole.script n r nf f csv (model l) c) N (built (setup r)) c) o := by
  obtain ⟨h1, h2⟩ := lock_turns (b := nf) (f := f) (csv := csv) hn pre hp (fit_start (n := n) ps dirs fs)
  cases e1 : turns n nf f csv (Model.start ps dirs fs) pre with
  | none =>
    rw [e1] at h1
    exact ⟨none, (Lock.bind (q := fun r c => execute (e r) fuel (fun l c => Whole.script n r nf f csv (model l) c) N (built (setup r)) c) (o' := fun _ => none) h1 fun _ e' => by cases e').anyPace⟩
  | some G =>
    rw [e1] at h1
    obtain ⟨o, ho⟩ := lock_execute (H := Part n dirs.length (ps.map Mixed.form)) (body := fun i l c => Whole.script n i nf f csv (model l) c) (fun l hl => whole_local model l hl)
      (fun l _ => whole_together hn model l (ht l)) e fuel N _ (h.aligned hn fuel N) G (fun r => G.view r) fun i hi => part_view (h2 G e1) hi
    exact ⟨o, (Lock.bind (q := fun r c => execute (e r) fuel (fun l c => Whole.script n r nf f csv (model l) c) N (built (setup r)) c) (o' := fun _ => o) h1 fun _ e' => by cases e'; exact ho).anyPace⟩

/-- C74: ranks that make the same calls, whose events schedule the same, and that draw the same random numbers; a whole model. The ranks take the callables in the order of the schedule of one rank, each of them
together, as if each were a step of the whole system. -/
theorem C74_whole_same (hn : 0 < n) (nf : Bool) (f : Fmt T U) (csv : R → Text) (ps : List P) (dirs : List Bool) (fs : FS) (pre : List (Whole.Turn S A Q P V T U R)) (hp : ∀ t ∈ pre, t.Of n)
    (model : Nat → List (Whole.Turn S A Q P V T U R)) (ht : ∀ l, ∀ t ∈ model l, t.Of n) (e : Env) (setup : List Act) (fuel N : Nat) :
    AnyPace n (fun r => (Whole.script n r nf f csv pre ((Model.start ps dirs fs).view r)).bind fun c => execute e fuel (fun l c => Whole.script n r nf f csv (model l) c) N (built setup) c)
      ((turns n nf f csv (Model.start ps dirs fs) pre).bind fun G => (solo e fuel N (built setup)).bind fun s' => (turns n nf f csv G ((fresh (built setup) s').flatMap model)).map fun G r => (s', G.view r)) := by
  obtain ⟨h1, h2⟩ := lock_turns (b := nf) (f := f) (csv := csv) hn pre hp (fit_start (n := n) ps dirs fs)
  cases e1 : turns n nf f csv (Model.start ps dirs fs) pre with
  | none =>
    rw [e1] at h1
    exact (Lock.bind (q := fun r c => execute e fuel (fun l c => Whole.script n r nf f csv (model l) c) N (built setup) c) (o' := fun _ => none) h1 fun _ e' => by cases e').anyPace
  | some G =>
    rw [e1] at h1
    have := lock_same_view (fun (G : Model S A P V T U R) r => G.view r) (Z := Fit n dirs.length (ps.map Mixed.form)) (body := fun i l c => Whole.script n i nf f csv (model l) c)
      (F := fun l G => turns n nf f csv G (model l)) hn (fun l G hG => (lock_turns hn (model l) (ht l) hG).1) (fun l G G' hG e => (lock_turns hn (model l) (ht l) hG).2 G' e) e fuel N (built setup) G (h2 G e1)
    unfold turns at this ⊢
    simp only [← foldlM_flatMap] at this
    rw [Option.bind_some]
    exact (Lock.bind (q := fun r c => execute e fuel (fun l c => Whole.script n r nf f csv (model l) c) N (built setup) c)
      (o' := fun _ => (solo e fuel N (built setup)).bind fun s' => (((fresh (built setup) s').flatMap model).foldlM (fun G t => grun n nf f csv G (t.ops n G)) G).map fun G r => (s', G.view r)) h1
      fun _ e' => by cases e'; exact this).anyPace

/-! ### The hypotheses are met -/

/-- What the ranks construct before the schedule runs. -/
def exPreW : List (Whole.Turn Nat Nat Space.Pt Context.GridSp Int Nat Nat Nat) :=
  [.newLayer exLayer 2 (fun _ _ _ => -7) (fun _ _ _ _ => -1) (some 0), .newSet exCols 1 "out".toList "a.csv".toList, .newTab "a\n".toList "out".toList "b.csv".toList]

/-- The callables: 0 synchronizes, 1 logs how many agents there are and writes, 2 adds an agent, sets a value of the layer and logs a row. -/
def exModelW : Nat → List (Whole.Turn Nat Nat Space.Pt Context.GridSp Int Nat Nat Nat)
  | 0 => [.synch true fun _ _ _ _ => -8]
  | 1 => [.log 0 (fun _ c => c.files.fs.files.length) (fun _ c _ => c.mx.nc.locals.length), .write 0, .flush 0]
  | _ => [.own fun r c => [.agent (.add (10 * r + 1) 5), .agent (.gmove 0 (10 * r + 1) ⟨5, 0, 0⟩), .put 0 (.set ⟨4 + r, 0, 0⟩ (r + 1)), .row 0 (c.mx.nc.locals.length + r + 3)]]

theorem exPreW_of : ∀ t ∈ exPreW, t.Of 2 := by
  intro t ht
  simp only [exPreW, List.mem_cons, List.not_mem_nil, or_false] at ht
  rcases ht with rfl | rfl | rfl <;> first | trivial | exact (by decide : exLayer.size = 2)

theorem exModelW_of : ∀ l, ∀ t ∈ exModelW l, t.Of 2 := by
  intro l t ht
  match l with
  | 0 => simp only [exModelW, List.mem_cons, List.not_mem_nil, or_false] at ht; subst ht; trivial
  | 1 =>
    simp only [exModelW, List.mem_cons, List.not_mem_nil, or_false] at ht
    rcases ht with rfl | rfl | rfl <;> trivial
  | (k + 2) => simp only [exModelW, List.mem_cons, List.not_mem_nil, or_false] at ht; subst ht; trivial

theorem exModelW_coll : (fun l => (exModelW l).any fun t => !wholeOwn t) = fun l => decide (l < 2) := by
  funext l
  match l with
  | 0 => rfl
  | 1 => rfl
  | (k + 2) => simp [exModelW, wholeOwn]

/-- The schedules of the ranks are different (`exSetup`). -/
example (N : Nat) : ∃ o, AnyPace 2 (fun r => (Whole.script 2 r true exFmt Logs.exCsv exPreW (exStart.view r)).bind fun c =>
    execute (exEnvs r) 20 (fun l c => Whole.script 2 r true exFmt Logs.exCsv (exModelW l) c) N (built (exSetup r)) c) o :=
  C74_whole_partial (by omega) true exFmt Logs.exCsv _ _ _ exPreW exPreW_of exModelW exModelW_of exEnvs exSetup (exModelW_coll ▸ exAgree) 20 N

/-- The same schedule on both ranks. -/
def exSetupW : List Act := [.sched (some 1) .random none none 2 none, .sched (some 1) .last none (some 1) 0 none, .sched (some 2) .random none none 1 none, .schedStop (some 2), .schedEnd 1]

example : ((turns 2 true exFmt Logs.exCsv exStart exPreW).bind fun G => (solo (exEnvs 0) 20 5 (built exSetupW)).bind fun s' =>
    (turns 2 true exFmt Logs.exCsv G ((fresh (built exSetupW) s').flatMap exModelW)).map fun G => (fresh (built exSetupW) s', G.files.fs.files, (List.range 2).map fun r => Dict.keys (G.mx r).nc.locals)) =
    some ([2, 0, 1, 0, 1], [("out/a.csv".toList, "x".toList), ("out/a_1.csv".toList, "tick,total,max\n3,2,2\n3,2,2\n".toList), ("out/b.csv".toList, "a\n3\n4\n".toList)], [[], [11, 1]]) := by
  decide +kernel

end Repast.Mpi.Run
