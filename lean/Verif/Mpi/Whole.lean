import Verif.Mpi.Layers
import Verif.Mpi.Logs
import Verif.Mpi.MixFront

/-!
Whole models on ranks that run at their own speed: a context with spaces and networks (`Verif/Mpi/Mixed`), value layers that have been added to the context (`Verif/Mpi/Layers`), data sets and tabular loggers
(`Verif/Mpi/Logs`).

The context synchronizes its value layers between its projections and the last steps of `synchronize` and of `move_agents` (context.py:248-261), so the collective calls of value layers come in between those of
the context.

Simplifications: those of the three parts; a call on a value layer or a row for a tabular logger that raises an exception ends the rank; a value layer is added to the context when it is constructed
(`add_value_layer`, context.py:62-68).
-/
namespace Repast.Mpi.Whole
open Repast.Dict Repast.Mixed Repast.Mpi
open Repast.Context (recv sent Proj)
open Repast.Network (All Has Attr)
open Repast.Mpi.Mix (Same)
open Repast.Mpi.Layers
open Repast.Mpi.Logs (Files RFiles LOp lstep lrun)
open Repast.ValueLayer (Layer srun SOp)
open Repast.Topology (Topo)
open Repast.Files

variable {S A P Q V T U R : Type}

/-! ### All ranks together -/

/-- The contexts, the value layers, and the data sets and tabular loggers. -/
structure Model (S A P V T U R : Type) where
  mx : Mixed.World S A P
  lays : List (Lay V)
  files : Files T U R

/-- What one rank has. -/
structure Rk (S A P V T U R : Type) where
  mx : Mx S A P
  lays : List (RLay V)
  files : RFiles T U R

def Model.view (r : Nat) (G : Model S A P V T U R) : Rk S A P V T U R := { mx := G.mx r, lays := G.lays.map (Lay.view r), files := Logs.view r G.files }

/-- What happens in a model: operations of a rank on its agents, edges, value layers and rows, and the collective functions. `junk j r k` is what the send buffer of layer `j` for rank `k` on rank `r` held before. -/
inductive Op (S A Q V T U R : Type) where
  | agent (r : Nat) (a : Mix.Act S A Q)
  | put (r j : Nat) (o : ValueLayer.Op V)
  | request (rs : Nat → List (Nat × Nat))
  | move (ms : Nat → List (Nat × Nat)) (junk : Nat → Nat → Nat → Nat → V)
  | synch (ghosts : Bool) (junk : Nat → Nat → Nat → Nat → V)
  | newLayer (t : Topo) (buf : Nat) (junk : Nat → Nat → Nat → V) (rand : Nat → Nat → Nat → Nat → V) (v : Option V)
  | file (o : LOp T U R)

/-- A call on a value layer raises an exception. -/
def raises : ValueLayer.Res V → Bool
  | .error => true
  | _ => false

variable [Proj P Q] [Kept P]

/-- context.py:260-261, 263-308, 486-549; value_layer.py:489-534; logging.py:260-411: the functions of the three parts, on all ranks. -/
def gstep (n : Nat) (b : Bool) (f : Fmt T U) (csv : R → Text) (G : Model S A P V T U R) : Op S A Q V T U R → Option (Model S A P V T U R)
  | .agent r a => (wstep n b G.mx (a.of r)).map fun m => { G with mx := m }
  | .put r j o => (G.lays[j]?).bind fun x => if raises ((x.w r).step o).2 then none else some { G with lays := G.lays.set j { x with w := Space.upd x.w r ((x.w r).step o).1 } }
  | .request rs => (Mixed.requestAgents n rs G.mx).map fun m => { G with mx := m }
  | .move ms junk => (Mixed.moveAgents n b ms G.mx).bind fun m => (synchAll junk 0 G.lays).map fun ls => { G with mx := m, lays := ls }
  | .synch g junk => (Mixed.synchronize n b g G.mx).bind fun m => (if g then synchAll junk 0 G.lays else some G.lays).map fun ls => { G with mx := m, lays := ls }
  | .newLayer t buf junk rand v => (ValueLayer.create t buf junk rand v).map fun w => { G with lays := G.lays ++ [{ t := t, buf := buf, w := w }] }
  | .file o => (lstep n f csv G.files o).map fun L => { G with files := L }

def grun (n : Nat) (b : Bool) (f : Fmt T U) (csv : R → Text) (G : Model S A P V T U R) (ops : List (Op S A Q V T U R)) : Option (Model S A P V T U R) := ops.foldlM (gstep n b f csv) G

/-! ### One rank -/

/-- What a rank does by itself. -/
inductive Act (S A Q V R : Type) where
  | agent (a : Mix.Act S A Q)
  | put (j : Nat) (o : ValueLayer.Op V)
  | row (j : Nat) (a : R)

/-- The operation in a history of all ranks. -/
def Act.of (r : Nat) : Act S A Q V R → Op S A Q V T U R
  | .agent a => .agent r a
  | .put j o => .put r j o
  | .row j a => .file (.row j r a)

/-- value_layer.py:41-60 and others (`get`, `set`, `get_nghs`), logging.py:373-390 `log_row`, and what a rank does with its agents and edges. -/
def Act.run (c : Rk S A P V T U R) : Act S A Q V R → Option (Rk S A P V T U R)
  | .agent a => (Mix.Act.run c.mx a).map fun m => { c with mx := m }
  | .put j o => (c.lays[j]?).bind fun x => if raises (x.l.step o).2 then none else some { c with lays := c.lays.set j { x with l := (x.l.step o).1 } }
  | .row j a => (c.files.tabs[j]?).map fun s => { c with files := { c.files with tabs := c.files.tabs.set j { s with rows := s.rows ++ [a] } } }

/-- What a model does: the ranks do something by themselves, or all call the same collective function. What they do and the arguments may depend on the rank and on all that the rank has. -/
inductive Turn (S A Q P V T U R : Type) where
  | own (f : Nat → Rk S A P V T U R → List (Act S A Q V R))
  | request (rs : Nat → Rk S A P V T U R → List (Nat × Nat))
  | move (ms : Nat → Rk S A P V T U R → List (Nat × Nat)) (junk : Nat → Nat → Nat → Nat → V)
  | synch (ghosts : Bool) (junk : Nat → Nat → Nat → Nat → V)
  | newLayer (t : Topo) (buf : Nat) (junk : Nat → Nat → Nat → V) (rand : Nat → Nat → Nat → Nat → V) (v : Option V)
  | newSet (cols : List (Col U)) (buf : Int) (dir name : Text)
  | newTab (head dir name : Text)
  | log (j : Nat) (t : Nat → Rk S A P V T U R → T) (v : Nat → Rk S A P V T U R → Nat → U)
  | write (j : Nat)
  | flush (j : Nat)

/-- context.py:263-308 `synchronize`, with the value layers (context.py:260-261). -/
def synchronize (n r : Nat) (b g : Bool) (junk : Nat → Nat → Nat → V) (c : Rk S A P V T U R) : Prog (Rk S A P V T U R) :=
  (if g then Mix.preSynch n r b c.mx else .ret c.mx).bind fun m => (Mix.moveOob n r m).bind fun x =>
    (if g then Mix.synchGhosts n r b x.1 else .ret x.1).bind fun m => (if g then synchOwn junk r 0 c.lays else .ret c.lays).bind fun ls =>
      (if x.2 then Mix.afterMoved n r m else .ret m).bind fun m => .ret { c with mx := m, lays := ls }

/-- context.py:486-549 `move_agents`, with the value layers (context.py:260-261, 546). -/
def moveAgents (n r : Nat) (b : Bool) (ms : List (Nat × Nat)) (junk : Nat → Nat → Nat → V) (c : Rk S A P V T U R) : Prog (Rk S A P V T U R) :=
  (Mix.moveFront n r b ms c.mx).bind fun m => (synchOwn junk r 0 c.lays).bind fun ls =>
    (Mix.eachNet (fun pid => Mix.onNc (Net.postMoved n r pid)) m).bind fun m => .ret { c with mx := m, lays := ls }

/-- A function of a data set or a tabular logger. -/
def fileTurn (f : Fmt T U) (csv : R → Text) (r : Nat) (o : LOp T U R) (c : Rk S A P V T U R) : Prog (Rk S A P V T U R) := (Logs.part f csv r o c.files).bind fun L => .ret { c with files := L }

/-- A turn of rank `r`. -/
def turn (n r : Nat) (b : Bool) (f : Fmt T U) (csv : R → Text) (t : Turn S A Q P V T U R) (c : Rk S A P V T U R) : Prog (Rk S A P V T U R) :=
  match t with
  | .own g => Prog.lift ((g r c).foldlM Act.run c)
  | .request rs => (Mix.requestAgents n r (rs r c) c.mx).bind fun m => .ret { c with mx := m }
  | .move ms junk => moveAgents n r b (ms r c) (fun j => junk j r) c
  | .synch g junk => synchronize n r b g (fun j => junk j r) c
  | .newLayer t buf junk rand v => (layerNew t buf (junk r) (rand r) v r).bind fun l => .ret { c with lays := c.lays ++ [{ t := t, buf := buf, l := l }] }
  | .newSet cols buf dir name => fileTurn f csv r (.newSet cols buf dir name) c
  | .newTab head dir name => fileTurn f csv r (.newTab head dir name) c
  | .log j t v => fileTurn f csv r (.log j (t r c) fun _ => v r c) c
  | .write j => fileTurn f csv r (.write j) c
  | .flush j => fileTurn f csv r (.flush j) c

def script (n r : Nat) (b : Bool) (f : Fmt T U) (csv : R → Text) (ts : List (Turn S A Q P V T U R)) (c : Rk S A P V T U R) : Prog (Rk S A P V T U R) := Prog.forM (turn n r b f csv) ts c

/-- The topology of a value layer is one of all ranks. -/
def Turn.Of (n : Nat) : Turn S A Q P V T U R → Prop
  | .newLayer t _ _ _ _ => t.size = n
  | _ => True

/-- A turn as operations of a history: the ranks one after the other. -/
def Turn.ops (n : Nat) (t : Turn S A Q P V T U R) (G : Model S A P V T U R) : List (Op S A Q V T U R) :=
  match t with
  | .own f => (List.range n).flatMap fun r => (f r (G.view r)).map (Act.of r)
  | .request rs => [.request fun r => rs r (G.view r)]
  | .move ms junk => [.move (fun r => ms r (G.view r)) junk]
  | .synch g junk => [.synch g junk]
  | .newLayer t buf junk rand v => [.newLayer t buf junk rand v]
  | .newSet cols buf dir name => [.file (.newSet cols buf dir name)]
  | .newTab head dir name => [.file (.newTab head dir name)]
  | .log j t v => [.file (.log j (t 0 (G.view 0)) fun r => v r (G.view r))]
  | .write j => [.file (.write j)]
  | .flush j => [.file (.flush j)]

/-- `ops` are what the ranks do in the turns `ts`, one rank after the other: as far as none of them raises an exception, and then until one does. -/
inductive Follows (n : Nat) (b : Bool) (f : Fmt T U) (csv : R → Text) : Model S A P V T U R → List (Turn S A Q P V T U R) → List (Op S A Q V T U R) → Prop
  | nil (G : Model S A P V T U R) : Follows n b f csv G [] []
  | cons {G G' : Model S A P V T U R} {t : Turn S A Q P V T U R} {ts : List (Turn S A Q P V T U R)} {ops : List (Op S A Q V T U R)} :
      grun n b f csv G (t.ops n G) = some G' → Follows n b f csv G' ts ops → Follows n b f csv G (t :: ts) (t.ops n G ++ ops)
  | raises {G : Model S A P V T U R} {t : Turn S A Q P V T U R} {ts : List (Turn S A Q P V T U R)} : grun n b f csv G (t.ops n G) = none → Follows n b f csv G (t :: ts) (t.ops n G)

variable {n k : Nat} {bs : List (Nat × String)} {b : Bool} {f : Fmt T U} {csv : R → Text}

/-- The ranks have the same projections, value layers and loggers. -/
structure Fit (n k : Nat) (bs : List (Nat × String)) (G : Model S A P V T U R) : Prop where
  mx : Same n k bs G.mx
  lays : ∀ x ∈ G.lays, x.t.size = n
  files : Logs.Fit n G.files

/-! ### Synchronizations -/

theorem lock_synchronize (hn : 0 < n) {G : Model S A P V T U R} (h : Fit n k bs G) (b g : Bool) (junk : Nat → Nat → Nat → Nat → V) :
    Lock n (fun r => synchronize n r b g (fun j => junk j r) (G.view r))
      (((Mixed.synchronize n b g G.mx).bind fun m => (if g then synchAll junk 0 G.lays else some G.lays).map fun ls => { G with mx := m, lays := ls }).map fun G' r => G'.view r) := by
  have hl : Lock n (fun r => if g then synchOwn (fun j => junk j r) r 0 (G.lays.map (Lay.view r)) else .ret (G.lays.map (Lay.view r)))
      ((if g then synchAll junk 0 G.lays else some G.lays).map fun ls r => ls.map (Lay.view r)) := by
    cases g with
    | true => exact lock_synchAll hn junk G.lays 0 h.lays
    | false => exact .done fun _ _ => rfl
  have hw := h.mx
  let D : Option (List (Lay V)) := if g then synchAll junk 0 G.lays else some G.lays
  have key : Lock n (fun r => synchronize n r b g (fun j => junk j r) (G.view r))
      ((if g then Mixed.preSynch n b G.mx else some G.mx).bind fun w => (Mix.wmoveOob n w).bind fun y =>
        (if g then Mixed.synchGhosts n b (fun r => (y r).1) else some fun r => (y r).1).bind fun w => (D.map fun ls r => ls.map (Lay.view r)).bind fun ls =>
          (if (y 0).2 then Mixed.afterMoved n w else some w).map fun m r => ({ G.view r with mx := m r, lays := ls r } : Rk S A P V T U R)) := by
    refine Lock.bind ?_ fun w1 e1 => ?_
    · cases g with
      | true => exact Mix.lock_preSynch hn hw b
      | false => exact .done fun _ _ => rfl
    have hw1 : Same n k bs w1 := (All.ite (hw.preSynch b) (All.some hw) : All (Same n k bs) _) w1 e1
    refine Lock.bind (Mix.lock_moveOob hn hw1) fun y ey => ?_
    obtain ⟨hy, hs⟩ := Mix.wmoveOob_same hw1 y ey
    refine Lock.bind ?_ fun w2 e2 => ?_
    · cases g with
      | true => exact Mix.lock_synchGhosts hn hy b
      | false => exact .done fun _ _ => rfl
    have hw2 : Same n k bs w2 := (All.ite (hy.synchGhosts b) (All.some hy) : All (Same n k bs) _) w2 e2
    refine Lock.bind hl fun ls _ => ?_
    refine Lock.bind_ret (g := fun r m => ({ G.view r with mx := m, lays := ls r } : Rk S A P V T U R)) ?_ fun _ _ _ _ => rfl
    refine Lock.congr (ps := fun i => if (y 0).2 then Mix.afterMoved n i (w2 i) else .ret (w2 i)) ?_ fun i _ => by rw [hs i 0]
    cases (y 0).2 with
    | true => exact Mix.lock_afterMoved hn hw2
    | false => exact .done fun _ _ => rfl
  refine Eq.mp (congrArg (Lock n _) ?_) key
  show _ = Option.map _ (Option.bind _ fun m => D.map _)
  rw [Mix.synchronize_eq b g G.mx hn]
  cases D with
  | none => simp
  | some ls =>
    simp only [Option.map_some, Option.bind_some, Option.map_bind, Option.bind_assoc, Function.comp_def, Option.map_eq_bind]
    rfl

theorem lock_move (hn : 0 < n) {G : Model S A P V T U R} (h : Fit n k bs G) (b : Bool) (ms : Nat → List (Nat × Nat)) (junk : Nat → Nat → Nat → Nat → V) :
    Lock n (fun r => moveAgents n r b (ms r) (fun j => junk j r) (G.view r))
      (((Mixed.moveAgents n b ms G.mx).bind fun m => (synchAll junk 0 G.lays).map fun ls => { G with mx := m, lays := ls }).map fun G' r => G'.view r) := by
  have key : Lock n (fun r => moveAgents n r b (ms r) (fun j => junk j r) (G.view r))
      ((Mix.wmoveFront n b ms G.mx).bind fun w => ((synchAll junk 0 G.lays).map fun ls r => ls.map (Lay.view r)).bind fun ls =>
        (Mixed.eachNet (fun pid => Mixed.onNets (Network.postMoved n pid)) w).map fun m r => ({ G.view r with mx := m r, lays := ls r } : Rk S A P V T U R)) := by
    refine Lock.bind (Mix.lock_moveFront hn h.mx b ms) fun w1 e1 => ?_
    have hw1 := h.mx.moveFront b ms w1 e1
    refine Lock.bind (lock_synchAll hn junk G.lays 0 h.lays) fun ls _ => ?_
    exact Lock.bind_ret (g := fun r m => ({ G.view r with mx := m, lays := ls r } : Rk S A P V T U R))
      (Mix.lock_eachNet hn hw1 (fun pid w _ => Mix.lock_onNets w (Net.lock_postMoved pid _)) fun pid _ hw => hw.onNets fun _ hx => hx.postMoved pid) fun _ _ _ _ => rfl
  refine Eq.mp (congrArg (Lock n _) ?_) key
  rw [Mix.moveAgents_front]
  cases synchAll junk 0 G.lays with
  | none => simp
  | some ls =>
    simp only [Option.map_some, Option.bind_some, Option.map_bind, Option.bind_assoc, Function.comp_def, Option.map_eq_bind]
    rfl

/-! ### What a rank does by itself -/

theorem mx_view {G : Model S A P V T U R} {r : Nat} : (G.view r).mx = G.mx r := rfl

theorem lays_set {j r s : Nat} {xs : List (Lay V)} {x : Lay V} (hx : xs[j]? = some x) (l : Layer V) :
    (xs.set j { x with w := Space.upd x.w r l }).map (Lay.view s) = if s = r then (xs.map (Lay.view r)).set j { x.view r with l := l } else xs.map (Lay.view s) := by
  rw [List.map_set]
  by_cases c : s = r
  · subst c
    rw [if_pos rfl]
    simp [Lay.view, Space.upd]
  · rw [if_neg c]
    have e : Lay.view s { x with w := Space.upd x.w r l } = Lay.view s x := by simp [Lay.view, Space.upd, c]
    rw [e]
    apply List.ext_getElem?
    intro i
    rw [List.getElem?_set]
    split
    · next e =>
      subst e
      rw [List.getElem?_map, hx]
      have := (List.getElem?_eq_some_iff.1 hx).1
      simp [this]
    · rfl

/-- A rank does something: it has what its own function gives it, and the other ranks have what they had. -/
theorem gstep_act {r : Nat} (hr : r < n) (a : Act S A Q V R) (G : Model S A P V T U R) :
    (gstep n b f csv G (a.of r)).map (fun G' => G'.view r) = Act.run (G.view r) a ∧ ∀ G', gstep n b f csv G (a.of r) = some G' → ∀ s, s ≠ r → G'.view s = G.view s := by
  cases a with
  | agent a =>
    show ((wstep n b G.mx (a.of r)).map _).map _ = _ ∧ ∀ G', (wstep n b G.mx (a.of r)).map _ = some G' → _
    rw [Mix.wstep_of]
    unfold Mixed.at_
    rw [if_pos hr]
    show (((Mix.Act.run (G.mx r) a).map _).map _).map _ = (Mix.Act.run (G.mx r) a).map _ ∧ ∀ G', ((Mix.Act.run (G.mx r) a).map _).map _ = some G' → _
    cases Mix.Act.run (G.mx r) a with
    | none => exact ⟨rfl, fun G' e => by cases e⟩
    | some c =>
      refine ⟨?_, fun G' e s hs => ?_⟩
      · simp [Model.view]
      · cases e
        simp [Model.view, hs]
  | put j o =>
    show ((G.lays[j]?).bind _).map _ = ((G.lays.map (Lay.view r))[j]?).bind _ ∧ ∀ G', (G.lays[j]?).bind _ = some G' → _
    rw [List.getElem?_map]
    cases hx : G.lays[j]? with
    | none => exact ⟨rfl, fun G' e => by cases e⟩
    | some x =>
      rw [Option.bind_some, Option.map_some, Option.bind_some]
      show _ = (if raises ((x.w r).step o).2 then none else some _) ∧ _
      split
      · exact ⟨rfl, fun G' e => by cases e⟩
      · refine ⟨?_, fun G' e s hs => ?_⟩
        · rw [Option.map_some]
          unfold Model.view
          simp only [lays_set hx, if_true]
          rfl
        · cases e
          unfold Model.view
          simp only [lays_set hx, if_neg hs]
  | row j a =>
    show ((lstep n f csv G.files (.row j r a)).map _).map _ = ((G.files.tabs.map (Logs.viewTab r))[j]?).map _ ∧ ∀ G', (lstep n f csv G.files (.row j r a)).map _ = some G' → _
    show (((G.files.tabs[j]?).map _).map _).map _ = _ ∧ ∀ G', ((G.files.tabs[j]?).map _).map _ = some G' → _
    rw [List.getElem?_map]
    cases hd : G.files.tabs[j]? with
    | none => exact ⟨rfl, fun G' e => by cases e⟩
    | some d =>
      refine ⟨?_, fun G' e s hs => ?_⟩
      · simp only [Option.map_some, Option.some.injEq]
        unfold Model.view Logs.view
        simp [Logs.viewTab, Tab.step, List.map_set]
      · cases e
        unfold Model.view Logs.view
        simp only [Rk.mk.injEq, RFiles.mk.injEq, true_and]
        rw [List.map_set]
        have e : Logs.viewTab s (Tab.step csv (G.files.fs, d) (.row r a)).2 = Logs.viewTab s d := by
          simp [Logs.viewTab, Tab.step, hs]
        rw [e]
        apply List.ext_getElem?
        intro i
        rw [List.getElem?_set]
        split
        · next e =>
          subst e
          rw [List.getElem?_map, hd]
          have := (List.getElem?_eq_some_iff.1 hd).1
          simp [this]
        · rfl

theorem grun_cons (G : Model S A P V T U R) (o : Op S A Q V T U R) (ops : List (Op S A Q V T U R)) : grun n b f csv G (o :: ops) = (gstep n b f csv G o).bind fun G => grun n b f csv G ops := by
  show (o :: ops).foldlM (gstep n b f csv) G = _
  rw [List.foldlM_cons]; rfl

theorem grun_append (G : Model S A P V T U R) (l l' : List (Op S A Q V T U R)) : grun n b f csv G (l ++ l') = (grun n b f csv G l).bind fun G => grun n b f csv G l' := by
  show (l ++ l').foldlM (gstep n b f csv) G = _
  rw [List.foldlM_append]; rfl

theorem grun_acts {r : Nat} (hr : r < n) : ∀ (as : List (Act S A Q V R)) (G : Model S A P V T U R),
    (grun n b f csv G (as.map (Act.of r))).map (fun G' => G'.view r) = as.foldlM Act.run (G.view r) ∧ ∀ G', grun n b f csv G (as.map (Act.of r)) = some G' → ∀ s, s ≠ r → G'.view s = G.view s := by
  intro as
  induction as with
  | nil => intro G; exact ⟨rfl, fun G' e s _ => by cases e; rfl⟩
  | cons a as ih =>
    intro G
    obtain ⟨h1, h2⟩ := gstep_act (b := b) (f := f) (csv := csv) hr a G
    rw [List.map_cons, grun_cons, List.foldlM_cons, Option.bind_eq_bind, ← h1]
    cases e : gstep n b f csv G (a.of r) with
    | none => exact ⟨rfl, fun G' e => by cases e⟩
    | some G1 =>
      rw [Option.bind_some, Option.map_some, Option.bind_some]
      exact ⟨(ih G1).1, fun G' e' s hs => ((ih G1).2 G' e' s hs).trans (h2 G1 e s hs)⟩

theorem grun_own (g : Nat → Rk S A P V T U R → List (Act S A Q V R)) (G : Model S A P V T U R) : ∀ m, m ≤ n →
    (∀ G', grun n b f csv G ((List.range m).flatMap fun r => (g r (G.view r)).map (Act.of r)) = some G' →
      (∀ i < m, (g i (G.view i)).foldlM Act.run (G.view i) = some (G'.view i)) ∧ ∀ i, m ≤ i → G'.view i = G.view i) ∧
    (grun n b f csv G ((List.range m).flatMap fun r => (g r (G.view r)).map (Act.of r)) = none → ∃ i < m, (g i (G.view i)).foldlM Act.run (G.view i) = none) := by
  intro m
  induction m with
  | zero =>
    intro _
    exact ⟨fun G' e => (by cases e; exact ⟨by omega, fun _ _ => rfl⟩), fun e => by cases e⟩
  | succ m ih =>
    intro hm
    obtain ⟨ih1, ih2⟩ := ih (by omega)
    rw [List.range_succ, List.flatMap_append, grun_append, List.flatMap_cons, List.flatMap_nil, List.append_nil]
    cases e : grun n b f csv G ((List.range m).flatMap fun r => (g r (G.view r)).map (Act.of r)) with
    | none =>
      obtain ⟨i, hi, h⟩ := ih2 e
      exact ⟨fun G' e' => (by rw [Option.bind_none] at e'; cases e'), fun _ => ⟨i, by omega, h⟩⟩
    | some G1 =>
      obtain ⟨h1, h2⟩ := ih1 G1 e
      rw [Option.bind_some]
      obtain ⟨h3, h4⟩ := grun_acts (b := b) (f := f) (csv := csv) (r := m) (show m < n by omega) (g m (G.view m)) G1
      rw [h2 m (Nat.le_refl m)] at h3
      refine ⟨fun G' e' => ⟨fun i hi => ?_, fun i hi => ?_⟩, fun e' => ⟨m, by omega, ?_⟩⟩
      · by_cases c : i = m
        · subst c
          rw [← h3, e']; rfl
        · rw [h1 i (by omega), h4 G' e' i c]
      · rw [h4 G' e' i (by omega), h2 i (by omega)]
      · rw [← h3, e']; rfl

theorem lock_own (g : Nat → Rk S A P V T U R → List (Act S A Q V R)) (G : Model S A P V T U R) :
    Lock n (fun r => Prog.lift ((g r (G.view r)).foldlM Act.run (G.view r))) ((grun n b f csv G ((Turn.own g).ops n G)).map fun G' r => G'.view r) := by
  obtain ⟨h1, h2⟩ := grun_own (n := n) (b := b) (f := f) (csv := csv) g G n (Nat.le_refl n)
  show Lock n _ ((grun n b f csv G ((List.range n).flatMap fun r => (g r (G.view r)).map (Act.of r))).map _)
  cases e : grun n b f csv G ((List.range n).flatMap fun r => (g r (G.view r)).map (Act.of r)) with
  | none => exact Lock.lift_none (h2 e)
  | some G' => exact Lock.lift (h1 G' e).1

/-! ### Turns -/

theorem part_log (r j : Nat) (t t' : T) (v v' : Nat → Nat → U) (ht : r = 0 → t = t') (hv : v r = v' r) (c : RFiles T U R) : Logs.part f csv r (.log j t v) c = Logs.part f csv r (.log j t' v') c := by
  by_cases h : r = 0
  · rw [ht h]
    simp only [Logs.part, hv]
  · simp only [Logs.part, hv, Logs.logOwn, Logs.RSet.logOwn, if_neg h]

theorem lock_file (hn : 0 < n) {G : Model S A P V T U R} (h : Fit n k bs G) (o : LOp T U R) :
    Lock n (fun r => fileTurn f csv r o (G.view r)) ((grun n b f csv G [(.file o : Op S A Q V T U R)]).map fun G' r => G'.view r) := by
  have hl := Lock.bind_ret (g := fun r L => ({ G.view r with files := L } : Rk S A P V T U R)) (o' := fun L r => ({ G.view r with files := L r } : Rk S A P V T U R))
    (Logs.lock_part f csv hn h.files o) fun _ _ _ _ => rfl
  refine Eq.mp (congrArg (Lock n _) ?_) hl
  rw [grun_cons]
  show _ = Option.map _ (((lstep n f csv G.files o).map _).bind _)
  cases lstep n f csv G.files o <;> rfl

theorem lock_turn (hn : 0 < n) {G : Model S A P V T U R} (h : Fit n k bs G) (t : Turn S A Q P V T U R) (ht : t.Of n) :
    Lock n (fun r => turn n r b f csv t (G.view r)) ((grun n b f csv G (t.ops n G)).map fun G' r => G'.view r) := by
  have one : ∀ o : Op S A Q V T U R, grun n b f csv G [o] = gstep n b f csv G o := fun o => by
    rw [grun_cons]
    show (gstep n b f csv G o).bind some = _
    cases gstep n b f csv G o <;> rfl
  cases t with
  | own g => exact lock_own g G
  | request rs =>
    show Lock n _ ((grun n b f csv G [_]).map _)
    rw [one]
    have hl := Lock.bind_ret (g := fun r m => ({ G.view r with mx := m } : Rk S A P V T U R)) (o' := fun m r => ({ G.view r with mx := m r } : Rk S A P V T U R))
      (Mix.lock_requestAgents (n := n) (fun r => rs r (G.view r)) G.mx) fun _ _ _ _ => rfl
    refine Eq.mp (congrArg (Lock n _) ?_) hl
    show _ = Option.map _ ((Mixed.requestAgents n _ G.mx).map _)
    rw [Option.map_map]
    rfl
  | move ms junk =>
    show Lock n _ ((grun n b f csv G [_]).map _)
    rw [one]
    exact lock_move hn h b (fun r => ms r (G.view r)) junk
  | synch g junk =>
    show Lock n _ ((grun n b f csv G [_]).map _)
    rw [one]
    exact lock_synchronize hn h b g junk
  | newLayer t buf junk rand v =>
    show Lock n _ ((grun n b f csv G [_]).map _)
    rw [one]
    have ht : t.size = n := ht
    have hl := Lock.bind_ret (g := fun r l => ({ G.view r with lays := (G.view r).lays ++ [{ t := t, buf := buf, l := l }] } : Rk S A P V T U R))
      (o' := fun w r => ({ G.view r with lays := (G.view r).lays ++ [{ t := t, buf := buf, l := w r }] } : Rk S A P V T U R))
      (show Lock n (fun r => layerNew t buf (junk r) (rand r) v r) (ValueLayer.create t buf junk rand v) by subst ht; exact lock_layerNew hn rand v) fun _ _ _ _ => rfl
    refine Eq.mp (congrArg (Lock n _) ?_) hl
    show _ = Option.map _ ((ValueLayer.create t buf junk rand v).map _)
    rw [Option.map_map]
    congr 1
    funext w r
    simp [Model.view, Lay.view]
  | newSet cols buf dir name => exact lock_file hn h _
  | newTab head dir name => exact lock_file hn h _
  | log j t v =>
    refine (lock_file hn h (.log j (t 0 (G.view 0)) fun r => v r (G.view r))).congr fun r hr => ?_
    show fileTurn f csv r _ _ = fileTurn f csv r _ _
    unfold fileTurn
    rw [part_log r j (t r (G.view r)) (t 0 (G.view 0)) (fun _ => v r (G.view r)) (fun r => v r (G.view r)) (fun e => by rw [e]) rfl]
  | write j => exact lock_file hn h _
  | flush j => exact lock_file hn h _

/-! ### The invariant -/

/-- The topologies are of all ranks. -/
def Op.Of (n : Nat) : Op S A Q V T U R → Prop
  | .newLayer t _ _ _ _ => t.size = n
  | _ => True

theorem sizes_of {xs ys : List (Lay V)} (e : ys.map (fun x => (x.t, x.buf)) = xs.map fun x => (x.t, x.buf)) (h : ∀ x ∈ xs, x.t.size = n) : ∀ y ∈ ys, y.t.size = n := by
  intro y hy
  have : (y.t, y.buf) ∈ ys.map (fun x => (x.t, x.buf)) := List.mem_map.2 ⟨y, hy, rfl⟩
  rw [e] at this
  obtain ⟨x, hx, ex⟩ := List.mem_map.1 this
  have := h x hx
  simp only [Prod.mk.injEq] at ex
  rw [← ex.1]; exact this

theorem Fit.step (hn : 0 < n) {G G' : Model S A P V T U R} (h : Fit n k bs G) {o : Op S A Q V T U R} (ho : o.Of n) (e : gstep n b f csv G o = some G') : Fit n k bs G' := by
  cases o with
  | agent r a =>
    obtain ⟨m, hm, rfl⟩ := Option.map_eq_some_iff.1 e
    exact ⟨h.mx.wstep _ m hm, h.lays, h.files⟩
  | put r j o =>
    obtain ⟨x, hx, e⟩ := Option.bind_eq_some_iff.1 e
    split at e
    · cases e
    · cases e
      refine ⟨h.mx, fun y hy => ?_, h.files⟩
      rcases Logs.mem_set hy with rfl | hy
      · exact h.lays x (List.mem_of_getElem? hx)
      · exact h.lays y hy
  | request rs =>
    obtain ⟨m, hm, rfl⟩ := Option.map_eq_some_iff.1 e
    exact ⟨h.mx.requestAgents _ m hm, h.lays, h.files⟩
  | move ms junk =>
    obtain ⟨m, hm, e⟩ := Option.bind_eq_some_iff.1 e
    obtain ⟨ls, hl, rfl⟩ := Option.map_eq_some_iff.1 e
    exact ⟨h.mx.moveAgents b _ m hm, sizes_of (synchAll_fit hl) h.lays, h.files⟩
  | synch g junk =>
    obtain ⟨m, hm, e⟩ := Option.bind_eq_some_iff.1 e
    obtain ⟨ls, hl, rfl⟩ := Option.map_eq_some_iff.1 e
    refine ⟨h.mx.synchronize b g m hm, ?_, h.files⟩
    cases g with
    | true => exact sizes_of (synchAll_fit hl) h.lays
    | false => cases hl; exact h.lays
  | newLayer t buf junk rand v =>
    obtain ⟨w, -, rfl⟩ := Option.map_eq_some_iff.1 e
    refine ⟨h.mx, fun y hy => ?_, h.files⟩
    rcases List.mem_append.1 hy with hy | hy
    · exact h.lays y hy
    · rw [List.mem_singleton.1 hy]; exact ho
  | file o =>
    obtain ⟨L, hL, rfl⟩ := Option.map_eq_some_iff.1 e
    exact ⟨h.mx, h.lays, h.files.step hn hL⟩

theorem Fit.run (hn : 0 < n) : ∀ {ops : List (Op S A Q V T U R)} {G G' : Model S A P V T U R}, Fit n k bs G → (∀ o ∈ ops, o.Of n) → grun n b f csv G ops = some G' → Fit n k bs G' := by
  intro ops
  induction ops with
  | nil => intro G G' h _ e; cases e; exact h
  | cons o ops ih =>
    intro G G' h ho e
    rw [grun_cons] at e
    obtain ⟨G1, e1, e2⟩ := Option.bind_eq_some_iff.1 e
    exact ih (h.step hn (ho o List.mem_cons_self) e1) (fun o h => ho o (List.mem_cons_of_mem _ h)) e2

theorem ops_of {t : Turn S A Q P V T U R} (ht : t.Of n) (G : Model S A P V T U R) : ∀ o ∈ t.ops n G, o.Of n := by
  cases t with
  | own g =>
    intro o ho
    obtain ⟨r, -, ho⟩ := List.mem_flatMap.1 ho
    obtain ⟨a, -, rfl⟩ := List.mem_map.1 ho
    cases a <;> trivial
  | newLayer t buf junk rand v => intro o ho; cases List.mem_singleton.1 ho; exact ht
  | _ => intro o ho; cases List.mem_singleton.1 ho; trivial

theorem lock_script (hn : 0 < n) : ∀ (ts : List (Turn S A Q P V T U R)) {G : Model S A P V T U R}, Fit n k bs G → (∀ t ∈ ts, t.Of n) →
    ∃ ops, Follows n b f csv G ts ops ∧ (∀ o ∈ ops, o.Of n) ∧ Lock n (fun r => script n r b f csv ts (G.view r)) ((grun n b f csv G ops).map fun G' r => G'.view r) := by
  intro ts
  induction ts with
  | nil => intro G _ _; exact ⟨[], .nil G, fun o ho => (by cases ho), .done fun _ _ => rfl⟩
  | cons t ts ih =>
    intro G h ht
    have h1 := ht t List.mem_cons_self
    have hp := lock_turn (b := b) (f := f) (csv := csv) hn h t h1
    cases e : grun n b f csv G (t.ops n G) with
    | none =>
      rw [e] at hp
      refine ⟨_, .raises e, ops_of h1 G, ?_⟩
      rw [e]
      exact Lock.bind (q := fun r c => Prog.forM (turn n r b f csv) ts c) (o' := fun _ => none) hp fun g e => by cases e
    | some G' =>
      rw [e] at hp
      obtain ⟨ops, i1, i2, i3⟩ := ih (h.run hn (ops_of h1 G) e) fun t h => ht t (List.mem_cons_of_mem _ h)
      refine ⟨_, .cons e i1, fun o ho => ?_, ?_⟩
      · rcases List.mem_append.1 ho with ho | ho
        · exact ops_of h1 G o ho
        · exact i2 o ho
      · rw [grun_append, e, Option.bind_some]
        exact Lock.bind (q := fun r c => Prog.forM (turn n r b f csv) ts c) (o' := fun _ => (grun n b f csv G' ops).map fun G' r => G'.view r) hp fun g eg => by
          cases eg
          exact i3

/-- The turns one after the other. -/
def turns (n : Nat) (b : Bool) (f : Fmt T U) (csv : R → Text) (G : Model S A P V T U R) (ts : List (Turn S A Q P V T U R)) : Option (Model S A P V T U R) := ts.foldlM (fun G t => grun n b f csv G (t.ops n G)) G

theorem Follows.run {G : Model S A P V T U R} {ts : List (Turn S A Q P V T U R)} {ops : List (Op S A Q V T U R)} (h : Follows n b f csv G ts ops) : grun n b f csv G ops = turns n b f csv G ts := by
  induction h with
  | nil G => rfl
  | cons e _ ih =>
    unfold turns
    rw [grun_append, e, Option.bind_some, ih, List.foldlM_cons, e]
    rfl
  | raises e =>
    unfold turns
    rw [e, List.foldlM_cons, e]
    rfl

end Repast.Mpi.Whole
