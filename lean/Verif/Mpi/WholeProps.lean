import Verif.Mpi.Whole
import Verif.Mpi.LogProps
import Verif.Mpi.MixProps
import Verif.ValueLayer.Periodic

/-!
C76: whole models. Ranks that run at their own speed have a context with spaces and networks, value layers that belong to the context, data sets and tabular loggers, and use them in any order.
-/
namespace Repast.Mpi.Whole
open Repast.Dict Repast.Mixed Repast.Mpi
open Repast.Context (Proj)
open Repast.Network (All)
open Repast.Mpi.Mix (Same)
open Repast.Mpi.Layers
open Repast.Mpi.Logs (Files RFiles LOp lstep lrun noFiles)
open Repast.ValueLayer (Layer srun SOp Sticky Mirrors Static bufBox Wrapping Wraps)
open Repast.Topology (Topo)
open Repast.Files

variable {S A P Q V T U R : Type}

/-! ### Specification -/

/-- The operations of a history that are about agents and edges. -/
def ctxOps : List (Op S A Q V T U R) → List (WOp S A Q)
  | [] => []
  | .agent r a :: os => a.of r :: ctxOps os
  | .request rs :: os => .request rs :: ctxOps os
  | .move ms _ :: os => .move ms :: ctxOps os
  | .synch g _ :: os => .synch g :: ctxOps os
  | _ :: os => ctxOps os

/-- The operations of a history that are about data sets and tabular loggers. -/
def fileOps : List (Op S A Q V T U R) → List (LOp T U R)
  | [] => []
  | .file o :: os => o :: fileOps os
  | _ :: os => fileOps os

/-- The operations of a history that are about value layer `j`: calls on one of the ranks, and synchronizations, in `synchronize` with ghosts and in `move_agents`. -/
def layOps [Inhabited V] (j : Nat) : List (Op S A Q V T U R) → List (SOp V × (Nat → Nat → Nat → V))
  | [] => []
  | .put r i o :: os => if i = j then (.call r o, default) :: layOps j os else layOps j os
  | .move _ junk :: os => (.synch, junk j) :: layOps j os
  | .synch g junk :: os => if g then (.synch, junk j) :: layOps j os else layOps j os
  | _ :: os => layOps j os

/-- How many value layers are constructed. -/
def newLays : List (Op S A Q V T U R) → Nat
  | [] => 0
  | .newLayer .. :: os => newLays os + 1
  | _ :: os => newLays os

/-- A model before it has agents, value layers and loggers. -/
def Model.start (ps : List P) (dirs : List Bool) (fs : FS) : Model S A P V T U R := { mx := Mixed.World.start ps dirs, lays := [], files := noFiles fs }

variable [Proj P Q] [Kept P]

/-- Why a history raises an exception in its last operation `o`, of which the operations before have led to `G`: it is an exception of the contexts, of a value layer, or of the files. -/
inductive Cause (n : Nat) (b : Bool) (f : Fmt T U) (csv : R → Text) (G : Model S A P V T U R) : Op S A Q V T U R → Prop
  | agent (r : Nat) (a : Mix.Act S A Q) : wstep n b G.mx (a.of r) = none → Cause n b f csv G (.agent r a)
  | request (rs : Nat → List (Nat × Nat)) : Mixed.requestAgents n rs G.mx = none → Cause n b f csv G (.request rs)
  | move (ms : Nat → List (Nat × Nat)) (junk : Nat → Nat → Nat → Nat → V) : Mixed.moveAgents n b ms G.mx = none → Cause n b f csv G (.move ms junk)
  | synch (g : Bool) (junk : Nat → Nat → Nat → Nat → V) : Mixed.synchronize n b g G.mx = none → Cause n b f csv G (.synch g junk)
  | call (r j : Nat) (o : ValueLayer.Op V) (x : Lay V) : G.lays[j]? = some x → ((x.w r).step o).2 = .error → Cause n b f csv G (.put r j o)
  | missing (r j : Nat) (o : ValueLayer.Op V) : G.lays.length ≤ j → Cause n b f csv G (.put r j o)
  | layers (g : Bool) (junk : Nat → Nat → Nat → Nat → V) (j : Nat) (x : Lay V) : G.lays[j]? = some x → ¬ Sticky x.t x.buf → ¬ Wrapping x.t x.buf → ValueLayer.synch x.t x.buf (junk j) x.w = none → g = true → Cause n b f csv G (.synch g junk)
  | layersMove (ms : Nat → List (Nat × Nat)) (junk : Nat → Nat → Nat → Nat → V) (j : Nat) (x : Lay V) : G.lays[j]? = some x → ¬ Sticky x.t x.buf → ¬ Wrapping x.t x.buf → ValueLayer.synch x.t x.buf (junk j) x.w = none →
      Cause n b f csv G (.move ms junk)
  | layer (t : Topo) (buf : Nat) (junk : Nat → Nat → Nat → V) (rand : Nat → Nat → Nat → Nat → V) (v : Option V) : ValueLayer.create t buf junk rand v = none → ¬ Sticky t buf → ¬ Wrapping t buf → Cause n b f csv G (.newLayer t buf junk rand v)
  | file (o : LOp T U R) : lstep n f csv G.files o = none → Cause n b f csv G (.file o)

/-! ### Lemmas -/

variable {n : Nat} {b : Bool} {f : Fmt T U} {csv : R → Text}

theorem fit_start (ps : List P) (dirs : List Bool) (fs : FS) : Fit n dirs.length (ps.map form) (Model.start ps dirs fs : Model S A P V T U R) :=
  ⟨Mix.Same.start ps dirs, fun _ h => (by cases h), Logs.fit_none n fs⟩

theorem wrun_cons (w : Mixed.World S A P) (o : WOp S A Q) (ops : List (WOp S A Q)) : wrun n b w (o :: ops) = (wstep n b w o).bind fun w => wrun n b w ops := by
  show (o :: ops).foldlM (wstep n b) w = _
  rw [List.foldlM_cons]; rfl

theorem lrun_cons (L : Files T U R) (o : LOp T U R) (ops : List (LOp T U R)) : lrun n f csv L (o :: ops) = (lstep n f csv L o).bind fun L => lrun n f csv L ops := by
  show (o :: ops).foldlM (lstep n f csv) L = _
  rw [List.foldlM_cons]; rfl

theorem contexts : ∀ (ops : List (Op S A Q V T U R)) {G G' : Model S A P V T U R}, grun n b f csv G ops = some G' → wrun n b G.mx (ctxOps ops) = some G'.mx := by
  intro ops
  induction ops with
  | nil => intro G G' e; cases e; rfl
  | cons o ops ih =>
    intro G G' e
    rw [grun_cons] at e
    obtain ⟨G1, e1, e2⟩ := Option.bind_eq_some_iff.1 e
    have h := ih e2
    cases o with
    | agent r a =>
      obtain ⟨m, hm, rfl⟩ := Option.map_eq_some_iff.1 e1
      show wrun n b G.mx (_ :: _) = _
      rw [wrun_cons, hm]; exact h
    | put r j o =>
      obtain ⟨x, hx, e⟩ := Option.bind_eq_some_iff.1 e1
      split at e
      · cases e
      · cases e; exact h
    | request rs =>
      obtain ⟨m, hm, rfl⟩ := Option.map_eq_some_iff.1 e1
      show wrun n b G.mx (_ :: _) = _
      rw [wrun_cons]
      show (Mixed.requestAgents n rs G.mx).bind _ = _
      rw [hm]; exact h
    | move ms junk =>
      obtain ⟨m, hm, e⟩ := Option.bind_eq_some_iff.1 e1
      obtain ⟨ls, hl, rfl⟩ := Option.map_eq_some_iff.1 e
      show wrun n b G.mx (_ :: _) = _
      rw [wrun_cons]
      show (Mixed.moveAgents n b ms G.mx).bind _ = _
      rw [hm]; exact h
    | synch g junk =>
      obtain ⟨m, hm, e⟩ := Option.bind_eq_some_iff.1 e1
      obtain ⟨ls, hl, rfl⟩ := Option.map_eq_some_iff.1 e
      show wrun n b G.mx (_ :: _) = _
      rw [wrun_cons]
      show (Mixed.synchronize n b g G.mx).bind _ = _
      rw [hm]; exact h
    | newLayer t buf junk rand v => obtain ⟨w, -, rfl⟩ := Option.map_eq_some_iff.1 e1; exact h
    | file o => obtain ⟨L, -, rfl⟩ := Option.map_eq_some_iff.1 e1; exact h

theorem files : ∀ (ops : List (Op S A Q V T U R)) {G G' : Model S A P V T U R}, grun n b f csv G ops = some G' → lrun n f csv G.files (fileOps ops) = some G'.files := by
  intro ops
  induction ops with
  | nil => intro G G' e; cases e; rfl
  | cons o ops ih =>
    intro G G' e
    rw [grun_cons] at e
    obtain ⟨G1, e1, e2⟩ := Option.bind_eq_some_iff.1 e
    have h := ih e2
    cases o with
    | agent r a => obtain ⟨m, hm, rfl⟩ := Option.map_eq_some_iff.1 e1; exact h
    | put r j o =>
      obtain ⟨x, hx, e⟩ := Option.bind_eq_some_iff.1 e1
      split at e
      · cases e
      · cases e; exact h
    | request rs => obtain ⟨m, hm, rfl⟩ := Option.map_eq_some_iff.1 e1; exact h
    | move ms junk =>
      obtain ⟨m, hm, e⟩ := Option.bind_eq_some_iff.1 e1
      obtain ⟨ls, hl, rfl⟩ := Option.map_eq_some_iff.1 e; exact h
    | synch g junk =>
      obtain ⟨m, hm, e⟩ := Option.bind_eq_some_iff.1 e1
      obtain ⟨ls, hl, rfl⟩ := Option.map_eq_some_iff.1 e; exact h
    | newLayer t buf junk rand v => obtain ⟨w, -, rfl⟩ := Option.map_eq_some_iff.1 e1; exact h
    | file o =>
      obtain ⟨L, hL, rfl⟩ := Option.map_eq_some_iff.1 e1
      show lrun n f csv G.files (_ :: _) = _
      rw [lrun_cons, hL]; exact h

variable [Inhabited V]

theorem layers : ∀ (ops : List (Op S A Q V T U R)) {G G' : Model S A P V T U R}, grun n b f csv G ops = some G' → ∀ {j : Nat} {x : Lay V}, G.lays[j]? = some x →
    ∃ w, srun x.t x.buf x.w (layOps j ops) = some w ∧ G'.lays[j]? = some { x with w := w } := by
  intro ops
  induction ops with
  | nil => intro G G' e j x hx; cases e; exact ⟨x.w, rfl, hx⟩
  | cons o ops ih =>
    intro G G' e j x hx
    rw [grun_cons] at e
    obtain ⟨G1, e1, e2⟩ := Option.bind_eq_some_iff.1 e
    have syn : ∀ {junk : Nat → Nat → Nat → Nat → V} {ls : List (Lay V)} {m : Mixed.World S A P}, synchAll junk 0 G.lays = some ls → grun n b f csv { G with mx := m, lays := ls } ops = some G' →
        ∃ w, srun x.t x.buf x.w ((.synch, junk j) :: layOps j ops) = some w ∧ G'.lays[j]? = some { x with w := w } := by
      intro junk ls m hl e2
      obtain ⟨w1, h1, h2⟩ := synchAll_at hl hx
      rw [Nat.zero_add] at h1
      obtain ⟨w, h3, h4⟩ := ih e2 h2
      refine ⟨w, ?_, h4⟩
      show (ValueLayer.synch x.t x.buf (junk j) x.w).bind _ = _
      rw [h1]; exact h3
    cases o with
    | agent r a => obtain ⟨m, hm, rfl⟩ := Option.map_eq_some_iff.1 e1; exact ih e2 hx
    | put r i o =>
      obtain ⟨y, hy, e⟩ := Option.bind_eq_some_iff.1 e1
      split at e
      · cases e
      · cases e
        show ∃ w, srun x.t x.buf x.w (if i = j then _ else _) = some w ∧ _
        by_cases c : i = j
        · subst c
          rw [hx] at hy
          cases hy
          rw [if_pos rfl]
          exact ih (x := { x with w := Space.upd x.w r ((x.w r).step o).1 }) e2 (by rw [List.getElem?_set_self (List.getElem?_eq_some_iff.1 hx).1])
        · rw [if_neg c]
          exact ih e2 (by rw [List.getElem?_set_ne c]; exact hx)
    | request rs => obtain ⟨m, hm, rfl⟩ := Option.map_eq_some_iff.1 e1; exact ih e2 hx
    | move ms junk =>
      obtain ⟨m, hm, e⟩ := Option.bind_eq_some_iff.1 e1
      obtain ⟨ls, hl, rfl⟩ := Option.map_eq_some_iff.1 e
      exact syn hl e2
    | synch g junk =>
      obtain ⟨m, hm, e⟩ := Option.bind_eq_some_iff.1 e1
      obtain ⟨ls, hl, rfl⟩ := Option.map_eq_some_iff.1 e
      cases g with
      | true => exact syn hl e2
      | false => cases hl; exact ih e2 hx
    | newLayer t buf junk rand v =>
      obtain ⟨w, -, rfl⟩ := Option.map_eq_some_iff.1 e1
      exact ih e2 (by rw [List.getElem?_append_left (List.getElem?_eq_some_iff.1 hx).1]; exact hx)
    | file o => obtain ⟨L, -, rfl⟩ := Option.map_eq_some_iff.1 e1; exact ih e2 hx

theorem lays_step {G G' : Model S A P V T U R} {o : Op S A Q V T U R} (e : gstep n b f csv G o = some G') : G'.lays.length = G.lays.length + newLays [o] := by
  have len : ∀ {junk : Nat → Nat → Nat → Nat → V} {ls : List (Lay V)}, synchAll junk 0 G.lays = some ls → ls.length = G.lays.length := fun h => by
    have := congrArg List.length (synchAll_fit h)
    simpa using this
  cases o with
  | agent r a => obtain ⟨m, hm, rfl⟩ := Option.map_eq_some_iff.1 e; rfl
  | put r i o =>
    obtain ⟨y, hy, e⟩ := Option.bind_eq_some_iff.1 e
    split at e
    · cases e
    · cases e; exact List.length_set
  | request rs => obtain ⟨m, hm, rfl⟩ := Option.map_eq_some_iff.1 e; rfl
  | move ms junk =>
    obtain ⟨m, hm, e⟩ := Option.bind_eq_some_iff.1 e
    obtain ⟨ls, hl, rfl⟩ := Option.map_eq_some_iff.1 e
    exact len hl
  | synch g junk =>
    obtain ⟨m, hm, e⟩ := Option.bind_eq_some_iff.1 e
    obtain ⟨ls, hl, rfl⟩ := Option.map_eq_some_iff.1 e
    cases g with
    | true => exact len hl
    | false => cases hl; rfl
  | newLayer t buf junk rand v => obtain ⟨w, -, rfl⟩ := Option.map_eq_some_iff.1 e; exact List.length_append
  | file o => obtain ⟨L, -, rfl⟩ := Option.map_eq_some_iff.1 e; rfl

theorem newLays_cons (o : Op S A Q V T U R) (ops : List (Op S A Q V T U R)) : newLays (o :: ops) = newLays ops + newLays [o] := by cases o <;> rfl

theorem lays_run : ∀ (ops : List (Op S A Q V T U R)) {G G' : Model S A P V T U R}, grun n b f csv G ops = some G' → G'.lays.length = G.lays.length + newLays ops := by
  intro ops
  induction ops with
  | nil => intro G G' e; cases e; rfl
  | cons o ops ih =>
    intro G G' e
    rw [grun_cons] at e
    obtain ⟨G1, e1, e2⟩ := Option.bind_eq_some_iff.1 e
    rw [ih e2, lays_step e1, newLays_cons o ops]
    omega

/-- A layer of all ranks that `_synch_ghosts` cannot fail for, if it has sticky borders, or periodic ones as in C40. -/
def Sound (x : Lay V) : Prop :=
  (Sticky x.t x.buf → ∀ k, k < x.t.size → Static (bufBox x.t x.buf k) false (x.w k)) ∧ (Wrapping x.t x.buf → ∀ k, k < x.t.size → ValueLayer.WDims x.t x.buf k (x.w k))

theorem sound_srun {x : Lay V} (h : Sound x) {ops : List (SOp V × (Nat → Nat → Nat → V))} {w : Nat → Layer V} (e : srun x.t x.buf x.w ops = some w) : Sound { x with w := w } := by
  constructor
  · intro hs k hk
    obtain ⟨w', h1, h2⟩ := ValueLayer.srun_static hs ops (h.1 hs)
    rw [e] at h1
    cases h1
    exact h2 k hk
  · intro hs k hk
    obtain ⟨w', h1, h2⟩ := ValueLayer.srun_wrapping hs ops (h.2 hs)
    rw [e] at h1
    cases h1
    exact h2 k hk

theorem sound_run : ∀ (ops : List (Op S A Q V T U R)) {G G' : Model S A P V T U R}, (∀ x ∈ G.lays, Sound x) → grun n b f csv G ops = some G' → ∀ x ∈ G'.lays, Sound x := by
  intro ops
  induction ops with
  | nil => intro G G' h e; cases e; exact h
  | cons o ops ih =>
    intro G G' h e
    rw [grun_cons] at e
    obtain ⟨G1, e1, e2⟩ := Option.bind_eq_some_iff.1 e
    refine ih ?_ e2
    intro y hy
    obtain ⟨i, hi⟩ := List.mem_iff_getElem?.1 hy
    by_cases hc : i < G.lays.length
    · have hx := List.getElem?_eq_getElem hc
      obtain ⟨w, h1, h2⟩ := layers [o] (by rw [grun_cons, e1]; rfl) hx
      rw [hi] at h2
      cases h2
      exact sound_srun (h _ (List.getElem_mem hc)) h1
    · have hl := lays_step e1
      have hi' := (List.getElem?_eq_some_iff.1 hi).1
      cases o with
      | newLayer t buf junk rand v =>
        obtain ⟨w, hw, rfl⟩ := Option.map_eq_some_iff.1 e1
        rcases List.mem_append.1 hy with hy | hy
        · exact h y hy
        · cases List.mem_singleton.1 hy
          refine ⟨fun hs => ValueLayer.create_static hs junk rand v hw, fun hs => ?_⟩
          obtain ⟨w', h1, h2, -⟩ := ValueLayer.create_wrapping hs junk rand v
          rw [hw] at h1
          cases h1
          exact h2
      | _ =>
        simp only [newLays] at hl
        omega

/-! ### C76 -/

/-- C76: a whole model. What the ranks do may depend on all that they have: agents, edges, places, the values of value layers, rows and data. There is a history that the ranks follow, whatever speed they have:
all finish, none raises an exception, and each has in the end what the history gives; or the history raises an exception, and some rank does. -/
theorem C76_any_pace (hn : 0 < n) (nf : Bool) (f : Fmt T U) (csv : R → Text) (ps : List P) (dirs : List Bool) (fs : FS) (ts : List (Turn S A Q P V T U R)) (ht : ∀ t ∈ ts, t.Of n) :
    ∃ ops, Follows n nf f csv (Model.start ps dirs fs) ts ops ∧
      AnyPace n (fun r => script n r nf f csv ts ((Model.start ps dirs fs).view r)) ((grun n nf f csv (Model.start ps dirs fs) ops).map fun G r => G.view r) := by
  obtain ⟨ops, h1, -, h2⟩ := lock_script (b := nf) (f := f) (csv := csv) hn ts (fit_start (n := n) ps dirs fs) ht
  exact ⟨ops, h1, h2.anyPace⟩

/-- C76: the parts do not disturb each other. The contexts are what they are without value layers and loggers, and the files are what they are without agents and value layers. So what C24 and others say about contexts and
C75 says about files holds in whole models. -/
theorem C76_apart {ops : List (Op S A Q V T U R)} {ps : List P} {dirs : List Bool} {fs : FS} {G : Model S A P V T U R} (h : grun n b f csv (Model.start ps dirs fs) ops = some G) :
    wrun n b (Mixed.World.start ps dirs) (ctxOps ops) = some G.mx ∧ lrun n f csv (noFiles fs) (fileOps ops) = some G.files :=
  ⟨contexts ops h, files ops h⟩

/-- C76: a value layer is what it is without agents, loggers and other layers. -/
theorem C76_layer {pre post : List (Op S A Q V T U R)} {ps : List P} {dirs : List Bool} {fs : FS} {t : Topo} {buf : Nat} {junk : Nat → Nat → Nat → V} {rand : Nat → Nat → Nat → Nat → V} {v : Option V}
    {G : Model S A P V T U R} (h : grun n b f csv (Model.start ps dirs fs) (pre ++ .newLayer t buf junk rand v :: post) = some G) :
    ∃ w0 w, ValueLayer.create t buf junk rand v = some w0 ∧ srun t buf w0 (layOps (newLays pre) post) = some w ∧ G.lays[newLays pre]? = some { t := t, buf := buf, w := w } := by
  rw [grun_append] at h
  obtain ⟨G1, e1, e⟩ := Option.bind_eq_some_iff.1 h
  rw [grun_cons] at e
  obtain ⟨G2, e2, e3⟩ := Option.bind_eq_some_iff.1 e
  obtain ⟨w0, hw, rfl⟩ := Option.map_eq_some_iff.1 e2
  have hl := lays_run pre e1
  rw [show (Model.start ps dirs fs : Model S A P V T U R).lays.length = 0 from rfl, Nat.zero_add] at hl
  obtain ⟨w, h1, h2⟩ := layers post e3 (j := newLays pre) (x := { t := t, buf := buf, w := w0 }) (by simp [← hl])
  exact ⟨w0, w, hw, h1, h2⟩

/-- C76: after `synchronize`, and after `move_agents`, each rank finds in a value layer with sticky borders (one or two dimensions, at least two processes in the first one, see C40) in its bounds and around them the
values that their owners had before, whatever else the model has. -/
theorem C76_mirror {pre post : List (Op S A Q V T U R)} {ps : List P} {dirs : List Bool} {fs : FS} {t : Topo} {buf : Nat} (hs : Sticky t buf) {junk0 : Nat → Nat → Nat → V}
    {rand : Nat → Nat → Nat → Nat → V} {v : Option V} {G G' : Model S A P V T U R} (h : grun n b f csv (Model.start ps dirs fs) (pre ++ .newLayer t buf junk0 rand v :: post) = some G) {o : Op S A Q V T U R}
    (ho : (∃ junk, o = .synch true junk) ∨ ∃ ms junk, o = .move ms junk) (h' : gstep n b f csv G o = some G') :
    ∃ w w', G.lays[newLays pre]? = some { t := t, buf := buf, w := w } ∧ G'.lays[newLays pre]? = some { t := t, buf := buf, w := w' } ∧ Mirrors t buf w w' := by
  obtain ⟨w0, w, h1, h2, h3⟩ := C76_layer h
  have hw := ValueLayer.create_static hs junk0 rand v h1
  obtain ⟨w1, e1, hw1⟩ := ValueLayer.srun_static hs (layOps (newLays pre) post) hw
  rw [h2] at e1
  cases e1
  have syn : ∀ {junk : Nat → Nat → Nat → Nat → V} {ls : List (Lay V)}, synchAll junk 0 G.lays = some ls → ∃ w', ls[newLays pre]? = some { t := t, buf := buf, w := w' } ∧ Mirrors t buf w w' := by
    intro junk ls hl
    obtain ⟨w', i1, i2⟩ := synchAll_at hl h3
    obtain ⟨w2, j1, -, j2⟩ := ValueLayer.synch_sticky hs hw1 (junk (0 + newLays pre))
    rw [show ValueLayer.synch t buf (junk (0 + newLays pre)) w = some w' from i1] at j1
    cases j1
    exact ⟨w', i2, j2⟩
  refine ⟨w, ?_⟩
  rcases ho with ⟨junk, rfl⟩ | ⟨ms, junk, rfl⟩
  · obtain ⟨m, hm, e⟩ := Option.bind_eq_some_iff.1 h'
    obtain ⟨ls, hl, rfl⟩ := Option.map_eq_some_iff.1 e
    obtain ⟨w', i1, i2⟩ := syn hl
    exact ⟨w', h3, i1, i2⟩
  · obtain ⟨m, hm, e⟩ := Option.bind_eq_some_iff.1 h'
    obtain ⟨ls, hl, rfl⟩ := Option.map_eq_some_iff.1 e
    obtain ⟨w', i1, i2⟩ := syn hl
    exact ⟨w', h3, i1, i2⟩

/-- C76: the same for value layers with periodic borders, at least three processes in each dimension and a buffer smaller than the local bounds: each entry of the tensors is then what the owner of its location had. -/
theorem C76_mirror_periodic {pre post : List (Op S A Q V T U R)} {ps : List P} {dirs : List Bool} {fs : FS} {t : Topo} {buf : Nat} (hs : Wrapping t buf) {junk0 : Nat → Nat → Nat → V}
    {rand : Nat → Nat → Nat → Nat → V} {v : Option V} {G G' : Model S A P V T U R} (h : grun n b f csv (Model.start ps dirs fs) (pre ++ .newLayer t buf junk0 rand v :: post) = some G) {o : Op S A Q V T U R}
    (ho : (∃ junk, o = .synch true junk) ∨ ∃ ms junk, o = .move ms junk) (h' : gstep n b f csv G o = some G') :
    ∃ w w', G.lays[newLays pre]? = some { t := t, buf := buf, w := w } ∧ G'.lays[newLays pre]? = some { t := t, buf := buf, w := w' } ∧ Wraps t buf w w' := by
  obtain ⟨w0, w, h1, h2, h3⟩ := C76_layer h
  obtain ⟨wc, hc, hw, -⟩ := ValueLayer.create_wrapping hs junk0 rand v
  rw [h1] at hc
  cases hc
  obtain ⟨w1, e1, hw1⟩ := ValueLayer.srun_wrapping hs (layOps (newLays pre) post) hw
  rw [h2] at e1
  cases e1
  have syn : ∀ {junk : Nat → Nat → Nat → Nat → V} {ls : List (Lay V)}, synchAll junk 0 G.lays = some ls → ∃ w', ls[newLays pre]? = some { t := t, buf := buf, w := w' } ∧ Wraps t buf w w' := by
    intro junk ls hl
    obtain ⟨w', i1, i2⟩ := synchAll_at hl h3
    obtain ⟨w2, j1, -, j2⟩ := ValueLayer.synch_wrapping hs hw1 (junk (0 + newLays pre))
    rw [show ValueLayer.synch t buf (junk (0 + newLays pre)) w = some w' from i1] at j1
    cases j1
    exact ⟨w', i2, j2⟩
  refine ⟨w, ?_⟩
  rcases ho with ⟨junk, rfl⟩ | ⟨ms, junk, rfl⟩
  · obtain ⟨m, hm, e⟩ := Option.bind_eq_some_iff.1 h'
    obtain ⟨ls, hl, rfl⟩ := Option.map_eq_some_iff.1 e
    obtain ⟨w', i1, i2⟩ := syn hl
    exact ⟨w', h3, i1, i2⟩
  · obtain ⟨m, hm, e⟩ := Option.bind_eq_some_iff.1 h'
    obtain ⟨ls, hl, rfl⟩ := Option.map_eq_some_iff.1 e
    obtain ⟨w', i1, i2⟩ := syn hl
    exact ⟨w', h3, i1, i2⟩

theorem synchAll_none {junk : Nat → Nat → Nat → Nat → V} : ∀ {xs : List (Lay V)} {j : Nat}, synchAll junk j xs = none → ∃ i x, xs[i]? = some x ∧ ValueLayer.synch x.t x.buf (junk (j + i)) x.w = none := by
  intro xs
  induction xs with
  | nil => intro j h; cases h
  | cons x xs ih =>
    intro j h
    have h : (ValueLayer.synch x.t x.buf (junk j) x.w).bind (fun w => (synchAll junk (j + 1) xs).map fun ys => { x with w := w } :: ys) = none := h
    cases e : ValueLayer.synch x.t x.buf (junk j) x.w with
    | none => exact ⟨0, x, rfl, e⟩
    | some w =>
      rw [e, Option.bind_some, Option.map_eq_none_iff] at h
      obtain ⟨i, y, h1, h2⟩ := ih h
      exact ⟨i + 1, y, h1, by rw [show j + (i + 1) = j + 1 + i by omega]; exact h2⟩

/-- C76: an exception in a whole model is one of its parts. In particular the synchronization of value layers with sticky borders, or with periodic borders and at least three
processes in each dimension, which are constructed without one, raises none. -/
theorem C76_exceptions {ops : List (Op S A Q V T U R)} {ps : List P} {dirs : List Bool} {fs : FS} (h : grun n b f csv (Model.start ps dirs fs) ops = none) :
    ∃ pre o post G, ops = pre ++ o :: post ∧ grun n b f csv (Model.start ps dirs fs) pre = some G ∧ Cause n b f csv G o := by
  have key : ∀ (ops : List (Op S A Q V T U R)) (G : Model S A P V T U R), (∀ x ∈ G.lays, Sound x) → grun n b f csv G ops = none →
      ∃ pre o post G', ops = pre ++ o :: post ∧ grun n b f csv G pre = some G' ∧ Cause n b f csv G' o := by
    intro ops
    induction ops with
    | nil => intro G _ e; cases e
    | cons o ops ih =>
      intro G hg e
      rw [grun_cons] at e
      cases e1 : gstep n b f csv G o with
      | some G1 =>
        rw [e1, Option.bind_some] at e
        obtain ⟨pre, o', post, G', h1, h2, h3⟩ := ih G1 (sound_run [o] hg (by rw [grun_cons, e1]; rfl)) e
        exact ⟨o :: pre, o', post, G', by rw [h1]; rfl, by rw [grun_cons, e1]; exact h2, h3⟩
      | none =>
        refine ⟨[], o, ops, G, rfl, rfl, ?_⟩
        have syn : ∀ {junk : Nat → Nat → Nat → Nat → V}, synchAll junk 0 G.lays = none → ∃ j x, G.lays[j]? = some x ∧ ¬ Sticky x.t x.buf ∧ ¬ Wrapping x.t x.buf ∧ ValueLayer.synch x.t x.buf (junk j) x.w = none := by
          intro junk hl
          obtain ⟨j, x, h1, h2⟩ := synchAll_none hl
          rw [Nat.zero_add] at h2
          refine ⟨j, x, h1, fun hs => ?_, fun hs => ?_, h2⟩
          · obtain ⟨w', h3, -⟩ := ValueLayer.synch_sticky hs ((hg x (List.mem_of_getElem? h1)).1 hs) (junk j)
            rw [h2] at h3
            cases h3
          · obtain ⟨w', h3, -⟩ := ValueLayer.synch_wrapping hs ((hg x (List.mem_of_getElem? h1)).2 hs) (junk j)
            rw [h2] at h3
            cases h3
        cases o with
        | agent r a => exact .agent r a (Option.map_eq_none_iff.1 e1)
        | put r j o =>
          have e1 : (G.lays[j]?).bind (fun x => if raises ((x.w r).step o).2 then none else some { G with lays := G.lays.set j { x with w := Space.upd x.w r ((x.w r).step o).1 } }) = none := e1
          cases hx : G.lays[j]? with
          | none => exact .missing r j o (List.getElem?_eq_none_iff.1 hx)
          | some x =>
            rw [hx, Option.bind_some] at e1
            refine .call r j o x hx ?_
            split at e1
            · next c =>
              cases hr : ((x.w r).step o).2 with
              | error => rfl
              | _ => rw [hr] at c; cases c
            · cases e1
        | request rs => exact .request rs (Option.map_eq_none_iff.1 e1)
        | move ms junk =>
          have e1 : (Mixed.moveAgents n b ms G.mx).bind (fun m => (synchAll junk 0 G.lays).map fun ls => { G with mx := m, lays := ls }) = none := e1
          cases hm : Mixed.moveAgents n b ms G.mx with
          | none => exact .move ms junk hm
          | some m =>
            rw [hm, Option.bind_some, Option.map_eq_none_iff] at e1
            obtain ⟨j, x, h1, h2, h3, h4⟩ := syn e1
            exact .layersMove ms junk j x h1 h2 h3 h4
        | synch g junk =>
          have e1 : (Mixed.synchronize n b g G.mx).bind (fun m => (if g then synchAll junk 0 G.lays else some G.lays).map fun ls => { G with mx := m, lays := ls }) = none := e1
          cases hm : Mixed.synchronize n b g G.mx with
          | none => exact .synch g junk hm
          | some m =>
            rw [hm, Option.bind_some, Option.map_eq_none_iff] at e1
            cases g with
            | false => cases e1
            | true =>
              obtain ⟨j, x, h1, h2, h3, h4⟩ := syn e1
              exact .layers true junk j x h1 h2 h3 h4 rfl
        | newLayer t buf junk rand v =>
          have e1 := Option.map_eq_none_iff.1 e1
          refine .layer t buf junk rand v e1 (fun hs => ?_) fun hs => ?_
          · obtain ⟨w, h1, -⟩ := ValueLayer.C40_create_partial hs junk rand v
            rw [e1] at h1
            cases h1
          · obtain ⟨w, h1, -⟩ := ValueLayer.create_wrapping hs junk rand v
            rw [e1] at h1
            cases h1
        | file o => exact .file o (Option.map_eq_none_iff.1 e1)
  exact key ops _ (fun _ h => by cases h) h

/-- C76: the ranks do finish, if the history that they follow raises no exception. -/
theorem C76_finish (hn : 0 < n) {ps : List P} {dirs : List Bool} {fs : FS} {ts : List (Turn S A Q P V T U R)} (ht : ∀ t ∈ ts, t.Of n)
    (h : ∀ ops, Follows n b f csv (Model.start ps dirs fs) ts ops → (grun n b f csv (Model.start ps dirs fs) ops).isSome) :
    ∃ (G : Model S A P V T U R) (c : Nat) (w : Mpi.World (Rk S A P V T U R)), RSteps n c (World.start fun r => script n r b f csv ts ((Model.start ps dirs fs).view r)) w ∧ ∀ r < n, w.prog r = .ret (G.view r) := by
  obtain ⟨ops, h1, h2⟩ := C76_any_pace hn b f csv ps dirs fs ts ht
  obtain ⟨G, e⟩ := Option.isSome_iff_exists.1 (h ops h1)
  rw [e] at h2
  obtain ⟨c, w, h3, h4⟩ := Logs.finishes h2 (.zero _)
  exact ⟨G, c, w, h3, h4⟩

/-! ### Examples -/

def exLayer : Topo := ValueLayer.exT1 2 false 0 10

/-- What a rank finds in its first value layer. -/
def seen (c : Rk Nat Nat Context.GridSp Int Nat Nat Nat) (p : Space.Pt) : Option Int :=
  match (c.lays[0]?).map fun x => (x.l.get p).2 with
  | some (ValueLayer.Res.val v) => some v
  | _ => none

/-- Two ranks with a grid, a network, a value layer, a data set and a tabular logger. Rank 0 looks for the value that rank 1 has set, and sends its agent there; the number of local agents is logged. -/
def exTurns : List (Turn Nat Nat Space.Pt Context.GridSp Int Nat Nat Nat) :=
  [.newLayer exLayer 2 (fun _ _ _ => -7) (fun _ _ _ _ => -1) (some 0), .newSet exCols 1 "out".toList "a.csv".toList, .newTab "a\n".toList "out".toList "b.csv".toList,
    .own fun r _ => [.agent (.add (10 * r + 1) 5), .agent (.gmove 0 (10 * r + 1) ⟨3 + 3 * r, 0, 0⟩), .put 0 (.set ⟨4 + r, 0, 0⟩ (r + 1)), .row 0 (r + 3)],
    .synch true fun _ _ _ _ => -8,
    .log 0 (fun _ _ => 1) (fun _ c _ => c.mx.nc.locals.length),
    .own fun r c => if seen c ⟨5, 0, 0⟩ = some 2 ∧ r = 0 then [.agent (.gmove 0 1 ⟨5, 0, 0⟩), .agent (.add 2 6), .agent (.gmove 0 2 ⟨4, 0, 0⟩), .agent (.addEdge 0 1 2 [])] else [.row 0 8],
    .synch true fun _ _ _ _ => -9,
    .log 0 (fun _ _ => 2) (fun _ c _ => c.mx.nc.locals.length),
    .flush 0, .write 0]

def exStart : Model Nat Nat Context.GridSp Int Nat Nat Nat := Model.start [(line 2 2).new] [false] exFS

theorem exTurns_of : ∀ t ∈ exTurns, t.Of 2 := by
  intro t ht
  simp only [exTurns, List.mem_cons, List.not_mem_nil, or_false] at ht
  rcases ht with rfl | rfl | rfl | rfl | rfl | rfl | rfl | rfl | rfl | rfl | rfl <;> first | trivial | exact (by decide : exLayer.size = 2)

example : (turns 2 true exFmt Logs.exCsv exStart exTurns).map (fun G => (G.files.fs.files, (List.range 2).map (fun r => keys (G.mx r).nc.locals), (List.range 2).map fun r => seen (G.view r) ⟨4, 0, 0⟩)) = some (
    [("out/a.csv".toList, "x".toList), ("out/a_1.csv".toList, "tick,total,max\n1,2,1\n2,3,2\n".toList), ("out/b.csv".toList, "a\n3\n4\n8\n".toList)], [[2], [11, 1]], [some 1, some 1]) := by
  decide +kernel

/-- The hypotheses of `C76_any_pace` and `C76_finish`. -/
example : ∃ (G : Model Nat Nat Context.GridSp Int Nat Nat Nat) (c : Nat) (w : Mpi.World (Rk Nat Nat Context.GridSp Int Nat Nat Nat)),
    RSteps 2 c (World.start fun r => script 2 r true exFmt Logs.exCsv exTurns (exStart.view r)) w ∧ ∀ r < 2, w.prog r = .ret (G.view r) :=
  C76_finish (by omega) exTurns_of fun ops h => by
    rw [h.run]
    decide +kernel

theorem exSticky : Sticky exLayer 2 :=
  ⟨⟨⟨by decide, by decide, by decide, by decide⟩, by decide, by decide, by decide, by decide, by decide, by decide⟩, ⟨by decide, by decide⟩, rfl, by decide, by decide, rfl, rfl,
    by decide, ⟨⟨by decide, by decide⟩, fun h => absurd h (by decide), fun h => absurd h (by decide)⟩⟩

/-- The hypotheses of `C76_mirror`: an agent, a value layer, a call on it, and a synchronization. -/
def exPre : List (Op Nat Nat Space.Pt Int Nat Nat Nat) := [.agent 0 (.add 1 5), .agent 0 (.gmove 0 1 ⟨3, 0, 0⟩), .file (.newTab "a\n".toList "out".toList "b.csv".toList)]
def exPost : List (Op Nat Nat Space.Pt Int Nat Nat Nat) := [.put 0 0 (.set ⟨4, 0, 0⟩ 6), .file (.row 0 1 3)]

example : ∃ G G', grun 2 true exFmt Logs.exCsv exStart (exPre ++ .newLayer exLayer 2 (fun _ _ _ => -7) (fun _ _ _ _ => -1) (some 0) :: exPost) = some G ∧
    gstep 2 true exFmt Logs.exCsv G (.synch true (fun _ _ _ _ => -8) : Op Nat Nat Space.Pt Int Nat Nat Nat) = some G' := by
  have h : ((grun 2 true exFmt Logs.exCsv exStart (exPre ++ .newLayer exLayer 2 (fun _ _ _ => -7) (fun _ _ _ _ => -1) (some 0) :: exPost)).bind fun G =>
    gstep 2 true exFmt Logs.exCsv G (.synch true (fun _ _ _ _ => -8) : Op Nat Nat Space.Pt Int Nat Nat Nat)).isSome := by decide +kernel
  obtain ⟨G', h⟩ := Option.isSome_iff_exists.1 h
  obtain ⟨G, h1, h2⟩ := Option.bind_eq_some_iff.1 h
  exact ⟨G, G', h1, h2⟩

/-- The hypothesis of `C76_exceptions`: a value layer on a single rank cannot be synchronized (C40). -/
example : grun 1 true exFmt Logs.exCsv exStart [(.newLayer (ValueLayer.exT1 1 false 0 4) 1 (fun _ _ _ => -7) (fun _ _ _ _ => -1) (some 0) : Op Nat Nat Space.Pt Int Nat Nat Nat), .synch true fun _ _ _ _ => -8] = none :=
  Option.isNone_iff_eq_none.1 (by decide +kernel)

/-- A layer for `C76_mirror_periodic`. -/
example : Wrapping (ValueLayer.exT1 3 true 0 9) 2 ∧
    ((grun 3 true exFmt Logs.exCsv (Model.start ([] : List Context.GridSp) [] exFS : Model Nat Nat Context.GridSp Int Nat Nat Nat)
      [Op.newLayer (Q := Space.Pt) (ValueLayer.exT1 3 true 0 9) 2 (fun _ _ _ => -7) (fun _ _ _ _ => -1) (some 0), .put 2 0 (.set ⟨8, 0, 0⟩ 5), .synch true fun _ _ _ _ => -8]).bind fun G => (G.lays[0]?).map fun x => (x.w 0).ten.at_ 0 0 1) = some 5 :=
  ⟨ValueLayer.exT1_wrapping, by decide +kernel⟩

end Repast.Mpi.Whole
