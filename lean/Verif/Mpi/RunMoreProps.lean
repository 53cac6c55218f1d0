import Verif.Mpi.RunMoreRanks
import Verif.Mpi.WholeRun

/-
C74: models whose collective events schedule more collective events, collective end events and stops, or stop the runners (schedule.py:470-484, 516-610), while the ranks have other events of their own.
-/
namespace Repast.Mpi.Run
open Repast.Schedule Repast.Mpi

variable {n : Nat}

/-! ### Specification -/

/-- The ranks agree about the events that they all take part in. Before `execute`, they make the same calls that schedule events of collective callables, end events of them, and stops, in the same order; and so do
the collective callables at each tick, where they may also stop the runner (`more`). What they schedule so is for later ticks. In between, and in its other events, each rank schedules what it likes of its own, for other
ticks than the current one. Collective events are FIRST or LAST, or have priorities, and each BY_PRIORITY event of a rank has one (C06). No event is voided. When `execute` is called, the next tick of the runner is right (C12). -/
structure AgreeMore (n : Nat) (coll : Nat → Bool) (e : Nat → Env) (setup : Nat → List Act) : Prop where
  adv : ∀ i < n, (e i).adv = (e 0).adv
  joint : ∃ more : Nat → Int → List Act, (∀ l t, ∀ a ∈ more l t, Placed a) ∧ ∀ i < n, Joint coll more (e i)
  schedules : ∀ i < n, ∀ a ∈ setup i, Schedules a
  same : ∀ i < n, (setup i).filter (isCollAct coll) = (setup 0).filter (isCollAct coll)
  fresh : ∀ i < n, StopsFresh (setup i) ∨ ∀ t, Act.schedStop t ∉ setup i
  placed : ∀ a ∈ (setup 0).filter (isCollAct coll), Placed a
  disciplined : ∀ i < n, Disciplined (e i) ∧ ∀ a ∈ setup i, PrioAct a

theorem AgreeMore.aligned (hn : 0 < n) {coll : Nat → Bool} {e : Nat → Env} {setup : Nat → List Act} (h : AgreeMore n coll e setup) (fuel N : Nat) : Aligned e fuel n coll N fun i => built (setup i) := by
  obtain ⟨more, hp, hj⟩ := h.joint
  exact aligned_setup_more hn h.adv hp hj h.schedules h.same (fun i hi => by
    rcases h.fresh i hi with h | h
    · exact h.synced
    · exact setup_synced' (.inr h)) h.disciplined h.placed fuel N

/-! ### Theorems -/

section
variable {S P Q : Type} [Context.Proj P Q] [Mixed.Kept P] {ty : Nat → Nat}

/-- C74: a model with shared spaces, whose collective events schedule more of them. If the ranks agree about them, then no rank waits for ever. -/
theorem C74_bounded_more_partial (hn : 0 < n) (ps : List P) (model : Nat → List (Ctx.Turn S P Q)) (e : Nat → Env) (setup : Nat → List Act)
    (h : AgreeMore n (fun l => (model l).any fun t => !ctxOwn t) e setup) (fuel N : Nat) :
    ∃ o, AnySpeed n (fun r => execute (e r) fuel (fun l c => Ctx.script ty n r (model l) c) N (built (setup r)) (Context.World.start ps r)) o := by
  obtain ⟨o, ho⟩ := lock_execute (body := fun i l c => Ctx.script ty n i (model l) c) (fun l hl => ctx_local model l hl) (fun l _ => ctx_together hn model l) e fuel N _ (h.aligned hn fuel N) _
    (Context.World.start ps) (Ctx.Same.start ps)
  exact ⟨o, ho.anySpeed⟩
end

section
variable {S A : Type}

/-- C74: a model with networks, whose collective events schedule more of them. -/
theorem C74_network_more_partial (hn : 0 < n) (dirs : List Bool) (others : Nat) (model : Nat → List (Net.Turn S A)) (e : Nat → Env) (setup : Nat → List Act)
    (h : AgreeMore n (fun l => (model l).any fun t => !netOwn t) e setup) (fuel N : Nat) :
    ∃ o, AnySpeed n (fun r => execute (e r) fuel (fun l c => Net.script n r (model l) c) N (built (setup r)) (Network.World.init dirs others r)) o := by
  obtain ⟨o, ho⟩ := lock_execute (body := fun i l c => Net.script n i (model l) c) (fun l hl => net_local model l hl) (fun l _ => net_together hn model l) e fuel N _ (h.aligned hn fuel N) _
    (Network.World.init dirs others) (Net.Same.init dirs others)
  exact ⟨o, ho.anySpeed⟩
end

section
variable {S A Q P : Type} [Context.Proj P Q] [Mixed.Kept P]

/-- C74: a model with shared spaces and networks, whose collective events schedule more of them. -/
theorem C74_mixed_more_partial (hn : 0 < n) (ps : List P) (dirs : List Bool) (b : Bool) (model : Nat → List (Mix.Turn S A Q P)) (e : Nat → Env) (setup : Nat → List Act)
    (h : AgreeMore n (fun l => (model l).any fun t => !mixOwn t) e setup) (fuel N : Nat) :
    ∃ o, AnySpeed n (fun r => execute (e r) fuel (fun l c => Mix.script n r b (model l) c) N (built (setup r)) (Mixed.World.start ps dirs r)) o := by
  obtain ⟨o, ho⟩ := lock_execute (body := fun i l c => Mix.script n i b (model l) c) (fun l hl => mix_local b model l hl) (fun l _ => mix_together hn b model l) e fuel N _ (h.aligned hn fuel N) (_, _)
    (Mixed.World.start ps dirs) (Mix.Same.start ps dirs)
  exact ⟨o, ho.anySpeed⟩
end

section
open Repast.Mpi.Whole Repast.Files Repast.Context Repast.Mpi.Layers
open Repast.Mixed (Kept HasM)
variable {S A P Q V T U R : Type} [Context.Proj P Q] [Mixed.Kept P]

/-- C74: a whole model, with shared spaces, networks, value layers, data sets and tabular loggers, whose collective events schedule more of them. -/
theorem C74_whole_more_partial (hn : 0 < n) (nf : Bool) (f : Fmt T U) (csv : R → Text) (ps : List P) (dirs : List Bool) (fs : FS) (pre : List (Whole.Turn S A Q P V T U R)) (hp : ∀ t ∈ pre, t.Of n)
    (model : Nat → List (Whole.Turn S A Q P V T U R)) (ht : ∀ l, ∀ t ∈ model l, t.Of n) (e : Nat → Env) (setup : Nat → List Act) (h : AgreeMore n (fun l => (model l).any fun t => !wholeOwn t) e setup) (fuel N : Nat) :
    ∃ o, AnyPace n (fun r => (Whole.script n r nf f csv pre ((Model.start ps dirs fs).view r)).bind fun c =>
      execute (e r) fuel (fun l c => Whole.script n r nf f csv (model l) c) N (built (setup r)) c) o := by
  obtain ⟨h1, h2⟩ := lock_turns (b := nf) (f := f) (csv := csv) hn pre hp (fit_start (n := n) ps dirs fs)
  cases e1 : turns n nf f csv (Model.start ps dirs fs) pre with
  | none =>
    rw [e1] at h1
    exact ⟨none, (Lock.bind (q := fun r c => execute (e r) fuel (fun l c => Whole.script n r nf f csv (model l) c) N (built (setup r)) c) (o' := fun _ => none) h1 fun _ e' => by cases e').anyPace⟩
  | some G =>
    rw [e1] at h1
    obtain ⟨o, ho⟩ := lock_execute (H := Part n dirs.length (ps.map Mixed.form)) (body := fun i l c => Whole.script n i nf f csv (model l) c) (fun l hl => whole_local model l hl)
      (fun l _ => whole_together hn model l (ht l)) e fuel N _ (h.aligned hn fuel N) G (fun r => G.view r) fun i hi => part_view (h2 G e1) hi
    exact ⟨o, (Lock.bind (q := fun r c => execute (e r) fuel (fun l c => Whole.script n r nf f csv (model l) c) N (built (setup r)) c) (o' := fun _ => o) h1 fun _ e' => by cases e'; exact ho).anyPace⟩
end

/-! ### Examples -/

/-- What the event that synchronizes schedules: a request two ticks later and itself for the next tick, as long as the tick is below 4; then it stops the runners. -/
def exMore (l : Nat) (now : Int) : List Act :=
  if l = 0 then (if now < 4 then [.sched (some (now + 2)) .byPriority (some 1) none 1 none, .sched (some (now + 1)) .last none none 0 none, .schedEnd 1] else [.stop]) else []

def exMoreEnvs (r : Nat) : Env := exEnv fun tr ev => match tr.getLast? with
  | some (.ran _ now) => match ev.cb with
    | .user l => (if l = 2 ∧ r = 1 then [.sched (some (now + 1)) .random none none 3 none] else []) ++ exMore l now
    | .stop => []
  | _ => []

/-- Both ranks synchronize at tick 1; rank 1 has an event of its own in every second tick, and this one schedules others. -/
def exMoreSetup (r : Nat) : List Act := (if r = 1 then [.sched (some 1) .first none (some 2) 2 none] else []) ++ [.sched (some 1) .last none none 0 none]

theorem exMore_prog (r : Nat) (tr : List Obs) (ev : Ev) (now : Int) (l : Nat) (h : ev.cb = .user l) :
    (exMoreEnvs r).prog (tr ++ [.ran ev now]) ev = (if l = 2 ∧ r = 1 then [.sched (some (now + 1)) .random none none 3 none] else []) ++ exMore l now := by
  show (match (tr ++ [Obs.ran ev now]).getLast? with | some (.ran _ now) => _ | _ => _) = _
  rw [List.getLast?_concat]
  simp only [h]

theorem exMoreAgree : AgreeMore 2 (fun l => decide (l < 2)) exMoreEnvs exMoreSetup := by
  refine ⟨fun i _ => rfl, ⟨exMore, ?_, fun i hi => ⟨?_, ?_, ?_, fun tr l a ha => by cases ha⟩⟩, ?_, ?_, fun i hi => .inr ?_, ?_, ?_⟩
  · intro l t a ha
    unfold exMore at ha
    split at ha
    · split at ha <;> simp at ha
      · rcases ha with rfl | rfl | rfl
        · exact .inr (.inr ⟨rfl, rfl⟩)
        · exact .inr (.inl rfl)
        · trivial
      · subst ha; trivial
    · cases ha
  · intro tr ev now l h
    rw [exMore_prog i tr ev now l h, List.filter_append]
    have h1 : (if l = 2 ∧ i = 1 then [Act.sched (some (now + 1)) .random none none 3 none] else []).filter (isJoint fun l => decide (l < 2)) = [] := by
      split <;> rfl
    rw [h1, List.nil_append]
    unfold exMore
    by_cases h0 : l = 0
    · subst h0
      simp only [if_true]
      split <;> rfl
    · rw [if_neg h0]; split <;> rfl
  · intro tr ev k ha
    have : Act.void k ∈ (match tr.getLast? with
      | some (.ran _ now) => match ev.cb with
        | .user l => (if l = 2 ∧ i = 1 then [Act.sched (some (now + 1)) .random none none 3 none] else []) ++ exMore l now
        | .stop => []
      | _ => []) := ha
    unfold exMore at this
    split at this
    · split at this
      · rcases List.mem_append.1 this with h | h
        · split at h
          · simp at h
          · cases h
        · split at h
          · split at h <;> simp at h
          · cases h
      · cases this
    · cases this
  · intro l now a ha
    unfold exMore at ha
    split at ha
    · split at ha <;> simp at ha
      · rcases ha with rfl | rfl | rfl
        · exact ⟨now + 2, rfl, by omega⟩
        · exact ⟨now + 1, rfl, by omega⟩
        · trivial
      · subst ha; trivial
    · cases ha
  · intro i hi a ha
    unfold exMoreSetup at ha
    grind [Schedules]
  · intro i hi
    obtain rfl | rfl : i = 0 ∨ i = 1 := by omega
    · rfl
    · decide +kernel
  · intro t ht
    unfold exMoreSetup at ht
    grind
  · intro a ha
    have : a = .sched (some 1) .last none none 0 none := by simpa [exMoreSetup, isCollAct] using ha
    subst this
    exact .inr (.inl rfl)
  · intro i hi
    refine ⟨fun tr ev now a ha => ?_, fun a ha => ?_⟩
    · cases h : ev.cb with
      | user l =>
        rw [exMore_prog i tr ev now l h] at ha
        unfold exMore at ha
        have h1 : ∀ k : Int, now + 1 ≠ now ∧ now + 2 ≠ now := fun _ => by omega
        rcases List.mem_append.1 ha with ha | ha
        · split at ha
          · rw [List.mem_singleton] at ha
            subst ha
            exact ⟨nofun, fun h => (h1 0).1 (Option.some.inj h)⟩
          · cases ha
        · split at ha
          · split at ha <;> simp at ha
            · rcases ha with rfl | rfl | rfl
              · exact ⟨fun _ => rfl, fun h => (h1 0).2 (Option.some.inj h)⟩
              · exact ⟨nofun, fun h => (h1 0).1 (Option.some.inj h)⟩
              · exact ⟨trivial, trivial⟩
            · subst ha; exact ⟨trivial, trivial⟩
          · cases ha
      | stop =>
        have : a ∈ (match (tr ++ [Obs.ran ev now]).getLast? with
          | some (.ran _ now) => match ev.cb with
            | .user l => (if l = 2 ∧ i = 1 then [Act.sched (some (now + 1)) .random none none 3 none] else []) ++ exMore l now
            | .stop => []
          | _ => []) := ha
        rw [List.getLast?_concat] at this
        simp only [h] at this
        cases this
    · unfold exMoreSetup at ha
      grind [PrioAct]

example : AgreeMore 2 exColl exMoreEnvs exMoreSetup := exColl_eq ▸ exMoreAgree

open Repast.Mpi.Whole in
example (N : Nat) : ∃ o, AnyPace 2 (fun r => (Whole.script 2 r true exFmt Logs.exCsv exPreW (exStart.view r)).bind fun c =>
    execute (exMoreEnvs r) 20 (fun l c => Whole.script 2 r true exFmt Logs.exCsv (exModelW l) c) N (built (exMoreSetup r)) c) o :=
  C74_whole_more_partial (by omega) true exFmt Logs.exCsv _ _ _ exPreW exPreW_of exModelW exModelW_of exMoreEnvs exMoreSetup (exModelW_coll ▸ exMoreAgree) 20 N

/-- Rank 0 runs only the collective events, rank 1 others in between; the end events are the four that were scheduled (0 runs at the ticks 1 to 4, 1 at the ticks 3 and 4). -/
example : ((solo (exMoreEnvs 0) 20 12 (built (exMoreSetup 0))).map fun s => (fresh (built (exMoreSetup 0)) s, decide (s.phase = .finished))) = some ([0, 0, 1, 0, 1, 0, 1, 1, 1], true) := by decide +kernel
example : ((solo (exMoreEnvs 1) 20 12 (built (exMoreSetup 1))).map fun s => (fresh (built (exMoreSetup 1)) s, decide (s.phase = .finished))) = some ([2, 0, 3, 0, 2, 1, 0, 1, 3, 0, 1, 1, 1], true) := by decide +kernel

end Repast.Mpi.Run
