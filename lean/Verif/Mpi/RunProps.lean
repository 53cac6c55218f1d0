import Verif.Mpi.RunSetup
import Verif.Mpi.CtxProps
import Verif.Mpi.NetProps
import Verif.Mpi.MixProps
import Verif.Schedule.Stop
import Verif.Schedule.Examples

/-
C74: models that are run by `SharedScheduleRunner.execute` (schedule.py:612-624) on ranks that have their own speed, with events that synchronize, request or move agents. `model l` is what the callable `l`
does; see `Verif/Mpi/Runner`.
-/
namespace Repast.Mpi.Run
open Repast.Schedule Repast.Mpi
open Repast.Network (All)

variable {n : Nat}

/-! ### Specification -/

/-- What only one rank takes part in. -/
def ctxOwn {S P Q : Type} : Ctx.Turn S P Q → Bool
  | .own _ => true
  | _ => false

/-- What only one rank takes part in. -/
def netOwn {S A : Type} : Net.Turn S A → Bool
  | .own _ => true
  | _ => false

/-- What only one rank takes part in. -/
def mixOwn {S A Q P : Type} : Mix.Turn S A Q P → Bool
  | .own _ => true
  | _ => false

/-- The ranks agree about the events that they all take part in. They make the same calls that schedule events of collective callables, end events of them, and stops, in the same order; in between each schedules
what it likes of its own. Whatever their events do, and whatever random numbers the ranks draw: no event schedules a collective one or a stop; the collective events that call `stop` do so at the same ticks on all
ranks (`halt`). No two collective events that are neither FIRST nor LAST are ever
due at the same tick, unless they have priorities, each BY_PRIORITY event of a rank has one, and no event schedules anything for its own tick (C06). When `execute` is called, the next tick of the runner is right (C12). -/
structure Agree (n : Nat) (coll : Nat → Bool) (e : Nat → Env) (setup : Nat → List Act) : Prop where
  adv : ∀ i < n, (e i).adv = (e 0).adv
  quiet : ∃ halt, ∀ i < n, Quiet coll halt (e i)
  schedules : ∀ i < n, ∀ a ∈ setup i, Schedules a
  same : ∀ i < n, (setup i).filter (isCollAct coll) = (setup 0).filter (isCollAct coll)
  fresh : ∀ i < n, StopsFresh (setup i) ∨ ∀ t, Act.schedStop t ∉ setup i
  apart : Apart coll (∀ i < n, Disciplined (e i) ∧ ∀ a ∈ setup i, PrioAct a) (e 0).adv ((setup 0).filter (isCollAct coll))

/-! ### Lemmas -/

theorem Agree.aligned (hn : 0 < n) {coll : Nat → Bool} {e : Nat → Env} {setup : Nat → List Act} (h : Agree n coll e setup) (fuel N : Nat) : Aligned e fuel n coll N fun i => built (setup i) := by
  obtain ⟨halt, hq⟩ := h.quiet
  exact aligned_setup hn h.adv hq h.schedules h.same (fun i hi => by
    rcases h.fresh i hi with h | h
    · exact h.synced
    · exact setup_synced' (.inr h)) id h.apart fuel N

theorem forM_own {τ σ : Type} {H : σ → Prop} {turn : τ → σ → Prog σ} : ∀ (ts : List τ), (∀ t ∈ ts, ∀ c, ∃ x, turn t c = Prog.lift x ∧ (H c → All H x)) →
    ∀ c, ∃ x, Prog.forM turn ts c = Prog.lift x ∧ (H c → All H x)
  | [], _, c => ⟨some c, rfl, fun h _ e => by cases e; exact h⟩
  | t :: ts, h, c => by
    obtain ⟨x, e, hx⟩ := h t (by simp) c
    cases x with
    | none =>
      refine ⟨none, ?_, fun _ _ e => by cases e⟩
      show (turn t c).bind _ = _
      rw [e]; rfl
    | some c' =>
      obtain ⟨y, e', hy⟩ := forM_own ts (fun t ht => h t (by simp [ht])) c'
      refine ⟨y, ?_, fun hc => hy (hx hc c' rfl)⟩
      show (turn t c).bind _ = _
      rw [e]
      exact e'

theorem foldlM_flatMap {τ σ : Type} (model : Nat → List τ) (f : σ → τ → Option σ) : ∀ (L : List Nat) (w : σ), (L.flatMap model).foldlM f w = L.foldlM (fun w l => (model l).foldlM f w) w
  | [], _ => rfl
  | l :: L, w => by
    rw [List.flatMap_cons, List.foldlM_append, List.foldlM_cons]
    congr 1
    funext w'
    exact foldlM_flatMap model f L w'

section
open Repast.Context Repast.Mpi.Ctx
open Repast.Mixed (Kept form)
variable {S P Q : Type} [Proj P Q] [Kept P] {ty : Nat → Nat}

theorem ctx_local (model : Nat → List (Ctx.Turn S P Q)) (l : Nat) (h : (model l).any (fun t => !ctxOwn t) = false) : Local (fun _ => HasC) (fun i l c => Ctx.script ty n i (model l) c) l := by
  intro i c
  have key : ∀ bs : List (Nat × String), ∀ c, ∃ x, Prog.forM (Ctx.turn ty n i) (model l) c = Prog.lift x ∧ (HasC bs c → All (HasC bs) x) := fun bs => forM_own (model l) (fun t ht c => by
    cases t with
    | own f => exact ⟨_, rfl, fun hc => All.foldlM (fun c a hc => HasC.act hc a) _ _ hc⟩
    | _ => exact absurd (List.any_eq_true.2 ⟨_, ht, rfl⟩) (by rw [h]; decide))
  obtain ⟨x, e, _⟩ := key [] c
  refine ⟨x, e, fun b hb c' hc' => ?_⟩
  obtain ⟨y, e', hy⟩ := key b c
  have : x = y := by
    rw [e] at e'
    cases x <;> cases y <;> first | rfl | (cases e'; done) | (cases e'; rfl)
  exact hy hb c' (this ▸ hc')

theorem same_turns : ∀ (ts : List (Ctx.Turn S P Q)) b (w w' : Context.World S P), Ctx.Same n b w → ts.foldlM (fun w t => Ctx.wturn ty n t w) w = some w' → ∃ b', Ctx.Same n b' w' := by
  intro ts
  induction ts with
  | nil => intro b w w' hw e; rw [List.foldlM_nil] at e; cases e; exact ⟨b, hw⟩
  | cons t ts ih =>
    intro b w w' hw e
    rw [List.foldlM_cons, Option.bind_eq_bind] at e
    obtain ⟨w1, e1, e⟩ := Option.bind_eq_some_iff.1 e
    exact ih _ w1 w' (hw.wturn t w1 e1) e

theorem ctx_together (hn : 0 < n) (model : Nat → List (Ctx.Turn S P Q)) (l : Nat) : Together (fun _ => HasC) (fun i l c => Ctx.script ty n i (model l) c) n l :=
  fun b w hw => ⟨_, Ctx.lock_script hn (model l) b w hw, fun w' e => same_turns _ b w w' hw e⟩
end

section
open Repast.Network Repast.Mpi.Net
variable {S A : Type}

theorem net_local (model : Nat → List (Net.Turn S A)) (l : Nat) (h : (model l).any (fun t => !netOwn t) = false) : Local (fun _ => Has) (fun i l c => Net.script n i (model l) c) l := by
  intro i c
  have key : ∀ k : Nat, ∀ c, ∃ x, Prog.forM (Net.turn n i) (model l) c = Prog.lift x ∧ (Has k c → All (Has k) x) := fun k => forM_own (model l) (fun t ht c => by
    cases t with
    | own f => exact ⟨_, rfl, fun hc => All.foldlM (fun c a hc => Has.act hc a) _ _ hc⟩
    | _ => exact absurd (List.any_eq_true.2 ⟨_, ht, rfl⟩) (by rw [h]; decide))
  obtain ⟨x, e, _⟩ := key 0 c
  refine ⟨x, e, fun b hb c' hc' => ?_⟩
  obtain ⟨y, e', hy⟩ := key b c
  have : x = y := by
    rw [e] at e'
    cases x <;> cases y <;> first | rfl | (cases e'; done) | (cases e'; rfl)
  exact hy hb c' (this ▸ hc')

theorem net_together (hn : 0 < n) (model : Nat → List (Net.Turn S A)) (l : Nat) : Together (fun _ => Has) (fun i l c => Net.script n i (model l) c) n l := by
  intro k w hw
  refine ⟨_, Net.lock_script hn hw (model l), fun w' e => ⟨k, ?_⟩⟩
  exact All.foldlM (p := Net.Same n k) (fun w t hw => Net.Same.wturn hw t) _ _ hw w' e
end

section
open Repast.Mpi.Mix
open Repast.Mixed (Kept HasM)
variable {S A Q P : Type} [Context.Proj P Q] [Kept P]

theorem mix_local (b : Bool) (model : Nat → List (Mix.Turn S A Q P)) (l : Nat) (h : (model l).any (fun t => !mixOwn t) = false) :
    Local (fun _ (x : Nat × List (Nat × String)) => HasM x.1 x.2) (fun i l c => Mix.script n i b (model l) c) l := by
  intro i c
  have key : ∀ x : Nat × List (Nat × String), ∀ c, ∃ y, Prog.forM (Mix.turn n i b) (model l) c = Prog.lift y ∧ (HasM x.1 x.2 c → All (HasM x.1 x.2) y) := fun x => forM_own (model l) (fun t ht c => by
    cases t with
    | own f => exact ⟨_, rfl, fun hc => All.foldlM (fun c a hc => HasM.act hc a) _ _ hc⟩
    | _ => exact absurd (List.any_eq_true.2 ⟨_, ht, rfl⟩) (by rw [h]; decide))
  obtain ⟨x, e, _⟩ := key (0, []) c
  refine ⟨x, e, fun b hb c' hc' => ?_⟩
  obtain ⟨y, e', hy⟩ := key b c
  have : x = y := by
    rw [e] at e'
    cases x <;> cases y <;> first | rfl | (cases e'; done) | (cases e'; rfl)
  exact hy hb c' (this ▸ hc')

theorem mix_together (hn : 0 < n) (b : Bool) (model : Nat → List (Mix.Turn S A Q P)) (l : Nat) :
    Together (fun _ (x : Nat × List (Nat × String)) => HasM x.1 x.2) (fun i l c => Mix.script n i b (model l) c) n l := by
  intro k w hw
  refine ⟨_, Mix.lock_script (k := k.1) (bs := k.2) hn hw b (model l), fun w' e => ⟨k, ?_⟩⟩
  exact All.foldlM (p := Mix.Same n k.1 k.2) (fun w t hw => Mix.Same.wturn hw b t) _ _ hw w' e
end

/-! ### Theorems -/

section
variable {S P Q : Type} [Context.Proj P Q] [Mixed.Kept P] {ty : Nat → Nat}

/-- C74: a model with shared spaces `ps`. If the ranks agree about the events that they all take part in, then no rank waits for ever: for every `N`, all
ranks get through the first `N` iterations of the loop of `execute` (and the end events, if the loop ends by then), unless an exception is raised, and what they do is the same whatever speeds they have. -/
theorem C74_bounded_partial (hn : 0 < n) (ps : List P) (model : Nat → List (Ctx.Turn S P Q)) (e : Nat → Env) (setup : Nat → List Act)
    (h : Agree n (fun l => (model l).any fun t => !ctxOwn t) e setup) (fuel N : Nat) :
    ∃ o, AnySpeed n (fun r => execute (e r) fuel (fun l c => Ctx.script ty n r (model l) c) N (built (setup r)) (Context.World.start ps r)) o := by
  obtain ⟨o, ho⟩ := lock_execute (body := fun i l c => Ctx.script ty n i (model l) c) (fun l hl => ctx_local model l hl) (fun l _ => ctx_together hn model l) e fuel N _ (h.aligned hn fuel N) _
    (Context.World.start ps) (Ctx.Same.start ps)
  exact ⟨o, ho.anySpeed⟩

/-- C74: ranks that make the same calls, whose events schedule the same, and that draw the same random numbers. The ranks take the callables in the order of the schedule of one rank, each of them together, as if
each were a step of the whole system. -/
theorem C74_bounded_same (hn : 0 < n) (ps : List P) (model : Nat → List (Ctx.Turn S P Q)) (e : Env) (setup : List Act) (fuel N : Nat) :
    AnySpeed n (fun r => execute e fuel (fun l c => Ctx.script ty n r (model l) c) N (built setup) (Context.World.start ps r))
      ((solo e fuel N (built setup)).bind fun s' => (((fresh (built setup) s').flatMap model).foldlM (fun w t => Ctx.wturn ty n t w) (Context.World.start ps)).map fun w' r => (s', w' r)) := by
  have := lock_same (Z := fun w => ∃ bs, Ctx.Same n bs w) (body := fun i l c => Ctx.script ty n i (model l) c) (F := fun l w => (model l).foldlM (fun w t => Ctx.wturn ty n t w) w) hn
    (fun l w ⟨bs, hw⟩ => Ctx.lock_script hn (model l) bs w hw) (fun l w w' ⟨bs, hw⟩ e => same_turns _ bs w w' hw e) e fuel N (built setup) (Context.World.start ps) ⟨_, Ctx.Same.start ps⟩
  simp only [← foldlM_flatMap] at this
  exact this.anySpeed
end

section
variable {S A : Type}

/-- C74: a model with networks (one for each element of `dirs`: whether it is directed). If the ranks agree about the events that they all take part in, then no rank waits for ever. -/
theorem C74_network_partial (hn : 0 < n) (dirs : List Bool) (others : Nat) (model : Nat → List (Net.Turn S A)) (e : Nat → Env) (setup : Nat → List Act)
    (h : Agree n (fun l => (model l).any fun t => !netOwn t) e setup) (fuel N : Nat) :
    ∃ o, AnySpeed n (fun r => execute (e r) fuel (fun l c => Net.script n r (model l) c) N (built (setup r)) (Network.World.init dirs others r)) o := by
  obtain ⟨o, ho⟩ := lock_execute (body := fun i l c => Net.script n i (model l) c) (fun l hl => net_local model l hl) (fun l _ => net_together hn model l) e fuel N _ (h.aligned hn fuel N) _
    (Network.World.init dirs others) (Net.Same.init dirs others)
  exact ⟨o, ho.anySpeed⟩

/-- C74: ranks that make the same calls, whose events schedule the same, and that draw the same random numbers; a model with networks. -/
theorem C74_network_same (hn : 0 < n) (dirs : List Bool) (others : Nat) (model : Nat → List (Net.Turn S A)) (e : Env) (setup : List Act) (fuel N : Nat) :
    AnySpeed n (fun r => execute e fuel (fun l c => Net.script n r (model l) c) N (built setup) (Network.World.init dirs others r))
      ((solo e fuel N (built setup)).bind fun s' => (((fresh (built setup) s').flatMap model).foldlM (fun w t => Net.wturn n t w) (Network.World.init dirs others)).map fun w' r => (s', w' r)) := by
  have := lock_same (Z := Net.Same n dirs.length) (body := fun i l c => Net.script n i (model l) c) (F := fun l w => (model l).foldlM (fun w t => Net.wturn n t w) w) hn
    (fun l w hw => Net.lock_script hn hw (model l)) (fun l w w' hw e => All.foldlM (p := Net.Same n dirs.length) (fun w t hw => Net.Same.wturn hw t) _ _ hw w' e) e fuel N (built setup)
    (Network.World.init dirs others) (Net.Same.init dirs others)
  simp only [← foldlM_flatMap] at this
  exact this.anySpeed
end

section
variable {S A Q P : Type} [Context.Proj P Q] [Mixed.Kept P]

/-- C74: a model with shared spaces and networks. If the ranks agree about the events that they all take part in, then no rank waits for ever. -/
theorem C74_mixed_partial (hn : 0 < n) (ps : List P) (dirs : List Bool) (b : Bool) (model : Nat → List (Mix.Turn S A Q P)) (e : Nat → Env) (setup : Nat → List Act)
    (h : Agree n (fun l => (model l).any fun t => !mixOwn t) e setup) (fuel N : Nat) :
    ∃ o, AnySpeed n (fun r => execute (e r) fuel (fun l c => Mix.script n r b (model l) c) N (built (setup r)) (Mixed.World.start ps dirs r)) o := by
  obtain ⟨o, ho⟩ := lock_execute (body := fun i l c => Mix.script n i b (model l) c) (fun l hl => mix_local b model l hl) (fun l _ => mix_together hn b model l) e fuel N _ (h.aligned hn fuel N) (_, _)
    (Mixed.World.start ps dirs) (Mix.Same.start ps dirs)
  exact ⟨o, ho.anySpeed⟩

/-- C74: ranks that make the same calls, whose events schedule the same, and that draw the same random numbers; a model with shared spaces and networks. -/
theorem C74_mixed_same (hn : 0 < n) (ps : List P) (dirs : List Bool) (b : Bool) (model : Nat → List (Mix.Turn S A Q P)) (e : Env) (setup : List Act) (fuel N : Nat) :
    AnySpeed n (fun r => execute e fuel (fun l c => Mix.script n r b (model l) c) N (built setup) (Mixed.World.start ps dirs r))
      ((solo e fuel N (built setup)).bind fun s' => (((fresh (built setup) s').flatMap model).foldlM (fun w t => Mix.wturn n b t w) (Mixed.World.start ps dirs)).map fun w' r => (s', w' r)) := by
  have h0 := Mix.Same.start (n := n) (S := S) (A := A) ps dirs
  have := lock_same (Z := Mix.Same n dirs.length (ps.map Mixed.form)) (body := fun i l c => Mix.script n i b (model l) c) (F := fun l w => (model l).foldlM (fun w t => Mix.wturn n b t w) w) hn
    (fun l w hw => Mix.lock_script hn hw b (model l)) (fun l w w' hw e => All.foldlM (p := Mix.Same n _ _) (fun w t hw => Mix.Same.wturn hw b t) _ _ hw w' e) e fuel N (built setup)
    (Mixed.World.start ps dirs) h0
  simp only [← foldlM_flatMap] at this
  exact this.anySpeed
end

/-! ### The hypotheses are met -/

open Repast.Context (line2 GridSp)
open Repast.Space (Pt)

/-- The callables of the examples: 0 synchronizes, 1 requests an agent of the other rank, 2 adds an agent to the context and to the grid of the rank. -/
def exModel : Nat → List (Ctx.Turn Nat GridSp Pt)
  | 0 => [.synch true]
  | 1 => [.request fun r _ => [(7 + (1 - r), 1 - r)]]
  | _ => [.own fun r _ => [.add (7 + r) 5, .gmove 0 (7 + r) ⟨4 + (r : Int), 0, 0⟩]]

def exColl (l : Nat) : Bool := (exModel l).any fun t => !ctxOwn t

/-- Both ranks request agents in every second tick, synchronize in the others, both with the default priority, synchronize at the end of every tick, stop at 10, and synchronize once more. Rank 0 has an event of
its own at tick 1; rank 1 has its own at tick 1 and a repeating one, both of the default priority too. The events of rank 1 schedule more of their own. -/
def exSetup (r : Nat) : List Act :=
  if r = 0 then [.sched (some 2) .random none (some 2) 1 none, .sched (some 1) .random none none 2 none, .sched (some 1) .random none (some 2) 0 none, .sched (some 1) .last none (some 1) 0 none,
    .schedStop (some 10), .schedEnd 0]
  else [.sched (some 1) .random none none 2 none, .sched (some 2) .random none (some 2) 1 none, .sched (some 3) .random none (some 3) 3 none, .sched (some 1) .random none (some 2) 0 none,
    .sched (some 1) .last none (some 1) 0 none, .schedStop (some 10), .schedEnd 2, .schedEnd 0]

def exEnvs (r : Nat) : Env := exEnv (fun tr _ => if r = 1 then [.sched (some (tr.length : Int)) .first none none 4 none] else [])

theorem exColl_eq : exColl = fun l => decide (l < 2) := by
  funext l
  match l with
  | 0 => rfl
  | 1 => rfl
  | (k + 2) => simp [exColl, exModel, ctxOwn]

theorem exOcc (t : Int) (p : PType) (q : Option Int) (i : Int) (l : Nat) (g : Option Nat) (k : Nat) : actOcc (fun a b => a + b) (.sched (some t) p q (some i) l g) k = some (t + k * i) := by
  induction k with
  | zero => simp [actOcc]
  | succ k ih =>
    show (actOcc _ _ k).map _ = _
    rw [ih, Option.map_some, Int.natCast_add, Int.add_mul]
    simp [Int.add_assoc]

theorem exStop {coll : Nat → Bool} {ev : Ev} (h : isStop coll (fun _ _ => false) ev = true) : ev.cb = .stop := by
  unfold isStop at h
  split at h
  · simp at h
  · assumption

theorem exAgree : Agree 2 (fun l => decide (l < 2)) exEnvs exSetup := by
  refine ⟨fun i _ => rfl, ⟨fun _ _ => false, fun i _ => ⟨fun tr ev a ha => .inl ?_, fun tr ev h => .inr (exStop h), fun tr l a ha => by cases ha⟩⟩, ?_, ?_, fun i hi => .inl (.inr ?_), ?_⟩
  · have : a ∈ (if i = 1 then [Act.sched (some (tr.length : Int)) .first none none 4 none] else []) := ha
    split at this <;> simp at this
    subst this
    show decide (4 < 2) = false
    rfl
  · intro i hi a ha
    have h : ∀ a ∈ exSetup 0 ++ exSetup 1, Schedules a := by
      simp only [exSetup, List.mem_append]
      rintro a (h | h) <;> simp at h <;> grind [Schedules]
    obtain rfl | rfl : i = 0 ∨ i = 1 := by omega
    · exact h a (List.mem_append.2 (.inl ha))
    · exact h a (List.mem_append.2 (.inr ha))
  · intro i hi
    obtain rfl | rfl : i = 0 ∨ i = 1 := by omega
    · rfl
    · decide +kernel
  · refine ⟨1, .random, none, none, 2, none, ?_, by decide, ?_⟩
    · unfold exSetup; split <;> simp
    · intro u hu
      have : u = 10 := by unfold exSetup at hu; split at hu <;> simpa using hu
      omega
  · show Apart _ _ _ [_, _, _, _, _]
    refine List.pairwise_cons.2 ⟨fun b hb _ h => ?_, List.pairwise_cons.2 ⟨fun b hb _ h => ?_, List.pairwise_cons.2 ⟨fun b _ h => ?_, List.pairwise_cons.2 ⟨fun b _ h => ?_, List.pairwise_cons.2 ⟨fun b _ h => ?_, .nil⟩⟩⟩⟩⟩
    · simp only [List.mem_cons, List.not_mem_nil, or_false] at hb
      rcases hb with rfl | rfl | rfl | rfl
      · right
        intro j k t hj hk
        have hj : actOcc (fun a b => a + b) _ j = _ := hj
        have hk : actOcc (fun a b => a + b) _ k = _ := hk
        rw [exOcc] at hj hk
        simp at hj hk
        omega
      · exact absurd rfl h.2.2
      · exact h.elim
      · exact h.elim
    · simp only [List.mem_cons, List.not_mem_nil, or_false] at hb
      rcases hb with rfl | rfl | rfl
      · exact absurd rfl h.2.2
      · exact h.elim
      · exact h.elim
    · exact absurd rfl h.2.2
    · exact h.elim
    · exact h.elim

example : Agree 2 exColl exEnvs exSetup := exColl_eq ▸ exAgree

/-- Both ranks request agents with the priority 2 and synchronize with the priority 1, at every tick. Rank 1 has events of its own, with priorities in between and before, one of which schedules others of their
own for the next ticks. -/
def exPrioSetup (r : Nat) : List Act :=
  if r = 0 then [.sched (some 1) .byPriority (some 2) (some 1) 1 none, .sched (some 1) .byPriority (some 1) (some 1) 0 none, .sched (some 1) .random none none 2 none, .schedStop (some 5)]
  else [.sched (some 1) .byPriority (some 1) (some 2) 3 none, .sched (some 1) .byPriority (some 2) (some 1) 1 none, .sched (some 1) .byPriority (some 1) (some 1) 0 none, .sched (some 1) .random none none 2 none,
    .schedStop (some 5)]

def exPrioEnvs (r : Nat) : Env := exEnv fun tr ev => match tr.getLast? with
  | some (.ran _ now) => if r = 1 ∧ ev.cb = Cb.user 3 then [.sched (some (now + 1)) .byPriority (some 0) none 4 none] else []
  | _ => []

theorem exPrioAgree : Agree 2 (fun l => decide (l < 2)) exPrioEnvs exPrioSetup := by
  refine ⟨fun i _ => rfl, ⟨fun _ _ => false, fun i _ => ⟨fun tr ev a ha => .inl ?_, fun tr ev h => .inr (exStop h), fun tr l a ha => by cases ha⟩⟩, ?_, ?_, fun i hi => .inl (.inr ?_), ?_⟩
  · have : a ∈ (match tr.getLast? with
      | some (.ran _ now) => if i = 1 ∧ ev.cb = Cb.user 3 then [Act.sched (some (now + 1)) .byPriority (some 0) none 4 none] else []
      | _ => []) := ha
    split at this
    · split at this <;> simp at this
      subst this
      show decide (4 < 2) = false
      rfl
    · cases this
  · intro i hi a ha
    have h : ∀ a ∈ exPrioSetup 0 ++ exPrioSetup 1, Schedules a := by
      simp only [exPrioSetup, List.mem_append]
      rintro a (h | h) <;> simp at h <;> grind [Schedules]
    obtain rfl | rfl : i = 0 ∨ i = 1 := by omega
    · exact h a (List.mem_append.2 (.inl ha))
    · exact h a (List.mem_append.2 (.inr ha))
  · intro i hi
    obtain rfl | rfl : i = 0 ∨ i = 1 := by omega
    · rfl
    · decide +kernel
  · refine ⟨1, .random, none, none, 2, none, ?_, by decide, ?_⟩
    · unfold exPrioSetup; split <;> simp
    · intro u hu
      have : u = 5 := by unfold exPrioSetup at hu; split at hu <;> simpa using hu
      omega
  · have ok : ∀ i < 2, Disciplined (exPrioEnvs i) ∧ ∀ a ∈ exPrioSetup i, PrioAct a := by
      intro i hi
      refine ⟨fun tr ev now a ha => ?_, fun a ha => ?_⟩
      · have : a ∈ (match (tr ++ [Obs.ran ev now]).getLast? with
          | some (.ran _ now) => if i = 1 ∧ ev.cb = Cb.user 3 then [Act.sched (some (now + 1)) .byPriority (some 0) none 4 none] else []
          | _ => []) := ha
        rw [List.getLast?_concat] at this
        simp only [] at this
        split at this <;> simp at this
        subst this
        refine ⟨fun _ => rfl, fun h => ?_⟩
        have := Option.some.inj h
        omega
      · unfold exPrioSetup at ha
        split at ha <;> simp at ha <;> grind [PrioAct]
    show Apart _ _ _ [_, _, _]
    refine List.pairwise_cons.2 ⟨fun b hb _ h => ?_, List.pairwise_cons.2 ⟨fun b hb _ h => ?_, List.pairwise_cons.2 ⟨fun b _ h => ?_, .nil⟩⟩⟩
    · simp only [List.mem_cons, List.not_mem_nil, or_false] at hb
      rcases hb with rfl | rfl
      · exact .inl ⟨ok, ⟨rfl, rfl⟩, ⟨rfl, rfl⟩⟩
      · exact h.elim
    · simp only [List.mem_cons, List.not_mem_nil, or_false] at hb
      subst hb
      exact h.elim
    · exact h.elim

example : Agree 2 exColl exPrioEnvs exPrioSetup := exColl_eq ▸ exPrioAgree

/-- Both ranks synchronize at every tick, and have events of their own; the event that synchronizes stops the runners at tick 3. -/
def exHaltSetup (r : Nat) : List Act := (if r = 0 then [.sched (some 2) .first none none 2 none] else []) ++ [.sched (some 1) .random none (some 1) 0 none, .schedEnd 0]

def exHaltEnvs (_ : Nat) : Env := exEnv fun _ ev => if ev.cb = .user 0 ∧ ev.at_ = 3 then [.sched (some 4) .random none none 2 none, .stop] else []

theorem exHaltAgree : Agree 2 (fun l => decide (l < 2)) exHaltEnvs exHaltSetup := by
  refine ⟨fun i _ => rfl, ⟨fun l t => decide (l = 0 ∧ t = 3), fun i _ => ⟨fun tr ev a ha => ?_, fun tr ev h => ?_, fun tr l a ha => by cases ha⟩⟩, ?_, ?_, fun i hi => .inr fun t h => ?_, ?_⟩
  · have : a ∈ (if ev.cb = .user 0 ∧ ev.at_ = 3 then [Act.sched (some 4) .random none none 2 none, .stop] else []) := ha
    split at this
    · rename_i hc
      simp at this
      rcases this with rfl | rfl
      · exact .inl (by show decide (2 < 2) = false; rfl)
      · exact .inr ⟨rfl, by unfold isStop; rw [hc.1]; simp [hc.2]⟩
    · cases this
  · unfold isStop at h
    split at h
    · rename_i l hc
      simp at h
      refine .inl ?_
      show _ ∈ (if ev.cb = .user 0 ∧ ev.at_ = 3 then [Act.sched (some 4) .random none none 2 none, .stop] else [])
      rw [if_pos ⟨by rw [hc, h.2.1], h.2.2⟩]
      simp
    · exact .inr (by assumption)
  · intro i hi a ha
    unfold exHaltSetup at ha
    split at ha <;> simp at ha <;> grind [Schedules]
  · intro i hi
    obtain rfl | rfl : i = 0 ∨ i = 1 := by omega
    · rfl
    · decide +kernel
  · unfold exHaltSetup at h
    split at h <;> simp at h
  · show Apart _ _ _ [_, _]
    refine List.pairwise_cons.2 ⟨fun b hb _ h => ?_, List.pairwise_cons.2 ⟨fun b _ h => ?_, .nil⟩⟩
    · simp only [List.mem_cons, List.not_mem_nil, or_false] at hb
      subst hb
      exact h.elim
    · exact h.elim

example : Agree 2 exColl exHaltEnvs exHaltSetup := exColl_eq ▸ exHaltAgree

/-- The callables that the run of `exHaltSetup 0` on its own calls: it ends after tick 3, with the end event. -/
example : ((solo (exHaltEnvs 0) 20 12 (built (exHaltSetup 0))).map fun s => (fresh (built (exHaltSetup 0)) s, decide (s.phase = .finished))) = some ([0, 2, 0, 0, 0], true) := by decide +kernel

/-- The callables that the run of `exPrioSetup 1` on its own calls: 0 before 1 in every tick. -/
example : ((solo (exPrioEnvs 1) 20 12 (built (exPrioSetup 1))).map fun s => (fresh (built (exPrioSetup 1)) s, decide (s.phase = .finished))) =
    some ([3, 0, 1, 2, 4, 0, 1, 3, 0, 1, 4, 0, 1, 3, 0, 1], true) := by decide +kernel

/-- The run of `exSetup 0` on its own ends within 12 iterations; the callables that it has called. -/
example : ((solo (exEnvs 0) 20 12 (built (exSetup 0))).map fun s => (fresh (built (exSetup 0)) s, decide (s.phase = .finished))) =
    some ([2, 0, 0, 1, 0, 0, 0, 1, 0, 0, 0, 1, 0, 0, 0, 1, 0, 0, 0, 1, 0, 0], true) := by decide +kernel

/-! ### Violations -/

theorem halts_execute {σ : Type} {e : Nat → Env} {fuel N i : Nat} {body : Nat → Nat → σ → Prog σ} {S : Nat → St} {w : Nat → σ} (hg : ∀ j < n, (S j).go = true) (hi : i < n)
    (h : Halts n i fun j => (Prog.lift (round (e j) fuel ((List.range n).map fun j => (S j).nextTick).min? (S j))).bind fun s' =>
      (Prog.forM (body j) (fresh (S j) s') (w j)).bind fun c' => execute (e j) fuel (body j) N s' c') :
    Halts n i fun j => execute (e j) fuel (body j) (N + 1) (S j) (w j) := by
  refine Halts.congr (Halts.bind (q := fun j l => (Prog.lift (round (e j) fuel l.min? (S j))).bind fun s' => (Prog.forM (body j) (fresh (S j) s') (w j)).bind fun c' => execute (e j) fuel (body j) N s' c')
    (f := fun _ => (List.range n).map fun j => (S j).nextTick) (Lock.call (site := "schedule.py:618") (m := fun j => (S j).nextTick)) hi h) hi fun j hj => ?_
  show (if _ then _ else _) = _
  rw [if_pos (hg j hj)]

/-- Rank 0 synchronizes at tick 1, rank 1 at tick 2. -/
def apartSetup (r : Nat) : List Act := [.sched (some (if r = 0 then 1 else 2)) .random none none 0 none]

/-- C74: the ranks must have the events that they all take part in at the same ticks. If rank 0 schedules an event that synchronizes for tick 1, and rank 1 for tick 2, then rank 0 waits for ever in
`synchronize`, whatever speeds the ranks have: rank 1 waits in the reduction of its runner. -/
theorem C74_violation_ticks :
    ∀ c w, Steps 2 c (Mpi.World.start fun r => execute (exEnv fun _ _ => []) 9 (fun l c => Ctx.script (fun _ => 0) 2 r (exModel l) c) 9 (built [.sched (some (if r = 0 then 1 else 2)) .random none none 0 none])
      (Context.World.start [(line2 false 2).new] r)) w → ∀ r < 2, w.prog r ≠ .raise ∧ ∀ a, w.prog r ≠ .ret a := by
  intro c w s r hr
  have h : ∀ r < 2, Halts 2 r fun r => execute (exEnv fun _ _ => []) 9 (fun l c => Ctx.script (fun _ => 0) 2 r (exModel l) c) 9 (built (apartSetup r)) (Context.World.start [(line2 false 2).new] r) := by
    intro r hr
    refine halts_execute (e := fun _ => exEnv fun _ _ => []) (S := fun r => built (apartSetup r)) (w := Context.World.start [(line2 false 2).new]) (body := fun r l c => Ctx.script (fun _ => 0) 2 r (exModel l) c)
      (by decide +kernel) hr (Halts.differ (j := 0) (k := 1) (by omega) (by omega) (by decide +kernel) ?_)
    obtain rfl | rfl : r = 0 ∨ r = 1 := by omega
    · decide +kernel
    · decide +kernel
  have := (h r hr).waits hr s
  exact ⟨fun e => (by rw [e] at this; cases this), fun a e => (by rw [e] at this; cases this)⟩

/-- C74: a rank must not stop alone. If an event of rank 0 calls `stop` (schedule.py:599-603) at tick 1 and no event of rank 1 does, then rank 1 waits for ever in the reduction of its runner, whatever speeds the
ranks have. -/
theorem C74_violation_stop :
    ∀ c w, Steps 2 c (Mpi.World.start fun r => execute (exEnv fun _ _ => if r = 0 then [.stop] else []) 9 (fun l c => Ctx.script (fun _ => 0) 2 r (exModel l) c) 9 (built [.sched (some 1) .random none none 2 none])
      (Context.World.start [(line2 false 2).new] r)) w → w.prog 1 ≠ .raise ∧ ∀ a, w.prog 1 ≠ .ret a := by
  intro c w s
  have h : Halts 2 1 fun r => execute (exEnv fun _ _ => if r = 0 then [.stop] else []) 9 (fun l c => Ctx.script (fun _ => 0) 2 r (exModel l) c) 9 (built [.sched (some 1) .random none none 2 none])
      (Context.World.start [(line2 false 2).new] r) :=
    halts_execute (e := fun r => exEnv fun _ _ => if r = 0 then [.stop] else []) (S := fun _ => built [.sched (some 1) .random none none 2 none]) (w := Context.World.start [(line2 false 2).new])
      (body := fun r l c => Ctx.script (fun _ => 0) 2 r (exModel l) c) (by decide +kernel) (by omega) (Halts.differ (j := 0) (k := 1) (by omega) (by omega) (by decide +kernel) (by decide +kernel))
  have := h.waits (by omega) s
  exact ⟨fun e => (by rw [e] at this; cases this), fun a e => (by rw [e] at this; cases this)⟩

/-- A rank whose random numbers turn lists of two around. -/
def turnedEnv : Env := { exEnv (fun _ _ => []) with shuf := fun _ l => l.reverse, shuf_perm := fun _ l => List.reverse_perm l }

/-- The ranks make the same calls; they have two events that all ranks take part in in one tick. -/
def pairSetup : List Act := [.sched (some 1) .random none none 0 none, .sched (some 1) .random none none 1 none]

/-- C74: that the ranks make the same calls is not enough. Two events of one tick that have the default priority (RANDOM) are shuffled by each rank with random numbers of its own (schedule.py:228, random.py:37);
if the orders differ, rank 0 is in `synchronize` while rank 1 is in `request_agents`, and both wait for ever, whatever speeds the ranks have. -/
theorem C74_violation_random :
    ∀ c w, Steps 2 c (Mpi.World.start fun r => execute (if r = 0 then exEnv fun _ _ => [] else turnedEnv) 9 (fun l c => Ctx.script (fun _ => 0) 2 r (exModel l) c) 9
      (built [.sched (some 1) .random none none 0 none, .sched (some 1) .random none none 1 none]) (Context.World.start [(line2 false 2).new] r)) w →
      ∀ r < 2, w.prog r ≠ .raise ∧ ∀ a, w.prog r ≠ .ret a := by
  intro c w s r hr
  have h : ∀ r < 2, Halts 2 r fun r => execute (if r = 0 then exEnv fun _ _ => [] else turnedEnv) 9 (fun l c => Ctx.script (fun _ => 0) 2 r (exModel l) c) 9 (built pairSetup)
      (Context.World.start [(line2 false 2).new] r) := by
    intro r hr
    refine halts_execute (e := fun r => if r = 0 then exEnv fun _ _ => [] else turnedEnv) (S := fun _ => built pairSetup) (w := Context.World.start [(line2 false 2).new])
      (body := fun r l c => Ctx.script (fun _ => 0) 2 r (exModel l) c) (by decide +kernel) hr (Halts.differ (j := 0) (k := 1) (by omega) (by omega) (by decide +kernel) ?_)
    obtain rfl | rfl : r = 0 ∨ r = 1 := by omega
    · decide +kernel
    · decide +kernel
  have := (h r hr).waits hr s
  exact ⟨fun e => (by rw [e] at this; cases this), fun a e => (by rw [e] at this; cases this)⟩

/-- Both ranks synchronize with the priority 3 and request agents with the priority 2 at tick 1. Rank 0 has events of its own too: one with the priority 1, and one with the default priority. -/
def dynSetup (r : Nat) : List Act :=
  if r = 0 then [.sched (some 1) .byPriority (some 1) none 2 none, .sched (some 1) .byPriority (some 3) none 0 none, .sched (some 1) .random none none 3 none, .sched (some 1) .byPriority (some 2) none 1 none]
  else [.sched (some 1) .byPriority (some 3) none 0 none, .sched (some 1) .byPriority (some 2) none 1 none]

/-- The event 2 schedules an event that is LAST for its own tick. -/
def dynEnv : Env := exEnv fun _ ev => if ev.cb = Cb.user 2 then [.sched (some 1) .last none none 4 none] else []

/-- C74: different priorities are not enough either, if an event of a rank schedules another for the tick that is running (C06_violation): then the rank sorts what is left of the tick once more, together with the
RANDOM events, whose priority is NaN, and runs the collective event with the priority 3 first; the other rank runs the one with the priority 2. Rank 0 is in `synchronize`, rank 1 in `request_agents`, and both wait
for ever, whatever speeds the ranks have. -/
theorem C74_violation_priority :
    ∀ c w, Steps 2 c (Mpi.World.start fun r => execute dynEnv 9 (fun l c => Ctx.script (fun _ => 0) 2 r (if l < 2 then exModel l else []) c) 9 (built (dynSetup r)) (Context.World.start [(line2 false 2).new] r)) w →
      ∀ r < 2, w.prog r ≠ .raise ∧ ∀ a, w.prog r ≠ .ret a := by
  intro c w s r hr
  have h : ∀ r < 2, Halts 2 r fun r => execute dynEnv 9 (fun l c => Ctx.script (fun _ => 0) 2 r (if l < 2 then exModel l else []) c) 9 (built (dynSetup r)) (Context.World.start [(line2 false 2).new] r) := by
    intro r hr
    refine halts_execute (e := fun _ => dynEnv) (S := fun r => built (dynSetup r)) (w := Context.World.start [(line2 false 2).new]) (body := fun r l c => Ctx.script (fun _ => 0) 2 r (if l < 2 then exModel l else []) c)
      (by decide +kernel) hr (Halts.differ (j := 0) (k := 1) (by omega) (by omega) (by decide +kernel) ?_)
    obtain rfl | rfl : r = 0 ∨ r = 1 := by omega
    · decide +kernel
    · decide +kernel
  have := (h r hr).waits hr s
  exact ⟨fun e => (by rw [e] at this; cases this), fun a e => (by rw [e] at this; cases this)⟩

end Repast.Mpi.Run
