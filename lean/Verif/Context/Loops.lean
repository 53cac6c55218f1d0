import Verif.Context.LocalProps

/-!
C68: a loop `for a in context.agents(...)` whose body adds and removes agents.

With `shuffle` or `count`, `agents` returns a list that it made for the caller. Otherwise it returns an iterator of an `OrderedDict`. As in CPython (`Objects/odictobject.c`,
`odictiter_nextkey`), the iterator has the key that it yields next (none at the end), and the dictionary counts its insertions and deletions (`od_state`); a difference to the count
at the creation of the iterator is a `RuntimeError`, unless the iterator is at its end.
-/
namespace Repast.Context
open Repast.Dict Repast.Space Repast.Topology

variable {S P Q : Type} [Proj P Q] (ty : Nat → Nat)

/-! ### Model -/

/-- The agents of a type, or all of them. -/
def scope (t : Option Nat) (u : Nat) : Bool := match t with
  | none => true
  | some t => decide (ty u = t)

/-- By how much an operation increments `od_state` of the dictionary that `agents` iterates over (context.py:355-358): the insertion of a key that is not there
(`self._agents_by_type…[agent.uid] = agent`, context.py:53, core.py:146) and the deletion of one that is there (context.py:126, 152, core.py:126, 137). -/
def touch (t : Option Nat) (c : Cx S P) : LOp S → Nat
  | .add u _ => if scope ty t u = true ∧ u ∉ (c.listOf t).getD [] then 1 else 0
  | .remove u => if scope ty t u = true ∧ u ∈ (c.listOf t).getD [] then 1 else 0
  | .leave u => if scope ty t u = true ∧ u ∈ (c.listOf t).getD [] then 1 else 0

/-- The operations of a loop body: the context, and `od_state`. -/
def exec (t : Option Nat) (x : Cx S P × Nat) (ops : List (LOp S)) : Cx S P × Nat := ops.foldl (fun x o => (lstep ty x.1 o, x.2 + touch ty t x.1 o)) x

/-- The key after `u` in a dictionary. -/
def after (l : List Nat) (u : Nat) : Option Nat := ((l.dropWhile fun v => decide (v ≠ u)).drop 1).head?

/-- How a loop ends. -/
inductive Outcome where
  | ended
  | raised
  /-- not yet -/
  | running
  deriving DecidableEq, Repr

/-- What a loop did: the agents visited, each with the operations of the body; the context afterwards; the outcome. -/
structure Looped (S P : Type) where
  trace : List (Nat × List (LOp S))
  cx : Cx S P
  out : Outcome

/-- What the body of a loop does when it visits an agent, given what the loop has done before. (The context at the beginning of the loop is the same throughout.) -/
abbrev Body (S : Type) := List (Nat × List (LOp S)) → Nat → List (LOp S)

/-- A loop over the iterator of the dictionary: `cur` is the key that is next, `st` the count at the creation of the iterator, `x` the context and the count now. -/
def iterLoop (body : Body S) (t : Option Nat) (st : Nat) : Nat → List (Nat × List (LOp S)) → Option Nat → Cx S P × Nat → Looped S P
  | 0, tr, _, x => ⟨tr, x.1, .running⟩
  | _ + 1, tr, none, x => ⟨tr, x.1, .ended⟩
  | f + 1, tr, some u, x =>
    if x.2 ≠ st then ⟨tr, x.1, .raised⟩
    else iterLoop body t st f (tr ++ [(u, body tr u)]) (after ((x.1.listOf t).getD []) u) (exec ty t x (body tr u))

/-- A loop over a list. -/
def listLoop (body : Body S) : List (Nat × List (LOp S)) → List Nat → Cx S P → Looped S P
  | tr, [], c => ⟨tr, c, .ended⟩
  | tr, u :: l, c => listLoop body (tr ++ [(u, body tr u)]) l (lrun ty c (body tr u))

/-- `for a in context.agents(t, count, shuffle): body` (context.py:322-358); `none`: `agents` raises. The number of steps is enough for all agents (C68_loop). -/
def forAgents (c : Cx S P) (shuf : List Nat → List Nat) (t : Option Nat) (count : Option Int) (shuffle : Bool) (body : Body S) : Option (Looped S P) :=
  if shuffle || count.isSome then (c.agents shuf t count shuffle).map fun l => listLoop ty body [] l c
  else (c.listOf t).map fun l => iterLoop ty body t 0 (l.length + 1) [] l.head? (c, 0)

/-! ### Specification -/

/-- The operations of the loop, in the order in which they happened. -/
def opsOf (tr : List (Nat × List (LOp S))) : List (LOp S) := tr.flatMap (·.2)

/-- The agents visited. -/
def visited (tr : List (Nat × List (LOp S))) : List Nat := tr.map (·.1)

/-- The agents (of the type) after a history. -/
def present (t : Option Nat) (ops : List (LOp S)) : List Nat := (population ops).filter (scope ty t)

/-- During `os`, which follows the history `ops`, no agent (of the type) is added or removed. -/
def Quiet (t : Option Nat) (ops os : List (LOp S)) : Prop := ∀ pre, pre <+: os → present ty t (ops ++ pre) = present ty t ops

/-! ### Lemmas -/

theorem population_snoc (ops : List (LOp S)) (o : LOp S) : population (ops ++ [o]) = (match (generalizing := false) o with
      | .add u _ => if u ∈ population ops then population ops else population ops ++ [u]
      | .remove u => (population ops).filter (fun v => decide (v ≠ u))
      | .leave u => (population ops).filter (fun v => decide (v ≠ u))) := by unfold population; rw [List.foldl_append]; rfl

theorem population_nodup (ops : List (LOp S)) : (population ops).Nodup := by
  have h := lrun_inv (P := GridSp) (fun u => u) [] 0 ops
  have := h.1.ok
  unfold Ok at this
  rw [h.2.1] at this
  exact this

theorem present_nodup (t : Option Nat) (ops : List (LOp S)) : (present ty t ops).Nodup := (population_nodup ops).filter _

/-- What `agents` iterates over, if it does not raise. -/
theorem listOf_lrun (gs : List P) (r : Nat) (ops : List (LOp S)) (t : Option Nat) :
    ((lrun ty (Cx.start r gs) ops).listOf t).getD [] = present ty t ops := by
  obtain ⟨hv, hk, -⟩ := lrun_inv ty gs r ops
  cases t with
  | none =>
    have : (population ops).filter (scope ty none) = population ops := List.filter_eq_self.2 fun _ _ => rfl
    simp only [Cx.listOf, Option.getD_some, hk, present, this]
  | some t =>
    simp only [Cx.listOf, present]
    cases hg : get (lrun ty (Cx.start r gs) ops).byType t with
    | some l =>
      have := hv.same t l hg
      rw [hk] at this
      simp only [Option.getD_some]
      exact this
    | none =>
      simp only [Option.getD_none]
      symm
      rw [List.filter_eq_nil_iff]
      intro u hu hs
      have e : ty u = t := by simpa [scope] using hs
      have := hv.has u (by rw [hk]; exact hu)
      rw [e, hg] at this
      cases this

theorem touch_eq (gs : List P) (r : Nat) (ops : List (LOp S)) (t : Option Nat) (o : LOp S) :
    touch ty t (lrun ty (Cx.start r gs) ops) o = 0 ↔ present ty t (ops ++ [o]) = present ty t ops := by
  have gone : ∀ u, ((if scope ty t u = true ∧ u ∈ present ty t ops then 1 else 0 : Nat) = 0) ↔
      ((population ops).filter (fun v => decide (v ≠ u))).filter (scope ty t) = present ty t ops := by
    intro u
    constructor
    · intro h
      unfold present
      rw [List.filter_filter]
      refine List.filter_congr fun v hv => ?_
      by_cases e : v = u
      · subst e
        by_cases hs : scope ty t v = true
        · exact absurd h (by rw [if_pos ⟨hs, List.mem_filter.2 ⟨hv, hs⟩⟩]; decide)
        · simp [hs]
      · simp [e]
    · intro h
      by_cases hc : scope ty t u = true ∧ u ∈ present ty t ops
      · have := hc.2
        rw [← h] at this
        simp at this
      · rw [if_neg hc]
  cases o with
  | add u s =>
    unfold touch
    rw [listOf_lrun]
    by_cases hs : scope ty t u = true
    · by_cases hm : u ∈ population ops
      · have : u ∈ present ty t ops := List.mem_filter.2 ⟨hm, hs⟩
        simp [this, present, population_snoc, hm]
      · have : u ∉ present ty t ops := fun h => hm (List.mem_filter.1 h).1
        simp [this, hs, present, population_snoc, hm, List.filter_append]
    · by_cases hm : u ∈ population ops <;> simp [hs, present, population_snoc, hm, List.filter_append]
  | remove u =>
    unfold touch
    rw [listOf_lrun]
    simpa only [present, population_snoc] using gone u
  | leave u =>
    unfold touch
    rw [listOf_lrun]
    simpa only [present, population_snoc] using gone u

theorem lrun_append (c : Cx S P) (a b : List (LOp S)) : lrun ty c (a ++ b) = lrun ty (lrun ty c a) b := List.foldl_append ..

/-- The count of the dictionary changes exactly if the agents change. -/
theorem exec_eq (gs : List P) (r : Nat) (t : Option Nat) : ∀ (os ops : List (LOp S)) (k : Nat),
    (exec ty t (lrun ty (Cx.start r gs) ops, k) os).1 = lrun ty (Cx.start r gs) (ops ++ os) ∧
    k ≤ (exec ty t (lrun ty (Cx.start r gs) ops, k) os).2 ∧
    ((exec ty t (lrun ty (Cx.start r gs) ops, k) os).2 = k ↔ Quiet ty t ops os) := by
  intro os
  induction os with
  | nil =>
    intro ops k
    refine ⟨by simp [exec], by simp [exec], ?_⟩
    simp only [exec, List.foldl_nil, true_iff]
    intro pre hp
    rw [List.prefix_nil.1 hp, List.append_nil]
  | cons o os ih =>
    intro ops k
    have e1 : lstep ty (lrun ty (Cx.start r gs) ops) o = lrun ty (Cx.start r gs) (ops ++ [o]) := by rw [lrun_append]; rfl
    have e : exec ty t (lrun ty (Cx.start r gs) ops, k) (o :: os) =
        exec ty t (lrun ty (Cx.start r gs) (ops ++ [o]), k + touch ty t (lrun ty (Cx.start r gs) ops) o) os := by
      rw [← e1]; rfl
    obtain ⟨h1, h2, h3⟩ := ih (ops ++ [o]) (k + touch ty t (lrun ty (Cx.start r gs) ops) o)
    rw [e]
    refine ⟨by rw [h1]; simp, by omega, ?_⟩
    have ht := touch_eq ty gs r ops t o
    constructor
    · intro h
      have h0 : touch ty t (lrun ty (Cx.start r gs) ops) o = 0 := by omega
      have hq := h3.1 (by omega)
      have hp := ht.1 h0
      intro pre hpre
      rcases pre with _ | ⟨a, pre⟩
      · rw [List.append_nil]
      · obtain ⟨ea, hpre'⟩ := List.cons_prefix_cons.1 hpre
        subst ea
        have := hq pre hpre'
        rw [hp] at this
        simpa using this
    · intro hq
      have hp : present ty t (ops ++ [o]) = present ty t ops := hq [o] (by simp)
      have h0 := ht.2 hp
      have := h3.2 (by
        intro pre hpre
        have := hq (o :: pre) (List.cons_prefix_cons.2 ⟨rfl, hpre⟩)
        rw [hp]
        simpa using this)
      omega

theorem after_append (a b : List Nat) (u : Nat) (h : u ∉ a) : after (a ++ u :: b) u = b.head? := by
  unfold after
  induction a with
  | nil => simp
  | cons x a ih =>
    have hx : x ≠ u := fun e => h (by simp [e])
    have := ih (fun hm => h (by simp [hm]))
    simpa [List.dropWhile_cons, hx] using this

/-- What is true of a loop over the dictionary at any time. -/
structure LoopOk (body : Body S) (t : Option Nat) (ops : List (LOp S)) (gs : List P) (r : Nat) (L : Looped S P) : Prop where
  done : L.out ≠ .running
  cx : L.cx = lrun ty (Cx.start r gs) (ops ++ opsOf L.trace)
  pre : visited L.trace <+: present ty t ops
  body : ∀ tr u os, tr ++ [(u, os)] <+: L.trace → os = body tr u
  ended : L.out = .ended → visited L.trace = present ty t ops
  raised : L.out = .raised → visited L.trace ≠ present ty t ops ∧ ∃ tr u os, L.trace = tr ++ [(u, os)] ∧ ¬ Quiet ty t (ops ++ opsOf tr) os
  quiet : ∀ tr u os, tr ++ [(u, os)] <+: L.trace → (tr ++ [(u, os)] ≠ L.trace) → Quiet ty t (ops ++ opsOf tr) os

theorem prefix_snoc {α : Type} {a b : List α} {x : α} (h : a <+: b ++ [x]) : a <+: b ∨ a = b ++ [x] := by
  rcases List.prefix_concat_iff.1 h with h | h
  · exact .inr h
  · exact .inl h

theorem iterLoop_ok (body : Body S) (t : Option Nat) (gs : List P) (r : Nat) (ops : List (LOp S)) : ∀ (f : Nat) (tr : List (Nat × List (LOp S))) (rest : List Nat) (k : Nat),
    rest.length < f → visited tr ++ rest = present ty t ops →
    (∀ tr' u os, tr' ++ [(u, os)] <+: tr → os = body tr' u) →
    (∀ tr' u os, tr' ++ [(u, os)] <+: tr → tr' ++ [(u, os)] ≠ tr → Quiet ty t (ops ++ opsOf tr') os) →
    (k = 0 ↔ ∀ tr' u os, tr' ++ [(u, os)] <+: tr → Quiet ty t (ops ++ opsOf tr') os) →
    (k = 0 → present ty t (ops ++ opsOf tr) = present ty t ops) →
    (k ≠ 0 → ∃ tr' u os, tr = tr' ++ [(u, os)] ∧ ¬ Quiet ty t (ops ++ opsOf tr') os) →
    LoopOk ty body t ops gs r (iterLoop ty body t 0 f tr rest.head? (lrun ty (Cx.start r gs) (ops ++ opsOf tr), k)) := by
  intro f
  induction f with
  | zero => intro tr rest k hf; omega
  | succ f ih =>
    intro tr rest k hf hl hb hq hk hp hr
    rcases rest with _ | ⟨u, rest⟩
    · simp only [List.append_nil] at hl
      exact ⟨by simp [iterLoop], rfl, by rw [show (iterLoop ty body t 0 (f + 1) tr [].head? (lrun ty (Cx.start r gs) (ops ++ opsOf tr), k)).trace = tr from rfl, hl]; exact List.prefix_refl _,
        hb, fun _ => hl, by simp [iterLoop], hq⟩
    · simp only [List.head?_cons, iterLoop]
      split
      · rename_i hne
        refine ⟨by simp, rfl, ⟨u :: rest, hl⟩, hb, by simp, fun _ => ⟨?_, hr hne⟩, hq⟩
        intro e
        rw [← hl] at e
        have := congrArg List.length e
        simp at this
      · rename_i h0
        have h0 : k = 0 := by simpa using h0
        subst h0
        have hnd := present_nodup ty t ops
        rw [← hl] at hnd
        have hu : u ∉ visited tr := by
          intro hm
          rw [List.nodup_append] at hnd
          exact hnd.2.2 u hm u (by simp) rfl
        have eafter : after (((lrun ty (Cx.start r gs) (ops ++ opsOf tr)).listOf t).getD []) u = rest.head? := by
          rw [listOf_lrun, hp rfl, ← hl, after_append _ _ _ hu]
        obtain ⟨e1, -, e2⟩ := exec_eq ty gs r t (body tr u) (ops ++ opsOf tr) 0
        rw [eafter]
        have eo : opsOf (tr ++ [(u, body tr u)]) = opsOf tr ++ body tr u := by simp [opsOf]
        have ex : exec ty t (lrun ty (Cx.start r gs) (ops ++ opsOf tr), 0) (body tr u) =
            (lrun ty (Cx.start r gs) (ops ++ opsOf (tr ++ [(u, body tr u)])), (exec ty t (lrun ty (Cx.start r gs) (ops ++ opsOf tr), 0) (body tr u)).2) := by
          rw [eo, ← List.append_assoc, ← e1]
        rw [ex]
        have hall := hk.1 rfl
        refine ih _ rest _ (by simp at hf; omega) (by simp [visited, ← hl]) ?_ ?_ ?_ ?_ ?_
        · intro tr' v os h
          rcases prefix_snoc h with h | h
          · exact hb tr' v os h
          · obtain ⟨h1, h2⟩ := List.append_inj' h rfl
            cases h2; rw [h1]
        · intro tr' v os h hne
          rcases prefix_snoc h with h | h
          · exact hall tr' v os h
          · exact absurd h hne
        · rw [e2]
          constructor
          · intro hQ tr' v os h
            rcases prefix_snoc h with h | h
            · exact hall tr' v os h
            · obtain ⟨h1, h2⟩ := List.append_inj' h rfl
              cases h2; rw [h1]; exact hQ
          · intro h
            exact h tr u (body tr u) (List.prefix_refl _)
        · intro h
          rw [eo, ← List.append_assoc, e2.1 h (body tr u) (List.prefix_refl _)]
          exact hp rfl
        · intro h
          exact ⟨tr, u, body tr u, rfl, fun hQ => h (e2.2 hQ)⟩

theorem listLoop_eq (body : Body S) : ∀ (l : List Nat) (tr : List (Nat × List (LOp S))) (c : Cx S P),
    (∀ tr' u os, tr' ++ [(u, os)] <+: tr → os = body tr' u) →
    let L := listLoop ty body tr l c
    L.out = .ended ∧ visited L.trace = visited tr ++ l ∧ (∃ more, L.trace = tr ++ more ∧ L.cx = lrun ty c (opsOf more)) ∧
    ∀ tr' u os, tr' ++ [(u, os)] <+: L.trace → os = body tr' u := by
  intro l
  induction l with
  | nil => intro tr c hb; exact ⟨rfl, by simp [listLoop], ⟨[], by simp [listLoop, opsOf, lrun]⟩, hb⟩
  | cons u l ih =>
    intro tr c hb
    have := ih (tr ++ [(u, body tr u)]) (lrun ty c (body tr u)) (by
      intro tr' v os h
      rcases prefix_snoc h with h | h
      · exact hb tr' v os h
      · obtain ⟨h1, h2⟩ := List.append_inj' h rfl
        cases h2; rw [h1])
    obtain ⟨h1, h2, ⟨more, h3, h4⟩, h5⟩ := this
    refine ⟨h1, ?_, ⟨(u, body tr u) :: more, ?_, ?_⟩, h5⟩
    · rw [show listLoop ty body tr (u :: l) c = listLoop ty body (tr ++ [(u, body tr u)]) l (lrun ty c (body tr u)) from rfl, h2]; simp [visited]
    · rw [show listLoop ty body tr (u :: l) c = listLoop ty body (tr ++ [(u, body tr u)]) l (lrun ty c (body tr u)) from rfl, h3]; simp
    · rw [show listLoop ty body tr (u :: l) c = listLoop ty body (tr ++ [(u, body tr u)]) l (lrun ty c (body tr u)) from rfl, h4]
      rw [← lrun_append]; simp [opsOf]

/-! ### C68 -/

/-- Every loop over `agents(t)`, after every history and for every body: it comes to an end; the agents visited are the first of those present at the beginning, in their order; the context is that of the
history and the operations of the bodies. If it ended normally then all of them were visited; otherwise it raised a `RuntimeError`, which happens exactly when the body for an agent other
than the last one adds or removes an agent (of the type), and then this body is the last one that was executed. -/
theorem C68_loop (gs : List P) (r : Nat) (ops : List (LOp S)) (shuf : List Nat → List Nat) (t : Option Nat) (body : Body S) {L : Looped S P}
    (hL : forAgents ty (lrun ty (Cx.start r gs) ops) shuf t none false body = some L) :
    (L.out = .ended ∨ L.out = .raised) ∧
    visited L.trace <+: present ty t ops ∧
    (∀ tr u os, tr ++ [(u, os)] <+: L.trace → os = body tr u) ∧
    L.cx = lrun ty (Cx.start r gs) (ops ++ opsOf L.trace) ∧
    (L.out = .ended ↔ visited L.trace = present ty t ops) ∧
    (L.out = .raised ↔ ∃ tr u os, L.trace = tr ++ [(u, os)] ∧ visited L.trace ≠ present ty t ops ∧ ¬ Quiet ty t (ops ++ opsOf tr) os) ∧
    (∀ tr u os, tr ++ [(u, os)] <+: L.trace → tr ++ [(u, os)] ≠ L.trace → Quiet ty t (ops ++ opsOf tr) os) := by
  unfold forAgents at hL
  simp only [Bool.false_eq_true, Option.isSome_none, Bool.or_self, if_false] at hL
  obtain ⟨l, hl, rfl⟩ := Option.map_eq_some_iff.1 hL
  have el : l = present ty t ops := by rw [← listOf_lrun ty gs r, hl]; rfl
  subst el
  have h := iterLoop_ok ty body t gs r ops ((present ty t ops).length + 1) [] (present ty t ops) 0 (Nat.lt_succ_self _) (by simp [visited])
    (by intro tr' u os h; simp [List.prefix_nil] at h) (by intro tr' u os h; simp [List.prefix_nil] at h)
    (by simp only [true_iff]; intro tr' u os h; simp [List.prefix_nil] at h) (by simp [opsOf]) (by simp)
  have e0 : ops ++ opsOf ([] : List (Nat × List (LOp S))) = ops := by simp [opsOf]
  rw [e0] at h
  generalize iterLoop ty body t 0 ((present ty t ops).length + 1) [] (present ty t ops).head? (lrun ty (Cx.start r gs) ops, 0) = L at h
  have two : L.out = .ended ∨ L.out = .raised := by
    have := h.done
    cases ho : L.out <;> simp_all
  refine ⟨two, h.pre, h.body, h.cx, ⟨h.ended, fun e => ?_⟩, ⟨fun e => ?_, ?_⟩, h.quiet⟩
  · rcases two with h1 | h1
    · exact h1
    · exact absurd e (h.raised h1).1
  · obtain ⟨h1, tr, u, os, h2, h3⟩ := h.raised e
    exact ⟨tr, u, os, h2, h1, h3⟩
  · rintro ⟨tr, u, os, h2, h1, h3⟩
    rcases two with h4 | h4
    · exact absurd (h.ended h4) h1
    · exact h4

/-- A loop whose body adds and removes no agents (of the type), except when it visits the last one, visits all of them and raises nothing. -/
theorem C68_quiet_partial (gs : List P) (r : Nat) (ops : List (LOp S)) (shuf : List Nat → List Nat) (t : Option Nat) (body : Body S) {L : Looped S P}
    (hL : forAgents ty (lrun ty (Cx.start r gs) ops) shuf t none false body = some L)
    (hq : ∀ tr u, visited tr ++ [u] <+: present ty t ops → visited tr ++ [u] ≠ present ty t ops → Quiet ty t (ops ++ opsOf tr) (body tr u)) :
    L.out = .ended ∧ visited L.trace = present ty t ops := by
  obtain ⟨two, hp, hb, -, he, hr, -⟩ := C68_loop ty gs r ops shuf t body hL
  rcases two with h | h
  · exact ⟨h, he.1 h⟩
  · obtain ⟨tr, u, os, e, hne, hn⟩ := hr.1 h
    have eo := hb tr u os (by rw [e]; exact List.prefix_refl _)
    have ev : visited L.trace = visited tr ++ [u] := by rw [e]; simp [visited]
    rw [ev] at hp hne
    exact absurd (eo ▸ hq tr u hp hne) hn

/-- The types of the agents that a body adds and removes. -/
def LOp.uid : LOp S → Nat
  | .add u _ => u
  | .remove u => u
  | .leave u => u

theorem quiet_other (t : Nat) (ops : List (LOp S)) : ∀ os : List (LOp S), (∀ o ∈ os, ty o.uid ≠ t) → Quiet ty (some t) ops os := by
  intro os h pre hpre
  have h : ∀ o ∈ pre, ty o.uid ≠ t := fun o ho => h o (hpre.subset ho)
  clear hpre
  revert h
  refine Repast.snoc_induction (P := fun pre => (∀ o ∈ pre, ty o.uid ≠ t) → present ty (some t) (ops ++ pre) = present ty (some t) ops) ?_ ?_ pre
  · intro _; rw [List.append_nil]
  · intro pre o ih h
    rw [← ih fun o ho => h o (by simp [ho]), ← List.append_assoc]
    have ho : ty o.uid ≠ t := h o (by simp)
    have := touch_eq (P := GridSp) ty [] 0 (ops ++ pre) (some t) o
    refine this.1 ?_
    cases o <;> simp_all [touch, scope, LOp.uid]

/-- A loop over the agents of a type may add and remove agents of other types. -/
theorem C68_other_types_partial (gs : List P) (r : Nat) (ops : List (LOp S)) (shuf : List Nat → List Nat) (t : Nat) (body : Body S) {L : Looped S P}
    (hL : forAgents ty (lrun ty (Cx.start r gs) ops) shuf (some t) none false body = some L)
    (hq : ∀ tr u, ∀ o ∈ body tr u, ty o.uid ≠ t) :
    L.out = .ended ∧ visited L.trace = present ty (some t) ops :=
  C68_quiet_partial ty gs r ops shuf (some t) body hL fun tr u _ _ => quiet_other ty t _ _ (hq tr u)

/-- With `shuffle` or `count` the body may do anything: the loop visits the agents that `agents` listed, and raises nothing. -/
theorem C68_copied (c : Cx S P) (shuf : List Nat → List Nat) (t : Option Nat) (count : Option Int) (shuffle : Bool) (body : Body S)
    (hc : shuffle = true ∨ count.isSome = true) {l : List Nat} (hl : c.agents shuf t count shuffle = some l) :
    ∃ L, forAgents ty c shuf t count shuffle body = some L ∧ L.out = .ended ∧ visited L.trace = l ∧ L.cx = lrun ty c (opsOf L.trace) ∧
      ∀ tr u os, tr ++ [(u, os)] <+: L.trace → os = body tr u := by
  refine ⟨listLoop ty body [] l c, ?_, ?_⟩
  · unfold forAgents
    rw [if_pos (by rcases hc with h | h <;> simp [h]), hl]; rfl
  · obtain ⟨h1, h2, ⟨more, h3, h4⟩, h5⟩ := listLoop_eq ty body l [] c (by intro tr' u os h; simp [List.prefix_nil] at h)
    refine ⟨h1, by simpa [visited] using h2, ?_, h5⟩
    rw [h4, h3]; simp

/-- Violated by the usual way to remove agents: whenever there are at least two agents (of the type), a loop that removes each agent it visits raises a `RuntimeError`
after the first one, and all others are still there. -/
theorem C68_violation (gs : List P) (r : Nat) (ops : List (LOp S)) (shuf : List Nat → List Nat) (t : Option Nat) {u v : Nat} {l : List Nat}
    (h : present ty t ops = u :: v :: l) :
    ∃ L, forAgents ty (lrun ty (Cx.start r gs) ops) shuf t none false (fun _ u => [.remove u]) = some L ∧
      L.out = .raised ∧ visited L.trace = [u] ∧ L.cx = lrun ty (Cx.start r gs) (ops ++ [.remove u]) ∧ present ty t (ops ++ [.remove u]) = v :: l := by
  have hs : ∃ l', (lrun ty (Cx.start r gs) ops).listOf t = some l' := by
    cases hg : (lrun ty (Cx.start r gs) ops).listOf t with
    | some l' => exact ⟨l', rfl⟩
    | none =>
      have := listOf_lrun ty gs r ops t
      rw [hg, h] at this
      simp at this
  obtain ⟨l', hl'⟩ := hs
  have hnd := present_nodup ty t ops
  have hrest : present ty t (ops ++ [.remove u]) = v :: l := by
    have e : present ty t (ops ++ [.remove u]) = (present ty t ops).filter (fun w => decide (w ≠ u)) := by
      simp only [present, population_snoc, List.filter_filter, Bool.and_comm]
    rw [e, h] 
    rw [h] at hnd
    have hu : u ∉ v :: l := (List.nodup_cons.1 hnd).1
    rw [List.filter_cons, if_neg (by simp), List.filter_eq_self.2]
    intro w hw
    have : w ≠ u := fun e => hu (e ▸ hw)
    simpa using this
  have hL : ∃ L, forAgents ty (lrun ty (Cx.start r gs) ops) shuf t none false (fun _ u => [.remove u]) = some L := by
    unfold forAgents
    simp [hl']
  obtain ⟨L, hL⟩ := hL
  refine ⟨L, hL, ?_⟩
  obtain ⟨two, hp, hb, hcx, he, hr, hq⟩ := C68_loop ty gs r ops shuf t _ hL
  have nq : ¬ Quiet ty t (ops ++ opsOf ([] : List (Nat × List (LOp S)))) [.remove u] := by
    intro hq
    have := hq [.remove u] (List.prefix_refl _)
    simp only [opsOf, List.flatMap_nil, List.append_nil] at this
    rw [hrest, h] at this
    have := congrArg List.length this
    simp at this
  have htr : L.trace = [(u, [.remove u])] := by
    match htr : L.trace with
    | [] =>
      rcases two with h1 | h1
      · have := he.1 h1
        rw [htr, h] at this
        simp [visited] at this
      · obtain ⟨tr, u, os, e, -⟩ := hr.1 h1
        rw [htr] at e
        simp at e
    | (a, os) :: rest =>
      have h1 : a = u := by
        rw [htr, h] at hp
        exact (List.cons_prefix_cons.1 hp).1
      subst h1
      have h2 := hb [] a os (by rw [htr]; simp)
      subst h2
      cases rest with
      | nil => rfl
      | cons b rest => exact absurd (hq [] a [.remove a] (by rw [htr]; simp) (by rw [htr]; simp)) nq
  have hv : visited L.trace = [u] := by rw [htr]; rfl
  refine ⟨?_, hv, ?_, hrest⟩
  · refine hr.2 ⟨[], u, [.remove u], htr, ?_, nq⟩
    rw [hv, h]; simp
  · rw [hcx, htr]; rfl

/-- Three agents, two of type 1: the loop that removes each agent; the loop over type 1 that adds agents of type 0; the copied list. -/
example : present (S := Nat) (· % 2) none [.add 1 5, .add 2 6, .add 3 7] = [1, 2, 3] := by decide
example : ((forAgents (S := Nat) (· % 2) (lrun (· % 2) (Cx.init 0 []) [.add 1 5, .add 2 6, .add 3 7]) id (some 1) none false (fun _ u => [.add (u + 9) 0])).map
    fun L => (L.out, visited L.trace, keys L.cx.locals)) = some (.ended, [1, 3], [1, 2, 3, 10, 12]) := by decide +kernel
example : ((forAgents (S := Nat) (· % 2) (lrun (· % 2) (Cx.init 0 []) [.add 1 5, .add 2 6, .add 3 7]) List.reverse none none true (fun _ u => [.remove u])).map
    fun L => (L.out, visited L.trace, keys L.cx.locals)) = some (.ended, [3, 2, 1], []) := by decide +kernel
/-- The body for the last agent may add an agent; it is not visited. -/
example : ((forAgents (S := Nat) (· % 2) (lrun (· % 2) (Cx.init 0 []) [.add 1 5, .add 2 6]) id none none false (fun _ u => if u = 2 then [.add 7 0] else [])).map
    fun L => (L.out, visited L.trace, keys L.cx.locals)) = some (.ended, [1, 2], [1, 2, 7]) := by decide +kernel

end Repast.Context
