import Verif.Context.ManyRun
import Verif.Context.OneProps

/-! What follows for contexts with several shared spaces, on any number of ranks, after any valid history. -/
namespace Repast.Context
open Repast.Dict Repast.Space

variable {S P Q : Type} [Proj P Q] {X : Spaces Q P} {ty : Nat → Nat} {w : World S P} {p : Many S Q}

/-- The contexts of the ranks, with new spaces. -/
def Spaces.start (X : Spaces Q P) : World S P := World.start ((List.range X.m).map fun j => (X.K j).new)

theorem WM.agent (h : WM X ty w p) {r : Nat} (hr : r < X.n) (u : Nat) (s : S) : (w r).agent u = some s ↔ ∃ f, p.ag u = some (r, s, f) := by
  show get (w r).locals u = _ ↔ _
  rw [(h.mi r hr).rc.loc, Many.ls_some]

theorem WM.shows (h : WM X ty w p) {r j u : Nat} (hr : r < X.n) (hj : j < X.m) {x : Option Q} (e : at_space (p.ls r u) (p.ll j u) (p.gl r j u) = some x) : (w r).onSpace j u = some x := by
  obtain ⟨g, e1, h3, -⟩ := (h.mi r hr).sp.get hj
  unfold Cx.onSpace
  rw [e1]
  exact (X.K j).shows h3 e

theorem WM.first (h : WM X ty w p) {r : Nat} (hr : r < X.n) (u : Nat) : (w r).onSpace 0 u = at_space (p.ls r u) (p.ll 0 u) (p.gl r 0 u) := by
  obtain ⟨g, e1, h3, -⟩ := (h.mi r hr).sp.get X.pos
  unfold Cx.onSpace
  rw [e1]
  exact congrFun ((X.K 0).hides X.first h3) u

theorem WM.loc (h : WM X ty w p) {r u : Nat} {s : S} {f : Nat → Option Q} (e : p.ag u = some (r, s, f)) : ∀ j < X.m, (w r).onSpace j u = some (f j) := by
  intro j hj
  refine h.shows (h.lt u _ e) hj ?_
  rw [Many.ls_some.2 ⟨f, e⟩, Many.ll_of e]
  rfl

theorem WM.ghost (h : WM X ty w p) {r : Nat} (hr : r < X.n) (u : Nat) (s : S) : (w r).ghostAgent u = some s ↔ p.gs u = some s ∧ ∃ j < X.m, (p.gl r j u).isSome = true := by
  unfold Cx.ghostAgent
  rw [(h.mi r hr).rc.ghosts]
  by_cases hc : cnt X.m (fun j => p.gl r j u) = 0
  · rw [if_pos hc]
    simp only [Option.map_none, reduceCtorEq, false_iff]
    rintro ⟨-, j, hj, hs⟩
    rw [cnt_zero.1 hc j hj] at hs
    cases hs
  · rw [if_neg hc]
    have : ∃ j < X.m, (p.gl r j u).isSome = true := by
      apply Classical.byContradiction
      intro hn
      apply hc
      rw [cnt_zero]
      intro j hj
      cases hg : p.gl r j u with
      | none => rfl
      | some q => exact absurd ⟨j, hj, by rw [hg]; rfl⟩ hn
    simp only [Option.map_map, Option.map_eq_some_iff, Function.comp_apply, this, and_true]
    constructor
    · rintro ⟨s', e, rfl⟩; exact e
    · intro e; exact ⟨s, e, rfl⟩

theorem validRunM_snoc {o : WOp S P Q} : ∀ {ops : List (WOp S P Q)} {p : Many S Q}, p.ValidRun X (ops ++ [o]) → p.ValidRun X ops ∧ (p.run X ops).Valid X o := by
  intro ops
  induction ops with
  | nil => intro p h; exact ⟨trivial, h.1⟩
  | cons o ops ih => intro p h; exact ⟨⟨h.1, (ih h.2).1⟩, (ih h.2).2⟩

theorem run_many (X : Spaces Q P) (ops : List (WOp S P Q)) (hv : Many.empty.ValidRun X ops) :
    ∃ w, wrun ty X.n X.start ops = some w ∧ WM X ty w (Many.empty.run X ops) := wm_run (WM.init X ty) hv

/-- After any valid history, no exception has been raised, and each rank has exactly the agents of the specification, with their
states and with their locations in all spaces. -/
theorem many_agents (X : Spaces Q P) (ops : List (WOp S P Q)) (hv : Many.empty.ValidRun X ops) :
    ∃ w, wrun ty X.n X.start ops = some w ∧ ∀ r < X.n, ∀ u,
      (∀ s, (w r).agent u = some s ↔ ∃ f, (Many.empty.run X ops).ag u = some (r, s, f)) ∧
      ∀ s f, (Many.empty.run X ops).ag u = some (r, s, f) → ∀ j < X.m, (w r).onSpace j u = some (f j) := by
  obtain ⟨w, h1, h2⟩ := run_many (ty := ty) X ops hv
  exact ⟨w, h1, fun r hr u => ⟨fun s => h2.agent hr u s, fun s f e => h2.loc e⟩⟩

/-- One `synchronize` after any valid history, without reference to the specification: there are the same agents with the same states, and each is
local on one rank. -/
theorem many_synchronize (X : Spaces Q P) (ops : List (WOp S P Q)) (hv0 : Many.empty.ValidRun X (ops ++ [.synch true])) :
    ∃ w w', wrun ty X.n X.start ops = some w ∧ synchronize ty X.n true w = some w' ∧
      (∀ u s, (∃ r < X.n, (w' r).agent u = some s) ↔ ∃ r < X.n, (w r).agent u = some s) ∧
      ∀ u, ∀ r < X.n, ∀ r' < X.n, ((w' r).agent u).isSome = true → ((w' r').agent u).isSome = true → r = r' := by
  obtain ⟨hv, -, hT, hx⟩ := validRunM_snoc hv0
  obtain ⟨w, h1, h2⟩ := run_many (ty := ty) X ops hv
  obtain ⟨w', h3, h4⟩ := synchronize_m hT hx (.inl rfl) h2
  refine ⟨w, w', h1, h3, ?_, ?_⟩
  · intro u s
    constructor
    · rintro ⟨r, hr, e⟩
      obtain ⟨f, e⟩ := (h4.agent hr u s).1 e
      simp only [Many.settle, Option.map_eq_some_iff] at e
      obtain ⟨⟨r0, s0, f0⟩, e0, e1⟩ := e
      have hr0 := h2.lt u _ e0
      have := homeOf_st X (r0, s0, f0)
      rw [e1] at this
      cases this
      exact ⟨r0, hr0, (h2.agent hr0 u s).2 ⟨f, e0⟩⟩
    · rintro ⟨r, hr, e⟩
      obtain ⟨f, e⟩ := (h2.agent hr u s).1 e
      have e' : (Many.settle X (Many.empty.run X ops)).ag u = some (homeOf X (r, s, f)) := by simp [Many.settle, e]
      have hr' := h4.lt u _ e'
      refine ⟨_, hr', (h4.agent hr' u s).2 ⟨f, ?_⟩⟩
      rw [e']
      exact congrArg some (Prod.ext rfl (homeOf_st X (r, s, f)))
  · intro u r hr r' hr' e e'
    obtain ⟨s, e⟩ := Option.isSome_iff_exists.1 e
    obtain ⟨s', e'⟩ := Option.isSome_iff_exists.1 e'
    obtain ⟨l, e⟩ := (h4.agent hr u s).1 e
    obtain ⟨l', e'⟩ := (h4.agent hr' u s').1 e'
    rw [e] at e'
    simp only [Option.some.injEq, Prod.mk.injEq] at e'
    exact e'.1

/-- One `synchronize` after any valid history: an agent with locations is afterwards on the rank whose bounds contain them, at the same location in every space and with
the same state; an agent without a location stays where it is; and on every other rank it is in the first space only as a ghost. -/
theorem many_home (X : Spaces Q P) (ops : List (WOp S P Q)) (hv0 : Many.empty.ValidRun X (ops ++ [.synch true])) :
    ∃ w w', wrun ty X.n X.start ops = some w ∧ synchronize ty X.n true w = some w' ∧
      ∀ r < X.n, ∀ u s, (w r).agent u = some s →
        ∃ l : Nat → Option Q, (∀ j < X.m, (w r).onSpace j u = some (l j)) ∧ ∃ r' < X.n, (w' r').agent u = some s ∧ (∀ j < X.m, (w' r').onSpace j u = some (l j)) ∧
          (∀ j < X.m, ∀ q, l j = some q → (X.G j).inside r' q = true) ∧ (l 0 = none → r' = r) ∧
          ∀ k < X.n, k ≠ r' → (w' k).agent u = none ∧ ((w' k).ghostAgent u = none → (w' k).onSpace 0 u = none) := by
  obtain ⟨hv, -, hT, hx⟩ := validRunM_snoc hv0
  obtain ⟨w, h1, h2⟩ := run_many (ty := ty) X ops hv
  obtain ⟨w', h3, h4⟩ := synchronize_m hT hx (.inl rfl) h2
  refine ⟨w, w', h1, h3, ?_⟩
  intro r hr u s hu
  obtain ⟨f, e⟩ := (h2.agent hr u s).1 hu
  have e' : (Many.settle X (Many.empty.run X ops)).ag u = some (homeOf X (r, s, f)) := by simp [Many.settle, e]
  have hr' := h4.lt u _ e'
  have e2 : (Many.settle X (Many.empty.run X ops)).ag u = some ((homeOf X (r, s, f)).1, s, f) := by
    rw [e']
    exact congrArg some (Prod.ext rfl (homeOf_st X (r, s, f)))
  refine ⟨f, h2.loc e, (homeOf X (r, s, f)).1, hr', (h4.agent hr' u s).2 ⟨f, e2⟩, h4.loc e2, ?_, ?_, ?_⟩
  · intro j hj q hq
    exact part_inside (i := 0) hT (fun u x hx j hj q hq => h2.locIn hj hx hq) hj e2 hq
  · intro h0
    simp [homeOf, h0]
  · intro k hk hne
    have hls := Many.ls_none e2 (fun e => hne e.symm)
    refine ⟨?_, ?_⟩
    · cases ha : (w' k).agent u with
      | none => rfl
      | some s' =>
        obtain ⟨f', ha⟩ := (h4.agent hk u s').1 ha
        rw [Many.ls_some.2 ⟨f', ha⟩] at hls
        cases hls
    · intro hg
      rw [h4.first hk, hls]
      cases hgl : (Many.settle X (Many.empty.run X ops)).gl k 0 u with
      | none => rfl
      | some q =>
        have hgs : (Many.settle X (Many.empty.run X ops)).gs u = some s := by simp [Many.settle, e]
        rw [(h4.ghost hk u s).2 ⟨hgs, 0, X.pos, by rw [hgl]; rfl⟩] at hg
        cases hg

theorem settle_gl {k j u : Nat} {q : Q} : (p.settle X).gl k j u = some q ↔
    0 < (X.G j).buf ∧ ∃ r s f, (p.settle X).ag u = some (r, s, f) ∧ f j = some q ∧ r ≠ k ∧ (X.G j).near k q := by
  rw [← Many.part_ag (j + 1), ← Many.part_gl (Nat.lt_succ_self j)]
  simp only [Many.part]
  rw [if_pos (Nat.lt_succ_self j)]

theorem settle_gs {u r : Nat} {s : S} {f : Nat → Option Q} (h : (p.settle X).ag u = some (r, s, f)) : (p.settle X).gs u = some s := by
  simp only [Many.settle, Option.map_eq_some_iff] at h ⊢
  obtain ⟨x, hx, e⟩ := h
  exact ⟨x, hx, by rw [← homeOf_st X, e]⟩

/-- After `synchronize`, a rank has a ghost of exactly those agents that are local on another rank and, in some space, at a location within the buffer size of its own
bounds, with the same state. -/
theorem many_ghosts (X : Spaces Q P) (ops : List (WOp S P Q)) (hv0 : Many.empty.ValidRun X (ops ++ [.synch true])) :
    ∃ w w', wrun ty X.n X.start ops = some w ∧ synchronize ty X.n true w = some w' ∧
      ∀ k < X.n, ∀ u s, (w' k).ghostAgent u = some s ↔
        ∃ r < X.n, r ≠ k ∧ (w' r).agent u = some s ∧ ∃ j < X.m, 0 < (X.G j).buf ∧ ∃ q, (w' r).onSpace j u = some (some q) ∧ (X.G j).near k q := by
  obtain ⟨hv, -, hT, hx⟩ := validRunM_snoc hv0
  obtain ⟨w, h1, h2⟩ := run_many (ty := ty) X ops hv
  obtain ⟨w', h3, h4⟩ := synchronize_m hT hx (.inl rfl) h2
  refine ⟨w, w', h1, h3, ?_⟩
  intro k hk u s
  rw [h4.ghost hk]
  constructor
  · rintro ⟨hs, j, hj, hg⟩
    obtain ⟨q, hq⟩ := Option.isSome_iff_exists.1 hg
    obtain ⟨hb, r, s', f, e, hf, hne, hn⟩ := settle_gl.1 hq
    rw [settle_gs e] at hs
    cases hs
    have hr := h4.lt u _ e
    exact ⟨r, hr, hne, (h4.agent hr u _).2 ⟨f, e⟩, j, hj, hb, q, by rw [h4.loc e j hj, hf], hn⟩
  · rintro ⟨r, hr, hne, ha, j, hj, hb, q, ho, hn⟩
    obtain ⟨f, e⟩ := (h4.agent hr u s).1 ha
    rw [h4.loc e j hj] at ho
    exact ⟨settle_gs e, j, hj, by rw [settle_gl.2 ⟨hb, r, s, f, e, Option.some.inj ho, hne, hn⟩]; rfl⟩

/-- After `synchronize`, each space of a rank has, at their locations, the agents of other ranks that are within its buffer; and the first space has no other
agents of other ranks. -/
theorem many_buffers (X : Spaces Q P) (ops : List (WOp S P Q)) (hv0 : Many.empty.ValidRun X (ops ++ [.synch true])) :
    ∃ w w', wrun ty X.n X.start ops = some w ∧ synchronize ty X.n true w = some w' ∧
      ∀ k < X.n, ∀ u, (w' k).agent u = none → ∀ q,
        (∀ j < X.m, 0 < (X.G j).buf → ∀ r < X.n, r ≠ k → ((w' r).agent u).isSome = true → (w' r).onSpace j u = some (some q) → (X.G j).near k q →
          (w' k).onSpace j u = some (some q)) ∧
        ((w' k).onSpace 0 u = some (some q) →
          0 < (X.G 0).buf ∧ ∃ r < X.n, r ≠ k ∧ ((w' r).agent u).isSome = true ∧ (w' r).onSpace 0 u = some (some q) ∧ (X.G 0).near k q) := by
  obtain ⟨hv, -, hT, hx⟩ := validRunM_snoc hv0
  obtain ⟨w, h1, h2⟩ := run_many (ty := ty) X ops hv
  obtain ⟨w', h3, h4⟩ := synchronize_m hT hx (.inl rfl) h2
  refine ⟨w, w', h1, h3, ?_⟩
  intro k hk u hk0 q
  have hls : (Many.settle X (Many.empty.run X ops)).ls k u = none := by
    rw [← (h4.mi k hk).rc.loc]; exact hk0
  refine ⟨?_, ?_⟩
  · intro j hj hb r hr hne ha ho hn
    obtain ⟨s, ha⟩ := Option.isSome_iff_exists.1 ha
    obtain ⟨f, e⟩ := (h4.agent hr u s).1 ha
    rw [h4.loc e j hj] at ho
    refine h4.shows hk hj ?_
    rw [hls, settle_gl.2 ⟨hb, r, s, f, e, Option.some.inj ho, hne, hn⟩]
    rfl
  · intro ho
    rw [h4.first hk, hls] at ho
    simp only [at_space, Option.map_eq_some_iff, Option.some.injEq] at ho
    obtain ⟨q', hq, rfl⟩ := ho
    obtain ⟨hb, r, s, f, e, hf, hne, hn⟩ := settle_gl.1 hq
    have hr := h4.lt u _ e
    exact ⟨hb, r, hr, hne, by rw [(h4.agent hr u s).2 ⟨f, e⟩]; rfl, by rw [h4.loc e 0 X.pos, hf], hn⟩

/-- An agent that is removed is, after the next synchronization, on no rank, neither as a local agent nor as a ghost, nor in the first space. -/
theorem many_remove (X : Spaces Q P) (ops : List (WOp S P Q)) (r u : Nat) (hv : Many.empty.ValidRun X (ops ++ [.remove r u, .synch true])) :
    ∃ w, wrun ty X.n X.start (ops ++ [.remove r u, .synch true]) = some w ∧
      ∀ k < X.n, (w k).agent u = none ∧ (w k).ghostAgent u = none ∧ (w k).onSpace 0 u = none := by
  obtain ⟨w, h1, h2⟩ := run_many (ty := ty) X _ hv
  refine ⟨w, h1, ?_⟩
  have hrun : Many.run X Many.empty (ops ++ [.remove r u, .synch true]) = Many.settle X (Many.step (P := P) X (Many.run X Many.empty ops) (.remove r u)) := by
    unfold Many.run
    rw [List.foldl_append]
    rfl
  rw [hrun] at h2
  intro k hk
  have hag : (Many.settle X (Many.step (P := P) X (Many.run X Many.empty ops) (.remove r u))).ag u = none := by
    simp [Many.settle, Many.step, upd]
  have hls : (Many.settle X (Many.step (P := P) X (Many.run X Many.empty ops) (.remove r u))).ls k u = none := by
    simp [Many.ls, hag]
  have hgl : ∀ j, (Many.settle X (Many.step (P := P) X (Many.run X Many.empty ops) (.remove r u))).gl k j u = none := by
    intro j
    simp [Many.settle, Many.step, upd]
  refine ⟨?_, ?_, ?_⟩
  · show get (w k).locals u = none
    rw [(h2.mi k hk).rc.loc, hls]
  · cases hg : (w k).ghostAgent u with
    | none => rfl
    | some s =>
      obtain ⟨-, j, -, hj⟩ := (h2.ghost hk u s).1 hg
      rw [hgl] at hj
      cases hj
  · rw [h2.first hk, hls, hgl]; rfl

/-- One `move_agents` after any valid history, without reference to the specification: an agent that is sent is afterwards on the addressed rank,
with its state, but without a location in any space. -/
theorem many_move (X : Spaces Q P) (ops : List (WOp S P Q)) (ms : Nat → List (Nat × Nat)) (hv : Many.empty.ValidRun X (ops ++ [.move ms])) :
    ∃ w w', wrun ty X.n X.start ops = some w ∧ moveAgents ty X.n ms w = some w' ∧
      (∀ r < X.n, ∀ u k s, (u, k) ∈ ms r → (w r).agent u = some s → (w' k).agent u = some s ∧ ∀ j < X.m, (w' k).onSpace j u = some none) ∧
      (∀ u s, (∃ r < X.n, (w' r).agent u = some s) ↔ ∃ r < X.n, (w r).agent u = some s) ∧
      ∀ u, ∀ r < X.n, ∀ r' < X.n, ((w' r).agent u).isSome = true → ((w' r').agent u).isSome = true → r = r' := by
  obtain ⟨hv1, hv2⟩ := validRunM_snoc hv
  obtain ⟨w, h1, h2⟩ := run_many (ty := ty) X ops hv1
  obtain ⟨w', h3, h4⟩ := moveAgents_m hv2 h2
  generalize Many.run X Many.empty ops = p at hv2 h2 h4
  refine ⟨w, w', h1, h3, ?_, ?_, ?_⟩
  · intro r hr u k s hm hu
    obtain ⟨f, e⟩ := (h2.agent hr u s).1 hu
    have hk : k < X.n := ((hv2.1 r hr).2 _ hm).1
    have : ((p.sendAgents ms).settle X).ag u = some (k, s, fun _ => none) := by
      simp [Many.settle, Many.sendAgents, e, get_of_mem (hv2.1 r hr).1 hm, homeOf]
    exact ⟨(h4.agent hk u s).2 ⟨_, this⟩, fun j hj => h4.loc this j hj⟩
  · have hst : ∀ {u x}, p.ag u = some x → ∃ r' f', ((p.sendAgents ms).settle X).ag u = some (r', x.2.1, f') := by
      rintro u ⟨r, s, f⟩ e
      simp only [Many.settle, Many.sendAgents, e, Option.map_some]
      split
      · exact ⟨_, _, rfl⟩
      · exact ⟨_, _, congrArg some (Prod.ext rfl (homeOf_st X (r, s, f)))⟩
    intro u s
    constructor
    · rintro ⟨r, hr, e⟩
      obtain ⟨l, e⟩ := (h4.agent hr u s).1 e
      cases hu : p.ag u with
      | none => simp [Many.settle, Many.sendAgents, hu] at e
      | some x =>
        obtain ⟨r', f', e'⟩ := hst hu
        rw [e'] at e
        cases e
        exact ⟨x.1, h2.lt u _ hu, (h2.agent (h2.lt u _ hu) u x.2.1).2 ⟨x.2.2, hu⟩⟩
    · rintro ⟨r, hr, e⟩
      obtain ⟨f, e⟩ := (h2.agent hr u s).1 e
      obtain ⟨r', l', e'⟩ := hst e
      have hr' := h4.lt u _ e'
      exact ⟨r', hr', (h4.agent hr' u s).2 ⟨l', e'⟩⟩
  · intro u r hr r' hr' e e'
    obtain ⟨s, e⟩ := Option.isSome_iff_exists.1 e
    obtain ⟨s', e'⟩ := Option.isSome_iff_exists.1 e'
    obtain ⟨l, e⟩ := (h4.agent hr u s).1 e
    obtain ⟨l', e'⟩ := (h4.agent hr' u s').1 e'
    rw [e] at e'
    simp only [Option.some.injEq, Prod.mk.injEq] at e'
    exact e'.1

end Repast.Context
