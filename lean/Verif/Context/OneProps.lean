import Verif.Context.OneRun

/-! What follows for contexts with one shared space of any kind, on any number of ranks, after any valid history. -/
namespace Repast.Context
open Repast.Dict Repast.Space

variable {S P Q : Type} [Proj P Q] {G : Geo Q} {K : Kind G P} {ty : Nat → Nat}

/-- What a rank's shared space says about an agent (`contains` and `get_location`): `none` if the agent is not on it. -/
def Cx.onSpace (c : Cx S P) (pid u : Nat) : Option (Option Q) := (c.projs[pid]?).bind fun g => Proj.where_ g.sp u

theorem WI.agent {w : World S P} {p : Sit S Q} (h : WI K ty w p) {r : Nat} (hr : r < G.n) (u : Nat) (s : S) : (w r).agent u = some s ↔ ∃ l, p.ag u = some (r, s, l) := by
  show get (w r).locals u = _ ↔ _
  rw [(h.ri r hr).loc]
  constructor
  · intro e
    obtain ⟨⟨s', l⟩, e1, rfl⟩ := Option.map_eq_some_iff.1 e
    exact ⟨l, Sit.lo_some.1 e1⟩
  · rintro ⟨l, e⟩
    rw [Sit.lo_some.2 e]; rfl

theorem WI.ghost {w : World S P} {p : Sit S Q} (h : WI K ty w p) {r : Nat} (hr : r < G.n) (u : Nat) : (w r).ghostAgent u = (p.gh r u).map (·.1) := by
  unfold Cx.ghostAgent
  rw [(h.ri r hr).ghosts, Option.map_map]
  rfl

theorem WI.grid {w : World S P} {p : Sit S Q} (h : WI K ty w p) {r : Nat} (hr : r < G.n) (u : Nat) : (w r).onSpace 0 u = entry (p.lo r u) (p.gh r u) := by
  obtain ⟨g, e, -, h4, -⟩ := (h.ri r hr).grid
  unfold Cx.onSpace
  rw [e]
  simp [h4]

theorem WI.local_ {w : World S P} {p : Sit S Q} (h : WI K ty w p) {r u : Nat} (hr : r < G.n) (s : S) (l : Option Q) :
    p.ag u = some (r, s, l) ↔ (w r).agent u = some s ∧ (w r).onSpace 0 u = some l := by
  rw [h.agent hr, h.grid hr]
  constructor
  · intro e
    exact ⟨⟨l, e⟩, by simp [entry, Sit.lo_some.2 e]⟩
  · rintro ⟨⟨l', e⟩, e2⟩
    rw [Sit.lo_some.2 e] at e2
    simp only [entry, Option.map_some, Option.some_or, Option.some.injEq] at e2
    rw [e, e2]

theorem validRun_snoc {o : WOp S P Q} : ∀ {ops : List (WOp S P Q)} {p : Sit S Q}, p.ValidRun G (ops ++ [o]) → p.ValidRun G ops ∧ (p.run G ops).Valid G o := by
  intro ops
  induction ops with
  | nil => intro p h; exact ⟨trivial, h.1⟩
  | cons o ops ih => intro p h; exact ⟨⟨h.1, (ih h.2).1⟩, (ih h.2).2⟩

theorem run_one (K : Kind G P) (ops : List (WOp S P Q)) (hv : Sit.empty.ValidRun G ops) :
    ∃ w, wrun ty G.n (World.start [K.new]) ops = some w ∧ WI K ty w (Sit.empty.run G ops) := wi_run (WI.init K ty) hv

/-- After any valid history, no exception has been raised, and each rank has exactly the agents of the specification, with their
states and locations. -/
theorem one_agents (K : Kind G P) (ops : List (WOp S P Q)) (hv : Sit.empty.ValidRun G ops) :
    ∃ w, wrun ty G.n (World.start [K.new]) ops = some w ∧
      ∀ r < G.n, ∀ u s l, (Sit.empty.run G ops).ag u = some (r, s, l) ↔ (w r).agent u = some s ∧ (w r).onSpace 0 u = some l := by
  obtain ⟨w, h1, h2⟩ := run_one (ty := ty) K ops hv
  exact ⟨w, h1, fun r hr u s l => h2.local_ hr s l⟩

/-- One `synchronize` after any valid history, without reference to the specification: there are the same agents with the same states, and each is
local on one rank. -/
theorem one_synchronize (K : Kind G P) (ops : List (WOp S P Q)) (hv0 : Sit.empty.ValidRun G (ops ++ [.synch true])) :
    ∃ w w', wrun ty G.n (World.start [K.new]) ops = some w ∧ synchronize ty G.n true w = some w' ∧
      (∀ u s, (∃ r < G.n, (w' r).agent u = some s) ↔ ∃ r < G.n, (w r).agent u = some s) ∧
      ∀ u, ∀ r < G.n, ∀ r' < G.n, ((w' r).agent u).isSome = true → ((w' r').agent u).isSome = true → r = r' := by
  obtain ⟨hv, -, hx⟩ := validRun_snoc hv0
  obtain ⟨w, h1, h2⟩ := run_one (ty := ty) K ops hv
  obtain ⟨w', h3, h4⟩ := synchronize_g hx (.inl rfl) h2
  refine ⟨w, w', h1, h3, ?_, ?_⟩
  · intro u s
    constructor
    · rintro ⟨r, hr, e⟩
      obtain ⟨l, e⟩ := (h4.agent hr u s).1 e
      simp only [Sit.settle, Option.map_eq_some_iff] at e
      obtain ⟨⟨r0, s0, l0⟩, e0, e1⟩ := e
      have hr0 := h2.lt u _ e0
      refine ⟨r0, hr0, (h2.agent hr0 u s).2 ⟨l0, ?_⟩⟩
      cases l0 <;> simp [home] at e1 <;> simp [e0, e1]
    · rintro ⟨r, hr, e⟩
      obtain ⟨l, e⟩ := (h2.agent hr u s).1 e
      have e' : (Sit.settle G (Sit.empty.run G ops)).ag u = some (home G (r, s, l)) := by simp [Sit.settle, e]
      have hr' := h4.lt u _ e'
      refine ⟨_, hr', (h4.agent hr' u s).2 ⟨l, ?_⟩⟩
      rw [e']
      cases l <;> rfl
  · intro u r hr r' hr' e e'
    obtain ⟨s, e⟩ := Option.isSome_iff_exists.1 e
    obtain ⟨s', e'⟩ := Option.isSome_iff_exists.1 e'
    obtain ⟨l, e⟩ := (h4.agent hr u s).1 e
    obtain ⟨l', e'⟩ := (h4.agent hr' u s').1 e'
    rw [e] at e'
    simp only [Option.some.injEq, Prod.mk.injEq] at e'
    exact e'.1

/-- One `synchronize` after any valid history: an agent with a location is afterwards on the rank whose bounds contain it, at the same location and with
the same state; an agent without a location stays where it is; and on every other rank it is in the space only as a ghost. -/
theorem one_home (K : Kind G P) (ops : List (WOp S P Q)) (hv0 : Sit.empty.ValidRun G (ops ++ [.synch true])) :
    ∃ w w', wrun ty G.n (World.start [K.new]) ops = some w ∧ synchronize ty G.n true w = some w' ∧
      ∀ r < G.n, ∀ u s, (w r).agent u = some s →
        ∃ l, (w r).onSpace 0 u = some l ∧ ∃ r' < G.n, (w' r').agent u = some s ∧ (w' r').onSpace 0 u = some l ∧
          (∀ q, l = some q → G.inside r' q = true) ∧ (l = none → r' = r) ∧
          ∀ k < G.n, k ≠ r' → (w' k).agent u = none ∧ ((w' k).ghostAgent u = none → (w' k).onSpace 0 u = none) := by
  obtain ⟨hv, -, hx⟩ := validRun_snoc hv0
  obtain ⟨w, h1, h2⟩ := run_one (ty := ty) K ops hv
  obtain ⟨w', h3, h4⟩ := synchronize_g hx (.inl rfl) h2
  refine ⟨w, w', h1, h3, ?_⟩
  intro r hr u s hu
  obtain ⟨l, e⟩ := (h2.agent hr u s).1 hu
  have e' : (Sit.settle G (Sit.empty.run G ops)).ag u = some (home G (r, s, l)) := by simp [Sit.settle, e]
  have hr' := h4.lt u _ e'
  have e2 : (Sit.settle G (Sit.empty.run G ops)).ag u = some ((home G (r, s, l)).1, s, l) := by
    rw [e']; cases l <;> rfl
  refine ⟨l, ((h2.local_ hr s l).1 e).2, (home G (r, s, l)).1, hr', ((h4.local_ hr' s l).1 e2).1, ((h4.local_ hr' s l).1 e2).2, ?_, ?_, ?_⟩
  · rintro q rfl
    exact (K.owner_spec (h2.locIn e)).2.1
  · rintro rfl; rfl
  · intro k hk hne
    have hlo := Sit.lo_none e2 (fun e => hne e.symm)
    refine ⟨?_, ?_⟩
    · cases ha : (w' k).agent u with
      | none => rfl
      | some s' =>
        obtain ⟨l', ha⟩ := (h4.agent hk u s').1 ha
        rw [Sit.lo_some.2 ha] at hlo
        cases hlo
    · intro hg
      rw [h4.ghost hk, Option.map_eq_none_iff] at hg
      rw [h4.grid hk, hlo, hg]
      rfl

/-- After `synchronize`, a rank has a ghost of exactly those agents that are local on another rank at a location within the buffer size of its own bounds, with
the same state and the same location. -/
theorem one_ghosts (K : Kind G P) (ops : List (WOp S P Q)) (hv0 : Sit.empty.ValidRun G (ops ++ [.synch true])) :
    ∃ w w', wrun ty G.n (World.start [K.new]) ops = some w ∧ synchronize ty G.n true w = some w' ∧
      ∀ k < G.n, ∀ u s q, ((w' k).ghostAgent u = some s ∧ (w' k).onSpace 0 u = some (some q)) ↔
        0 < G.buf ∧ ∃ r < G.n, r ≠ k ∧ (w' r).agent u = some s ∧ (w' r).onSpace 0 u = some (some q) ∧ G.near k q := by
  obtain ⟨hv, -, hx⟩ := validRun_snoc hv0
  obtain ⟨w, h1, h2⟩ := run_one (ty := ty) K ops hv
  obtain ⟨w', h3, h4⟩ := synchronize_g hx (.inl rfl) h2
  refine ⟨w, w', h1, h3, ?_⟩
  intro k hk u s q
  generalize hp : Sit.settle G (Sit.empty.run G ops) = p at h4
  have hgh : ∀ s q, p.gh k u = some (s, q) ↔ 0 < G.buf ∧ ∃ r, p.ag u = some (r, s, some q) ∧ r ≠ k ∧ G.near k q := by
    intro s q
    subst hp
    simp only [Sit.settle]
    cases Sit.ag (Sit.empty.run G ops) u with
    | none => simp
    | some x =>
      simp only [Option.bind_some, Option.map_some, Option.some.injEq]
      generalize home G x = z
      obtain ⟨r, s', l⟩ := z
      cases l with
      | none => simp [copyOn]
      | some q' =>
        simp only [copyOn, Prod.mk.injEq, Option.some.injEq]
        constructor
        · intro e
          split at e
          · rename_i hc
            simp only [Option.some.injEq, Prod.mk.injEq] at e
            obtain ⟨rfl, rfl⟩ := e
            exact ⟨hc.1, r, ⟨rfl, rfl, rfl⟩, hc.2⟩
          · cases e
        · rintro ⟨hb, r', ⟨rfl, rfl, rfl⟩, hc⟩
          rw [if_pos ⟨hb, hc⟩]
  have hleft : ((w' k).ghostAgent u = some s ∧ (w' k).onSpace 0 u = some (some q)) ↔ p.gh k u = some (s, q) := by
    rw [h4.ghost hk, h4.grid hk]
    cases hg : p.gh k u with
    | none => simp
    | some y =>
      have := (h4.ri k hk).disj u (by simp [hg])
      obtain ⟨s', q'⟩ := y
      simp [this, entry]
  rw [hleft, hgh]
  constructor
  · rintro ⟨hb, r, e, c1, c2⟩
    have hr := h4.lt u _ e
    obtain ⟨a, b⟩ := (h4.local_ hr s (some q)).1 e
    exact ⟨hb, r, hr, c1, a, b, c2⟩
  · rintro ⟨hb, r, hr, c1, a, b, c2⟩
    exact ⟨hb, r, (h4.local_ hr s (some q)).2 ⟨a, b⟩, c1, c2⟩

/-- After `synchronize` every ghost has the state of its agent, which is local on another rank, and is at its location. -/
theorem one_copies (K : Kind G P) (ops : List (WOp S P Q)) (hv0 : Sit.empty.ValidRun G (ops ++ [.synch true])) :
    ∃ w w', wrun ty G.n (World.start [K.new]) ops = some w ∧ synchronize ty G.n true w = some w' ∧
      ∀ k < G.n, ∀ u s, (w' k).ghostAgent u = some s → ∃ r < G.n, r ≠ k ∧ (w' r).agent u = some s ∧ (w' r).onSpace 0 u = (w' k).onSpace 0 u := by
  obtain ⟨hv, -, hx⟩ := validRun_snoc hv0
  obtain ⟨w, h1, h2⟩ := run_one (ty := ty) K ops hv
  obtain ⟨w', h3, h4⟩ := synchronize_g hx (.inl rfl) h2
  refine ⟨w, w', h1, h3, ?_⟩
  obtain ⟨w1, w1', a1, a2, a3⟩ := one_ghosts (ty := ty) K ops hv0
  rw [h1] at a1; cases a1
  rw [h3] at a2; cases a2
  intro k hk u s hg
  have hg' := hg
  rw [h4.ghost hk] at hg'
  obtain ⟨⟨s', q⟩, e, rfl⟩ := Option.map_eq_some_iff.1 hg'
  have hd := (h4.ri k hk).disj u (by simp [e])
  have ho : (w' k).onSpace 0 u = some (some q) := by
    rw [h4.grid hk, hd, e]; rfl
  obtain ⟨-, r, hr, c1, c2, c3, -⟩ := (a3 k hk u _ q).1 ⟨hg, ho⟩
  exact ⟨r, hr, c1, c2, by rw [c3, ho]⟩

/-- An agent that is removed is, after the next synchronization, on no rank, neither as a local agent nor as a ghost, nor in the space. -/
theorem one_remove (K : Kind G P) (ops : List (WOp S P Q)) (r u : Nat) (hv : Sit.empty.ValidRun G (ops ++ [.remove r u, .synch true])) :
    ∃ w, wrun ty G.n (World.start [K.new]) (ops ++ [.remove r u, .synch true]) = some w ∧
      ∀ k < G.n, (w k).agent u = none ∧ (w k).ghostAgent u = none ∧ (w k).onSpace 0 u = none := by
  obtain ⟨w, h1, h2⟩ := run_one (ty := ty) K _ hv
  refine ⟨w, h1, ?_⟩
  have hrun : Sit.run G Sit.empty (ops ++ [.remove r u, .synch true]) = Sit.settle G (Sit.step (P := P) G (Sit.run G Sit.empty ops) (.remove r u)) := by
    unfold Sit.run
    rw [List.foldl_append]
    rfl
  rw [hrun] at h2
  intro k hk
  have hlo : Sit.lo (Sit.settle G (Sit.step (P := P) G (Sit.run G Sit.empty ops) (.remove r u))) k u = none := by
    simp [Sit.lo, Sit.settle, Sit.step, upd]
  have hgh : (Sit.settle G (Sit.step (P := P) G (Sit.run G Sit.empty ops) (.remove r u))).gh k u = none := by
    simp [Sit.settle, Sit.step, upd]
  refine ⟨?_, ?_, ?_⟩
  · show get (w k).locals u = none
    rw [(h2.ri k hk).loc, hlo]; rfl
  · rw [h2.ghost hk, hgh]; rfl
  · rw [h2.grid hk, hlo, hgh]; rfl

/-- One `move_agents` after any valid history, without reference to the specification: an agent that is sent is afterwards on the addressed rank,
with its state, but without a location in the space. -/
theorem one_move (K : Kind G P) (ops : List (WOp S P Q)) (ms : Nat → List (Nat × Nat)) (hv : Sit.empty.ValidRun G (ops ++ [.move ms])) :
    ∃ w w', wrun ty G.n (World.start [K.new]) ops = some w ∧ moveAgents ty G.n ms w = some w' ∧
      (∀ r < G.n, ∀ u k s, (u, k) ∈ ms r → (w r).agent u = some s → (w' k).agent u = some s ∧ (w' k).onSpace 0 u = some none) ∧
      (∀ u s, (∃ r < G.n, (w' r).agent u = some s) ↔ ∃ r < G.n, (w r).agent u = some s) ∧
      ∀ u, ∀ r < G.n, ∀ r' < G.n, ((w' r).agent u).isSome = true → ((w' r').agent u).isSome = true → r = r' := by
  obtain ⟨hv1, hv2⟩ := validRun_snoc hv
  obtain ⟨w, h1, h2⟩ := run_one (ty := ty) K ops hv1
  obtain ⟨w', h3, h4⟩ := moveAgents_g hv2 h2
  generalize Sit.run G Sit.empty ops = p at hv2 h2 h4
  refine ⟨w, w', h1, h3, ?_, ?_, ?_⟩
  · intro r hr u k s hm hu
    obtain ⟨l, e⟩ := (h2.agent hr u s).1 hu
    have hk : k < G.n := ((hv2.1 r hr).2 _ hm).1
    have : ((p.sendAgents ms).settle G).ag u = some (k, s, none) := by
      simp [Sit.settle, Sit.sendAgents, e, get_of_mem (hv2.1 r hr).1 hm, home]
    exact (h4.local_ hk s none).1 this
  · intro u s
    constructor
    · rintro ⟨r, hr, e⟩
      obtain ⟨l, e⟩ := (h4.agent hr u s).1 e
      simp only [Sit.settle, Sit.sendAgents, Option.map_map, Option.map_eq_some_iff, Function.comp_apply] at e
      obtain ⟨⟨r0, s0, l0⟩, e0, e1⟩ := e
      have hr0 := h2.lt u _ e0
      refine ⟨r0, hr0, (h2.agent hr0 u s).2 ⟨l0, ?_⟩⟩
      simp only at e1
      split at e1
      · simp [home] at e1; simp [e0, e1]
      · cases l0 <;> simp [home] at e1 <;> simp [e0, e1]
    · rintro ⟨r, hr, e⟩
      obtain ⟨l, e⟩ := (h2.agent hr u s).1 e
      have : ∃ r' l', ((p.sendAgents ms).settle G).ag u = some (r', s, l') := by
        simp only [Sit.settle, Sit.sendAgents, e, Option.map_some]
        split
        · exact ⟨_, _, rfl⟩
        · cases l <;> exact ⟨_, _, rfl⟩
      obtain ⟨r', l', e'⟩ := this
      have hr' := h4.lt u _ e'
      exact ⟨r', hr', (h4.agent hr' u s).2 ⟨l', e'⟩⟩
  · intro u r hr r' hr' e e'
    obtain ⟨s, e⟩ := Option.isSome_iff_exists.1 e
    obtain ⟨s', e'⟩ := Option.isSome_iff_exists.1 e'
    obtain ⟨l, e⟩ := (h4.agent hr u s).1 e
    obtain ⟨l', e'⟩ := (h4.agent hr' u s').1 e'
    rw [e] at e'
    simp only [Option.some.injEq, Prod.mk.injEq] at e'
    exact e'.1

end Repast.Context
