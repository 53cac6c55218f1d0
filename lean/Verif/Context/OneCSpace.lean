import Verif.Context.CSpaceKind
import Verif.Context.OneGrid

/-
C24, C25, C26, C36 and C52 for contexts with one shared continuous space of two or three dimensions, on any number of ranks and any process grid that fits, after
any history that is valid for `Verif/Context/OneSpace`; that is, one in which agents do not share locations.
-/
namespace Repast.Context
open Repast.Dict Repast.Space Repast.Topology Repast.Tree

variable {S : Type} {ty : Nat → Nat} {g : CSCfg}

/-- The contexts of the ranks with one continuous space. -/
def oneCSpace (g : CSCfg) : World S CSpaceSp := World.start [g.new]

/-- C24, with one continuous space: after any valid history, no exception has been raised, and each rank has exactly the agents of the specification, with their
states and locations. (Missing: other histories, in particular those in which agents share a location, see `C36_cspace_lost`; one-dimensional spaces, see
`C24_cspace_one_dim`; rounding; and several projections.) -/
theorem C24_one_cspace_partial (hs : CSetting g.topo g.buf) (ops : List (WOp S CSpaceSp CPt)) (hv : Sit.empty.ValidRun (cspaceGeo g) ops) :
    ∃ w, wrun ty g.topo.size (oneCSpace g) ops = some w ∧
      ∀ r < g.topo.size, ∀ u s l, (Sit.empty.run (cspaceGeo g) ops).ag u = some (r, s, l) ↔ (w r).agent u = some s ∧ (w r).onSpace 0 u = some l :=
  one_agents (cspaceKind hs) ops hv

/-- C24: one `synchronize` after any valid history, without reference to the specification: there are the same agents with the same states, and each is
local on one rank. -/
theorem C24_one_cspace_synchronize_partial (hs : CSetting g.topo g.buf) (ops : List (WOp S CSpaceSp CPt)) (hv : Sit.empty.ValidRun (cspaceGeo g) (ops ++ [.synch true])) :
    ∃ w w', wrun ty g.topo.size (oneCSpace g) ops = some w ∧ synchronize ty g.topo.size true w = some w' ∧
      (∀ u s, (∃ r < g.topo.size, (w' r).agent u = some s) ↔ ∃ r < g.topo.size, (w r).agent u = some s) ∧
      ∀ u, ∀ r < g.topo.size, ∀ r' < g.topo.size, ((w' r).agent u).isSome = true → ((w' r').agent u).isSome = true → r = r' :=
  one_synchronize (cspaceKind hs) ops hv

/-- C52: one `synchronize` after any valid history: an agent with a location is afterwards on the rank whose bounds contain it, at the same location and with
the same state; an agent without a location stays where it is; and on every other rank it is in the space only as a ghost. -/
theorem C52_one_cspace_partial (hs : CSetting g.topo g.buf) (ops : List (WOp S CSpaceSp CPt)) (hv : Sit.empty.ValidRun (cspaceGeo g) (ops ++ [.synch true])) :
    ∃ w w', wrun ty g.topo.size (oneCSpace g) ops = some w ∧ synchronize ty g.topo.size true w = some w' ∧
      ∀ r < g.topo.size, ∀ u s, (w r).agent u = some s →
        ∃ l, (w r).onSpace 0 u = some l ∧ ∃ r' < g.topo.size, (w' r').agent u = some s ∧ (w' r').onSpace 0 u = some l ∧
          (∀ q, l = some q → (g.topo.bounds r').containsC q = true) ∧ (l = none → r' = r) ∧
          ∀ k < g.topo.size, k ≠ r' → (w' k).agent u = none ∧ ((w' k).ghostAgent u = none → (w' k).onSpace 0 u = none) :=
  one_home (cspaceKind hs) ops hv

/-- C25 and C36: after `synchronize`, a rank has a ghost of exactly those agents that are local on another rank at a location within the buffer size of its own bounds, with
the same state and the same location. -/
theorem C36_one_cspace_partial (hs : CSetting g.topo g.buf) (ops : List (WOp S CSpaceSp CPt)) (hv : Sit.empty.ValidRun (cspaceGeo g) (ops ++ [.synch true])) :
    ∃ w w', wrun ty g.topo.size (oneCSpace g) ops = some w ∧ synchronize ty g.topo.size true w = some w' ∧
      ∀ k < g.topo.size, ∀ u s q, ((w' k).ghostAgent u = some s ∧ (w' k).onSpace 0 u = some (some q)) ↔
        0 < g.buf ∧ ∃ r < g.topo.size, r ≠ k ∧ (w' r).agent u = some s ∧ (w' r).onSpace 0 u = some (some q) ∧ CNear g.topo g.buf k q :=
  one_ghosts (cspaceKind hs) ops hv

/-- C25: after `synchronize` every ghost has the state of its agent, which is local on another rank, and is at its location. -/
theorem C25_one_cspace_partial (hs : CSetting g.topo g.buf) (ops : List (WOp S CSpaceSp CPt)) (hv : Sit.empty.ValidRun (cspaceGeo g) (ops ++ [.synch true])) :
    ∃ w w', wrun ty g.topo.size (oneCSpace g) ops = some w ∧ synchronize ty g.topo.size true w = some w' ∧
      ∀ k < g.topo.size, ∀ u s, (w' k).ghostAgent u = some s → ∃ r < g.topo.size, r ≠ k ∧ (w' r).agent u = some s ∧ (w' r).onSpace 0 u = (w' k).onSpace 0 u :=
  one_copies (cspaceKind hs) ops hv

/-- C26: an agent that is removed is, after the next synchronization, on no rank, neither as a local agent nor as a ghost, nor in the space. -/
theorem C26_one_cspace_partial (hs : CSetting g.topo g.buf) (ops : List (WOp S CSpaceSp CPt)) (r u : Nat) (hv : Sit.empty.ValidRun (cspaceGeo g) (ops ++ [.remove r u, .synch true])) :
    ∃ w, wrun ty g.topo.size (oneCSpace g) (ops ++ [.remove r u, .synch true]) = some w ∧
      ∀ k < g.topo.size, (w k).agent u = none ∧ (w k).ghostAgent u = none ∧ (w k).onSpace 0 u = none :=
  one_remove (cspaceKind hs) ops r u hv

/-- C24: one `move_agents` after any valid history, without reference to the specification: an agent that is sent is afterwards on the addressed rank,
with its state, but without a location in the space. -/
theorem C24_one_cspace_move_partial (hs : CSetting g.topo g.buf) (ops : List (WOp S CSpaceSp CPt)) (ms : Nat → List (Nat × Nat)) (hv : Sit.empty.ValidRun (cspaceGeo g) (ops ++ [.move ms])) :
    ∃ w w', wrun ty g.topo.size (oneCSpace g) ops = some w ∧ moveAgents ty g.topo.size ms w = some w' ∧
      (∀ r < g.topo.size, ∀ u k s, (u, k) ∈ ms r → (w r).agent u = some s → (w' k).agent u = some s ∧ (w' k).onSpace 0 u = some none) ∧
      (∀ u s, (∃ r < g.topo.size, (w' r).agent u = some s) ↔ ∃ r < g.topo.size, (w r).agent u = some s) ∧
      ∀ u, ∀ r < g.topo.size, ∀ r' < g.topo.size, ((w' r).agent u).isSome = true → ((w' r').agent u).isSome = true → r = r' :=
  one_move (cspaceKind hs) ops ms hv

/-! ### A concrete case -/

/-- A space of 10 by 10 on two ranks, side by side, with a buffer of 2. -/
def plane2 (single : Bool) : CSCfg := ⟨{ nd := 2, px := 2, py := 1, pz := 1, periodic := false, box := ⟨0, 10, 0, 10, 0, 0⟩ }, single, 2, 4⟩

theorem plane2_setting (single : Bool) : CSetting (plane2 single).topo (plane2 single).buf := by
  show CSetting { nd := 2, px := 2, py := 1, pz := 1, periodic := false, box := ⟨0, 10, 0, 10, 0, 0⟩ } 2
  refine ⟨⟨?_, ?_, ⟨by decide, by decide⟩, ?_, ?_⟩, by decide⟩
  · constructor <;> first | decide | (constructor <;> decide)
  · constructor <;> decide
  · intro _; simp [GoodGrid]
  · intro _; simp [BufFits, BufFits1]

/-- A periodic space of three dimensions with 2 by 3 by 3 processes. -/
example : CSetting { nd := 3, px := 2, py := 3, pz := 3, periodic := true, box := ⟨0, 12, 0, 12, 0, 12⟩ } 2 := by
  refine ⟨⟨?_, ?_, ⟨by decide, by decide⟩, ?_, ?_⟩, by decide⟩
  · constructor <;> first | decide | (constructor <;> decide)
  · constructor <;> decide
  · intro _; simp [GoodGrid]
  · intro _; simp [BufFits, BufFits1]

/-- An agent is copied to a buffer, and walks to the other rank. -/
def cwalk7 : List (WOp Nat CSpaceSp CPt) :=
  [.add 0 7 1, .add 1 8 5, .gmove 0 0 7 ⟨9 / 2, 1, 0⟩, .gmove 1 0 8 ⟨25 / 4, 1, 0⟩, .synch true, .gmove 0 0 7 ⟨21 / 4, 1, 0⟩]

example : Sit.empty.ValidRun (cspaceGeo (plane2 false)) (cwalk7 ++ [.synch true]) := by
  have e4 : cdest (plane2 false).topo ⟨9 / 2, 1, 0⟩ = ⟨9 / 2, 1, 0⟩ := by decide +kernel
  have e5 : cdest (plane2 false).topo ⟨21 / 4, 1, 0⟩ = ⟨21 / 4, 1, 0⟩ := by decide +kernel
  have e6 : cdest (plane2 false).topo ⟨25 / 4, 1, 0⟩ = ⟨25 / 4, 1, 0⟩ := by decide +kernel
  have n1 : (⟨9 / 2, 1, 0⟩ : CPt) ≠ ⟨25 / 4, 1, 0⟩ := by decide +kernel
  have n2 : (⟨21 / 4, 1, 0⟩ : CPt) ≠ ⟨25 / 4, 1, 0⟩ := by decide +kernel
  refine ⟨⟨by decide, rfl, rfl⟩, ⟨by decide, rfl, rfl⟩, ⟨rfl, ⟨_, rfl⟩, fun _ => ⟨?_, ?_⟩⟩, ⟨rfl, ⟨_, rfl⟩, fun _ => ⟨?_, ?_⟩⟩, ⟨.inl rfl, fun _ => ?_⟩, ⟨rfl, ⟨(1, some ⟨9 / 2, 1, 0⟩), ?_⟩, fun _ => ⟨?_, ?_⟩⟩, ⟨.inl rfl, fun _ => ?_⟩, trivial⟩
  · intro v y hv h
    simp only [Sit.step, Sit.empty, upd] at h
    grind
  · intro v y h; cases h
  · intro v y hv h
    simp only [Sit.step, Sit.empty, upd, cspaceGeo, e4] at h
    simp only [cspaceGeo, e6]
    grind
  · intro v y h; cases h
  · intro u v x y q hu hv hx hy
    simp only [Sit.step, Sit.empty, upd, cspaceGeo, e4, e6] at hu hv
    grind
  · have o4 : cowner (plane2 false).topo ⟨9 / 2, 1, 0⟩ = 0 := by decide +kernel
    simp [Sit.step, Sit.settle, Sit.empty, upd, cspaceGeo, e4, home, o4]
  · intro v y hv h
    simp only [Sit.step, Sit.settle, Option.map_eq_some_iff] at h
    obtain ⟨x, hx, h⟩ := h
    have := home_loc (cspaceGeo (plane2 false)) x
    rw [h] at this
    simp only [Sit.empty, upd, cspaceGeo, e4, e6] at hx
    simp only [cspaceGeo, e5]
    grind
  · intro v y h
    simp only [Sit.step, Sit.settle, Option.bind_eq_some_iff] at h
    obtain ⟨x, hx, h⟩ := h
    have := copyOn_loc h
    rw [home_loc] at this
    simp only [Sit.empty, upd, cspaceGeo, e4, e6] at hx
    simp only [cspaceGeo, e5]
    grind
  · intro u v x y q hu hv hx hy
    have hat : ∀ u x, (Sit.empty.run (cspaceGeo (plane2 false)) cwalk7).ag u = some x → (u = 7 ∧ x.2.2 = some ⟨21 / 4, 1, 0⟩) ∨ (u = 8 ∧ x.2.2 = some ⟨25 / 4, 1, 0⟩) := by
      intro u x h
      simp only [cwalk7, Sit.run, List.foldl] at h
      by_cases h7 : u = 7
      · subst h7
        left
        simp only [Sit.step, upd, if_true, Option.map_eq_some_iff] at h
        obtain ⟨z, -, rfl⟩ := h
        exact ⟨rfl, congrArg some e5⟩
      · simp only [Sit.step, upd, if_neg h7, Sit.settle, Option.map_eq_some_iff] at h
        obtain ⟨z, hz, rfl⟩ := h
        rw [home_loc]
        simp only [Sit.empty, cspaceGeo, e4, e6] at hz
        grind
    rcases hat u x hu with ⟨rfl, h1⟩ | ⟨rfl, h1⟩ <;> rcases hat v y hv with ⟨rfl, h2⟩ | ⟨rfl, h2⟩ <;> (clear hat hu hv e4 e5 e6; grind)

/-- What the model computes for it: at first rank 1 has a ghost of the agent, then the agent and rank 0 the ghosts. -/
example : ((wrun (fun _ => 0) 2 (oneCSpace (plane2 false)) (cwalk7.take 5)).map fun w => [(w 0).agent 7, (w 1).ghostAgent 7, (w 0).ghostAgent 8]) = some [some 1, some 1, some 5] := by
  decide +kernel

example : ((wrun (fun _ => 0) 2 (oneCSpace (plane2 false)) (cwalk7 ++ [.synch true])).map fun w => ([(w 0).agent 7, (w 1).agent 7, (w 0).ghostAgent 7], (w 0).onSpace 0 7)) =
    some ([none, some 1, some 1], some (some ⟨21 / 4, 1, 0⟩)) := by decide +kernel

/-! ### Violations -/

/-- C36 is violated on a continuous space with multiple occupancy: two agents are at the same point, the one that came first leaves, and the other one, which is
within the buffer of rank 1, is not copied to it. -/
theorem C36_cspace_lost :
    (wrun (fun _ => 0) 2 (oneCSpace (plane2 false)) [.add 0 7 1, .add 0 8 5, .gmove 0 0 7 ⟨9 / 2, 1, 0⟩, .gmove 0 0 8 ⟨9 / 2, 1, 0⟩, .gmove 0 0 7 ⟨1, 1, 0⟩, .synch true]).map
      (fun w => ((w 0).agent 8, (w 0).onSpace 0 8, (w 1).ghostAgent 8)) = some (some 5, some (some ⟨9 / 2, 1, 0⟩), none) ∧
    CNear (plane2 false).topo 2 1 ⟨9 / 2, 1, 0⟩ := by
  refine ⟨by decide +kernel, ⟨0, by decide, by decide +kernel, by decide +kernel⟩, fun _ => ⟨0, by decide, by decide +kernel, by decide +kernel⟩, fun h => absurd h (by decide)⟩

/-- C24 is violated on a continuous space with one dimension: the first move of an agent crashes the process. -/
theorem C24_cspace_one_dim :
    (wrun (S := Nat) (fun _ => 0) 1 (oneCSpace ⟨{ nd := 1, px := 1, py := 1, pz := 1, periodic := false, box := ⟨0, 10, 0, 0, 0, 0⟩ }, false, 0, 4⟩) [.add 0 7 1, .gmove 0 0 7 ⟨3, 0, 0⟩]).isNone = true := by
  decide +kernel

end Repast.Context
