import Verif.Context.GridKind
import Verif.Context.Violations

/-
C24, C25, C26, C36 and C52 for contexts with one shared grid, with single or multiple occupancy, on any number of ranks and any process grid that fits, after
any history that is valid for `Verif/Context/OneSpace`.
-/
namespace Repast.Context
open Repast.Dict Repast.Space Repast.Topology

variable {S : Type} {ty : Nat → Nat} {t : Topo} {buf : Nat}

/-- The contexts of the ranks with one grid. -/
def oneGrid (t : Topo) (single : Bool) (buf : Nat) : World S := World.init [⟨t, single, buf⟩]

/-- C24, with one grid: after any valid history, no exception has been raised, and each rank has exactly the agents of the specification, with their
states and locations. (Missing: other histories, see `Verif/Context/Violations`, and several projections.) -/
theorem C24_one_grid_partial (hs : Setting t buf) (single : Bool) (ops : List (WOp S)) (hv : Sit.empty.ValidRun (gridGeo t single buf) ops) :
    ∃ w, wrun ty t.size (oneGrid t single buf) ops = some w ∧
      ∀ r < t.size, ∀ u s l, (Sit.empty.run (gridGeo t single buf) ops).ag u = some (r, s, l) ↔ (w r).agent u = some s ∧ (w r).onSpace 0 u = some l :=
  one_agents (gridKind hs single) ops hv

/-- C24: one `synchronize` after any valid history, without reference to the specification: there are the same agents with the same states, and each is
local on one rank. -/
theorem C24_one_grid_synchronize_partial (hs : Setting t buf) (single : Bool) (ops : List (WOp S)) (hv : Sit.empty.ValidRun (gridGeo t single buf) (ops ++ [.synch true])) :
    ∃ w w', wrun ty t.size (oneGrid t single buf) ops = some w ∧ synchronize ty t.size true w = some w' ∧
      (∀ u s, (∃ r < t.size, (w' r).agent u = some s) ↔ ∃ r < t.size, (w r).agent u = some s) ∧
      ∀ u, ∀ r < t.size, ∀ r' < t.size, ((w' r).agent u).isSome = true → ((w' r').agent u).isSome = true → r = r' :=
  one_synchronize (gridKind hs single) ops hv

/-- C52: one `synchronize` after any valid history: an agent with a location is afterwards on the rank whose bounds contain it, at the same location and with
the same state; an agent without a location stays where it is; and on every other rank it is on the grid only as a ghost. -/
theorem C52_one_grid_partial (hs : Setting t buf) (single : Bool) (ops : List (WOp S)) (hv : Sit.empty.ValidRun (gridGeo t single buf) (ops ++ [.synch true])) :
    ∃ w w', wrun ty t.size (oneGrid t single buf) ops = some w ∧ synchronize ty t.size true w = some w' ∧
      ∀ r < t.size, ∀ u s, (w r).agent u = some s →
        ∃ l, (w r).onSpace 0 u = some l ∧ ∃ r' < t.size, (w' r').agent u = some s ∧ (w' r').onSpace 0 u = some l ∧
          (∀ q, l = some q → (t.bounds r').contains q = true) ∧ (l = none → r' = r) ∧
          ∀ k < t.size, k ≠ r' → (w' k).agent u = none ∧ ((w' k).ghostAgent u = none → (w' k).onSpace 0 u = none) :=
  one_home (gridKind hs single) ops hv

/-- C25 and C36: after `synchronize`, a rank has a ghost of exactly those agents that are local on another rank at a location within the buffer size of its own bounds, with
the same state and the same location. -/
theorem C36_one_grid_partial (hs : Setting t buf) (single : Bool) (ops : List (WOp S)) (hv : Sit.empty.ValidRun (gridGeo t single buf) (ops ++ [.synch true])) :
    ∃ w w', wrun ty t.size (oneGrid t single buf) ops = some w ∧ synchronize ty t.size true w = some w' ∧
      ∀ k < t.size, ∀ u s q, ((w' k).ghostAgent u = some s ∧ (w' k).onSpace 0 u = some (some q)) ↔
        0 < buf ∧ ∃ r < t.size, r ≠ k ∧ (w' r).agent u = some s ∧ (w' r).onSpace 0 u = some (some q) ∧ Near t buf k q :=
  one_ghosts (gridKind hs single) ops hv

/-- C25: after `synchronize` every ghost has the state of its agent, which is local on another rank, and is at its location. -/
theorem C25_one_grid_partial (hs : Setting t buf) (single : Bool) (ops : List (WOp S)) (hv : Sit.empty.ValidRun (gridGeo t single buf) (ops ++ [.synch true])) :
    ∃ w w', wrun ty t.size (oneGrid t single buf) ops = some w ∧ synchronize ty t.size true w = some w' ∧
      ∀ k < t.size, ∀ u s, (w' k).ghostAgent u = some s → ∃ r < t.size, r ≠ k ∧ (w' r).agent u = some s ∧ (w' r).onSpace 0 u = (w' k).onSpace 0 u :=
  one_copies (gridKind hs single) ops hv

/-- C26: an agent that is removed is, after the next synchronization, on no rank, neither as a local agent nor as a ghost, nor on the grid. -/
theorem C26_one_grid_partial (hs : Setting t buf) (single : Bool) (ops : List (WOp S)) (r u : Nat) (hv : Sit.empty.ValidRun (gridGeo t single buf) (ops ++ [.remove r u, .synch true])) :
    ∃ w, wrun ty t.size (oneGrid t single buf) (ops ++ [.remove r u, .synch true]) = some w ∧
      ∀ k < t.size, (w k).agent u = none ∧ (w k).ghostAgent u = none ∧ (w k).onSpace 0 u = none :=
  one_remove (gridKind hs single) ops r u hv

/-- C24: one `move_agents` after any valid history, without reference to the specification: an agent that is sent is afterwards on the addressed rank,
with its state, but without a location on the grid. -/
theorem C24_one_grid_move_partial (hs : Setting t buf) (single : Bool) (ops : List (WOp S)) (ms : Nat → List (Nat × Nat)) (hv : Sit.empty.ValidRun (gridGeo t single buf) (ops ++ [.move ms])) :
    ∃ w w', wrun ty t.size (oneGrid t single buf) ops = some w ∧ moveAgents ty t.size ms w = some w' ∧
      (∀ r < t.size, ∀ u k s, (u, k) ∈ ms r → (w r).agent u = some s → (w' k).agent u = some s ∧ (w' k).onSpace 0 u = some none) ∧
      (∀ u s, (∃ r < t.size, (w' r).agent u = some s) ↔ ∃ r < t.size, (w r).agent u = some s) ∧
      ∀ u, ∀ r < t.size, ∀ r' < t.size, ((w' r).agent u).isSome = true → ((w' r').agent u).isSome = true → r = r' :=
  one_move (gridKind hs single) ops ms hv

/-! ### A concrete case -/

/-- The line of two ranks with a buffer of 2 cells. -/
theorem line2_setting : Setting (line2 false 2).topo 2 := by
  refine ⟨?_, ?_, ⟨by decide, by decide⟩, ?_, ?_⟩
  · constructor <;> first | decide | (constructor <;> decide)
  · constructor <;> decide
  · intro _; simp [GoodGrid, line2]
  · intro _; simp [BufFits, BufFits1, line2]

/-- An agent is copied to a buffer, moves to the other rank, changes, is moved back, and is removed. -/
def walk7 : List (WOp Nat) := [.add 0 7 1, .add 1 8 5, .gmove 0 0 7 ⟨4, 0, 0⟩, .synch true, .gmove 0 0 7 ⟨6, 0, 0⟩, .synch true, .setState 1 7 2, .gmove 1 0 7 ⟨9, 0, 0⟩, .synch true]

theorem walk7_valid : Sit.empty.ValidRun (gridGeo (line2 false 2).topo false 2) walk7 := by
  refine ⟨⟨by decide, rfl, rfl⟩, ⟨by decide, rfl, rfl⟩, ⟨rfl, ⟨_, rfl⟩, fun h => by cases h⟩, ⟨.inl rfl, fun h => by cases h⟩, ⟨rfl, ⟨_, rfl⟩, fun h => by cases h⟩, ⟨.inl rfl, fun h => by cases h⟩, ⟨_, rfl⟩, ⟨rfl, ⟨_, rfl⟩, fun h => by cases h⟩, ⟨.inl rfl, fun h => by cases h⟩, trivial⟩

example : Sit.empty.ValidRun (gridGeo (line2 false 2).topo false 2) (walk7 ++ [.remove 1 7, .synch true]) := by
  refine ⟨⟨by decide, rfl, rfl⟩, ⟨by decide, rfl, rfl⟩, ⟨rfl, ⟨_, rfl⟩, fun h => by cases h⟩, ⟨.inl rfl, fun h => by cases h⟩, ⟨rfl, ⟨_, rfl⟩, fun h => by cases h⟩, ⟨.inl rfl, fun h => by cases h⟩, ⟨_, rfl⟩, ⟨rfl, ⟨_, rfl⟩, fun h => by cases h⟩, ⟨.inl rfl, fun h => by cases h⟩, ⟨_, rfl⟩, ⟨.inl rfl, fun h => by cases h⟩, trivial⟩

example : Sit.empty.ValidRun (gridGeo (line2 false 2).topo false 2) ([.add 0 7 1, .add 0 8 5, .gmove 0 0 8 ⟨4, 0, 0⟩] ++ [.move fun r => if r = 0 then [(7, 1)] else []] : List (WOp Nat)) := by
  refine ⟨⟨by decide, rfl, rfl⟩, ⟨by decide, rfl, rfl⟩, ⟨rfl, ⟨_, rfl⟩, fun h => by cases h⟩, ⟨?_, fun h => by cases h⟩, trivial⟩
  intro r hr
  refine ⟨by dsimp only; split <;> simp, ?_⟩
  dsimp only
  intro m hm
  split at hm
  · rename_i e
    subst e
    simp only [List.mem_singleton] at hm
    subst hm
    exact ⟨by decide, rfl, _, rfl⟩
  · simp at hm

/-- A periodic grid of 12 by 12 cells, of 2 by 3 processes, with a buffer of 2 cells. -/
example : Setting { nd := 2, px := 2, py := 3, pz := 1, periodic := true, box := ⟨0, 12, 0, 12, 0, 0⟩ } 2 := by
  refine ⟨?_, ?_, ⟨by decide, by decide⟩, ?_, ?_⟩
  · constructor <;> first | decide | (constructor <;> decide)
  · constructor <;> decide
  · intro _; simp [GoodGrid]
  · intro _; simp [BufFits, BufFits1]

theorem copyOn_loc {S Q : Type} {G : Geo Q} {k : Nat} {x : Nat × S × Option Q} {y : S × Q} (h : copyOn G k x = some y) : x.2.2 = some y.2 := by
  unfold copyOn at h
  split at h
  · rename_i q hq
    split at h
    · cases h; exact hq
    · cases h
  · cases h

/-- Single occupancy: two agents next to each other, one of which walks to the other rank. -/
example : Sit.empty.ValidRun (gridGeo (line2 true 2).topo true 2)
    ([.add 0 7 1, .add 1 8 5, .gmove 0 0 7 ⟨4, 0, 0⟩, .gmove 1 0 8 ⟨6, 0, 0⟩, .synch true, .gmove 0 0 7 ⟨5, 0, 0⟩, .synch true] : List (WOp Nat)) := by
  have e4 : dest1 (line2 true 2).topo ⟨4, 0, 0⟩ = ⟨4, 0, 0⟩ := by decide
  have e5 : dest1 (line2 true 2).topo ⟨5, 0, 0⟩ = ⟨5, 0, 0⟩ := by decide
  have e6 : dest1 (line2 true 2).topo ⟨6, 0, 0⟩ = ⟨6, 0, 0⟩ := by decide
  refine ⟨⟨by decide, rfl, rfl⟩, ⟨by decide, rfl, rfl⟩, ⟨rfl, ⟨_, rfl⟩, fun _ => ⟨?_, ?_⟩⟩, ⟨rfl, ⟨_, rfl⟩, fun _ => ⟨?_, ?_⟩⟩, ⟨.inl rfl, fun _ => ?_⟩, ⟨rfl, ⟨_, rfl⟩, fun _ => ⟨?_, ?_⟩⟩, ⟨.inl rfl, fun _ => ?_⟩, trivial⟩
  · intro v y hv h
    simp only [Sit.step, Sit.empty, upd] at h
    grind
  · intro v y h; cases h
  · intro v y hv h
    simp only [Sit.step, Sit.empty, upd] at h
    grind
  · intro v y h; cases h
  · intro u v x y q hu hv hx hy
    simp only [Sit.step, Sit.empty, upd, gridGeo, e4, e6] at hu hv
    grind
  · intro v y hv h
    simp only [Sit.step, Sit.settle, Option.map_eq_some_iff] at h
    obtain ⟨x, hx, h⟩ := h
    have := home_loc (gridGeo (line2 true 2).topo true 2) x
    rw [h] at this
    simp only [Sit.empty, upd, gridGeo, e4, e6] at hx
    simp only [gridGeo, e5]
    grind
  · intro v y h
    simp only [Sit.step, Sit.settle, Option.bind_eq_some_iff] at h
    obtain ⟨x, hx, h⟩ := h
    have := copyOn_loc h
    rw [home_loc] at this
    simp only [Sit.empty, upd, gridGeo, e4, e6] at hx
    simp only [gridGeo, e5]
    grind
  · intro u v x y q hu hv hx hy
    have hat : ∀ u x, ((((((((Sit.empty.step (gridGeo (line2 true 2).topo true 2) (WOp.add (P := GridSp) 0 7 1)).step (gridGeo (line2 true 2).topo true 2) (WOp.add (P := GridSp) 1 8 5)).step (gridGeo (line2 true 2).topo true 2) (WOp.gmove (P := GridSp) 0 0 7 ⟨4, 0, 0⟩)).step
        (gridGeo (line2 true 2).topo true 2) (WOp.gmove (P := GridSp) 1 0 8 ⟨6, 0, 0⟩)).step (gridGeo (line2 true 2).topo true 2) (WOp.synch (P := GridSp) true)).step (gridGeo (line2 true 2).topo true 2) (WOp.gmove (P := GridSp) 0 0 7 ⟨5, 0, 0⟩))).ag u) = some x →
        (u = 7 ∧ x.2.2 = some ⟨5, 0, 0⟩) ∨ (u = 8 ∧ x.2.2 = some ⟨6, 0, 0⟩) := by
      intro u x h
      by_cases h7 : u = 7
      · subst h7
        left
        simp only [Sit.step, upd, if_true, Option.map_eq_some_iff] at h
        obtain ⟨z, -, rfl⟩ := h
        exact ⟨rfl, congrArg some e5⟩
      · simp only [Sit.step, upd, if_neg h7, Sit.settle, Option.map_eq_some_iff] at h
        obtain ⟨z, hz, rfl⟩ := h
        rw [home_loc]
        simp only [Sit.empty, gridGeo, e4, e6] at hz
        grind
    rcases hat u x hu with ⟨rfl, h1⟩ | ⟨rfl, h1⟩ <;> rcases hat v y hv with ⟨rfl, h2⟩ | ⟨rfl, h2⟩ <;> (clear hat hu hv e4 e5 e6; grind)

end Repast.Context
