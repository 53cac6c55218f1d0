import Verif.Context.ManyProps
import Verif.Context.SumSpace
import Verif.Context.GridLoose
import Verif.Context.OneCSpace

/-
C24, C25, C26, C36 and C52 for contexts with several shared spaces, on any number of ranks, after any history that is valid for `Verif/Context/ManySpace`. The first space is a grid
with single or multiple occupancy or a continuous space of two or three dimensions, and the others are grids with multiple occupancy.
-/
namespace Repast.Context
open Repast.Dict Repast.Space Repast.Topology Repast.Tree

/-- A shared space. -/
inductive SpaceCfg where
  | grid (t : Topo) (single : Bool) (buf : Nat)
  | cspace (g : CSCfg)

/-- The number of ranks. -/
def SpaceCfg.size : SpaceCfg → Nat
  | .grid t _ _ => t.size
  | .cspace g => g.topo.size

/-- A new space: `SharedGrid(...)` or `SharedCSpace(...)`. -/
def SpaceCfg.new : SpaceCfg → GridSp ⊕ CSpaceSp
  | .grid t single buf => .inl (GCfg.new ⟨t, single, buf⟩)
  | .cspace g => .inr g.new

def SpaceCfg.geo : SpaceCfg → Geo (Pt ⊕ CPt)
  | .grid t single buf => (gridGeo t single buf).left
  | .cspace g => (cspaceGeo g).right

/-- The process grid fits the bounds and the buffer. -/
def SpaceCfg.Fits : SpaceCfg → Prop
  | .grid t _ buf => Setting t buf
  | .cspace g => CSetting g.topo g.buf

/-- A grid with multiple occupancy. -/
def SpaceCfg.Multi : SpaceCfg → Prop
  | .grid _ single _ => single = false
  | .cspace _ => False

def SpaceCfg.strict : ∀ c : SpaceCfg, c.Fits → Loose c.geo (GridSp ⊕ CSpaceSp)
  | .grid _ single _, h => (gridKind h single).strict.left
  | .cspace _, h => (cspaceKind h).strict.right

def SpaceCfg.loose : ∀ c : SpaceCfg, c.Fits → c.Multi → Loose c.geo (GridSp ⊕ CSpaceSp)
  | .grid _ false _, h, _ => (gridLoose h).left
  | .grid _ true _, _, h => by cases h
  | .cspace _, _, h => h.elim

theorem SpaceCfg.geo_n (c : SpaceCfg) : c.geo.n = c.size := by cases c <;> rfl

theorem SpaceCfg.strict_new (c : SpaceCfg) (h : c.Fits) : (c.strict h).new = c.new := by cases c <;> rfl

theorem SpaceCfg.loose_new (c : SpaceCfg) (h : c.Fits) (hm : c.Multi) : (c.loose h hm).new = c.new := by
  cases c with
  | grid t single buf =>
    cases single with
    | false => rfl
    | true => cases hm
  | cspace g => exact hm.elim

theorem SpaceCfg.strict_exact (c : SpaceCfg) (h : c.Fits) : (c.strict h).exact := by cases c <;> trivial

theorem SpaceCfg.loose_exact (c : SpaceCfg) (h : c.Fits) (hm : c.Multi) : ¬ (c.loose h hm).exact := by
  cases c with
  | grid t single buf =>
    cases single with
    | false => exact fun h => h
    | true => cases hm
  | cspace g => exact hm.elim

/-- The spaces of a context: `m` spaces on `n` ranks. -/
structure Layout where
  n : Nat
  m : Nat
  sp : Nat → SpaceCfg

/-- There is a space, all spaces fit the ranks, and all but the first are grids with multiple occupancy. -/
structure Layout.Fits (L : Layout) : Prop where
  pos : 0 < L.m
  ranks : ∀ j, (L.sp j).size = L.n
  fits : ∀ j, (L.sp j).Fits
  multi : ∀ j, 0 < j → (L.sp j).Multi

/-- The contexts of the ranks, with new spaces. -/
def Layout.start {S : Type} (L : Layout) : World S (GridSp ⊕ CSpaceSp) := World.start ((List.range L.m).map fun j => (L.sp j).new)

def Layout.loose (L : Layout) (h : L.Fits) : ∀ j, Loose (L.sp j).geo (GridSp ⊕ CSpaceSp)
  | 0 => (L.sp 0).strict (h.fits 0)
  | j + 1 => (L.sp (j + 1)).loose (h.fits _) (h.multi _ (Nat.succ_pos j))

def Layout.spaces (L : Layout) (h : L.Fits) : Spaces (Pt ⊕ CPt) (GridSp ⊕ CSpaceSp) where
  n := L.n
  m := L.m
  G j := (L.sp j).geo
  K := L.loose h
  ranks j := (SpaceCfg.geo_n _).trans (h.ranks j)
  pos := h.pos
  first := SpaceCfg.strict_exact _ _
  others := by
    intro j hj
    cases j with
    | zero => cases hj
    | succ j => exact SpaceCfg.loose_exact _ _ _

theorem Layout.spaces_start {S : Type} (L : Layout) (h : L.Fits) : (L.spaces h).start (S := S) = L.start := by
  unfold Spaces.start Layout.start
  congr 1
  apply List.map_congr_left
  intro j _
  show (L.loose h j).new = _
  cases j with
  | zero => exact SpaceCfg.strict_new _ _
  | succ j => exact SpaceCfg.loose_new _ _ _

abbrev WOps (S : Type) := List (WOp S (GridSp ⊕ CSpaceSp) (Pt ⊕ CPt))

variable {S : Type} {ty : Nat → Nat}

/-- C24, with several spaces: after any valid history, no exception has been raised, and each rank has exactly the agents of the specification, with their
states and with their locations in all spaces. (Missing: other histories, see `Verif/Context/Violations`; spaces with single occupancy and continuous spaces after the first;
and networks beside the spaces.) -/
theorem C24_spaces_partial (L : Layout) (h : L.Fits) (ops : WOps S) (hv : Many.empty.ValidRun (L.spaces h) ops) :
    ∃ w, wrun ty L.n L.start ops = some w ∧ ∀ r < L.n, ∀ u,
      (∀ s, (w r).agent u = some s ↔ ∃ f, (Many.empty.run (L.spaces h) ops).ag u = some (r, s, f)) ∧
      ∀ s f, (Many.empty.run (L.spaces h) ops).ag u = some (r, s, f) → ∀ j < L.m, (w r).onSpace j u = some (f j) := by
  rw [← L.spaces_start h]
  exact many_agents (L.spaces h) ops hv

/-- C24: one `synchronize` after any valid history, without reference to the specification: there are the same agents with the same states, and each is
local on one rank. -/
theorem C24_spaces_synchronize_partial (L : Layout) (h : L.Fits) (ops : WOps S) (hv : Many.empty.ValidRun (L.spaces h) (ops ++ [.synch true])) :
    ∃ w w', wrun ty L.n L.start ops = some w ∧ synchronize ty L.n true w = some w' ∧
      (∀ u s, (∃ r < L.n, (w' r).agent u = some s) ↔ ∃ r < L.n, (w r).agent u = some s) ∧
      ∀ u, ∀ r < L.n, ∀ r' < L.n, ((w' r).agent u).isSome = true → ((w' r').agent u).isSome = true → r = r' := by
  rw [← L.spaces_start h]
  exact many_synchronize (L.spaces h) ops hv

/-- C52: one `synchronize` after any valid history: an agent with locations is afterwards on the rank whose bounds contain them, at the same location in every space and with
the same state; an agent without a location stays where it is; and on every other rank it is in the first space only as a ghost. (In the other spaces of its old rank it is left
behind: `C52_violation_both_grids`.) -/
theorem C52_spaces_partial (L : Layout) (h : L.Fits) (ops : WOps S) (hv : Many.empty.ValidRun (L.spaces h) (ops ++ [.synch true])) :
    ∃ w w', wrun ty L.n L.start ops = some w ∧ synchronize ty L.n true w = some w' ∧
      ∀ r < L.n, ∀ u s, (w r).agent u = some s →
        ∃ l : Nat → Option (Pt ⊕ CPt), (∀ j < L.m, (w r).onSpace j u = some (l j)) ∧ ∃ r' < L.n, (w' r').agent u = some s ∧ (∀ j < L.m, (w' r').onSpace j u = some (l j)) ∧
          (∀ j < L.m, ∀ q, l j = some q → (L.sp j).geo.inside r' q = true) ∧ (l 0 = none → r' = r) ∧
          ∀ k < L.n, k ≠ r' → (w' k).agent u = none ∧ ((w' k).ghostAgent u = none → (w' k).onSpace 0 u = none) := by
  rw [← L.spaces_start h]
  exact many_home (L.spaces h) ops hv

/-- C25 and C36: after `synchronize`, a rank has a ghost of exactly those agents that are local on another rank and, in some space, at a location within the buffer size of its own
bounds, with the same state. -/
theorem C36_spaces_partial (L : Layout) (h : L.Fits) (ops : WOps S) (hv : Many.empty.ValidRun (L.spaces h) (ops ++ [.synch true])) :
    ∃ w w', wrun ty L.n L.start ops = some w ∧ synchronize ty L.n true w = some w' ∧
      ∀ k < L.n, ∀ u s, (w' k).ghostAgent u = some s ↔
        ∃ r < L.n, r ≠ k ∧ (w' r).agent u = some s ∧ ∃ j < L.m, 0 < (L.sp j).geo.buf ∧ ∃ q, (w' r).onSpace j u = some (some q) ∧ (L.sp j).geo.near k q := by
  rw [← L.spaces_start h]
  exact many_ghosts (L.spaces h) ops hv

/-- C36: after `synchronize`, each space of a rank has, at their locations, the agents of other ranks that are within its buffer; and the first space has no other
agents of other ranks. -/
theorem C36_spaces_locations_partial (L : Layout) (h : L.Fits) (ops : WOps S) (hv : Many.empty.ValidRun (L.spaces h) (ops ++ [.synch true])) :
    ∃ w w', wrun ty L.n L.start ops = some w ∧ synchronize ty L.n true w = some w' ∧
      ∀ k < L.n, ∀ u, (w' k).agent u = none → ∀ q,
        (∀ j < L.m, 0 < (L.sp j).geo.buf → ∀ r < L.n, r ≠ k → ((w' r).agent u).isSome = true → (w' r).onSpace j u = some (some q) → (L.sp j).geo.near k q →
          (w' k).onSpace j u = some (some q)) ∧
        ((w' k).onSpace 0 u = some (some q) →
          0 < (L.sp 0).geo.buf ∧ ∃ r < L.n, r ≠ k ∧ ((w' r).agent u).isSome = true ∧ (w' r).onSpace 0 u = some (some q) ∧ (L.sp 0).geo.near k q) := by
  rw [← L.spaces_start h]
  exact many_buffers (L.spaces h) ops hv

/-- C25: after `synchronize` every ghost has the state of its agent, which is local on another rank. -/
theorem C25_spaces_partial (L : Layout) (h : L.Fits) (ops : WOps S) (hv : Many.empty.ValidRun (L.spaces h) (ops ++ [.synch true])) :
    ∃ w w', wrun ty L.n L.start ops = some w ∧ synchronize ty L.n true w = some w' ∧
      ∀ k < L.n, ∀ u s, (w' k).ghostAgent u = some s → ∃ r < L.n, r ≠ k ∧ (w' r).agent u = some s := by
  obtain ⟨w, w', h1, h2, h3⟩ := C36_spaces_partial (ty := ty) L h ops hv
  refine ⟨w, w', h1, h2, fun k hk u s hg => ?_⟩
  obtain ⟨r, hr, hne, ha, -⟩ := (h3 k hk u s).1 hg
  exact ⟨r, hr, hne, ha⟩

/-- C26: an agent that is removed is, after the next synchronization, on no rank, neither as a local agent nor as a ghost, nor in the first space. -/
theorem C26_spaces_partial (L : Layout) (h : L.Fits) (ops : WOps S) (r u : Nat) (hv : Many.empty.ValidRun (L.spaces h) (ops ++ [.remove r u, .synch true])) :
    ∃ w, wrun ty L.n L.start (ops ++ [.remove r u, .synch true]) = some w ∧
      ∀ k < L.n, (w k).agent u = none ∧ (w k).ghostAgent u = none ∧ (w k).onSpace 0 u = none := by
  rw [← L.spaces_start h]
  exact many_remove (L.spaces h) ops r u hv

/-- C24: one `move_agents` after any valid history, without reference to the specification: an agent that is sent is afterwards on the addressed rank,
with its state, but without a location in any space. -/
theorem C24_spaces_move_partial (L : Layout) (h : L.Fits) (ops : WOps S) (ms : Nat → List (Nat × Nat)) (hv : Many.empty.ValidRun (L.spaces h) (ops ++ [.move ms])) :
    ∃ w w', wrun ty L.n L.start ops = some w ∧ moveAgents ty L.n ms w = some w' ∧
      (∀ r < L.n, ∀ u k s, (u, k) ∈ ms r → (w r).agent u = some s → (w' k).agent u = some s ∧ ∀ j < L.m, (w' k).onSpace j u = some none) ∧
      (∀ u s, (∃ r < L.n, (w' r).agent u = some s) ↔ ∃ r < L.n, (w r).agent u = some s) ∧
      ∀ u, ∀ r < L.n, ∀ r' < L.n, ((w' r).agent u).isSome = true → ((w' r').agent u).isSome = true → r = r' := by
  rw [← L.spaces_start h]
  exact many_move (L.spaces h) ops ms hv

/-! ### A concrete case -/

/-- A continuous space and a grid of 10 by 10 on two ranks, side by side, with buffers of 2. -/
def planes : Layout where
  n := 2
  m := 2
  sp j := if j = 0 then .cspace (plane2 false) else .grid (plane2 false).topo false 2

theorem planes_fits : planes.Fits where
  pos := by decide
  ranks j := by
    unfold planes
    dsimp only
    split <;> rfl
  fits j := by
    unfold planes
    dsimp only
    split
    · exact plane2_setting false
    · exact (plane2_setting false).1
  multi j hj := by
    unfold planes
    dsimp only
    rw [if_neg (by omega)]
    rfl

/-- An agent walks to the other rank in both spaces and is then removed. -/
def walkBoth : WOps Nat :=
  [.add 0 7 1, .gmove 0 0 7 (.inr ⟨9 / 2, 1, 0⟩), .gmove 0 1 7 (.inl ⟨4, 1, 0⟩), .synch true, .gmove 0 0 7 (.inr ⟨21 / 4, 1, 0⟩), .gmove 0 1 7 (.inl ⟨5, 1, 0⟩), .synch true,
    .remove 1 7, .synch true]

/-- Agent 7 is the only agent and is on rank `r`, where there are no copies. -/
structure Solo (p : Many Nat (Pt ⊕ CPt)) (r : Nat) (f : Nat → Option (Pt ⊕ CPt)) : Prop where
  ag : ∀ u, p.ag u = if u = 7 then some (r, 1, f) else none
  gl : ∀ j v, p.gl r j v = none

theorem Solo.only {p : Many Nat (Pt ⊕ CPt)} {r : Nat} {f : Nat → Option (Pt ⊕ CPt)} (h : Solo p r f) {u : Nat} {x : Nat × Nat × (Nat → Option (Pt ⊕ CPt))} (e : p.ag u = some x) :
    u = 7 ∧ x = (r, 1, f) := by
  rw [h.ag] at e
  split at e
  · exact ⟨by assumption, (Option.some.inj e).symm⟩
  · cases e

theorem Solo.free {p : Many Nat (Pt ⊕ CPt)} {r : Nat} {f : Nat → Option (Pt ⊕ CPt)} (h : Solo p r f) (j : Nat) (q : Pt ⊕ CPt) : p.Free r j 7 q :=
  ⟨fun _ _ hv e => absurd (h.only e).1 hv, fun v => by rw [h.gl]; exact fun e => by cases e⟩

theorem Solo.step {p : Many Nat (Pt ⊕ CPt)} {r : Nat} {f : Nat → Option (Pt ⊕ CPt)} (h : Solo p r f) {X : Spaces (Pt ⊕ CPt) (GridSp ⊕ CSpaceSp)} {j : Nat} {q : Pt ⊕ CPt}
    (hj : j < X.m) (ht : (X.K j).takes q) : p.Valid X (.gmove r j 7 q) ∧ Solo (p.step X (.gmove r j 7 q)) r (upd f j (some ((X.G j).dest q))) := by
  refine ⟨⟨hj, ⟨_, by rw [h.ag]; rfl⟩, ht, fun _ => h.free _ _⟩, ⟨fun u => ?_, h.gl⟩⟩
  show upd p.ag 7 _ u = _
  by_cases hu : u = 7
  · simp [upd, hu, h.ag]
  · simp [upd, hu, h.ag]

theorem Solo.synch {p : Many Nat (Pt ⊕ CPt)} {r r' : Nat} {f : Nat → Option (Pt ⊕ CPt)} (h : Solo p r f) {X : Spaces (Pt ⊕ CPt) (GridSp ⊕ CSpaceSp)}
    (hf : ∀ j < X.m, ∃ q, f j = some q ∧ (X.G j).owner q = r') : p.Valid X (.synch true) ∧ Solo (p.step X (.synch true)) r' f := by
  obtain ⟨q0, h0, ho⟩ := hf 0 X.pos
  have hh : homeOf X (r, (1 : Nat), f) = (r', 1, f) := by
    unfold homeOf
    simp only [h0, ho]
  refine ⟨⟨.inl rfl, ?_, ?_⟩, ⟨fun u => ?_, fun j v => ?_⟩⟩
  · intro u x e j hj q hq
    obtain ⟨-, rfl⟩ := h.only e
    obtain ⟨q', h', ho'⟩ := hf j hj
    refine ⟨q0, h0, ?_⟩
    have : q' = q := Option.some.inj (h'.symm.trans hq)
    rw [ho, ← ho', this]
  · intro j _ _ u v x y q e e' _ _
    rw [(h.only e).1, (h.only e').1]
  · show (p.ag u).map (homeOf X) = _
    rw [h.ag]
    split
    · simp [hh]
    · rfl
  · show (p.ag v).bind (fun x => copyAt X r' j (homeOf X x)) = _
    rw [h.ag]
    split
    · simp only [Option.bind_some, hh, copyAt]
      split
      · rw [if_neg (fun e => e.2.1 (by rw [hh]))]
      · rfl
    · rfl

theorem walkBoth_valid : Many.empty.ValidRun (planes.spaces planes_fits) walkBoth := by
  have hm : ∀ {f : Nat → Option (Pt ⊕ CPt)} {a : CPt} {b : Pt} {r : Nat}, f 0 = some (.inr a) → f 1 = some (.inl b) → cowner (plane2 false).topo a = r → owner (plane2 false).topo b = r →
      ∀ j < (planes.spaces planes_fits).m, ∃ q, f j = some q ∧ ((planes.spaces planes_fits).G j).owner q = r := by
    intro f a b r h0 h1 ha hb j hj
    have : j < 2 := hj
    match j, this with
    | 0, _ => exact ⟨_, h0, ha⟩
    | 1, _ => exact ⟨_, h1, hb⟩
  have s0 : Solo ((Many.empty : Many Nat (Pt ⊕ CPt)).step (planes.spaces planes_fits) (.add 0 7 1)) 0 (fun _ => none) :=
    ⟨fun u => by show upd _ 7 _ u = _; unfold upd; split <;> rfl, fun _ _ => rfl⟩
  have s1 := s0.step (X := planes.spaces planes_fits) (j := 0) (q := .inr ⟨9 / 2, 1, 0⟩) (by decide) trivial
  have s2 := s1.2.step (X := planes.spaces planes_fits) (j := 1) (q := .inl ⟨4, 1, 0⟩) (by decide) trivial
  have s3 := s2.2.synch (X := planes.spaces planes_fits) (r' := 0) (hm rfl rfl (by decide +kernel) (by decide +kernel))
  have s4 := s3.2.step (X := planes.spaces planes_fits) (j := 0) (q := .inr ⟨21 / 4, 1, 0⟩) (by decide) trivial
  have s5 := s4.2.step (X := planes.spaces planes_fits) (j := 1) (q := .inl ⟨5, 1, 0⟩) (by decide) trivial
  have s6 := s5.2.synch (X := planes.spaces planes_fits) (r' := 1) (hm rfl rfl (by decide +kernel) (by decide +kernel))
  refine ⟨⟨by decide, rfl, fun _ _ => rfl⟩, s1.1, s2.1, s3.1, s4.1, s5.1, s6.1, ⟨_, s6.2.ag 7⟩, ⟨.inl rfl, ?_, ?_⟩, trivial⟩
  · intro u x e
    have e' : upd (Many.ag _) 7 none u = some x := e
    unfold upd at e'
    split at e'
    · cases e'
    · exact absurd (s6.2.only e').1 (by assumption)
  · intro j _ _ u v x y q e
    have e' : upd (Many.ag _) 7 none u = some x := e
    unfold upd at e'
    split at e'
    · cases e'
    · exact absurd (s6.2.only e').1 (by assumption)

example : planes.Fits ∧ Many.empty.ValidRun (planes.spaces planes_fits) walkBoth := ⟨planes_fits, walkBoth_valid⟩

/-- What the contexts have after the walk: the agent is on rank 1 in both spaces, with a ghost on rank 0. -/
example : ((wrun (fun _ => 0) 2 planes.start (walkBoth.take 7)).map fun w =>
      ([(w 0).agent 7, (w 1).agent 7, (w 0).ghostAgent 7], [(w 1).onSpace 0 7, (w 1).onSpace 1 7, (w 0).onSpace 0 7])) =
    some ([none, some 1, some 1], [some (some (.inr ⟨21 / 4, 1, 0⟩)), some (some (.inl ⟨5, 1, 0⟩)), some (some (.inr ⟨21 / 4, 1, 0⟩))]) := by decide +kernel

/-! ### Violations outside of these histories -/

/-- C24 is violated without `Together`: an agent that leaves its rank for rank 1 on the first grid and for rank 2 on the second. `synchronize` raises, as rank 2 receives
only the agent's id and cannot create it (context.py:146-165). -/
theorem C24_violation_two_ranks :
    let line : GCfg := { topo := { nd := 1, px := 3, py := 1, pz := 1, periodic := false, box := ⟨0, 9, 0, 0, 0, 0⟩ }, single := false, buf := 0 }
    let ops : List (WOp Nat GridSp Pt) := [.add 0 7 1, .gmove 0 0 7 ⟨4, 0, 0⟩, .gmove 0 1 7 ⟨7, 0, 0⟩]
    (wrun id 3 (World.init [line, line]) ops).isSome = true ∧ wrun id 3 (World.init [line, line]) (ops ++ [.synch true]) = none := by
  intro line ops
  refine ⟨?_, ?_⟩ <;> decide +kernel

/-- C52 is violated if the second grid has single occupancy, although each agent is at the same cell of both grids: agent 7 has gone to cell 5 on rank 1 and on to cell 9, and there is
no agent at cell 5. But agent 8 of rank 0 cannot move to it on the second grid, where agent 7 was left behind. -/
theorem C52_violation_left_behind :
    let grids := [line2 true 0, line2 true 0]
    let ops : List (WOp Nat GridSp Pt) := [.add 0 7 1, .gmove 0 0 7 ⟨5, 0, 0⟩, .gmove 0 1 7 ⟨5, 0, 0⟩, .synch true, .gmove 1 0 7 ⟨9, 0, 0⟩, .gmove 1 1 7 ⟨9, 0, 0⟩, .synch true,
      .add 0 8 1, .gmove 0 0 8 ⟨5, 0, 0⟩, .gmove 0 1 8 ⟨5, 0, 0⟩]
    (wrun id 2 (World.init grids) ops).map (fun w => [(w 1).agent 7, (w 0).agent 7, (w 0).agent 8]) = some [some 1, none, some 1] ∧
    (wrun id 2 (World.init grids) ops).map (fun w => [(w 1).onSpace 0 7, (w 1).onSpace 1 7, (w 0).onSpace 0 8, (w 0).onSpace 1 8]) =
      some [some (some ⟨9, 0, 0⟩), some (some ⟨9, 0, 0⟩), some (some ⟨5, 0, 0⟩), some none] := by
  intro grids ops
  refine ⟨?_, ?_⟩ <;> decide +kernel

end Repast.Context
