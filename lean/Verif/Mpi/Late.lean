import Verif.Mpi.MixProps
import Verif.Mixed.Late

/-
C72 for contexts with shared spaces and networks to which the ranks add more of them later (context.py:70-94).
-/
namespace Repast.Mpi.Mix
open Repast.Dict Repast.Mixed Repast.Mpi Repast.Tree
open Repast.Context (recv sent Proj GridSp GCfg CSpaceSp CSCfg sumProj plane2)
open Repast.Network (All)
open Repast.Space (Pt)

variable {S A P Q : Type} [Proj P Q] [Kept P] {n k : Nat} {bs : List (Nat × String)}

/-! ### Model -/

/-- What the ranks do: as in `Turn`, or they all add a network or a shared space with a new name (context.py:70-94). -/
inductive LTurn (S A Q P : Type) where
  | base (t : Turn S A Q P)
  | addNet (directed : Bool)
  | addSpace (p : P)

/-- A turn of rank `r`. `add_projection` does not call MPI. -/
def lturn (n r : Nat) (b : Bool) (t : LTurn S A Q P) (c : Mx S A P) : Prog (Mx S A P) :=
  match t with
  | .base t => turn n r b t c
  | .addNet d => .ret (c.addNet d)
  | .addSpace p => .ret (c.addSpace p)

/-- The model of rank `r`. -/
def lscript (n r : Nat) (b : Bool) (ts : List (LTurn S A Q P)) (c : Mx S A P) : Prog (Mx S A P) := Prog.forM (lturn n r b) ts c

/-- The turn of all ranks, when they take turns. -/
def wlturn (n : Nat) (b : Bool) (t : LTurn S A Q P) (w : Mixed.World S A P) : Option (Mixed.World S A P) :=
  match t with
  | .base t => wturn n b t w
  | .addNet d => some (w.addNet d)
  | .addSpace p => some (w.addSpace p)

/-! ### Lemmas -/

theorem _root_.Repast.Mixed.HasM.addNet {c : Mx S A P} (h : HasM k bs c) (d : Bool) : HasM (k + 1) bs (c.addNet d) :=
  ⟨by
    show (c.nc.nets ++ [_]).length = k + 1
    rw [List.length_append, show c.nc.nets.length = k from h.nets]; rfl, h.spaces⟩

theorem _root_.Repast.Mixed.HasM.addSpace {c : Mx S A P} (h : HasM k bs c) (p : P) : HasM k (bs ++ [form p]) (c.addSpace p) := by
  refine ⟨h.nets, ?_⟩
  show (c.spaces ++ [_]).map _ = _
  rw [List.map_append, h.spaces, List.map_cons, List.map_nil]
  congr 2
  show form ((keys c.nc.locals ++ keys c.nc.ghosts).foldl (fun p u => Proj.add c.nc.rank p u) p) = form p
  generalize keys c.nc.locals ++ keys c.nc.ghosts = us
  induction us generalizing p with
  | nil => rfl
  | cons u us ih => rw [List.foldl_cons, ih, form_add]

theorem lock_lturn (hn : 0 < n) {w : Mixed.World S A P} (hw : Same n k bs w) (b : Bool) (t : LTurn S A Q P) : Lock n (fun i => lturn n i b t (w i)) (wlturn n b t w) := by
  cases t with
  | base t => exact lock_turn hn hw b t
  | addNet d => exact .done fun _ _ => rfl
  | addSpace p => exact .done fun _ _ => rfl

theorem same_lturn {w w' : Mixed.World S A P} (hw : Same n k bs w) (b : Bool) (t : LTurn S A Q P) (e : wlturn n b t w = some w') : ∃ k' bs', Same n k' bs' w' := by
  cases t with
  | base t => exact ⟨k, bs, hw.wturn b t w' e⟩
  | addNet d => cases e; exact ⟨k + 1, bs, fun i hi => (hw i hi).addNet d⟩
  | addSpace p => cases e; exact ⟨k, bs ++ [form p], fun i hi => (hw i hi).addSpace p⟩

/-! ### Theorem -/

/-- C72: a model with shared spaces and networks, in which the ranks also add spaces and networks, when there are agents, ghosts, edges and other projections already. Whatever speeds the ranks have, they
finish with the contexts that they have when they take turns. -/
theorem C72_late (hn : 0 < n) (nf : Bool) (ps : List P) (dirs : List Bool) (ts : List (LTurn S A Q P)) :
    AnySpeed n (fun r => lscript n r nf ts (Mixed.World.start ps dirs r)) (ts.foldlM (fun w t => wlturn n nf t w) (Mixed.World.start ps dirs)) :=
  (Lock.forM (fun w => ∃ k bs, Same n k bs w) (fun t _ ⟨_, _, hw⟩ => lock_lturn hn hw nf t) (fun t _ _ ⟨_, _, hw⟩ e => same_lturn hw nf t e) ts _ ⟨_, _, Same.start ps dirs⟩).anySpeed

/-! ### Example -/

/-- Each rank adds an agent and places it; the agents walk, so that each rank has a ghost. Then a network and another grid are added, the agents are linked in the new network and placed in the new grid. -/
def lateTurns : List (LTurn Nat Nat Pt GridSp) :=
  [.base (.own fun r _ => [.add r r, .gmove 0 r ⟨4 + r, 0, 0⟩]), .base (.synch true), .addNet false, .addSpace (line 2 1).new,
    .base (.own fun r _ => (if r = 0 then [.addEdge 1 0 1 [(0, 7)]] else []) ++ [.gmove 1 r ⟨4 + r, 0, 0⟩]), .base (.synch true)]

/-- The edge is on both ranks, in the second network only, and rank 1 has agent 0 in both grids. -/
example : ((lateTurns.foldlM (fun w t => wlturn 2 true t w) (Mixed.World.start [(line 2 1).new] [true])).map fun w =>
    (((w 1).nc.edgeAttr 1 0 1).map (get · 0), ((w 1).nc.edgeAttr 0 0 1).map (get · 0), (w 1).placed 0 0, (w 1).placed 1 0)) =
    some (some (some 7), none, some (some ⟨4, 0, 0⟩), some (some ⟨4, 0, 0⟩)) := by
  decide +kernel

end Repast.Mpi.Mix
