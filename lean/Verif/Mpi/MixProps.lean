import Verif.Mpi.Mixed
import Verif.Context.SumSpace
import Verif.Mixed.Props

/-
C72 for contexts with shared spaces and networks: ranks may run at any speed.
-/
namespace Repast.Mpi.Mix
open Repast.Dict Repast.Mixed Repast.Mpi Repast.Tree
open Repast.Context (recv sent Proj GridSp GCfg CSpaceSp CSCfg sumProj plane2)
open Repast.Space (Pt)

/-- Spaces of both kinds in one context. -/
instance {P1 P2 Q1 Q2 : Type} [Proj P1 Q1] [Proj P2 Q2] [k1 : Kept P1] [k2 : Kept P2] : Kept (P1 ⊕ P2) where
  site
    | .inl p => k1.site p
    | .inr p => k2.site p
  add r
    | .inl p, u => k1.add r p u
    | .inr p, u => k2.add r p u
  remove r
    | .inl p, u => k1.remove r p u
    | .inr p, u => k2.remove r p u
  move r
    | .inl p, u, .inl pt, g', h => by
      obtain ⟨x, e, rfl⟩ := Option.map_eq_some_iff.1 h
      exact k1.move r p u pt x e
    | .inr p, u, .inr pt, g', h => by
      obtain ⟨x, e, rfl⟩ := Option.map_eq_some_iff.1 h
      exact k2.move r p u pt x e
    | .inl p, u, .inr pt, g', h => nomatch h
    | .inr p, u, .inl pt, g', h => nomatch h
  clear r
    | .inl p => k1.clear r p
    | .inr p => k2.clear r p
  siteAdd r
    | .inl p, u => k1.siteAdd r p u
    | .inr p, u => k2.siteAdd r p u
  siteRemove r
    | .inl p, u => k1.siteRemove r p u
    | .inr p, u => k2.siteRemove r p u
  siteMove r
    | .inl p, u, .inl pt, g', h => by
      obtain ⟨x, e, rfl⟩ := Option.map_eq_some_iff.1 h
      exact k1.siteMove r p u pt x e
    | .inr p, u, .inr pt, g', h => by
      obtain ⟨x, e, rfl⟩ := Option.map_eq_some_iff.1 h
      exact k2.siteMove r p u pt x e
    | .inl p, u, .inr pt, g', h => nomatch h
    | .inr p, u, .inl pt, g', h => nomatch h
  siteClear r
    | .inl p => k1.siteClear r p
    | .inr p => k2.siteClear r p

variable {S A P Q : Type} [Proj P Q] [Kept P] {n : Nat}

theorem Same.start (ps : List P) (dirs : List Bool) : Same n dirs.length (ps.map form) (Mixed.World.start ps dirs : Mixed.World S A P) := fun i _ =>
  ⟨List.length_map .., by show (ps.map _).map _ = _; rw [List.map_map]; rfl⟩

/-- C72: any history of a model with shared spaces `ps` (grids, continuous spaces, or both) and networks; each rank does its part of it at its own speed. -/
theorem C72_spaces (hn : 0 < n) (nf : Bool) (ps : List P) (dirs : List Bool) (ops : List (WOp S A Q)) (ho : ∀ o ∈ ops, ∀ q, rankOf o = some q → q < n) :
    AnySpeed n (fun r => parts n r nf ops (Mixed.World.start ps dirs r)) (wrun n nf (Mixed.World.start ps dirs) ops) :=
  (lock_parts hn ops _ (Same.start ps dirs) ho).anySpeed

/-- C72: a model in which what a rank does depends on what it finds in its context. There is a history that the ranks follow, whatever speed they have. -/
theorem C72_spaces_adaptive (hn : 0 < n) (nf : Bool) (ps : List P) (dirs : List Bool) (ts : List (Turn S A Q P)) :
    ∃ ops, Follows n nf (Mixed.World.start ps dirs) ts ops ∧
      AnySpeed n (fun r => script n r nf ts (Mixed.World.start ps dirs r)) (wrun n nf (Mixed.World.start ps dirs) ops) := by
  obtain ⟨ops, h, e⟩ := wrun_turns (n := n) (b := nf) ts (Mixed.World.start ps dirs)
  exact ⟨ops, h, by rw [e]; exact (lock_script hn (Same.start ps dirs) nf ts).anySpeed⟩

/-! ### The hypotheses are met -/

/-- Agents with edges walk over borders, are requested, and removed. -/
example : ∀ o ∈ strolls ++ [.synch true], ∀ q, rankOf o = some q → q < 3 := by decide +kernel
example (nf d : Bool) : (wrun 3 nf (gridNets (line 3 2).topo true 2 [d]) (strolls ++ [.synch true])).isSome = true := (legalRun_sound _ _ _ (strolls_legal nf d)).2
example : ∀ o ∈ cstrolls ++ [.synch true], ∀ q, rankOf o = some q → q < 2 := by decide +kernel
example (nf d : Bool) : (wrun 2 nf (cspaceNets (plane2 false) [d]) (cstrolls ++ [.synch true])).isSome = true := (legalRun_sound _ _ _ (cstrolls_legal nf d)).2

/-- Each agent walks one cell further, and over the border between the ranks 0 and 1. -/
def onward : Turn Nat Nat Pt GridSp :=
  .own fun _ c => (Dict.keys c.nc.locals).filterMap fun u => match c.placed 0 u with
    | some (some p) => some (.gmove 0 u ⟨p.x + 1, 0, 0⟩)
    | _ => none

/-- Each rank adds an agent and places it; the agents walk. -/
def walking : List (Turn Nat Nat Pt GridSp) :=
  [.own fun r _ => [.add r r, .gmove 0 r ⟨5 * r + 4, 0, 0⟩], .synch true, onward, .synch true, onward, .synch true]

example : ((walking.foldlM (fun w t => wturn 2 true t w) (Mixed.World.start [(line 2 2).new] [true])).map fun w => ((w 0).agent 0, (w 1).agent 0)) = some (none, some 0) := by
  decide +kernel

/-- Agent 0 is connected with agent 1 of rank 1, walks to rank 1 and is moved back to rank 0. -/
def movedBack : List (Turn Nat Nat Pt GridSp) :=
  walking ++ [.own fun r c => if r = 1 ∧ (c.agent 0).isSome then [.addEdge 0 0 1 [(0, 7)]] else [], .move fun r c => if (c.agent 0).isSome then [(0, 1 - r)] else [], .synch true]

example : ((movedBack.foldlM (fun w t => wturn 2 true t w) (Mixed.World.start [(line 2 0).new] [true])).map fun w =>
    ((w 0).agent 0, (w 1).agent 0, ((w 0).nc.edgeAttr 0 0 1).map (get · 0), ((w 1).nc.edgeAttr 0 0 1).map (get · 0))) = some (some 0, none, some (some 7), some (some 7)) := by
  decide +kernel

end Repast.Mpi.Mix
