import Verif.Mpi.Mixed

/-!
The first part of `move_agents` (context.py:486-546), up to where the value layers of the context are synchronized.
-/
namespace Repast.Mpi.Mix
open Repast.Dict Repast.Mixed Repast.Mpi
open Repast.Context (recv sent Proj)
open Repast.Network (All Has Attr)

variable {S A P Q : Type} [Proj P Q] [Kept P]

/-- context.py:486-546, 248-258: `move_agents` up to the synchronization of the projections. -/
def moveFront (n r : Nat) (netsFirst : Bool) (ms : List (Nat × Nat)) (c : Mx S A P) : Prog (Mx S A P) :=
  (Prog.lift (ms.foldlM (Mx.sendAway n) (c, ([] : List (Nat × Nat × S × Option (Dict Int)))))).bind fun x => (Prog.call "context.py:518" x.2).bind fun l =>
    (Prog.lift (((delivered n r l).map (·.2)).foldlM Mx.arriveOne (x.1, ([] : List Nat)))).bind fun y => (Prog.call "context.py:475" ms).bind fun l =>
      (if Net.anyMoved l then eachNet (fun pid => onNc (Net.agentsMoved n r l pid)) y.1 else .ret y.1).bind fun c =>
        (Prog.lift (c.deleteGhosts y.2)).bind fun c => (preSynch n r netsFirst c).bind fun c =>
          (Prog.lift (c.gatherOob n)).bind fun x => (Prog.call "context.py:543" x.2.1).bind fun l =>
            (Prog.lift (((delivered n r l).map (·.2)).foldlM Mx.processOne (x.1, ([] : List Nat)))).bind fun y => synchGhosts n r netsFirst y.1

/-- `Mixed.moveAgents` (context.py:486-546) up to the synchronization of the projections. -/
def wmoveFront (n : Nat) (netsFirst : Bool) (ms : Nat → List (Nat × Nat)) (w : Mixed.World S A P) : Option (Mixed.World S A P) :=
  let q := (List.range n).map fun r => (ms r).foldlM (Mx.sendAway n) (w r, ([] : List (Nat × Nat × S × Option (Dict Int))))
  (Mixed.each n (fun r => (q[r]?.bind id).map (·.1)) w).bind fun w =>
    let a := (List.range n).map fun r => (((recv n (fun s => sent (q[s]?.bind id)) r).map (·.2)).foldlM Mx.arriveOne (w r, ([] : List Nat)))
    (Mixed.each n (fun r => (a[r]?.bind id).map (·.1)) w).bind fun w =>
      (if (List.range n).all (fun r => (ms r).isEmpty) then some w else Mixed.eachNet (fun pid => Mixed.onNets (Network.agentsMoved n ms pid)) w).bind fun w =>
        (Mixed.each n (fun r => (w r).deleteGhosts (sent (a[r]?.bind id))) w).bind fun w =>
          (Mixed.preSynch n netsFirst w).bind fun w => (Mixed.moveOob n w).bind fun x => Mixed.synchGhosts n netsFirst x.1

variable {n k : Nat} {bs : List (Nat × String)}

theorem moveAgents_front (b : Bool) (ms : Nat → List (Nat × Nat)) (w : Mixed.World S A P) :
    Mixed.moveAgents n b ms w = (wmoveFront n b ms w).bind fun w => Mixed.eachNet (fun pid => Mixed.onNets (Network.postMoved n pid)) w := by
  unfold Mixed.moveAgents wmoveFront
  simp only [Option.bind_assoc]

theorem Same.moveFront {w : Mixed.World S A P} (hw : Same n k bs w) (b : Bool) (ms : Nat → List (Nat × Nat)) : All (Same n k bs) (wmoveFront n b ms w) := by
  unfold wmoveFront
  refine All.bind (p := Same n k bs) (Same.each fun i hi => ?_) fun w hw => All.bind (p := Same n k bs) (Same.each fun i hi => ?_) fun w hw =>
    All.bind (p := Same n k bs) (All.ite (All.some hw) (hw.eachNet fun pid _ hw => hw.onNets fun _ hx => hx.agentsMoved _ pid)) fun w hw =>
      All.bind (p := Same n k bs) (Same.each fun i hi => (hw i hi).deleteGhosts _) fun w hw => (hw.preSynch b).bind fun w hw => hw.moveOob.bind fun x hx => Same.synchGhosts hx b
  · rw [at_range _ hi]
    exact (All.foldlM (p := fun x : Mx S A P × List (Nat × Nat × S × Option (Dict Int)) => HasM k bs x.1) (fun _ _ ha => HasM.sendAway ha _ _) _ _ (hw i hi)).map fun _ h => h
  · rw [at_range _ hi]
    exact (All.foldlM (p := fun x : Mx S A P × List Nat => HasM k bs x.1) (fun _ _ ha => HasM.arriveOne ha _) _ _ (hw i hi)).map fun _ h => h

theorem lock_moveFront (hn : 0 < n) {w : Mixed.World S A P} (hw : Same n k bs w) (b : Bool) (ms : Nat → List (Nat × Nat)) : Lock n (fun i => moveFront n i b (ms i) (w i)) (wmoveFront n b ms w) := by
  unfold wmoveFront
  simp only
  let F : Nat → Option (Mx S A P × List (Nat × Nat × S × Option (Dict Int))) := fun r => (ms r).foldlM (Mx.sendAway n) (w r, ([] : List (Nat × Nat × S × Option (Dict Int))))
  have ha : ∀ j < n, sent (((List.range n).map F)[j]?.bind id) = sent (F j) := fun j hj => by rw [at_range F hj]
  rw [show Mixed.each n (fun r => (((List.range n).map F)[r]?.bind id).map (·.1)) w = eachOf n (fun r => (F r).map (·.1)) w from eachOf_congr (fun i hi => by rw [at_range F hi]) w]
  refine Lock.split (F := F) (out := fun r => sent (F r)) (fun i hi x e => by rw [e]; rfl) fun w1 h1 => ?_
  have hw1 : Same n k bs w1 := fun i hi => (All.foldlM (p := fun x : Mx S A P × List (Nat × Nat × S × Option (Dict Int)) => HasM k bs x.1) (fun _ _ ha => HasM.sendAway ha _ _) _ _ (hw i hi)) _ (h1 i hi)
  refine Lock.called ?_
  let G : Nat → Option (Mx S A P × List Nat) := fun r => ((recv n (fun s => sent (((List.range n).map F)[s]?.bind id)) r).map (·.2)).foldlM Mx.arriveOne (w1 r, ([] : List Nat))
  rw [show Mixed.each n (fun r => (((List.range n).map G)[r]?.bind id).map (·.1)) w1 = eachOf n (fun r => (G r).map (·.1)) w1 from eachOf_congr (fun i hi => by rw [at_range G hi]) w1]
  refine Lock.congr (Lock.split (F := G) (k := fun r y => (Prog.call "context.py:475" (ms r)).bind fun l =>
      (if Net.anyMoved l then eachNet (fun pid => onNc (Net.agentsMoved n r l pid)) y.1 else .ret y.1).bind fun c =>
        (Prog.lift (c.deleteGhosts y.2)).bind fun c => (preSynch n r b c).bind fun c =>
          ((Prog.lift (c.gatherOob n)).bind fun x => (Prog.call "context.py:543" x.2.1).bind fun l =>
            (Prog.lift (((delivered n r l).map (·.2)).foldlM Mx.processOne (x.1, ([] : List Nat)))).bind fun y =>
              synchGhosts n r b y.1)) (out := fun r => sent (G r)) (fun i hi x e => by rw [e]; rfl) fun w2 h2 => ?_) fun i hi => ?_
  · have hw2 : Same n k bs w2 := fun i hi => (All.foldlM (p := fun x : Mx S A P × List Nat => HasM k bs x.1) (fun _ _ ha => HasM.arriveOne ha _) _ _ (hw1 i hi)) _ (h2 i hi)
    refine Lock.called ?_
    refine Lock.bind (o := if (List.range n).all (fun r => (ms r).isEmpty) then some w2 else Mixed.eachNet (fun pid => Mixed.onNets (Network.agentsMoved n ms pid)) w2) ?_ fun w3 e3 => ?_
    · have e : Net.anyMoved ((List.range n).map ms) = !(List.range n).all (fun r => (ms r).isEmpty) := by
        unfold Net.anyMoved
        rw [List.all_map]; rfl
      rw [e]
      cases (List.range n).all (fun r => (ms r).isEmpty) with
      | true => exact .done fun _ _ => rfl
      | false => exact lock_eachNet hn hw2 (fun pid w _ => lock_onNets w (Net.lock_agentsMoved ms pid _)) fun pid _ hw => hw.onNets fun _ hx => hx.agentsMoved _ pid
    · have hw3 : Same n k bs w3 := (All.ite (All.some hw2) (hw2.eachNet fun pid _ hw => hw.onNets fun _ hx => hx.agentsMoved _ pid) : All (Same n k bs) _) w3 e3
      refine Lock.bind ((Lock.each (fun r => (w3 r).deleteGhosts (sent (((List.range n).map G)[r]?.bind id))) w3).congr fun i hi => by rw [at_range G hi]) fun w4 e4 => ?_
      have hw4 : Same n k bs w4 := (Same.each fun i hi => (hw3 i hi).deleteGhosts _) w4 e4
      refine Lock.bind (lock_preSynch hn hw4 b) fun w5 e5 => ?_
      have hw5 := (hw4.preSynch b) w5 e5
      have h6 : ((Mixed.moveOob n w5).bind fun x => Mixed.synchGhosts n b x.1) =
          ((Mixed.moveOob n w5).map (·.1)).bind fun w => Mixed.synchGhosts n b w := by
        rw [Option.bind_map]; rfl
      rw [h6]
      refine Lock.congr (Lock.bind (lock_oob (w := w5)) (q := fun r c => synchGhosts n r b c) fun w6 e6 => ?_) fun i hi => ?_
      · have hw6 : Same n k bs w6 := by
          obtain ⟨x, ex, rfl⟩ := Option.map_eq_some_iff.1 e6
          exact hw5.moveOob x ex
        exact lock_synchGhosts hn hw6 b
      · cases (w5 i).gatherOob n with
        | none => rfl
        | some x =>
          show Prog.coll _ _ _ _ = Prog.coll _ _ _ _
          congr 1
          funext l
          show (Prog.lift _).bind _ = ((Prog.lift _).bind _).bind _
          cases ((delivered n i l).map (·.2)).foldlM Mx.processOne (x.1, ([] : List Nat)) <;> rfl
  · rw [delivered_map (fun j => sent (F j)), ← recv_congr ha]


end Repast.Mpi.Mix
