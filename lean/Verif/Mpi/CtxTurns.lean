import Verif.Mpi.Context
import Verif.Mpi.Network

/-
C72 for contexts with shared spaces: models in which what a rank does depends on what it finds.
-/
namespace Repast.Mpi.Ctx
open Repast.Dict Repast.Context Repast.Mpi
open Repast.Mixed (Kept form)
open Repast.Network (All)

variable {S P Q : Type} [Proj P Q] [Kept P] (ty : Nat → Nat)

/-- What a rank does by itself. -/
inductive Act (S Q : Type) where
  | add (u : Nat) (s : S)
  | remove (u : Nat)
  | setState (u : Nat) (s : S)
  | gmove (pid u : Nat) (pt : Q)

/-- The operation in a history of all ranks. -/
def Act.of (r : Nat) : Act S Q → WOp S P Q
  | .add u s => .add r u s
  | .remove u => .remove r u
  | .setState u s => .setState r u s
  | .gmove pid u pt => .gmove r pid u pt

def Act.run (c : Cx S P) : Act S Q → Option (Cx S P)
  | .add u s => some (c.add ty u s)
  | .remove u => c.remove ty u
  | .setState u s => c.setState u s
  | .gmove pid u pt => c.gmove pid u pt

/-- What a model does: the ranks do something by themselves, which may depend on the rank and on its context, or all call the same collective function, with arguments that may depend on them, or all add
the same projection. -/
inductive Turn (S P Q : Type) where
  | own (f : Nat → Cx S P → List (Act S Q))
  | request (rs : Nat → Cx S P → List (Nat × Nat))
  | move (ms : Nat → Cx S P → List (Nat × Nat))
  | synch (ghosts : Bool)
  | addProj (p : P)

/-- A turn of rank `r`. -/
def turn (n r : Nat) (t : Turn S P Q) (c : Cx S P) : Prog (Cx S P) :=
  match t with
  | .own f => Prog.lift ((f r c).foldlM (Act.run ty) c)
  | .request rs => requestAgents n r (rs r c) c
  | .move ms => moveAgents ty n r (ms r c) c
  | .synch g => synchronize ty n r g c
  | .addProj p => .ret (c.addProjection p)

/-- The model of rank `r`. -/
def script (n r : Nat) (ts : List (Turn S P Q)) (c : Cx S P) : Prog (Cx S P) := Prog.forM (turn ty n r) ts c

/-- A turn of all ranks, one rank after the other. -/
def wturn (n : Nat) (t : Turn S P Q) (w : Context.World S P) : Option (Context.World S P) :=
  match t with
  | .own f => eachOf n (fun r => (f r (w r)).foldlM (Act.run ty) (w r)) w
  | .request rs => Context.requestAgents n (fun r => rs r (w r)) w
  | .move ms => Context.moveAgents ty n (fun r => ms r (w r)) w
  | .synch g => Context.synchronize ty n g w
  | .addProj p => some fun r => (w r).addProjection p

/-- The same turn as operations of a history. -/
def Turn.ops (n : Nat) (t : Turn S P Q) (w : Context.World S P) : List (WOp S P Q) :=
  match t with
  | .own f => (List.range n).flatMap fun r => (f r (w r)).map (Act.of r)
  | .request rs => [.request fun r => rs r (w r)]
  | .move ms => [.move fun r => ms r (w r)]
  | .synch g => [.synch g]
  | .addProj p => [.addProj p]

/-- `ops` are what the ranks do in the turns `ts`, one rank after the other: as far as none of them raises an exception, and then until one does. -/
inductive Follows (n : Nat) : Context.World S P → List (Turn S P Q) → List (WOp S P Q) → Prop
  | nil (w : Context.World S P) : Follows n w [] []
  | cons {w w' : Context.World S P} {t : Turn S P Q} {ts : List (Turn S P Q)} {ops : List (WOp S P Q)} : wrun ty n w (t.ops n w) = some w' → Follows n w' ts ops → Follows n w (t :: ts) (t.ops n w ++ ops)
  | raises {w : Context.World S P} {t : Turn S P Q} {ts : List (Turn S P Q)} : wrun ty n w (t.ops n w) = none → Follows n w (t :: ts) (t.ops n w)

variable {ty} {n : Nat} {bs : List (Nat × String)}

theorem HasC.act {c : Cx S P} (h : HasC bs c) (a : Act S Q) : All (HasC bs) (Act.run ty c a) := by
  cases a with
  | add u s => exact All.some (h.add u s)
  | remove u => exact h.remove u
  | setState u s => exact h.setState u s
  | gmove pid u pt => exact h.gmove pid u pt

/-- The projections of the ranks after a turn. -/
def formsTurned (bs : List (Nat × String)) : Turn S P Q → List (Nat × String)
  | .addProj p => bs ++ [form p]
  | _ => bs

theorem Same.wturn {w : Context.World S P} (hw : Same n bs w) (t : Turn S P Q) : All (Same n (formsTurned bs t)) (wturn ty n t w) := by
  cases t with
  | own f => exact Same.each fun i hi => All.foldlM (fun c a hc => HasC.act hc a) _ _ (hw i hi)
  | request rs => exact hw.requestAgents _
  | move ms => exact hw.moveAgents _
  | synch g => exact hw.synchronize g
  | addProj p => exact All.some fun i hi => (hw i hi).addProjection p

theorem lock_turn (hn : 0 < n) {w : Context.World S P} (hw : Same n bs w) (t : Turn S P Q) : Lock n (fun i => turn ty n i t (w i)) (wturn ty n t w) := by
  cases t with
  | own f => exact Lock.each _ w
  | request rs => exact lock_requestAgents (fun r => rs r (w r)) w
  | move ms => exact lock_moveAgents hn hw fun r => ms r (w r)
  | synch g => exact lock_synchronize hn hw g
  | addProj p => exact .done fun _ _ => rfl

theorem lock_script (hn : 0 < n) : ∀ (ts : List (Turn S P Q)) (bs : List (Nat × String)) (w : Context.World S P), Same n bs w → Lock n (fun i => script ty n i ts (w i)) (ts.foldlM (fun w t => wturn ty n t w) w) := by
  intro ts
  induction ts with
  | nil => intro _ w _; exact .done fun _ _ => rfl
  | cons t ts ih =>
    intro bs w hw
    rw [List.foldlM_cons, Option.bind_eq_bind]
    exact (lock_turn hn hw t).bind fun w' e => ih _ w' (hw.wturn t w' e)

theorem wstep_of (r : Nat) (a : Act S Q) (w : Context.World S P) : wstep ty n w (a.of r) = Context.at_ n r (fun c => Act.run ty c a) w := by cases a <;> rfl

/-- What one rank does by itself. -/
theorem wrun_rank {r : Nat} (hr : r < n) (as : List (Act S Q)) (w : Context.World S P) {c : Cx S P} (h : as.foldlM (Act.run ty) (w r) = some c) :
    wrun ty n w (as.map (Act.of r)) = some (fun i => if i = r then c else w i) := by
  induction as generalizing w with
  | nil =>
    rw [List.foldlM_nil] at h
    cases h
    show some w = _
    congr 1
    funext i
    split <;> simp_all
  | cons a as ih =>
    rw [List.foldlM_cons, Option.bind_eq_bind] at h
    obtain ⟨c', e, h⟩ := Option.bind_eq_some_iff.1 h
    have hs : wstep ty n w (a.of r) = some (fun i => if i = r then c' else w i) := by
      rw [wstep_of]
      unfold Context.at_
      rw [if_pos hr]
      show (Act.run ty (w r) a).map _ = _
      rw [e]; rfl
    show ((a.of r) :: as.map (Act.of r)).foldlM (wstep ty n) w = _
    rw [List.foldlM_cons, Option.bind_eq_bind, hs]
    show wrun ty n _ (as.map (Act.of r)) = _
    rw [ih (fun i => if i = r then c' else w i) (by simpa using h)]
    congr 1
    funext i
    split <;> simp_all

theorem wrun_own (f : Nat → Cx S P → List (Act S Q)) (w w' : Context.World S P) (h : ∀ i < n, (f i (w i)).foldlM (Act.run ty) (w i) = some (w' i)) :
    ∀ m, m ≤ n → wrun ty n w ((List.range m).flatMap fun r => (f r (w r)).map (Act.of r)) = some (fun i => if i < m then w' i else w i) := by
  intro m
  induction m with
  | zero => intro _; rfl
  | succ m ih =>
    intro hm
    rw [List.range_succ, List.flatMap_append]
    show ((_ ++ _ : List (WOp S P Q)).foldlM (wstep ty n) w) = _
    rw [List.foldlM_append, Option.bind_eq_bind]
    show (wrun ty n w _).bind _ = _
    rw [ih (by omega), Option.bind_some, List.flatMap_cons, List.flatMap_nil, List.append_nil]
    show wrun ty n _ _ = _
    rw [wrun_rank (r := m) (c := w' m) (by omega) (f m (w m)) (fun i => if i < m then w' i else w i) (by simpa using h m (by omega))]
    congr 1
    funext i
    by_cases h1 : i = m
    · subst h1; simp
    · by_cases h2 : i < m
      · simp [h1, h2, show i < m + 1 by omega]
      · simp [h1, h2, show ¬ i < m + 1 by omega]

theorem wrun_turn (t : Turn S P Q) {w w' : Context.World S P} (h : wturn ty n t w = some w') : wrun ty n w (t.ops n w) = some w' := by
  have one : ∀ o : WOp S P Q, wstep ty n w o = some w' → wrun ty n w [o] = some w' := by
    intro o h
    show [o].foldlM (wstep ty n) w = _
    rw [List.foldlM_cons, h]; rfl
  cases t with
  | own f =>
    have := wrun_own (ty := ty) f w w' (eachOf_some h) n (Nat.le_refl n)
    show wrun ty n w ((List.range n).flatMap fun r => (f r (w r)).map (Act.of r)) = _
    rw [this]
    congr 1
    funext i
    by_cases hi : i < n
    · rw [if_pos hi]
    · rw [if_neg hi, Net.eachOf_out h hi]
  | request rs => exact one _ h
  | move ms => exact one _ h
  | synch g => exact one _ h
  | addProj p => exact one _ h

theorem wrun_append (w : Context.World S P) (l l' : List (WOp S P Q)) : wrun ty n w (l ++ l') = (wrun ty n w l).bind fun w => wrun ty n w l' := by
  show (l ++ l').foldlM (wstep ty n) w = _
  rw [List.foldlM_append]; rfl

theorem wrun_rank_none {r : Nat} (hr : r < n) (as : List (Act S Q)) (w : Context.World S P) (h : as.foldlM (Act.run ty) (w r) = none) : wrun ty n w (as.map (Act.of r)) = none := by
  induction as generalizing w with
  | nil => cases h
  | cons a as ih =>
    rw [List.foldlM_cons, Option.bind_eq_bind] at h
    show ((a.of r) :: as.map (Act.of r)).foldlM (wstep ty n) w = _
    rw [List.foldlM_cons, Option.bind_eq_bind, wstep_of]
    unfold Context.at_
    rw [if_pos hr]
    show ((Act.run ty (w r) a).map _).bind _ = none
    cases e : Act.run ty (w r) a with
    | none => rfl
    | some c =>
      rw [e] at h
      exact ih (fun k => if k = r then c else w k) (by simpa using h)

theorem wrun_own_some (f : Nat → Cx S P → List (Act S Q)) (w : Context.World S P) :
    ∀ m, m ≤ n → ∀ u, wrun ty n w ((List.range m).flatMap fun r => (f r (w r)).map (Act.of r)) = some u → (∀ i < m, (f i (w i)).foldlM (Act.run ty) (w i) = some (u i)) ∧ ∀ i, m ≤ i → u i = w i := by
  intro m
  induction m with
  | zero => intro _ u h; cases h; exact ⟨by omega, fun _ _ => rfl⟩
  | succ m ih =>
    intro hm u h
    rw [List.range_succ, List.flatMap_append, wrun_append] at h
    obtain ⟨v, h1, h2⟩ := Option.bind_eq_some_iff.1 h
    obtain ⟨h3, h4⟩ := ih (by omega) v h1
    rw [List.flatMap_cons, List.flatMap_nil, List.append_nil] at h2
    have e : v m = w m := h4 m (Nat.le_refl m)
    cases ec : (f m (w m)).foldlM (Act.run ty) (v m) with
    | none => rw [wrun_rank_none (by omega) _ v ec] at h2; cases h2
    | some c =>
      rw [wrun_rank (by omega) _ v ec] at h2
      cases h2
      refine ⟨fun i hi => ?_, fun i hi => ?_⟩
      · by_cases him : i = m
        · subst him; simp only [if_true]; rw [← e]; rw [e] at ec ⊢; exact ec
        · simp only [him, if_false]; exact h3 i (by omega)
      · simp only [show i ≠ m by omega, if_false]; exact h4 i (by omega)

theorem wrun_turn_none (t : Turn S P Q) {w : Context.World S P} (h : wturn ty n t w = none) : wrun ty n w (t.ops n w) = none := by
  have one : ∀ o : WOp S P Q, wstep ty n w o = none → wrun ty n w [o] = none := by
    intro o h
    show [o].foldlM (wstep ty n) w = _
    rw [List.foldlM_cons, h]; rfl
  cases t with
  | own f =>
    obtain ⟨i, hi, he⟩ := eachOf_none h
    cases e : wrun ty n w ((Turn.own f).ops n w) with
    | none => rfl
    | some u =>
      have := (wrun_own_some f w n (Nat.le_refl n) u e).1 i hi
      rw [he] at this
      cases this
  | request rs => exact one _ h
  | move ms => exact one _ h
  | synch g => exact one _ h
  | addProj p => exact one _ h

/-- The turns are a history. -/
theorem wrun_turns (ts : List (Turn S P Q)) : ∀ w : Context.World S P, ∃ ops, Follows ty n w ts ops ∧ wrun ty n w ops = ts.foldlM (fun w t => wturn ty n t w) w := by
  induction ts with
  | nil => intro w; exact ⟨[], .nil w, rfl⟩
  | cons t ts ih =>
    intro w
    rw [List.foldlM_cons, Option.bind_eq_bind]
    cases h : wturn ty n t w with
    | none => exact ⟨_, .raises (wrun_turn_none t h), wrun_turn_none t h⟩
    | some w1 =>
      obtain ⟨ops, h2, h3⟩ := ih w1
      refine ⟨_, .cons (wrun_turn t h) h2, ?_⟩
      rw [wrun_append, wrun_turn t h]
      exact h3

end Repast.Mpi.Ctx
