import Verif.ValueLayer.Matrix
import Verif.Mpi.Layers

/-!
C77 for ranks at their own speed: each rank has a `ReadWriteValueLayer` (value_layer.py:992-1113), calls `get`, `set` and `swap_layers` as it likes, and all ranks call `_synch_ghosts` now and then.
-/
namespace Repast.Mpi.ReadWrite
open Repast.ValueLayer Repast.Topology Repast.Geometry Repast.Space Repast.Mpi.Layers

variable {V : Type}

/-! ### Programs of one rank -/

/-- value_layer.py:1031-1033 `__init__`, on rank `r`. -/
def rwNew (t : Topo) (buf : Nat) (junkR junkW : Nat → Nat → V) (randR randW : Nat → Nat → Nat → V) (v : Option V) (r : Nat) : Prog (RW V) :=
  (layerNew t buf junkR randR v r).bind fun l => (layerNew t buf junkW randW v r).bind fun w => .ret { read := l, write := w }

/-- value_layer.py:1100-1109 `_synch_ghosts`, on rank `r`. -/
def rwSynch (t : Topo) (buf : Nat) (junkW junkR : Nat → Nat → V) (r : Nat) (s : RW V) : Prog (RW V) :=
  (layerSynch t buf junkW r s.write).bind fun w => (layerSynch t buf junkR r s.read).bind fun l => .ret { read := l, write := w }

/-- Something went wrong. -/
def failed : ValueLayer.Res V → Bool
  | .error => true
  | _ => false

/-- What all ranks do next: calls on their own layers (value_layer.py:1035-1089), which depend on what they have, or `_synch_ghosts`. -/
inductive Turn (V : Type) where
  | own (f : Nat → RW V → List (RWOp V))
  | synch (junkW junkR : Nat → Nat → Nat → V)

def turn (t : Topo) (buf r : Nat) : Turn V → RW V → Prog (RW V)
  | .own f, s => if (s.run (f r s)).2.any failed then .raise else .ret (s.run (f r s)).1
  | .synch junkW junkR, s => rwSynch t buf (junkW r) (junkR r) r s

/-- A new layer, and then one turn after the other. -/
def script (t : Topo) (buf : Nat) (junkR junkW : Nat → Nat → Nat → V) (randR randW : Nat → Nat → Nat → Nat → V) (v : Option V) (ts : List (Turn V)) (r : Nat) : Prog (RW V) :=
  (rwNew t buf (junkR r) (junkW r) (randR r) (randW r) v r).bind fun s => Prog.forM (turn t buf r) ts s

/-! ### What the ranks do together -/

def view (s : RWs V) (r : Nat) : RW V := { read := s.read r, write := s.write r }

def onRank (r : Nat) : RWOp V → List (ROp V)
  | .get p => [.get r p]
  | .set p v => [.set r p v]
  | .swap => [.swap r]
  | .nghs _ => []

/-- What the ranks do by themselves in a turn, one rank after the other. -/
def ownOps (n : Nat) (f : Nat → RW V → List (RWOp V)) (s : RWs V) : List (ROp V) := (List.range n).flatMap fun r => (f r (view s r)).flatMap (onRank r)

/-- The calls are those of the turns. -/
inductive Follows (t : Topo) (buf : Nat) : RWs V → List (Turn V) → List (ROp V) → Prop
  | nil (s : RWs V) : Follows t buf s [] []
  | own {s s' : RWs V} {f : Nat → RW V → List (RWOp V)} {ts : List (Turn V)} {ops : List (ROp V)} : s.run t buf (ownOps t.size f s) = some s' → Follows t buf s' ts ops →
      Follows t buf s (.own f :: ts) (ownOps t.size f s ++ ops)
  | synch {s s' : RWs V} {junkW junkR : Nat → Nat → Nat → V} {ts : List (Turn V)} {ops : List (ROp V)} : s.step t buf (.synch junkW junkR) = some s' → Follows t buf s' ts ops →
      Follows t buf s (.synch junkW junkR :: ts) (.synch junkW junkR :: ops)

/-! ### Lemmas -/

variable {t : Topo} {buf : Nat}

theorem step_view (s : RWs V) (r : Nat) (o : RWOp V) (ho : ∀ p, o ≠ .nghs p) :
    ∃ s', s.run t buf (onRank r o) = some s' ∧ view s' r = ((view s r).step o).1 ∧ ∀ k, k ≠ r → view s' k = view s k := by
  cases o with
  | get p =>
    refine ⟨{ s with read := Space.upd s.read r ((s.read r).get p).1 }, rfl, ?_, fun k hk => ?_⟩
    · simp [view, Space.upd, RW.step]
    · simp [view, Space.upd, hk]
  | set p v =>
    refine ⟨{ s with write := Space.upd s.write r ((s.write r).set p v).1 }, rfl, ?_, fun k hk => ?_⟩
    · simp [view, Space.upd, RW.step]
    · simp [view, Space.upd, hk]
  | swap =>
    refine ⟨{ read := Space.upd s.read r (s.write r), write := Space.upd s.write r (s.read r) }, rfl, ?_, fun k hk => ?_⟩
    · simp [view, Space.upd, RW.step]
    · simp [view, Space.upd, hk]
  | nghs p => exact absurd rfl (ho p)

theorem run_append (s : RWs V) (a b : List (ROp V)) : s.run t buf (a ++ b) = (s.run t buf a).bind fun s' => s'.run t buf b := by
  unfold RWs.run
  rw [List.foldlM_append]
  rfl

theorem own_view (r : Nat) : ∀ (os : List (RWOp V)) (s : RWs V), (∀ p, .nghs p ∉ os) →
    ∃ s', s.run t buf (os.flatMap (onRank r)) = some s' ∧ view s' r = ((view s r).run os).1 ∧ ∀ k, k ≠ r → view s' k = view s k := by
  intro os
  induction os with
  | nil => intro s _; exact ⟨s, rfl, rfl, fun _ _ => rfl⟩
  | cons o os ih =>
    intro s h
    obtain ⟨s1, e1, v1, u1⟩ := step_view (t := t) (buf := buf) s r o fun p e => h p (e ▸ List.mem_cons_self)
    obtain ⟨s2, e2, v2, u2⟩ := ih s1 fun p hm => h p (List.mem_cons_of_mem _ hm)
    refine ⟨s2, ?_, ?_, fun k hk => by rw [u2 k hk, u1 k hk]⟩
    · rw [List.flatMap_cons, run_append, e1]
      exact e2
    · rw [v2, v1]
      rfl

theorem owns_view {n : Nat} (f : Nat → RW V → List (RWOp V)) (s : RWs V) (h : ∀ r < n, ∀ p, .nghs p ∉ f r (view s r)) :
    ∃ s', s.run t buf (ownOps n f s) = some s' ∧ ∀ k, view s' k = if k < n then ((view s k).run (f k (view s k))).1 else view s k := by
  unfold ownOps
  induction n with
  | zero => exact ⟨s, rfl, fun k => by simp⟩
  | succ n ih =>
    obtain ⟨s1, e1, v1⟩ := ih fun r hr => h r (by omega)
    obtain ⟨s2, e2, v2, u2⟩ := own_view (t := t) (buf := buf) n (f n (view s n)) s1 (h n (by omega))
    refine ⟨s2, ?_, fun k => ?_⟩
    · rw [List.range_succ, List.flatMap_append, run_append, e1]
      simpa using e2
    · by_cases e : k = n
      · subst e
        rw [v2, v1 k, if_neg (by omega), if_pos (by omega)]
      · rw [u2 k e, v1 k]
        by_cases c : k < n
        · rw [if_pos c, if_pos (by omega)]
        · rw [if_neg c, if_neg (by omega)]

/-- The layers of rank `r` have a shape. -/
def Shaped (t : Topo) (buf : Nat) (r : Nat) (s : RW V) : Prop := Static (bufBox t buf r) false s.read ∧ Static (bufBox t buf r) false s.write

theorem run_fine (h : Sticky t buf) {r : Nat} (hr : r < t.size) : ∀ (os : List (RWOp V)) (s : RW V), Shaped t buf r s → (∀ p, .nghs p ∉ os) → (s.run os).2.any failed = false := by
  intro os
  induction os with
  | nil => intro s _ _; rfl
  | cons o os ih =>
    intro s hs hn
    have hb := box_sticky h hr
    have hh : ∀ {l : Layer V}, Static (bufBox t buf r) false l → Holds (bufBox t buf r) false l fun p => valAt (bufBox t buf r) l.ten.at_ p := fun hl => ⟨hl, fun p _ _ _ => rfl⟩
    have hn' : ∀ p, RWOp.nghs p ∉ os := fun p hm => hn p (List.mem_cons_of_mem _ hm)
    show ((s.step o).2 :: ((s.step o).1.run os).2).any failed = false
    rw [List.any_cons, Bool.or_eq_false_iff]
    cases o with
    | get p =>
      have hg := (hh hs.1).get hb p
      refine ⟨?_, ih _ ⟨hg.1.static, hs.2⟩ hn'⟩
      show failed (s.read.get p).2 = false
      rw [hg.2]; rfl
    | set p v =>
      have hg := (hh hs.2).set hb p v
      refine ⟨?_, ih _ ⟨hs.1, hg.1.static⟩ hn'⟩
      show failed (s.write.set p v).2 = false
      rw [hg.2]; rfl
    | swap => exact ⟨rfl, ih _ ⟨hs.2, hs.1⟩ hn'⟩
    | nghs p => exact absurd List.mem_cons_self (hn p)

theorem lock_rwSynch (h1 : 0 < t.size) (junkW junkR : Nat → Nat → Nat → V) (s : RWs V) :
    Lock t.size (fun r => rwSynch t buf (junkW r) (junkR r) r (view s r)) ((s.step t buf (.synch junkW junkR)).map view) := by
  have hb := Lock.bind (q := fun r w => (layerSynch t buf (junkR r) r (s.read r)).bind fun l => Prog.ret ({ read := l, write := w } : RW V))
    (o' := fun w => (synch t buf junkR s.read).map fun l r => ({ read := l r, write := w r } : RW V)) (lock_layerSynch (buf := buf) (junk := junkW) (w := s.write) h1) fun w _ =>
      Lock.bind_ret (g := fun r l => ({ read := l, write := w r } : RW V)) (lock_layerSynch (buf := buf) (junk := junkR) (w := s.read) h1) fun _ _ _ _ => rfl
  refine Eq.mp (congrArg (Lock t.size _) ?_) hb
  show _ = ((synch t buf junkW s.write).bind _).map _
  cases synch t buf junkW s.write with
  | none => rfl
  | some w =>
    rw [Option.bind_some, Option.bind_some, Option.map_map]
    rfl

theorem lock_rwNew (h1 : 0 < t.size) (junkR junkW : Nat → Nat → Nat → V) (randR randW : Nat → Nat → Nat → Nat → V) (v : Option V) :
    Lock t.size (fun r => rwNew t buf (junkR r) (junkW r) (randR r) (randW r) v r) ((rwCreate t buf junkR junkW randR randW v).map view) := by
  have hb := Lock.bind (q := fun r l => (layerNew t buf (junkW r) (randW r) v r).bind fun w => Prog.ret ({ read := l, write := w } : RW V))
    (o' := fun l => (create t buf junkW randW v).map fun w r => ({ read := l r, write := w r } : RW V)) (lock_layerNew (buf := buf) (junk := junkR) h1 randR v) fun l _ =>
      Lock.bind_ret (g := fun r w => ({ read := l r, write := w } : RW V)) (lock_layerNew (buf := buf) (junk := junkW) h1 randW v) fun _ _ _ _ => rfl
  refine Eq.mp (congrArg (Lock t.size _) ?_) hb
  show _ = ((create t buf junkR randR v).bind _).map _
  cases create t buf junkR randR v with
  | none => rfl
  | some w =>
    rw [Option.bind_some, Option.bind_some, Option.map_map]
    rfl

theorem lock_turns (h : Sticky t buf) (h1 : 0 < t.size) : ∀ (ts : List (Turn V)) {s : RWs V} {mR mW : Nat → Map V}, Has t buf s.read mR → Has t buf s.write mW →
    (∀ f, Turn.own f ∈ ts → ∀ r x, (∀ p, .nghs p ∉ f r x) ∧ ∀ p v, .set p v ∈ f r x → Reach t buf r p) →
    ∃ ops s', Follows t buf s ts ops ∧ s.run t buf ops = some s' ∧ (∀ r p v, ROp.set r p v ∈ ops → Reach t buf r p) ∧
      Lock t.size (fun r => Prog.forM (turn t buf r) ts (view s r)) (some (view s')) := by
  intro ts
  induction ts with
  | nil => intro s mR mW _ _ _; exact ⟨[], s, .nil s, rfl, fun r p v hm => (by cases hm), .done fun _ _ => rfl⟩
  | cons o ts ih =>
    intro s mR mW hR hW ho
    have ho' : ∀ f, Turn.own f ∈ ts → ∀ r x, (∀ p, .nghs p ∉ f r x) ∧ ∀ p v, .set p v ∈ f r x → Reach t buf r p := fun f hm => ho f (List.mem_cons_of_mem _ hm)
    cases o with
    | own f =>
      obtain ⟨s1, e1, v1⟩ := owns_view (t := t) (buf := buf) (n := t.size) f s fun r _ => (ho f List.mem_cons_self r _).1
      have hr : ∀ r p v, ROp.set r p v ∈ ownOps t.size f s → Reach t buf r p := by
        intro r p v hm
        obtain ⟨k, -, hm⟩ := List.mem_flatMap.1 hm
        obtain ⟨o, ho1, hm⟩ := List.mem_flatMap.1 hm
        cases o with
        | set p' v' =>
          cases List.mem_singleton.1 hm
          exact (ho f List.mem_cons_self _ _).2 _ _ ho1
        | get _ => cases List.mem_singleton.1 hm
        | swap => cases List.mem_singleton.1 hm
        | nghs _ => cases hm
      obtain ⟨s1', e1', g1, g2⟩ := rw_has h (ownOps t.size f s) (m := (mR, mW)) hR hW hr
      rw [e1] at e1'
      cases e1'
      obtain ⟨ops, s2, hf, e2, hr2, hl⟩ := ih g1 g2 ho'
      refine ⟨ownOps t.size f s ++ ops, s2, .own e1 hf, by rw [run_append, e1]; exact e2, fun r p v hm => ?_, ?_⟩
      · rcases List.mem_append.1 hm with hm | hm
        · exact hr r p v hm
        · exact hr2 r p v hm
      · refine hl.congr fun r hr' => ?_
        have et : turn t buf r (.own f) (view s r) = .ret (view s1 r) := by
          show (if ((view s r).run (f r (view s r))).2.any failed then Prog.raise else .ret ((view s r).run (f r (view s r))).1) = _
          rw [run_fine h hr' _ (view s r) ⟨(hR r hr').1, (hW r hr').1⟩ (ho f List.mem_cons_self r _).1, v1 r, if_pos hr']
          rfl
        show (turn t buf r (.own f) (view s r)).bind _ = _
        rw [et]
        rfl
    | synch junkW junkR =>
      obtain ⟨w, e1, g1⟩ := hW.synch h junkW
      obtain ⟨l, e2, g2⟩ := hR.synch h junkR
      have e : s.step t buf (.synch junkW junkR) = some { read := l, write := w } := by
        show (synch t buf junkW s.write).bind _ = _
        rw [e1, Option.bind_some, e2]
        rfl
      obtain ⟨ops, s2, hf, e3, hr2, hl⟩ := ih (s := { read := l, write := w }) g2 g1 ho'
      refine ⟨.synch junkW junkR :: ops, s2, .synch e hf, ?_, fun r p v hm => ?_, ?_⟩
      · show (ROp.synch junkW junkR :: ops).foldlM (RWs.step t buf) s = _
        rw [List.foldlM_cons, e]
        exact e3
      · rcases List.mem_cons.1 hm with hm | hm
        · cases hm
        · exact hr2 r p v hm
      · have hs := lock_rwSynch (t := t) (buf := buf) h1 junkW junkR s
        rw [e] at hs
        exact Lock.bind (q := fun r x => Prog.forM (turn t buf r) ts x) (o' := fun _ => some (view s2)) hs fun f ef => by cases ef; exact hl

/-! ### C77 -/

/-- C77 (what is missing: periodic borders and others, see C40): whatever the speeds of the ranks, and whatever each does with its read/write layer, all ranks get through all turns, none raises an exception, and in the
end `get` returns what it should, as if one rank after the other had made its calls in each turn (`C77_read_write_partial`). -/
theorem C77_any_speed_partial (h : Sticky t buf) (junkR junkW : Nat → Nat → Nat → V) (randR randW : Nat → Nat → Nat → Nat → V) (v : Option V) (ts : List (Turn V))
    (ho : ∀ f, Turn.own f ∈ ts → ∀ r x, (∀ p, .nghs p ∉ f r x) ∧ ∀ p v, .set p v ∈ f r x → Reach t buf r p) :
    ∃ (s0 s : RWs V) (mR mW : Map V) (ops : List (ROp V)), rwCreate t buf junkR junkW randR randW v = some s0 ∧ (∀ x, v = some x → ∀ q, mR q = x ∧ mW q = x) ∧
      Follows t buf s0 ts ops ∧ s0.run t buf ops = some s ∧ AnySpeed t.size (script t buf junkR junkW randR randW v ts) (some (view s)) ∧
      ∀ k q, k < t.size → Reach t buf k q → (((view s k).step (.get q)).2) = .val ((rwWants t (fun _ => mR, fun _ => mW) ops).1 k q) := by
  have h1 : 0 < t.size := by
    unfold Topo.size
    have : 2 * 1 * 1 ≤ t.px * t.py * t.pz := Nat.mul_le_mul (Nat.mul_le_mul h.px h.ok.py) h.ok.pz
    omega
  obtain ⟨s0, e0, mR, mW, hm, hR, hW⟩ := rw_create h junkR junkW randR randW v
  obtain ⟨ops, s, hf, e1, hr, hl⟩ := lock_turns h h1 ts hR hW ho
  obtain ⟨s', e2, g1, -⟩ := rw_has h ops (m := (fun _ => mR, fun _ => mW)) hR hW hr
  rw [e1] at e2
  cases e2
  refine ⟨s0, s, mR, mW, ops, e0, hm, hf, e1, ?_, fun k q hk hq => (g1 k hk).2 q hq⟩
  have hn := lock_rwNew (t := t) (buf := buf) h1 junkR junkW randR randW v
  rw [e0] at hn
  exact Lock.anySpeed (Lock.bind (q := fun r x => Prog.forM (turn t buf r) ts x) (o' := fun _ => some (view s)) hn fun f ef => by cases ef; exact hl)

/-! ### Examples -/

/-- Rank 3 adds one to what it reads at (5, 5); then all swap and synchronize. -/
def exTurns : List (Turn Int) :=
  [.own fun r s => if r = 3 then [.set ⟨5, 5, 0⟩ (match (s.read.get ⟨5, 5, 0⟩).2 with | .val x => x + 1 | _ => 0), .swap] else [.swap], .synch exJunk exJunk]

example : Sticky exT 2 ∧ ∀ f, Turn.own f ∈ exTurns → ∀ r x, (∀ p, .nghs p ∉ f r x) ∧ ∀ p v, .set p v ∈ f r x → Reach exT 2 r p := by
  refine ⟨exT_sticky, fun f hm r x => ?_⟩
  simp only [exTurns, List.mem_cons, Turn.own.injEq, reduceCtorEq, List.not_mem_nil, or_false] at hm
  subst hm
  constructor
  · intro p hp
    dsimp only at hp
    split at hp <;> simp at hp
  · intro p v hp
    dsimp only at hp
    split at hp
    · rename_i e
      simp at hp
      rw [e, hp.1]
      exact ⟨by decide, ⟨⟨0, fun _ => rfl, by decide⟩, fun _ => ⟨0, fun _ => rfl, by decide⟩, fun h => absurd h (by decide)⟩, fun h => absurd h (by decide), fun _ => rfl⟩
    · simp at hp

end Repast.Mpi.ReadWrite
