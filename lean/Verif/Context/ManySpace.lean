import Verif.Context.ManyArrive
import Verif.Context.OneSpace

/-
Contexts with several shared spaces on any number of ranks: every history of adding, removing, changing and moving agents, of `move_agents` and of
`synchronize` is compared with a specification that knows nothing of ranks' data structures, buffers and messages.
-/
namespace Repast.Context
open Repast.Dict Repast.Space

/-! ### Specification -/

/-- Where the agents are: each agent's rank, its state and its location in each space; the states that agents had at the last `synchronize`; and, for each rank and each
space, the agents of which the space has copies, with their locations. -/
structure Many (S Q : Type) where
  ag : Nat → Option (Nat × S × (Nat → Option Q))
  gs : Nat → Option S
  gl : Nat → Nat → Nat → Option Q

def Many.empty {S Q : Type} : Many S Q := ⟨fun _ => none, fun _ => none, fun _ _ _ => none⟩

variable {S P Q : Type} [Proj P Q] {ty : Nat → Nat}

/-- An agent with a location in the first space belongs to the rank whose bounds contain it. -/
def homeOf (X : Spaces Q P) (x : Nat × S × (Nat → Option Q)) : Nat × S × (Nat → Option Q) :=
  match x.2.2 0 with
  | some q => ((X.G 0).owner q, x.2)
  | none => x

open Classical in
/-- The copy of an agent in space `j` of rank `k`: there is one if the agent is on another rank and, in that space, within the buffer of the bounds of `k`. -/
noncomputable def copyAt (X : Spaces Q P) (k j : Nat) (x : Nat × S × (Nat → Option Q)) : Option Q :=
  match x.2.2 j with
  | some q => if 0 < (X.G j).buf ∧ x.1 ≠ k ∧ (X.G j).near k q then some q else none
  | none => none

/-- What `synchronize` does. -/
noncomputable def Many.settle (X : Spaces Q P) (p : Many S Q) : Many S Q :=
  { ag := fun u => (p.ag u).map (homeOf X), gs := fun u => (p.ag u).map (·.2.1), gl := fun k j u => (p.ag u).bind fun x => copyAt X k j (homeOf X x) }

/-- What `move_agents` does before it synchronizes: the agents lose their locations in all spaces. -/
def Many.sendAgents (ms : Nat → List (Nat × Nat)) (p : Many S Q) : Many S Q :=
  { p with ag := fun u => (p.ag u).map fun x => match get (ms x.1) u with | some k => (k, x.2.1, fun _ => none) | none => x }

noncomputable def Many.step (X : Spaces Q P) (p : Many S Q) : WOp S P Q → Many S Q
  | .add r u s => { p with ag := upd p.ag u (some (r, s, fun _ => none)) }
  | .remove _ u => { p with ag := upd p.ag u none }
  | .setState _ u s => { p with ag := upd p.ag u ((p.ag u).map fun x => (x.1, s, x.2.2)) }
  | .gmove _ j u pt => { p with ag := upd p.ag u ((p.ag u).map fun x => (x.1, x.2.1, upd x.2.2 j (some ((X.G j).dest pt)))) }
  | .synch _ => p.settle X
  | .move ms => (p.sendAgents ms).settle X
  | _ => p

/-- Every agent with a location in some space has one in the first, and both are within the bounds of the same rank. -/
def Many.Together (X : Spaces Q P) (p : Many S Q) : Prop :=
  ∀ u x, p.ag u = some x → ∀ j < X.m, ∀ q, x.2.2 j = some q → ∃ q0, x.2.2 0 = some q0 ∧ (X.G 0).owner q0 = (X.G j).owner q

/-- No two agents have the same location in space `j`. -/
def Many.Apart (p : Many S Q) (j : Nat) : Prop := ∀ u v x y q, p.ag u = some x → p.ag v = some y → x.2.2 j = some q → y.2.2 j = some q → u = v

/-- Space `j` of rank `r` has neither another agent than `u` nor a copy at `q`. -/
def Many.Free (p : Many S Q) (r j u : Nat) (q : Q) : Prop :=
  (∀ v y, v ≠ u → p.ag v = some (r, y) → y.2 j ≠ some q) ∧ ∀ v, p.gl r j v ≠ some q

/-- When an operation may be called: only for local agents, `synchronize` with its ghosts if there is a buffer and only if the locations of each agent in all
spaces are within the bounds of the same rank (otherwise `C52_violation_two_grids`), `move_agents` only to ranks without a copy of the agent (otherwise
`C24_violation_move`). If locations are exclusive in a space, see `Sit.Valid`. -/
def Many.Valid (X : Spaces Q P) (p : Many S Q) : WOp S P Q → Prop
  | .add r u _ => r < X.n ∧ p.ag u = none ∧ ∀ j < X.m, p.gl r j u = none
  | .remove r u => ∃ x, p.ag u = some (r, x)
  | .setState r u _ => ∃ x, p.ag u = some (r, x)
  | .gmove r j u pt => j < X.m ∧ (∃ x, p.ag u = some (r, x)) ∧ (X.K j).takes pt ∧ ((X.G j).excl → p.Free r j u ((X.G j).dest pt))
  | .synch g => (g = true ∨ ∀ j < X.m, (X.G j).buf = 0) ∧ p.Together X ∧ ∀ j < X.m, (X.G j).excl → p.Apart j
  | .move ms => (∀ r < X.n, ((ms r).map (·.1)).Nodup ∧ ∀ m ∈ ms r, m.2 < X.n ∧ (∀ j < X.m, p.gl m.2 j m.1 = none) ∧ ∃ x, p.ag m.1 = some (r, x)) ∧
      (p.sendAgents ms).Together X ∧ ∀ j < X.m, (X.G j).excl → (p.sendAgents ms).Apart j
  | .request _ => False
  | .addProj _ => False

noncomputable def Many.run (X : Spaces Q P) (p : Many S Q) (ops : List (WOp S P Q)) : Many S Q := ops.foldl (Many.step X) p

def Many.ValidRun (X : Spaces Q P) (p : Many S Q) : List (WOp S P Q) → Prop
  | [] => True
  | o :: ops => p.Valid X o ∧ (p.step X o).ValidRun X ops

/-! ### The relation between the contexts and the specification -/

/-- The states of the agents of rank `r`. -/
def Many.ls (p : Many S Q) (r u : Nat) : Option S := (p.ag u).bind fun x => if x.1 = r then some x.2.1 else none

/-- The locations of the agents in space `j`. -/
def Many.ll (p : Many S Q) (j u : Nat) : Option Q := (p.ag u).bind fun x => x.2.2 j

theorem Many.ls_some {p : Many S Q} {r u : Nat} {s : S} : p.ls r u = some s ↔ ∃ f, p.ag u = some (r, s, f) := by
  unfold Many.ls
  cases h : p.ag u with
  | none => simp
  | some x =>
    obtain ⟨k, s', f⟩ := x
    simp only [Option.bind_some, Option.some.injEq, Prod.mk.injEq]
    split <;> simp_all

theorem Many.ls_isSome {p : Many S Q} {r u : Nat} : (p.ls r u).isSome = true ↔ ∃ x, p.ag u = some (r, x) := by
  rw [Option.isSome_iff_exists]
  constructor
  · rintro ⟨s, h⟩
    obtain ⟨f, h⟩ := Many.ls_some.1 h
    exact ⟨_, h⟩
  · rintro ⟨x, h⟩
    exact ⟨x.1, Many.ls_some.2 ⟨x.2, h⟩⟩

theorem Many.ls_none {p : Many S Q} {r k u : Nat} {y : S × (Nat → Option Q)} (h : p.ag u = some (k, y)) (hne : k ≠ r) : p.ls r u = none := by
  unfold Many.ls; simp [h, hne]

theorem Many.ll_of {p : Many S Q} {u : Nat} {x : Nat × S × (Nat → Option Q)} (h : p.ag u = some x) (j : Nat) : p.ll j u = x.2.2 j := by
  unfold Many.ll; simp [h]

structure WM (X : Spaces Q P) (ty : Nat → Nat) (w : World S P) (p : Many S Q) : Prop where
  mi : ∀ r < X.n, MI X ty r (w r) (p.ls r) p.ll p.gs (p.gl r)
  lt : ∀ u x, p.ag u = some x → x.1 < X.n

variable {X : Spaces Q P} {w : World S P} {p : Many S Q}

theorem WM.locIn (h : WM X ty w p) {u j : Nat} (hj : j < X.m) {x : Nat × S × (Nat → Option Q)} {q : Q} (e : p.ag u = some x) (hq : x.2.2 j = some q) : (X.G j).valid q :=
  (h.mi x.1 (h.lt u _ e)).locIn hj (Many.ls_isSome.2 ⟨x.2, e⟩) (by rw [Many.ll_of e]; exact hq)

theorem WM.init (X : Spaces Q P) (ty : Nat → Nat) : WM (S := S) X ty (World.start ((List.range X.m).map fun j => (X.K j).new)) Many.empty :=
  ⟨fun r _ => MI.init X ty r, by intro u x h; cases h⟩

/-! ### The operations of one rank -/

theorem WM.at (h : WM X ty w p) {r u : Nat} (hr : r < X.n) {c : Cx S P} {x : Option (S × (Nat → Option Q))} (hother : ∀ k, k ≠ r → p.ls k u = none)
    (hc : MI X ty r c (upd (p.ls r) u (x.map (·.1))) (fun j => upd (p.ll j) u (x.bind fun y => y.2 j)) p.gs (p.gl r)) :
    WM X ty (upd w r c) { p with ag := upd p.ag u (x.map fun y => (r, y)) } := by
  have hll : ∀ j v, Many.ll { p with ag := upd p.ag u (x.map fun y => (r, y)) } j v = upd (p.ll j) u (x.bind fun y => y.2 j) v := by
    intro j v
    by_cases hv : v = u
    · subst hv
      simp only [Many.ll, upd, if_true]
      cases x <;> rfl
    · simp [Many.ll, upd, hv]
  refine ⟨?_, ?_⟩
  · intro k hk
    by_cases e : k = r
    · subst e
      have : upd w k c k = c := by simp [upd]
      rw [this]
      refine hc.congr ?_ (fun v _ j _ => hll j v) (fun _ _ _ => rfl) (fun _ _ _ _ => rfl)
      intro v
      by_cases hv : v = u
      · subst hv
        simp only [Many.ls, upd, if_true]
        cases x <;> simp
      · simp [Many.ls, upd, hv]
    · have : upd w r c k = w k := by simp [upd, e]
      rw [this]
      refine (h.mi k hk).congr ?_ ?_ (fun _ _ _ => rfl) (fun _ _ _ _ => rfl)
      · intro v
        by_cases hv : v = u
        · subst hv
          rw [hother k e]
          have : ¬ r = k := fun e' => e e'.symm
          simp only [Many.ls, upd, if_true]
          cases x <;> simp [this]
        · simp [Many.ls, upd, hv]
      · intro v hv j _
        rw [hll]
        have hne : v ≠ u := by
          rintro rfl
          rw [hother k e] at hv; cases hv
        simp [upd, hne]
  · intro v y hy
    simp only [upd] at hy
    split at hy
    · cases x with
      | none => cases hy
      | some z => cases hy; exact hr
    · exact h.lt v y hy

/-! ### Synchronization -/

theorem homeOf_st (X : Spaces Q P) (x : Nat × S × (Nat → Option Q)) : (homeOf X x).2 = x.2 := by
  unfold homeOf; split <;> rfl

/-- The agents after the movement between ranks, with copies in the first `i` spaces. -/
noncomputable def Many.part (X : Spaces Q P) (p : Many S Q) (i : Nat) : Many S Q := { p.settle X with gl := fun k j u => if j < i then (p.settle X).gl k j u else none }

theorem Many.part_ll (i j u : Nat) : (p.part X i).ll j u = p.ll j u := by
  simp only [Many.part, Many.settle, Many.ll]
  cases p.ag u with
  | none => rfl
  | some x => simp [homeOf_st]

theorem moveOob_m (hT : p.Together X) (hx : ∀ j < X.m, (X.G j).excl → p.Apart j) (b : Bool) (h : WM X ty w { p with gl := fun _ _ _ => none }) :
    ∃ w', moveOob ty X.n b w = some w' ∧ WM X ty w' (p.part X 0) := by
  have hown : ∀ {u x j q}, j < X.m → p.ag u = some x → x.2.2 j = some q →
      (X.G j).owner q < X.n ∧ (X.G j).inside ((X.G j).owner q) q = true ∧ ((X.G j).inside x.1 q = true → x.1 = (X.G j).owner q) := by
    intro u x j q hj e hq
    obtain ⟨a1, a2, a3⟩ := (X.K j).owner_spec (h.locIn (p := { p with gl := fun _ _ _ => none }) hj e hq)
    rw [X.ranks] at a1 a3
    exact ⟨a1, a2, a3 x.1 (h.lt u _ e)⟩
  have hmi : ∀ r < X.n, MI X ty r (w r) (p.ls r) p.ll p.gs (fun _ _ => none) := h.mi
  have hg := fun r (hr : r < X.n) => MI.gather hr (hmi r hr) (by
    intro u hu j hj q hq
    obtain ⟨x, hx⟩ := Many.ls_isSome.1 hu
    rw [Many.ll_of hx] at hq ⊢
    exact hT u _ hx j hj q hq)
  have hgx : ∀ r, ∃ x : Cx S P × List (Nat × OobMsg S Q) × List (Nat × OobMsg S Q) × List Nat, r < X.n → (w r).gatherOob ty X.n = some (x.1, x.2.1 ++ x.2.2.1, x.2.2.2) ∧
      (MI X ty r x.1 (fun u => @ite _ (Departs X r (p.ls r) p.ll u) (Classical.propDecidable _) none (p.ls r u)) p.ll p.gs (fun _ _ => none)) ∧
      (∀ k m, (k, m) ∈ x.2.1 ++ x.2.2.1 ↔ Sent X r (p.ls r) p.ll k m) ∧ ((x.2.1 ++ x.2.2.1).map fun m => (m.2.uid, m.2.pid)).Nodup ∧
      (∀ m ∈ x.2.1, m.2.st.isSome = true) ∧ ∀ k m, (k, m) ∈ x.2.2.1 → ∃ m', (k, m') ∈ x.2.1 ∧ m'.uid = m.uid := by
    intro r
    by_cases hr : r < X.n
    · obtain ⟨c', A, B, mv, a⟩ := hg r hr
      exact ⟨(c', A, B, mv), fun _ => a⟩
    · exact ⟨(w r, [], [], []), fun h => absurd h hr⟩
  obtain ⟨g, hg⟩ := Classical.axiomOfChoice hgx
  unfold moveOob
  simp only []
  obtain ⟨w1, e1, e2⟩ := each_of (w := w) (fun r => (g r).1) (f := fun r => ((w r).gatherOob ty X.n).map (·.1)) (n := X.n) (by
    intro r hr; rw [(hg r hr).1]; rfl)
  rw [e1]
  simp only [Option.bind_some]
  have hgat : ∀ r < X.n, gathered ((w r).gatherOob ty X.n) = (g r).2.1 ++ (g r).2.2.1 := by
    intro r hr
    rw [(hg r hr).1]
    rfl
  have hout : ∀ r < X.n, ∀ k m, (k, m) ∈ gathered ((w r).gatherOob ty X.n) ↔ Sent X r (p.ls r) p.ll k m := by
    intro r hr k m
    rw [hgat r hr, (hg r hr).2.2.1]
  have hp : ∀ k < X.n, ∃ c', (w1 k).processOob ty ((recv X.n (fun r => gathered ((w r).gatherOob ty X.n)) k).map (·.2)) = some (c', []) ∧
      MI X ty k c' ((p.part X 0).ls k) p.ll p.gs (fun _ _ => none) := by
    intro k hk
    have hmem : ∀ m, m ∈ (recv X.n (fun r => gathered ((w r).gatherOob ty X.n)) k).map (·.2) ↔ ∃ r < X.n, Sent X r (p.ls r) p.ll k m := by
      intro m
      rw [List.mem_map]
      constructor
      · rintro ⟨⟨r, m'⟩, hm, rfl⟩
        obtain ⟨a, b⟩ := mem_recv.1 hm
        exact ⟨r, a, (hout r a k m').1 b⟩
      · rintro ⟨r, a, b⟩
        exact ⟨(r, m), mem_recv.2 ⟨a, (hout r a k m).2 b⟩, rfl⟩
    have hhome : ∀ {u x q}, p.ag u = some x → x.2.2 0 = some q → (p.part X 0).ag u = some ((X.G 0).owner q, x.2) := by
      intro u x q e hq
      simp only [Many.part, Many.settle, e, Option.map_some, homeOf, hq]
    have hstay : ∀ {u x}, p.ag u = some x → x.2.2 0 = none → (p.part X 0).ag u = some x := by
      intro u x e hq
      simp only [Many.part, Many.settle, e, Option.map_some, homeOf, hq]
    refine MI.process _ _ _ _ _ _ (e2 k hk ▸ (hg k hk).2.1) ?_ ?_ ?_ ?_ ?_ ?_
    · refine recv_nodup (fun m : OobMsg S Q => (m.uid, m.pid)) ?_ ?_
      · intro r hr
        rw [hgat r hr]
        exact (hg r hr).2.2.2.1.sublist (List.filter_sublist.map _)
      · intro r hr r' hr' m m' hm hm' e
        obtain ⟨-, -, -, -, s, a, -⟩ := (hout r hr k m).1 hm
        obtain ⟨-, -, -, -, s', a', -⟩ := (hout r' hr' k m').1 hm'
        obtain ⟨f, a⟩ := Many.ls_some.1 a
        obtain ⟨f', a'⟩ := Many.ls_some.1 a'
        rw [(Prod.mk.inj e).1, a'] at a
        simp only [Option.some.injEq, Prod.mk.injEq] at a
        exact a.1.symm
    · intro m hm
      obtain ⟨r, hr, a1, a2, a3, a4, s, a5, a6⟩ := (hmem m).1 hm
      obtain ⟨f, hag⟩ := Many.ls_some.1 a5
      have a2' := a2
      rw [Many.ll_of hag] at a2'
      obtain ⟨o1, o2, o3⟩ := hown a1 hag a2'
      obtain ⟨q0, t1, t2⟩ := hT _ _ hag m.pid a1 m.pt a2'
      have hne : r ≠ k := by
        intro e
        rw [e, a4] at a3
        rw [a3] at o2; cases o2
      refine ⟨a1, h.locIn (p := { p with gl := fun _ _ _ => none }) a1 hag a2', a2, s, ?_, ?_, .inl ?_⟩
      · rw [Many.ls_some]
        exact ⟨f, by rw [hhome hag t1, t2, a4]⟩
      · rw [a6]
        split
        · exact .inr rfl
        · exact .inl rfl
      · simp [Many.ls_none hag hne]
    · have hl : (recv X.n (fun r => gathered ((w r).gatherOob ty X.n)) k).map (·.2) =
          (List.range X.n).flatMap fun r => ((gathered ((w r).gatherOob ty X.n)).filter (fun m => decide (m.1 = k))).map (·.2) := by
        unfold recv
        rw [List.map_flatMap]
        simp only [List.map_map]
        rfl
      rw [hl]
      refine Led.flatMap ?_
      intro r hr
      have hr := List.mem_range.1 hr
      rw [hgat r hr, List.filter_append, List.map_append]
      refine Led.append (Led.full ?_) (Led.full ?_)
      · intro m hm
        obtain ⟨m', hm', rfl⟩ := List.mem_map.1 hm
        exact .inl ((hg r hr).2.2.2.2.1 m' (List.mem_filter.1 hm').1)
      · intro m hm
        obtain ⟨⟨k', m'⟩, hm', rfl⟩ := List.mem_map.1 hm
        obtain ⟨hm1, hm2⟩ := List.mem_filter.1 hm'
        simp only [decide_eq_true_eq] at hm2
        subst hm2
        obtain ⟨m2, b1, b2⟩ := (hg r hr).2.2.2.2.2 _ _ hm1
        exact .inr (.inr ⟨m2, List.mem_map.2 ⟨(k', m2), List.mem_filter.2 ⟨b1, by simp⟩, rfl⟩, b2⟩)
    · intro u hu
      cases e : p.ag u with
      | none => simp [Many.ls, Many.part, Many.settle, e]
      | some x =>
        obtain ⟨r, s, f⟩ := x
        have hr : r < X.n := h.lt u _ e
        cases hf : f 0 with
        | none =>
          have h1 : (p.part X 0).ls k u = p.ls k u := by simp [Many.ls, hstay e hf, e]
          rw [h1, if_neg]
          rintro ⟨-, q, hq, -⟩
          rw [Many.ll_of e] at hq
          simp [hf] at hq
        | some q =>
          obtain ⟨o1, o2, o3⟩ := hown X.pos e hf
          cases hc : (X.G 0).inside r q with
          | true =>
            have ho := o3 hc
            simp only at ho
            have h1 : (p.part X 0).ls k u = p.ls k u := by simp [Many.ls, hhome e hf, e, ho]
            rw [h1, if_neg]
            rintro ⟨hs, q', hq, hc'⟩
            obtain ⟨x, hx⟩ := Many.ls_isSome.1 hs
            rw [Many.ll_of e] at hq
            simp only [hf] at hq
            rw [e] at hx
            simp only [Option.some.injEq, Prod.mk.injEq] at hx hq
            rw [← hx.1, ← hq, hc] at hc'
            cases hc'
          | false =>
            have hk' : ¬ (X.G 0).owner q = k := by
              intro e'
              refine hu ⟨u, some (s, none), 0, q⟩ ((hmem _).2 ⟨r, hr, X.pos, ?_, hc, e'.symm, s, Many.ls_some.2 ⟨f, e⟩, rfl⟩) rfl
              rw [Many.ll_of e]; exact hf
            have h1 : (p.part X 0).ls k u = none := by simp [Many.ls, hhome e hf, hk']
            rw [h1]
            by_cases hrk : r = k
            · subst hrk
              rw [if_pos]
              exact ⟨Many.ls_isSome.2 ⟨_, e⟩, q, by rw [Many.ll_of e]; exact hf, hc⟩
            · rw [Many.ls_none e hrk]; simp
    · intro u hu j hj hkey
      refine Eq.symm (ite_eq_left_iff.2 ?_)
      intro hls
      cases hq : p.ll j u with
      | none => rfl
      | some q =>
        exfalso
        obtain ⟨y, hy⟩ := Many.ls_isSome.1 hu
        cases e : p.ag u with
        | none => simp [Many.part, Many.settle, e] at hy
        | some x =>
          obtain ⟨r, s, f⟩ := x
          have hr : r < X.n := h.lt u _ e
          rw [Many.ll_of e] at hq
          obtain ⟨q0, t1, t2⟩ := hT u _ e j hj q hq
          obtain ⟨o1, o2, o3⟩ := hown hj e hq
          obtain ⟨z1, z2, z3⟩ := hown X.pos e t1
          rw [hhome e t1] at hy
          simp only [Option.some.injEq, Prod.mk.injEq] at hy
          by_cases hrk : r = k
          · subst hrk
            apply hls
            rw [if_neg]
            · exact Many.ls_isSome.2 ⟨_, e⟩
            · rintro ⟨-, q', b1, b2⟩
              rw [Many.ll_of e, t1] at b1
              cases b1
              rw [hy.1, b2] at z2
              cases z2
          · apply hkey
            refine List.mem_map.2 ⟨⟨u, if j = 0 then some (s, none) else none, j, q⟩, (hmem _).2 ⟨r, hr, hj, ?_, ?_, ?_, s, Many.ls_some.2 ⟨f, e⟩, rfl⟩, rfl⟩
            · rw [Many.ll_of e]; exact hq
            · cases hc : (X.G j).inside r q with
              | false => rfl
              | true =>
                have := o3 hc
                simp only at this
                exact absurd (this.trans (t2.symm.trans hy.1)) hrk
            · show k = (X.G j).owner q
              rw [← t2, hy.1]
    · intro j hj he u v q hu hv
      have hat : ∀ {u}, at_space ((p.part X 0).ls k u) (p.ll j u) none = some (some q) → ∃ x, p.ag u = some x ∧ x.2.2 j = some q := by
        intro u hu
        unfold at_space at hu
        split at hu
        · simp only [Option.some.injEq] at hu
          cases e : p.ag u with
          | none => simp [Many.ll, e] at hu
          | some x => exact ⟨x, rfl, by rw [Many.ll_of e] at hu; exact hu⟩
        · simp at hu
      obtain ⟨x, hx1, hx2⟩ := hat hu
      obtain ⟨y, hy1, hy2⟩ := hat hv
      exact hx j hj he u v x y q hx1 hy1 hx2 hy2
  obtain ⟨w2, e3, e4⟩ := each_ex (w := w1) (n := X.n) (f := fun r => ((w1 r).processOob ty ((recv X.n (fun r => gathered ((w r).gatherOob ty X.n)) r).map (·.2))).bind fun x => if ((List.range X.n).any fun r => leaving ((w r).gatherOob ty X.n)) && b then x.1.deleteGhosts x.2 else some x.1)
    (R := fun r c => MI X ty r c ((p.part X 0).ls r) p.ll p.gs (fun _ _ => none)) (by
      intro k hk
      obtain ⟨c', a, b⟩ := hp k hk
      refine ⟨c', ?_, b⟩
      simp only [a, Option.bind_some]
      split
      · rfl
      · rfl)
  refine ⟨w2, e3, ?_, ?_⟩
  · intro r hr
    refine (e4 r hr).congr (fun _ => rfl) (fun u _ j _ => Many.part_ll 0 j u) ?_ ?_
    · intro u j _
      simp [Many.part]
    · intro u j _ h
      cases h
  · intro u x hx
    simp only [Many.part, Many.settle, Option.map_eq_some_iff] at hx
    obtain ⟨⟨r, s, f⟩, hy, rfl⟩ := hx
    cases hf : f 0 with
    | none => simp only [homeOf, hf]; exact h.lt u _ hy
    | some q => simp only [homeOf, hf]; exact (hown X.pos hy hf).1

end Repast.Context
