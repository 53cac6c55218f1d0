import Verif.Context.OneSync

/-
Contexts with one shared space on any number of ranks: every history of adding, removing, changing and moving agents, of `move_agents` and of
`synchronize` is compared with a specification that knows nothing of ranks' data structures, buffers and messages.
-/
namespace Repast.Context
open Repast.Dict Repast.Space

/-! ### Specification -/

/-- Where the agents are: each agent's rank, state and location; and the copies on each rank, with their states and locations. -/
structure Sit (S : Type) (Q : Type := Pt) where
  ag : Nat → Option (Nat × S × Option Q)
  gh : Nat → Nat → Option (S × Q)

def Sit.empty {S Q : Type} : Sit S Q := ⟨fun _ => none, fun _ _ => none⟩

variable {S P Q : Type} {ty : Nat → Nat}

/-- An agent with a location belongs to the rank whose bounds contain it. -/
def home (G : Geo Q) (x : Nat × S × Option Q) : Nat × S × Option Q :=
  match x.2.2 with
  | some q => (G.owner q, x.2)
  | none => x

open Classical in
/-- The copy that rank `k` has of an agent: there is one if the agent is on another rank, within the buffer of the bounds of `k`. -/
noncomputable def copyOn (G : Geo Q) (k : Nat) (x : Nat × S × Option Q) : Option (S × Q) :=
  match x.2.2 with
  | some q => if 0 < G.buf ∧ x.1 ≠ k ∧ G.near k q then some (x.2.1, q) else none
  | none => none

/-- What `synchronize` does. -/
noncomputable def Sit.settle (G : Geo Q) (p : Sit S Q) : Sit S Q :=
  { ag := fun u => (p.ag u).map (home G), gh := fun k u => (p.ag u).bind fun x => copyOn G k (home G x) }

/-- What `move_agents` does before it synchronizes: the agents lose their locations. -/
def Sit.sendAgents (ms : Nat → List (Nat × Nat)) (p : Sit S Q) : Sit S Q :=
  { p with ag := fun u => (p.ag u).map fun x => match get (ms x.1) u with | some k => (k, x.2.1, none) | none => x }

noncomputable def Sit.step (G : Geo Q) (p : Sit S Q) : WOp S P Q → Sit S Q
  | .add r u s => { p with ag := upd p.ag u (some (r, s, none)) }
  | .remove _ u => { p with ag := upd p.ag u none }
  | .setState _ u s => { p with ag := upd p.ag u ((p.ag u).map fun x => (x.1, s, x.2.2)) }
  | .gmove _ _ u pt => { p with ag := upd p.ag u ((p.ag u).map fun x => (x.1, x.2.1, some (G.dest pt))) }
  | .synch _ => p.settle G
  | .move ms => (p.sendAgents ms).settle G
  | _ => p

/-- No two agents have the same location. -/
def Sit.Apart (p : Sit S Q) : Prop := ∀ u v x y q, p.ag u = some x → p.ag v = some y → x.2.2 = some q → y.2.2 = some q → u = v

/-- Rank `r` has neither another agent than `u` nor a copy at `q`. -/
def Sit.Free (p : Sit S Q) (r u : Nat) (q : Q) : Prop :=
  (∀ v y, v ≠ u → p.ag v = some (r, y) → y.2 ≠ some q) ∧ ∀ v y, p.gh r v = some y → y.2 ≠ q

/-- When an operation may be called: only for local agents, `synchronize` with its ghosts if there is a buffer, `move_agents` only to ranks without a copy of
the agent (otherwise `C24_violation_move`). If locations are exclusive, an agent may be moved only to a location that the rank does not know to be occupied, and
`synchronize` may be called only if no two agents have moved to the same location (otherwise `C52_violation_occupied`). -/
def Sit.Valid (G : Geo Q) (p : Sit S Q) : WOp S P Q → Prop
  | .add r u _ => r < G.n ∧ p.ag u = none ∧ p.gh r u = none
  | .remove r u => ∃ x, p.ag u = some (r, x)
  | .setState r u _ => ∃ x, p.ag u = some (r, x)
  | .gmove r pid u pt => pid = 0 ∧ (∃ x, p.ag u = some (r, x)) ∧ (G.excl → p.Free r u (G.dest pt))
  | .synch g => (g = true ∨ G.buf = 0) ∧ (G.excl → p.Apart)
  | .move ms => (∀ r < G.n, ((ms r).map (·.1)).Nodup ∧ ∀ m ∈ ms r, m.2 < G.n ∧ p.gh m.2 m.1 = none ∧ ∃ x, p.ag m.1 = some (r, x)) ∧
      (G.excl → (p.sendAgents ms).Apart)
  | .request _ => False
  | .addProj _ => False

noncomputable def Sit.run (G : Geo Q) (p : Sit S Q) (ops : List (WOp S P Q)) : Sit S Q := ops.foldl (Sit.step G) p

def Sit.ValidRun (G : Geo Q) (p : Sit S Q) : List (WOp S P Q) → Prop
  | [] => True
  | o :: ops => p.Valid G o ∧ (p.step G o).ValidRun G ops

/-! ### The relation between the contexts and the specification -/

/-- The agents of rank `r`. -/
def Sit.lo (p : Sit S Q) (r u : Nat) : Option (S × Option Q) := (p.ag u).bind fun x => if x.1 = r then some x.2 else none

theorem Sit.lo_some {p : Sit S Q} {r u : Nat} {y : S × Option Q} : p.lo r u = some y ↔ p.ag u = some (r, y) := by
  unfold Sit.lo
  cases h : p.ag u with
  | none => simp
  | some x =>
    obtain ⟨k, y'⟩ := x
    simp only [Option.bind_some, Option.some.injEq, Prod.mk.injEq]
    split <;> simp_all

theorem Sit.lo_none {p : Sit S Q} {r k u : Nat} {y : S × Option Q} (h : p.ag u = some (k, y)) (hne : k ≠ r) : p.lo r u = none := by
  unfold Sit.lo; simp [h, hne]

structure WI [Proj P Q] {G : Geo Q} (K : Kind G P) (ty : Nat → Nat) (w : World S P) (p : Sit S Q) : Prop where
  ri : ∀ r < G.n, RI K ty r (w r) (p.lo r) (p.gh r)
  lt : ∀ u x, p.ag u = some x → x.1 < G.n

variable [Proj P Q] {G : Geo Q} {K : Kind G P} {w : World S P} {p : Sit S Q}

theorem WI.locIn (h : WI K ty w p) {u r : Nat} {s : S} {q : Q} (e : p.ag u = some (r, s, some q)) : G.valid q :=
  (h.ri r (h.lt u _ e)).locIn (Sit.lo_some.2 e)

theorem WI.init (K : Kind G P) (ty : Nat → Nat) : WI (S := S) K ty (World.start [K.new]) Sit.empty :=
  ⟨fun r _ => RI.init K ty r, by intro u x h; cases h⟩

/-! ### The operations of one rank -/

theorem WI.at (h : WI K ty w p) {r u : Nat} (hr : r < G.n) {c : Cx S P} {x : Option (S × Option Q)} (hother : ∀ k, k ≠ r → p.lo k u = none)
    (hc : RI K ty r c (upd (p.lo r) u x) (p.gh r)) : WI K ty (upd w r c) { p with ag := upd p.ag u (x.map fun y => (r, y)) } := by
  refine ⟨?_, ?_⟩
  · intro k hk
    simp only [upd]
    split
    · rename_i e
      subst e
      refine hc.congr ?_ (fun _ => rfl)
      intro v
      simp only [Sit.lo, upd]
      split
      · cases x <;> simp
      · rfl
    · rename_i e
      refine (h.ri k hk).congr ?_ (fun _ => rfl)
      intro v
      by_cases hv : v = u
      · subst hv
        rw [hother k e]
        simp only [Sit.lo, upd, if_true]
        cases x with
        | none => rfl
        | some y =>
          have : ¬ r = k := fun e' => e e'.symm
          simp [this]
      · simp [Sit.lo, upd, hv]
  · intro v y hy
    simp only [upd] at hy
    split at hy
    · cases x with
      | none => cases hy
      | some z => cases hy; exact hr
    · exact h.lt v y hy

/-! ### Synchronization -/

theorem updateGhosts_id {n : Nat} {w : World S P} (h : ∀ r < n, (w r).removed = [] ∧ (w r).ghosted = []) : ∃ w', updateGhosts n w = some w' ∧ ∀ r < n, w' r = w r := by
  have h1 : ∃ w1, updateRemoved n w = some w1 ∧ ∀ r < n, w1 r = w r := by
    unfold updateRemoved
    have hm : ∀ r < n, (w r).removedMsgs = [] := by intro r hr; unfold Cx.removedMsgs; rw [(h r hr).1]; rfl
    rw [if_pos]
    · refine each_of _ ?_
      intro r hr
      have : recv n (fun s => (w s).removedMsgs) r = [] := by
        rw [List.eq_nil_iff_forall_not_mem]
        intro x hx
        obtain ⟨a, b⟩ := mem_recv.1 hx
        rw [hm _ a] at b
        simp at b
      rw [this]
      have hr1 := (h r hr).1
      generalize w r = c at hr1
      obtain ⟨_, _, _, _, _, _, _, _⟩ := c
      simp only at hr1
      subst hr1
      rfl
    · rw [List.all_eq_true]
      intro r hr
      rw [hm r (List.mem_range.1 hr)]
      rfl
  obtain ⟨w1, e1, e2⟩ := h1
  have h2 : ∃ w2, updateStates n w1 = some w2 ∧ ∀ r < n, w2 r = w1 r := by
    have hm : ∀ r < n, (w1 r).stateMsgs = some [] := by intro r hr; unfold Cx.stateMsgs; rw [e2 r hr, (h r hr).2]; rfl
    unfold updateStates
    simp only []
    rw [if_pos]
    · refine each_of _ ?_
      intro r hr
      have : recv n (fun r => ((w1 r).stateMsgs).getD []) r = [] := by
        rw [List.eq_nil_iff_forall_not_mem]
        intro x hx
        obtain ⟨a, b⟩ := mem_recv.1 hx
        simp only [hm _ a] at b
        simp at b
      rw [this]
      rfl
    · rw [List.all_eq_true]
      intro r hr
      rw [hm r (List.mem_range.1 hr)]
      rfl
  obtain ⟨w2, e3, e4⟩ := h2
  exact ⟨w2, by unfold updateGhosts; rw [e1]; exact e3, fun r hr => (e4 r hr).trans (e2 r hr)⟩

/-- The agents after the movement between ranks, without copies. -/
def Sit.homes (G : Geo Q) (p : Sit S Q) : Sit S Q := { ag := fun u => (p.ag u).map (home G), gh := fun _ _ => none }

theorem home_loc (G : Geo Q) (x : Nat × S × Option Q) : (home G x).2.2 = x.2.2 := by
  unfold home; split <;> rfl

theorem Sit.homes_at {p : Sit S Q} {k u : Nat} {q : Q} (h : entry ((p.homes G).lo k u) none = some (some q)) : ∃ x, p.ag u = some x ∧ x.2.2 = some q := by
  simp only [entry, Option.map_none, Option.or_none, Option.map_eq_some_iff] at h
  obtain ⟨y, hy, hq⟩ := h
  have := Sit.lo_some.1 hy
  simp only [Sit.homes, Option.map_eq_some_iff] at this
  obtain ⟨x, hx, e⟩ := this
  refine ⟨x, hx, ?_⟩
  rw [← home_loc G, e]
  exact hq

theorem moveOob_g (hx : G.excl → p.Apart) (b : Bool) (h : WI K ty w { p with gh := fun _ _ => none }) :
    ∃ w', moveOob ty G.n b w = some w' ∧ WI K ty w' (p.homes G) := by
  have hown : ∀ {u r s q}, p.ag u = some (r, s, some q) → G.owner q < G.n ∧ G.inside (G.owner q) q = true ∧ (G.inside r q = true → r = G.owner q) := by
    intro u r s q e
    obtain ⟨a1, a2, a3⟩ := K.owner_spec (h.locIn (p := { p with gh := fun _ _ => none }) e)
    exact ⟨a1, a2, a3 r (h.lt u _ e)⟩
  have hlo : ∀ r u, Sit.lo { p with gh := fun _ _ => (none : Option (S × Q)) } r u = p.lo r u := fun _ _ => rfl
  have hg := fun r (hr : r < G.n) => RI.gather (n := G.n) (Nat.le_refl _) ((h.ri r hr).congr (fun u => (hlo r u).symm) (fun _ => rfl))
  have hgx : ∀ r, ∃ x : Cx S P × List (Nat × OobMsg S Q) × List Nat, r < G.n → (w r).gatherOob ty G.n = some x ∧
      (RI K ty r x.1 (fun u => @ite _ (∃ y, p.lo r u = some y ∧ Leaves G r y) (Classical.propDecidable _) none (p.lo r u)) (fun _ => none)) ∧ (x.2.1.map fun m => m.2.uid).Nodup ∧
      ∀ k m, (k, m) ∈ x.2.1 ↔ ∃ s q, p.lo r m.uid = some (s, some q) ∧ G.inside r q = false ∧ k = G.owner q ∧ m = ⟨m.uid, some (s, none), 0, q⟩ := by
    intro r
    by_cases hr : r < G.n
    · obtain ⟨c', out, mv, a1, a2, a3, a4⟩ := hg r hr
      exact ⟨(c', out, mv), fun _ => ⟨a1, a2.congr (fun u => by congr) (fun _ => rfl), a3, a4⟩⟩
    · exact ⟨(w r, [], []), fun h => absurd h hr⟩
  obtain ⟨g, hg⟩ := Classical.axiomOfChoice hgx
  unfold moveOob
  simp only []
  obtain ⟨w1, e1, e2⟩ := each_of (w := w) (fun r => (g r).1) (f := fun r => ((w r).gatherOob ty G.n).map (·.1)) (n := G.n) (by
    intro r hr; rw [(hg r hr).1]; rfl)
  rw [e1]
  simp only [Option.bind_some]
  have hout : ∀ r < G.n, ∀ k m, (k, m) ∈ gathered ((w r).gatherOob ty G.n) ↔
      ∃ s q, p.ag m.uid = some (r, s, some q) ∧ G.inside r q = false ∧ k = G.owner q ∧ m = ⟨m.uid, some (s, none), 0, q⟩ := by
    intro r hr k m
    rw [(hg r hr).1]
    simp only [gathered, (hg r hr).2.2.2, Sit.lo_some]
  have hp : ∀ k < G.n, ∃ c', (w1 k).processOob ty ((recv G.n (fun r => gathered ((w r).gatherOob ty G.n)) k).map (·.2)) = some (c', []) ∧
      RI K ty k c' ((p.homes G).lo k) (fun _ => none) := by
    intro k hk
    have hmem : ∀ m, m ∈ (recv G.n (fun r => gathered ((w r).gatherOob ty G.n)) k).map (·.2) ↔
        ∃ r < G.n, ∃ s q, p.ag m.uid = some (r, s, some q) ∧ G.inside r q = false ∧ k = G.owner q ∧ m = ⟨m.uid, some (s, none), 0, q⟩ := by
      intro m
      rw [List.mem_map]
      constructor
      · rintro ⟨⟨r, m'⟩, hm, rfl⟩
        obtain ⟨a, b⟩ := mem_recv.1 hm
        exact ⟨r, a, (hout r a k m').1 b⟩
      · rintro ⟨r, a, b⟩
        exact ⟨(r, m), mem_recv.2 ⟨a, (hout r a k m).2 b⟩, rfl⟩
    refine RI.process _ _ _ _ (e2 k hk ▸ (hg k hk).2.1) ?_ ?_ ?_ ?_
    · refine recv_nodup (fun m : OobMsg S Q => m.uid) ?_ ?_
      · intro r hr
        rw [(hg r hr).1]
        exact (hg r hr).2.2.1.sublist (List.filter_sublist.map _)
      · intro r hr r' hr' m m' hm hm' e
        obtain ⟨s, q, a, -⟩ := (hout r hr k m).1 hm
        obtain ⟨s', q', a', -⟩ := (hout r' hr' k m').1 hm'
        rw [e, a'] at a
        simp only [Option.some.injEq, Prod.mk.injEq] at a
        exact a.1.symm
    · intro m hm
      obtain ⟨r, hr, s, q, a1, a2, a3, a4⟩ := (hmem m).1 hm
      obtain ⟨o1, o2, o3⟩ := hown a1
      have hne : r ≠ k := by
        intro e
        rw [e, a3] at a2
        rw [a2] at o2; cases o2
      rw [a4]
      refine ⟨rfl, ?_, ?_⟩
      · simp [Sit.lo_none a1 hne]
      · refine ⟨h.locIn (p := { p with gh := fun _ _ => none }) a1, s, rfl, ?_⟩
        rw [Sit.lo_some]
        show (p.ag m.uid).map (home G) = _
        rw [a1, a3]
        rfl
    · intro u hu
      have hu' : ∀ r < G.n, ∀ s q, p.ag u = some (r, s, some q) → G.inside r q = false → k ≠ G.owner q := by
        intro r hr s q b1 b2 b3
        exact hu (List.mem_map.2 ⟨⟨u, some (s, none), 0, q⟩, (hmem _).2 ⟨r, hr, s, q, b1, b2, b3, rfl⟩, rfl⟩)
      cases e : p.ag u with
      | none => simp [Sit.lo, Sit.homes, e]
      | some x =>
        obtain ⟨r, s, l⟩ := x
        have hr := h.lt u _ e
        simp only at hr
        cases l with
        | none =>
          have h1 : (p.homes G).lo k u = p.lo k u := by simp [Sit.lo, Sit.homes, e, home]
          rw [h1, if_neg]
          rintro ⟨y, hy, q, hq, -⟩
          rw [Sit.lo_some, e] at hy
          simp only [Option.some.injEq, Prod.mk.injEq] at hy
          obtain ⟨-, rfl⟩ := hy
          cases hq
        | some q =>
          obtain ⟨o1, o2, o3⟩ := hown e
          cases hc : G.inside r q with
          | true =>
            have ho := o3 hc
            have h1 : (p.homes G).lo k u = p.lo k u := by simp [Sit.lo, Sit.homes, e, home, ho]
            rw [h1, if_neg]
            rintro ⟨y, hy, q', hq, hc'⟩
            rw [Sit.lo_some, e] at hy
            simp only [Option.some.injEq, Prod.mk.injEq] at hy
            obtain ⟨rfl, rfl⟩ := hy
            simp only [Option.some.injEq] at hq
            subst hq
            rw [hc] at hc'; cases hc'
          | false =>
            have hk' := hu' r hr s q e hc
            have h1 : (p.homes G).lo k u = none := by
              have : ¬ G.owner q = k := fun e => hk' e.symm
              simp [Sit.lo, Sit.homes, e, home, this]
            rw [h1]
            by_cases hrk : r = k
            · subst hrk
              rw [if_pos ⟨_, Sit.lo_some.2 e, q, rfl, hc⟩]
            · rw [Sit.lo_none e hrk]; simp
    · intro he u v q hu hv
      obtain ⟨x, hx1, hx2⟩ := Sit.homes_at hu
      obtain ⟨y, hy1, hy2⟩ := Sit.homes_at hv
      exact hx he u v x y q hx1 hy1 hx2 hy2
  obtain ⟨w2, e3, e4⟩ := each_ex (w := w1) (n := G.n) (f := fun r => ((w1 r).processOob ty ((recv G.n (fun r => gathered ((w r).gatherOob ty G.n)) r).map (·.2))).bind fun x => if ((List.range G.n).any fun r => leaving ((w r).gatherOob ty G.n)) && b then x.1.deleteGhosts x.2 else some x.1)
    (R := fun r c => RI K ty r c ((p.homes G).lo r) (fun _ => none)) (by
      intro k hk
      obtain ⟨c', a, b⟩ := hp k hk
      refine ⟨c', ?_, b⟩
      simp only [a, Option.bind_some]
      split
      · rfl
      · rfl)
  refine ⟨w2, e3, e4, ?_⟩
  intro u x hx
  simp only [Sit.homes, Option.map_eq_some_iff] at hx
  obtain ⟨⟨r, s, l⟩, hy, rfl⟩ := hx
  cases l with
  | none => exact h.lt u _ hy
  | some q => exact (hown hy).1

theorem synchGhosts_g (hx : G.excl → p.Apart) (h : WI K ty w (p.homes G)) : ∃ w', synchGhosts G.n w = some w' ∧ WI K ty w' (p.settle G) := by
  have hn : 0 < G.n := K.n_pos
  obtain ⟨w1, e1, e2⟩ := updateGhosts_id (w := w) (n := G.n) (fun r hr => ⟨(h.ri r hr).removed, (h.ri r hr).ghosted⟩)
  have hr1 : ∀ r < G.n, RI K ty r (w1 r) ((p.homes G).lo r) (fun _ => none) := by intro r hr; rw [e2 r hr]; exact h.ri r hr
  have hproj : ∀ r < G.n, ∃ g, (w1 r).projs = [g] ∧ Proj.bufSize g.sp = G.buf := by
    intro r hr
    obtain ⟨g, a, b, -⟩ := (hr1 r hr).grid
    exact ⟨g, a, K.bufSize b⟩
  have hone : synchGhosts G.n w = synchGrid G.n 0 w1 := by
    unfold synchGhosts
    rw [e1]
    obtain ⟨g, hg, -⟩ := hproj 0 hn
    simp only [Option.bind_some, hg]
    show (List.range 1).foldlM _ w1 = _
    simp
  rw [hone]
  have hsame : ∀ u, (p.settle G).ag u = (p.homes G).ag u := fun _ => rfl
  by_cases hb : 0 < G.buf
  · have hin : ∀ r < G.n, ∀ u s q, (p.homes G).lo r u = some (s, some q) → G.inside r q = true := by
      intro r hr u s q hq
      have hq' := Sit.lo_some.1 hq
      simp only [Sit.homes, Option.map_eq_some_iff] at hq'
      obtain ⟨⟨r0, s0, l⟩, hy, hy2⟩ := hq'
      cases l with
      | none => simp [home] at hy2
      | some q0 =>
        simp only [home, Prod.mk.injEq, Option.some.injEq] at hy2
        obtain ⟨a, b, c⟩ := hy2
        subst c
        have := (K.owner_spec ((hr1 r hr).locIn hq)).2.1
        rw [a] at this
        exact this
    have hmsg := fun r (hr : r < G.n) => RI.msgs hb hr (hr1 r hr) (hin r hr)
    have hout : ∀ r < G.n, ∀ k u s q, (k, u, s, q) ∈ ((w1 r).bufferMsgs G.n 0).getD [] ↔
        (p.homes G).ag u = some (r, s, some q) ∧ k < G.n ∧ k ≠ r ∧ G.near k q := by
      intro r hr k u s q
      obtain ⟨l, a, b, -⟩ := hmsg r hr
      rw [a]
      simp only [Option.getD_some, b, Sit.lo_some]
    unfold synchGrid
    simp only []
    rw [if_pos, if_pos]
    · obtain ⟨w2, e3, e4⟩ := each_ex (w := w1) (n := G.n) (f := fun r => ((recv G.n (fun r => ((w1 r).bufferMsgs G.n 0).getD []) r).map (·.2)).foldlM (Cx.bufferOne 0) (w1 r))
        (R := fun r c => RI K ty r c ((p.homes G).lo r) ((p.settle G).gh r)) (by
        intro k hk
        have hmem : ∀ m, m ∈ (recv G.n (fun r => ((w1 r).bufferMsgs G.n 0).getD []) k).map (·.2) ↔
            ∃ r < G.n, (p.homes G).ag m.1 = some (r, m.2.1, some m.2.2) ∧ k ≠ r ∧ G.near k m.2.2 := by
          intro m
          rw [List.mem_map]
          constructor
          · rintro ⟨⟨r, m'⟩, hm, rfl⟩
            obtain ⟨a, b⟩ := mem_recv.1 hm
            obtain ⟨b1, b2, b3, b4⟩ := (hout r a k m'.1 m'.2.1 m'.2.2).1 b
            exact ⟨r, a, b1, b3, b4⟩
          · rintro ⟨r, a, b1, b3, b4⟩
            exact ⟨(r, m), mem_recv.2 ⟨a, (hout r a k m.1 m.2.1 m.2.2).2 ⟨b1, hk, b3, b4⟩⟩, rfl⟩
        have hgh : ∀ u y, (p.settle G).gh k u = some y ↔ ∃ r, (p.homes G).ag u = some (r, y.1, some y.2) ∧ k ≠ r ∧ G.near k y.2 := by
          intro u y
          simp only [Sit.settle, Sit.homes]
          cases hu : p.ag u with
          | none => simp
          | some x =>
            obtain ⟨s, q⟩ := y
            simp only [Option.bind_some, Option.map_some, Option.some.injEq]
            generalize home G x = z
            obtain ⟨r, s', l⟩ := z
            cases l with
            | none => simp [copyOn]
            | some q' =>
              simp only [copyOn, hb, true_and, Prod.mk.injEq, Option.some.injEq]
              constructor
              · intro e
                split at e
                · rename_i hc
                  simp only [Option.some.injEq, Prod.mk.injEq] at e
                  obtain ⟨rfl, rfl⟩ := e
                  exact ⟨r, ⟨rfl, rfl, rfl⟩, fun e => hc.2.1 e.symm, hc.2.2⟩
                · cases e
              · rintro ⟨r', ⟨rfl, rfl, rfl⟩, c1, c2⟩
                rw [if_pos ⟨hb, fun e => c1 e.symm, c2⟩]
        refine RI.buffer hb _ (w1 k) (fun _ => none) _ (hr1 k hk) ?_ ?_ ?_ ?_
        · refine recv_nodup (fun m : Nat × S × Q => m.1) ?_ ?_
          · intro r hr
            obtain ⟨l, a, -, c⟩ := hmsg r hr
            rw [a]
            exact c k
          · intro r hr r' hr' m m' hm hm' e
            have a := ((hout r hr k m.1 m.2.1 m.2.2).1 hm).1
            have a' := ((hout r' hr' k m'.1 m'.2.1 m'.2.2).1 hm').1
            rw [e, a'] at a
            simp only [Option.some.injEq, Prod.mk.injEq] at a
            exact a.1.symm
        · intro m hm
          obtain ⟨r, hr, a1, a2, a3⟩ := (hmem m).1 hm
          have hl := (hr1 r hr).locIn (Sit.lo_some.2 a1)
          exact ⟨Sit.lo_none a1 (fun e => a2 e.symm), rfl, hl, (hgh m.1 m.2).2 ⟨r, a1, a2, a3⟩⟩
        · intro u hu
          cases hg : (p.settle G).gh k u with
          | none => rfl
          | some y =>
            obtain ⟨r, a1, a2, a3⟩ := (hgh u y).1 hg
            exact absurd (List.mem_map.2 ⟨(u, y), (hmem (u, y)).2 ⟨r, h.lt u _ a1, a1, a2, a3⟩, rfl⟩) hu
        · have hat : ∀ {u q}, entry ((p.homes G).lo k u) ((p.settle G).gh k u) = some (some q) → ∃ x, p.ag u = some x ∧ x.2.2 = some q := by
            intro u q hu
            cases hl : (p.homes G).lo k u with
            | some z => exact Sit.homes_at (G := G) (k := k) (by rw [hl] at hu ⊢; simpa [entry] using hu)
            | none =>
              rw [hl] at hu
              simp only [entry, Option.map_none, Option.none_or, Option.map_eq_some_iff, Option.some.injEq] at hu
              obtain ⟨y, hy, rfl⟩ := hu
              obtain ⟨r, hr, -⟩ := (hgh u y).1 hy
              simp only [Sit.homes, Option.map_eq_some_iff] at hr
              obtain ⟨x, hx1, e⟩ := hr
              exact ⟨x, hx1, by rw [← home_loc G, e]⟩
          intro he u v q hu hv
          obtain ⟨x, hx1, hx2⟩ := hat hu
          obtain ⟨y, hy1, hy2⟩ := hat hv
          exact hx he u v x y q hx1 hy1 hx2 hy2)
      exact ⟨w2, e3, fun r hr => (e4 r hr), fun u x hx => h.lt u x hx⟩
    · rw [List.all_eq_true]
      intro r hr
      obtain ⟨l, a, -⟩ := hmsg r (List.mem_range.1 hr)
      rw [a]; rfl
    · rw [List.all_eq_true]
      intro r hr
      obtain ⟨g, a, b⟩ := hproj r (List.mem_range.1 hr)
      rw [a]
      simp [b, hb]
  · refine ⟨w1, ?_, fun r hr => ?_, fun u x hx => h.lt u x hx⟩
    · unfold synchGrid
      simp only []
      rw [if_neg]
      intro hall
      rw [List.all_eq_true] at hall
      have := hall 0 (List.mem_range.2 hn)
      obtain ⟨g, a, b⟩ := hproj 0 hn
      rw [a] at this
      simp [b, hb] at this
    · refine (hr1 r hr).congr (fun u => rfl) ?_
      intro u
      simp only [Sit.settle]
      cases p.ag u with
      | none => rfl
      | some x =>
        simp only [Option.bind_some, copyOn]
        split
        · simp [hb]
        · rfl

theorem preSynch_g (h : WI K ty w p) : ∃ w', each G.n (fun r => (w r).preSynchAll) w = some w' ∧ WI K ty w' { p with gh := fun _ _ => none } := by
  obtain ⟨w', e1, e2⟩ := each_ex (w := w) (n := G.n) (f := fun r => (w r).preSynchAll) (R := fun r c => RI K ty r c (p.lo r) (fun _ => none)) (fun r hr => (h.ri r hr).preSynch)
  exact ⟨w', e1, e2, h.lt⟩

/-- Buffers, movement and buffers again. -/
theorem settle_g (hx : G.excl → p.Apart) (b : Bool) (h : WI K ty w p) :
    ∃ w', ((each G.n (fun r => (w r).preSynchAll) w).bind fun w => (moveOob ty G.n b w).bind fun w => synchGhosts G.n w) = some w' ∧ WI K ty w' (p.settle G) := by
  obtain ⟨w1, e1, h1⟩ := preSynch_g h
  obtain ⟨w2, e2, h2⟩ := moveOob_g hx b h1
  obtain ⟨w3, e3, h3⟩ := synchGhosts_g hx h2
  refine ⟨w3, ?_, h3⟩
  rw [e1]
  simp only [Option.bind_some]
  rw [e2]
  exact e3

theorem synchronize_g (hx : G.excl → p.Apart) {g : Bool} (hg : g = true ∨ G.buf = 0) (h : WI K ty w p) :
    ∃ w', synchronize ty G.n g w = some w' ∧ WI K ty w' (p.settle G) := by
  unfold synchronize
  cases g with
  | true => exact settle_g hx true h
  | false =>
    have hb : G.buf = 0 := by simpa using hg
    have h0 : WI K ty w { p with gh := fun _ _ => none } := by
      refine ⟨fun r hr => (h.ri r hr).congr (fun _ => rfl) ?_, h.lt⟩
      intro u
      exact ((h.ri r hr).buf0 hb u).symm
    obtain ⟨w2, e2, h2⟩ := moveOob_g hx true h0
    refine ⟨w2, e2, fun r hr => (h2.ri r hr).congr (fun _ => rfl) ?_, h2.lt⟩
    intro u
    simp only [Sit.settle, Sit.homes]
    cases p.ag u with
    | none => rfl
    | some x =>
      simp only [Option.bind_some, copyOn]
      split
      · simp [hb]
      · rfl

end Repast.Context
