import Verif.Mixed.Run
import Verif.Mixed.Violations
import Verif.Context.OneCSpace

/-
C24, C36 and C52 for contexts with one shared space and any number of networks: any history of additions, removals, moves, state changes, edges, requests and synchronizations, on any number of ranks.

The networks may make a call raise an exception (`Verif/Mixed/Violations`): the theorems are about histories and calls of `synchronize` that do not raise.
-/
namespace Repast.Mixed
open Repast.Dict Repast.Context Repast.Network Repast.Space Repast.Topology Repast.Tree

variable {S A : Type}

theorem gridKind_readd {t : Topo} {buf : Nat} (hs : Setting t buf) (single : Bool) : Readd (gridKind hs single) := by
  rintro r ⟨cfg, st⟩ u - hu
  show GridSp.mk cfg { st with base := { st.base with agents := upd st.base.agents u (some none) } } = _
  have : upd st.base.agents u (some none) = st.base.agents := by
    funext v
    simp only [upd]
    split
    · rename_i e; subst e; exact hu.symm
    · rfl
  rw [this]

theorem cspaceKind_readd {g : CSCfg} (hs : CSetting g.topo g.buf) : Readd (cspaceKind hs) := by
  rintro r p u ⟨s, rfl, h⟩ hu
  have hc : CSpaceSp.call r ⟨g, some s⟩ (.add u) = (⟨g, some { s with cs := { s.cs with agents := upd s.cs.agents u (some none) } }⟩, .bool true) := rfl
  show (CSpaceSp.call r ⟨g, some s⟩ (.add u)).1 = _
  rw [hc]
  have : upd s.cs.agents u (some none) = s.cs.agents := by
    funext v
    simp only [upd]
    split
    · rename_i e
      subst e
      have hu' : (s.cs.agents v).map (fun o => o.map s.cs.pts) = some none := hu
      cases hv : s.cs.agents v with
      | none => rw [hv] at hu'; cases hu'
      | some o =>
        cases o with
        | none => rfl
        | some q => rw [hv] at hu'; simp at hu'
    · rfl
  rw [this]

variable {P Q : Type} [Proj P Q] {G : Geo Q} {K : Kind G P}

theorem mixed_agents (hre : Readd K) {nf : Bool} {dirs : List Bool} {ops : List (WOp S A Q)} {g : Bool} (hl : LegalRun G nf [] (World.start [K.new] dirs) (ops ++ [.synch g])) {w w' : World S A P}
    (e : wrun G.n nf (World.start [K.new] dirs) ops = some w) (e' : synchronize G.n nf g w = some w') :
    (∀ u s, (∃ r < G.n, (w' r).agent u = some s) ↔ ∃ r < G.n, (w r).agent u = some s) ∧
      ∀ u, ∀ r < G.n, ∀ r' < G.n, ((w' r).agent u).isSome = true → ((w' r').agent u).isSome = true → r = r' := by
  obtain ⟨us, ag, h, hs⟩ := WJ.before hre ops [] _ w _ (WJ.init K dirs) hl e
  exact mixed_population hre hs.2 hs.1 h e'

theorem mixed_homes (hre : Readd K) {nf : Bool} {dirs : List Bool} {ops : List (WOp S A Q)} {g : Bool} (hl : LegalRun G nf [] (World.start [K.new] dirs) (ops ++ [.synch g])) {w w' : World S A P}
    (e : wrun G.n nf (World.start [K.new] dirs) ops = some w) (e' : synchronize G.n nf g w = some w') {r u : Nat} (hr : r < G.n) {s : S} (hu : (w r).agent u = some s) :
    ∃ l : Option Q, (w r).placed 0 u = some l ∧ ∃ r' < G.n, (w' r').agent u = some s ∧ (w' r').placed 0 u = some l ∧
      (∀ q, l = some q → G.inside r' q = true) ∧ (l = none → r' = r) ∧
      ∀ k < G.n, k ≠ r' → (w' k).agent u = none ∧ ∀ q : Q, (w' k).placed 0 u = some (some q) ↔ 0 < G.buf ∧ l = some q ∧ G.near k q := by
  obtain ⟨us, ag, h, hs⟩ := WJ.before hre ops [] _ w _ (WJ.init K dirs) hl e
  exact mixed_home hre hs.2 hs.1 h e' hr hu

/-! ### Grids -/

/-- The contexts of the ranks with a shared grid and the networks `dirs` (`true` for a directed one). -/
def gridNets (t : Topo) (single : Bool) (buf : Nat) (dirs : List Bool) : World S A GridSp := World.start [(⟨t, single, buf⟩ : GCfg).new] dirs

/-- C24, with a shared grid and networks: `synchronize` preserves the agents of all ranks and their states, and each is local on one rank. (Missing: that `synchronize` does not raise, which
is false, see `Verif/Mixed/Violations`; several spaces beside networks.) -/
theorem C24_grid_networks_partial {t : Topo} {buf : Nat} (hs : Setting t buf) (single nf : Bool) (dirs : List Bool) (ops : List (WOp S A Pt)) (g : Bool)
    (hl : LegalRun (gridGeo t single buf) nf [] (gridNets t single buf dirs) (ops ++ [.synch g])) (w w' : World S A GridSp)
    (e : wrun t.size nf (gridNets t single buf dirs) ops = some w) (e' : synchronize t.size nf g w = some w') :
    (∀ u s, (∃ r < t.size, (w' r).agent u = some s) ↔ ∃ r < t.size, (w r).agent u = some s) ∧
      ∀ u, ∀ r < t.size, ∀ r' < t.size, ((w' r).agent u).isSome = true → ((w' r').agent u).isSome = true → r = r' :=
  mixed_agents (gridKind_readd hs single) hl e e'

/-- C52, with a shared grid and networks: after `synchronize` an agent with a location is on the rank whose bounds contain it, at the same location and with the same state; an agent without a
location stays where it is; another rank has it on its grid if and only if it is in its buffer. (Missing as for `C24_grid_networks_partial`.) -/
theorem C52_grid_networks_partial {t : Topo} {buf : Nat} (hs : Setting t buf) (single nf : Bool) (dirs : List Bool) (ops : List (WOp S A Pt)) (g : Bool)
    (hl : LegalRun (gridGeo t single buf) nf [] (gridNets t single buf dirs) (ops ++ [.synch g])) (w w' : World S A GridSp)
    (e : wrun t.size nf (gridNets t single buf dirs) ops = some w) (e' : synchronize t.size nf g w = some w') :
    ∀ r < t.size, ∀ u s, (w r).agent u = some s →
      ∃ l : Option Pt, (w r).placed 0 u = some l ∧ ∃ r' < t.size, (w' r').agent u = some s ∧ (w' r').placed 0 u = some l ∧
        (∀ q, l = some q → (t.bounds r').contains q = true) ∧ (l = none → r' = r) ∧
        ∀ k < t.size, k ≠ r' → (w' k).agent u = none ∧ ∀ q : Pt, (w' k).placed 0 u = some (some q) ↔ 0 < buf ∧ l = some q ∧ Near t buf k q := by
  intro r hr u s hu
  exact mixed_homes (gridKind_readd hs single) hl e e' hr hu

/-! ### Continuous spaces -/

/-- The contexts of the ranks with a shared continuous space and the networks `dirs`. -/
def cspaceNets (g : CSCfg) (dirs : List Bool) : World S A CSpaceSp := World.start [g.new] dirs

/-- C24, with a shared continuous space and networks, as `C24_grid_networks_partial`. -/
theorem C24_cspace_networks_partial {g : CSCfg} (hs : CSetting g.topo g.buf) (nf : Bool) (dirs : List Bool) (ops : List (WOp S A CPt)) (b : Bool)
    (hl : LegalRun (cspaceGeo g) nf [] (cspaceNets g dirs) (ops ++ [.synch b])) (w w' : World S A CSpaceSp)
    (e : wrun g.topo.size nf (cspaceNets g dirs) ops = some w) (e' : synchronize g.topo.size nf b w = some w') :
    (∀ u s, (∃ r < g.topo.size, (w' r).agent u = some s) ↔ ∃ r < g.topo.size, (w r).agent u = some s) ∧
      ∀ u, ∀ r < g.topo.size, ∀ r' < g.topo.size, ((w' r).agent u).isSome = true → ((w' r').agent u).isSome = true → r = r' :=
  mixed_agents (cspaceKind_readd hs) hl e e'

/-- C52, with a shared continuous space and networks, as `C52_grid_networks_partial`. -/
theorem C52_cspace_networks_partial {g : CSCfg} (hs : CSetting g.topo g.buf) (nf : Bool) (dirs : List Bool) (ops : List (WOp S A CPt)) (b : Bool)
    (hl : LegalRun (cspaceGeo g) nf [] (cspaceNets g dirs) (ops ++ [.synch b])) (w w' : World S A CSpaceSp)
    (e : wrun g.topo.size nf (cspaceNets g dirs) ops = some w) (e' : synchronize g.topo.size nf b w = some w') :
    ∀ r < g.topo.size, ∀ u s, (w r).agent u = some s →
      ∃ l : Option CPt, (w r).placed 0 u = some l ∧ ∃ r' < g.topo.size, (w' r').agent u = some s ∧ (w' r').placed 0 u = some l ∧
        (∀ q, l = some q → (g.topo.bounds r').containsC q = true) ∧ (l = none → r' = r) ∧
        ∀ k < g.topo.size, k ≠ r' → (w' k).agent u = none ∧ ∀ q : CPt, (w' k).placed 0 u = some (some q) ↔ 0 < g.buf ∧ l = some q ∧ CNear g.topo g.buf k q := by
  intro r hr u s hu
  exact mixed_homes (cspaceKind_readd hs) hl e e' hr hu

/-! ### Concrete cases -/

/-- A test for `AgentsApart`, if locations are exclusive. -/
def apart [DecidableEq Q] (G : Geo Q) [Decidable G.excl] (us : List Nat) (w : World S A P) : Bool :=
  ! decide G.excl || (List.range G.n).all fun r => (List.range G.n).all fun r' => us.all fun u => us.all fun v =>
    ((w r).agent u).isNone || ((w r').agent v).isNone || (((w r).placed 0 u).bind id : Option Q).isNone || decide ((((w r).placed 0 u).bind id : Option Q) ≠ ((w r').placed 0 v).bind id) || u == v

theorem apart_sound [DecidableEq Q] [Decidable G.excl] {us : List Nat} {w : World S A P} (h : apart G us w = true) : G.excl → AgentsApart (Q := Q) G.n us w := by
  intro he r hr r' hr' u hu v hv q h1 h2 h3 h4
  simp only [apart, he, decide_true, Bool.not_true, Bool.false_eq_true, Bool.false_or, List.all_eq_true, List.mem_range] at h
  have := h r hr r' hr' u hu v hv
  rw [h3, h4] at this
  obtain ⟨a, ha⟩ := Option.isSome_iff_exists.1 h1
  obtain ⟨b, hb⟩ := Option.isSome_iff_exists.1 h2
  rw [ha, hb] at this
  simpa using this

/-- A test for `Legal`. -/
def legal [DecidableEq Q] (G : Geo Q) [Decidable G.excl] (us : List Nat) (w : World S A P) : WOp S A Q → Bool
  | .add _ u _ => ! us.contains u
  | .gmove r _ u pt => ! decide G.excl || us.all fun v => v == u || decide ((w r).placed 0 v ≠ some (some (G.dest pt)))
  | .request rs => (List.range G.n).all fun r => (rs r).all fun m => us.contains m.1 && ((w r).agent m.1).isNone && (((w r).ghostAgent m.1).isSome || (((w r).placed 0 m.1).bind id : Option Q).isNone)
  | .move _ => G.buf == 0 && apart G us w
  | .synch g => (g || G.buf == 0) && apart G us w
  | _ => true

theorem legal_sound [DecidableEq Q] [Decidable G.excl] {us : List Nat} {w : World S A P} {o : WOp S A Q} (h : legal G us w o = true) : Legal G us w o := by
  cases o with
  | add r u s => simpa [legal, Legal] using h
  | gmove r pid u pt =>
    intro he v hv hne
    simp only [legal, he, decide_true, Bool.not_true, Bool.false_or, List.all_eq_true] at h
    have := h v hv
    simp only [Bool.or_eq_true, beq_iff_eq, decide_eq_true_eq] at this
    exact this.resolve_left hne
  | move ms =>
    simp only [legal, Bool.and_eq_true, beq_iff_eq] at h
    exact ⟨h.1, apart_sound h.2⟩
  | request rs =>
    intro r hr m hm
    simp only [legal, List.all_eq_true, List.mem_range] at h
    have := h r hr m hm
    simp only [Bool.and_eq_true, Bool.or_eq_true, Option.isNone_iff_eq_none, List.contains_iff_mem] at this
    refine ⟨this.1.1, this.1.2, ?_⟩
    intro hn q hp
    rw [hn, hp] at this
    simp at this
  | synch g =>
    simp only [legal, Bool.and_eq_true, Bool.or_eq_true, beq_iff_eq] at h
    exact ⟨h.1, apart_sound h.2⟩
  | _ => trivial

/-- A test for `LegalRun`. -/
def legalRun [DecidableEq Q] (G : Geo Q) [Decidable G.excl] (nf : Bool) : List Nat → World S A P → List (WOp S A Q) → Bool
  | _, _, [] => true
  | us, w, o :: ops => legal G us w o && (match wstep G.n nf w o with | some w' => legalRun G nf (added us o) w' ops | none => false)

theorem legalRun_sound [DecidableEq Q] [Decidable G.excl] {nf : Bool} : ∀ (ops : List (WOp S A Q)) (us : List Nat) (w : World S A P), legalRun G nf us w ops = true →
    LegalRun G nf us w ops ∧ (wrun G.n nf w ops).isSome = true := by
  intro ops
  induction ops with
  | nil => intro us w _; exact ⟨trivial, rfl⟩
  | cons o ops ih =>
    intro us w h
    simp only [legalRun, Bool.and_eq_true] at h
    cases e : wstep G.n nf w o with
    | none => rw [e] at h; simp at h
    | some w1 =>
      rw [e] at h
      obtain ⟨h1, h2⟩ := ih _ _ h.2
      refine ⟨⟨legal_sound h.1, ?_⟩, ?_⟩
      · rintro w' hw
        rw [e] at hw
        cases hw
        exact h1
      · unfold wrun
        rw [List.foldlM_cons, Option.bind_eq_bind, e]
        exact h2

instance (t : Topo) (single : Bool) (buf : Nat) : Decidable (gridGeo t single buf).excl := inferInstanceAs (Decidable (single = true))

theorem line_setting : Setting (line 3 2).topo 2 := by
  show Setting { nd := 1, px := 3, py := 1, pz := 1, periodic := false, box := ⟨0, 15, 0, 0, 0, 0⟩ } 2
  refine ⟨?_, ?_, ⟨by decide, by decide⟩, ?_, ?_⟩
  · constructor <;> first | decide | (constructor <;> decide)
  · constructor <;> decide
  · intro _; simp [GoodGrid]
  · intro _; simp [BufFits, BufFits1]

/-- An agent with an edge walks over two borders, another requests an agent from a rank that is not its neighbour, adds an edge to it, and that agent is removed. -/
def strolls : List (WOp Nat Nat Pt) :=
  [.add 0 1 5, .add 0 2 6, .add 2 21 8, .gmove 0 0 1 ⟨2, 0, 0⟩, .gmove 0 0 2 ⟨1, 0, 0⟩, .gmove 2 0 21 ⟨11, 0, 0⟩, .addEdge 0 0 1 2 [(0, 4)], .synch true, .gmove 0 0 1 ⟨8, 0, 0⟩, .synch true,
    .request (fun r => if r = 0 then [(21, 2)] else []), .addEdge 0 0 2 21 [], .setState 1 1 9, .gmove 1 0 1 ⟨13, 0, 0⟩, .synch true, .remove 2 21, .gmove 2 0 1 ⟨9, 0, 0⟩]

theorem strolls_legal (nf d : Bool) : legalRun (gridGeo (line 3 2).topo true 2) nf [] (gridNets (line 3 2).topo true 2 [d]) (strolls ++ [.synch true]) = true := by
  cases nf <;> cases d <;> decide +kernel

example (nf d : Bool) : LegalRun (gridGeo (line 3 2).topo true 2) nf [] (gridNets (line 3 2).topo true 2 [d]) (strolls ++ [.synch true]) ∧
    (wrun 3 nf (gridNets (line 3 2).topo true 2 [d]) (strolls ++ [.synch true])).isSome = true := legalRun_sound _ _ _ (strolls_legal nf d)

instance (g : CSCfg) : Decidable (cspaceGeo g).excl := inferInstanceAs (Decidable True)

/-- The same in a continuous space. -/
def cstrolls : List (WOp Nat Nat CPt) :=
  [.add 0 1 5, .add 0 2 6, .gmove 0 0 1 ⟨9 / 2, 1, 0⟩, .gmove 0 0 2 ⟨5 / 2, 1, 0⟩, .addEdge 0 0 1 2 [(0, 4)], .synch true, .gmove 0 0 1 ⟨25 / 4, 1, 0⟩, .synch true, .setState 1 1 9,
    .gmove 1 0 1 ⟨17 / 2, 3, 0⟩]

theorem cstrolls_legal (nf d : Bool) : legalRun (cspaceGeo (plane2 false)) nf [] (cspaceNets (plane2 false) [d]) (cstrolls ++ [.synch true]) = true := by
  cases nf <;> cases d <;> decide +kernel

example (nf d : Bool) : LegalRun (cspaceGeo (plane2 false)) nf [] (cspaceNets (plane2 false) [d]) (cstrolls ++ [.synch true]) ∧
    (wrun 2 nf (cspaceNets (plane2 false) [d]) (cstrolls ++ [.synch true])).isSome = true := legalRun_sound _ _ _ (cstrolls_legal nf d)

end Repast.Mixed
