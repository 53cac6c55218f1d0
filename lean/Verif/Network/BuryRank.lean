import Verif.Network.Bury

/-!
What one rank does, if other agents were removed: what succeeds on the clean context succeeds, and leaves the clean version of the result.
-/
namespace Repast.Network
open Repast.Dict Repast.Context

variable {S A : Type} {D : Nat → Bool} {P : Corpse S}

/-- `b` is the clean version of `c`, and `P` is what `c` has of dead agents. -/
structure Rel (D : Nat → Bool) (P : Corpse S) (c b : Cx S A) : Prop where
  eq : b = c.clean D
  dead : c.dead D = P
  loc : ∀ u, D u = true → get c.locals u = none
  locU : ∀ u o s, get c.locals u = some (o, s) → o.uid = u
  ghoU : ∀ u g, get c.ghosts u = some g → g.obj.uid = u

theorem bnot_false {b : Bool} (h : b = false) : (!b) = true := by rw [h]; rfl

theorem Rel.live {c b : Cx S A} (h : Rel D P c b) {u : Nat} {o : Obj × S} (hu : get c.locals u = some o) : D u = false := by
  cases hd : D u with
  | false => rfl
  | true => rw [h.loc u hd] at hu; cases hu

theorem Rel.ghost {c b : Cx S A} (h : Rel D P c b) {u : Nat} {g : Gh S} (hg : get b.ghosts u = some g) : get c.ghosts u = some g ∧ D u = false ∧ g.obj.uid = u := by
  have e : b.ghosts = c.ghosts.filter fun e => !D e.1 := by rw [h.eq]; rfl
  rw [e] at hg
  cases hd : D u with
  | true => rw [Dict.get_filter_neg _ (fun u => !D u) (by rw [hd]; rfl)] at hg; cases hg
  | false =>
    rw [Dict.get_filter _ (fun u => !D u) (bnot_false hd)] at hg
    exact ⟨hg, rfl, h.ghoU u g hg⟩

theorem Rel.ghost_eq {c b : Cx S A} (h : Rel D P c b) {u : Nat} (hd : D u = false) : get b.ghosts u = get c.ghosts u := by
  have e : b.ghosts = c.ghosts.filter fun e => !D e.1 := by rw [h.eq]; rfl
  rw [e, Dict.get_filter _ (fun u => !D u) (bnot_false hd)]

theorem Rel.locals {c b : Cx S A} (h : Rel D P c b) : b.locals = c.locals := by rw [h.eq]; rfl
theorem Rel.ghosted {c b : Cx S A} (h : Rel D P c b) : b.ghosted = c.ghosted := by rw [h.eq]; rfl
theorem Rel.lrank {c b : Cx S A} (h : Rel D P c b) : b.lrank = c.lrank := by rw [h.eq]; rfl
theorem Rel.rank {c b : Cx S A} (h : Rel D P c b) : b.rank = c.rank := by rw [h.eq]; rfl
theorem Rel.fresh {c b : Cx S A} (h : Rel D P c b) : b.fresh = c.fresh := by rw [h.eq]; rfl
theorem Rel.req {c b : Cx S A} (h : Rel D P c b) : b.req = c.req := by rw [h.eq]; rfl
theorem Rel.others {c b : Cx S A} (h : Rel D P c b) : b.others = c.others := by rw [h.eq]; rfl
theorem Rel.length {c b : Cx S A} (h : Rel D P c b) : b.nets.length = c.nets.length := by rw [h.eq]; exact List.length_map _

theorem Rel.net {c b : Cx S A} (h : Rel D P c b) {pid : Nat} {N : Net A} (hN : b.nets[pid]? = some N) : ∃ M, c.nets[pid]? = some M ∧ N = M.clean D := by
  rw [h.eq] at hN
  have : (c.nets.map (Net.clean D))[pid]? = some N := hN
  rw [List.getElem?_map] at this
  obtain ⟨M, h1, h2⟩ := Option.map_eq_some_iff.1 this
  exact ⟨M, h1, h2.symm⟩

theorem Rel.find {c b : Cx S A} (h : Rel D P c b) {u : Nat} {o : Obj} (ho : b.find u = some o) : c.find u = some o ∧ D o.uid = false := by
  unfold Cx.find at *
  rw [h.locals] at ho
  rcases Option.or_eq_some_iff.1 ho with h1 | ⟨h0, h1⟩
  · rw [h1]
    obtain ⟨⟨o', s⟩, h2, rfl⟩ := Option.map_eq_some_iff.1 h1
    refine ⟨rfl, ?_⟩
    show D o'.uid = false
    rw [h.locU u o' s h2]; exact h.live h2
  · obtain ⟨g, h2, rfl⟩ := Option.map_eq_some_iff.1 h1
    obtain ⟨h3, h4, h5⟩ := h.ghost h2
    rw [h0, h3]
    exact ⟨rfl, by rw [h5]; exact h4⟩

theorem map_set_self {α β : Type} (f : α → β) {l : List α} {i : Nat} {x y : α} (hx : l[i]? = some x) (hf : f y = f x) : (l.set i y).map f = l.map f := by
  apply List.ext_getElem?
  intro j
  rw [List.getElem?_map, List.getElem?_map, List.getElem?_set]
  split
  · rename_i e
    subst e
    rw [hx]
    split
    · simp [hf]
    · rename_i hh
      rw [List.getElem?_eq_none (Nat.le_of_not_lt hh)] at hx; cases hx
  · rfl

theorem Rel.setNet {c b : Cx S A} (h : Rel D P c b) {pid : Nat} {N N' : Net A} (hN : c.nets[pid]? = some N) (hd : N'.g.dead D = N.g.dead D) :
    Rel D P { c with nets := c.nets.set pid N' } { b with nets := b.nets.set pid (N'.clean D) } where
  eq := by
    rw [h.eq]
    show ({ c.clean D with nets := (c.nets.map (Net.clean D)).set pid (N'.clean D) } : Cx S A) = { c.clean D with nets := (c.nets.set pid N').map (Net.clean D) }
    rw [List.map_set]
  dead := by
    rw [← h.dead]
    unfold Cx.dead
    rw [map_set_self (fun N : Net A => N.g.dead D) hN hd]
  loc := h.loc
  locU := h.locU
  ghoU := h.ghoU

/-- A method of a network. -/
theorem Rel.withNet {c b b' : Cx S A} (h : Rel D P c b) {pid : Nat} {f f' : Net A → Option (Net A)} (hb : b.withNet pid f = some b')
    (hf : ∀ N N2, c.nets[pid]? = some N → f (N.clean D) = some N2 → ∃ N', f' N = some N' ∧ N2 = N'.clean D ∧ N'.g.dead D = N.g.dead D) :
    ∃ c', c.withNet pid f' = some c' ∧ Rel D P c' b' := by
  unfold Cx.withNet at hb
  obtain ⟨M, hM, hb⟩ := Option.bind_eq_some_iff.1 hb
  obtain ⟨N2, h2, rfl⟩ := Option.map_eq_some_iff.1 hb
  obtain ⟨N, hN, rfl⟩ := h.net hM
  obtain ⟨N', h3, rfl, h5⟩ := hf N N2 hN h2
  refine ⟨_, ?_, h.setNet hN h5⟩
  unfold Cx.withNet
  rw [hN, Option.bind_some, h3, Option.map_some]

/-- A statement that changes none of the fields of a network that are cleaned. -/
theorem Rel.withNet_plain {c b b' : Cx S A} (h : Rel D P c b) {pid : Nat} {f : Net A → Net A} (hb : b.withNet pid (fun N => some (f N)) = some b')
    (hf : ∀ N, c.nets[pid]? = some N → f (N.clean D) = (f N).clean D ∧ (f N).g.dead D = N.g.dead D) :
    ∃ c', c.withNet pid (fun N => some (f N)) = some c' ∧ Rel D P c' b' :=
  h.withNet hb fun N N2 hN h2 => by
    cases h2
    exact ⟨_, rfl, (hf N hN).1, (hf N hN).2⟩

theorem Rel.setRank {c b : Cx S A} (h : Rel D P c b) (o : Obj) (k : Nat) : Rel D P (c.setRank o k) (b.setRank o k) where
  eq := by rw [h.eq]; rfl
  dead := h.dead
  loc := h.loc
  locU := h.locU
  ghoU := h.ghoU

theorem Rel.newObj {c b : Cx S A} (h : Rel D P c b) (u : Nat) : (b.newObj u).1 = (c.newObj u).1 ∧ Rel D P (c.newObj u).2 (b.newObj u).2 := by
  refine ⟨?_, ?_⟩
  · rw [h.eq]; rfl
  · exact { eq := by rw [h.eq]; rfl, dead := h.dead, loc := h.loc, locU := h.locU, ghoU := h.ghoU }

theorem Rel.netsAdd {c b : Cx S A} (h : Rel D P c b) {o : Obj} (ho : D o.uid = false) : Rel D P (c.netsAdd o) (b.netsAdd o) where
  eq := by
    rw [h.eq]
    show ({ c.clean D with nets := (c.nets.map (Net.clean D)).map fun N => N.add o } : Cx S A) = { c.clean D with nets := (c.nets.map fun N => N.add o).map (Net.clean D) }
    have : (c.nets.map (Net.clean D)).map (fun N => N.add o) = (c.nets.map fun N => N.add o).map (Net.clean D) := by
      rw [List.map_map, List.map_map]
      exact List.map_congr_left fun N _ => (clean_add N ho).1.symm
    rw [this]
  dead := by
    rw [← h.dead]
    unfold Cx.dead Cx.netsAdd
    simp only [List.map_map]
    congr 1
    refine List.map_congr_left fun N _ => ?_
    exact (clean_add N ho).2
  loc := h.loc
  locU := h.locU
  ghoU := h.ghoU

theorem Rel.setLocal {c b : Cx S A} (h : Rel D P c b) {o : Obj} (ho : D o.uid = false) (s : S) :
    Rel D P { c with locals := Dict.set c.locals o.uid (o, s) } { b with locals := Dict.set b.locals o.uid (o, s) } where
  eq := by rw [h.eq]; rfl
  dead := h.dead
  loc := by
    intro u hu
    show get (Dict.set c.locals o.uid (o, s)) u = none
    rw [Dict.get_set, if_neg (by rintro rfl; rw [ho] at hu; cases hu)]
    exact h.loc u hu
  locU := by
    intro u o' s' hu
    have hu : get (Dict.set c.locals o.uid (o, s)) u = some (o', s') := hu
    rw [Dict.get_set] at hu
    split at hu
    · rename_i e; cases hu; exact e
    · exact h.locU u o' s' hu
  ghoU := h.ghoU

theorem Rel.setGhost {c b : Cx S A} (h : Rel D P c b) {g : Gh S} (ho : D g.obj.uid = false) :
    Rel D P { c with ghosts := Dict.set c.ghosts g.obj.uid g } { b with ghosts := Dict.set b.ghosts g.obj.uid g } where
  eq := by
    rw [h.eq]
    show ({ c.clean D with ghosts := Dict.set (c.ghosts.filter fun e => !D e.1) g.obj.uid g } : Cx S A) = { c.clean D with ghosts := (Dict.set c.ghosts g.obj.uid g).filter fun e => !D e.1 }
    rw [Dict.set_filter _ (fun u => !D u) (bnot_false ho)]
  dead := by
    rw [← h.dead]
    show (⟨c.removed, (Dict.set c.ghosts g.obj.uid g).filter (fun e => D e.1), _⟩ : Corpse S) = _
    rw [Dict.set_filter_neg _ D ho]; rfl
  loc := h.loc
  locU := h.locU
  ghoU := by
    intro u g' hu
    have hu : get (Dict.set c.ghosts g.obj.uid g) u = some g' := hu
    rw [Dict.get_set] at hu
    split at hu
    · rename_i e; cases hu; exact e
    · exact h.ghoU u g' hu

theorem Rel.delGhost {c b : Cx S A} (h : Rel D P c b) {u : Nat} (hu : D u = false) :
    Rel D P { c with ghosts := Dict.del c.ghosts u } { b with ghosts := Dict.del b.ghosts u } where
  eq := by
    rw [h.eq]
    show ({ c.clean D with ghosts := Dict.del (c.ghosts.filter fun e => !D e.1) u } : Cx S A) = { c.clean D with ghosts := (Dict.del c.ghosts u).filter fun e => !D e.1 }
    rw [Dict.del_filter _ (fun u => !D u)]
  dead := by
    rw [← h.dead]
    show (⟨c.removed, (Dict.del c.ghosts u).filter (fun e => D e.1), _⟩ : Corpse S) = _
    rw [Dict.del_filter _ D, Dict.del_none]
    · rfl
    · exact Dict.get_filter_neg _ D hu
  loc := h.loc
  locU := h.locU
  ghoU := by
    intro x g' hx
    have hx : get (Dict.del c.ghosts u) x = some g' := hx
    rw [Dict.get_del] at hx
    split at hx
    · cases hx
    · exact h.ghoU x g' hx

theorem Rel.setGhosted {c b : Cx S A} (h : Rel D P c b) (m : Dict (Dict Int)) : Rel D P { c with ghosted := m } { b with ghosted := m } where
  eq := by rw [h.eq]; rfl
  dead := h.dead
  loc := h.loc
  locU := h.locU
  ghoU := h.ghoU

theorem Rel.setGhosted' {c b : Cx S A} (h : Rel D P c b) (m : Dict (Dict Int)) : Rel D P { c with ghosted := m } { b with ghosted := m, locals := c.locals } := by
  have := h.setGhosted m
  rw [show ({ b with ghosted := m } : Cx S A) = { b with ghosted := m, locals := c.locals } by rw [← h.locals]] at this
  exact this

/-! ### The operations of one rank -/

theorem Rel.add {c b : Cx S A} (h : Rel D P c b) {u : Nat} (hu : D u = false) (s : S) : Rel D P (c.add u s) (b.add u s) := by
  obtain ⟨h1, h2⟩ := h.newObj u
  have h3 := (((h2.setLocal (o := (c.newObj u).1) hu s).setRank (c.newObj u).1 c.rank).netsAdd (o := (c.newObj u).1) hu)
  have e : (b.newObj u).2.addObj (c.newObj u).1 s =
      (({ (b.newObj u).2 with locals := Dict.set (b.newObj u).2.locals (c.newObj u).1.uid ((c.newObj u).1, s) } : Cx S A).setRank (c.newObj u).1 c.rank).netsAdd (c.newObj u).1 := by
    rw [← h.rank]; rfl
  unfold Cx.add
  rw [h1, e]
  exact h3

theorem Rel.setState {c b b' : Cx S A} (h : Rel D P c b) {u : Nat} {s : S} (hb : b.setState u s = some b') : ∃ c', c.setState u s = some c' ∧ Rel D P c' b' := by
  unfold Cx.setState at *
  rw [h.locals] at hb
  obtain ⟨o, h1, rfl⟩ := Option.map_eq_some_iff.1 hb
  rw [h1]
  have e := h.locU u o.1 o.2 h1
  subst e
  exact ⟨_, rfl, h.locals ▸ h.setLocal (h.live h1) s⟩

theorem Rel.addEdge {c b b' : Cx S A} (h : Rel D P c b) {pid u v : Nat} {a : Attr A} (hb : b.addEdge pid u v a = some b') : ∃ c', c.addEdge pid u v a = some c' ∧ Rel D P c' b' := by
  unfold Cx.addEdge at *
  obtain ⟨x, hx, hb⟩ := Option.bind_eq_some_iff.1 hb
  obtain ⟨y, hy, hb⟩ := Option.bind_eq_some_iff.1 hb
  obtain ⟨hx1, hx2⟩ := h.find hx
  obtain ⟨hy1, hy2⟩ := h.find hy
  rw [hx1, hy1, Option.bind_some, Option.bind_some]
  rw [h.rank, h.lrank] at hb
  exact h.withNet_plain hb fun N _ => ⟨(clean_netAddEdge _ _ N hx2 hy2 a).1.symm, (clean_netAddEdge _ _ N hx2 hy2 a).2⟩

theorem Rel.updateEdge {c b b' : Cx S A} (h : Rel D P c b) (hK : ∀ N ∈ b.nets, KeysOk N) {pid u v : Nat} {a : Attr A} (hb : b.updateEdge pid u v a = some b') :
    ∃ c', c.updateEdge pid u v a = some c' ∧ Rel D P c' b' := by
  unfold Cx.updateEdge at *
  obtain ⟨x, hx, hb⟩ := Option.bind_eq_some_iff.1 hb
  obtain ⟨y, hy, hb⟩ := Option.bind_eq_some_iff.1 hb
  obtain ⟨hx1, hx2⟩ := h.find hx
  obtain ⟨hy1, hy2⟩ := h.find hy
  rw [hx1, hy1, Option.bind_some, Option.bind_some]
  rw [h.rank, h.lrank] at hb
  refine h.withNet hb fun N N2 hN h2 => ?_
  obtain ⟨e1, e2⟩ := clean_updateEdge c.rank c.lrank N (hK _ (by rw [h.eq]; exact List.mem_map_of_mem (List.mem_of_getElem? hN))) hx2 hy2 a
  rw [e1] at h2
  obtain ⟨N', h3, rfl⟩ := Option.map_eq_some_iff.1 h2
  exact ⟨N', h3, rfl, e2 N' h3⟩

theorem Rel.removeEdge {c b b' : Cx S A} (h : Rel D P c b) (hK : ∀ N ∈ b.nets, KeysOk N) {pid u v : Nat} (hb : b.removeEdge pid u v = some b') :
    ∃ c', c.removeEdge pid u v = some c' ∧ Rel D P c' b' := by
  unfold Cx.removeEdge at *
  obtain ⟨x, hx, hb⟩ := Option.bind_eq_some_iff.1 hb
  obtain ⟨y, hy, hb⟩ := Option.bind_eq_some_iff.1 hb
  obtain ⟨hx1, hx2⟩ := h.find hx
  obtain ⟨hy1, hy2⟩ := h.find hy
  rw [hx1, hy1, Option.bind_some, Option.bind_some]
  rw [h.rank, h.lrank] at hb
  refine h.withNet hb fun N N2 hN h2 => ?_
  obtain ⟨e1, e2⟩ := clean_netRemoveEdge c.rank c.lrank N (hK _ (by rw [h.eq]; exact List.mem_map_of_mem (List.mem_of_getElem? hN))) hx2 hy2
  rw [e1] at h2
  obtain ⟨N', h3, rfl⟩ := Option.map_eq_some_iff.1 h2
  exact ⟨N', h3, rfl, e2 N' h3⟩

/-! ### Requests -/

theorem Rel.addReq {c b : Cx S A} (h : Rel D P c b) (u : Nat) : Rel D P (c.addReq u) (b.addReq u) := by
  unfold Cx.addReq
  rw [h.req]
  split
  · exact h
  · exact { eq := by rw [h.eq]; rfl, dead := h.dead, loc := h.loc, locU := h.locU, ghoU := h.ghoU }

theorem Rel.addGhost {c b : Cx S A} (h : Rel D P c b) (k : Nat) {o : Obj} (ho : D o.uid = false) (s : S) (i : Int) : Rel D P (c.addGhost k o s i) (b.addGhost k o s i) :=
  (h.setGhost (g := ⟨o, s, i⟩) ho).setRank o k

theorem Rel.sendRequest {c b : Cx S A} (h : Rel D P c b) {n : Nat} {q : Nat × Nat} (hq : D q.1 = false) {l : List (Nat × Nat)} {y : Cx S A × List (Nat × Nat)}
    (hb : Cx.sendRequest n (b, l) q = some y) : ∃ c', Cx.sendRequest n (c, l) q = some (c', y.2) ∧ Rel D P c' y.1 := by
  unfold Cx.sendRequest at *
  simp only [] at *
  rw [h.ghost_eq hq] at hb
  cases hg : get c.ghosts q.1 with
  | none =>
    rw [hg] at hb
    simp only [] at *
    split at hb
    · rename_i hn; rw [if_pos hn]; cases hb; exact ⟨c, rfl, h⟩
    · cases hb
  | some g =>
    rw [hg] at hb
    simp only [] at *
    cases hb
    exact ⟨_, rfl, (h.addReq q.1).netsAdd (by rw [h.ghoU q.1 g hg]; exact hq)⟩

theorem Rel.tag {c b b' : Cx S A} (h : Rel D P c b) {k u : Nat} (hb : b.tag k u = some b') : ∃ c', c.tag k u = some c' ∧ Rel D P c' b' := by
  unfold Cx.tag at *
  rw [h.ghosted, h.locals] at hb
  cases hg : get c.ghosted u with
  | some m =>
    rw [hg] at hb
    cases hb
    exact ⟨_, rfl, h.setGhosted' _⟩
  | none =>
    rw [hg] at hb
    simp only [] at *
    cases hl : get c.locals u with
    | none => rw [hl] at hb; cases hb
    | some o =>
      rw [hl] at hb
      cases hb
      exact ⟨_, rfl, h.setGhosted' _⟩

theorem Rel.untag {c b b' : Cx S A} (h : Rel D P c b) {k u : Nat} (hb : b.untag k u = some b') : ∃ c', c.untag k u = some c' ∧ Rel D P c' b' := by
  unfold Cx.untag at *
  rw [h.ghosted] at hb
  obtain ⟨m, hm, hb⟩ := Option.bind_eq_some_iff.1 hb
  obtain ⟨i, hi, rfl⟩ := Option.map_eq_some_iff.1 hb
  rw [hm, Option.bind_some, hi]
  exact ⟨_, rfl, h.setGhosted _⟩

theorem Rel.answer {c b : Cx S A} (h : Rel D P c b) {q : Nat × Nat} {l : List (Nat × Nat × S)} {y : Cx S A × List (Nat × Nat × S)}
    (hb : Cx.answer (b, l) q = some y) : ∃ c', Cx.answer (c, l) q = some (c', y.2) ∧ Rel D P c' y.1 := by
  unfold Cx.answer at *
  obtain ⟨b1, h1, hb⟩ := Option.bind_eq_some_iff.1 hb
  obtain ⟨o, h2, rfl⟩ := Option.map_eq_some_iff.1 hb
  obtain ⟨c1, e1, r1⟩ := h.tag h1
  simp only [] at *
  rw [e1, Option.bind_some, ← r1.locals, h2]
  exact ⟨c1, rfl, r1⟩

theorem Rel.recvRequested {c b : Cx S A} (h : Rel D P c b) {m : Nat × Nat × S} (hm : D m.2.1 = false) : Rel D P (c.recvRequested m) (b.recvRequested m) := by
  obtain ⟨h1, h2⟩ := h.newObj m.2.1
  unfold Cx.recvRequested
  simp only []
  rw [h1]
  refine Rel.addReq ?_ _
  unfold Cx.addGhostAll
  rw [h2.length, h2.others]
  exact (h2.addGhost m.1 (o := (c.newObj m.2.1).1) hm m.2.2 _).netsAdd (o := (c.newObj m.2.1).1) hm

/-! ### Synchronization of the states -/

theorem Rel.sendStates {c b : Cx S A} (h : Rel D P c b) {n : Nat} {y : Cx S A × List (Nat × Nat × S)} (hb : b.sendStates n = some y) :
    ∃ c', c.sendStates n = some (c', y.2) ∧ Rel D P c' y.1 := by
  unfold Cx.sendStates at *
  simp only [] at *
  rw [h.ghosted, h.locals] at hb
  split at hb
  · rename_i hn
    rw [if_pos hn]
    obtain ⟨l, h1, rfl⟩ := Option.map_eq_some_iff.1 hb
    rw [h1]
    exact ⟨c, rfl, h⟩
  · cases hb

theorem Rel.updateGhost {c b b' : Cx S A} (h : Rel D P c b) {u : Nat} {s : S} (hb : b.updateGhost u s = some b') : ∃ c', c.updateGhost u s = some c' ∧ Rel D P c' b' := by
  unfold Cx.updateGhost at *
  obtain ⟨g, h1, rfl⟩ := Option.map_eq_some_iff.1 hb
  obtain ⟨h2, h3, h4⟩ := h.ghost h1
  rw [h2]
  subst h4
  exact ⟨_, rfl, h.setGhost (g := { g with st := s }) h3⟩

end Repast.Network
