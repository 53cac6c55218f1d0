import Verif.Network.RankView
import Verif.Context.World

/-! What `request_agents` and `synchronize` do on one rank. Used for C43. -/
namespace Repast.Network
open Repast.Dict

variable {S A : Type} {d : Bool} {Q : Pend A}

theorem COk.ghost_node {c : Cx S A} (h : COk d Q c) {u : Nat} {g : Gh S} (hv : Q.hid u = false) (hg : get c.ghosts u = some g) : g.obj ∈ c.net.g.nodes := by
  have := h.gho u g hg
  refine (h.nodes _).2 ⟨?_, by rw [this.1]; exact hv⟩
  unfold Cx.find; rw [this.1, this.2.2.2, hg]; rfl

theorem COk.local_node {c : Cx S A} (h : COk d Q c) {u : Nat} {o : Obj} {s : S} (hg : get c.locals u = some (o, s)) : o ∈ c.net.g.nodes := by
  have := h.loc u o s hg
  refine (h.nodes _).2 ⟨?_, by rw [this.1]; exact h.vis (by rw [hg]; rfl)⟩
  unfold Cx.find; rw [this.1, hg]; rfl

theorem COk.disjoint {c : Cx S A} (h : COk d Q c) {u : Nat} (hg : (c.v.gho u).isSome = true) : c.v.loc u = none := by
  have hg' : (get c.ghosts u).isSome = true := by simpa [Cx.v] using hg
  obtain ⟨g, hg⟩ := Option.isSome_iff_exists.1 hg'
  show (get c.locals u).map _ = none
  rw [(h.gho u g hg).2.2.2]; rfl

/-! ### The agent manager -/

theorem COk.setGhostedField {c : Cx S A} (h : COk d Q c) {G : Dict (Dict Int)} (h1 : Dict.Ok G)
    (h2 : ∀ u m, get G u = some m → (get c.locals u).isSome = true ∧ Dict.Ok m ∧ ∀ k i, get m k = some i → ¬ Q.mv u → i = 1) : COk d Q { c with ghosted := G } :=
  { h with tagOk := h1, tags := h2, toRef := h.toRef }

theorem v_setGhostedField (c : Cx S A) (G : Dict (Dict Int)) : ({ c with ghosted := G } : Cx S A).v = { c.v with tag := fun u k => match get G u with
      | some d => (Dict.get d k).isSome
      | none => false } := rfl

theorem v_tag (c : Cx S A) (u k : Nat) : c.v.tag u k = ((get c.ghosted u).bind fun m => get m k).isSome := by
  show c.ghostedTo k u = _
  unfold Cx.ghostedTo
  cases get c.ghosted u <;> rfl

theorem COk.tag {c : Cx S A} (h : COk d Q c) {u k : Nat} (hl : (c.v.loc u).isSome = true) (ht : c.v.tag u k = false) :
    ∃ c', c.tag k u = some c' ∧ COk d Q c' ∧ c'.v = { c.v with tag := fun x j => c.v.tag x j || decide (x = u ∧ j = k) } ∧ c'.net = c.net ∧ c'.lrank = c.lrank := by
  have hl' : (get c.locals u).isSome = true := by simpa [Cx.v] using hl
  rw [v_tag] at ht
  have hfin : ∀ (G : Dict (Dict Int)) (m : Dict Int), get G u = some m → (∀ x, x ≠ u → get G x = get c.ghosted x) →
      (∀ j, (get m j).isSome = true ↔ c.v.tag u j = true ∨ j = k) →
      ({ c with ghosted := G } : Cx S A).v = { c.v with tag := fun x j => c.v.tag x j || decide (x = u ∧ j = k) } := by
    intro G m h1 h2 h3
    rw [v_setGhostedField]
    refine congrArg (fun t => ({ c.v with tag := t } : RV S A)) ?_
    funext x j
    by_cases e : x = u
    · subst e
      rw [h1, Bool.eq_iff_iff]
      simp [h3]
    · rw [h2 x e]
      simp only [e, false_and, decide_false, Bool.or_false]
      exact (by rw [v_tag]; cases get c.ghosted x <;> rfl)
  unfold Cx.tag
  rcases Option.eq_none_or_eq_some (get c.ghosted u) with hg | ⟨m, hg⟩
  · obtain ⟨o, ho⟩ := Option.isSome_iff_exists.1 hl'
    rw [hg, ho]
    refine ⟨_, rfl, h.setGhostedField (h.tagOk.set _ _) ?_, ?_, rfl, rfl⟩
    · intro x m hx
      rw [get_set] at hx
      split at hx
      · rename_i e
        simp only [Option.some.injEq] at hx
        subst e hx
        refine ⟨hl', by simp [Dict.Ok, Dict.keys], ?_⟩
        intro j i hi _
        rw [get_cons] at hi
        split at hi
        · simpa using hi.symm
        · simp at hi
      · exact h.tags x m hx
    · refine hfin _ [(k, 1)] (by rw [get_set, if_pos rfl]) (by intro x hx; rw [get_set, if_neg (fun e => hx e.symm)]) ?_
      intro j
      rw [v_tag, hg, get_cons]
      by_cases e : j = k
      · simp [e]
      · rw [if_neg (fun e' => e e'.symm)]; simp [e]
  · rw [hg] at ht
    have ht' : get m k = none := by simpa using ht
    have hm := h.tags u m hg
    rw [hg]
    simp only [ht']
    refine ⟨_, rfl, h.setGhostedField (h.tagOk.set _ _) ?_, ?_, rfl, rfl⟩
    · intro x m' hx
      rw [get_set] at hx
      split at hx
      · rename_i e
        simp only [Option.some.injEq] at hx
        subst e hx
        refine ⟨hl', hm.2.1.set _ _, ?_⟩
        intro j i hi hmv
        rw [get_set] at hi
        split at hi
        · simpa using hi.symm
        · exact hm.2.2 j i hi hmv
      · exact h.tags x m' hx
    · refine hfin _ (set m k 1) (by rw [get_set, if_pos rfl]) (by intro x hx; rw [get_set, if_neg (fun e => hx e.symm)]) ?_
      intro j
      rw [v_tag, hg, get_set]
      by_cases e : j = k
      · simp [e]
      · rw [if_neg (fun e' => e e'.symm)]; simp [e]

theorem COk.untag {c : Cx S A} (h : COk d Q c) {u k : Nat} (hmv : ¬ Q.mv u) (ht : c.v.tag u k = true) :
    ∃ c', c.untag k u = some c' ∧ COk d Q c' ∧ c'.v = { c.v with tag := fun x j => c.v.tag x j && !decide (x = u ∧ j = k) } ∧ c'.net = c.net ∧ c'.lrank = c.lrank := by
  rw [v_tag] at ht
  obtain ⟨i, hi⟩ := Option.isSome_iff_exists.1 ht
  obtain ⟨m, hm, hk⟩ := Option.bind_eq_some_iff.1 hi
  have h1 := h.tags u m hm
  have hi1 := h1.2.2 k i hk hmv
  subst hi1
  refine ⟨{ c with ghosted := set c.ghosted u (del m k) }, by simp [Cx.untag, hm, hk], h.setGhostedField (h.tagOk.set _ _) ?_, ?_, rfl, rfl⟩
  · intro x m' hx
    rw [get_set] at hx
    split at hx
    · rename_i e
      simp only [Option.some.injEq] at hx
      subst e hx
      refine ⟨h1.1, h1.2.1.del _, ?_⟩
      intro j i hi hmv
      rw [get_del] at hi
      split at hi
      · cases hi
      · exact h1.2.2 j i hi hmv
    · exact h.tags x m' hx
  · rw [v_setGhostedField]
    refine congrArg (fun t => ({ c.v with tag := t } : RV S A)) ?_
    funext x j
    rw [v_tag, get_set]
    by_cases e : x = u
    · subst e
      rw [if_pos rfl, hm]
      simp only [get_del, Option.bind_some, true_and]
      by_cases e2 : j = k
      · simp [e2]
      · rw [if_neg (fun e' => e2 e'.symm)]; simp [e2]
    · rw [if_neg (fun e' => e e'.symm)]
      simp only [e, false_and, decide_false, Bool.not_false, Bool.and_true]
      cases get c.ghosted x <;> rfl

/-- A new ghost. -/
theorem COk.newGhost {c : Cx S A} (h : COk d Q c) {u k : Nat} (hl : c.v.loc u = none) (hg : c.v.gho u = none) (hk : k ≠ c.rank) (s : S) {i : Int} (hi : u ∉ c.req → i = 1) :
    let c' : Cx S A := { (c.newObj u).2.addGhost k (c.newObj u).1 s i with nets := [c.net.add (c.newObj u).1] }
    COk d Q c' ∧ c'.v = { c.v with
      gho := fun x => if x = u then some (s, k) else c.v.gho x
      net := { c.v.net with has := fun x => c.v.net.has x || decide (x = u) } } := by
  intro c'
  have hno : c.net.v.has u = false := by
    have := h.has_iff u
    rw [hl, hg] at this; exact this
  have hl' : get c.locals u = none := by simpa [Cx.v] using hl
  have hg' : get c.ghosts u = none := by simpa [Cx.v] using hg
  have hnew : (⟨u, c.fresh⟩ : Obj) ∉ c.net.g.nodes := fun hm => Nat.lt_irrefl _ (h.fresh _ hm)
  have hm : ∀ x, x ∈ (c.net.add ⟨u, c.fresh⟩).g.nodes ↔ x ∈ c.net.g.nodes ∨ x = ⟨u, c.fresh⟩ := mem_addNode c.net.g _
  have hlr : ∀ o, c'.lrank o = if o = ⟨u, c.fresh⟩ then k else c.lrank o := fun _ => rfl
  have hlr' : ∀ o ∈ c.net.g.nodes, c'.lrank o = c.lrank o := by
    intro o ho; rw [hlr, if_neg]; rintro rfl; exact hnew ho
  have hlg : ∀ {x g}, get c.ghosts x = some g → c'.lrank g.obj = c.lrank g.obj := by
    intro x g hx
    rw [hlr, if_neg]
    intro e
    have := h.ghoFresh x g hx
    rw [e] at this; exact Nat.lt_irrefl _ this
  have hnet : c'.net = c.net.add ⟨u, c.fresh⟩ := rfl
  have hgh : ∀ x, get c'.ghosts x = if u = x then some ⟨⟨u, c.fresh⟩, s, i⟩ else get c.ghosts x := fun x => get_set ..
  have hfind : ∀ x, c'.find x = if x = u then some ⟨u, c.fresh⟩ else c.find x := by
    intro x
    show ((get c.locals x).map (·.1)).or ((get c'.ghosts x).map (·.obj)) = _
    rw [hgh]
    by_cases e : x = u
    · subst e; simp [hl']
    · rw [if_neg (fun e' => e e'.symm), if_neg e]; rfl
  constructor
  · exact {
      nets := rfl
      net := by
        have : NetOk d Q c.rank c'.lrank c.net := h.net.congr hlr'
        exact this.add (o := ⟨u, c.fresh⟩) hno
      removed := h.removed
      loc := by
        intro x o t hx
        have := h.loc x o t hx
        exact ⟨this.1, by rw [hlr' o (h.local_node hx)]; exact this.2⟩
      gho := by
        intro x g hx
        rw [hgh] at hx
        split at hx
        · rename_i e
          simp only [Option.some.injEq] at hx
          subst e hx
          exact ⟨rfl, by rw [hlr, if_pos rfl]; exact hk, fun _ => hi, hl'⟩
        · have := h.gho x g hx
          exact ⟨this.1, by rw [hlg hx]; exact this.2.1, this.2.2⟩
      hid := by
        intro x hx
        rw [hgh]; split
        · rfl
        · exact h.hid x hx
      ghoFresh := by
        intro x g hx
        rw [hgh] at hx
        split at hx
        · simp only [Option.some.injEq] at hx
          subst hx
          exact Nat.lt_succ_self _
        · exact Nat.lt_succ_of_lt (h.ghoFresh x g hx)
      nodes := by
        intro o
        rw [hnet, hm, hfind, h.nodes]
        constructor
        · rintro (ho | rfl)
          · rw [if_neg]
            · exact ho
            · rintro rfl
              obtain ⟨ho, -⟩ := ho
              unfold Cx.find at ho; rw [hl', hg'] at ho; cases ho
          · exact ⟨by simp, h.vis_new hg'⟩
        · split
          · intro e; simp only [Option.some.injEq] at e; exact .inr e.1.symm
          · exact .inl
      fresh := by
        intro o ho
        rw [hnet, hm] at ho
        show o.gen < c.fresh + 1
        rcases ho with ho | rfl
        · exact Nat.lt_succ_of_lt (h.fresh o ho)
        · exact Nat.lt_succ_self _
      tagOk := h.tagOk
      tags := h.tags
      toRef := by
        intro o ho
        have := h.toRef o ho
        refine ⟨this.1, ?_, Nat.lt_succ_of_lt this.2.2⟩
        rw [hlr, if_neg]
        · exact this.2.1
        · rintro rfl
          exact Nat.lt_irrefl _ this.2.2 }
  · unfold Cx.v
    congr 1
    · funext x
      show (get c'.ghosts x).map _ = _
      rw [hgh]
      by_cases e : x = u
      · subst e; simp [hlr]
      · rw [if_neg (fun e' => e e'.symm), if_neg e]
        show (get c.ghosts x).map _ = (get c.ghosts x).map _
        cases hx : get c.ghosts x with
        | none => rfl
        | some g => simp only [Option.map_some, hlg hx]
    · rw [hnet, add_v h.net (o := ⟨u, c.fresh⟩) hno]

theorem COk.addReq {c : Cx S A} (h : COk d Q c) (u : Nat) : COk d Q (c.addReq u) ∧ (c.addReq u).v = { c.v with req := fun x => c.v.req x || decide (x = u) } := by
  unfold Cx.addReq
  split
  · rename_i hu
    refine ⟨h, ?_⟩
    unfold Cx.v
    congr 1
    funext x
    by_cases e : x = u
    · subst e; simp [hu]
    · simp [e]
  · refine ⟨{ h with
      gho := by
        intro x g hx
        obtain ⟨h1, h2, h3, h4⟩ := h.gho x g hx
        exact ⟨h1, h2, fun a b => h3 a (fun hm => b (List.mem_append_left _ hm)), h4⟩ }, ?_⟩
    show ({ c with req := c.req ++ [u] } : Cx S A).v = _
    unfold Cx.v
    congr 1
    funext x
    simp

theorem COk.recvVertex {c : Cx S A} (h : COk d Q c) {u k : Nat} (hl : c.v.loc u = none) (hg : c.v.gho u = none) (hk : k ≠ c.rank) (s : S) :
    ∃ c', c.recvVertex 0 (k, u, s) = some c' ∧ COk d Q c' ∧ c'.v = { c.v with
      gho := fun x => if x = u then some (s, k) else c.v.gho x
      net := { c.v.net with has := fun x => c.v.net.has x || decide (x = u) } } := by
  have := h.newGhost hl hg hk s (i := 1) (fun _ => rfl)
  refine ⟨_, ?_, this.1, this.2⟩
  unfold Cx.recvVertex
  simp only [Cx.withNet]
  have : ((c.newObj u).2.addGhost k (c.newObj u).1 s 1).nets = [c.net] := h.nets
  rw [this]
  rfl

theorem COk.recvRequested {c : Cx S A} (h : COk d Q c) {u k : Nat} (hl : c.v.loc u = none) (hg : c.v.gho u = none) (hk : k ≠ c.rank) (s : S) :
    COk d Q (c.recvRequested (k, u, s)) ∧ (c.recvRequested (k, u, s)).v = { c.v with
      gho := fun x => if x = u then some (s, k) else c.v.gho x
      net := { c.v.net with has := fun x => c.v.net.has x || decide (x = u) }
      req := fun x => c.v.req x || decide (x = u) } := by
  have h1 := h.addReq u
  have hv : (c.addReq u).v.loc u = none ∧ (c.addReq u).v.gho u = none := by rw [h1.2]; exact ⟨hl, hg⟩
  have hu : u ∈ (c.addReq u).req := by unfold Cx.addReq; split <;> simp_all
  have hr : (c.addReq u).rank = c.rank := by unfold Cx.addReq; split <;> rfl
  have h2 := h1.1.newGhost hv.1 hv.2 (by rw [hr]; exact hk) s (i := (c.nets.length + c.others : Nat)) (fun hn => absurd hu hn)
  have e : c.recvRequested (k, u, s) =
      { ((c.addReq u).newObj u).2.addGhost k ((c.addReq u).newObj u).1 s (c.nets.length + c.others : Nat) with nets := [(c.addReq u).net.add ((c.addReq u).newObj u).1] } := by
    have hm : c.nets.map (fun N => N.add (c.newObj u).1) = [c.net.add (c.newObj u).1] := by rw [h.nets]; rfl
    have hm' : (c.addReq u).net = c.net := by unfold Cx.addReq; split <;> rfl
    rw [hm']
    show Cx.addReq { (c.newObj u).2.addGhost k (c.newObj u).1 s (c.nets.length + c.others : Nat) with nets := c.nets.map fun N => N.add (c.newObj u).1 } u = _
    rw [hm]
    unfold Cx.addReq
    show (if u ∈ c.req then _ else _) = _
    by_cases hq : u ∈ c.req
    · rw [if_pos hq, if_pos hq]
    · rw [if_neg hq, if_neg hq]; rfl
  rw [e]
  refine ⟨h2.1, ?_⟩
  rw [h2.2, h1.2]

theorem COk.updateGhost {c : Cx S A} (h : COk d Q c) {u : Nat} (hg : (c.v.gho u).isSome = true) (s : S) :
    ∃ c', c.updateGhost u s = some c' ∧ COk d Q c' ∧ c'.v = { c.v with gho := fun x => if x = u then (c.v.gho x).map (fun y => (s, y.2)) else c.v.gho x } := by
  have hg' : (get c.ghosts u).isSome = true := by simpa [Cx.v] using hg
  obtain ⟨g, hu⟩ := Option.isSome_iff_exists.1 hg'
  have hgh : ∀ x, get (set c.ghosts u { g with st := s }) x = if u = x then some { g with st := s } else get c.ghosts x := fun x => get_set ..
  have hfind : ∀ x, ({ c with ghosts := set c.ghosts u { g with st := s } } : Cx S A).find x = c.find x := by
    intro x
    show ((get c.locals x).map (·.1)).or ((get (set c.ghosts u { g with st := s }) x).map (·.obj)) = _
    rw [hgh]
    split
    · rename_i e; subst e; unfold Cx.find; rw [hu]; rfl
    · rfl
  refine ⟨{ c with ghosts := set c.ghosts u { g with st := s } }, by simp [Cx.updateGhost, hu], ?_, ?_⟩
  · exact { h with
      net := h.net
      gho := by
        intro x g' hx
        rw [hgh] at hx
        split at hx
        · rename_i e
          simp only [Option.some.injEq] at hx
          subst e hx
          exact h.gho u g hu
        · exact h.gho x g' hx
      hid := by
        intro x hx
        rw [hgh]; split
        · rfl
        · exact h.hid x hx
      ghoFresh := by
        intro x g' hx
        rw [hgh] at hx
        split at hx
        · simp only [Option.some.injEq] at hx
          subst hx
          exact h.ghoFresh u g hu
        · exact h.ghoFresh x g' hx
      nodes := by intro o; rw [hfind]; exact h.nodes o
      fresh := h.fresh
      nets := h.nets }
  · unfold Cx.v
    congr 1
    funext x
    show (get (set c.ghosts u { g with st := s }) x).map _ = _
    rw [hgh]
    by_cases e : x = u
    · subst e; simp [hu]
    · rw [if_neg (fun e' => e e'.symm), if_neg e]

end Repast.Network
