import Verif.Network.RankMove

/-! What the other ranks do when an agent moves: its new rank, and the ranks that have ghosts of it. Used for C54. -/
namespace Repast.Network
open Repast.Dict Repast.Context

variable {S A : Type} {d : Bool} {Q : Pend A}

theorem NetOk.pend {r : Nat} {lr : Obj → Nat} {N : Net A} (h : NetOk d Q r lr N) {Q' : Pend A} (h1 : Q'.moved = Q.moved) (h2 : Q'.noLonger = Q.noLonger) (h3 : Q'.toRef = Q.toRef) :
    NetOk d Q' r lr N := { h with moved := h.moved.trans h1.symm, noLonger := h.noLonger.trans h2.symm, toRef := h.toRef.trans h3.symm }

/-- Less may be known about the reference counts. -/
theorem COk.mono {c : Cx S A} (h : COk d Q c) {mv : Nat → Prop} (hm : ∀ u, Q.mv u → mv u) : COk d { Q with mv := mv } c :=
  { h with
    net := h.net.pend rfl rfl rfl
    gho := fun u g hg => let x := h.gho u g hg; ⟨x.1, x.2.1, fun c => x.2.2.1 (fun c' => c (hm u c')), x.2.2.2⟩
    tags := fun u m hm' => let x := h.tags u m hm'; ⟨x.1, x.2.1, fun k i hk c => x.2.2 k i hk (fun c' => c (hm u c'))⟩
    toRef := fun o ho => let x := h.toRef o ho; ⟨hm _ x.1, x.2⟩ }

/-- context.py:522-532: the agent is added on its new rank, and the rank knows where it has ghosts. -/
theorem COk.arrive {c : Cx S A} (h : COk d Q c) {m : Nat} (hl : c.v.loc m = none) (hg : c.v.gho m = none) (s : S) {D : Option (Dict Int)} (hD : Dict.Ok (D.getD []))
    (hk : get (D.getD []) c.rank = none) (hmv : Q.mv m) (acc : List Nat) :
    ∃ c', Cx.arrive (c, acc) (m, s, D) = some (c', acc) ∧ COk d Q c' ∧ c'.v = { c.v with
      loc := fun x => if x = m then some s else c.v.loc x
      net := { c.v.net with has := fun x => c.v.net.has x || decide (x = m) }
      tag := fun x j => if x = m then (get (D.getD []) j).isSome else c.v.tag x j } := by
  obtain ⟨h1, h2⟩ := h.add hl hg s
  have hl' : get c.locals m = none := by simpa [Cx.v] using hl
  have hg' : get c.ghosts m = none := by simpa [Cx.v] using hg
  have hgd : get c.ghosted m = none := by
    cases hh : get c.ghosted m with
    | none => rfl
    | some t => have := (h.tags m t hh).1; rw [hl'] at this; cases this
  have hgd1 : (c.add m s).ghosted = c.ghosted := rfl
  have hrk : (c.add m s).rank = c.rank := rfl
  have htm : ∀ j, c.v.tag m j = false := by intro j; rw [v_tag, hgd]; rfl
  have hdel : ∀ j, get (Dict.del (D.getD []) c.rank) j = get (D.getD []) j := by
    intro j
    rw [get_del]
    split
    · rename_i e; rw [← e, hk]
    · rfl
  have hlm : get (c.add m s).locals m = some (⟨m, c.fresh⟩, s) := by
    show get (Dict.set c.locals m _) m = _
    rw [get_set, if_pos rfl]
    rfl
  unfold Cx.arrive
  simp only [hg', Option.isSome_none, Bool.false_eq_true, if_false, hrk]
  have hplain : (∀ j, get (D.getD []) j = none) → (c.add m s).v = { c.v with
      loc := fun x => if x = m then some s else c.v.loc x
      net := { c.v.net with has := fun x => c.v.net.has x || decide (x = m) }
      tag := fun x j => if x = m then (get (D.getD []) j).isSome else c.v.tag x j } := by
    intro hn
    rw [h2]
    have : (fun x j => if x = m then (get (D.getD []) j).isSome else c.v.tag x j) = c.v.tag := by
      funext x j
      split
      · rename_i e; rw [e, htm, hn]; rfl
      · rfl
    rw [this]
  cases D with
  | none =>
    refine ⟨c.add m s, rfl, h1, hplain fun j => rfl⟩
  | some D =>
    simp only [Option.getD_some] at hD hk hdel ⊢ hplain
    unfold Cx.setGhosted
    by_cases he : (Dict.del D c.rank).isEmpty = true
    · rw [if_pos he]
      refine ⟨c.add m s, rfl, h1, hplain fun j => ?_⟩
      rw [← hdel j, List.isEmpty_iff.1 he]; rfl
    · rw [if_neg he, hlm]
      refine ⟨{ c.add m s with ghosted := Dict.set c.ghosted m (Dict.del D c.rank) }, rfl, h1.setGhostedField (h.tagOk.set _ _) ?_, ?_⟩
      · intro u t ht
        rw [get_set] at ht
        split at ht
        · rename_i e
          simp only [Option.some.injEq] at ht
          subst e ht
          exact ⟨by rw [hlm]; rfl, hD.del _, fun k i _ c => absurd hmv c⟩
        · exact h1.tags u t ht
      · rw [v_setGhostedField, h2]
        refine congrArg (fun t => ({ c.v with loc := fun x => if x = m then some s else c.v.loc x, net := { c.v.net with has := fun x => c.v.net.has x || decide (x = m) }, tag := t } : RV S A)) ?_
        funext x j
        rw [get_set]
        by_cases e : x = m
        · subst e
          rw [if_pos rfl, if_pos rfl]
          show (get (Dict.del D c.rank) j).isSome = _
          rw [hdel]
        · rw [if_neg (fun c => e c.symm), if_neg e]
          rfl

/-- network.py:562-565 -/
theorem COk.sendNoLonger {n : Nat} {c : Cx S A} (h : COk d Q c) (hn : ∀ q ∈ Q.noLonger, q.1 < n) :
    ∃ c', c.sendNoLonger n 0 = some (c', Q.noLonger) ∧ COk d { Q with noLonger := [] } c' ∧ c'.v = c.v := by
  refine ⟨{ c with nets := [{ c.net with noLonger := [] }] }, ?_, ?_, rfl⟩
  · unfold Cx.sendNoLonger
    rw [h.get0, Option.bind_some, h.net.noLonger, if_pos (by simpa using fun a b hab => hn (a, b) hab), h.withNet]
    rfl
  · exact { h with
      nets := rfl
      net := { h.net with noLonger := rfl } }

/-- The ghost `o` of the agent that has moved to rank `k`, after some of its edges. -/
structure Redir (d : Bool) (c : Cx S A) (o : Obj) (k : Nat) (l : List (EKey × Nat)) (c' : Cx S A) : Prop where
  ctx : ∃ NE, c' = { c with lrank := if l = [] then c.lrank else fun x => if x = o then k else c.lrank x, nets := [{ c.net with newEdges := NE }] } ∧ Assoc.Ok NE ∧
    (∀ e ∈ NE, e ∈ c.net.ghosted ∧ (e.1.1 = o ∨ e.1.2 = o)) ∧ ∀ e ∈ l, ∃ K ∈ Assoc.keys NE, Same d K.1 K.2 e.1.1 e.1.2

theorem COk.movedOne {c : Cx S A} (h : COk d Q c) {m k : Nat} (hk : k ≠ c.rank) {s : S} {j : Nat} (hg : c.v.gho m = some (s, j)) (hh : Q.hid m = false) (hnew : c.v.net.new = [])
    (hex : ∃ x y, (c.v.net.edge x y).isSome = true ∧ (m = x ∨ m = y))
    (hw : ∀ x y, (c.v.net.edge x y).isSome = true → m = x ∨ m = y → ∃ p ∈ c.v.net.syn, SameN d p.1 p.2 x y) :
    ∃ c' l, c.movedOne 0 (m, k) = some c' ∧ COk d Q c' ∧
      c'.v = { c.v with gho := fun x => if x = m then some (s, k) else c.v.gho x, net := { c.v.net with new := l } } ∧
      (∀ p ∈ l, p ∈ c.v.net.syn ∧ (m = p.1 ∨ m = p.2)) ∧ ∀ x y, (c.v.net.edge x y).isSome = true → m = x ∨ m = y → ∃ p ∈ l, SameN d p.1 p.2 x y := by
  obtain ⟨gh, hgh, hgs⟩ := Option.map_eq_some_iff.1 hg
  have hgo := h.gho m gh hgh
  have hi := h.net.inv
  have hu := h.net.uniq
  have hon : gh.obj ∈ c.net.g.nodes := (h.nodes _).2 ⟨by unfold Cx.find; rw [hgo.1, hgo.2.2.2, hgh]; rfl, by rw [hgo.1]; exact hh⟩
  obtain ⟨es, hes⟩ : ∃ es, c.net.g.edgesOf gh.obj = some es := by unfold Graph.edgesOf; rw [if_pos hon]; exact ⟨_, rfl⟩
  have hnewE : c.net.newEdges = [] := by
    have : (Assoc.keys c.net.newEdges).map uu = [] := hnew
    simpa [Assoc.keys] using this
  have hkey : ∀ e ∈ es, ∃ key ge, c.net.edgeKey e.1 = some key ∧ Assoc.get c.net.ghosted key = some ge ∧ Same d key.1 key.2 e.1.1 e.1.2 ∧ ge.ghostA = gh.obj ∧ (key.1 = gh.obj ∨ key.2 = gh.obj) := by
    intro e he
    obtain ⟨h1, h2, -⟩ := edgesOf_mem hi hes he
    have hn := slot_ends hi h1
    have hE : c.net.g.hasEdge e.1.1 e.1.2 = true := by unfold Graph.hasEdge; rw [h1]; rfl
    obtain ⟨key, hkey⟩ := edgeKey_some h.net hE
    have hsm := key_same h.net.keys hkey
    rw [h.net.dir] at hsm
    obtain ⟨p, hp, hps⟩ := hw e.1.1.uid e.1.2.uid (by rw [h.edge_attr hn.1 hn.2]; unfold Graph.attr; rw [h1]; rfl) (by
      rcases h2 with c1 | c1
      · exact .inl (by rw [c1, hgo.1])
      · exact .inr (by rw [c1, hgo.1]))
    obtain ⟨K, hK, rfl⟩ := List.mem_map.1 hp
    have hKn := h.net.keyEnds (.inr hK)
    have hKs : Same d K.1 K.2 e.1.1 e.1.2 := (sameN_uid hu hKn.1 hKn.2 hn.1 hn.2).1 hps
    have hmem := canon_mem h.net hkey ⟨K, .inr hK, hKs.symm⟩
    rw [hnewE] at hmem
    have hmem := hmem.resolve_left (by simp [Assoc.keys])
    obtain ⟨ge, hge⟩ := Option.isSome_iff_exists.1 ((Assoc.get_isSome _ _).2 hmem)
    have hent := (h.net.syn _ (Assoc.mem_of_get hge)).2
    simp only at hent
    have hko : key.1 = gh.obj ∨ key.2 = gh.obj := by unfold Same at hsm; grind
    refine ⟨key, ge, hkey, hge, hsm, ?_, hko⟩
    have hne := hgo.2.1
    rcases hent with ⟨q1, q2, -, q3⟩ | ⟨q1, q2, -, q3⟩
    · rcases hko with c1 | c1
      · rw [c1] at q1; exact absurd q1 hne
      · rw [q3, c1]
    · rcases hko with c1 | c1
      · rw [q3, c1]
      · rw [c1] at q2; exact absurd q2 hne
  obtain ⟨c', hc', ⟨NE, hce, hNE, hN1, hN2⟩⟩ := foldM_sim (f := Cx.redirect 0 k) (Redir d c gh.obj k) es (by
    rintro pre e suf hl t ⟨NE, rfl, hNE, hN1, hN2⟩
    obtain ⟨key, ge, h1, h2, h3, h4, h5⟩ := hkey e (by rw [hl]; simp)
    unfold Cx.redirect
    simp only [List.getElem?_cons_zero, Option.bind_some]
    have h1' : ({ c.net with newEdges := NE } : Net A).edgeKey e.1 = some key := h1
    rw [h1']
    simp only [Option.bind_some, h2]
    refine ⟨_, rfl, ⟨Assoc.set NE key ge, ?_, hNE.set _ _, ?_, ?_⟩⟩
    · simp only [Cx.setRank, List.set_cons_zero, h4, List.append_eq_nil_iff, List.cons_ne_self, and_false, if_false]
      congr 1
      funext x
      split
      · rfl
      · split
        · rfl
        · rename_i c1 c2; show (if _ then _ else _) = _; rw [if_neg c1]
    · intro x hx
      have := Assoc.get_of_mem (hNE.set key ge) (k := x.1) (v := x.2) hx
      rw [Assoc.get_set] at this
      split at this
      · rename_i e1
        simp only [Option.some.injEq] at this
        have : x = (key, ge) := Prod.ext e1.symm this.symm
        rw [this]
        exact ⟨Assoc.mem_of_get h2, h5⟩
      · exact hN1 x (Assoc.mem_of_get this)
    · intro x hx
      have hmk : ∀ K, K ∈ Assoc.keys (Assoc.set NE key ge) ↔ K ∈ Assoc.keys NE ∨ K = key := by
        intro K; rw [Assoc.keys_set]; split
        · rename_i c1; constructor
          · exact .inl
          · rintro (c2 | c2)
            · exact c2
            · rw [c2]; exact c1
        · simp
      rcases List.mem_append.1 hx with hx | hx
      · obtain ⟨K, hK, hs⟩ := hN2 x hx
        exact ⟨K, (hmk K).2 (.inl hK), hs⟩
      · have : x = e := by simpa using hx
        rw [this]
        exact ⟨key, (hmk key).2 (.inr rfl), h3⟩) c ⟨[], by
      simp only [if_true]
      rw [show ({ c.net with newEdges := [] } : Net A) = c.net by rw [← hnewE], ← h.nets], Assoc.Ok.nil, by simp, by simp⟩
  have hesne : es ≠ [] := by
    intro he
    obtain ⟨x, y, hxy, hor⟩ := hex
    obtain ⟨at_, hab⟩ := Option.isSome_iff_exists.1 hxy
    obtain ⟨a', b', rfl, rfl, hab'⟩ := (e_some hi hu _ _ _).1 hab
    unfold Graph.attr at hab'
    obtain ⟨i, hs, -⟩ := Option.map_eq_some_iff.1 hab'
    have hends := slot_ends hi hs
    obtain ⟨e, he', -⟩ := edgesOf_all hi hes hs (by
      rcases hor with c1 | c1
      · exact .inl (hu _ hends.1 _ hon (by rw [← c1, hgo.1]))
      · exact .inr (hu _ hends.2 _ hon (by rw [← c1, hgo.1])))
    rw [he] at he'; cases he'
  rw [if_neg hesne] at hce
  have hlr : ∀ x, (if x = gh.obj then k else c.lrank x) = c.rank ↔ c.lrank x = c.rank := by
    intro x
    split
    · rename_i e; rw [e]; exact ⟨fun c1 => absurd c1 hk, fun c1 => absurd c1 hgo.2.1⟩
    · rfl
  have hcr : ∀ K, Crosses c.rank c.lrank K → Crosses c.rank (fun x => if x = gh.obj then k else c.lrank x) K := by
    intro K hK
    unfold Crosses at hK ⊢
    simp only [ne_eq, hlr]
    exact hK
  have hent : ∀ e, Entry c.rank c.lrank c.net e → ∀ N : Net A, N.g = c.net.g → Entry c.rank (fun x => if x = gh.obj then k else c.lrank x) N e := by
    intro e he N hN
    unfold Entry at he ⊢
    rw [hN]
    simp only [ne_eq, hlr]
    exact he
  subst hce
  have hok : COk d Q { c with lrank := fun x => if x = gh.obj then k else c.lrank x, nets := [{ c.net with newEdges := NE }] } := {
    nets := rfl
    net := {
      inv := hi
      dir := h.net.dir
      moved := h.net.moved
      noLonger := h.net.noLonger
      toRef := h.net.toRef
      uniq := hu
      keys := h.net.keys
      sym := h.net.sym
      hasKey := h.net.hasKey
      new := fun e he => hent e (h.net.syn e (hN1 e he).1) _ rfl
      newOk := hNE
      syn := fun e he => hent e (h.net.syn e he) _ rfl
      synOk := h.net.synOk
      upd := by
        intro K hK
        have := h.net.upd K hK
        rw [hnewE] at this
        exact .inr (this.resolve_left (by simp [Assoc.keys]))
      rem := by
        intro e he
        obtain ⟨q1, q2, q3, q4, q5⟩ := h.net.rem e he
        refine ⟨q1, q2, hcr _ q3, ?_, q5⟩
        rw [q4]
        simp only [ne_eq, hlr]
      remOk := h.net.remOk
      canon := by
        intro K hK key hkey
        have hK : K ∈ Assoc.keys c.net.ghosted := by
          rcases hK with hK | hK
          · obtain ⟨e, he, rfl⟩ := List.mem_map.1 hK
            exact List.mem_map_of_mem (hN1 e he).1
          · exact hK
        have := h.net.canon K (.inr hK) key hkey
        rw [hnewE] at this
        exact .inr (this.resolve_left (by simp [Assoc.keys])) }
    removed := h.removed
    loc := fun u o s hl => ⟨(h.loc u o s hl).1, (hlr o).2 (h.loc u o s hl).2⟩
    gho := fun u g hg => ⟨(h.gho u g hg).1, fun c1 => (h.gho u g hg).2.1 ((hlr _).1 c1), (h.gho u g hg).2.2⟩
    ghoFresh := h.ghoFresh
    hid := h.hid
    nodes := h.nodes
    fresh := h.fresh
    tagOk := h.tagOk
    tags := h.tags
    toRef := fun o ho => ⟨(h.toRef o ho).1, fun c1 => (h.toRef o ho).2.1 ((hlr _).1 c1), (h.toRef o ho).2.2⟩ }
  refine ⟨_, (Assoc.keys NE).map uu, ?_, hok, ?_, ?_, ?_⟩
  · unfold Cx.movedOne
    simp only [hgh]
    rw [if_neg hk, h.get0, Option.bind_some, hes, Option.bind_some]
    exact hc'
  · have : ({ c with lrank := fun x => if x = gh.obj then k else c.lrank x, nets := [{ c.net with newEdges := NE }] } : Cx S A).v.gho = fun x => if x = m then some (s, k) else c.v.gho x := by
      funext x
      show (get c.ghosts x).map (fun g => (g.st, if g.obj = gh.obj then k else c.lrank g.obj)) = if x = m then some (s, k) else (get c.ghosts x).map fun g => (g.st, c.lrank g.obj)
      split
      · rename_i e
        rw [e, hgh]
        simp only [Option.map_some, if_true]
        rw [← (Prod.mk.inj hgs).1]
      · rename_i e
        cases hx : get c.ghosts x with
        | none => rfl
        | some g =>
          simp only [Option.map_some]
          rw [if_neg (fun c1 => e (by rw [← (h.gho x g hx).1, c1, hgo.1]))]
    rw [← this]
    rfl
  · intro p hp
    obtain ⟨K, hK, rfl⟩ := List.mem_map.1 hp
    obtain ⟨e, he, rfl⟩ := List.mem_map.1 hK
    obtain ⟨q1, q2⟩ := hN1 e he
    refine ⟨List.mem_map_of_mem (List.mem_map_of_mem q1), ?_⟩
    rcases q2 with c1 | c1
    · exact .inl (by show _ = e.1.1.uid; rw [c1, hgo.1])
    · exact .inr (by show _ = e.1.2.uid; rw [c1, hgo.1])
  · intro x y hxy hor
    obtain ⟨at_, hab⟩ := Option.isSome_iff_exists.1 hxy
    obtain ⟨a', b', rfl, rfl, hab'⟩ := (e_some hi hu _ _ _).1 hab
    unfold Graph.attr at hab'
    obtain ⟨i, hs, -⟩ := Option.map_eq_some_iff.1 hab'
    have hends := slot_ends hi hs
    obtain ⟨e, he, -, hsm⟩ := edgesOf_all hi hes hs (by
      rcases hor with c1 | c1
      · exact .inl (hu _ hends.1 _ hon (by rw [← c1, hgo.1]))
      · exact .inr (hu _ hends.2 _ hon (by rw [← c1, hgo.1])))
    rw [h.net.dir] at hsm
    obtain ⟨K, hK, hKs⟩ := hN2 e he
    refine ⟨uu K, List.mem_map_of_mem hK, ?_⟩
    have hKn : K.1 ∈ c.net.g.nodes ∧ K.2 ∈ c.net.g.nodes := by
      obtain ⟨e', he', rfl⟩ := List.mem_map.1 hK
      exact h.net.keyEnds (.inr (List.mem_map_of_mem (hN1 e' he').1))
    exact (sameN_uid hu hKn.1 hKn.2 hends.1 hends.2).2 ((same_trans hKs.symm).1 hsm)

/-- There is no ghost of the agent here. -/
theorem movedOne_none {c : Cx S A} {m k : Nat} (hg : c.v.gho m = none) : c.movedOne 0 (m, k) = some c := by
  have : get c.ghosts m = none := by simpa [Cx.v] using hg
  unfold Cx.movedOne
  simp only [this]

end Repast.Network
