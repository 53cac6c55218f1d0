import Verif.Network.GraphMove

/-! What a rank does when one of its agents leaves (context.py:505-516, network.py:476-545). Used for C54. -/
namespace Repast.Network
open Repast.Dict

variable {S A : Type} {d : Bool} {Q : Pend A}

/-- The other end of an edge of `o`. -/
def otherEnd (o : Obj) (e : EKey × Nat) : Obj := if e.1.1.uid = o.uid then e.1.2 else e.1.1

/-- The other end is on another rank. -/
def isFar (c : Cx S A) (o : Obj) (e : EKey × Nat) : Bool := decide (c.lrank (otherEnd o e) ≠ c.rank)

/-- The other end is a ghost that has no other edges. -/
def isLast (c : Cx S A) (N : Net A) (o : Obj) (e : EKey × Nat) : Bool := isFar c o e && decide (N.g.numEdges (otherEnd o e) = some 1)

def lastOnes (c : Cx S A) (N : Net A) (o : Obj) (l : List (EKey × Nat)) : List Obj := (l.filter (isLast c N o)).map (otherEnd o)

def nearOnes (c : Cx S A) (N : Net A) (o : Obj) (l : List (EKey × Nat)) : List (Nat × Nat × Attr A) :=
  (l.filter fun e => !isFar c o e).map fun e => (e.1.1.uid, e.1.2.uid, N.g.dict e.2)

/-- The context after some of the edges. -/
structure Moving (c : Cx S A) (N : Net A) (o : Obj) (s : S) (dest : Nat) (D0 : Option (Dict Int)) (l : List (EKey × Nat)) (t : Cx S A × Option (Dict Int) × List EKey × List Obj) : Prop where
  ctx : ∃ G, t.1 = { c with
      lrank := if nearOnes c N o l = [] then c.lrank else fun x => if x = o then dest else c.lrank x
      ghosts := G
      nets := [{ N with movedEdges := N.movedEdges ++ nearOnes c N o l, noLonger := N.noLonger ++ (lastOnes c N o l).map fun x => (c.lrank x, x.uid) }] } ∧
    ∀ u, get G u = if u = o.uid then (if nearOnes c N o l = [] then none else some ⟨o, s, 0⟩) else if u ∈ (lastOnes c N o l).map (·.uid) then none else get c.ghosts u
  dict : (nearOnes c N o l = [] → t.2.1 = D0) ∧ (nearOnes c N o l ≠ [] → t.2.1.isSome = true) ∧ (Dict.Ok (D0.getD []) → Dict.Ok (t.2.1.getD [])) ∧
    ∀ j, (get (t.2.1.getD []) j).isSome = ((get (D0.getD []) j).isSome || (!(nearOnes c N o l).isEmpty && decide (j = c.rank)))
  edges : t.2.2.1 = (l.filter (isFar c o)).map (·.1)
  nodes : t.2.2.2 = lastOnes c N o l

theorem moving_fold {c : Cx S A} {N : Net A} (hN : c.nets = [N]) {o : Obj} {s : S} {dest : Nat} {D0 : Option (Dict Int)} {es : List (EKey × Nat)}
    (hg : get c.ghosts o.uid = none)
    (hes : ∀ e ∈ es, (otherEnd o e).uid ≠ o.uid ∧ otherEnd o e ∈ N.g.nodes ∧ (isFar c o e = true → (otherEnd o e).uid ∉ c.req ∧ ∃ g, get c.ghosts (otherEnd o e).uid = some g ∧ g.ref = 1))
    (hone : ∀ pre e suf, es = pre ++ e :: suf → isLast c N o e = true → ∀ e' ∈ pre, (otherEnd o e').uid ≠ (otherEnd o e).uid) :
    ∃ t, es.foldlM (Cx.movingEdge 0 o s dest) (c, D0, [], []) = some t ∧ Moving c N o s dest D0 es t := by
  refine foldM_sim (Moving c N o s dest D0) es ?_ (c, D0, [], []) ?_
  · rintro pre e suf hl ⟨c1, D, E, X⟩ ⟨⟨G, hc, hG⟩, hD, hE, hX⟩
    simp only at hc hD hE hX
    obtain ⟨h1, h2, h3⟩ := hes e (by rw [hl]; simp)
    have hne : otherEnd o e ≠ o := fun c => h1 (by rw [c])
    have hlr : c1.lrank (otherEnd o e) = c.lrank (otherEnd o e) := by
      rw [hc]; simp only; split
      · rfl
      · show (if _ then _ else _) = _; rw [if_neg hne]
    have hrk : c1.rank = c.rank := by rw [hc]
    have hrq : c1.req = c.req := by rw [hc]
    have hn0 : c1.nets[0]? = some { N with movedEdges := N.movedEdges ++ nearOnes c N o pre, noLonger := N.noLonger ++ (lastOnes c N o pre).map fun x => (c.lrank x, x.uid) } := by
      rw [hc]; rfl
    unfold Cx.movingEdge
    simp only [hn0, Option.bind_some]
    have hoth : (if e.1.1.uid = o.uid then e.1.2 else e.1.1) = otherEnd o e := rfl
    simp only [hoth, hlr, hrk, hrq]
    have hsplit : ∀ {p : EKey × Nat → Bool}, (pre ++ [e]).filter p = pre.filter p ++ (if p e then [e] else []) := by
      intro p; rw [List.filter_append]; congr 1; cases h : p e <;> simp [h]
    cases hf : isFar c o e with
    | true =>
      have hcond : c.lrank (otherEnd o e) ≠ c.rank ∧ (otherEnd o e).uid ∉ c.req := ⟨of_decide_eq_true hf, (h3 hf).1⟩
      rw [if_pos hcond]
      have hnear : nearOnes c N o (pre ++ [e]) = nearOnes c N o pre := by unfold nearOnes; rw [hsplit]; simp [hf]
      have hfar : ((pre ++ [e]).filter (isFar c o)).map (·.1) = (pre.filter (isFar c o)).map (·.1) ++ [e.1] := by rw [hsplit]; simp [hf]
      obtain ⟨q, hq⟩ := numEdges_some h2
      rw [hq]
      simp only [Option.bind_some]
      by_cases h4 : q = 1
      · subst h4
        have hlast : isLast c N o e = true := by unfold isLast; rw [hf, hq]; rfl
        have hlo : lastOnes c N o (pre ++ [e]) = lastOnes c N o pre ++ [otherEnd o e] := by unfold lastOnes; rw [hsplit]; simp [hlast]
        obtain ⟨g, hg1, hg2⟩ := (h3 hf).2
        have hnot : (otherEnd o e).uid ∉ (lastOnes c N o pre).map (·.uid) := by
          intro hm
          obtain ⟨x, hx, hxe⟩ := List.mem_map.1 hm
          obtain ⟨e', he', rfl⟩ := List.mem_map.1 hx
          exact hone pre e suf hl hlast e' (List.mem_filter.1 he').1 hxe
        have hgG : get c1.ghosts (otherEnd o e).uid = some g := by rw [hc]; simp only; rw [hG, if_neg h1, if_neg hnot]; exact hg1
        rw [if_pos rfl]
        have hrg : c1.removeGhost (otherEnd o e).uid = some { c1 with ghosts := Dict.del c1.ghosts (otherEnd o e).uid } := by
          unfold Cx.removeGhost
          rw [hrq, if_neg hcond.2, hgG]
          simp [hg2]
        rw [hrg]
        simp only [Option.bind_some]
        have hw : ({ c1 with ghosts := Dict.del c1.ghosts (otherEnd o e).uid } : Cx S A).nets = [{ N with movedEdges := N.movedEdges ++ nearOnes c N o pre, noLonger := N.noLonger ++ (lastOnes c N o pre).map fun x => (c.lrank x, x.uid) }] := by
          rw [hc]
        unfold Cx.withNet
        rw [hw]
        refine ⟨_, rfl, ⟨Dict.del G (otherEnd o e).uid, ?_, ?_⟩, ?_, ?_, ?_⟩
        · rw [hc, hnear, hlo]
          simp only [List.getElem?_cons_zero, List.map_append, List.append_assoc]
          rfl
        · intro u
          rw [hnear, hlo, get_del, hG]
          simp only [List.map_append, List.mem_append, List.map_cons, List.map_nil, List.mem_singleton]
          by_cases e1 : (otherEnd o e).uid = u
          · rw [if_pos e1, if_neg (by rw [← e1]; exact h1), if_pos (.inr e1.symm)]
          · rw [if_neg e1]
            simp only [show (u = (otherEnd o e).uid) = False from eq_false (fun c => e1 c.symm), or_false]
        · rw [hnear]; exact hD
        · rw [hfar, hE]
        · rw [hlo, hX]
      · rw [if_neg h4]
        have hlast : isLast c N o e = false := by unfold isLast; rw [hf, hq]; simp [h4]
        have hlo : lastOnes c N o (pre ++ [e]) = lastOnes c N o pre := by unfold lastOnes; rw [hsplit]; simp [hlast]
        refine ⟨_, rfl, ⟨G, ?_, ?_⟩, ?_, ?_, ?_⟩
        · rw [hnear, hlo]; exact hc
        · rw [hnear, hlo]; exact hG
        · rw [hnear]; exact hD
        · rw [hfar, hE]
        · rw [hlo]; exact hX
    | false =>
      have hr' : c.lrank (otherEnd o e) = c.rank := by simpa [isFar] using hf
      rw [if_neg (by simp [hr'])]
      have hnear : nearOnes c N o (pre ++ [e]) = nearOnes c N o pre ++ [(e.1.1.uid, e.1.2.uid, N.g.dict e.2)] := by unfold nearOnes; rw [hsplit]; simp [hf]
      have hfar : (pre ++ [e]).filter (isFar c o) = pre.filter (isFar c o) := by rw [hsplit]; simp [hf]
      have hlast : isLast c N o e = false := by unfold isLast; rw [hf]; rfl
      have hlo : lastOnes c N o (pre ++ [e]) = lastOnes c N o pre := by unfold lastOnes; rw [hsplit]; simp [hlast]
      have hw : (c1.addGhost dest o s 0).nets = [{ N with movedEdges := N.movedEdges ++ nearOnes c N o pre, noLonger := N.noLonger ++ (lastOnes c N o pre).map fun x => (c.lrank x, x.uid) }] := by
        rw [hc]; rfl
      unfold Cx.withNet
      rw [hw]
      refine ⟨_, rfl, ⟨Dict.set G o.uid ⟨o, s, 0⟩, ?_, ?_⟩, ⟨?_, ?_, ?_, ?_⟩, ?_, ?_⟩
      · rw [hc, hnear, hlo]
        simp only [Option.bind_some, List.getElem?_cons_zero, List.append_assoc, Cx.addGhost, Cx.setRank]
        congr 1
        have hsn : ¬ (nearOnes c N o pre ++ [(e.1.1.uid, e.1.2.uid, N.g.dict e.2)] = []) := by simp
        rw [if_neg hsn]
        funext x
        split
        · rfl
        · split
          · rfl
          · rename_i hx _
            show (if _ then _ else _) = _; rw [if_neg hx]
      · intro u
        rw [hnear, hlo, get_set, hG]
        by_cases e1 : o.uid = u
        · rw [if_pos e1, if_pos e1.symm, if_neg (by simp)]
        · have e2 : ¬ u = o.uid := fun c => e1 c.symm
          simp only [if_neg e1, if_neg e2]
      · intro hh; rw [hnear] at hh; simp at hh
      · intro _; rfl
      · intro hok
        exact (hD.2.2.1 hok).set _ _
      · intro j
        rw [hnear]
        simp only [Option.getD_some, get_set]
        have := hD.2.2.2 j
        by_cases e1 : c.rank = j
        · rw [if_pos e1]; simp [e1]
        · rw [if_neg e1, this]
          have e2 : ¬ j = c.rank := fun c => e1 c.symm
          simp [e2]
      · rw [hfar, hE]
      · rw [hlo]; exact hX
  · refine ⟨⟨c.ghosts, ?_, ?_⟩, ⟨fun _ => rfl, fun hh => absurd rfl hh, id, by simp [nearOnes]⟩, rfl, rfl⟩
    · simp [nearOnes, lastOnes, ← hN]
    · intro u
      split
      · rename_i e; rw [e, hg]; rfl
      · simp [lastOnes]

/-- What is known after the agent `m` has left for rank `k`: `hid`, `drop` as in `Sp.mid`; `M` are the edges with agents that stay, `L` the ghosts that are not needed any more, with
their ranks, and `D` are the ranks that the agent is ghosted on. -/
structure Away (d : Bool) (Q : Pend A) (c : Cx S A) (m k : Nat) (s : S) (c' : Cx S A) (D : Option (Dict Int)) (hid : Bool) (drop : Nat → Bool) (M : List (Nat × Nat × Attr A))
    (L : List (Nat × Nat)) : Prop where
  ok : COk d ⟨fun u => Q.mv u ∨ u = m, fun u => decide (u = m) && hid, M, L, Q.toRef⟩ c'
  view : c'.v = { c.v with
      loc := fun x => if x = m then none else c.v.loc x
      gho := fun x => if x = m then (if hid then some (s, k) else none) else if drop x then none else c.v.gho x
      net := { c.v.net with
        has := fun x => c.v.net.has x && !decide (x = m) && !drop x
        edge := fun x y => if x = m ∨ y = m then none else c.v.net.edge x y }
      tag := fun x j => c.v.tag x j && !decide (x = m) }
  dropOk : ∀ x, drop x = true → (c.v.gho x).isSome = true ∧ ¬ Q.mv x ∧ ∀ y z, (c.v.net.edge y z).isSome = true → x = y ∨ x = z → m = y ∨ m = z
  dropReq : ∀ x, drop x = true → c.v.req x = false
  left : ∀ q ∈ L, drop q.2 = true ∧ ∃ s', c.v.gho q.2 = some (s', q.1)
  leftAll : ∀ x, drop x = true → ∃ q ∈ L, q.2 = x
  leftOnce : (L.map (·.2)).Nodup
  kept : ∀ e ∈ M, (e.1 = m ∧ e.2.1 ≠ m ∧ (c.v.loc e.2.1).isSome = true ∨ e.2.1 = m ∧ e.1 ≠ m ∧ (c.v.loc e.1).isSome = true ∧ d = true) ∧ c.v.net.edge e.1 e.2.1 = some e.2.2
  keptAll : ∀ x y, (c.v.net.edge x y).isSome = true → (x = m ∧ (c.v.loc y).isSome = true ∨ y = m ∧ (c.v.loc x).isSome = true) → ∃ e ∈ M, SameN d e.1 e.2.1 x y
  keptOnce : M.Pairwise fun e e' => ¬ SameN d e.1 e.2.1 e'.1 e'.2.1
  hidIff : hid = true ↔ M ≠ []
  dict : Dict.Ok (D.getD [])
  ranks : ∀ j, (get (D.getD []) j).isSome = (c.v.tag m j || (hid && decide (j = c.rank)))

theorem COk.sendAway {n : Nat} {c : Cx S A} (h : COk d Q c) (hhid : Q.hid = fun _ => false) (hmoved : Q.moved = []) (hnl : Q.noLonger = []) {m k : Nat} {s : S} (hl : c.v.loc m = some s)
    (hk : k < n) (hkr : k ≠ c.rank) (hself : c.v.net.edge m m = none) (hnew : c.v.net.new = []) (hupd : c.v.net.upd = []) (hrem : c.v.net.rem = [])
    (hsyn : ∀ p ∈ c.v.net.syn, p.1 ≠ m ∧ p.2 ≠ m)
    (hfar : ∀ x, (c.v.net.edge m x).isSome = true ∨ (c.v.net.edge x m).isSome = true → (c.v.gho x).isSome = true → c.v.req x = false ∧ ¬ Q.mv x)
    (acc : List (Nat × Nat × S × Option (Dict Int))) :
    ∃ c' D hid drop M L, Cx.sendAway n (c, acc) (m, k) = some (c', acc ++ [(k, m, s, D)]) ∧ Away d Q c m k s c' D hid drop M L := by
  obtain ⟨⟨o, s'⟩, hlo, hss⟩ := Option.map_eq_some_iff.1 hl
  simp only at hss
  subst hss
  have hom := h.loc m o s' hlo
  have hon : o ∈ c.net.g.nodes := h.local_node hlo
  have hu := h.net.uniq
  have hi := h.net.inv
  have hdir := h.net.dir
  obtain ⟨es, hes⟩ : ∃ es, c.net.g.edgesOf o = some es := by unfold Graph.edgesOf; rw [if_pos hon]; exact ⟨_, rfl⟩
  have hoo : c.net.g.slot o o = none := by
    have := h.edge_attr hon hon
    rw [hom.1, hself] at this
    unfold Graph.attr at this
    cases hh : c.net.g.slot o o with
    | none => rfl
    | some i => rw [hh] at this; cases this
  have hnd := edgesOf_nodup hi hes hoo
  -- the edges of the agent
  have hoe : ∀ e ∈ es, otherEnd o e ∈ c.net.g.nodes ∧ otherEnd o e ≠ o ∧ (otherEnd o e).uid ≠ m ∧ (e.1 = (o, otherEnd o e) ∨ e.1 = (otherEnd o e, o) ∧ d = true) := by
    intro e he
    obtain ⟨h1, h2, h3⟩ := edgesOf_mem hi hes he
    have hn := slot_ends hi h1
    have hne : e.1.1 ≠ e.1.2 := by
      intro c1
      rw [c1] at h1 h2
      have : e.1.2 = o := by simpa using h2
      rw [this, hoo] at h1; cases h1
    unfold otherEnd
    by_cases c1 : e.1.1 = o
    · have c2 : e.1.2 ≠ o := fun c2 => hne (c1.trans c2.symm)
      rw [if_pos (by rw [c1])]
      exact ⟨hn.2, c2, fun c3 => c2 (hu _ hn.2 _ hon (by rw [c3, hom.1])), .inl (Prod.ext c1 rfl)⟩
    · have c2 : e.1.2 = o := h2.resolve_left c1
      have c3 : e.1.1.uid ≠ o.uid := fun c3 => c1 (hu _ hn.1 _ hon c3)
      rw [if_neg c3]
      refine ⟨hn.1, c1, fun c4 => c3 (by rw [c4, hom.1]), .inr ⟨Prod.ext rfl c2, ?_⟩⟩
      cases hd : d with
      | true => rfl
      | false => exact absurd (h3 (hdir.trans hd)) c1
  have hslot : ∀ e ∈ es, c.net.g.slot e.1.1 e.1.2 = some e.2 := fun e he => (edgesOf_mem hi hes he).1
  have htouch : ∀ e ∈ es, e.1.1 = otherEnd o e ∨ e.1.2 = otherEnd o e := by
    intro e he
    rcases (hoe e he).2.2.2 with c1 | ⟨c1, -⟩ <;> rw [c1] <;> simp
  have htouch' : ∀ e ∈ es, e.1.1 = o ∨ e.1.2 = o := fun e he => (edgesOf_mem hi hes he).2.1
  have hedge : ∀ e ∈ es, c.v.net.edge e.1.1.uid e.1.2.uid = some (c.net.g.dict e.2) := by
    intro e he
    have hn := slot_ends hi (hslot e he)
    rw [h.edge_attr hn.1 hn.2]
    unfold Graph.attr
    rw [hslot e he]; rfl
  have hghost : ∀ e ∈ es, isFar c o e = true → (otherEnd o e).uid ∉ c.req ∧ ¬ Q.mv (otherEnd o e).uid ∧ (∃ s1, c.v.gho (otherEnd o e).uid = some (s1, c.lrank (otherEnd o e))) ∧
      ∃ g, get c.ghosts (otherEnd o e).uid = some g ∧ g.ref = 1 := by
    intro e he hf
    obtain ⟨s1, hs1⟩ := h.gho_lrank (hoe e he).1 (of_decide_eq_true hf)
    have hadj : (c.v.net.edge m (otherEnd o e).uid).isSome = true ∨ (c.v.net.edge (otherEnd o e).uid m).isSome = true := by
      have := hedge e he
      rcases (hoe e he).2.2.2 with c1 | ⟨c1, -⟩
      · rw [c1] at this; simp only [hom.1] at this; rw [this]; exact .inl rfl
      · rw [c1] at this; simp only [hom.1] at this; rw [this]; exact .inr rfl
    obtain ⟨h1, h2⟩ := hfar _ hadj (by rw [hs1]; rfl)
    obtain ⟨g, hg, -⟩ := Option.map_eq_some_iff.1 hs1
    exact ⟨by simpa [Cx.v] using h1, h2, ⟨s1, hs1⟩, g, hg, (h.gho _ g hg).2.2.1 h2 (by simpa [Cx.v] using h1)⟩
  have hgm : get c.ghosts m = none := by
    cases hh : get c.ghosts m with
    | none => rfl
    | some g => have := (h.gho m g hh).2.2.2; rw [hlo] at this; cases this
  let c0 : Cx S A := { c with locals := Dict.del c.locals m, ghosted := Dict.del c.ghosted m }
  have hlast1 : ∀ e ∈ es, isLast c c.net o e = true → ∀ a b i, c.net.g.slot a b = some i → a = otherEnd o e ∨ b = otherEnd o e → i = e.2 := by
    intro e he hl1 a b i hs hab
    unfold isLast at hl1
    rw [Bool.and_eq_true] at hl1
    exact numEdges_one hi (of_decide_eq_true hl1.2) hs (hslot e he) hab (htouch e he)
  have hnodup : ∀ e ∈ es, ∀ e' ∈ es, e.2 = e'.2 → e = e' := fun e he e' he' hh => nodup_map_inj hnd he he' hh
  have hpw : es.Pairwise fun e e' => e.2 ≠ e'.2 := List.pairwise_map.1 hnd
  obtain ⟨⟨c1, D, E, X⟩, ht, ⟨G, hc1, hG⟩, hD, hE, hX⟩ := moving_fold (c := c0) (N := c.net) (o := o) (s := s') (dest := k) (D0 := get c.ghosted m) (es := es) h.nets
    (by show get c.ghosts o.uid = none; rw [hom.1]; exact hgm)
    (by
      intro e he
      refine ⟨by rw [hom.1]; exact (hoe e he).2.2.1, (hoe e he).1, fun hf => ?_⟩
      obtain ⟨h1, -, -, h2⟩ := hghost e he hf
      exact ⟨h1, h2⟩)
    (by
      intro pre e suf hl1 hl2 e' he' heq
      have he : e ∈ es := by rw [hl1]; simp
      have he1 : e' ∈ es := by rw [hl1]; exact List.mem_append_left _ he'
      have hoo' := hu _ (hoe e' he1).1 _ (hoe e he).1 heq
      have := hlast1 e he hl2 _ _ _ (hslot e' he1) (by rw [← hoo']; exact htouch e' he1)
      exact pairwise_split hpw hl1 e' he' this)
  simp only at hc1 hD hE hX
  have hE : E = (es.filter (isFar c o)).map (·.1) := hE
  have hX : X = lastOnes c c.net o es := hX
  have hXm : ∀ x ∈ X, ∃ e ∈ es, isLast c c.net o e = true ∧ otherEnd o e = x := by
    intro x hx
    rw [hX] at hx
    obtain ⟨e, he, rfl⟩ := List.mem_map.1 hx
    exact ⟨e, (List.mem_filter.1 he).1, (List.mem_filter.1 he).2, rfl⟩
  have hEm : ∀ j ∈ E, ∃ e ∈ es, e.1 = j := by
    intro j hj
    rw [hE] at hj
    obtain ⟨e, he, rfl⟩ := List.mem_map.1 hj
    exact ⟨e, (List.mem_filter.1 he).1, rfl⟩
  have hM0 : nearOnes c0 c.net o es = nearOnes c c.net o es := rfl
  have hL0 : lastOnes c0 c.net o es = lastOnes c c.net o es := rfl
  rw [hM0, hL0] at hc1
  simp only [hM0, hL0, hom.1] at hG hD
  rw [← hX] at hc1
  simp only [← hX] at hG
  let M := nearOnes c c.net o es
  let L := X.map fun x => (c.lrank x, x.uid)
  -- the edges are removed
  let N1 : Net A := { c.net with movedEdges := c.net.movedEdges ++ M, noLonger := c.net.noLonger ++ L }
  have hc1n : c1.nets = [N1] := by rw [hc1]
  obtain ⟨g1, ks, f1, i1, d1, n1, b1, s1, y1, k1, k2⟩ := removeEdges_ok E N1 hi h.net.sym (by
    intro j hj
    obtain ⟨e, he, rfl⟩ := hEm j hj
    have hh : c.net.g.hasEdge e.1.1 e.1.2 = true := by unfold Graph.hasEdge; rw [hslot e he]; rfl
    refine ⟨hh, ?_, fun hd => h.net.hasKey (by rw [← hdir]; exact hd) _ _ hh⟩
    rcases (hoe e he).2.2.2 with c1 | ⟨c1, -⟩
    · rw [c1]; exact Ne.symm (hoe e he).2.1
    · rw [c1]; exact (hoe e he).2.1) (by
    rw [hE, List.pairwise_map]
    refine (hpw.sublist List.filter_sublist).imp_of_mem ?_
    intro e e' he he' hne hs
    have he := (List.mem_filter.1 he).1
    have he' := (List.mem_filter.1 he').1
    have := slot_same hi (a := e.1.1) (b := e.1.2) hs
    rw [hslot e he, hslot e' he'] at this
    simp only [Option.some.injEq] at this
    exact hne this.symm)
  obtain ⟨g2, f2, i2, d2, n2, b2, s2⟩ := removeNodes_ok X { N1 with g := g1, keys := ks } i1 (by
    intro x hx
    obtain ⟨e, he, -, rfl⟩ := hXm x hx
    show _ ∈ g1.nodes
    rw [n1]; exact (hoe e he).1) (by
    rw [hX]
    unfold lastOnes List.Nodup
    rw [List.pairwise_map]
    refine (hpw.sublist List.filter_sublist).imp_of_mem ?_
    intro e e' he he' hne hs
    obtain ⟨he, hl1⟩ := List.mem_filter.1 he
    have he' := (List.mem_filter.1 he').1
    exact hne (hlast1 e he hl1 _ _ _ (hslot e' he') (by rw [hs]; exact htouch e' he')).symm)
  have n2 : ∀ x, x ∈ g2.nodes ↔ x ∈ c.net.g.nodes ∧ x ∉ X := by intro x; rw [n2]; show x ∈ g1.nodes ∧ _ ↔ _; rw [n1]
  have s2 : ∀ a b, g2.slot a b = if a ∈ X ∨ b ∈ X then none else g1.slot a b := s2
  have b2 : g2.dicts = c.net.g.dicts := b2.trans b1
  have d2 : g2.directed = d := (d2.trans d1).trans hdir
  have hoX : o ∉ X := by
    intro hx
    obtain ⟨e, he, -, c1⟩ := hXm o hx
    exact (hoe e he).2.1 c1
  obtain ⟨g3, hg3⟩ : ∃ g, g2.removeNode o = some g := by unfold Graph.removeNode; rw [if_pos ((n2 o).2 ⟨hon, hoX⟩)]; exact ⟨_, rfl⟩
  have hg3e := (removeNode_some hg3).2
  have i3 := i2.removeNode hg3
  have d3 : g3.directed = d := by rw [hg3e]; exact d2
  have b3 : g3.dicts = c.net.g.dicts := by rw [hg3e]; exact b2
  have n3 : ∀ x, x ∈ g3.nodes ↔ x ∈ c.net.g.nodes ∧ x ∉ X ∧ x ≠ o := by
    intro x; rw [hg3e]; simp only [List.mem_filter, n2, decide_eq_true_eq]; grind
  have s3 : ∀ a b, g3.slot a b = if a = o ∨ b = o then none else c.net.g.slot a b := by
    intro a b
    rw [slot_removeNode i2 hg3, s2, s1]
    by_cases c1 : a = o ∨ b = o
    · rw [if_pos c1, if_pos (by grind)]
    · rw [if_neg c1, if_neg (by grind)]
      by_cases c2 : a ∈ X ∨ b ∈ X
      · rw [if_pos c2]
        cases hh : c.net.g.slot a b with
        | none => rfl
        | some i =>
          exfalso
          have : ∃ e ∈ es, isLast c c.net o e = true ∧ (a = otherEnd o e ∨ b = otherEnd o e) := by
            rcases c2 with c2 | c2
            · obtain ⟨e, he, hl1, rfl⟩ := hXm _ c2; exact ⟨e, he, hl1, .inl rfl⟩
            · obtain ⟨e, he, hl1, rfl⟩ := hXm _ c2; exact ⟨e, he, hl1, .inr rfl⟩
          obtain ⟨e, he, hl1, hab⟩ := this
          have := hlast1 e he hl1 a b i hh hab
          have hs := slot_inj hi (this ▸ hh) (hslot e he)
          rcases htouch' e he with c3 | c3 <;> unfold Same at hs <;> grind
      · rw [if_neg c2]
        split
        · rename_i c3
          exfalso
          obtain ⟨j, hj, hs⟩ := c3
          obtain ⟨e, he, rfl⟩ := hEm j hj
          rcases htouch' e he with c3 | c3 <;> unfold Same at hs <;> grind
        · rfl
  let N3 : Net A := { N1 with g := g3, keys := ks }
  let lr : Obj → Nat := if M = [] then c.lrank else fun x => if x = o then k else c.lrank x
  let c' : Cx S A := { c0 with lrank := lr, ghosts := G, nets := [N3] }
  refine ⟨c', D, !M.isEmpty, fun x => decide (x ∈ X.map (·.uid)), M, L, ?_, ?_⟩
  · unfold Cx.sendAway
    simp only
    rw [hlo]
    simp only [Option.bind_some]
    rw [if_pos hk, h.nets]
    have hm1 : Cx.moving 0 o s' k ({ c with locals := Dict.del c.locals m, ghosted := Dict.del c.ghosted m }, get c.ghosted m) = some (c', D) := by
      unfold Cx.moving
      simp only
      rw [h.get0]
      simp only [Option.bind_some]
      rw [hes]
      simp only [Option.bind_some]
      rw [ht]
      simp only [Option.bind_some]
      rw [foldM_withNet (fun N j => (N.g.removeEdge j.1 j.2).bind fun g => ({ N with g := g } : Net A).removeKey j.1 j.2) E hc1n, f1]
      simp only [Option.map_some, Option.bind_some]
      rw [foldM_withNet (fun N u => N.remove u) X (N := { N1 with g := g1, keys := ks }) rfl, f2]
      simp only [Option.map_some, Option.bind_some]
      unfold Cx.withNet
      simp only [List.getElem?_cons_zero, Option.bind_some]
      unfold Net.remove
      rw [hg3]
      simp only [Option.map_some, Option.some.injEq, Prod.mk.injEq, and_true]
      rw [hc1]
      rfl
    rw [show List.range [c.net].length = [0] from rfl, List.foldlM_cons, ← h.nets, hm1]
    rfl
  · have hattr : ∀ a b, g3.attr a b = if a = o ∨ b = o then none else c.net.g.attr a b := fun a b => attr_of_slot b3 a b _ (s3 a b)
    have hlr : ∀ x, x ≠ o → lr x = c.lrank x := by
      intro x hx
      show (if M = [] then c.lrank else fun x => if x = o then k else c.lrank x) x = _
      split
      · rfl
      · show (if _ then _ else _) = _; rw [if_neg hx]
    have hlro : M ≠ [] → lr o = k := by
      intro hm
      show (if M = [] then c.lrank else fun x => if x = o then k else c.lrank x) o = _
      rw [if_neg hm]; simp
    have hG : ∀ u, get G u = if u = m then (if M = [] then none else some ⟨o, s', 0⟩) else if u ∈ X.map (·.uid) then none else get c.ghosts u := hG
    have hXu : ∀ x, x ∈ c.net.g.nodes → (x.uid ∈ X.map (·.uid) ↔ x ∈ X) := by
      intro x hx
      constructor
      · intro hm
        obtain ⟨y, hy, e⟩ := List.mem_map.1 hm
        obtain ⟨e1, he1, -, h2⟩ := hXm y hy
        have : y ∈ c.net.g.nodes := by rw [← h2]; exact (hoe e1 he1).1
        rw [← hu _ this _ hx e]; exact hy
      · exact fun hx => List.mem_map_of_mem hx
    have hXg : ∀ x ∈ X, (∃ s1, c.v.gho x.uid = some (s1, c.lrank x)) ∧ ¬ Q.mv x.uid ∧ get c.locals x.uid = none ∧ x.uid ≠ m := by
      intro x hx
      obtain ⟨e, he, hl1, rfl⟩ := hXm x hx
      have hf : isFar c o e = true := by unfold isLast at hl1; rw [Bool.and_eq_true] at hl1; exact hl1.1
      obtain ⟨-, h2, h3, g, hg, -⟩ := hghost e he hf
      exact ⟨h3, h2, (h.gho _ g hg).2.2.2, (hoe e he).2.2.1⟩
    have hnewE : c.net.newEdges = [] := by
      have : (Assoc.keys c.net.newEdges).map uu = [] := hnew
      simpa [Assoc.keys] using this
    have hupdE : c.net.toUpdate = [] := by
      have : c.net.toUpdate.map uu = [] := hupd
      simpa using this
    have hremE : c.net.toRemove = [] := by
      have : (Assoc.keys c.net.toRemove).map uu = [] := hrem
      simpa [Assoc.keys] using this
    have hsynE : ∀ j ∈ Assoc.keys c.net.ghosted, j.1 ≠ o ∧ j.2 ≠ o := by
      intro j hj
      have := hsyn (uu j) (List.mem_map_of_mem hj)
      constructor
      · intro c1; exact this.1 (by show j.1.uid = m; rw [c1, hom.1])
      · intro c1; exact this.2 (by show j.2.uid = m; rw [c1, hom.1])
    have hkeys : ∀ a b, a ≠ o → b ≠ o → Assoc.get ks (a, b) = Assoc.get c.net.keys (a, b) := by
      intro a b ha hb
      apply k2
      intro j hj hs
      obtain ⟨e, he, rfl⟩ := hEm j hj
      rcases htouch' e he with c3 | c3 <;> unfold Same at hs <;> grind
    have hnet : NetOk d ⟨fun u => Q.mv u ∨ u = m, fun u => decide (u = m) && !M.isEmpty, M, L, Q.toRef⟩ c.rank lr N3 := {
      inv := i3
      dir := d3
      moved := by show c.net.movedEdges ++ M = M; rw [h.net.moved, hmoved]; rfl
      noLonger := by show c.net.noLonger ++ L = L; rw [h.net.noLonger, hnl]; rfl
      toRef := h.net.toRef
      uniq := fun a ha b hb => hu a ((n3 a).1 ha).1 b ((n3 b).1 hb).1
      keys := by
        intro j key hj
        rcases k1 j with c1 | c1
        · have hj : Assoc.get ks j = some key := hj
          rw [c1] at hj; cases hj
        · exact h.net.keys j key (by rw [← show Assoc.get ks j = Assoc.get c.net.keys j from c1]; exact hj)
      sym := y1
      hasKey := by
        intro hd a b hab
        have hab : (g3.slot a b).isSome = true := hab
        rw [s3] at hab
        split at hab
        · cases hab
        · rename_i c1
          simp only [not_or] at c1
          show (Assoc.get ks (a, b)).isSome = true
          rw [hkeys a b c1.1 c1.2]
          exact h.net.hasKey hd a b hab
      new := by
        intro e he
        have he : e ∈ c.net.newEdges := he
        rw [hnewE] at he; cases he
      newOk := h.net.newOk
      syn := by
        intro e he
        have hs := hsynE e.1 (List.mem_map_of_mem he)
        obtain ⟨e1, e2⟩ := h.net.syn e he
        unfold Entry
        rw [hlr _ hs.1, hlr _ hs.2]
        refine ⟨?_, e2⟩
        show g3.slot _ _ = _
        rw [s3, if_neg (by simp [hs.1, hs.2])]; exact e1
      synOk := h.net.synOk
      upd := by
        intro j hj
        have hj : j ∈ c.net.toUpdate := hj
        rw [hupdE] at hj; cases hj
      rem := by
        intro e he
        have he : e ∈ c.net.toRemove := he
        rw [hremE] at he; cases he
      remOk := h.net.remOk
      canon := by
        intro j hj key hkey
        have hj' : j ∈ Assoc.keys c.net.ghosted := by
          rcases hj with hj | hj
          · have hj : j ∈ Assoc.keys c.net.newEdges := hj
            rw [hnewE] at hj; cases hj
          · exact hj
        have hs := hsynE j hj'
        refine h.net.canon j hj key ?_
        unfold Net.edgeKey at hkey ⊢
        have hkey : (if g3.directed = true then some j else Assoc.get ks j) = some key := hkey
        rw [d3] at hkey
        rw [hdir]
        rw [show j = (j.1, j.2) from rfl, hkeys _ _ hs.1 hs.2] at hkey
        exact hkey }
    have hG0 : ∀ u, u ≠ m → u ∉ X.map (·.uid) → get G u = get c.ghosts u := by
      intro u h1 h2; rw [hG, if_neg h1, if_neg h2]
    have hok : COk d ⟨fun u => Q.mv u ∨ u = m, fun u => decide (u = m) && !M.isEmpty, M, L, Q.toRef⟩ c' := {
      nets := rfl
      net := hnet
      removed := h.removed
      loc := by
        intro u o' s1 hl1
        have hl1 : get (Dict.del c.locals m) u = some (o', s1) := hl1
        rw [get_del] at hl1
        split at hl1
        · cases hl1
        · rename_i hne
          have := h.loc u o' s1 hl1
          refine ⟨this.1, ?_⟩
          show lr o' = _
          rw [hlr]
          · exact this.2
          · rintro rfl; exact hne (hom.1.symm.trans this.1)
      gho := by
        intro u g hg
        have hg : get G u = some g := hg
        have hll : get c'.locals u = if m = u then none else get c.locals u := get_del _ _ _
        rw [hG] at hg
        split at hg
        · rename_i e
          split at hg
          · cases hg
          · rename_i hm
            simp only [Option.some.injEq] at hg
            subst hg
            exact ⟨hom.1.trans e.symm, by show lr o ≠ _; rw [hlro hm]; exact hkr, fun hmv => absurd (.inr e) hmv, by rw [hll, if_pos e.symm]⟩
        · rename_i e
          split at hg
          · cases hg
          · obtain ⟨q1, q2, q3, q4⟩ := h.gho u g hg
            refine ⟨q1, ?_, fun hmv => q3 (fun c => hmv (.inl c)), ?_⟩
            · show lr g.obj ≠ _
              rw [hlr _ (by intro c1; exact e (by rw [← q1, c1, hom.1]))]; exact q2
            · rw [hll, q4]; split <;> rfl
      ghoFresh := by
        intro u g hg
        have hg : get G u = some g := hg
        rw [hG] at hg
        split at hg
        · split at hg
          · cases hg
          · simp only [Option.some.injEq] at hg
            subst hg
            exact h.fresh o hon
        · split at hg
          · cases hg
          · exact h.ghoFresh u g hg
      hid := by
        intro u hu1
        simp only [Bool.and_eq_true, decide_eq_true_eq, Bool.not_eq_true', List.isEmpty_eq_false_iff] at hu1
        show (get G u).isSome = true
        rw [hG, if_pos hu1.1, if_neg hu1.2]; rfl
      nodes := by
        intro x
        show x ∈ g3.nodes ↔ (((get (Dict.del c.locals m) x.uid).map (·.1)).or ((get G x.uid).map (·.obj))) = some x ∧ _
        rw [n3, get_del]
        by_cases e : x.uid = m
        · constructor
          · rintro ⟨h1, -, h3⟩
            exact absurd (hu _ h1 _ hon (by rw [e, hom.1])) h3
          · rw [if_pos e.symm, hG, if_pos e]
            rintro ⟨h1, h2⟩
            split at h1
            · cases h1
            · rename_i hm
              simp [e, hm] at h2
        · rw [if_neg (fun c => e c.symm)]
          have hno : x ≠ o := fun c => e (by rw [c, hom.1])
          have hh : (decide (x.uid = m) && !M.isEmpty) = false := by simp [e]
          simp only [hh]
          by_cases e2 : x.uid ∈ X.map (·.uid)
          · obtain ⟨y, hy, hyx⟩ := List.mem_map.1 e2
            have hy2 := (hXg y hy).2.2.1
            rw [hyx] at hy2
            rw [hG, if_neg e, if_pos e2, hy2]
            constructor
            · rintro ⟨h1, h2, -⟩; exact absurd ((hXu x h1).1 e2) h2
            · rintro ⟨h1, -⟩; cases h1
          · rw [hG0 _ e e2]
            have := h.nodes x
            rw [hhid] at this
            unfold Cx.find at this
            constructor
            · rintro ⟨h1, -, -⟩; exact ⟨(this.1 h1).1, trivial⟩
            · rintro ⟨h1, -⟩
              have hx := this.2 ⟨h1, rfl⟩
              exact ⟨hx, fun hc => e2 ((hXu x hx).2 hc), hno⟩
      fresh := fun x hx => h.fresh x ((n3 x).1 hx).1
      tagOk := h.tagOk.del m
      tags := by
        intro u t ht1
        have ht1 : get (Dict.del c.ghosted m) u = some t := ht1
        rw [get_del] at ht1
        split at ht1
        · cases ht1
        · rename_i hne
          obtain ⟨q1, q2, q3⟩ := h.tags u t ht1
          refine ⟨?_, q2, fun j i hj hmv => q3 j i hj (fun c => hmv (.inl c))⟩
          show (get (Dict.del c.locals m) u).isSome = true
          rw [get_del, if_neg hne]; exact q1
      toRef := by
        intro x hx
        obtain ⟨q1, q2, q3⟩ := h.toRef x hx
        refine ⟨.inl q1, ?_, q3⟩
        show lr x ≠ c.rank
        by_cases e : x = o
        · rw [e] at q2; exact absurd hom.2 q2
        · rw [hlr x e]; exact q2 }
    have hview : c'.v = { c.v with
        loc := fun x => if x = m then none else c.v.loc x
        gho := fun x => if x = m then (if (!M.isEmpty) = true then some (s', k) else none) else if decide (x ∈ X.map (·.uid)) = true then none else c.v.gho x
        net := { c.v.net with
          has := fun x => c.v.net.has x && !decide (x = m) && !decide (x ∈ X.map (·.uid))
          edge := fun x y => if x = m ∨ y = m then none else c.v.net.edge x y }
        tag := fun x j => c.v.tag x j && !decide (x = m) } := by
      have eloc : ∀ x, c'.v.loc x = if x = m then none else c.v.loc x := by
        intro x
        show (get (Dict.del c.locals m) x).map _ = _
        rw [get_del]
        by_cases e : x = m
        · rw [if_pos e, if_pos e.symm]; rfl
        · rw [if_neg e, if_neg (fun c => e c.symm)]; rfl
      have egho : ∀ x, c'.v.gho x = if x = m then (if (!M.isEmpty) = true then some (s', k) else none) else if decide (x ∈ X.map (·.uid)) = true then none else c.v.gho x := by
        intro x
        show (get G x).map (fun g => (g.st, lr g.obj)) = _
        rw [hG]
        by_cases e : x = m
        · rw [if_pos e, if_pos e]
          by_cases e2 : M = []
          · rw [if_pos e2, if_neg (by simp [e2])]; rfl
          · rw [if_neg e2, if_pos (by simp [e2])]; simp only [Option.map_some, hlro e2]
        · rw [if_neg e, if_neg e]
          by_cases e2 : x ∈ X.map (·.uid)
          · rw [if_pos e2, if_pos (by simpa using e2)]; rfl
          · rw [if_neg e2, if_neg (by simpa using e2)]
            show _ = (get c.ghosts x).map (fun g => (g.st, c.lrank g.obj))
            cases hg : get c.ghosts x with
            | none => rfl
            | some g =>
              have := h.gho x g hg
              simp only [Option.map_some]
              rw [hlr _ (by intro c1; exact e (by rw [← this.1, c1, hom.1]))]
      have ehas : ∀ x, c'.v.net.has x = (c.v.net.has x && !decide (x = m) && !decide (x ∈ X.map (·.uid))) := by
        intro x
        rw [hok.has_iff, h.has_iff, eloc, egho, hhid]
        by_cases e : x = m
        · simp only [e, if_true, decide_true, Bool.true_and, Bool.not_true, Bool.and_false, Bool.false_and]
          cases M.isEmpty <;> simp
        · simp only [e, if_false, decide_false, Bool.false_and, Bool.not_false, Bool.and_true]
          by_cases e2 : x ∈ X.map (·.uid)
          · obtain ⟨y, hy, hyx⟩ := List.mem_map.1 e2
            have hy2 := (hXg y hy).2.2.1
            rw [hyx] at hy2
            have : c.v.loc x = none := by show (get c.locals x).map _ = _; rw [hy2]; rfl
            simp [e2, this]
          · simp [e2]
      have eedge : ∀ x y, c'.v.net.edge x y = if x = m ∨ y = m then none else c.v.net.edge x y := by
        intro x y
        show N3.e x y = if _ then _ else c.net.e x y
        apply option_ext'
        intro a
        rw [e_some i3 hnet.uniq]
        constructor
        · rintro ⟨a', b', rfl, rfl, hab⟩
          have hab : g3.attr a' b' = some a := hab
          rw [hattr] at hab
          split at hab
          · cases hab
          · rename_i c1
            simp only [not_or] at c1
            have hends := attr_ends hi hab
            rw [if_neg, e_nodes hu hends.1 hends.2]
            · exact hab
            · rintro (c2 | c2)
              · exact c1.1 (hu _ hends.1 _ hon (by rw [c2, hom.1]))
              · exact c1.2 (hu _ hends.2 _ hon (by rw [c2, hom.1]))
        · intro hab
          split at hab
          · cases hab
          · rename_i c1
            simp only [not_or] at c1
            obtain ⟨a', b', rfl, rfl, hab'⟩ := (e_some hi hu _ _ _).1 hab
            refine ⟨a', b', rfl, rfl, ?_⟩
            show g3.attr a' b' = _
            rw [hattr, if_neg]
            · exact hab'
            · rintro (c2 | c2)
              · exact c1.1 (by rw [c2, hom.1])
              · exact c1.2 (by rw [c2, hom.1])
      have etag : ∀ x j, c'.v.tag x j = (c.v.tag x j && !decide (x = m)) := by
        intro x j
        rw [v_tag, v_tag]
        show ((get (Dict.del c.ghosted m) x).bind _).isSome = _
        rw [get_del]
        by_cases e : x = m
        · rw [if_pos e.symm]; simp [e]
        · rw [if_neg (fun c => e c.symm)]; simp [e]
      have e1 : c'.v.loc = fun x => if x = m then none else c.v.loc x := funext eloc
      have e2 : c'.v.gho = fun x => if x = m then (if (!M.isEmpty) = true then some (s', k) else none) else if decide (x ∈ X.map (·.uid)) = true then none else c.v.gho x := funext egho
      have e3 : c'.v.net.has = fun x => c.v.net.has x && !decide (x = m) && !decide (x ∈ X.map (·.uid)) := funext ehas
      have e4 : c'.v.net.edge = fun x y => if x = m ∨ y = m then none else c.v.net.edge x y := funext fun x => funext (eedge x)
      have e5 : c'.v.tag = fun x j => c.v.tag x j && !decide (x = m) := funext fun x => funext (etag x)
      show ({ c.v with loc := c'.v.loc, gho := c'.v.gho, net := { c.v.net with has := c'.v.net.has, edge := c'.v.net.edge }, tag := c'.v.tag } : RV S A) = _
      rw [e1, e2, e3, e4, e5]
    have hmem : ∀ x, x ∈ X.map (·.uid) → ∃ y ∈ X, y.uid = x := fun x hx => List.mem_map.1 hx
    have hnear : ∀ e ∈ M, ∃ i, ∃ e' ∈ es, isFar c o e' = false ∧ e = (e'.1.1.uid, e'.1.2.uid, c.net.g.dict i) ∧ e'.2 = i := by
      intro e he
      obtain ⟨e', he', rfl⟩ := List.mem_map.1 he
      exact ⟨_, e', (List.mem_filter.1 he').1, by simpa using (List.mem_filter.1 he').2, rfl, rfl⟩
    have hlocal : ∀ e ∈ es, isFar c o e = false → (c.v.loc (otherEnd o e).uid).isSome = true := by
      intro e he hf
      rw [← h.local_iff (hoe e he).1]
      unfold isFar at hf
      simpa using hf
    exact {
      ok := hok
      view := hview
      dropOk := by
        intro x hx
        obtain ⟨y, hy, rfl⟩ := hmem x (of_decide_eq_true hx)
        obtain ⟨⟨s1, h1⟩, h2, -, -⟩ := hXg y hy
        obtain ⟨e, he, hl1, hoey⟩ := hXm y hy
        refine ⟨by rw [h1]; rfl, h2, ?_⟩
        intro a b hab hor
        obtain ⟨at_, hab⟩ := Option.isSome_iff_exists.1 hab
        obtain ⟨a', b', rfl, rfl, hab'⟩ := (e_some hi hu _ _ _).1 hab
        unfold Graph.attr at hab'
        obtain ⟨i, hs, -⟩ := Option.map_eq_some_iff.1 hab'
        have hends := slot_ends hi hs
        have hyn : y ∈ c.net.g.nodes := hoey ▸ (hoe e he).1
        have := hlast1 e he hl1 a' b' i hs (by
          rw [hoey]
          rcases hor with c1 | c1
          · exact .inl (hu _ hends.1 _ hyn c1.symm)
          · exact .inr (hu _ hends.2 _ hyn c1.symm))
        have hsm := slot_inj hi (this ▸ hs) (hslot e he)
        have hor2 : o = a' ∨ o = b' := by
          rcases htouch' e he with c3 | c3 <;> unfold Same at hsm <;> grind
        rcases hor2 with c3 | c3
        · exact .inl (by rw [← c3, hom.1])
        · exact .inr (by rw [← c3, hom.1])
      dropReq := by
        intro x hx
        obtain ⟨y, hy, rfl⟩ := hmem x (of_decide_eq_true hx)
        obtain ⟨e, he, hl1, rfl⟩ := hXm y hy
        unfold isLast at hl1
        rw [Bool.and_eq_true] at hl1
        exact decide_eq_false (hghost e he hl1.1).1
      left := by
        intro q hq
        obtain ⟨y, hy, rfl⟩ := List.mem_map.1 hq
        exact ⟨decide_eq_true (List.mem_map_of_mem hy), (hXg y hy).1⟩
      leftAll := by
        intro x hx
        obtain ⟨y, hy, rfl⟩ := hmem x (of_decide_eq_true hx)
        exact ⟨_, List.mem_map_of_mem hy, rfl⟩
      leftOnce := by
        show ((X.map fun x => (c.lrank x, x.uid)).map (·.2)).Nodup
        rw [List.map_map, hX]
        unfold lastOnes List.Nodup
        rw [List.map_map, List.pairwise_map]
        refine (hpw.sublist List.filter_sublist).imp_of_mem ?_
        intro e e' he he' hne hs
        obtain ⟨he, hl1⟩ := List.mem_filter.1 he
        have he' := (List.mem_filter.1 he').1
        have hs := hu _ (hoe e he).1 _ (hoe e' he').1 hs
        exact hne (hlast1 e he hl1 _ _ _ (hslot e' he') (by rw [hs]; exact htouch e' he')).symm
      kept := by
        intro e he
        obtain ⟨i, e', he', hf, rfl, rfl⟩ := hnear e he
        refine ⟨?_, hedge e' he'⟩
        have hl1 := hlocal e' he' hf
        have hne := (hoe e' he').2.2.1
        rcases (hoe e' he').2.2.2 with c1 | ⟨c1, hd⟩
        · refine .inl ⟨by rw [c1]; exact hom.1, ?_, ?_⟩
          · rw [c1]; exact hne
          · rw [c1]; exact hl1
        · refine .inr ⟨by rw [c1]; exact hom.1, ?_, ?_, hd⟩
          · rw [c1]; exact hne
          · rw [c1]; exact hl1
      keptAll := by
        intro x y hxy hor
        obtain ⟨at_, hab⟩ := Option.isSome_iff_exists.1 hxy
        obtain ⟨a', b', rfl, rfl, hab'⟩ := (e_some hi hu _ _ _).1 hab
        unfold Graph.attr at hab'
        obtain ⟨i, hs, -⟩ := Option.map_eq_some_iff.1 hab'
        have hends := slot_ends hi hs
        have hor2 : a' = o ∨ b' = o := by
          rcases hor with ⟨c1, -⟩ | ⟨c1, -⟩
          · exact .inl (hu _ hends.1 _ hon (by rw [c1, hom.1]))
          · exact .inr (hu _ hends.2 _ hon (by rw [c1, hom.1]))
        obtain ⟨e, he, -, hsm⟩ := edgesOf_all hi hes hs hor2
        have hf : isFar c o e = false := by
          have hnn : otherEnd o e = a' ∧ b' = o ∨ otherEnd o e = b' ∧ a' = o := by
            have := (hoe e he).2.1
            rcases (hoe e he).2.2.2 with c1 | ⟨c1, -⟩ <;> rw [c1] at hsm <;> unfold Same at hsm <;> grind
          unfold isFar
          simp only [ne_eq, decide_not, Bool.not_eq_false', decide_eq_true_eq]
          rw [h.local_iff (hoe e he).1]
          have hmo : m = o.uid := hom.1.symm
          have hne := (hoe e he).2.2.1
          rcases hnn with ⟨c1, c2⟩ | ⟨c1, c2⟩
          · rw [c1] at hne ⊢
            rcases hor with ⟨c3, -⟩ | ⟨-, c3⟩
            · exact absurd c3 hne
            · exact c3
          · rw [c1] at hne ⊢
            rcases hor with ⟨-, c3⟩ | ⟨c3, -⟩
            · exact c3
            · exact absurd c3 hne
        refine ⟨_, List.mem_map_of_mem (List.mem_filter.2 ⟨he, by rw [hf]; rfl⟩), ?_⟩
        have hn := slot_ends hi (hslot e he)
        rw [hdir] at hsm
        exact (sameN_uid hu hn.1 hn.2 hends.1 hends.2).2 hsm
      keptOnce := by
        show List.Pairwise _ ((es.filter fun e => !isFar c o e).map fun e => (e.1.1.uid, e.1.2.uid, c.net.g.dict e.2))
        rw [List.pairwise_map]
        refine (hpw.sublist List.filter_sublist).imp_of_mem ?_
        intro e e' he he' hne hs
        have he := (List.mem_filter.1 he).1
        have he' := (List.mem_filter.1 he').1
        have hn := slot_ends hi (hslot e he)
        have hn' := slot_ends hi (hslot e' he')
        have hs := (sameN_uid hu hn.1 hn.2 hn'.1 hn'.2).1 hs
        rw [← hdir] at hs
        have := slot_same hi (a := e.1.1) (b := e.1.2) hs
        rw [hslot e he, hslot e' he'] at this
        simp only [Option.some.injEq] at this
        exact hne this.symm
      hidIff := by simp
      dict := by
        refine hD.2.2.1 ?_
        cases hh : get c.ghosted m with
        | none => exact Dict.Ok.nil
        | some t => exact (h.tags m t hh).2.1
      ranks := by
        intro j
        rw [hD.2.2.2 j, v_tag]
        congr 2
        cases get c.ghosted m <;> rfl }

end Repast.Network
