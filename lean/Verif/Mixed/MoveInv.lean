import Verif.Mixed.WorldInv

/-! `move_agents` in a context with a shared space of buffer size 0 and any networks. -/
namespace Repast.Mixed
open Repast.Dict Repast.Context Repast.Network Repast.Space

variable {S A P Q : Type} [Proj P Q] {G : Geo Q}
variable {K : Kind G P} {r : Nat} {c c' : Mx S A P} {lo lo' : Nat → Option (S × Option Q)} {gh : Option (Nat → Option Q)} {used used' dead dead' : Nat → Prop} {cl cl' : Prop}

/-- Where the agents are after `move_agents`, before those that are out of bounds are moved: moved agents have no location. -/
def agMoved (ms : Nat → List (Nat × Nat)) (ag : Nat → Option (Nat × S × Option Q)) (u : Nat) : Option (Nat × S × Option Q) :=
  (ag u).map fun x => match (ms x.1).find? (fun m => decide (m.1 = u)) with
    | some m => (m.2, x.2.1, none)
    | none => x

/-- An agent leaves the rank. -/
theorem J.sendAway {n : Nat} (h : J K r c lo (some fun _ => none) used dead cl) {out : List (Nat × Nat × S × Option (Dict Int))} {m : Nat × Nat}
    {x : Mx S A P × List (Nat × Nat × S × Option (Dict Int))} (e : Mx.sendAway n (c, out) m = some x) :
    J K r x.1 (upd lo m.1 none) (some fun _ => none) used dead cl ∧ m.2 < n ∧ ∃ s l D, lo m.1 = some (s, l) ∧ x.2 = out ++ [(m.2, m.1, s, D)] := by
  unfold Mx.sendAway at e
  obtain ⟨y, e1, rfl⟩ := Option.map_eq_some_iff.1 e
  unfold Network.Cx.sendAway at e1
  obtain ⟨o, ho, e1⟩ := Option.bind_eq_some_iff.1 e1
  split at e1
  · rename_i hn
    obtain ⟨z, e2, rfl⟩ := Option.map_eq_some_iff.1 e1
    simp only at ho
    obtain ⟨l, hl⟩ := h.some_local ho
    have hk := foldlM_keeps' (c := (({ c.nc with locals := del c.nc.locals m.1, ghosted := del c.nc.ghosted m.1 } : Network.Cx S A), get c.nc.ghosted m.1)) (fun _ _ _ => moving_keeps) e2
    obtain ⟨g, eg, hg⟩ := h.sp
    refine ⟨⟨hk.rank.trans h.rank, ?_, ?_, ?_, { g with sp := Proj.remove r g.sp m.1 }, ?_, ?_⟩, hn, o.2, l, z.2, hl, rfl⟩
    · show Ok z.1.locals
      rw [hk.locals]; exact h.ok.del _
    · intro v
      show (get z.1.locals v).map (·.2) = _
      rw [hk.locals]
      show (get (del c.nc.locals m.1) v).map (·.2) = _
      rw [get_del]
      simp only [upd]
      by_cases hv : v = m.1
      · simp [hv]
      · rw [if_neg (fun e => hv e.symm), if_neg hv]; exact h.loc v
    · show ∀ e ∈ z.1.removed, _
      rw [hk.removed]; exact h.removed
    · show List.map (fun g : Shared P => ({ g with sp := Proj.remove z.1.rank g.sp m.1 } : Shared P)) c.spaces = _
      rw [eg, List.map_cons, List.map_nil, hk.rank]
      show [({ g with sp := Proj.remove c.nc.rank g.sp m.1 } : Shared P)] = _
      rw [h.rank]
    · refine (hg.removeLocal (u := m.1) (by rintro f ⟨⟩; rfl)).congr ?_ (fun _ h => h) (fun h => h)
      intro v
      simp only [upd]
      split <;> rfl
  · cases e1

theorem J.sendAways {n : Nat} : ∀ (ms : List (Nat × Nat)) (c : Mx S A P) (lo : Nat → Option (S × Option Q)) (out : List (Nat × Nat × S × Option (Dict Int))) (x : Mx S A P × List (Nat × Nat × S × Option (Dict Int))),
    J K r c lo (some fun _ => none) used dead cl → ms.foldlM (Mx.sendAway n) (c, out) = some x →
    ∃ out', x.2 = out ++ out' ∧ J K r x.1 (fun u => if u ∈ ms.map (·.1) then none else lo u) (some fun _ => none) used dead cl ∧ (ms.map (·.1)).Nodup ∧ (∀ m ∈ ms, m.2 < n) ∧
      out'.map (fun o => (o.2.1, o.1)) = ms ∧ ∀ o ∈ out', ∃ l, lo o.2.1 = some (o.2.2.1, l) := by
  intro ms
  induction ms with
  | nil =>
    intro c lo out x h e
    cases e
    exact ⟨[], by simp, h.congr (fun u => by simp) (fun _ h => h) (fun _ _ h => h) (fun h => h), List.nodup_nil, by simp, rfl, by simp⟩
  | cons m ms ih =>
    intro c lo out x h e
    rw [List.foldlM_cons, Option.bind_eq_bind] at e
    obtain ⟨y, e1, e2⟩ := Option.bind_eq_some_iff.1 e
    obtain ⟨h1, hn, s, l, D, hl, hout⟩ := h.sendAway e1
    obtain ⟨out', a1, a2, a3, a4, a5, a6⟩ := ih y.1 _ y.2 x h1 e2
    have hnot : m.1 ∉ ms.map (·.1) := by
      intro hm
      obtain ⟨p, hp, hpm⟩ := List.mem_map.1 hm
      rw [← a5] at hp
      obtain ⟨o, ho, rfl⟩ := List.mem_map.1 hp
      obtain ⟨l', hl'⟩ := a6 o ho
      simp only at hpm
      simp [upd, hpm] at hl'
    refine ⟨(m.2, m.1, s, D) :: out', ?_, ?_, ?_, ?_, ?_, ?_⟩
    · rw [a1, hout]; simp
    · refine a2.congr ?_ (fun _ h => h) (fun _ _ h => h) (fun h => h)
      intro u
      simp only [List.map_cons, List.mem_cons, upd]
      by_cases hu : u = m.1
      · subst hu; simp
      · by_cases hu' : u ∈ ms.map (·.1)
        · simp [hu, hu']
        · simp [hu, hu']
    · rw [List.map_cons, List.nodup_cons]
      exact ⟨hnot, a3⟩
    · intro p hp
      rcases List.mem_cons.1 hp with rfl | hp
      · exact hn
      · exact a4 p hp
    · rw [List.map_cons, a5]
    · intro o ho
      rcases List.mem_cons.1 ho with rfl | ho
      · exact ⟨l, hl⟩
      · obtain ⟨l', hl'⟩ := a6 o ho
        simp only [upd] at hl'
        split at hl'
        · cases hl'
        · exact ⟨l', hl'⟩

theorem J.arrives (hre : Readd K) : ∀ (ds : List (Nat × S × Option (Dict Int))) (c : Mx S A P) (lo : Nat → Option (S × Option Q)) (acc : List Nat) (x : Mx S A P × List Nat),
    J K r c lo (some fun _ => none) used dead True → (ds.map (·.1)).Nodup → (∀ d ∈ ds, lo d.1 = none ∧ used d.1 ∧ ¬ dead d.1) → ds.foldlM Mx.arriveOne (c, acc) = some x →
    (∀ d ∈ ds, lo' d.1 = some (d.2.1, none)) → (∀ u, u ∉ ds.map (·.1) → lo' u = lo u) → J K r x.1 lo' (some fun _ => none) used dead True := by
  intro ds
  induction ds with
  | nil =>
    intro c lo acc x h _ _ e _ h2
    cases e
    exact h.congr (fun u => h2 u (by simp)) (fun _ h => h) (fun _ _ h => h) (fun h => h)
  | cons d ds ih =>
    intro c lo acc x h hn hd e h1 h2
    rw [List.map_cons, List.nodup_cons] at hn
    rw [List.foldlM_cons, Option.bind_eq_bind] at e
    obtain ⟨y, e1, e2⟩ := Option.bind_eq_some_iff.1 e
    obtain ⟨c1, e3, rfl⟩ := Option.map_eq_some_iff.1 e1
    obtain ⟨b1, b2, b3⟩ := hd d List.mem_cons_self
    have hj := h.arrive hre b1 b2 b3 e3
    refine ih c1 _ _ x hj hn.2 ?_ e2 (fun d' hd' => h1 d' (List.mem_cons_of_mem _ hd')) ?_
    · intro d' hd'
      have hne : d'.1 ≠ d.1 := fun e => hn.1 (e ▸ List.mem_map.2 ⟨d', hd', rfl⟩)
      obtain ⟨f1, f2, f3⟩ := hd d' (List.mem_cons_of_mem _ hd')
      exact ⟨by simp only [upd, if_neg hne]; exact f1, f2, f3⟩
    · intro u hu
      simp only [upd]
      split
      · rename_i e; subst e; exact h1 d List.mem_cons_self
      · rename_i e
        exact h2 u (by simp only [List.map_cons, List.mem_cons, not_or]; exact ⟨e, hu⟩)

/-! ### All ranks -/

variable {w w' w1 w2 : World S A P} {ag : Nat → Option (Nat × S × Option Q)} {ms : Nat → List (Nat × Nat)}

theorem agMoved_none (u : Nat) : agMoved ms ag u = none ↔ ag u = none := by
  unfold agMoved; simp

theorem agMoved_moved {u k : Nat} {s : S} {l : Option Q} (hu : ag u = some (r, s, l)) (hn : ((ms r).map (·.1)).Nodup) (hm : (u, k) ∈ ms r) : agMoved ms ag u = some (k, s, none) := by
  unfold agMoved
  rw [hu, Option.map_some]
  have : (ms r).find? (fun m => decide (m.1 = u)) = some (u, k) := by
    generalize ms r = l at hn hm
    induction l with
    | nil => cases hm
    | cons m l ih =>
      rw [List.map_cons, List.nodup_cons] at hn
      rw [List.find?_cons]
      by_cases h : m.1 = u
      · simp only [h, decide_true]
        rcases List.mem_cons.1 hm with rfl | hm
        · rfl
        · exact absurd (List.mem_map.2 ⟨_, hm, h.symm⟩) hn.1
      · simp only [h, decide_false]
        rcases List.mem_cons.1 hm with rfl | hm
        · exact absurd rfl h
        · exact ih hn.2 hm
  simp only [this]

theorem agMoved_stays {u : Nat} {s : S} {l : Option Q} (hu : ag u = some (r, s, l)) (hm : u ∉ (ms r).map (·.1)) : agMoved ms ag u = some (r, s, l) := by
  unfold agMoved
  rw [hu, Option.map_some]
  have : (ms r).find? (fun m => decide (m.1 = u)) = none := by
    rw [List.find?_eq_none]
    intro m hm' e
    exact hm (List.mem_map.2 ⟨m, hm', by simpa using e⟩)
  simp only [this]

/-- What a list of agents to move must be like. -/
structure MovesOk (G : Geo Q) (ms : Nat → List (Nat × Nat)) (ag : Nat → Option (Nat × S × Option Q)) : Prop where
  nodup : ∀ r < G.n, ((ms r).map (·.1)).Nodup
  loc : ∀ r < G.n, ∀ m ∈ ms r, m.2 < G.n ∧ ∃ s l, ag m.1 = some (r, s, l)

theorem MovesOk.apart (h : MovesOk G ms ag) (hlt : ∀ u x, ag u = some x → x.1 < G.n) (ha : AgApart ag) : AgApart (agMoved ms ag) := by
  have key : ∀ u x q, agMoved ms ag u = some x → x.2.2 = some q → ag u = some x := by
    intro u x q hx hq
    cases hau : ag u with
    | none => rw [(agMoved_none u).2 hau] at hx; cases hx
    | some y =>
      obtain ⟨r, s, l⟩ := y
      by_cases hm : u ∈ (ms r).map (·.1)
      · obtain ⟨m, hm', rfl⟩ := List.mem_map.1 hm
        rw [agMoved_moved hau (h.nodup r (hlt _ _ hau)) hm'] at hx
        cases hx
        cases hq
      · rw [agMoved_stays hau hm] at hx
        exact hx
  intro u v x y q hx hy hxq hyq
  exact ha u v x y q (key u x q hx hxq) (key v y q hy hyq) hxq hyq

/-- The agents have arrived. -/
theorem WJ.moveFirst (hre : Readd K) (h : WJ K w ag (some fun _ _ => none) used True)
    (e1 : each G.n (fun r => ((((List.range G.n).map fun r => (ms r).foldlM (Mx.sendAway G.n) (w r, ([] : List (Nat × Nat × S × Option (Dict Int)))))[r]?).bind id).map (·.1)) w = some w1)
    (e2 : each G.n (fun r => ((((List.range G.n).map fun r => ((recv G.n (fun s => sent ((((List.range G.n).map fun r => (ms r).foldlM (Mx.sendAway G.n)
      (w r, ([] : List (Nat × Nat × S × Option (Dict Int)))))[s]?).bind id)) r).map (·.2)).foldlM Mx.arriveOne (w1 r, ([] : List Nat)))[r]?).bind id).map (·.1)) w1 = some w2) :
    MovesOk G ms ag ∧ WJ K w2 (agMoved ms ag) (some fun _ _ => none) used True := by
  obtain ⟨out, hout⟩ : ∃ out : Nat → List (Nat × Nat × S × Option (Dict Int)), out = fun s => sent ((((List.range G.n).map fun r => (ms r).foldlM (Mx.sendAway G.n)
      (w r, ([] : List (Nat × Nat × S × Option (Dict Int)))))[s]?).bind id) := ⟨_, rfl⟩
  rw [← hout] at e2
  have hs : ∀ r < G.n, J K r (w1 r) (fun u => if u ∈ (ms r).map (·.1) then none else loOf ag r u) (some fun _ => none) used (fun u => ag u = none) True ∧ ((ms r).map (·.1)).Nodup ∧ (∀ m ∈ ms r, m.2 < G.n) ∧
      (out r).map (fun o => (o.2.1, o.1)) = ms r ∧ ∀ o ∈ out r, ∃ l, ag o.2.1 = some (r, o.2.2.1, l) := by
    intro r hr
    obtain ⟨y, hy, hy2⟩ := Option.map_eq_some_iff.1 (meach_all e1 r hr)
    have hy := nth_map hy
    obtain ⟨out', a1, a2, a3, a4, a5, a6⟩ := J.sendAways _ _ _ _ _ (h.j r hr) hy
    have ho : out r = out' := by
      rw [hout]
      simp only [List.getElem?_map, List.getElem?_range hr, Option.map_some, Option.bind_some, id_eq, hy, sent]
      simpa using a1
    rw [ho, ← hy2]
    exact ⟨a2, a3, a4, a5, fun o ho => let ⟨l, hl⟩ := a6 o ho; ⟨l, loOf_some.1 hl⟩⟩
  have hmem : ∀ r < G.n, ∀ m ∈ ms r, ∃ o ∈ out r, o.2.1 = m.1 ∧ o.1 = m.2 := by
    intro r hr m hm
    rw [← (hs r hr).2.2.2.1] at hm
    obtain ⟨o, ho, rfl⟩ := List.mem_map.1 hm
    exact ⟨o, ho, rfl, rfl⟩
  have hmem' : ∀ r < G.n, ∀ o ∈ out r, (o.2.1, o.1) ∈ ms r := by
    intro r hr o ho
    rw [← (hs r hr).2.2.2.1]
    exact List.mem_map.2 ⟨o, ho, rfl⟩
  have hok : MovesOk G ms ag := by
    refine ⟨fun r hr => (hs r hr).2.1, fun r hr m hm => ⟨(hs r hr).2.2.1 m hm, ?_⟩⟩
    obtain ⟨o, ho, h1, -⟩ := hmem r hr m hm
    obtain ⟨l, hl⟩ := (hs r hr).2.2.2.2 o ho
    exact ⟨_, l, h1 ▸ hl⟩
  refine ⟨hok, ?_, ?_⟩
  · intro k hk
    obtain ⟨y, hy, hy2⟩ := Option.map_eq_some_iff.1 (meach_all e2 k hk)
    have hy := nth_map hy
    have hin : ∀ d ∈ (recv G.n out k).map (·.2), ∃ r < G.n, (d.1, k) ∈ ms r ∧ ∃ l, ag d.1 = some (r, d.2.1, l) := by
      intro d hd
      obtain ⟨⟨r, d'⟩, hrd, rfl⟩ := List.mem_map.1 hd
      obtain ⟨hr, hmem⟩ := mem_recv.1 hrd
      exact ⟨r, hr, hmem' r hr (k, d') hmem, (hs r hr).2.2.2.2 (k, d') hmem⟩
    show J K k (w2 k) _ _ _ _ _
    rw [← hy2]
    refine (J.arrives hre (lo' := loOf (agMoved ms ag) k) _ _ _ _ _ (hs k hk).1 ?_ ?_ hy ?_ ?_).congr (fun _ => rfl) (fun _ h => h) (fun u _ hd => (agMoved_none u).2 hd) (fun h => h)
    · refine recv_nodup (n := G.n) (send := out) (k := k) (fun d : Nat × S × Option (Dict Int) => d.1) ?_ ?_
      · intro r hr
        have h1 := (hs r hr).2.1
        rw [← (hs r hr).2.2.2.1, List.map_map] at h1
        exact List.Nodup.sublist (List.Sublist.map _ List.filter_sublist) h1
      · intro r hr r' hr' d d' h1 h2 he
        obtain ⟨l, hl⟩ := (hs r hr).2.2.2.2 _ h1
        obtain ⟨l', hl'⟩ := (hs r' hr').2.2.2.2 _ h2
        simp only at hl hl' he
        rw [he, hl'] at hl
        simp only [Option.some.injEq, Prod.mk.injEq] at hl
        exact hl.1.symm
    · intro d hd
      obtain ⟨r, hr, hm, l, hl⟩ := hin d hd
      refine ⟨?_, h.is_used hl, by rw [hl]; simp⟩
      by_cases hrk : r = k
      · subst hrk
        rw [if_pos (List.mem_map.2 ⟨_, hm, rfl⟩)]
      · rw [loOf_none hl hrk]; simp
    · intro d hd
      obtain ⟨r, hr, hm, l, hl⟩ := hin d hd
      exact loOf_some.2 (agMoved_moved hl (hok.nodup r hr) hm)
    · intro u hu
      cases hau : ag u with
      | none => rw [loOf_dead ((agMoved_none u).2 hau), loOf_dead hau]; simp
      | some x =>
        obtain ⟨r, s, l⟩ := x
        have hr := h.lt u _ hau
        by_cases hm : u ∈ (ms r).map (·.1)
        · obtain ⟨m, hm', rfl⟩ := List.mem_map.1 hm
          have h1 := agMoved_moved hau (hok.nodup r hr) hm'
          have hk' : m.2 ≠ k := by
            rintro rfl
            obtain ⟨o, ho, h3, h4⟩ := hmem r hr m hm'
            refine hu (List.mem_map.2 ⟨o.2, List.mem_map.2 ⟨(r, o.2), mem_recv.2 ⟨hr, ?_⟩, rfl⟩, h3⟩)
            rw [← h4]; exact ho
          rw [loOf_none h1 hk']
          by_cases hrk : r = k
          · subst hrk; rw [if_pos hm]
          · rw [loOf_none hau hrk]; simp
        · have h1 := agMoved_stays hau hm
          by_cases hrk : r = k
          · subst hrk
            rw [if_neg hm, loOf_some.2 h1, loOf_some.2 hau]
          · rw [loOf_none h1 hrk, loOf_none hau hrk]; simp
  · intro u x hx
    cases hau : ag u with
    | none => rw [(agMoved_none u).2 hau] at hx; cases hx
    | some y =>
      obtain ⟨r, s, l⟩ := y
      have hr := h.lt u _ hau
      by_cases hm : u ∈ (ms r).map (·.1)
      · obtain ⟨m, hm', rfl⟩ := List.mem_map.1 hm
        rw [agMoved_moved hau (hok.nodup r hr) hm'] at hx
        cases hx
        exact (hok.loc r hr m hm').1
      · rw [agMoved_stays hau hm] at hx
        cases hx
        exact hr

/-- `move_agents`. -/
theorem WJ.moveAgents (hre : Readd K) {gh : Option (Nat → Nat → Option Q)} {nf : Bool} (h0 : G.buf = 0) (hx : G.excl → AgApart ag) (h : WJ K w ag gh used cl) (e : moveAgents G.n nf ms w = some w') :
    MovesOk G ms ag ∧ WJ K w' (fun u => (agMoved ms ag u).map (home G)) (some fun _ _ => none) used True := by
  unfold Mixed.moveAgents at e
  simp only at e
  obtain ⟨w1, e1, e⟩ := Option.bind_eq_some_iff.1 e
  obtain ⟨w2, e2, e⟩ := Option.bind_eq_some_iff.1 e
  obtain ⟨w3, e3, e⟩ := Option.bind_eq_some_iff.1 e
  obtain ⟨w4, e4, e⟩ := Option.bind_eq_some_iff.1 e
  obtain ⟨w5, e5, e⟩ := Option.bind_eq_some_iff.1 e
  obtain ⟨x, e6, e⟩ := Option.bind_eq_some_iff.1 e
  obtain ⟨w7, e7, e8⟩ := Option.bind_eq_some_iff.1 e
  obtain ⟨hok, h2⟩ := (h.noBuf h0).moveFirst hre e1 e2
  refine ⟨hok, ?_⟩
  have h3 : WJ K w3 (agMoved ms ag) (some fun _ _ => none) used True := by
    split at e3
    · cases e3; exact h2
    · exact eachNet_inv (I := fun w => WJ K w (agMoved ms ag) (some fun _ _ => none) used True) (fun _ _ _ h e => h.keeps (onNets_keeps (fun _ _ => agentsMoved_keeps) e)) h2 e3
  have h4 : WJ K w4 (agMoved ms ag) (some fun _ _ => none) used True :=
    ⟨fun r hr => (h3.j r hr).onNet (fun _ hn => foldlM_keeps (fun _ _ _ => deleteGhost_keeps) hn) (meach_all e4 r hr), h3.lt⟩
  have h5 := h4.preSynch e5
  have hx' := fun he => hok.apart h.lt (hx he)
  have h6 := h5.moveOob hre hx' e6
  have hin : ∀ u r s q, (agMoved ms ag u).map (home G) = some (r, s, some q) → G.inside r q = true := by
    intro u r s q hu
    have hv := h6.valid hu
    obtain ⟨⟨r0, s0, l0⟩, h4, h5⟩ := Option.map_eq_some_iff.1 hu
    cases l0 with
    | none => simp [home] at h5
    | some q0 =>
      simp only [home, Prod.mk.injEq, Option.some.injEq] at h5
      obtain ⟨rfl, rfl, rfl⟩ := h5
      exact (K.owner_spec hv).2.1
  have h7 := (h6.synchGhosts hre (fun he => (hx' he).homes) hin e7)
  exact (eachNet_inv (I := fun w => WJ K w (fun u => (agMoved ms ag u).map (home G)) _ used _) (fun _ _ _ h e => h.keeps (onNets_keeps (fun _ _ => postMoved_keeps) e)) h7 e8).noBuf h0

end Repast.Mixed
