import Verif.Network.NetSim

/-! The model does what the specification for C43 says: `request_agents`, the operations of one rank and histories. -/
namespace Repast.Network
open Repast.Dict Repast.Context

variable {S A : Type} {H : Hid} {d : Bool} {n : Nat} {V : Sp S A} {Q : Nat → Pend A}

/-! ### Requests -/

/-- What rank `r` asks for. -/
def Sp.asks (V : Sp S A) (rs : Nat → List (Nat × Nat)) (r : Nat) : List (Nat × Nat) := (rs r).flatMap fun q => if ((V r).gho q.1).isSome then [] else [(q.2, q.1)]

theorem mem_asks {rs : Nat → List (Nat × Nat)} {r : Nat} {m : Nat × Nat} : m ∈ V.asks rs r ↔ (m.2, m.1) ∈ rs r ∧ (V r).gho m.2 = none := by
  unfold Sp.asks
  rw [List.mem_flatMap]
  constructor
  · rintro ⟨q, hq, hm⟩
    split at hm
    · cases hm
    · rename_i hh
      rw [List.mem_singleton] at hm
      subst hm
      exact ⟨hq, by simpa using hh⟩
  · rintro ⟨h1, h2⟩
    exact ⟨_, h1, by simp [h2]⟩

theorem asks_once {rs : Nat → List (Nat × Nat)} {r : Nat} (hnd : ((rs r).map (·.1)).Nodup) : (V.asks rs r).Pairwise fun m m' => m.2 ≠ m'.2 := by
  unfold Sp.asks
  rw [List.flatMap_def, List.pairwise_flatten]
  constructor
  · intro l hl
    obtain ⟨q, hq, rfl⟩ := List.mem_map.1 hl
    split
    · exact List.Pairwise.nil
    · exact List.pairwise_singleton _ _
  · unfold List.Nodup at hnd
    rw [List.pairwise_map] at hnd ⊢
    refine hnd.imp ?_
    intro q q' hne x hx y hy
    split at hx
    · cases hx
    · split at hy
      · cases hy
      · rw [List.mem_singleton] at hx hy
        rw [hx, hy]; exact hne

/-- What rank `k` is asked for. -/
def Sp.asked (n : Nat) (V : Sp S A) (rs : Nat → List (Nat × Nat)) (k : Nat) : List (Nat × Nat) := recv n (V.asks rs) k

theorem mem_asked {rs : Nat → List (Nat × Nat)} {k : Nat} {m : Nat × Nat} : m ∈ V.asked n rs k ↔ m.1 < n ∧ (m.2, k) ∈ rs m.1 ∧ (V m.1).gho m.2 = none := by
  unfold Sp.asked; rw [mem_recv, mem_asks]

/-- What rank `k` answers. -/
def Sp.answers (n : Nat) (V : Sp S A) (rs : Nat → List (Nat × Nat)) (k : Nat) : List (Nat × Nat × S) := (V.asked n rs k).filterMap fun m => ((V k).loc m.2).map fun s => (m.1, m.2, s)

theorem mem_answers {rs : Nat → List (Nat × Nat)} {k : Nat} {m : Nat × Nat × S} : m ∈ V.answers n rs k ↔ (m.1, m.2.1) ∈ V.asked n rs k ∧ (V k).loc m.2.1 = some m.2.2 := by
  unfold Sp.answers
  rw [List.mem_filterMap]
  constructor
  · rintro ⟨q, hq, e⟩
    obtain ⟨s, hs, rfl⟩ := Option.map_eq_some_iff.1 e
    exact ⟨hq, hs⟩
  · rintro ⟨h1, h2⟩
    exact ⟨_, h1, by simp [h2]⟩

theorem request_sim (h : SInv NoHid d n V) (hQH : ∀ r < n, (Q r).hid = NoHid r) {rs : Nat → List (Nat × Nat)}
    (hl : ∀ k < n, ((rs k).map (·.1)).Nodup ∧ ∀ q ∈ rs k, q.2 < n ∧ q.2 ≠ k ∧ ((V q.2).loc q.1).isSome = true)
    {w : World S A} (hw : Sim d Q n w V) : ∃ w', requestAgents n rs w = some w' ∧ Sim d Q n w' (V.request n rs) := by
  let F : Nat → List (Nat × Nat) → RV S A := fun k pre => { V k with req := fun x => (V k).req x || pre.any (fun q => decide (x = q.1) && ((V k).gho x).isSome) }
  have hsend : ∀ r < n, ∃ c, (rs r).foldlM (Cx.sendRequest n) (w r, ([] : List (Nat × Nat))) = some (c, V.asks rs r) ∧ COk d (Q r) c ∧ c.v = F r (rs r) := by
    intro r hr
    obtain ⟨⟨c, l⟩, e, h1, h2, h3⟩ := foldM_sim (f := Cx.sendRequest (S := S) (A := A) n)
      (fun pre t => COk d (Q r) t.1 ∧ t.1.v = F r pre ∧ t.2 = pre.flatMap fun q => if ((V r).gho q.1).isSome then [] else [(q.2, q.1)]) (rs r) (by
      rintro pre q suf hl' ⟨c, acc⟩ ⟨hc, hv, ha⟩
      simp only at hc hv ha
      have hq : q ∈ rs r := by rw [hl']; simp
      obtain ⟨c', e, hc', hv'⟩ := hc.sendRequest (n := n) q acc (by rw [hQH r hr]) (fun _ => ((hl r hr).2 q hq).1)
      refine ⟨_, e, hc', ?_, ?_⟩
      · rw [hv', hv]
        refine congrArg (fun t => ({ V r with req := t } : RV S A)) ?_
        funext x
        show (((V r).req x || pre.any (fun q => decide (x = q.1) && ((V r).gho x).isSome)) || _) = ((V r).req x || (pre ++ [q]).any (fun q => decide (x = q.1) && ((V r).gho x).isSome))
        rw [List.any_append, Bool.or_assoc]
        show _ = ((V r).req x || (_ || (_ || false)))
        rw [Bool.or_false]
      · have hg : c.v.gho = (V r).gho := by rw [hv]
        simp only []
        rw [ha, hg, List.flatMap_append]
        show _ = _ ++ (_ ++ [])
        rw [List.append_nil]) (w r, []) ⟨(hw r hr).1, by rw [(hw r hr).2]; show V r = F r []; simp [F], rfl⟩
    simp only at h1 h2 h3
    refine ⟨c, ?_, h1, h2⟩
    rw [e, h3]; rfl
  obtain ⟨w1, e1, s1⟩ := each_some (n := n) (f := fun r => (((List.range n).map fun r => (rs r).foldlM (Cx.sendRequest n) (w r, ([] : List (Nat × Nat))))[r]?.bind id).map (·.1)) (w := w)
      (P := fun r c => COk d (Q r) c ∧ c.v = F r (rs r)) (by
    intro r hr
    obtain ⟨c, e, hc⟩ := hsend r hr
    rw [get_map_range _ hr, e]
    exact ⟨c, rfl, hc⟩)
  have hA : ∀ k, recv n (fun s => sent (((List.range n).map fun r => (rs r).foldlM (Cx.sendRequest n) (w r, ([] : List (Nat × Nat))))[s]?.bind id)) k = V.asked n rs k := by
    intro k
    refine recv_congr ?_ k
    intro r hr
    obtain ⟨c, e, hc⟩ := hsend r hr
    rw [get_map_range _ hr, e]; rfl
  let G : Nat → List (Nat × Nat) → RV S A := fun k pre => { F k (rs k) with tag := fun x j => (V k).tag x j || pre.any (fun m => decide (m = (j, x))) }
  have hasked : ∀ k < n, ∀ m ∈ V.asked n rs k, m.1 < n ∧ m.1 ≠ k ∧ ((V k).loc m.2).isSome = true ∧ (V m.1).gho m.2 = none ∧ (m.2, k) ∈ rs m.1 := by
    intro k hk m hm
    obtain ⟨h1, h2, h3⟩ := mem_asked.1 hm
    have := (hl m.1 h1).2 _ h2
    exact ⟨h1, Ne.symm this.2.1, this.2.2, h3, h2⟩
  have hanswer : ∀ k < n, ∃ c, (V.asked n rs k).foldlM Cx.answer (w1 k, ([] : List (Nat × Nat × S))) = some (c, V.answers n rs k) ∧ COk d (Q k) c ∧ c.v = G k (V.asked n rs k) := by
    intro k hk
    have honce : (V.asked n rs k).Pairwise fun m m' => m ≠ m' := by
      refine recv_pairwise ?_ ?_
      · intro r hr
        refine (asks_once (hl r hr).1).imp ?_
        intro m m' hne _ _ e
        simp only [Prod.mk.injEq, true_and] at e
        exact hne e
      · intro r hr r' hr' hne m m' _ _ e
        simp only [Prod.mk.injEq] at e
        exact hne e.1
    obtain ⟨⟨c, l⟩, e, h1, h2, h3⟩ := foldM_sim (f := Cx.answer (S := S) (A := A))
      (fun pre t => COk d (Q k) t.1 ∧ t.1.v = G k pre ∧ t.2 = pre.filterMap fun m => ((V k).loc m.2).map fun s => (m.1, m.2, s)) (V.asked n rs k) (by
      rintro pre m suf hl' ⟨c, acc⟩ ⟨hc, hv, ha⟩
      simp only at hc hv ha
      have hm : m ∈ V.asked n rs k := by rw [hl']; simp
      have hon := pairwise_split honce hl'
      obtain ⟨g1, g2, g3, g4, g5⟩ := hasked k hk m hm
      obtain ⟨s, hs⟩ := Option.isSome_iff_exists.1 g3
      obtain ⟨c', e, hc', hv'⟩ := hc.answer (u := m.2) (k := m.1) (s := s) (by rw [hv]; exact hs) (by
        rw [hv]
        show ((V k).tag m.2 m.1 || pre.any (fun m' => decide (m' = (m.1, m.2)))) = false
        rw [Bool.or_eq_false_iff]
        constructor
        · refine Bool.eq_false_iff.2 (fun ht => ?_)
          have := ((h.tag k hk _ _).1 ht).2.2
          rw [g4] at this; cases this
        · rw [List.any_eq_false]
          intro m' hm' e
          exact hon m' hm' (of_decide_eq_true e)) acc
      refine ⟨_, e, hc', ?_, ?_⟩
      · rw [hv', hv]
        refine congrArg (fun t => ({ F k (rs k) with tag := t } : RV S A)) ?_
        funext x j
        show (((V k).tag x j || pre.any (fun m => decide (m = (j, x)))) || decide (x = m.2 ∧ j = m.1)) = ((V k).tag x j || (pre ++ [m]).any (fun m => decide (m = (j, x))))
        rw [List.any_append, Bool.or_assoc]
        have : decide (x = m.2 ∧ j = m.1) = [m].any (fun m => decide (m = (j, x))) := by
          simp only [List.any_cons, List.any_nil, Bool.or_false, decide_eq_decide]
          constructor
          · rintro ⟨rfl, rfl⟩; rfl
          · rintro rfl; exact ⟨rfl, rfl⟩
        rw [this]
      · simp only []
        rw [ha, List.filterMap_append]
        simp [hs]) (w1 k, []) ⟨(s1 k hk).2.1, by rw [(s1 k hk).2.2]; show F k (rs k) = G k []; simp [G]; rfl, rfl⟩
    simp only at h1 h2 h3
    refine ⟨c, ?_, h1, h2⟩
    rw [e, h3]; rfl
  obtain ⟨w2, e2, s2⟩ := each_some (n := n) (f := fun r => (((List.range n).map fun r => (V.asked n rs r).foldlM Cx.answer (w1 r, ([] : List (Nat × Nat × S))))[r]?.bind id).map (·.1)) (w := w1)
      (P := fun r c => COk d (Q r) c ∧ c.v = G r (V.asked n rs r)) (by
    intro r hr
    obtain ⟨c, e, hc⟩ := hanswer r hr
    rw [get_map_range _ hr, e]
    exact ⟨c, rfl, hc⟩)
  let msgs : Nat → List (Nat × Nat × S) := fun k => recv n (V.answers n rs) k
  have hB : ∀ k, recv n (fun s => sent (((List.range n).map fun r => (V.asked n rs r).foldlM Cx.answer (w1 r, ([] : List (Nat × Nat × S))))[s]?.bind id)) k = msgs k := by
    intro k
    refine recv_congr ?_ k
    intro r hr
    obtain ⟨c, e, hc⟩ := hanswer r hr
    rw [get_map_range _ hr, e]; rfl
  have hmsg : ∀ k < n, ∀ m, m ∈ msgs k ↔ m.1 < n ∧ (m.2.1, m.1) ∈ rs k ∧ (V k).gho m.2.1 = none ∧ (V m.1).loc m.2.1 = some m.2.2 := by
    intro k hk m
    show m ∈ recv n (V.answers n rs) k ↔ _
    rw [mem_recv, mem_answers, mem_asked]
    constructor
    · rintro ⟨a, ⟨b, c, e⟩, f⟩; exact ⟨a, c, e, f⟩
    · rintro ⟨a, c, e, f⟩; exact ⟨a, ⟨hk, c, e⟩, f⟩
  let H : Nat → List (Nat × Nat × S) → RV S A := fun k pre => { G k (V.asked n rs k) with
    gho := fun x => match pre.find? (fun m => decide (m.2.1 = x)) with
      | some m => some (m.2.2, m.1)
      | none => (V k).gho x
    net := { (V k).net with has := fun x => (V k).net.has x || pre.any (fun m => decide (m.2.1 = x)) }
    req := fun x => (F k (rs k)).req x || pre.any (fun m => decide (m.2.1 = x)) }
  have hrecv : ∀ k < n, COk d (Q k) ((msgs k).foldl Cx.recvRequested (w2 k)) ∧ ((msgs k).foldl Cx.recvRequested (w2 k)).v = H k (msgs k) := by
    intro k hk
    have honce : (msgs k).Pairwise fun m m' => m.2.1 ≠ m'.2.1 := by
      refine recv_pairwise ?_ ?_
      · intro r hr
        unfold Sp.answers
        rw [List.pairwise_filterMap]
        have : (V.asked n rs r).Pairwise fun m m' => ¬ (m.1 = m'.1 ∧ m.2 = m'.2) := by
          refine recv_pairwise ?_ ?_
          · intro r' hr'
            refine (asks_once (hl r' hr').1).imp ?_
            intro m m' hne _ _ e
            exact hne e.2
          · intro r1 hr1 r2 hr2 hne m m' _ _ e
            exact hne e.1
        refine this.imp ?_
        intro m m' hne b hb b' hb' e1 e2 e3
        obtain ⟨s, -, rfl⟩ := Option.map_eq_some_iff.1 hb
        obtain ⟨s', -, rfl⟩ := Option.map_eq_some_iff.1 hb'
        exact hne ⟨e1.trans e2.symm, e3⟩
      · intro r hr r' hr' hne m m' hm hm' e
        have h1 := (hmsg k hk (r, m)).1 (mem_recv.2 ⟨hr, hm⟩)
        have h2 := (hmsg k hk (r', m')).1 (mem_recv.2 ⟨hr', hm'⟩)
        simp only at h1 h2 e
        exact hne (h.own r hr r' hr' m.1 (by rw [h1.2.2.2]; rfl) (by rw [e, h2.2.2.2]; rfl))
    refine foldl_sim (f := Cx.recvRequested (S := S) (A := A)) (fun pre c => COk d (Q k) c ∧ c.v = H k pre) (msgs k) ?_ (w2 k) ⟨(s2 k hk).2.1, ?_⟩
    · intro pre m suf hl' c hc
      have hm : m ∈ msgs k := by rw [hl']; simp
      have hon := pairwise_split honce hl'
      obtain ⟨g1, g2, g3, g4⟩ := (hmsg k hk m).1 hm
      have hrk := (hl k hk).2 _ g2
      have hfind : pre.find? (fun m' => decide (m'.2.1 = m.2.1)) = none := by
        rw [List.find?_eq_none]
        intro m' hm' e
        exact hon m' hm' (of_decide_eq_true e)
      have hstep := hc.1.recvRequested (u := m.2.1) (k := m.1) (by
          rw [hc.2]
          show (V k).loc m.2.1 = none
          cases hh : (V k).loc m.2.1 with
          | none => rfl
          | some s => exact absurd (h.own m.1 g1 k hk m.2.1 hrk.2.2 (by rw [hh]; rfl)) hrk.2.1)
        (by
          rw [hc.2]
          show (match pre.find? (fun m' => decide (m'.2.1 = m.2.1)) with | some m => some (m.2.2, m.1) | none => (V k).gho m.2.1) = none
          rw [hfind]; exact g3)
        (by
          have hrk' : c.rank = k := by
            have := congrArg RV.rank hc.2
            exact this.trans (h.rank k hk)
          rw [hrk']; exact hrk.2.1) m.2.2
      refine ⟨hstep.1, ?_⟩
      rw [hstep.2, hc.2]
      have eg : (fun x => if x = m.2.1 then some (m.2.2, m.1) else (H k pre).gho x) = (H k (pre ++ [m])).gho := by
        funext x
        have e1 : ∀ l, (H k l).gho x = match l.find? (fun m => decide (m.2.1 = x)) with
          | some m => some (m.2.2, m.1)
          | none => (V k).gho x := fun _ => rfl
        rw [e1, e1, find?_snoc]
        by_cases hx : x = m.2.1
        · subst hx
          rw [if_pos rfl, hfind]; simp
        · rw [if_neg hx]
          cases pre.find? (fun m => decide (m.2.1 = x)) with
          | some y => rfl
          | none => simp [Ne.symm hx]
      have hany : ∀ x, decide (x = m.2.1) = [m].any (fun m => decide (m.2.1 = x)) := by
        intro x
        by_cases hx : x = m.2.1
        · subst hx; simp
        · simp [hx, Ne.symm hx]
      have eh : (fun x => (H k pre).net.has x || decide (x = m.2.1)) = (H k (pre ++ [m])).net.has := by
        funext x
        show (((V k).net.has x || pre.any (fun m => decide (m.2.1 = x))) || decide (x = m.2.1)) = ((V k).net.has x || (pre ++ [m]).any (fun m => decide (m.2.1 = x)))
        rw [List.any_append, Bool.or_assoc, hany]
      have er : (fun x => (H k pre).req x || decide (x = m.2.1)) = (H k (pre ++ [m])).req := by
        funext x
        show (((F k (rs k)).req x || pre.any (fun m => decide (m.2.1 = x))) || decide (x = m.2.1)) = ((F k (rs k)).req x || (pre ++ [m]).any (fun m => decide (m.2.1 = x)))
        rw [List.any_append, Bool.or_assoc, hany]
      rw [eg, eh, er]
    · rw [(s2 k hk).2.2]
      show G k (V.asked n rs k) = H k []
      simp only [H, List.find?_nil, List.any_nil, Bool.or_false]
      rfl
  obtain ⟨w3, e3, s3⟩ := each_some (n := n) (f := fun k => some ((msgs k).foldl Cx.recvRequested (w2 k))) (w := w2) (P := fun k c => COk d (Q k) c ∧ c.v = H k (msgs k)) (by
    intro k hk
    exact ⟨_, rfl, hrecv k hk⟩)
  refine ⟨w3, ?_, ?_⟩
  · unfold requestAgents
    simp only []
    rw [e1, Option.bind_some]
    simp only [hA]
    rw [e2, Option.bind_some]
    simp only [hB]
    exact e3
  · intro k hk
    refine ⟨(s3 k hk).2.1, ?_⟩
    rw [(s3 k hk).2.2]
    have hmem : ∀ x, (msgs k).any (fun m => decide (m.2.1 = x)) = true ↔ (V k).gho x = none ∧ (rs k).any (fun q => decide (q.1 = x)) = true := by
      intro x
      constructor
      · intro hh
        obtain ⟨m, hm, e⟩ := List.any_eq_true.1 hh
        have e : m.2.1 = x := of_decide_eq_true e
        obtain ⟨g1, g2, g3, g4⟩ := (hmsg k hk m).1 hm
        exact ⟨by rw [← e]; exact g3, List.any_eq_true.2 ⟨_, g2, by simp [e]⟩⟩
      · rintro ⟨h1, h2⟩
        obtain ⟨q, hq, e⟩ := List.any_eq_true.1 h2
        have e : q.1 = x := of_decide_eq_true e
        obtain ⟨a, b, c⟩ := (hl k hk).2 q hq
        obtain ⟨s, hs⟩ := Option.isSome_iff_exists.1 c
        exact List.any_eq_true.2 ⟨(q.2, q.1, s), (hmsg k hk _).2 ⟨a, hq, by rw [e]; exact h1, hs⟩, by simp [e]⟩
    have eg : (H k (msgs k)).gho = (V.request n rs k).gho := by
      funext x
      have e1 : (H k (msgs k)).gho x = match (msgs k).find? (fun m => decide (m.2.1 = x)) with
          | some m => some (m.2.2, m.1)
          | none => (V k).gho x := rfl
      have e2 : (V.request n rs k).gho x = if ((V k).gho x).isSome then (V k).gho x else
        match (rs k).find? (fun q => decide (q.1 = x)) with
        | some q => ((V q.2).loc x).map fun s => (s, q.2)
        | none => none := rfl
      rw [e1, e2]
      cases hf : (msgs k).find? (fun m => decide (m.2.1 = x)) with
      | some m =>
        have g0 := List.mem_of_find?_eq_some hf
        have e : m.2.1 = x := by simpa using List.find?_some hf
        obtain ⟨g1, g2, g3, g4⟩ := (hmsg k hk m).1 g0
        rw [e] at g2 g3 g4
        rw [g3]
        simp only [Option.isSome_none, Bool.false_eq_true, if_false]
        cases hq : (rs k).find? (fun q => decide (q.1 = x)) with
        | none => exact absurd (by simp) (List.find?_eq_none.1 hq _ g2)
        | some q =>
          have q1 := List.mem_of_find?_eq_some hq
          have q2 : q.1 = x := by simpa using List.find?_some hq
          obtain ⟨a, b, c⟩ := (hl k hk).2 q q1
          rw [q2] at c
          have : q.2 = m.1 := h.own q.2 a m.1 g1 x c (by rw [g4]; rfl)
          simp only [this, g4, Option.map_some]
      | none =>
        cases hg : (V k).gho x with
        | some g => simp
        | none =>
          simp only [Option.isSome_none, Bool.false_eq_true, if_false]
          cases hq : (rs k).find? (fun q => decide (q.1 = x)) with
          | none => rfl
          | some q =>
            exfalso
            have q1 := List.mem_of_find?_eq_some hq
            have q2 : q.1 = x := by simpa using List.find?_some hq
            have := (hmem x).2 ⟨hg, List.any_eq_true.2 ⟨q, q1, by simp [q2]⟩⟩
            obtain ⟨m, hm, e⟩ := List.any_eq_true.1 this
            exact List.find?_eq_none.1 hf m hm e
    have eh : (H k (msgs k)).net.has = (V.request n rs k).net.has := by
      funext x
      show ((V k).net.has x || (msgs k).any (fun m => decide (m.2.1 = x))) = ((V k).net.has x || (rs k).any (fun q => decide (q.1 = x)))
      rw [Bool.eq_iff_iff, Bool.or_eq_true, Bool.or_eq_true, hmem]
      constructor
      · rintro (a | a)
        · exact .inl a
        · exact .inr a.2
      · rintro (a | a)
        · exact .inl a
        · cases hg : (V k).gho x with
          | none => exact .inr ⟨rfl, a⟩
          | some g => left; rw [(h.one k hk).has, hg]; simp
    have er : (H k (msgs k)).req = (V.request n rs k).req := by
      funext x
      show (((V k).req x || (rs k).any (fun q => decide (x = q.1) && ((V k).gho x).isSome)) || (msgs k).any (fun m => decide (m.2.1 = x))) = ((V k).req x || (rs k).any (fun q => decide (q.1 = x)))
      rw [Bool.eq_iff_iff, Bool.or_eq_true, Bool.or_eq_true, Bool.or_eq_true, hmem]
      constructor
      · rintro ((a | a) | a)
        · exact .inl a
        · obtain ⟨q, hq, e⟩ := List.any_eq_true.1 a
          simp only [Bool.and_eq_true, decide_eq_true_eq] at e
          exact .inr (List.any_eq_true.2 ⟨q, hq, by simp [e.1]⟩)
        · exact .inr a.2
      · rintro (a | a)
        · exact .inl (.inl a)
        · cases hg : (V k).gho x with
          | none => exact .inr ⟨rfl, a⟩
          | some g =>
            obtain ⟨q, hq, e⟩ := List.any_eq_true.1 a
            have e : q.1 = x := of_decide_eq_true e
            exact .inl (.inr (List.any_eq_true.2 ⟨q, hq, by simp [e]⟩))
    have et : (H k (msgs k)).tag = (V.request n rs k).tag := by
      funext x j
      show ((V k).tag x j || (V.asked n rs k).any (fun m => decide (m = (j, x)))) = ((V k).tag x j || (decide (j < n) && (rs j).any fun q => decide (q = (x, k))))
      rw [Bool.eq_iff_iff, Bool.or_eq_true, Bool.or_eq_true]
      constructor
      · rintro (a | a)
        · exact .inl a
        · obtain ⟨m, hm, e⟩ := List.any_eq_true.1 a
          have e : m = (j, x) := of_decide_eq_true e
          subst e
          obtain ⟨h1, h2, -⟩ := mem_asked.1 hm
          refine .inr ?_
          rw [Bool.and_eq_true]
          exact ⟨decide_eq_true h1, List.any_eq_true.2 ⟨_, h2, by simp⟩⟩
      · rintro (a | a)
        · exact .inl a
        · rw [Bool.and_eq_true, decide_eq_true_eq] at a
          obtain ⟨q, hq, e⟩ := List.any_eq_true.1 a.2
          have e : q = (x, k) := of_decide_eq_true e
          subst e
          cases hg : (V j).gho x with
          | none => exact .inr (List.any_eq_true.2 ⟨(j, x), mem_asked.2 ⟨a.1, hq, hg⟩, by simp⟩)
          | some g => exact .inl ((h.tag k hk x j).2 ⟨a.1, ((hl j a.1).2 _ hq).2.2, by rw [hg]; rfl⟩)
    show ({ (V k) with gho := (H k (msgs k)).gho, net := { (V k).net with has := (H k (msgs k)).net.has }, req := (H k (msgs k)).req, tag := (H k (msgs k)).tag } : RV S A) = V.request n rs k
    rw [eg, eh, er, et]
    rfl

/-! ### Operations of one rank -/

theorem Sim.at_ {w : World S A} (hw : Sim d Q n w V) {r : Nat} (hr : r < n) {f : Cx S A → Option (Cx S A)} {X : RV S A} (h : ∃ c, f (w r) = some c ∧ COk d (Q r) c ∧ c.v = X) :
    ∃ w', Repast.Network.at_ n r f w = some w' ∧ Sim d Q n w' (V.set r X) := by
  obtain ⟨c, e, hc, hv⟩ := h
  refine ⟨fun k => if k = r then c else w k, by unfold Repast.Network.at_; rw [if_pos hr, e]; rfl, ?_⟩
  intro k hk
  unfold Sp.set
  simp only []
  split
  · rename_i e; subst e; exact ⟨hc, hv⟩
  · exact hw k hk

theorem sim_count {w : World S A} (hw : Sim d Q n w V) (hn : 0 < n) : w.count = 1 := by
  unfold World.count
  rw [(hw 0 hn).1.nets]; rfl

theorem eachPid_one {f : Nat → World S A → Option (World S A)} {w : World S A} (h : w.count = 1) : eachPid f w = f 0 w := by
  unfold eachPid
  rw [h]
  show (f 0 w >>= fun w => pure w) = f 0 w
  simp

theorem synchNet_sim (h : SInv H d n V) (hQH : ∀ r < n, (Q r).hid = H r)
    (hH : ∀ r < n, ∀ p ∈ (V.removals d n r).net.new, H ((V.removals d n r).far p) ((V.removals d n r).near p) = false)
    (hreq : ∀ r < n, ∀ p ∈ (V r).net.rem, (V ((V r).far p)).req ((V r).near p) = false)
    (hone : ∀ r < n, ∀ p ∈ (V r).net.rem, ∀ x y, ((V ((V r).far p)).net.edge x y).isSome = true → (x = (V r).near p ∨ y = (V r).near p) → SameN d p.1 p.2 x y)
    (hmv : ∀ r < n, ∀ p ∈ (V r).net.rem, ¬ (Q r).mv ((V r).near p) ∧ ¬ (Q ((V r).far p)).mv ((V r).near p))
    (hconf : ∀ r < n, ∀ k < n, ∀ u v, (V r).net.Dirty d u v → (V k).net.Dirty d u v → (V r).net.edge u v = (V k).net.edge u v)
    {w : World S A} (hw : Sim d Q n w V) :
    ∃ w', synchNet n 0 w = some w' ∧ Sim d Q n w' (Sp.copies d n (Sp.removals d n V)) := by
  obtain ⟨w3, e3, s3⟩ := removals_sim h hreq hone hmv hw
  have hr := h.removals hone
  have hconf' : ∀ r < n, ∀ k < n, ∀ u v, (V.removals d n r).net.Dirty d u v → (V.removals d n k).net.Dirty d u v →
      (V.removals d n r).net.edge u v = (V.removals d n k).net.edge u v := by
    intro r hr' k hk u v d1 d2
    rw [h.removals_dirty hr' d1, h.removals_dirty hk d2]
    exact hconf r hr' k hk u v d1 d2
  obtain ⟨w4, e4, s4⟩ := copies_sim hr hQH hH (fun _ _ => rfl) hconf' s3
  refine ⟨w4, ?_, s4⟩
  unfold synchNet
  rw [e3, Option.bind_some]
  exact e4

/-- What is pending after an operation. -/
def after (Q : Nat → Pend A) : WOp S A → Nat → Pend A
  | .synch true => fun r => { Q r with toRef := [] }
  | _ => Q

/-- No edges of agents that were moved are removed. -/
def Settled (mv : Nat → Prop) (n : Nat) (V : Sp S A) (op : WOp S A) : Prop :=
  match op with
  | .synch true => ∀ r < n, ∀ p ∈ (V r).net.rem, ¬ mv ((V r).near p)
  | _ => True

theorem synch_sim (h : SInv H d n V) (hQH : ∀ r < n, (Q r).hid = H r)
    (hH : ∀ r < n, ∀ p ∈ (V.states.removals d n r).net.new, H ((V.states.removals d n r).far p) ((V.states.removals d n r).near p) = false) (hn : 0 < n) {mv : Nat → Prop} (hQ : ∀ r < n, (Q r).mv = mv) (hl : Legal d n V (.synch true)) (hm : Settled mv n V (.synch true)) {w : World S A} (hw : Sim d Q n w V) :
    ∃ w', synchronize n true w = some w' ∧ Sim d (after (S := S) Q (.synch true)) n w' (sstep d n V (.synch true)) := by
  obtain ⟨h1, h2⟩ := hl rfl
  obtain ⟨w1, e1, s1⟩ := preSynch_sim h hQ hw
  obtain ⟨w2, e2, s2⟩ := updateGhosts_sim h s1
  have hf : ∀ r p, (V.states r).far p = (V r).far p := by
    intro r p
    unfold RV.far Sp.states
    simp only [Option.map_map]
    rfl
  obtain ⟨w4, e4, s4⟩ := synchNet_sim (Q := after (S := S) Q (.synch true)) h.states hQH hH
    (by intro r hr p hp; rw [hf]; exact (h2 r hr p hp).1)
    (by intro r hr p hp; rw [hf]; exact (h2 r hr p hp).2)
    (by
      intro r hr p hp
      rw [hf]
      have hf := h.far_noted hr (.inr (.inr (.inr hp)))
      show ¬ (Q r).mv _ ∧ ¬ (Q ((V r).far p)).mv _
      rw [hQ r hr, hQ _ hf.lt]
      exact ⟨hm r hr p hp, hm r hr p hp⟩) h1 s2
  refine ⟨w4, ?_, s4⟩
  unfold synchronize
  rw [if_pos rfl, eachPid_one (sim_count hw hn), e1, Option.bind_some, e2, Option.bind_some, eachPid_one (sim_count s2 hn)]
  exact e4

/-- An operation that is covered raises nothing, and does what the specification says. -/
theorem step_sim (h : SInv NoHid d n V) (hQH : ∀ r < n, (Q r).hid = NoHid r) (hn : 0 < n) {mv : Nat → Prop} (hQ : ∀ r < n, (Q r).mv = mv) {op : WOp S A} (hl : Legal d n V op) (hm : Settled mv n V op) {w : World S A} (hw : Sim d Q n w V) :
    ∃ w', wstep n w op = some w' ∧ Sim d (after Q op) n w' (sstep d n V op) := by
  cases op with
  | add r u s =>
    obtain ⟨hr, hu⟩ := hl
    obtain ⟨hc, hv⟩ := hw r hr
    have hab := h.absent hu hr
    have := hc.add (u := u) (by rw [hv]; exact hu r hr) (by rw [hv]; exact hab.1) s
    refine hw.at_ (f := fun c => some (c.add u s)) hr ⟨_, rfl, this.1, ?_⟩
    rw [this.2, hv]
  | setState r u s =>
    obtain ⟨hr, hu⟩ := hl
    obtain ⟨hc, hv⟩ := hw r hr
    obtain ⟨c', e, hc', hv'⟩ := hc.setState (u := u) (by rw [hv]; exact hu) s
    refine hw.at_ (f := fun c => c.setState u s) hr ⟨c', e, hc', ?_⟩
    rw [hv', hv]
  | addEdge r pid u v a =>
    obtain ⟨hr, rfl, h2, h3, h4, h5, h6⟩ := hl
    obtain ⟨hc, hv⟩ := hw r hr
    obtain ⟨c', e, hc', hv'⟩ := hc.addEdge (u := u) (v := v) (by rw [hv]; exact h2) (by rw [hv]; exact h3) a (by
      rw [hv]
      intro p hp hs
      exact h5 r hr ⟨p, hp, hs.symm⟩)
    refine hw.at_ (f := fun c => c.addEdge 0 u v a) hr ⟨c', e, hc', ?_⟩
    rw [hv', hv]; rfl
  | updateEdge r pid u v a =>
    obtain ⟨hr, rfl, h2, h3⟩ := hl
    obtain ⟨hc, hv⟩ := hw r hr
    obtain ⟨c', p, e, hc', hs, hv'⟩ := hc.updateEdge (u := u) (v := v) (by rw [hv]; exact h2) a (by
      rw [hv]
      intro hcr
      obtain ⟨p, hp, hs⟩ := h3 hcr
      exact ⟨p, hp, hs.symm⟩)
    refine hw.at_ (f := fun c => c.updateEdge 0 u v a) hr ⟨c', e, hc', ?_⟩
    rw [hv', hv]
    have hp : (if (V r).cross u v = true then ins (V r).net.upd p else (V r).net.upd) = if (V r).cross u v = true then ins (V r).net.upd ((V r).net.key u v) else (V r).net.upd := by
      split
      · rename_i hcr
        have hup : p ∈ c'.v.net.upd := by
          rw [hv', hv]
          show p ∈ (if _ then _ else _)
          rw [if_pos hcr, mem_ins]; exact .inr rfl
        have hw' : p ∈ (V r).net.new ∨ p ∈ (V r).net.syn := by
          have : p ∈ c'.v.net.new ∨ p ∈ c'.v.net.syn := by
            obtain ⟨k, hk, rfl⟩ := List.mem_map.1 hup
            exact (hc'.net.upd k hk).imp (fun x => List.mem_map_of_mem x) (fun x => List.mem_map_of_mem x)
          rw [hv', hv] at this
          exact this
        obtain ⟨hk, hks⟩ := NV.key_wrote (h3 hcr)
        have : p = (V r).net.key u v := by
          rcases hs.symm.trans hks.symm with ⟨e1, e2⟩ | ⟨hd, e1, e2⟩
          · exact Prod.ext e1 e2
          · have := h.orient hd r hr r hr _ hk
            have e : p = (((V r).net.key u v).2, ((V r).net.key u v).1) := Prod.ext e1 e2
            rw [← e] at this
            exact (hw'.elim this.1 this.2).elim
        rw [this]
      · rfl
    rw [hp]; rfl
  | removeEdge r pid u v =>
    obtain ⟨hr, rfl, h2, h3, h4⟩ := hl
    obtain ⟨hc, hv⟩ := hw r hr
    cases hcr : (V r).cross u v with
    | false =>
      obtain ⟨c', e, hc', hv'⟩ := hc.removeEdge_plain (u := u) (v := v) (by rw [hv]; exact h2) h3 (by rw [hv]; exact hcr)
      refine hw.at_ (f := fun c => c.removeEdge 0 u v) hr ⟨c', e, hc', ?_⟩
      rw [hv', hv]
      unfold NV.removeEdge
      rw [hcr]; rfl
    | true =>
      obtain ⟨⟨p, hp, hs⟩, -⟩ := h4 hcr
      obtain ⟨hk, hks⟩ := NV.key_wrote (N := (V r).net) ⟨p, .inr hp, hs⟩
      have hpk : p = (V r).net.key u v := by
        rcases hs.trans hks.symm with ⟨e1, e2⟩ | ⟨hd, e1, e2⟩
        · exact Prod.ext e1 e2
        · have := h.orient hd r hr r hr _ hk
          have e : p = (((V r).net.key u v).2, ((V r).net.key u v).1) := Prod.ext e1 e2
          rw [← e] at this
          exact (this.2 hp).elim
      obtain ⟨c', e, hc', hv'⟩ := hc.removeEdge_cross (u := u) (v := v) (p := p) (by rw [hv]; exact h2) (by rw [hv]; exact hcr) (by rw [hv]; exact hp) hs.symm (by
        rw [hv]
        intro hd
        exact h.orient hd r hr r hr p (.inr hp))
      refine hw.at_ (f := fun c => c.removeEdge 0 u v) hr ⟨c', e, hc', ?_⟩
      rw [hv', hv, hpk]
      unfold NV.removeEdge
      rw [hcr]; rfl
  | clearEdges r pid =>
    obtain ⟨hr, rfl, h2⟩ := hl
    obtain ⟨hc, hv⟩ := hw r hr
    obtain ⟨c', e, hc', hv'⟩ := hc.clearEdges (by rw [hv]; exact fun hd p hp => h.orient hd r hr r hr p (.inr hp)) (by
      rw [hv]
      intro p hp
      have hn := (h.one r hr).upd p hp
      have hn' := (h.one r hr).wrote p hn
      obtain ⟨⟨q, hq, hs⟩, -⟩ := h2 p.1 p.2 hn'.1 hn'.2
      rcases hs with ⟨e1, e2⟩ | ⟨hd, e1, e2⟩
      · rw [← show q = p from Prod.ext e1 e2]; exact hq
      · have := h.orient hd r hr r hr p hn
        rw [← show q = (p.2, p.1) from Prod.ext e1 e2] at this
        exact (this.2 hq).elim)
    refine hw.at_ (f := fun c => c.clearEdges 0) hr ⟨c', e, hc', ?_⟩
    rw [hv', hv]; rfl
  | request rs => exact request_sim h hQH hl hw
  | synch ghosts =>
    cases ghosts with
    | false => exact ⟨w, rfl, hw⟩
    | true => exact synch_sim h hQH (fun _ _ _ _ => rfl) hn hQ hl hm hw
  | _ => exact hl.elim

/-- Nothing was moved. -/
abbrev still : Nat → Pend A := fun _ => Pend.none

theorem settled_none (n : Nat) (V : Sp S A) (op : WOp S A) : Settled (fun _ => False) n V op := by
  unfold Settled; split
  · intro _ _ _ _ h; exact h
  · trivial

theorem after_still (op : WOp S A) : after (still : Nat → Pend A) op = still := by
  unfold after; split <;> rfl

theorem step_still (h : SInv NoHid d n V) (hn : 0 < n) {op : WOp S A} (hl : Legal d n V op) {w : World S A} (hw : Sim d still n w V) :
    ∃ w', wstep n w op = some w' ∧ Sim d still n w' (sstep d n V op) := by
  have := step_sim h (fun _ _ => rfl) hn (mv := fun _ => False) (fun _ _ => rfl) hl (settled_none n V op) hw
  rw [after_still] at this
  exact this

theorem run_sim (hn : 0 < n) (ops : List (WOp S A)) : ∀ (V : Sp S A) (w : World S A), SInv NoHid d n V → Sim d still n w V → LegalRun d n V ops →
    ∃ w', wrun n w ops = some w' ∧ Sim d still n w' (ops.foldl (sstep d n) V) ∧ SInv NoHid d n (ops.foldl (sstep d n) V) := by
  induction ops with
  | nil => intro V w hI hS _; exact ⟨w, rfl, hS, hI⟩
  | cons o ops ih =>
    intro V w hI hS ⟨hl, hrun⟩
    obtain ⟨w1, e1, s1⟩ := step_still hI hn hl hS
    obtain ⟨w2, e2, s2, i2⟩ := ih _ w1 (hI.step hl) s1 hrun
    refine ⟨w2, ?_, s2, i2⟩
    unfold wrun at *
    rw [List.foldlM_cons, e1]
    exact e2

theorem init_sim (d : Bool) (n : Nat) {o : Nat} : Sim d still n (World.init [d] o : World S A) Sp.init := by
  intro r _
  refine ⟨COk.init d _ r, ?_⟩
  rfl

end Repast.Network
