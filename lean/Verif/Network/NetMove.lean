import Verif.Network.NetMid
import Verif.Network.NetRun
import Verif.Network.RankArrive

/-! `move_agents` with one agent: the agent leaves and arrives, and its edges are redirected. Used for C54. -/
namespace Repast.Network
open Repast.Dict Repast.Context

variable {S A : Type} {d : Bool} {n : Nat} {V : Sp S A} {Q : Nat → Pend A}

theorem flatMap_one {α : Type} {l : List Nat} (hl : l.Nodup) {r : Nat} (hr : r ∈ l) (f : Nat → List α) (h : ∀ s ∈ l, s ≠ r → f s = []) : l.flatMap f = f r := by
  induction l with
  | nil => cases hr
  | cons a l ih =>
    rw [List.nodup_cons] at hl
    rw [List.flatMap_cons]
    rcases List.mem_cons.1 hr with e | e
    · subst e
      have : l.flatMap f = [] := by
        rw [List.flatMap_eq_nil_iff]
        intro s hs
        exact h s (List.mem_cons_of_mem _ hs) (fun e => hl.1 (e ▸ hs))
      rw [this, List.append_nil]
    · rw [h a List.mem_cons_self (fun e' => hl.1 (e' ▸ e)), List.nil_append]
      exact ih hl.2 e (fun s hs => h s (List.mem_cons_of_mem _ hs))

theorem recv_one {M : Type} {out : Nat → List (Nat × M)} {r : Nat} (hr : r < n) (h : ∀ s < n, s ≠ r → out s = []) (j : Nat) :
    recv n out j = ((out r).filter (fun m => decide (m.1 = j))).map fun m => (r, m.2) := by
  unfold recv
  exact flatMap_one List.nodup_range (List.mem_range.2 hr) (fun r => ((out r).filter (fun m => decide (m.1 = j))).map fun m => (r, m.2))
    (fun s hs hne => by simp only [h s (List.mem_range.1 hs) hne]; rfl)

theorem each_same (w : World S A) : each n (fun r => some (w r)) w = some w := by
  unfold each
  simp only []
  rw [if_pos (by simp)]
  congr 1
  funext r
  by_cases hr : r < n
  · simp [hr]
  · simp [hr]

/-- One agent is moved. -/
def oneMove (r k m : Nat) : Nat → List (Nat × Nat) := fun i => if i = r then [(m, k)] else []

/-- The agent `m` of rank `r` can be moved to rank `k`; `mv` are the agents that were moved before. -/
structure CanMove (d : Bool) (n : Nat) (V : Sp S A) (mv : Nat → Prop) (r k m : Nat) : Prop where
  hr : r < n
  hk : k < n
  ne : k ≠ r
  loc : ((V r).loc m).isSome = true
  /-- the new rank has no ghost of the agent -/
  gho : (V k).gho m = none
  /-- all edges are synchronized -/
  clean : ∀ i < n, (V i).net.new = [] ∧ (V i).net.upd = [] ∧ (V i).net.rem = []
  self : (V r).net.edge m m = none
  /-- the ghosts that the agent has edges with are not there on request, and were not moved before -/
  far : ∀ x, ((V r).net.edge m x).isSome = true ∨ ((V r).net.edge x m).isSome = true → ((V r).gho x).isSome = true → (V r).req x = false ∧ ¬ mv x
  /-- the edges with agents of other ranks were added by the other ranks, and not by the rank of the agent -/
  wrote : ∀ i < n, i ≠ r → ∀ x y, ((V i).net.edge x y).isSome = true → m = x ∨ m = y → (V i).net.Wrote d x y
  mine : ∀ p ∈ (V r).net.syn, p.1 ≠ m ∧ p.2 ≠ m
  /-- the other ranks have ghosts of the agent only because of edges -/
  used : ∀ i < n, ((V i).gho m).isSome = true → ∃ x y, ((V i).net.edge x y).isSome = true ∧ (m = x ∨ m = y)

/-- The ghost of the agent on its former rank, and its edges there. -/
structure Kept (d : Bool) (X : RV S A) (m : Nat) (hid : Bool) (M : List (Nat × Nat × Attr A)) : Prop where
  kept : ∀ e ∈ M, (e.1 = m ∧ e.2.1 ≠ m ∧ (X.loc e.2.1).isSome = true ∨ e.2.1 = m ∧ e.1 ≠ m ∧ (X.loc e.1).isSome = true ∧ d = true) ∧ X.net.edge e.1 e.2.1 = some e.2.2
  all : ∀ x y, (X.net.edge x y).isSome = true → (x = m ∧ (X.loc y).isSome = true ∨ y = m ∧ (X.loc x).isSome = true) → ∃ e ∈ M, SameN d e.1 e.2.1 x y
  once : M.Pairwise fun e e' => ¬ SameN d e.1 e.2.1 e'.1 e'.2.1
  hidIff : hid = true ↔ M ≠ []

/-- What is pending after the agent has left and arrived. -/
def midPend (Q : Nat → Pend A) (mv : Nat → Prop) (r m : Nat) (hid : Bool) (M : List (Nat × Nat × Attr A)) : Nat → Pend A := fun i =>
  if i = r then ⟨fun u => mv u ∨ u = m, fun u => decide (u = m) && hid, M, [], (Q r).toRef⟩ else ⟨fun u => mv u ∨ u = m, fun _ => false, [], [], (Q i).toRef⟩

/-- The first part of `move_agents`: the agents are on their new ranks, and the networks were told. -/
def moveStart (n : Nat) (ms : Nat → List (Nat × Nat)) (w : World S A) : Option (World S A) :=
  let q := (List.range n).map fun r => (ms r).foldlM (Cx.sendAway n) (w r, ([] : List (Nat × Nat × S × Option (Dict Int))))
  (each n (fun r => (q[r]?.bind id).map (·.1)) w).bind fun w =>
    let a := (List.range n).map fun r => (((recv n (fun s => sent (q[s]?.bind id)) r).map (·.2)).foldlM Cx.arrive (w r, ([] : List Nat)))
    (each n (fun r => (a[r]?.bind id).map (·.1)) w).bind fun w =>
      (if (List.range n).all (fun r => (ms r).isEmpty) then some w else eachPid (agentsMoved n ms) w).bind fun w =>
        each n (fun r => (sent (a[r]?.bind id)).foldlM (fun (c : Cx S A) u => c.deleteGhost u) (w r)) w

theorem moveAgents_eq (n : Nat) (ms : Nat → List (Nat × Nat)) (w : World S A) : moveAgents n ms w = (moveStart n ms w).bind fun w =>
    (eachPid (preSynchNet n) w).bind fun w => (updateGhosts n w).bind fun w => (eachPid (synchNet n) w).bind fun w => eachPid (postMoved n) w := by
  unfold moveAgents moveStart
  simp only [Option.bind_assoc]

theorem mid_start (h : SInv NoHid d n V) {mv : Nat → Prop} (hQ : ∀ i < n, (Q i).mv = mv ∧ (Q i).hid = (fun _ => false) ∧ (Q i).moved = [] ∧ (Q i).noLonger = [])
    {r k m : Nat} (can : CanMove d n V mv r k m) {w : World S A} (hw : Sim d Q n w V) :
    ∃ w' s hid drop l M, moveStart n (oneMove r k m) w = some w' ∧ Sim d (midPend Q mv r m hid M) n w' (V.mid r k m s hid drop l) ∧ MidOk d n V r k m s drop l ∧ Kept d (V r) m hid M := by
  obtain ⟨s, hs⟩ := Option.isSome_iff_exists.1 can.loc
  have hrank : ∀ i < n, (w i).rank = i := by
    intro i hi
    have := h.rank i hi
    rw [← (hw i hi).2] at this
    exact this
  have hr := can.hr
  have hk := can.hk
  have hkr := can.ne
  have hgm : (V r).gho m = none := (h.one r hr).apart m can.loc
  -- the agent leaves
  obtain ⟨cr, D, hid, drop, M, L, ea, aw⟩ := (hw r hr).1.sendAway (n := n) (m := m) (k := k) (s := s) (hQ r hr).2.1 (hQ r hr).2.2.1 (hQ r hr).2.2.2
    (by rw [(hw r hr).2]; exact hs) hk (by rw [hrank r hr]; exact hkr) (by rw [(hw r hr).2]; exact can.self) (by rw [(hw r hr).2]; exact (can.clean r hr).1)
    (by rw [(hw r hr).2]; exact (can.clean r hr).2.1) (by rw [(hw r hr).2]; exact (can.clean r hr).2.2) (by rw [(hw r hr).2]; exact can.mine)
    (by rw [(hw r hr).2, (hQ r hr).1]; exact can.far) []
  obtain ⟨aok, aview, adrop, adropReq, aleft, aleftAll, aleftOnce, akept, akeptAll, akeptOnce, ahid, adict, aranks⟩ := aw
  rw [(hw r hr).2] at aview adrop adropReq aleft akept akeptAll aranks
  rw [(hQ r hr).1] at aok adrop
  rw [hrank r hr] at aranks
  let mv' : Nat → Prop := fun u => mv u ∨ u = m
  let Qi : Nat → Pend A := fun i => ⟨mv', fun _ => false, [], [], (Q i).toRef⟩
  have hwi : ∀ i < n, COk d (Qi i) (w i) := by
    intro i hi
    obtain ⟨q1, q2, q3, q4⟩ := hQ i hi
    have := (hw i hi).1.mono (mv := mv') (by intro u hu; rw [q1] at hu; exact .inl hu)
    have e : ({ (Q i) with mv := mv' } : Pend A) = Qi i := by
      show (⟨mv', (Q i).hid, (Q i).moved, (Q i).noLonger, (Q i).toRef⟩ : Pend A) = _
      rw [q2, q3, q4]
    rw [e] at this; exact this
  let q := (List.range n).map fun i => (oneMove r k m i).foldlM (Cx.sendAway n) (w i, ([] : List (Nat × Nat × S × Option (Dict Int))))
  have hq : ∀ i < n, q[i]?.bind id = if i = r then some (cr, [(k, m, s, D)]) else some (w i, []) := by
    intro i hi
    rw [get_map_range _ hi]
    unfold oneMove
    by_cases e : i = r
    · subst e
      rw [if_pos rfl, if_pos rfl, List.foldlM_cons, ea]; rfl
    · rw [if_neg e, if_neg e]; rfl
  obtain ⟨w1, e1, p1⟩ := each_some (n := n) (f := fun i => (q[i]?.bind id).map (·.1)) (w := w) (P := fun i c => c = if i = r then cr else w i) (by
    intro i hi
    rw [hq i hi]
    split
    · exact ⟨_, rfl, rfl⟩
    · exact ⟨_, rfl, rfl⟩)
  have hp1 : ∀ i < n, w1 i = if i = r then cr else w i := fun i hi => (p1 i hi).2
  -- and arrives
  have hmsg : ∀ j, recv n (fun i => sent (q[i]?.bind id)) j = if j = k then [(r, m, s, D)] else [] := by
    intro j
    rw [recv_one hr (by intro i hi hne; rw [hq i hi, if_neg hne]; rfl), hq r hr, if_pos rfl]
    show (([(k, m, s, D)] : List (Nat × Nat × S × Option (Dict Int))).filter fun m => decide (m.1 = j)).map _ = _
    by_cases e : j = k
    · subst e; rw [if_pos rfl]; simp
    · rw [if_neg e]; simp [Ne.symm e]
  have hlk : ∀ i < n, i ≠ r → (V i).loc m = none := fun i hi hne => h.loc_once hr hi can.loc hne
  have htk : (V r).tag m k = false := by
    cases ht : (V r).tag m k with
    | false => rfl
    | true => have := ((h.tag r hr m k).1 ht).2.2; rw [can.gho] at this; cases this
  obtain ⟨ck, ek, hck, hckv⟩ := (hwi k hk).arrive (m := m) (by rw [(hw k hk).2]; exact hlk k hk hkr) (by rw [(hw k hk).2]; exact can.gho) s adict (by
      have := aranks k
      rw [htk, decide_eq_false hkr, Bool.and_false, Bool.or_false] at this
      rw [hrank k hk]
      simpa using this) (.inr rfl) []
  rw [(hw k hk).2] at hckv
  let a := (List.range n).map fun i => (((recv n (fun s => sent (q[s]?.bind id)) i).map (·.2)).foldlM Cx.arrive (w1 i, ([] : List Nat)))
  have ha : ∀ i < n, a[i]?.bind id = if i = k then some (ck, []) else some (w1 i, []) := by
    intro i hi
    rw [get_map_range _ hi, hmsg]
    by_cases e : i = k
    · subst e
      rw [if_pos rfl, if_pos rfl, hp1 i hi, if_neg hkr, List.map_cons, List.foldlM_cons, ek]; rfl
    · rw [if_neg e, if_neg e]; rfl
  obtain ⟨w2, e2, p2⟩ := each_some (n := n) (f := fun i => (a[i]?.bind id).map (·.1)) (w := w1) (P := fun i c => c = if i = k then ck else if i = r then cr else w i) (by
    intro i hi
    rw [ha i hi]
    split
    · exact ⟨_, rfl, rfl⟩
    · exact ⟨_, rfl, hp1 i hi⟩)
  have hp2 : ∀ i < n, w2 i = if i = k then ck else if i = r then cr else w i := fun i hi => (p2 i hi).2
  have hsent : ∀ i < n, sent (a[i]?.bind id) = [] := by
    intro i hi; rw [ha i hi]; split <;> rfl
  -- the other ranks are told about the ghosts that were deleted
  let Q2 : Nat → Pend A := fun i => if i = r then ⟨mv', fun u => decide (u = m) && hid, M, L, (Q r).toRef⟩ else Qi i
  let V2 : Sp S A := fun i => if i = r then cr.v else if i = k then ck.v else V i
  have s2 : Sim d Q2 n w2 V2 := by
    intro i hi
    rw [hp2 i hi]
    show COk d (if i = r then _ else Qi i) _ ∧ _ = (if i = r then cr.v else if i = k then ck.v else V i)
    by_cases e : i = r
    · subst e
      rw [if_neg (Ne.symm hkr), if_pos rfl, if_pos rfl, if_pos rfl]
      exact ⟨aok, rfl⟩
    · rw [if_neg e, if_neg e, if_neg e]
      by_cases e' : i = k
      · subst e'
        rw [if_pos rfl, if_pos rfl]
        exact ⟨hck, rfl⟩
      · rw [if_neg e', if_neg e']
        exact ⟨hwi i hi, (hw i hi).2⟩
  have hL : ∀ q ∈ L, q.1 < n ∧ q.1 ≠ r ∧ drop q.2 = true ∧ ((V q.1).loc q.2).isSome = true ∧ ((V r).gho q.2).isSome = true ∧ q.2 ≠ m ∧ ¬ mv q.2 := by
    intro q hq
    obtain ⟨h1, s', h2⟩ := aleft q hq
    obtain ⟨h3, h4, h5⟩ := h.gho r hr _ _ _ h2
    refine ⟨h3, h4, h1, h5, by rw [h2]; rfl, ?_, (adrop _ h1).2.1⟩
    rintro e
    rw [e, hgm] at h2; cases h2
  let out : Nat → List (Nat × Nat) := fun i => if i = r then L else []
  have hout : ∀ j, recv n out j = (L.filter (fun q => decide (q.1 = j))).map fun q => (r, q.2) := by
    intro j
    rw [recv_one hr (by intro i _ hne; show (if _ then _ else _) = _; rw [if_neg hne])]
    show ((if r = r then L else []).filter _).map _ = _
    rw [if_pos rfl]
  let Q3 : Nat → Pend A := midPend Q mv r m hid M
  let V3 : Sp S A := fun i => { V2 i with tag := fun x j => (V2 i).tag x j && !(decide (j = r ∧ i ≠ r) && drop x) }
  have V3' : ∀ i, i ≠ r → V3 i = { V2 i with tag := fun x j => (V2 i).tag x j && !(decide (j = r) && drop x) } := by
    intro i hi
    show ({ V2 i with tag := fun x j => (V2 i).tag x j && !(decide (j = r ∧ i ≠ r) && drop x) } : RV S A) = _
    simp only [hi, ne_eq, not_false_iff, and_true]
  have V3r : V3 r = V2 r := by
    show ({ V2 r with tag := fun x j => (V2 r).tag x j && !(decide (j = r ∧ r ≠ r) && drop x) } : RV S A) = _
    simp
  obtain ⟨w3, e3, s3⟩ := exchange_some (n := n) (send := fun c => c.sendNoLonger n 0) (recv1 := fun (c : Cx S A) (m : Nat × Nat) => c.untag m.1 m.2) (w := w2) (out := out)
    (P := fun i c => COk d (Q3 i) c ∧ c.v = V2 i) (Q := fun i c => COk d (Q3 i) c ∧ c.v = V3 i) (by
      intro i hi
      obtain ⟨c1, c2⟩ := s2 i hi
      by_cases e : i = r
      · subst e
        have e2 : Q2 i = ⟨mv', fun u => decide (u = m) && hid, M, L, (Q i).toRef⟩ := if_pos rfl
        have e3 : Q3 i = ⟨mv', fun u => decide (u = m) && hid, M, [], (Q i).toRef⟩ := if_pos rfl
        have e4 : out i = L := if_pos rfl
        rw [e2] at c1
        obtain ⟨c', x1, x2, x3⟩ := c1.sendNoLonger (n := n) (fun q hq => (hL q hq).1)
        rw [e3, e4]
        exact ⟨c', x1, x2, x3.trans c2⟩
      · have e2 : Q2 i = Qi i := if_neg e
        have e3 : Q3 i = Qi i := if_neg e
        have e4 : out i = [] := if_neg e
        rw [e2] at c1
        obtain ⟨c', x1, x2, x3⟩ := c1.sendNoLonger (n := n) (by intro q hq; cases hq)
        rw [e3, e4]
        exact ⟨c', x1, x2, x3.trans c2⟩) (by
      intro i hi c ⟨hc, hcv⟩
      by_cases e : i = r
      · subst e
        have : recv n out i = [] := by
          rw [hout, List.map_eq_nil_iff, List.filter_eq_nil_iff]
          intro q hq
          simpa using (hL q hq).2.1
        rw [this, V3r]
        exact ⟨c, rfl, hc, hcv⟩
      · have e3 : Q3 i = Qi i := if_neg e
        rw [e3] at hc ⊢
        obtain ⟨c', x1, x2, x3⟩ := foldM_sim (f := fun (c : Cx S A) (m : Nat × Nat) => c.untag m.1 m.2)
          (fun pre c => COk d (Qi i) c ∧ c.v = { V2 i with tag := fun x j => (V2 i).tag x j && !(decide (j = r) && pre.any fun q => decide (q.2 = x)) }) (recv n out i) (by
            rintro pre q suf hl t ⟨ht, htv⟩
            have hqm : q ∈ recv n out i := by rw [hl]; simp
            have hnd : (recv n out i).Pairwise fun q q' => q.2 ≠ q'.2 := by
              rw [hout, List.pairwise_map]
              exact (List.pairwise_map.1 aleftOnce).sublist List.filter_sublist
            have hqnew := pairwise_split hnd hl
            rw [hout] at hqm
            obtain ⟨q', hq', rfl⟩ := List.mem_map.1 hqm
            obtain ⟨hq1, hq2⟩ := List.mem_filter.1 hq'
            have hq2 : q'.1 = i := by simpa using hq2
            obtain ⟨a1, a2, a3, a4, a5, a6, a7⟩ := hL q' hq1
            rw [hq2] at a4
            have htag : (V2 i).tag q'.2 r = true := by
              have h0 : (V i).tag q'.2 r = true := (h.tag i hi _ _).2 ⟨hr, a4, a5⟩
              show (if i = r then cr.v else if i = k then ck.v else V i).tag _ _ = _
              rw [if_neg e]
              split
              · rename_i e'
                rw [hckv]
                show (if _ then _ else _) = _
                rw [if_neg a6, ← e']; exact h0
              · exact h0
            obtain ⟨t', y1, y2, y3, -⟩ := ht.untag (u := q'.2) (k := r) (fun c1 => c1.elim a7 a6) (by
              rw [htv]
              show ((V2 i).tag _ _ && _) = true
              rw [htag]
              simp only [decide_true, Bool.true_and, Bool.not_eq_true', List.any_eq_false, decide_eq_true_eq]
              exact fun q hq => hqnew q hq)
            refine ⟨t', y1, y2, ?_⟩
            rw [y3, htv]
            refine congrArg (fun f => ({ V2 i with tag := f } : RV S A)) ?_
            funext x j
            simp only [List.any_append, List.any_cons, List.any_nil, Bool.or_false]
            by_cases ej : j = r
            · by_cases ex : x = q'.2
              · subst ex; simp [ej]
              · simp [ej, ex, Ne.symm ex]
            · simp [ej]) c ⟨hc, by
              rw [hcv]
              simp⟩
        refine ⟨c', x1, x2, ?_⟩
        rw [x3, V3' i e]
        refine congrArg (fun f => ({ V2 i with tag := f } : RV S A)) ?_
        funext x j
        by_cases ej : j = r
        · subst ej
          simp only [decide_true, Bool.true_and]
          cases hd : drop x with
          | true =>
            have hgx := (adrop x hd).1
            have hxm : x ≠ m := by rintro rfl; rw [hgm] at hgx; cases hgx
            cases ht : (V2 i).tag x j with
            | false => rfl
            | true =>
              have ht : (if i = j then cr.v else if i = k then ck.v else V i).tag x j = true := ht
              rw [if_neg e] at ht
              have ht0 : (V i).tag x j = true := by
                split at ht
                · rename_i e'
                  rw [hckv] at ht
                  have ht : (if _ then _ else _) = true := ht
                  rw [if_neg hxm, ← e'] at ht; exact ht
                · exact ht
              have hli := ((h.tag i hi _ _).1 ht0).2.1
              obtain ⟨q, hq, rfl⟩ := aleftAll x hd
              obtain ⟨a1, a2, a3, a4, a5, a6, a7⟩ := hL q hq
              have hqi := h.own q.1 a1 i hi _ a4 hli
              have : (recv n out i).any (fun q' => decide (q'.2 = q.2)) = true := by
                rw [List.any_eq_true]
                refine ⟨(j, q.2), ?_, by simp⟩
                rw [hout]
                exact List.mem_map.2 ⟨q, List.mem_filter.2 ⟨hq, by simpa using hqi⟩, rfl⟩
              rw [this]
          | false =>
            have : (recv n out i).any (fun q' => decide (q'.2 = x)) = false := by
              rw [List.any_eq_false]
              intro q' hq'
              rw [hout] at hq'
              obtain ⟨q, hq, rfl⟩ := List.mem_map.1 hq'
              have := (hL q (List.mem_filter.1 hq).1).2.2.1
              simp only [decide_eq_true_eq]
              rintro rfl
              rw [hd] at this; cases this
            rw [this]
        · simp [ej])
  -- the edges with the agent are to be sent to its new rank
  have hmsg2 : ∀ i, ((List.range n).filter (fun s => decide (s ≠ i))).flatMap (oneMove r k m) = if i = r then [] else [(m, k)] := by
    intro i
    by_cases e : i = r
    · rw [if_pos e, List.flatMap_eq_nil_iff]
      intro s' hs'
      have : s' ≠ i := by simpa using (List.mem_filter.1 hs').2
      unfold oneMove
      rw [if_neg (by rw [← e]; exact this)]
    · rw [if_neg e, flatMap_one (List.nodup_range.sublist List.filter_sublist) (List.mem_filter.2 ⟨List.mem_range.2 hr, by simpa using Ne.symm e⟩)]
      · unfold oneMove; rw [if_pos rfl]
      · intro s' _ hne; unfold oneMove; rw [if_neg hne]
  have hV3 : ∀ i < n, i ≠ r → i ≠ k → V3 i = { V i with tag := fun x j => (V i).tag x j && !(decide (j = r) && drop x) } := by
    intro i hi e e'
    have : V2 i = V i := by
      show (if i = r then cr.v else if i = k then ck.v else V i) = _
      rw [if_neg e, if_neg e']
    rw [V3' i e, this]
  obtain ⟨w4, e4, p4⟩ := each_some (n := n) (f := fun i => (((List.range n).filter (fun s => decide (s ≠ i))).flatMap (oneMove r k m)).foldlM (Cx.movedOne 0) (w3 i)) (w := w3)
    (P := fun i c => COk d (Q3 i) c ∧ (i = r ∨ i = k → c.v = V3 i) ∧ (i ≠ r → i ≠ k →
      c.v = { V3 i with gho := fun x => if x = m then ((V i).gho m).map (fun g => (g.1, k)) else (V i).gho x, net := { (V i).net with new := c.v.net.new } } ∧
      (∀ p ∈ c.v.net.new, p ∈ (V i).net.syn ∧ (m = p.1 ∨ m = p.2)) ∧ ∀ x y, ((V i).net.edge x y).isSome = true → m = x ∨ m = y → ∃ p ∈ c.v.net.new, SameN d p.1 p.2 x y)) (by
      intro i hi
      obtain ⟨hc, hcv⟩ := s3 i hi
      rw [hmsg2]
      by_cases e : i = r
      · rw [if_pos e]
        exact ⟨_, rfl, hc, fun _ => hcv, fun c => absurd e c⟩
      · rw [if_neg e]
        have e3 : Q3 i = Qi i := if_neg e
        rw [e3] at hc ⊢
        have hone : ∀ c', (w3 i).movedOne 0 (m, k) = some c' → ([(m, k)] : List (Nat × Nat)).foldlM (Cx.movedOne 0) (w3 i) = some c' := by
          intro c' hc'
          rw [List.foldlM_cons, hc']; rfl
        have hgv : (V3 i).gho = (V i).gho := by
          rw [V3' i e]
          show (if i = r then cr.v else if i = k then ck.v else V i).gho = _
          rw [if_neg e]
          split
          · rename_i e'; rw [hckv, e']
          · rfl
        by_cases e' : i = k
        · refine ⟨w3 i, hone _ (movedOne_none ?_), hc, fun _ => hcv, fun _ c => absurd e' c⟩
          rw [hcv, hgv, e']; exact can.gho
        · have hv := hV3 i hi e e'
          have hnet : (V3 i).net = (V i).net := by rw [hv]
          have hnn := (can.clean i hi).1
          cases hg : (V i).gho m with
          | none =>
            have hno : ∀ x y, ((V i).net.edge x y).isSome = true → ¬ (m = x ∨ m = y) := by
              intro x y hxy hor
              have := (h.one i hi).ends x y hxy
              have hm : (V i).net.has m = true := hor.elim (fun c => c ▸ this.1) (fun c => c ▸ this.2.1)
              rw [(h.one i hi).has, hlk i hi e, hg] at hm
              cases hm
            have hnew : (w3 i).v.net.new = [] := by rw [hcv, hnet]; exact hnn
            refine ⟨w3 i, hone _ (movedOne_none (by rw [hcv, hgv]; exact hg)), hc, fun c => absurd c (by simp [e, e']), fun _ _ => ⟨?_, ?_, ?_⟩⟩
            · rw [hnew, ← hnn, hcv]
              have : (fun x => if x = m then (none : Option (S × Nat)).map (fun g => (g.1, k)) else (V i).gho x) = (V3 i).gho := by
                funext x
                rw [hgv]
                split
                · rename_i e''; rw [e'', hg]; rfl
                · rfl
              rw [this, ← hnet]
            · rw [hnew]; simp
            · intro x y hxy hor; exact absurd hor (hno x y hxy)
          | some g =>
            obtain ⟨gs, gj⟩ := g
            obtain ⟨c', l, x1, x2, x3, x4, x5⟩ := hc.movedOne (m := m) (k := k) (s := gs) (j := gj)
              (by
                have : (w3 i).rank = i := by
                  have : (w3 i).v.rank = i := by rw [hcv, hv]; exact h.rank i hi
                  exact this
                rw [this]; exact Ne.symm e')
              (by rw [hcv, hgv]; exact hg) rfl (by rw [hcv, hnet]; exact hnn)
              (by rw [hcv, hnet]; exact can.used i hi (by rw [hg]; rfl))
              (by
                rw [hcv, hnet]
                intro x y hxy hor
                obtain ⟨p, hp, hs⟩ := can.wrote i hi e x y hxy hor
                rw [hnn] at hp
                exact ⟨p, hp.resolve_left (by simp), hs⟩)
            rw [hcv, hnet] at x3 x4 x5
            have hln : c'.v.net.new = l := by rw [x3]
            refine ⟨c', hone _ x1, x2, fun c => absurd c (by simp [e, e']), fun _ _ => ⟨?_, ?_, ?_⟩⟩
            · rw [hln, x3]
              have : (fun x => if x = m then some (gs, k) else (V3 i).gho x) = fun x => if x = m then (some (gs, gj)).map (fun g => (g.1, k)) else (V i).gho x := by
                funext x
                rw [hgv]; rfl
              rw [this]
            · rw [hln]; exact x4
            · rw [hln]; exact x5)
  let l : Nat → List (Nat × Nat) := fun i => (w4 i).v.net.new
  have hmid : ∀ i < n, (w4 i).v = V.mid r k m s hid drop l i := by
    intro i hi
    have := (p4 i hi).2.2
    by_cases e : i = r
    · have this := this.1 (.inl e)
      subst e
      rw [this, V3r, mid_r]
      show (if i = i then cr.v else _) = _
      rw [if_pos rfl, aview]
    · by_cases e' : i = k
      · have this := this.1 (.inr e')
        subst e'
        rw [this, V3' i e, mid_k e]
        have : V2 i = ck.v := by
          show (if i = r then cr.v else if i = i then ck.v else V i) = _
          rw [if_neg e, if_pos rfl]
        rw [this, hckv]
        refine congrArg (fun f => ({ V i with loc := fun x => if x = m then some s else (V i).loc x, net := { (V i).net with has := fun x => (V i).net.has x || decide (x = m) }, tag := f } : RV S A)) ?_
        funext x j
        show ((if x = m then _ else _) && _) = if x = m then _ else _
        by_cases ex : x = m
        · have hdm : drop m = false := by
            cases hd : drop m with
            | false => rfl
            | true => have := (adrop m hd).1; rw [hgm] at this; cases this
          rw [if_pos ex, if_pos ex, ex, hdm, aranks]
          simp
        · rw [if_neg ex, if_neg ex]
      · have this := this.2 e e'
        rw [mid_i e e', this.1, hV3 i hi e e']
  have ok : MidOk d n V r k m s drop l := {
    hr := hr
    hk := hk
    ne := hkr
    loc := hs
    gho := can.gho
    clean := can.clean
    syn := can.mine
    drop := fun x hx => ⟨(adrop x hx).1, (adrop x hx).2.2⟩
    dropReq := adropReq
    new := by
      intro i hi e e'
      have := (p4 i hi).2.2
      exact (this.2 e e').2.1
    all := by
      intro i hi e e'
      have := (p4 i hi).2.2
      exact (this.2 e e').2.2 }
  refine ⟨w4, s, hid, drop, l, M, ?_, ?_, ok, ⟨akept, akeptAll, akeptOnce, ahid⟩⟩
  · unfold moveStart
    simp only []
    rw [e1, Option.bind_some, e2, Option.bind_some, if_neg, eachPid_one (sim_count s2 (Nat.lt_of_le_of_lt (Nat.zero_le _) hr))]
    · unfold agentsMoved
      rw [e3, Option.bind_some, e4, Option.bind_some]
      have : each n (fun i => (sent (a[i]?.bind id)).foldlM (fun (c : Cx S A) u => c.deleteGhost u) (w4 i)) w4 = some w4 := by
        rw [← each_same (n := n) w4]
        unfold each
        have : (List.range n).map (fun i => (sent (a[i]?.bind id)).foldlM (fun (c : Cx S A) u => c.deleteGhost u) (w4 i)) = (List.range n).map fun i => some (w4 i) := by
          refine List.map_congr_left ?_
          intro i hi
          rw [hsent i (List.mem_range.1 hi)]; rfl
        rw [this]
      rw [this]
    · intro hall
      rw [List.all_eq_true] at hall
      have := hall r (List.mem_range.2 hr)
      unfold oneMove at this
      rw [if_pos rfl] at this
      cases this
  · intro i hi
    exact ⟨(p4 i hi).2.1, hmid i hi⟩

theorem mid_sim (h : SInv NoHid d n V) {mv : Nat → Prop} (hQ : ∀ i < n, (Q i).mv = mv ∧ (Q i).hid = (fun _ => false) ∧ (Q i).moved = [] ∧ (Q i).noLonger = [])
    {r k m : Nat} (can : CanMove d n V mv r k m) {w : World S A} (hw : Sim d Q n w V) :
    ∃ w' s hid drop l M, moveAgents n (oneMove r k m) w = ((eachPid (preSynchNet n) w').bind fun w => (updateGhosts n w).bind fun w => (eachPid (synchNet n) w).bind fun w => eachPid (postMoved n) w) ∧
      Sim d (midPend Q mv r m hid M) n w' (V.mid r k m s hid drop l) ∧ MidOk d n V r k m s drop l ∧ Kept d (V r) m hid M := by
  obtain ⟨w', s, hid, drop, l, M, e, rest⟩ := mid_start h hQ can hw
  exact ⟨w', s, hid, drop, l, M, by rw [moveAgents_eq, e]; rfl, rest⟩

end Repast.Network
