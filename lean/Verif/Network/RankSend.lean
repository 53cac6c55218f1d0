import Verif.Network.RankRecv

/-! What a rank sends when it is synchronized. Used for C43. -/
namespace Repast.Network
open Repast.Dict Repast.Context

variable {S A : Type} {d : Bool} {Q : Pend A}

/-- The agent of an edge that is local. -/
def RV.near (V : RV S A) (p : Nat × Nat) : Nat := if (V.loc p.1).isSome then p.1 else p.2

/-- The rank of the other agent. -/
def RV.far (V : RV S A) (p : Nat × Nat) : Nat := ((V.gho (if (V.loc p.1).isSome then p.2 else p.1)).map (·.2)).getD 0

theorem COk.gho_lrank {c : Cx S A} (h : COk d Q c) {o : Obj} (ho : o ∈ c.net.g.nodes) (hr : c.lrank o ≠ c.rank) : ∃ s, c.v.gho o.uid = some (s, c.lrank o) := by
  have hl : ¬ (c.v.loc o.uid).isSome = true := fun hl => hr ((h.local_iff ho).2 hl)
  have hh : c.v.net.has o.uid = true := (Network.has_iff h.net.uniq _).2 ⟨o, ho, rfl⟩
  rw [h.has_iff] at hh
  have hg : (c.v.gho o.uid).isSome = true := by simp [hl] at hh; exact hh.1
  obtain ⟨⟨s, k⟩, hg⟩ := Option.isSome_iff_exists.1 hg
  rw [h.owner ho hg]
  exact ⟨s, hg⟩

theorem COk.near_far {c : Cx S A} (h : COk d Q c) {k : EKey} (hk : k.1 ∈ c.net.g.nodes ∧ k.2 ∈ c.net.g.nodes) :
    (c.lrank k.1 = c.rank → c.lrank k.2 ≠ c.rank → c.v.near (uu k) = k.1.uid ∧ c.v.far (uu k) = c.lrank k.2) ∧
    (c.lrank k.1 ≠ c.rank → c.v.near (uu k) = k.2.uid ∧ c.v.far (uu k) = c.lrank k.1) := by
  constructor
  · intro h1 h2
    have hl : (c.v.loc k.1.uid).isSome = true := (h.local_iff hk.1).1 h1
    obtain ⟨s, hs⟩ := h.gho_lrank hk.2 h2
    unfold RV.near RV.far uu
    simp [hl, hs]
  · intro h1
    have hl : ¬ (c.v.loc k.1.uid).isSome = true := fun hh => h1 ((h.local_iff hk.1).2 hh)
    obtain ⟨s, hs⟩ := h.gho_lrank hk.1 h1
    unfold RV.near RV.far uu
    simp [hl, hs]

theorem COk.near_loc {c : Cx S A} (h : COk d Q c) {k : EKey} (hk : k.1 ∈ c.net.g.nodes ∧ k.2 ∈ c.net.g.nodes) (hc : Crosses c.rank c.lrank k) : (c.v.loc (c.v.near (uu k))).isSome = true := by
  rcases hc with ⟨h1, h2⟩ | ⟨h1, h2⟩
  · rw [((h.near_far hk).1 h1 h2).1]; exact (h.local_iff hk.1).1 h1
  · rw [((h.near_far hk).2 h1).1]; exact (h.local_iff hk.2).1 h2

/-! ### Removed edges -/

theorem COk.sendRemoved_fold {n : Nat} {c : Cx S A} (h : COk d Q c) (l : List (EKey × Bool)) : ∀ (c1 : Cx S A) (acc : List (Nat × Nat × Nat)),
    COk d Q c1 → c1.net = c.net → c1.lrank = c.lrank → (∀ e ∈ l, e ∈ c.net.toRemove) →
    (∀ p ∈ l.map (fun e => uu e.1), c.v.far p < n ∧ c1.v.tag (c.v.near p) (c.v.far p) = true ∧ ¬ Q.mv (c.v.near p)) →
    ((l.map (fun e => uu e.1)).map (fun p => (c.v.near p, c.v.far p))).Nodup →
    ∃ c2, l.foldlM (fun (acc : Cx S A × List (Nat × Nat × Nat)) e =>
        let gho := if e.2 then e.1.2 else e.1.1
        let loc := if e.2 then e.1.1 else e.1.2
        if c.lrank gho < n then (acc.1.untag (c.lrank gho) loc.uid).map fun c' => (c', acc.2 ++ [(c.lrank gho, e.1.1.uid, e.1.2.uid)]) else none) (c1, acc) =
          some (c2, acc ++ (l.map (fun e => uu e.1)).map (fun p => (c.v.far p, p.1, p.2))) ∧
      COk d Q c2 ∧ c2.net = c.net ∧ c2.lrank = c.lrank ∧
      c2.v = { c1.v with tag := fun x j => c1.v.tag x j && !((l.map (fun e => uu e.1)).any fun p => decide (x = c.v.near p ∧ j = c.v.far p)) } := by
  induction l with
  | nil =>
    intro c1 acc h1 hn hl _ _ _
    refine ⟨c1, by simp, h1, hn, hl, ?_⟩
    simp
  | cons e l ih =>
    intro c1 acc h1 hn hl hm hp hnd
    obtain ⟨r1, r2, r3, r4, -⟩ := h.net.rem e (hm e (by simp))
    have hp0 := hp (uu e.1) (by simp)
    have key : c.lrank (if e.2 then e.1.2 else e.1.1) = c.v.far (uu e.1) ∧ (if e.2 then e.1.1 else e.1.2).uid = c.v.near (uu e.1) := by
      rcases r3 with ⟨a1, a2⟩ | ⟨a1, a2⟩
      · have := (h.near_far ⟨r1, r2⟩).1 a1 a2
        rw [r4]; simp only [a2, ne_eq, not_false_eq_true, decide_true, if_true]
        exact ⟨this.2.symm, this.1.symm⟩
      · have := (h.near_far ⟨r1, r2⟩).2 a1
        rw [r4]; simp only [a2, ne_eq, not_true_eq_false, decide_false, Bool.false_eq_true, if_false]
        exact ⟨this.2.symm, this.1.symm⟩
    obtain ⟨c2, t1, t2, t3, t4, t5⟩ := h1.untag hp0.2.2 hp0.2.1
    simp only [List.map_cons, List.nodup_cons] at hnd
    obtain ⟨c3, s1, s2, s3, s4, s5⟩ := ih c2 (acc ++ [(c.v.far (uu e.1), e.1.1.uid, e.1.2.uid)]) t2 (t4.trans hn) (t5.trans hl) (fun e he => hm e (by simp [he])) (by
      intro p hpm
      have := hp p (by simp only [List.map_cons, List.mem_cons]; exact .inr hpm)
      refine ⟨this.1, ?_, this.2.2⟩
      rw [t3]
      simp only [this.2.1, Bool.true_and, Bool.not_eq_true', decide_eq_false_iff_not]
      rintro ⟨e1, e2⟩
      exact hnd.1 (List.mem_map.2 ⟨p, hpm, by rw [e1, e2]⟩)) hnd.2
    refine ⟨c3, ?_, s2, s3, s4, ?_⟩
    · rw [List.foldlM_cons]
      simp only [key.1, key.2, hp0.1, if_true, t1, Option.map_some]
      show Option.bind (some _) _ = _
      rw [Option.bind_some, s1]
      simp [uu]
    · rw [s5, t3]
      refine congrArg (fun t => ({ c1.v with tag := t } : RV S A)) ?_
      funext x j
      simp only [List.map_cons, List.any_cons, Bool.not_or, Bool.and_assoc]

theorem COk.sendRemoved {n : Nat} {c : Cx S A} (h : COk d Q c) (hp : ∀ p ∈ c.v.net.rem, c.v.far p < n ∧ c.v.tag (c.v.near p) (c.v.far p) = true ∧ ¬ Q.mv (c.v.near p))
    (hnd : (c.v.net.rem.map (fun p => (c.v.near p, c.v.far p))).Nodup) :
    ∃ c', c.sendRemoved n 0 = some (c', c.v.net.rem.map (fun p => (c.v.far p, p.1, p.2))) ∧ COk d Q c' ∧ c'.v = { c.v with
      tag := fun x j => c.v.tag x j && !(c.v.net.rem.any fun p => decide (x = c.v.near p ∧ j = c.v.far p))
      net := { c.v.net with rem := [] } } := by
  have hr : c.v.net.rem = c.net.toRemove.map (fun e => uu e.1) := by show (Assoc.keys _).map uu = _; simp [Assoc.keys]
  obtain ⟨c2, s1, s2, s3, s4, s5⟩ := h.sendRemoved_fold (n := n) c.net.toRemove c [] h rfl rfl (fun _ he => he) (by rw [← hr]; exact hp) (by rw [← hr]; exact hnd)
  rw [← hr] at s1 s5
  have hN : NetOk d Q c2.rank c2.lrank ({ c2.net with toRemove := [] } : Net A) := { s2.net with rem := by simp, remOk := List.nodup_nil }
  obtain ⟨q1, q2⟩ := s2.setNet hN (fun o => Iff.rfl)
  refine ⟨_, ?_, q1, ?_⟩
  · unfold Cx.sendRemoved
    rw [h.get0, Option.bind_some, s1, Option.bind_some, s2.withNet]
    simp
  · rw [q2, s5]
    have : ({ c2.net with toRemove := [] } : Net A).v = { c.net.v with rem := [] } := by rw [s3]; rfl
    rw [this]
    rfl

/-! ### New and updated edges -/

/-- The messages that are sent about agents. -/
def RV.sendAgents (V : RV S A) : List (Nat × Nat) → List (Nat × Nat × S)
  | [] => []
  | p :: l =>
    (match V.tag (V.near p) (V.far p), V.loc (V.near p) with
      | false, some s => [(V.far p, V.near p, s)]
      | _, _ => []) ++ RV.sendAgents { V with tag := fun x j => V.tag x j || decide (x = V.near p ∧ j = V.far p) } l

/-- The messages that are sent about edges. -/
def RV.sendEdges (V : RV S A) (l : List (Nat × Nat)) : List (Nat × Nat × Nat × Attr A) := l.map fun p => (V.far p, p.1, p.2, (V.net.edge p.1 p.2).getD [])

theorem entry_attr {r : Nat} {lr : Obj → Nat} {N : Net A} {e : EKey × GEdge} (he : Entry r lr N e) : N.g.attr e.1.1 e.1.2 = some (N.g.dict e.2.dict) := by
  unfold Graph.attr; rw [he.1]; rfl

theorem COk.entry {c : Cx S A} (h : COk d Q c) {e : EKey × GEdge} (he : Entry c.rank c.lrank c.net e) :
    c.lrank e.2.ghostA = c.v.far (uu e.1) ∧ e.2.localA.uid = c.v.near (uu e.1) ∧ c.v.net.edge e.1.1.uid e.1.2.uid = some (c.net.g.dict e.2.dict) ∧
      (c.v.loc (c.v.near (uu e.1))).isSome = true ∧ c.v.far (uu e.1) ≠ c.rank := by
  have hn := he.ends h.net.inv
  have ha := h.edge_attr hn.1 hn.2
  rw [entry_attr he] at ha
  rcases he.2 with ⟨a1, a2, a3, a4⟩ | ⟨a1, a2, a3, a4⟩
  · have := (h.near_far hn).1 a1 a2
    exact ⟨by rw [this.2, a4], by rw [this.1, a3], ha, h.near_loc hn (.inl ⟨a1, a2⟩), by rw [this.2]; exact a2⟩
  · have := (h.near_far hn).2 a1
    exact ⟨by rw [this.2, a4], by rw [this.1, a3], ha, h.near_loc hn (.inr ⟨a1, a2⟩), by rw [this.2]; exact a1⟩

theorem tag_self {V : RV S A} {u k : Nat} (h : V.tag u k = true) : ({ V with tag := fun x j => V.tag x j || decide (x = u ∧ j = k) } : RV S A) = V := by
  have : (fun x j => V.tag x j || decide (x = u ∧ j = k)) = V.tag := by
    funext x j
    by_cases e : x = u ∧ j = k
    · rw [e.1, e.2, h]; rfl
    · simp [e]
  rw [this]

theorem COk.sendNew {n : Nat} {c : Cx S A} (h : COk d Q c) {e : EKey × GEdge} (he : e ∈ c.net.newEdges) (hf : c.v.far (uu e.1) < n) (M : Sync S A) :
    ∃ c', Cx.sendNew n 0 (c, M) e = some (c', ⟨M.agents ++ c.v.sendAgents [uu e.1], M.edges ++ c.v.sendEdges [uu e.1]⟩) ∧ COk d Q c' ∧
      c'.v = { c.v with tag := fun x j => c.v.tag x j || decide (x = c.v.near (uu e.1) ∧ j = c.v.far (uu e.1)), net := { c.v.net with syn := ins c.v.net.syn (uu e.1) } } ∧
      c'.net = { c.net with ghosted := Assoc.set c.net.ghosted e.1 e.2 } ∧ c'.lrank = c.lrank := by
  have hE := h.net.new e he
  obtain ⟨e1, e2, e3, e4, -⟩ := h.entry hE
  have hn := hE.ends h.net.inv
  have hin : e.1 ∈ Assoc.keys c.net.newEdges := List.mem_map_of_mem he
  have hset : ∀ k, k ∈ Assoc.keys (Assoc.set c.net.ghosted e.1 e.2) ↔ k ∈ Assoc.keys c.net.ghosted ∨ k = e.1 := by
    intro k; rw [Assoc.keys_set]; split <;> simp_all
  have hN : NetOk d Q c.rank c.lrank ({ c.net with ghosted := Assoc.set c.net.ghosted e.1 e.2 } : Net A) := { h.net with
    new := h.net.new
    syn := by
      intro e' he'
      have : Entry c.rank c.lrank c.net e' := by
        rcases Assoc.mem_set he' with rfl | h' | h'
        · exact hE
        · exact h.net.syn e' h'.1
        · exact h.net.syn e' h'
      exact this
    synOk := h.net.synOk.set _ _
    upd := by
      intro k hk
      exact (h.net.upd k hk).imp id (fun hh => (hset k).2 (.inl hh))
    rem := h.net.rem
    canon := by
      intro k hk key hkey
      have hk' : k ∈ Assoc.keys c.net.newEdges ∨ k ∈ Assoc.keys c.net.ghosted := by
        rcases hk with hk | hk
        · exact .inl hk
        · rcases (hset k).1 hk with hk | hk
          · exact .inr hk
          · rw [hk]; exact .inl hin
      exact (h.net.canon k hk' key hkey).imp id (fun hh => (hset key).2 (.inl hh)) }
  obtain ⟨q1, q2⟩ := h.setNet hN (fun o => Iff.rfl)
  have hNv : ({ c.net with ghosted := Assoc.set c.net.ghosted e.1 e.2 } : Net A).v = { c.net.v with syn := ins c.net.v.syn (uu e.1) } := by
    unfold Net.v
    rw [set_uu h.net.uniq (fun k hk => h.net.keyEnds (.inr hk)) hn]
    rfl
  have hq2 : ({ c with nets := [{ c.net with ghosted := Assoc.set c.net.ghosted e.1 e.2 }] } : Cx S A).v = { c.v with net := { c.v.net with syn := ins c.v.net.syn (uu e.1) } } := by
    rw [q2, hNv]; rfl
  obtain ⟨s, hs⟩ := Option.isSome_iff_exists.1 e4
  unfold Cx.sendNew
  simp only [e1, hf, if_true, h.get0, Option.bind_some, h.withNet, Option.map_some]
  simp only [e2]
  have hdict : c.net.g.dict e.2.dict = (c.v.net.edge (uu e.1).1 (uu e.1).2).getD [] := by
    show _ = (c.v.net.edge e.1.1.uid e.1.2.uid).getD []
    rw [e3]; rfl
  rw [hdict]
  by_cases ht : c.v.tag (c.v.near (uu e.1)) (c.v.far (uu e.1)) = true
  · have ht' : ({ c with nets := [{ c.net with ghosted := Assoc.set c.net.ghosted e.1 e.2 }] } : Cx S A).ghostedTo (c.v.far (uu e.1)) (c.v.near (uu e.1)) = true := ht
    refine ⟨_, ?_, q1, ?_, rfl, rfl⟩
    · rw [if_pos ht']
      simp [RV.sendAgents, RV.sendEdges, ht]; simp [uu]
    · rw [hq2]
      have := congrArg (fun (V : RV S A) => ({ V with net := { c.v.net with syn := ins c.v.net.syn (uu e.1) } } : RV S A)) (tag_self ht)
      exact this.symm
  · have ht0 : c.v.tag (c.v.near (uu e.1)) (c.v.far (uu e.1)) = false := by simpa using ht
    have ht' : ({ c with nets := [{ c.net with ghosted := Assoc.set c.net.ghosted e.1 e.2 }] } : Cx S A).ghostedTo (c.v.far (uu e.1)) (c.v.near (uu e.1)) = false := ht0
    obtain ⟨c2, t1, t2, t3, t4, t5⟩ := q1.tag (u := c.v.near (uu e.1)) (k := c.v.far (uu e.1)) (by rw [hq2]; exact e4) ht'
    obtain ⟨o, ho, ho2⟩ := Option.map_eq_some_iff.1 hs
    refine ⟨c2, ?_, t2, ?_, t4, t5⟩
    · rw [if_neg (by rw [ht']; simp)]
      have ho' : get ({ c with nets := [{ c.net with ghosted := Assoc.set c.net.ghosted e.1 e.2 }] } : Cx S A).locals (c.v.near (uu e.1)) = some o := ho
      rw [ho', Option.bind_some, t1]
      simp [RV.sendAgents, RV.sendEdges, ht0, hs, ho2]; simp [uu]
    · rw [t3, hq2]

theorem sendAgents_cons (V : RV S A) (p : Nat × Nat) (l : List (Nat × Nat)) : V.sendAgents (p :: l) = V.sendAgents [p] ++
    RV.sendAgents { V with tag := fun x j => V.tag x j || decide (x = V.near p ∧ j = V.far p) } l := by
  simp [RV.sendAgents]

theorem sendAgents_congr (V : RV S A) (N : NV A) (l : List (Nat × Nat)) : ∀ T, RV.sendAgents { V with tag := T, net := N } l = RV.sendAgents { V with tag := T } l := by
  induction l with
  | nil => intro T; rfl
  | cons p l ih =>
    intro T
    unfold RV.sendAgents
    have := ih (fun x j => T x j || decide (x = V.near p ∧ j = V.far p))
    exact congrArg _ this

theorem COk.sendNew_fold {n : Nat} (l : List (EKey × GEdge)) : ∀ (c : Cx S A) (M : Sync S A), COk d Q c → (∀ e ∈ l, e ∈ c.net.newEdges) →
    (∀ p ∈ l.map (fun e => uu e.1), c.v.far p < n) →
    ∃ c', l.foldlM (Cx.sendNew n 0) (c, M) = some (c', ⟨M.agents ++ c.v.sendAgents (l.map fun e => uu e.1), M.edges ++ c.v.sendEdges (l.map fun e => uu e.1)⟩) ∧ COk d Q c' ∧
      c'.v = { c.v with tag := fun x j => c.v.tag x j || ((l.map fun e => uu e.1).any fun p => decide (x = c.v.near p ∧ j = c.v.far p)),
                        net := { c.v.net with syn := (l.map fun e => uu e.1).foldl ins c.v.net.syn } } ∧
      c'.net.newEdges = c.net.newEdges ∧ c'.net.toUpdate = c.net.toUpdate ∧ (∀ k, k ∈ Assoc.keys c'.net.ghosted ↔ k ∈ Assoc.keys c.net.ghosted ∨ k ∈ l.map (·.1)) := by
  induction l with
  | nil =>
    intro c M h _ _
    refine ⟨c, by simp [RV.sendAgents, RV.sendEdges], h, ?_, rfl, rfl, by simp⟩
    simp
  | cons e l ih =>
    intro c M h hl hf
    obtain ⟨c1, s1, s2, s3, s4, s5⟩ := h.sendNew (hl e (by simp)) (hf _ (by simp)) M
    have hfar : ∀ p, c1.v.far p = c.v.far p := by intro p; rw [s3]; rfl
    have hnear : ∀ p, c1.v.near p = c.v.near p := by intro p; rw [s3]; rfl
    obtain ⟨c2, t1, t2, t3, t4, t5, t6⟩ := ih c1 ⟨M.agents ++ c.v.sendAgents [uu e.1], M.edges ++ c.v.sendEdges [uu e.1]⟩ s2
      (fun e' he' => by rw [s4]; exact hl e' (by simp [he'])) (by intro p hp; rw [hfar]; exact hf p (by simp only [List.map_cons, List.mem_cons]; exact .inr hp))
    have hA : c1.v.sendAgents (l.map fun e => uu e.1) =
        RV.sendAgents { c.v with tag := fun x j => c.v.tag x j || decide (x = c.v.near (uu e.1) ∧ j = c.v.far (uu e.1)) } (l.map fun e => uu e.1) := by
      rw [s3]; exact sendAgents_congr c.v _ _ _
    have hE : c1.v.sendEdges (l.map fun e => uu e.1) = c.v.sendEdges (l.map fun e => uu e.1) := by rw [s3]; rfl
    refine ⟨c2, ?_, t2, ?_, by rw [t4, s4], by rw [t5, s4], ?_⟩
    · rw [List.foldlM_cons, s1]
      show Option.bind (some _) _ = _
      rw [Option.bind_some, t1, hA, hE, List.map_cons, sendAgents_cons c.v (uu e.1) (l.map fun e => uu e.1)]
      simp only [List.append_assoc]
      rfl
    · rw [t3]
      simp only [hfar, hnear]
      rw [s3]
      refine congrArg (fun t => ({ c.v with tag := t, net := { c.v.net with syn := ((l.map fun e => uu e.1).foldl ins (ins c.v.net.syn (uu e.1))) } } : RV S A)) ?_
      funext x j
      simp only [List.map_cons, List.any_cons, Bool.or_assoc]
    · intro k
      rw [t6, s4]
      simp only []
      rw [Assoc.keys_set]
      split
      · rename_i hin
        simp only [List.map_cons, List.mem_cons]
        constructor
        · rintro (h | h) <;> simp [h]
        · rintro (h | rfl | h) <;> simp_all
      · simp only [List.mem_append, List.map_cons, List.mem_cons, List.not_mem_nil, or_false]
        grind

theorem COk.sendUpdated_fold {n : Nat} {c : Cx S A} (h : COk d Q c) (l : List EKey) : ∀ (M : Sync S A), (∀ k ∈ l, k ∈ Assoc.keys c.net.ghosted) →
    (∀ p ∈ l.map uu, c.v.far p < n) →
    l.foldlM (Cx.sendUpdated n 0) (c, M) = some (c, ⟨M.agents, M.edges ++ c.v.sendEdges (l.map uu)⟩) := by
  induction l with
  | nil => intro M _ _; simp [RV.sendEdges]
  | cons k l ih =>
    intro M hl hf
    obtain ⟨e, he⟩ := Option.isSome_iff_exists.1 ((Assoc.get_isSome c.net.ghosted k).2 (hl k (by simp)))
    have hE := h.net.syn _ (Assoc.mem_of_get he)
    obtain ⟨e1, e2, e3, e4, -⟩ := h.entry hE
    rw [List.foldlM_cons]
    have : Cx.sendUpdated n 0 (c, M) k = some (c, ⟨M.agents, M.edges ++ c.v.sendEdges [uu k]⟩) := by
      unfold Cx.sendUpdated
      simp only [h.get0, Option.bind_some, he]
      simp only at e1 e3
      rw [e1, if_pos (hf (uu k) (by simp))]
      simp [RV.sendEdges, uu, e3]
    rw [this]
    show Option.bind (some _) _ = _
    rw [Option.bind_some, ih _ (fun k' hk' => hl k' (by simp [hk'])) (by intro p hp; exact hf p (by simp only [List.map_cons, List.mem_cons]; exact .inr hp))]
    simp [RV.sendEdges]

theorem COk.sendSync {n : Nat} {c : Cx S A} (h : COk d Q c) (hf : ∀ p, p ∈ c.v.net.new ∨ p ∈ c.v.net.upd → c.v.far p < n) :
    ∃ c', c.sendSync n 0 = some (c', ⟨c.v.sendAgents c.v.net.new, c.v.sendEdges c.v.net.new ++ c.v.sendEdges c.v.net.upd⟩) ∧ COk d Q c' ∧ c'.v = { c.v with
      tag := fun x j => c.v.tag x j || (c.v.net.new.any fun p => decide (x = c.v.near p ∧ j = c.v.far p))
      net := { c.v.net with new := [], upd := [], syn := c.v.net.new.foldl ins c.v.net.syn } } := by
  have hr : c.v.net.new = c.net.newEdges.map (fun e => uu e.1) := by show (Assoc.keys _).map uu = _; simp [Assoc.keys]
  obtain ⟨c1, s1, s2, s3, s4, s5, s6⟩ := COk.sendNew_fold (n := n) c.net.newEdges c ⟨[], []⟩ h (fun e he => he) (by rw [← hr]; exact fun p hp => hf p (.inl hp))
  rw [← hr] at s1 s3
  have hfar : ∀ p, c1.v.far p = c.v.far p := by intro p; rw [s3]; rfl
  have hkeys : ∀ k, k ∈ Assoc.keys c1.net.ghosted ↔ k ∈ Assoc.keys c.net.newEdges ∨ k ∈ Assoc.keys c.net.ghosted := by
    intro k; rw [s6, Or.comm]; rfl
  have hU := s2.sendUpdated_fold (n := n) c.net.toUpdate ⟨c.v.sendAgents c.v.net.new, c.v.sendEdges c.v.net.new⟩ (fun k hk => (hkeys k).2 (h.net.upd k hk)) (by
    intro p hp; rw [hfar]; exact hf p (.inr hp))
  have hE : c1.v.sendEdges (c.net.toUpdate.map uu) = c.v.sendEdges c.v.net.upd := by rw [s3]; rfl
  rw [hE] at hU
  have hN : NetOk d Q c1.rank c1.lrank ({ c1.net with newEdges := [], toUpdate := [] } : Net A) := { s2.net with
    new := by simp
    newOk := List.nodup_nil
    syn := s2.net.syn
    upd := by simp
    rem := s2.net.rem
    canon := by
      intro k hk key hkey
      have hk' : k ∈ Assoc.keys c1.net.ghosted := hk.resolve_left (by simp [Assoc.keys])
      have := s2.net.canon k (.inr hk') key hkey
      refine .inr ?_
      show key ∈ Assoc.keys c1.net.ghosted
      rcases this with hh | hh
      · rw [s4] at hh; exact (hkeys key).2 (.inl hh)
      · exact hh }
  obtain ⟨q1, q2⟩ := s2.setNet hN (fun o => Iff.rfl)
  refine ⟨_, ?_, q1, ?_⟩
  · unfold Cx.sendSync
    rw [h.get0, Option.bind_some, s1]
    simp only [List.nil_append, Option.bind_some, hU]
    rw [s2.withNet]
    rfl
  · rw [q2]
    have : ({ c1.net with newEdges := [], toUpdate := [] } : Net A).v = { c1.v.net with new := [], upd := [] } := rfl
    rw [this, s3]

/-! ### States -/

theorem COk.sendStates {n : Nat} {c : Cx S A} (h : COk d Q c) (hn : ∀ u k, c.v.tag u k = true → k < n) :
    ∃ l, c.sendStates n = some (c, l) ∧ ∀ k u s, (k, u, s) ∈ l ↔ c.v.tag u k = true ∧ c.v.loc u = some s := by
  have hmem : ∀ k u, (k, u) ∈ (c.ghosted.flatMap fun e => (Dict.keys e.2).map fun k => (k, e.1)) ↔ c.v.tag u k = true := by
    intro k u
    rw [v_tag]
    simp only [List.mem_flatMap, List.mem_map, Prod.mk.injEq]
    constructor
    · rintro ⟨⟨u', m⟩, he, k', hk', rfl, rfl⟩
      rw [get_of_mem h.tagOk he]
      exact (get_isSome _ _).2 hk'
    · intro hh
      obtain ⟨i, hi⟩ := Option.isSome_iff_exists.1 hh
      obtain ⟨m, hm, hk⟩ := Option.bind_eq_some_iff.1 hi
      exact ⟨(u, m), mem_of_get hm, k, (get_isSome _ _).1 (by rw [hk]; rfl), rfl, rfl⟩
  unfold Cx.sendStates
  simp only []
  rw [if_pos (by
    rw [List.all_eq_true]
    rintro ⟨k, u⟩ hm
    simpa using hn u k ((hmem k u).1 hm))]
  have hloc : ∀ k u, c.v.tag u k = true → (get c.locals u).isSome = true := by
    intro k u ht
    rw [v_tag] at ht
    obtain ⟨i, hi⟩ := Option.isSome_iff_exists.1 ht
    obtain ⟨m, hm, -⟩ := Option.bind_eq_some_iff.1 hi
    exact (h.tags u m hm).1
  obtain ⟨l', hl', hm'⟩ := mapM_some (f := fun m : Nat × Nat => (get c.locals m.2).map fun o => (m.1, m.2, o.2))
      (c.ghosted.flatMap fun e => (Dict.keys e.2).map fun k => (k, e.1)) (by
    rintro ⟨k, u⟩ hm
    have := hloc k u ((hmem k u).1 hm)
    simpa using this)
  refine ⟨l', by rw [hl']; rfl, ?_⟩
  intro k u s
  rw [hm']
  constructor
  · rintro ⟨⟨k', u'⟩, hm, he⟩
    obtain ⟨o, ho, he⟩ := Option.map_eq_some_iff.1 he
    simp only [Prod.mk.injEq] at he
    obtain ⟨rfl, rfl, rfl⟩ := he
    exact ⟨(hmem _ _).1 hm, by show (get c.locals u').map _ = _; simp only at ho; rw [ho]; rfl⟩
  · rintro ⟨ht, hl⟩
    obtain ⟨o, ho, rfl⟩ := Option.map_eq_some_iff.1 hl
    exact ⟨(k, u), (hmem k u).2 ht, by simp [ho]⟩

theorem COk.sendRemovedAgents {c : Cx S A} (h : COk d Q c) (n : Nat) : c.sendRemovedAgents n = some (c, []) := by
  unfold Cx.sendRemovedAgents
  have : ({ c with removed := [] } : Cx S A) = c := by
    have := h.removed
    cases c; simp_all
  simp [h.removed, this]

/-- The reference count of the ghost of an agent that was moved changes. -/
theorem COk.refGhost {c : Cx S A} (h : COk d Q c) {u : Nat} (hu : Q.mv u) (i : Int) : COk d Q (c.refGhost u i) ∧ (c.refGhost u i).v = c.v ∧ (c.refGhost u i).net = c.net ∧ (c.refGhost u i).lrank = c.lrank ∧
    (c.refGhost u i).rank = c.rank ∧ ∀ x, (get (c.refGhost u i).ghosts x).isSome = (get c.ghosts x).isSome := by
  unfold Cx.refGhost
  rcases Option.eq_none_or_eq_some (get c.ghosts u) with hg | ⟨g, hg⟩
  · rw [hg]; exact ⟨h, rfl, rfl, rfl, rfl, fun _ => rfl⟩
  · rw [hg]
    have hgh : ∀ x, get (set c.ghosts u { g with ref := g.ref + i }) x = if u = x then some { g with ref := g.ref + i } else get c.ghosts x := fun x => get_set ..
    have hfind : ∀ x, ({ c with ghosts := set c.ghosts u { g with ref := g.ref + i } } : Cx S A).find x = c.find x := by
      intro x
      show ((get c.locals x).map (·.1)).or ((get (set c.ghosts u { g with ref := g.ref + i }) x).map (·.obj)) = _
      rw [hgh]
      split
      · rename_i e; subst e; unfold Cx.find; rw [hg]; rfl
      · rfl
    refine ⟨?_, ?_, rfl, rfl, rfl, ?_⟩
    · exact { h with
        net := h.net
        gho := by
          intro x g' hx
          rw [hgh] at hx
          split at hx
          · rename_i e
            simp only [Option.some.injEq] at hx
            subst e hx
            have := h.gho u g hg
            exact ⟨this.1, this.2.1, fun hh => absurd hu hh, this.2.2.2⟩
          · exact h.gho x g' hx
        hid := by
          intro x hx
          rw [hgh]; split
          · rfl
          · exact h.hid x hx
        ghoFresh := by
          intro x g' hx
          rw [hgh] at hx
          split at hx
          · simp only [Option.some.injEq] at hx
            subst hx
            exact h.ghoFresh u g hg
          · exact h.ghoFresh x g' hx
        nodes := by intro o; rw [hfind]; exact h.nodes o
        fresh := h.fresh
        nets := h.nets }
    · unfold Cx.v
      congr 1
      funext x
      show (get (set c.ghosts u { g with ref := g.ref + i }) x).map _ = _
      rw [hgh]
      by_cases e : u = x
      · subst e; rw [if_pos rfl, hg]; rfl
      · rw [if_neg e]
    · intro x
      show (get (set c.ghosts u { g with ref := g.ref + i }) x).isSome = _
      rw [hgh]
      by_cases e : u = x
      · subst e; rw [if_pos rfl, hg]; rfl
      · rw [if_neg e]

theorem COk.sendRefs_fold {n : Nat} {c : Cx S A} (hn : ∀ u s k, c.v.gho u = some (s, k) → k < n) (l : List Obj) : ∀ (c1 : Cx S A) (acc : List (Nat × Nat)),
    COk d Q c1 → c1.v = c.v → c1.net = c.net → c1.lrank = c.lrank → (∀ o ∈ l, o ∈ Q.toRef) → (∀ m ∈ acc, Q.mv m.2 ∧ ∃ s, c.v.gho m.2 = some (s, m.1)) →
    ∃ c2 acc', l.foldlM (Cx.refOne n 0) (c1, acc) = some (c2, acc') ∧ COk d Q c2 ∧ c2.v = c.v ∧ ∀ m ∈ acc', Q.mv m.2 ∧ ∃ s, c.v.gho m.2 = some (s, m.1) := by
  induction l with
  | nil =>
    intro c1 acc h1 h2 _ _ _ h4
    exact ⟨c1, acc, rfl, h1, h2, h4⟩
  | cons o l ih =>
    intro c1 acc h1 h2 h2n h2l h3 h4
    have ho := h1.toRef o (h3 o (by simp))
    rw [List.foldlM_cons]
    have hstep : ∃ c2 acc', Cx.refOne n 0 (c1, acc) o = some (c2, acc') ∧ COk d Q c2 ∧ c2.v = c.v ∧ c2.net = c.net ∧ c2.lrank = c.lrank ∧ ∀ m ∈ acc', Q.mv m.2 ∧ ∃ s, c.v.gho m.2 = some (s, m.1) := by
      unfold Cx.refOne
      simp only [h1.get0, Option.bind_some]
      split
      · rename_i hm
        obtain ⟨s, hs⟩ := h1.gho_lrank hm ho.2.1
        have hs' : (get c1.ghosts o.uid).isSome = true := by
          have : ((get c1.ghosts o.uid).map fun g => (g.st, c1.lrank g.obj)) = some (s, c1.lrank o) := hs
          cases hg : get c1.ghosts o.uid with
          | none => rw [hg] at this; cases this
          | some g => rfl
        obtain ⟨g, hg⟩ := Option.isSome_iff_exists.1 hs'
        obtain ⟨r1, r2, r3, r4, -⟩ := h1.refGhost ho.1 1
        rw [h2] at hs
        rw [hg]
        simp only [Option.bind_some, hn _ _ _ hs, if_true]
        refine ⟨_, _, rfl, r1, r2.trans h2, r3.trans h2n, r4.trans h2l, ?_⟩
        intro m hm
        rcases List.mem_append.1 hm with hm | hm
        · exact h4 m hm
        · simp only [List.mem_singleton] at hm
          subst hm
          exact ⟨ho.1, s, hs⟩
      · exact ⟨c1, acc, rfl, h1, h2, h2n, h2l, h4⟩
    obtain ⟨c2, acc', e, k1, k2, k3, k4, k5⟩ := hstep
    rw [e]
    exact ih c2 acc' k1 k2 k3 k4 (fun o ho => h3 o (by simp [ho])) k5

theorem COk.sendRefs {c : Cx S A} (h : COk d Q c) {n : Nat} (hn : ∀ u s k, c.v.gho u = some (s, k) → k < n) :
    ∃ c' l, c.sendRefs n 0 = some (c', l) ∧ COk d { Q with toRef := [] } c' ∧ c'.v = c.v ∧ ∀ m ∈ l, Q.mv m.2 ∧ ∃ s, c.v.gho m.2 = some (s, m.1) := by
  obtain ⟨c2, l, e, h1, h2, h3⟩ := COk.sendRefs_fold (Q := Q) hn Q.toRef c [] h rfl rfl rfl (fun _ ho => ho) (by simp)
  have hN : NetOk d { Q with toRef := [] } c2.rank c2.lrank ({ c2.net with toRef := [] } : Net A) := { h1.net with toRef := rfl }
  refine ⟨{ c2 with nets := [{ c2.net with toRef := [] }] }, l, ?_, ?_, h2, h3⟩
  · unfold Cx.sendRefs
    rw [h.get0, Option.bind_some, h.net.toRef, e, Option.bind_some, h1.withNet]
    rfl
  · exact { h1 with
      nets := rfl
      net := hN
      nodes := h1.nodes
      fresh := h1.fresh
      toRef := by simp }

/-- An agent that was moved is tagged once more. -/
theorem COk.retag {c : Cx S A} (h : COk d Q c) {u k : Nat} (hu : Q.mv u) (ht : c.v.tag u k = true) : ∃ c', c.tag k u = some c' ∧ COk d Q c' ∧ c'.v = c.v := by
  rw [v_tag] at ht
  obtain ⟨i, hi⟩ := Option.isSome_iff_exists.1 ht
  obtain ⟨m, hm, hk⟩ := Option.bind_eq_some_iff.1 hi
  have h1 := h.tags u m hm
  refine ⟨{ c with ghosted := set c.ghosted u (set m k (i + 1)) }, by simp [Cx.tag, hm, hk], h.setGhostedField (h.tagOk.set _ _) ?_, ?_⟩
  · intro x m' hx
    rw [get_set] at hx
    split at hx
    · rename_i e
      simp only [Option.some.injEq] at hx
      subst e hx
      exact ⟨h1.1, h1.2.1.set _ _, fun _ _ _ hh => absurd hu hh⟩
    · exact h.tags x m' hx
  · rw [v_setGhostedField]
    refine congrArg (fun t => ({ c.v with tag := t } : RV S A)) ?_
    funext x j
    show _ = c.v.tag x j
    rw [v_tag, get_set]
    by_cases e : u = x
    · subst e
      rw [if_pos rfl, hm]
      simp only [get_set, Option.bind_some]
      by_cases e2 : k = j
      · subst e2; rw [if_pos rfl, hk]; rfl
      · rw [if_neg e2]
    · rw [if_neg e]
      cases get c.ghosted x <;> rfl

/-! ### Requests -/

theorem COk.netsAdd_ghost {c : Cx S A} (h : COk d Q c) {u : Nat} {g : Gh S} (hv : Q.hid u = false) (hg : get c.ghosts u = some g) : c.netsAdd g.obj = c := by
  unfold Cx.netsAdd
  have : c.nets.map (fun N => N.add g.obj) = c.nets := by
    rw [h.nets]
    simp only [List.map_cons, List.map_nil]
    rw [add_old (h.ghost_node hv hg)]
  rw [this]

theorem COk.sendRequest {n : Nat} {c : Cx S A} (h : COk d Q c) (q : Nat × Nat) (acc : List (Nat × Nat)) (hv : Q.hid q.1 = false) (hq : c.v.gho q.1 = none → q.2 < n) :
    ∃ c', Cx.sendRequest n (c, acc) q = some (c', acc ++ (if (c.v.gho q.1).isSome then [] else [(q.2, q.1)])) ∧ COk d Q c' ∧
      c'.v = { c.v with req := fun x => c.v.req x || (decide (x = q.1) && (c.v.gho x).isSome) } := by
  unfold Cx.sendRequest
  rcases Option.eq_none_or_eq_some (get c.ghosts q.1) with hg | ⟨g, hg⟩
  · have hg' : c.v.gho q.1 = none := by show (get c.ghosts q.1).map _ = none; rw [hg]; rfl
    rw [hg]
    refine ⟨c, by simp [hq hg', hg'], h, ?_⟩
    have : (fun x => c.v.req x || (decide (x = q.1) && (c.v.gho x).isSome)) = c.v.req := by
      funext x
      by_cases e : x = q.1
      · subst e; simp [hg']
      · simp [e]
    rw [this]
  · have hg' : (c.v.gho q.1).isSome = true := by show ((get c.ghosts q.1).map _).isSome = _; rw [hg]; rfl
    obtain ⟨h1, h2⟩ := h.addReq q.1
    rw [hg]
    have : get (c.addReq q.1).ghosts q.1 = some g := by
      unfold Cx.addReq; split <;> exact hg
    refine ⟨c.addReq q.1, ?_, h1, ?_⟩
    · simp only [h1.netsAdd_ghost hv this, hg', if_true, List.append_nil]
    · rw [h2]
      refine congrArg (fun t => ({ c.v with req := t } : RV S A)) ?_
      funext x
      by_cases e : x = q.1
      · subst e; simp [hg']
      · simp [e]

theorem COk.answer {c : Cx S A} (h : COk d Q c) {u k : Nat} {s : S} (hl : c.v.loc u = some s) (ht : c.v.tag u k = false) (acc : List (Nat × Nat × S)) :
    ∃ c', Cx.answer (c, acc) (k, u) = some (c', acc ++ [(k, u, s)]) ∧ COk d Q c' ∧ c'.v = { c.v with tag := fun x j => c.v.tag x j || decide (x = u ∧ j = k) } := by
  obtain ⟨c', h1, h2, h3, -, -⟩ := h.tag (by rw [hl]; rfl) ht
  refine ⟨c', ?_, h2, h3⟩
  unfold Cx.answer
  simp only [h1, Option.bind_some]
  have : c'.v.loc u = some s := by rw [h3]; exact hl
  obtain ⟨o, ho, rfl⟩ := Option.map_eq_some_iff.1 this
  rw [ho]; rfl

end Repast.Network
