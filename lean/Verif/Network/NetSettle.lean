import Verif.Network.NetMove
import Verif.Network.NetProps
import Verif.Network.RankReadd

/-! `synchronize` without removed edges; the edges of a moved agent are copied to its new rank. Used for C54. -/
namespace Repast.Network
open Repast.Dict Repast.Context

variable {S A : Type} {H : Hid} {d : Bool} {n : Nat} {V : Sp S A} {Q : Nat → Pend A}

theorem states_near (r : Nat) (p : Nat × Nat) : (V.states r).near p = (V r).near p := rfl

/-- If no edges were removed. -/
theorem removals_none (hrem : ∀ r < n, (V r).net.rem = []) {k : Nat} (hk : k < n) : V.removals d n k = V k := by
  have hin : V.remIn n k = [] := by
    cases hh : V.remIn n k with
    | nil => rfl
    | cons m l =>
      have : m ∈ V.remIn n k := by rw [hh]; exact List.mem_cons_self
      obtain ⟨h1, h2, -⟩ := mem_remIn.1 this
      rw [hrem m.1 h1] at h2; cases h2
  unfold Sp.removals
  simp only [hin, hrem k hk, List.any_nil, Bool.not_false, Bool.and_true, Bool.and_false, Bool.false_eq_true, if_false]
  rw [← hrem k hk]

theorem copies_congr {V V' : Sp S A} (h : ∀ k < n, V k = V' k) {k : Nat} (hk : k < n) : V.copies d n k = V'.copies d n k := by
  have e1 : V.agentsIn n k = V'.agentsIn n k := recv_congr (fun r hr => by rw [h r hr]) k
  have e2 : V.edgesIn n k = V'.edgesIn n k := recv_congr (fun r hr => by rw [h r hr]) k
  unfold Sp.copies
  rw [e1, e2, h k hk]

theorem synch_quiet (hrem : ∀ r < n, (V r).net.rem = []) {k : Nat} (hk : k < n) : sstep d n V (.synch true) k = V.states.copies d n k :=
  copies_congr (V := V.states.removals d n) (V' := V.states) (fun _ hk => removals_none (V := V.states) hrem hk) hk

/-- A rank that nothing is sent to. -/
theorem copies_out {k : Nat} (hout : ∀ r < n, ∀ p, p ∈ (V r).net.new ∨ p ∈ (V r).net.upd → (V r).far p ≠ k) : V.copies d n k =
    { V k with
      tag := fun u j => (V k).tag u j || ((V k).net.new.any fun p => decide (u = (V k).near p ∧ j = (V k).far p))
      net := { (V k).net with new := [], upd := [], syn := (V k).net.new.foldl ins (V k).net.syn } } := by
  have e1 : V.agentsIn n k = [] := by
    cases hh : V.agentsIn n k with
    | nil => rfl
    | cons m l =>
      have : m ∈ V.agentsIn n k := by rw [hh]; exact List.mem_cons_self
      obtain ⟨h1, p, h2, h3, -⟩ := mem_agentsIn.1 this
      exact absurd h3 (hout m.1 h1 p (.inl h2))
  have e2 : V.edgesIn n k = [] := by
    cases hh : V.edgesIn n k with
    | nil => rfl
    | cons m l =>
      have : m ∈ V.edgesIn n k := by rw [hh]; exact List.mem_cons_self
      obtain ⟨h1, h2, h3, -⟩ := mem_edgesIn.1 this
      exact absurd h3 (hout m.1 h1 _ h2)
  unfold Sp.copies
  simp only [e1, e2, List.find?_nil, List.any_nil, Bool.or_false]

theorem synch_out (hrem : ∀ r < n, (V r).net.rem = []) {k : Nat} (hk : k < n) (hout : ∀ r < n, ∀ p, p ∈ (V r).net.new ∨ p ∈ (V r).net.upd → (V r).far p ≠ k) :
    (sstep d n V (.synch true) k).net.edge = (V k).net.edge ∧ (sstep d n V (.synch true) k).net.has = (V k).net.has ∧ (sstep d n V (.synch true) k).gho = (V.states k).gho := by
  rw [synch_quiet hrem hk, copies_out (V := V.states) (fun r hr p hp => by rw [states_far]; exact hout r hr p hp)]
  exact ⟨rfl, rfl, rfl⟩

theorem synch_lists (hrem : ∀ r < n, (V r).net.rem = []) {k : Nat} (hk : k < n) : (sstep d n V (.synch true) k).net.new = [] ∧ (sstep d n V (.synch true) k).net.upd = [] ∧
    (sstep d n V (.synch true) k).net.rem = [] ∧ (sstep d n V (.synch true) k).net.syn = (V k).net.new.foldl ins (V k).net.syn ∧ (sstep d n V (.synch true) k).req = (V k).req := by
  rw [synch_quiet hrem hk]
  exact ⟨rfl, rfl, hrem k hk, rfl, rfl⟩

/-- An edge that no rank has changed. -/
theorem synch_keep (hrem : ∀ r < n, (V r).net.rem = []) {k : Nat} (hk : k < n) {x y : Nat} (hd : ∀ r < n, ¬ (V r).net.Dirty d x y) :
    (sstep d n V (.synch true) k).net.edge x y = (V k).net.edge x y := by
  rw [synch_quiet hrem hk]
  show (match (V.states.edgesIn n k).find? (fun m => decide (SameN d m.2.1 m.2.2.1 x y)) with
        | some m => some m.2.2.2
        | none => (V k).net.edge x y) = _
  cases hf : (V.states.edgesIn n k).find? (fun m => decide (SameN d m.2.1 m.2.2.1 x y)) with
  | none => rfl
  | some m =>
    have g1 := List.mem_of_find?_eq_some hf
    have g2 : SameN d m.2.1 m.2.2.1 x y := by simpa using List.find?_some hf
    obtain ⟨h1, h2, -⟩ := mem_edgesIn.1 g1
    exact absurd ⟨_, h2, g2⟩ (hd m.1 h1)

/-- The ghosts of a rank after `synchronize`. -/
theorem synch_gho (hrem : ∀ r < n, (V r).net.rem = []) {k : Nat} (hk : k < n) (u : Nat) : ((sstep d n V (.synch true) k).gho u).isSome = true ↔
    ((V k).gho u).isSome = true ∨ ∃ r < n, ∃ p ∈ (V r).net.new, (V r).far p = k ∧ (V r).near p = u ∧ (V r).tag u k = false ∧ ((V r).loc u).isSome = true := by
  rw [synch_quiet hrem hk]
  have he : (V.states.copies d n k).gho u = match (V.states.agentsIn n k).find? (fun m => decide (m.2.1 = u)) with
      | some m => some (m.2.2, m.1)
      | none => (V.states k).gho u := rfl
  rw [he]
  have hst : ((V.states k).gho u).isSome = ((V k).gho u).isSome := by
    show (((V k).gho u).map _).isSome = _
    cases (V k).gho u <;> rfl
  cases hf : (V.states.agentsIn n k).find? (fun m => decide (m.2.1 = u)) with
  | none =>
    show ((V.states k).gho u).isSome = true ↔ _
    rw [hst]
    constructor
    · exact .inl
    · rintro (h1 | ⟨r, hr, p, hp, h1, h2, h3, h4⟩)
      · exact h1
      · obtain ⟨s, hs⟩ := Option.isSome_iff_exists.1 h4
        have : (r, u, s) ∈ V.states.agentsIn n k := mem_agentsIn.2 ⟨hr, p, hp, by rw [states_far]; exact h1, h2, h3, hs⟩
        exact absurd (by simp) (List.find?_eq_none.1 hf _ this)
  | some m =>
    have g1 := List.mem_of_find?_eq_some hf
    have g2 : m.2.1 = u := by simpa using List.find?_some hf
    obtain ⟨h1, p, h2, h3, h4, h5, h6⟩ := mem_agentsIn.1 g1
    rw [states_far] at h3
    rw [g2] at h4 h5 h6
    have h6 : (V m.1).loc u = some m.2.2 := h6
    exact ⟨fun _ => .inr ⟨m.1, h1, p, h2, h3, h4, h5, by rw [h6]; rfl⟩, fun _ => rfl⟩

theorem SInv.synch (h : SInv H d n V) (hH : ∀ r < n, ∀ p ∈ (V.states.removals d n r).net.new, H ((V.states.removals d n r).far p) ((V.states.removals d n r).near p) = false)
    (hl : Legal d n V (.synch true)) : SInv H.settled d n (sstep d n V (.synch true)) := by
  obtain ⟨h1, h2⟩ := hl rfl
  have hs := h.states
  have hr : SInv H d n (V.states.removals d n) := hs.removals (fun r hr p hp => by rw [states_far]; exact (h2 r hr p hp).2)
  refine hr.copies hH (fun _ _ => rfl) ?_
  intro r hr' k hk u v d1 d2
  rw [hs.removals_dirty hr' d1, hs.removals_dirty hk d2]
  exact h1 r hr' k hk u v d1 d2

/-- The ghost of the moved agent becomes a node again. -/
theorem SInv.reveal {r m : Nat} {hid : Bool} (hr : r < n) (h : SInv (midHid r m hid).settled d n V) : SInv NoHid d n (V.setNet r { (V r).net with has := fun x => (V r).net.has x || (decide (x = m) && hid) }) := by
  have h' : SInv ⟨(midHid r m hid).ghost, false⟩ d n V := h
  let V' := V.setNet r { (V r).net with has := fun x => (V r).net.has x || (decide (x = m) && hid) }
  have hV : ∀ k, V' k = if k = r then { V r with net := { (V r).net with has := fun x => (V r).net.has x || (decide (x = m) && hid) } } else V k := fun _ => rfl
  have hne : ∀ k, k ≠ r → V' k = V k := fun k hk => by rw [hV, if_neg hk]
  have hrr : V' r = { V r with net := { (V r).net with has := fun x => (V r).net.has x || (decide (x = m) && hid) } } := by rw [hV, if_pos rfl]
  have hloc : ∀ k, (V' k).loc = (V k).loc := by intro k; by_cases e : k = r; (subst e; rw [hrr]); rw [hne k e]
  have hgho : ∀ k, (V' k).gho = (V k).gho := by intro k; by_cases e : k = r; (subst e; rw [hrr]); rw [hne k e]
  have htag : ∀ k, (V' k).tag = (V k).tag := by intro k; by_cases e : k = r; (subst e; rw [hrr]); rw [hne k e]
  have hrank : ∀ k, (V' k).rank = (V k).rank := by intro k; by_cases e : k = r; (subst e; rw [hrr]); rw [hne k e]
  have hedge : ∀ k, (V' k).net.edge = (V k).net.edge := by intro k; by_cases e : k = r; (subst e; rw [hrr]); rw [hne k e]
  have hnew : ∀ k, (V' k).net.new = (V k).net.new := by intro k; by_cases e : k = r; (subst e; rw [hrr]); rw [hne k e]
  have hupd : ∀ k, (V' k).net.upd = (V k).net.upd := by intro k; by_cases e : k = r; (subst e; rw [hrr]); rw [hne k e]
  have hrem : ∀ k, (V' k).net.rem = (V k).net.rem := by intro k; by_cases e : k = r; (subst e; rw [hrr]); rw [hne k e]
  have hsyn : ∀ k, (V' k).net.syn = (V k).net.syn := by intro k; by_cases e : k = r; (subst e; rw [hrr]); rw [hne k e]
  have hD : ∀ k x y, (V' k).net.Dirty d x y ↔ (V k).net.Dirty d x y := by intro k x y; unfold NV.Dirty; rw [hnew, hupd]
  have hG : ∀ k x y, (V' k).net.Gone d x y ↔ (V k).net.Gone d x y := by intro k x y; unfold NV.Gone; rw [hrem]
  have hW : ∀ k x y, (V' k).net.Wrote d x y ↔ (V k).net.Wrote d x y := by intro k x y; unfold NV.Wrote; rw [hnew, hsyn]
  have hP : ∀ i j x y, Peer V' i j x y ↔ Peer V i j x y := by intro i j x y; unfold Peer; rw [hloc, hloc]
  have hC : ∀ k x y, (V' k).cross x y = (V k).cross x y := by intro k x y; unfold RV.cross; rw [hloc]
  have hhas : ∀ k x, (V k).net.has x = true → (V' k).net.has x = true := by
    intro k x hx
    by_cases e : k = r
    · subst e; rw [hrr]; show (_ || _) = true; rw [hx]; rfl
    · rw [hne k e]; exact hx
  show SInv NoHid d n V'
  exact {
    rank := fun k hk => by rw [hrank]; exact h.rank k hk
    own := fun k hk j hj u => by rw [hloc, hloc]; exact h.own k hk j hj u
    gho := fun k hk u s j => by rw [hgho, hloc]; exact h.gho k hk u s j
    tag := fun k hk u j => by rw [htag, hloc, hgho]; exact h.tag k hk u j
    one := by
      intro k hk
      have h1 := h.one k hk
      exact {
        has := by
          intro u
          rw [hloc, hgho]
          show _ = ((((V k).loc u).isSome || ((V k).gho u).isSome) && true)
          rw [Bool.and_true]
          by_cases e : k = r
          · subst e
            rw [hrr]
            show ((V k).net.has u || (decide (u = m) && hid)) = _
            rw [h1.has]
            show (((((V k).loc u).isSome || ((V k).gho u).isSome) && !(decide (k = k) && decide (u = m) && hid)) || (decide (u = m) && hid)) = _
            by_cases e2 : u = m ∧ hid = true
            · have := h1.hid u (by show (decide (k = k) && decide (u = m) && hid) = true; simp [e2])
              rw [this]; simp [e2]
            · have : (decide (u = m) && hid) = false := by
                cases hid <;> simp_all
              rw [decide_eq_true rfl, Bool.true_and, this]; simp
          · rw [hne k e, h1.has]
            show (_ && !(decide (k = r) && decide (u = m) && hid)) = _
            simp [e]
        hid := by intro u hu; cases hu
        apart := by rw [hloc, hgho]; exact h1.apart
        sym := by rw [hedge]; exact h1.sym
        ends := by
          intro u v
          rw [hedge, hloc]
          intro hh
          obtain ⟨a, b, c⟩ := h1.ends u v hh
          exact ⟨hhas k u a, hhas k v b, c⟩
        ok := by rw [hedge]; exact h1.ok
        wrote := by intro p; rw [hnew, hsyn, hedge, hC]; exact h1.wrote p
        upd := by rw [hupd, hnew, hsyn]; exact h1.upd
        rem := by
          intro p
          rw [hrem, hedge, hC]
          intro hp
          obtain ⟨a, b, c, e⟩ := h1.rem p hp
          exact ⟨a, hhas k _ b, hhas k _ c, e⟩
        once := by rw [hrem]; exact h1.once }
    two := by
      intro i hi j hj hij
      have h2 := h.two i hi j hj hij
      exact {
        agree := by intro u v; rw [hP, hD, hD, hG, hG, hedge, hedge]; exact h2.agree u v
        before := by intro u v; rw [hP, hD, hD, hedge, hedge]; exact h2.before u v
        syn := by intro p; rw [hsyn, hP, hedge, hnew]; exact h2.syn p
        rem := by intro p; rw [hrem, hP, hedge, hW]; exact h2.rem p }
    orient := by
      intro hd i hi j hj p
      rw [hnew, hsyn, hnew, hsyn]
      exact h.orient hd i hi j hj p }

end Repast.Network
