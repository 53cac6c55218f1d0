import Verif.Checkpoint.NetworkLemmas
import Verif.Network.NetExample

/-! C20: a network that is saved and restored. -/
namespace Repast.Network
open Repast.Dict Repast.Context

variable {S A : Type} {d : Bool} {n : Nat} {V : Sp S A}

/-! ### The agents -/

/-- Contexts with the agents `L`, and nothing else. -/
def bare (L : Nat → Nat → Option S) : Sp S A := fun r =>
  { rank := r, loc := L r, gho := fun _ => none, net := { has := fun u => (L r u).isSome, edge := fun _ _ => none, new := [], upd := [], rem := [], syn := [] },
    tag := fun _ _ => false, req := fun _ => false }

theorem bare_add (L : Nat → Nat → Option S) (r u : Nat) (s : S) :
    sstep d n (bare L : Sp S A) (.add r u s) = bare fun k x => if k = r then (if x = u then some s else L r x) else L k x := by
  funext k
  show (bare L : Sp S A).set r _ k = _
  unfold Sp.set
  by_cases hk : k = r
  · subst hk
    rw [if_pos rfl]
    unfold bare
    simp only [if_true]
    congr 2
    funext x
    by_cases hx : x = u <;> simp [hx]
  · rw [if_neg hk]
    unfold bare
    simp [hk]

theorem populate (adds : List (Nat × Nat × S)) : ∀ L : Nat → Nat → Option S, (adds.Pairwise fun a b => a.2.1 ≠ b.2.1) → (∀ a ∈ adds, a.1 < n ∧ ∀ k < n, L k a.2.1 = none) →
    LegalRun d n (bare L : Sp S A) (adds.map fun a => .add a.1 a.2.1 a.2.2) ∧
    ∃ L', (adds.map fun a => (.add a.1 a.2.1 a.2.2 : WOp S A)).foldl (sstep d n) (bare L) = bare L' ∧ ∀ k < n, ∀ x s, L' k x = some s ↔ (k, x, s) ∈ adds ∨ L k x = some s := by
  induction adds with
  | nil => intro L _ _; exact ⟨trivial, L, rfl, by simp⟩
  | cons a adds ih =>
    intro L hp ha
    obtain ⟨hp1, hp2⟩ := List.pairwise_cons.1 hp
    obtain ⟨ha1, ha2⟩ := ha a (by simp)
    obtain ⟨h1, L', h2, h3⟩ := ih (fun k x => if k = a.1 then (if x = a.2.1 then some a.2.2 else L a.1 x) else L k x) hp2 (by
      intro b hb
      obtain ⟨hb1, hb2⟩ := ha b (List.mem_cons_of_mem _ hb)
      refine ⟨hb1, ?_⟩
      intro k hk
      have := hp1 b hb
      simp only [hb2 k hk, hb2 a.1 ha1, if_neg (Ne.symm this), ite_self])
    refine ⟨⟨⟨ha1, ha2⟩, ?_⟩, L', ?_, ?_⟩
    · rw [bare_add]; exact h1
    · rw [List.map_cons, List.foldl_cons, bare_add]; exact h2
    · intro k hk x s
      rw [h3 k hk, List.mem_cons]
      by_cases e : k = a.1
      · subst e
        rw [if_pos rfl]
        by_cases e' : x = a.2.1
        · subst e'
          rw [if_pos rfl, ha2 _ hk]
          constructor
          · rintro (hh | hh)
            · exact .inl (.inr hh)
            · obtain rfl := Option.some.inj hh; exact .inl (.inl rfl)
          · rintro ((hh | hh) | hh)
            · right; rw [← hh]
            · exact .inl hh
            · cases hh
        · rw [if_neg e']
          constructor
          · rintro (hh | hh)
            · exact .inl (.inr hh)
            · exact .inr hh
          · rintro ((hh | hh) | hh)
            · exact absurd (by rw [← hh]) e'
            · exact .inl hh
            · exact .inr hh
      · rw [if_neg e]
        constructor
        · rintro (hh | hh)
          · exact .inl (.inr hh)
          · exact .inr hh
        · rintro ((hh | hh) | hh)
          · exact absurd (by rw [← hh]) e
          · exact .inl hh
          · exact .inr hh

theorem init_bare : (Sp.init : Sp S A) = bare fun _ _ => none := rfl

/-! ### The edges between local agents -/

/-- The edges between local agents have been restored. -/
def kept (V : Sp S A) : Sp S A := fun r =>
  { (bare (fun k => (V k).loc) r : RV S A) with net := { (bare (fun k => (V k).loc) r : RV S A).net with
      edge := fun x y => if ((V r).loc x).isSome && ((V r).loc y).isSome then (V r).net.edge x y else none } }

theorem SInv.kept (h : SInv NoHid d n V) : SInv NoHid d n (kept V) where
  rank := fun _ _ => rfl
  own := h.own
  gho := by intro k _ u s r hh; cases hh
  tag := by
    intro r _ u k
    constructor
    · intro hh; cases hh
    · rintro ⟨-, -, hh⟩; cases hh
  one := by
    intro r hr
    have h1 := h.one r hr
    exact {
      has := by intro u; show _ = ((_ || false) && true); rw [Bool.or_false, Bool.and_true]; rfl
      hid := fun _ hh => by cases hh
      apart := fun _ _ => rfl
      sym := by
        intro hd u v
        show (if _ then _ else _) = (if _ then _ else _)
        rw [h1.sym hd u v, Bool.and_comm]
      ends := by
        intro u v hh
        change (if ((V r).loc u).isSome && ((V r).loc v).isSome then _ else _ : Option (Attr A)).isSome = true at hh
        split at hh
        · rename_i hb
          rw [Bool.and_eq_true] at hb
          exact ⟨hb.1, hb.2, .inl hb.1⟩
        · cases hh
      ok := by
        intro u v a hh
        change (if _ then _ else _) = some a at hh
        split at hh
        · exact h1.ok u v a hh
        · cases hh
      wrote := by intro p hp; rcases hp with hp | hp <;> cases hp
      upd := by intro p hp; cases hp
      rem := by intro p hp; cases hp
      once := List.Pairwise.nil }
  two := by
    intro r hr k hk hne
    have hno : ∀ a < n, ∀ b < n, a ≠ b → ∀ u v, Peer V a b u v → (Network.kept V a).net.edge u v = none := by
      intro a ha b hb hab u v hp
      show (if _ then _ else _) = none
      rw [if_neg]
      intro hh
      rw [Bool.and_eq_true] at hh
      rcases hp with ⟨-, hp⟩ | ⟨-, hp⟩
      · exact hab (h.own a ha b hb v hh.2 hp)
      · exact hab (h.own a ha b hb u hh.1 hp)
    exact {
      agree := by
        intro u v hp _ _ _ _
        rw [hno r hr k hk hne u v hp, hno k hk r hr (Ne.symm hne) u v (Peer.swap (V := V) hp)]
      before := by rintro u v - ⟨p, hp, -⟩; rcases hp with hp | hp <;> cases hp
      syn := by intro p hp; cases hp
      rem := by intro p hp; cases hp }
  orient := by intro _ r _ k _ p hp; rcases hp with hp | hp <;> cases hp

/-! ### Requests -/

theorem request_ok (X : RV S A) (its : List (Item A)) : ∀ m : Dict Nat, Dict.Ok m → Dict.Ok (its.foldl (Item.request X) m) := by
  induction its with
  | nil => exact fun _ h => h
  | cons i its ih =>
    intro m hm
    refine ih _ ?_
    unfold Item.request; split
    · exact hm.set _ _
    · exact hm

theorem request_get (X : RV S A) (its : List (Item A)) : ∀ m : Dict Nat,
    (∀ u k, get (its.foldl (Item.request X) m) u = some k → get m u = some k ∨ ∃ i ∈ its, i.remote X = true ∧ i.2.2.1 = u ∧ i.2.2.2.1 = k) ∧
    (∀ u, (get m u).isSome = true → (get (its.foldl (Item.request X) m) u).isSome = true) ∧
    (∀ i ∈ its, i.remote X = true → (get (its.foldl (Item.request X) m) i.2.2.1).isSome = true) := by
  induction its with
  | nil => intro m; exact ⟨fun _ _ h => .inl h, fun _ h => h, fun _ h => by cases h⟩
  | cons i its ih =>
    intro m
    obtain ⟨h1, h2, h3⟩ := ih (Item.request X m i)
    have hm : ∀ u, (get m u).isSome = true → (get (Item.request X m i) u).isSome = true := by
      intro u hu
      unfold Item.request; split
      · rw [get_set]; split
        · rfl
        · exact hu
      · exact hu
    refine ⟨?_, fun u hu => h2 u (hm u hu), ?_⟩
    · intro u k hh
      rcases h1 u k hh with hh | ⟨j, hj, hh⟩
      · unfold Item.request at hh
        split at hh
        · rename_i hr
          rw [get_set] at hh
          split at hh
          · rename_i e
            exact .inr ⟨i, by simp, hr, e, Option.some.inj hh⟩
          · exact .inl hh
        · exact .inl hh
      · exact .inr ⟨j, List.mem_cons_of_mem _ hj, hh⟩
    · intro j hj hr
      rcases List.mem_cons.1 hj with rfl | hj
      · refine h2 _ ?_
        unfold Item.request
        rw [if_pos hr, get_set, if_pos rfl]; rfl
      · exact h3 j hj hr

/-! ### The round trip -/

theorem fill_local {T : Nat → Nat → Option (Attr A)} {its : List (Item A)} {X : RV S A} (hsym : d = false → ∀ u v, T u v = T v u)
    (hs : ∀ i ∈ its, (X.loc i.1).isSome = true)
    (hc : ∀ x y a, T x y = some a → (X.loc x).isSome = true → ∃ k, ((x, true, y, k, a) : Item A) ∈ its) :
    fill d T ((its.filter fun i => !i.remote X).map Item.ends) = fun x y => if (X.loc x).isSome && (X.loc y).isSome then T x y else none := by
  funext x y
  unfold fill
  by_cases hl : ((X.loc x).isSome && (X.loc y).isSome) = true
  · rw [if_pos hl]
    rw [Bool.and_eq_true] at hl
    cases hT : T x y with
    | none => simp
    | some a =>
      rw [if_pos]
      obtain ⟨k, hk⟩ := hc x y a hT hl.1
      refine List.any_eq_true.2 ⟨(x, y), List.mem_map.2 ⟨_, List.mem_filter.2 ⟨hk, ?_⟩, rfl⟩, by simpa using SameN.refl d x y⟩
      unfold Item.remote
      simp [hl.2]
  · rw [if_neg hl, if_neg]
    intro hh
    obtain ⟨p, hp, hs'⟩ := List.any_eq_true.1 hh
    obtain ⟨i, hi, rfl⟩ := List.mem_map.1 hp
    obtain ⟨hi1, hi2⟩ := List.mem_filter.1 hi
    have h1 := hs i hi1
    have h2 : (X.loc i.2.2.1).isSome = true := by
      unfold Item.remote at hi2
      cases hx : X.loc i.2.2.1 <;> simp_all
    have hs' : SameN d i.ends.1 i.ends.2 x y := by simpa using hs'
    apply hl
    unfold Item.ends at hs'
    rw [Bool.and_eq_true]
    rcases hs' with ⟨e1, e2⟩ | ⟨-, e1, e2⟩ <;> cases hb : i.2.1 <;> simp only [hb, Bool.false_eq_true, if_false, if_true] at e1 e2 <;> rw [← e1, ← e2] <;> exact ⟨by assumption, by assumption⟩

theorem fill_all {T : Nat → Nat → Option (Attr A)} {ps : List (Nat × Nat)} (h : ∀ x y, (T x y).isSome = true → ∃ p ∈ ps, SameN d p.1 p.2 x y) : fill d T ps = T := by
  funext x y
  unfold fill
  cases hT : T x y with
  | none => simp
  | some a =>
    obtain ⟨p, hp, hs⟩ := h x y (by rw [hT]; rfl)
    rw [if_pos (List.any_eq_true.2 ⟨p, hp, by simpa using hs⟩)]

/-- **C20.** After a history that is covered, the network is saved on all ranks, and restored into new contexts that have the local agents of their rank. If the network is not directed, or
if it is directed and no rank has an edge to a local agent that does not come from a local agent, nothing is raised, each rank has the edges that it had, with their attributes, the local agents,
and ghosts of the agents of other ranks that have edges, with the states of these agents. -/
theorem C20_restored_partial (d : Bool) {n : Nat} (hn : 0 < n) (ops : List (WOp S A)) (hl : LegalRun d n Sp.init ops) :
    ∃ w, wrun n (World.init [d]) ops = some w ∧
      ((d = true → ∀ r < n, ∀ u v, ((w r).edgeAttr 0 u v).isSome = true → ((w r).agent v).isSome = true → ((w r).agent u).isSome = true) →
        ∀ pop : Nat → List (Nat × S), (∀ r < n, ((pop r).map (·.1)).Nodup ∧ ∀ u s, (u, s) ∈ pop r ↔ (w r).agent u = some s) →
          ∃ w', roundTrip n d pop w = some w' ∧ ∀ r < n,
            (∀ u v, (w' r).edgeAttr 0 u v = (w r).edgeAttr 0 u v) ∧
            (∀ u, (w' r).agent u = (w r).agent u) ∧
            ∀ u s, (w' r).ghostAgent u = some s ↔
              (w r).agent u = none ∧ (∃ v, ((w r).edgeAttr 0 u v).isSome = true ∨ ((w r).edgeAttr 0 v u).isSome = true) ∧ ∃ k < n, (w k).agent u = some s) := by
  obtain ⟨w, e, hw, hI⟩ := run_sim hn ops Sp.init (World.init [d]) (SInv.init d n) (init_sim d n) hl
  refine ⟨w, e, ?_⟩
  generalize ops.foldl (sstep d n) (Sp.init : Sp S A) = V at hw hI
  intro hdir pop hpop
  have hdir : d = true → ∀ r < n, ∀ u v, ((V r).net.edge u v).isSome = true → ((V r).loc v).isSome = true → ((V r).loc u).isSome = true := by
    intro hd r hr u v h1 h2
    have := hdir hd r hr u v (by rw [hw.edge hr]; exact h1) (by rw [hw.agent hr]; exact h2)
    rwa [hw.agent hr] at this
  have hpop : ∀ r < n, ((pop r).map (·.1)).Nodup ∧ ∀ u s, (u, s) ∈ pop r ↔ (V r).loc u = some s := by
    intro r hr
    refine ⟨(hpop r hr).1, ?_⟩
    intro u s
    rw [(hpop r hr).2, hw.agent hr]
  -- what is saved
  have hsaved : ∀ r, ∃ data, r < n → (w r).saveNetwork 0 = some data ∧
      (∀ i ∈ data.flatMap SavedNode.items, ((V r).loc i.1).isSome = true ∧ (V r).net.edge i.ends.1 i.ends.2 = some i.2.2.2.2 ∧ (V r).ownerIs i.2.2.1 i.2.2.2.1 ∧ (i.2.1 = false → d = true)) ∧
      (∀ x y a, (V r).net.edge x y = some a → ((V r).loc x).isSome = true → ∃ k, ((x, true, y, k, a) : Item A) ∈ data.flatMap SavedNode.items) ∧
      (∀ x y a, d = true → (V r).net.edge x y = some a → ((V r).loc y).isSome = true → ∃ k, ((y, false, x, k, a) : Item A) ∈ data.flatMap SavedNode.items) := by
    intro r
    by_cases hr : r < n
    · obtain ⟨data, h1, h2⟩ := (hw r hr).1.saved
      rw [(hw r hr).2] at h2
      exact ⟨data, fun _ => ⟨h1, h2⟩⟩
    · exact ⟨[], fun hh => absurd hh hr⟩
  obtain ⟨data, hdata⟩ := Classical.axiomOfChoice hsaved
  -- the agents
  obtain ⟨w1, e1, s1⟩ : ∃ w1, wrun n (World.init [d]) ((List.range n).flatMap fun r => (pop r).map fun a => (.add r a.1 a.2 : WOp S A)) = some w1 ∧ Sim d still n w1 (bare fun k => (V k).loc) := by
    have heq : ((List.range n).flatMap fun r => (pop r).map fun a => (.add r a.1 a.2 : WOp S A)) = ((List.range n).flatMap fun r => (pop r).map fun a => (r, a.1, a.2)).map fun a => .add a.1 a.2.1 a.2.2 := by
      rw [List.map_flatMap]
      congr 1
      funext r
      simp [Function.comp_def]
    have hmem : ∀ a, a ∈ ((List.range n).flatMap fun r => (pop r).map fun a => (r, a.1, a.2)) ↔ a.1 < n ∧ (V a.1).loc a.2.1 = some a.2.2 := by
      intro a
      rw [List.mem_flatMap]
      constructor
      · rintro ⟨r, hr, ha⟩
        obtain ⟨b, hb, rfl⟩ := List.mem_map.1 ha
        rw [List.mem_range] at hr
        exact ⟨hr, ((hpop r hr).2 b.1 b.2).1 hb⟩
      · rintro ⟨h1, h2⟩
        exact ⟨a.1, List.mem_range.2 h1, List.mem_map.2 ⟨(a.2.1, a.2.2), ((hpop a.1 h1).2 _ _).2 h2, rfl⟩⟩
    obtain ⟨p1, L', p2, p3⟩ := populate (d := d) (n := n) (A := A) ((List.range n).flatMap fun r => (pop r).map fun a => (r, a.1, a.2)) (fun _ _ => none) (by
      rw [List.flatMap_def, List.pairwise_flatten]
      constructor
      · intro l hl
        obtain ⟨r, hr, rfl⟩ := List.mem_map.1 hl
        have := (hpop r (List.mem_range.1 hr)).1
        unfold List.Nodup at this
        rw [List.pairwise_map] at this ⊢
        exact this
      · rw [List.pairwise_map]
        have hnd : (List.range n).Pairwise (· ≠ ·) := List.nodup_range
        refine hnd.imp_of_mem ?_
        intro r r' hr hr' hne x hx y hy hxy
        obtain ⟨a, ha, rfl⟩ := List.mem_map.1 hx
        obtain ⟨b, hb, rfl⟩ := List.mem_map.1 hy
        rw [List.mem_range] at hr hr'
        have h1 := ((hpop r hr).2 _ _).1 ha
        have h2 := ((hpop r' hr').2 _ _).1 hb
        rw [show a.1 = b.1 from hxy] at h1
        exact hne (hI.own r hr r' hr' b.1 (by rw [h1]; rfl) (by rw [h2]; rfl))) (by
      intro a ha
      exact ⟨((hmem a).1 ha).1, fun _ _ => rfl⟩)
    rw [← init_bare] at p1 p2
    obtain ⟨w1, e1, s1, -⟩ := run_sim hn _ Sp.init (World.init [d]) (SInv.init d n) (init_sim d n) p1
    refine ⟨w1, by rw [heq]; exact e1, ?_⟩
    intro r hr
    obtain ⟨q1, q2⟩ := s1 r hr
    refine ⟨q1, ?_⟩
    rw [q2, p2]
    have : L' r = (V r).loc := by
      funext x
      apply Option.ext
      intro s
      rw [p3 r hr x s, hmem]
      constructor
      · rintro (hh | hh)
        · exact hh.2
        · cases hh
      · exact fun hh => .inl ⟨hr, hh⟩
    unfold bare
    simp only [this]
  let its : Nat → List (Item A) := fun r => (data r).flatMap SavedNode.items
  let X : Nat → RV S A := fun r => bare (fun k => (V k).loc) r
  let rs : Nat → Dict Nat := fun r => (its r).foldl (Item.request (X r)) []
  have hsym : ∀ r < n, d = false → ∀ u v, (V r).net.edge u v = (V r).net.edge v u := fun r hr => (hI.one r hr).sym
  have hok : ∀ r < n, ∀ u v a, (V r).net.edge u v = some a → (Dict.keys a).Nodup := fun r hr => (hI.one r hr).ok
  have hfill : ∀ r < n, fill d (V r).net.edge (((its r).filter fun i => !i.remote (X r)).map Item.ends) = fun x y => if ((V r).loc x).isSome && ((V r).loc y).isSome then (V r).net.edge x y else none := by
    intro r hr
    obtain ⟨-, h1, h2, -⟩ := hdata r hr
    exact fill_local (X := X r) (hsym r hr) (fun i hi => (h1 i hi).1) h2
  -- the edges between local agents
  have hrest : ∀ r < n, ∃ c', (w1 r).restore 0 (data r) = some ⟨c', rs r, ((its r).filter (Item.remote (X r))).map Item.ghostEdge⟩ ∧ COk d Pend.none c' ∧ c'.v = kept V r := by
    intro r hr
    obtain ⟨-, h1, h2, -⟩ := hdata r hr
    obtain ⟨hc, hv⟩ := s1 r hr
    obtain ⟨c', e', hc', hv'⟩ := COk.restored (d := d) (X := X r) (hsym r hr) (hok r hr) rfl (fun _ => rfl) (its r) ⟨w1 r, [], []⟩ [] hc (by rw [hv]; rfl) (fun i hi => ⟨(h1 i hi).1, (h1 i hi).2.1⟩)
    refine ⟨c', ?_, hc', ?_⟩
    · rw [restore_items]; exact e'
    · rw [hv', List.nil_append]
      unfold RV.filled
      rw [hfill r hr]
      rfl
  have hk := hI.kept
  obtain ⟨w2, e2, p2⟩ := each_some (n := n) (f := fun r => (((List.range n).map fun r => (w1 r).restore 0 (data r))[r]?.bind id).map (·.cx)) (w := w1) (P := fun r c => COk d Pend.none c ∧ c.v = kept V r) (by
    intro r hr
    obtain ⟨c', e', h'⟩ := hrest r hr
    rw [get_map_range _ hr, e']
    exact ⟨c', rfl, h'⟩)
  have s2 : Sim d still n w2 (kept V) := fun r hr => (p2 r hr).2
  have hrs : ∀ r < n, ((((List.range n).map fun r => (w1 r).restore 0 (data r))[r]?.bind id).map (·.requests)).getD [] = rs r ∧
      ((((List.range n).map fun r => (w1 r).restore 0 (data r))[r]?.bind id).map (·.edges)).getD [] = ((its r).filter (Item.remote (X r))).map Item.ghostEdge := by
    intro r hr
    obtain ⟨c', e', h'⟩ := hrest r hr
    rw [get_map_range _ hr, e']
    exact ⟨rfl, rfl⟩
  -- the requests
  have hrsm : ∀ r < n, ∀ u k, get (rs r) u = some k → ∃ i ∈ its r, i.remote (X r) = true ∧ i.2.2.1 = u ∧ i.2.2.2.1 = k ∧ k < n ∧ k ≠ r ∧ ((V k).loc u).isSome = true := by
    intro r hr u k hh
    rcases (request_get (X r) (its r) []).1 u k hh with hh | ⟨i, hi, hrm, rfl, rfl⟩
    · cases hh
    · obtain ⟨-, h1, -, -⟩ := hdata r hr
      rcases (h1 i hi).2.2.1 with ⟨ho, -⟩ | ⟨s, ho⟩
      · unfold Item.remote at hrm
        rw [show (X r).loc i.2.2.1 = (V r).loc i.2.2.1 from rfl] at hrm
        rw [Option.isNone_iff_eq_none] at hrm
        rw [hrm] at ho; cases ho
      · obtain ⟨g1, g2, g3⟩ := hI.gho r hr _ _ _ ho
        exact ⟨i, hi, hrm, rfl, rfl, g1, g2, g3⟩
  have hrok : ∀ r, Dict.Ok (rs r) := fun r => request_ok (X r) (its r) [] Dict.Ok.nil
  obtain ⟨w3, e3, s3⟩ := request_sim hk (fun _ _ => rfl) (rs := fun r => ((((List.range n).map fun r => (w1 r).restore 0 (data r))[r]?.bind id).map (·.requests)).getD []) (by
    intro k hk'
    simp only [(hrs k hk').1]
    refine ⟨hrok k, ?_⟩
    intro q hq
    obtain ⟨-, -, -, -, -, h1⟩ := hrsm k hk' q.1 q.2 (get_of_mem (hrok k) hq)
    exact h1) s2
  -- the edges to ghosts
  have hlast : ∀ r < n, ∃ c' new', (((its r).filter (Item.remote (X r))).map Item.ghostEdge).foldlM (Cx.ghostEdge 0 (rs r)) (w3 r) = some c' ∧ COk d Pend.none c' ∧
      c'.v = { (kept V).request n (fun r => ((((List.range n).map fun r => (w1 r).restore 0 (data r))[r]?.bind id).map (·.requests)).getD []) r with
        net := { ((kept V).request n (fun r => ((((List.range n).map fun r => (w1 r).restore 0 (data r))[r]?.bind id).map (·.requests)).getD []) r).net with edge := (V r).net.edge, new := new' } } := by
    intro r hr
    obtain ⟨-, h1, h2, h3⟩ := hdata r hr
    obtain ⟨hc, hv⟩ := s3 r hr
    obtain ⟨c', new', e', hc', hv'⟩ := COk.ghostEdges (d := d) (hsym r hr) (hok r hr) (X := (kept V).request n (fun r => ((((List.range n).map fun r => (w1 r).restore 0 (data r))[r]?.bind id).map (·.requests)).getD []) r)
      rfl (rs r) ((its r).filter (Item.remote (X r))) (w3 r) (((its r).filter fun i => !i.remote (X r)).map Item.ends) [] hc (by
        rw [hv]
        unfold RV.filled
        rw [hfill r hr]
        rfl) (by
        intro i hi
        obtain ⟨hi1, hi2⟩ := List.mem_filter.1 hi
        have hreq : (get (rs r) i.2.2.1).isSome = true := (request_get (X r) (its r) []).2.2 i hi1 hi2
        have hmem : (rs r).any (fun q => decide (q.1 = i.2.2.1)) = true := by
          obtain ⟨k, hk'⟩ := Option.isSome_iff_exists.1 hreq
          exact List.any_eq_true.2 ⟨_, mem_of_get hk', by simp⟩
        obtain ⟨j1, j2, j3, j4⟩ := h1 i hi1
        refine ⟨?_, j1, ?_, ?_, hreq, j2⟩
        · cases hb : i.2.1 with
          | true => rfl
          | false =>
            exfalso
            have hd := j4 hb
            have he : i.ends = (i.2.2.1, i.1) := by unfold Item.ends; rw [hb]; rfl
            rw [he] at j2
            have := hdir hd r hr _ _ (by rw [j2]; rfl) j1
            unfold Item.remote at hi2
            rw [show (X r).loc i.2.2.1 = (V r).loc i.2.2.1 from rfl, Option.isNone_iff_eq_none] at hi2
            rw [hi2] at this; cases this
        · show (((V r).loc i.1).isSome || _) = true
          rw [j1]; rfl
        · show (((V r).loc i.2.2.1).isSome || List.any _ _) = true
          simp only [(hrs r hr).1, hmem, Bool.or_true])
    refine ⟨c', new', e', hc', ?_⟩
    rw [hv']
    unfold RV.filled
    rw [fill_all]
    intro x y hxy
    obtain ⟨a, ha⟩ := Option.isSome_iff_exists.1 hxy
    obtain ⟨-, -, hor⟩ := (hI.one r hr).ends x y hxy
    have hin : ∀ i ∈ its r, SameN d i.ends.1 i.ends.2 x y →
        ∃ p ∈ ((its r).filter fun i => !i.remote (X r)).map Item.ends ++ ((its r).filter (Item.remote (X r))).map Item.ends, SameN d p.1 p.2 x y := by
      intro i hi hs
      refine ⟨i.ends, ?_, hs⟩
      rw [List.mem_append]
      cases hb : i.remote (X r) with
      | true => exact .inr (List.mem_map_of_mem (List.mem_filter.2 ⟨hi, hb⟩))
      | false => exact .inl (List.mem_map_of_mem (List.mem_filter.2 ⟨hi, by rw [hb]; rfl⟩))
    rcases hor with hx | hy
    · obtain ⟨k, hk'⟩ := h2 x y a ha hx
      exact hin _ hk' (.inl ⟨rfl, rfl⟩)
    · cases hd : d with
      | true =>
        obtain ⟨k, hk'⟩ := h3 x y a hd ha hy
        rw [← hd]
        exact hin _ hk' (.inl ⟨rfl, rfl⟩)
      | false =>
        rw [(hI.one r hr).sym hd] at ha
        obtain ⟨k, hk'⟩ := h2 y x a ha hy
        rw [← hd]
        exact hin _ hk' (.inr ⟨hd, rfl, rfl⟩)
  obtain ⟨w4, e4, p4⟩ := each_some (n := n) (f := fun r => (((((List.range n).map fun r => (w1 r).restore 0 (data r))[r]?.bind id).map (·.edges)).getD []).foldlM
      (Cx.ghostEdge 0 (((((List.range n).map fun r => (w1 r).restore 0 (data r))[r]?.bind id).map (·.requests)).getD [])) (w3 r)) (w := w3) (P := fun r c' => ∃ new', COk d Pend.none c' ∧
      c'.v = { (kept V).request n (fun r => ((((List.range n).map fun r => (w1 r).restore 0 (data r))[r]?.bind id).map (·.requests)).getD []) r with
        net := { ((kept V).request n (fun r => ((((List.range n).map fun r => (w1 r).restore 0 (data r))[r]?.bind id).map (·.requests)).getD []) r).net with edge := (V r).net.edge, new := new' } }) (by
    intro r hr
    obtain ⟨c', new', e', h'⟩ := hlast r hr
    refine ⟨c', ?_, new', h'⟩
    rw [(hrs r hr).1, (hrs r hr).2]; exact e')
  refine ⟨w4, ?_, ?_⟩
  · unfold roundTrip
    have hq : ((List.range n).map fun r => (w r).saveNetwork 0).all (·.isSome) = true := by
      rw [List.all_eq_true]
      intro x hx
      obtain ⟨r, hr, rfl⟩ := List.mem_map.1 hx
      rw [(hdata r (List.mem_range.1 hr)).1]; rfl
    simp only
    rw [if_pos hq, e1, Option.bind_some]
    have hlist : ((List.range n).map fun r => (w1 r).restore 0 ((((List.range n).map fun r => (w r).saveNetwork 0)[r]?.bind id).getD [])) = (List.range n).map fun r => (w1 r).restore 0 (data r) := by
      refine List.map_congr_left ?_
      intro r hr
      rw [List.mem_range] at hr
      rw [get_map_range _ hr, (hdata r hr).1]; rfl
    unfold restoreNetwork
    simp only
    rw [hlist, e2, Option.bind_some, e3, Option.bind_some, e4]
  · intro r hr
    obtain ⟨-, new', hc4, hv4⟩ := p4 r hr
    have hsim : Sim d still n (fun k => if k = r then w4 r else w k) (fun k => if k = r then (w4 r).v else V k) := by
      intro k hk'
      by_cases e : k = r
      · subst e; simp only [if_true]; exact ⟨hc4, trivial⟩
      · simp only [if_neg e]; exact hw k hk'
    have a1 := fun u v => hsim.edge hr u v
    have a2 := fun u => hsim.agent hr u
    have a3 := fun u => hsim.ghost hr u
    simp only [if_true] at a1 a2 a3
    refine ⟨?_, ?_, ?_⟩
    · intro u v
      rw [a1, hv4, hw.edge hr]
    · intro u
      rw [a2, hv4, hw.agent hr]; rfl
    · intro u s
      rw [a3, hv4, hw.agent hr]
      simp only [hw.edge hr]
      have hg : ((kept V).request n (fun r => ((((List.range n).map fun r => (w1 r).restore 0 (data r))[r]?.bind id).map (·.requests)).getD []) r).gho u =
          match (rs r).find? (fun q => decide (q.1 = u)) with
          | some q => ((V q.2).loc u).map fun s => (s, q.2)
          | none => none := by
        unfold Sp.request
        simp only [(hrs r hr).1]
        rfl
      rw [hg]
      obtain ⟨-, h1, h2, h3⟩ := hdata r hr
      constructor
      · intro hh
        cases hf : (rs r).find? (fun q => decide (q.1 = u)) with
        | none => rw [hf] at hh; cases hh
        | some q =>
          rw [hf] at hh
          have q1 := List.mem_of_find?_eq_some hf
          have q2 : q.1 = u := by simpa using List.find?_some hf
          obtain ⟨i, hi, hrm, hu, hk', g1, g2, g3⟩ := hrsm r hr q.1 q.2 (get_of_mem (hrok r) q1)
          rw [q2] at hu
          have hloc : (V r).loc u = none := by
            unfold Item.remote at hrm
            rw [show (X r).loc i.2.2.1 = (V r).loc i.2.2.1 from rfl, Option.isNone_iff_eq_none, hu] at hrm
            exact hrm
          refine ⟨hloc, ?_, q.2, g1, ?_⟩
          · have he := (h1 i hi).2.1
            unfold Item.ends at he
            rw [hu] at he
            refine ⟨i.1, ?_⟩
            cases hb : i.2.1 with
            | true => rw [hb] at he; right; rw [show (V r).net.edge i.1 u = _ from he]; rfl
            | false => rw [hb] at he; left; rw [show (V r).net.edge u i.1 = _ from he]; rfl
          · rw [hw.agent g1]
            simp only [Option.map_map] at hh
            obtain ⟨s', h4, h5⟩ := Option.map_eq_some_iff.1 hh
            rw [h4]; exact congrArg some h5
      · rintro ⟨hloc, ⟨v, hv⟩, k, hk', hs⟩
        rw [hw.agent hk'] at hs
        -- there is an item for the edge
        have hitem : ∃ i ∈ its r, i.2.2.1 = u := by
          rcases hv with hv | hv
          · obtain ⟨-, -, hor⟩ := (hI.one r hr).ends u v hv
            rw [hloc] at hor
            have hor : ((V r).loc v).isSome = true := by rcases hor with hh | hh; cases hh; exact hh
            cases hd : d with
            | true => have := hdir hd r hr u v hv hor; rw [hloc] at this; cases this
            | false =>
              rw [(hI.one r hr).sym hd] at hv
              obtain ⟨a, ha⟩ := Option.isSome_iff_exists.1 hv
              obtain ⟨j, hj⟩ := h2 v u a ha hor
              exact ⟨_, hj, rfl⟩
          · obtain ⟨-, -, hor⟩ := (hI.one r hr).ends v u hv
            rw [hloc] at hor
            have hor : ((V r).loc v).isSome = true := by rcases hor with hh | hh; exact hh; cases hh
            obtain ⟨a, ha⟩ := Option.isSome_iff_exists.1 hv
            obtain ⟨j, hj⟩ := h2 v u a ha hor
            exact ⟨_, hj, rfl⟩
        obtain ⟨i, hi, hu⟩ := hitem
        have hrm : i.remote (X r) = true := by
          unfold Item.remote
          rw [show (X r).loc i.2.2.1 = (V r).loc i.2.2.1 from rfl, hu, hloc]; rfl
        have hget := (request_get (X r) (its r) []).2.2 i hi hrm
        rw [hu] at hget
        cases hf : (rs r).find? (fun q => decide (q.1 = u)) with
        | none =>
          obtain ⟨z, hz⟩ := Option.isSome_iff_exists.1 hget
          have := List.find?_eq_none.1 hf _ (mem_of_get hz)
          simp at this
        | some q =>
          have q1 := List.mem_of_find?_eq_some hf
          have q2 : q.1 = u := by simpa using List.find?_some hf
          obtain ⟨_, _, _, _, _, g1, g2, g3⟩ := hrsm r hr q.1 q.2 (get_of_mem (hrok r) q1)
          rw [q2] at g3
          have : q.2 = k := hI.own q.2 g1 k hk' u g3 (by rw [hs]; rfl)
          simp only [this, hs]
          rfl

/-! ### Examples -/

/-- The local agents of a rank, each once. -/
example : ∀ r < 2, ∀ w, wrun 2 (World.init [false]) linked = some w → ((w r).population.map (·.1)).Nodup := by
  have : (match wrun 2 (World.init [false]) linked with
    | some w => (List.range 2).all fun r => decide ((w r).population.map (·.1)).Nodup
    | none => false) = true := by decide +kernel
  intro r hr w hw
  rw [hw] at this
  simp only [List.all_eq_true, List.mem_range, decide_eq_true_eq] at this
  exact this r hr

/-- A history that is covered. -/
example : LegalRun false 2 Sp.init linked := legal_of (ids := [1, 2, 11, 12]) (by decide +kernel)

/-- A directed network with an edge from an agent of rank 0 to an agent of rank 1 that is not synchronized, so that rank 1 does not have it. -/
example : LegalRun true 2 Sp.init (four ++ [.addEdge 0 0 1 11 [(0, 3)]]) := legal_of (ids := [1, 2, 11, 12]) (by decide +kernel)

/-- The network of `linked` after the round trip. -/
example : seenBy (restored false linked []) 1 1 11 = some ⟨none, some 50, some [(0, 9)]⟩ ∧ seenBy (restored false linked []) 0 12 2 = some ⟨none, some 8, some [(0, 4)]⟩ := by
  refine ⟨?_, ?_⟩ <;> decide +kernel

end Repast.Network
