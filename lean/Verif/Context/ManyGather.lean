import Verif.Context.ManyRank
import Verif.Context.OneSync

/-! Agents leave a rank whose context has several shared spaces. -/
namespace Repast.Context
open Repast.Dict Repast.Space

variable {S P Q : Type} [Proj P Q] {X : Spaces Q P} {ty : Nat → Nat}
variable {r : Nat} {c : Cx S P} {ls gs : Nat → Option S} {ll gl : Nat → Nat → Option Q}

section
variable {ag : Nat → Nat → Option (Option Q)} {bu : Nat → Nat → Prop}

/-- The first message about an agent that leaves. -/
def firstMsg (ls : Nat → Option S) (e : Nat × Nat × Q) : Option (Nat × OobMsg S Q) := (ls e.1).map fun s => (e.2.1, ⟨e.1, some (s, none), 0, e.2.2⟩)

theorem takeOne_m (h : RC X ty r c ls gs (fun _ _ => none)) (hs : SOk X r c.projs ag bu) {u : Nat} {s : S} (h1 : ls u = some s) (h2 : (ag 0 u).isSome = true) :
    ∃ c1, c.take ty u = some (c1, s, none) ∧ RC X ty r (c1.projRemove 0 u) (upd ls u none) gs (fun _ _ => none) ∧
      SOk X r (c1.projRemove 0 u).projs (upd ag 0 (upd (ag 0) u none)) bu := by
  have hu : get c.locals u = some s := by rw [h.loc, h1]
  obtain ⟨d, hd⟩ := take_of ty h.views hu
  obtain ⟨ps, e, hg⟩ := projRemove_m (c := { c with locals := del c.locals u, byType := d, ghosted := del c.ghosted u }) hs h.rank X.pos h2
  refine ⟨{ c with locals := del c.locals u, byType := d, ghosted := del c.ghosted u }, ?_, ?_, ?_⟩
  · rw [hd, h.ghosted]; rfl
  · simp only [h.ghosted] at e hd ⊢
    rw [e]
    refine ⟨h.rank, (h.views.take ty hd).congr ty rfl rfl, ?_, rfl, h.req, h.removed, h.ghosts, by simp, by simp⟩
    intro v
    show get (del c.locals u) v = _
    rw [get_del, h.loc]
    simp only [upd]
    by_cases hv : v = u
    · simp [hv]
    · have : ¬ u = v := fun e => hv e.symm
      simp [hv, this]
  · simp only [h.ghosted] at e ⊢
    rw [e]
    exact hg

theorem gatherFirst_m {n : Nat} : ∀ (es : List (Nat × Nat × Q)) (c : Cx S P) (ls : Nat → Option S) (ag : Nat → Nat → Option (Option Q)) (out : List (Nat × OobMsg S Q)) (mv : List Nat),
    RC X ty r c ls gs (fun _ _ => none) → SOk X r c.projs ag bu → (es.map (·.1)).Nodup → (∀ e ∈ es, (ls e.1).isSome = true ∧ (ag 0 e.1).isSome = true ∧ e.2.1 < n) →
    ∃ c', es.foldlM (Cx.gatherOne ty n 0) (c, out, mv) = some (c', out ++ es.filterMap (firstMsg ls), mv ++ es.map (·.1)) ∧
      RC X ty r c' (fun u => if u ∈ es.map (·.1) then none else ls u) gs (fun _ _ => none) ∧
      SOk X r c'.projs (upd ag 0 (fun u => if u ∈ es.map (·.1) then none else ag 0 u)) bu := by
  intro es
  induction es with
  | nil =>
    intro c ls ag out mv h hs _ _
    refine ⟨c, by simp, by simpa using h, ?_⟩
    have : upd ag 0 (fun u => if u ∈ List.map (·.1) ([] : List (Nat × Nat × Q)) then none else ag 0 u) = ag := by simpa using upd_same ag 0
    rw [this]; exact hs
  | cons e es ih =>
    intro c ls ag out mv h hs hn he
    rw [List.map_cons, List.nodup_cons] at hn
    obtain ⟨h1, h2, h3⟩ := he e (by simp)
    obtain ⟨s, hx⟩ := Option.isSome_iff_exists.1 h1
    obtain ⟨c1, ht1, hr1, hs1⟩ := takeOne_m h hs hx h2
    have hne : ∀ e' ∈ es, e'.1 ≠ e.1 := fun e' he' eq => hn.1 (eq ▸ List.mem_map.2 ⟨e', he', rfl⟩)
    obtain ⟨c', i1, i2, i3⟩ := ih (c1.projRemove 0 e.1) (upd ls e.1 none) _ (out ++ [(e.2.1, ⟨e.1, some (s, none), 0, e.2.2⟩)]) (mv ++ [e.1]) hr1 hs1 hn.2 (by
      intro e' he'
      have := he e' (by simp [he'])
      simpa [upd, hne e' he'] using this)
    refine ⟨c', ?_, i2.congr ?_ (fun _ _ _ => rfl) (fun _ _ _ _ => rfl), i3.congr ?_ (fun _ _ _ => Iff.rfl)⟩
    · rw [List.foldlM_cons]
      have hg : Cx.gatherOne ty n 0 (c, out, mv) e = some (c1.projRemove 0 e.1, out ++ [(e.2.1, ⟨e.1, some (s, none), 0, e.2.2⟩)], mv ++ [e.1]) := by
        unfold Cx.gatherOne
        have : get c.locals e.1 = some s := by rw [h.loc, hx]
        rw [if_neg (by omega)]
        simp only [this, ht1]
        rfl
      rw [hg]
      simp only [Option.bind_eq_bind, Option.bind_some]
      rw [i1]
      have hm : es.filterMap (firstMsg (Q := Q) (upd ls e.1 none)) = es.filterMap (firstMsg ls) := by
        apply filterMap_congr'
        intro e' he'
        simp only [firstMsg, upd, if_neg (hne e' he')]
      rw [hm]
      simp [firstMsg, hx]
    · intro u
      simp only [List.map_cons, List.mem_cons, upd]
      by_cases h1 : u ∈ es.map (·.1)
      · rw [if_pos (.inr h1), if_pos h1]
      · by_cases h2 : u = e.1
        · simp [h2]
        · rw [if_neg h1, if_neg h2, if_neg (by rintro (h | h); exact h2 h; exact h1 h)]
    · intro j _ u
      by_cases hj : j = 0
      · subst hj
        simp only [List.map_cons, List.mem_cons, upd, if_true]
        by_cases h1 : u ∈ es.map (·.1)
        · rw [if_pos (.inr h1), if_pos h1]
        · by_cases h2 : u = e.1
          · simp [h2]
          · rw [if_neg h1, if_neg h2, if_neg (by rintro (h | h); exact h2 h; exact h1 h)]
      · simp [upd, hj]

theorem gatherNext_m {n j : Nat} : ∀ (es : List (Nat × Nat × Q)) (c : Cx S P) (out : List (Nat × OobMsg S Q)) (mv : List Nat),
    (∀ e ∈ es, get c.locals e.1 = none ∧ e.2.1 < n) →
    es.foldlM (Cx.gatherOne ty n j) (c, out, mv) = some (c, out ++ es.map (fun e => (e.2.1, ⟨e.1, none, j, e.2.2⟩)), mv) := by
  intro es
  induction es with
  | nil => intro c out mv _; simp
  | cons e es ih =>
    intro c out mv he
    obtain ⟨h1, h2⟩ := he e (by simp)
    have hg : Cx.gatherOne ty n j (c, out, mv) e = some (c, out ++ [(e.2.1, ⟨e.1, none, j, e.2.2⟩)], mv) := by
      unfold Cx.gatherOne
      rw [if_neg (by omega)]
      simp only [h1]
    rw [List.foldlM_cons, hg]
    simp only [Option.bind_eq_bind, Option.bind_some]
    rw [ih c _ mv (fun e he' => he e (by simp [he']))]
    simp

end

/-- The queue of one space. -/
def queue (G : Geo Q) (r : Nat) (us : List Nat) (loc : Nat → Option Q) : List (Nat × Nat × Q) := us.filterMap fun u => (G.aim r (some (loc u))).map fun e => (u, e)

theorem mem_queue {G : Geo Q} {us : List Nat} {loc : Nat → Option Q} {x : Nat × Nat × Q} :
    x ∈ queue G r us loc ↔ x.1 ∈ us ∧ loc x.1 = some x.2.2 ∧ G.inside r x.2.2 = false ∧ x.2.1 = G.owner x.2.2 := by
  obtain ⟨u, k, q⟩ := x
  unfold queue
  simp only [List.mem_filterMap, Option.map_eq_some_iff, Geo.aim_some, Prod.mk.injEq, Option.some.injEq]
  constructor
  · rintro ⟨v, hv, e', ⟨a, b, c'⟩, rfl, rfl⟩
    exact ⟨hv, a, b, c'⟩
  · rintro ⟨hu, a, b, c'⟩
    exact ⟨u, hu, (k, q), ⟨a, b, c'⟩, rfl, rfl⟩

theorem queue_nodup {G : Geo Q} {loc : Nat → Option Q} {us : List Nat} (h : us.Nodup) : ((queue G r us loc).map (·.1)).Nodup := by
  unfold queue
  rw [List.map_filterMap]
  induction us with
  | nil => simp
  | cons u l ih =>
    rw [List.nodup_cons] at h
    rw [List.filterMap_cons]
    cases G.aim r (some (loc u)) with
    | none => exact ih h.2
    | some e =>
      simp only [Option.map_some]
      rw [List.nodup_cons]
      refine ⟨?_, ih h.2⟩
      intro hm
      simp only [List.mem_filterMap, Option.map_map, Option.map_eq_some_iff] at hm
      obtain ⟨v, hv, e', -, e2⟩ := hm
      simp only [Function.comp_apply] at e2
      exact h.1 (e2 ▸ hv)

theorem nodup_pair {l : List Nat} (h : l.Nodup) (i : Nat) : (l.map fun u => (u, i)).Nodup := by
  induction l with
  | nil => simp
  | cons x l ih =>
    rw [List.nodup_cons] at h
    rw [List.map_cons, List.nodup_cons]
    refine ⟨?_, ih h.2⟩
    intro hm
    obtain ⟨y, hy, e⟩ := List.mem_map.1 hm
    simp only [Prod.mk.injEq, and_true] at e
    exact h.1 (e ▸ hy)

/-- An agent of rank `r` is out of bounds in the first space. -/
def Departs (X : Spaces Q P) (r : Nat) (ls : Nat → Option S) (ll : Nat → Nat → Option Q) (u : Nat) : Prop :=
  (ls u).isSome = true ∧ ∃ q, ll 0 u = some q ∧ (X.G 0).inside r q = false

/-- A message about an agent that leaves rank `r` for rank `k`. -/
def Sent (X : Spaces Q P) (r : Nat) (ls : Nat → Option S) (ll : Nat → Nat → Option Q) (k : Nat) (m : OobMsg S Q) : Prop :=
  m.pid < X.m ∧ ll m.pid m.uid = some m.pt ∧ (X.G m.pid).inside r m.pt = false ∧ k = (X.G m.pid).owner m.pt ∧
    ∃ s, ls m.uid = some s ∧ m.st = if m.pid = 0 then some (s, none) else none

theorem MI.inside_iff (h : MI X ty r c ls ll gs gl) (hr : r < X.n) {j u : Nat} (hj : j < X.m) (hs : (ls u).isSome = true) {q : Q} (hq : ll j u = some q) :
    (X.G j).owner q < X.n ∧ ((X.G j).inside r q = true ↔ (X.G j).owner q = r) := by
  obtain ⟨a, b, d⟩ := (X.K j).owner_spec (h.locIn hj hs hq)
  rw [X.ranks] at a d
  exact ⟨a, fun e => (d r hr e).symm, fun e => e ▸ b⟩

open Classical in
theorem MI.gather (hr : r < X.n) (h : MI X ty r c ls ll gs (fun _ _ => none))
    (hT : ∀ u, (ls u).isSome = true → ∀ j < X.m, ∀ q, ll j u = some q → ∃ q0, ll 0 u = some q0 ∧ (X.G 0).owner q0 = (X.G j).owner q) :
    ∃ c' A B mv, c.gatherOob ty X.n = some (c', A ++ B, mv) ∧
      MI X ty r c' (fun u => if Departs X r ls ll u then none else ls u) ll gs (fun _ _ => none) ∧
      (∀ k m, (k, m) ∈ A ++ B ↔ Sent X r ls ll k m) ∧ ((A ++ B).map fun m => (m.2.uid, m.2.pid)).Nodup ∧
      (∀ m ∈ A, m.2.st.isSome = true) ∧ ∀ k m, (k, m) ∈ B → ∃ m', (k, m') ∈ A ∧ m'.uid = m.uid := by
  have hus : keys c.locals ++ keys c.ghosts = keys c.locals := by rw [h.rc.no_ghosts]; simp [keys]
  have hkey : ∀ u, u ∈ keys c.locals ↔ (ls u).isSome = true := by
    intro u
    constructor
    · intro hu
      cases hl : ls u with
      | none => exact absurd ((get_eq_none _ _).1 ((h.rc.loc u).trans hl)) (by simpa using hu)
      | some s => rfl
    · intro hu
      obtain ⟨s, hs⟩ := Option.isSome_iff_exists.1 hu
      exact mem_keys_of_get (v := s) (by rw [h.rc.loc, hs])
  have hnd : (keys c.locals).Nodup := h.rc.views.ok
  -- the queue of a space whose agents are all still there
  have hq : ∀ {c' : Cx S P} {ag bu} {j : Nat}, j < X.m → SOk X r c'.projs ag bu → (∀ u, ag j u = at_space (ls u) (ll j u) none) →
      c'.oobList j (keys c.locals) = queue (X.G j) r (keys c.locals) (ll j) := by
    intro c' ag bu j hj hs hag
    obtain ⟨g, e, a, -⟩ := hs.get hj
    unfold Cx.oobList queue
    rw [e]
    apply filterMap_congr'
    intro u hu
    obtain ⟨s, hs⟩ := Option.isSome_iff_exists.1 ((hkey u).1 hu)
    rw [(X.K j).oob a, hag, hs]
    rfl
  have hmem : ∀ {j : Nat}, j < X.m → ∀ x ∈ queue (X.G j) r (keys c.locals) (ll j), (ls x.1).isSome = true ∧ x.2.1 < X.n ∧ Departs X r ls ll x.1 ∧
      ∃ q0, ll 0 x.1 = some q0 ∧ (X.G 0).owner q0 = x.2.1 ∧ (X.G 0).inside r q0 = false := by
    intro j hj x hx
    obtain ⟨a, b, d, e⟩ := mem_queue.1 hx
    have hs := (hkey _).1 a
    obtain ⟨o1, o2⟩ := h.inside_iff hr hj hs b
    obtain ⟨q0, t1, t2⟩ := hT x.1 hs j hj _ b
    obtain ⟨-, p2⟩ := h.inside_iff hr X.pos hs t1
    have hin : (X.G 0).inside r q0 = false := by
      cases hi : (X.G 0).inside r q0 with
      | false => rfl
      | true =>
        have := o2.2 (t2 ▸ p2.1 hi)
        rw [d] at this; cases this
    exact ⟨hs, by rw [e]; exact o1, ⟨hs, q0, t1, hin⟩, q0, t1, by rw [t2, e], hin⟩
  have hdep : ∀ u, u ∈ (queue (X.G 0) r (keys c.locals) (ll 0)).map (·.1) ↔ Departs X r ls ll u := by
    intro u
    rw [List.mem_map]
    constructor
    · rintro ⟨x, hx, rfl⟩
      exact (hmem X.pos x hx).2.2.1
    · rintro ⟨hs, q, a, b⟩
      exact ⟨(u, (X.G 0).owner q, q), mem_queue.2 ⟨(hkey u).2 hs, a, b, rfl⟩, rfl⟩
  -- the first space
  obtain ⟨c1, g1, g2, g3⟩ := gatherFirst_m (n := X.n) (queue (X.G 0) r (keys c.locals) (ll 0)) c ls _ [] [] h.rc h.sp (queue_nodup hnd) (by
    intro e he
    obtain ⟨a, b, -⟩ := hmem X.pos e he
    obtain ⟨s, hs⟩ := Option.isSome_iff_exists.1 a
    exact ⟨a, by simp [at_space, hs], b⟩)
  have hls : ∀ u, (if Departs X r ls ll u then none else ls u) = if u ∈ (queue (X.G 0) r (keys c.locals) (ll 0)).map (·.1) then none else ls u := by
    intro u
    by_cases hu : Departs X r ls ll u
    · rw [if_pos hu, if_pos ((hdep u).2 hu)]
    · rw [if_neg hu, if_neg (fun h => hu ((hdep u).1 h))]
  have g2' : RC X ty r c1 (fun u => if Departs X r ls ll u then none else ls u) gs (fun _ _ => none) := g2.congr hls (fun _ _ _ => rfl) (fun _ _ _ _ => rfl)
  obtain ⟨ps1, e4, hg4⟩ := clearOob_m g3 g2.rank X.pos (a' := fun u => at_space (if Departs X r ls ll u then none else ls u) (ll 0 u) none) (by
    intro p hp
    have hp' : (X.K 0).Ok r p (fun u => at_space (if Departs X r ls ll u then none else ls u) (ll 0 u) none) := by
      refine cast (congrArg ((X.K 0).Ok r p) ?_) hp
      funext u
      simp only [upd, if_true]
      by_cases hu : Departs X r ls ll u
      · rw [if_pos ((hdep u).2 hu), if_pos hu]; rfl
      · rw [if_neg (fun h => hu ((hdep u).1 h)), if_neg hu]
    refine (X.K 0).clear hp' ?_
    intro u
    cases ha : (X.G 0).aim r (at_space (if Departs X r ls ll u then none else ls u) (ll 0 u) none) with
    | none => rfl
    | some x =>
      exfalso
      obtain ⟨a, b, d⟩ := Geo.aim_some.1 ha
      split at a
      · simp [at_space] at a
      · rename_i hnl
        cases hl : ls u with
        | none => simp [at_space, hl] at a
        | some s =>
          simp only [at_space, hl, Option.some.injEq] at a
          exact hnl ⟨by rw [hl]; rfl, x.2, a, b⟩)
  -- the other spaces
  have key : ∀ i, 1 ≤ i → i ≤ X.m → ∃ c' B mv, (List.range i).foldlM (fun (acc : Cx S P × List (Nat × OobMsg S Q) × List Nat) pid =>
      ((acc.1.oobList pid (keys c.locals)).foldlM (Cx.gatherOne ty X.n pid) acc).map fun x => (x.1.clearOob pid, x.2)) (c, [], []) =
        some (c', (queue (X.G 0) r (keys c.locals) (ll 0)).filterMap (firstMsg ls) ++ B, mv) ∧
      RC X ty r c' (fun u => if Departs X r ls ll u then none else ls u) gs (fun _ _ => none) ∧
      SOk X r c'.projs (fun j u => if j < i then at_space (if Departs X r ls ll u then none else ls u) (ll j u) none else at_space (ls u) (ll j u) none) (fun _ _ => False) ∧
      (∀ k m, (k, m) ∈ B ↔ 0 < m.pid ∧ m.pid < i ∧ Sent X r ls ll k m) ∧ (B.map fun m => (m.2.uid, m.2.pid)).Nodup := by
    intro i
    induction i with
    | zero => intro h; omega
    | succ i ih =>
      intro _ hi
      by_cases h0 : i = 0
      · subst h0
        refine ⟨c1.clearOob 0, [], (queue (X.G 0) r (keys c.locals) (ll 0)).map (·.1), ?_, ?_, ?_, ?_, by simp⟩
        · rw [List.range_succ, List.range_zero]
          simp only [List.nil_append, List.foldlM_cons, List.foldlM_nil]
          rw [hq X.pos h.sp (fun _ => rfl), g1]
          simp only [Option.map_some, Option.bind_eq_bind, Option.bind_some, List.nil_append, List.append_nil]
          rfl
        · rw [e4]
          exact ⟨g2'.rank, g2'.views.congr ty rfl rfl, g2'.loc, g2'.ghosted, g2'.req, g2'.removed, g2'.ghosts, g2'.disj, g2'.buf0⟩
        · rw [e4]
          refine hg4.congr ?_ (by simp)
          intro j _ u
          by_cases hj : j = 0
          · subst hj; simp [upd]
          · simp [upd, hj]
        · intro k m
          simp only [List.not_mem_nil, false_iff]
          rintro ⟨a, b, -⟩
          omega
      · obtain ⟨c2, B, mv, i1, i2, i3, i4, i5⟩ := ih (by omega) (by omega)
        have hqi := hq (j := i) (by omega) i3 (by intro u; simp)
        have hfold := gatherNext_m (ty := ty) (n := X.n) (j := i) (queue (X.G i) r (keys c.locals) (ll i)) c2
          ((queue (X.G 0) r (keys c.locals) (ll 0)).filterMap (firstMsg ls) ++ B) mv (by
            intro e he
            obtain ⟨-, b, d, -⟩ := hmem (j := i) (by omega) e he
            exact ⟨by rw [i2.loc, if_pos d], b⟩)
        obtain ⟨ps2, e5, hg5⟩ := clearOob_m i3 i2.rank (j := i) (by omega) (a' := fun u => at_space (if Departs X r ls ll u then none else ls u) (ll i u) none) (by
          intro p hp
          have hp' : (X.K i).Ok r p (fun u => at_space (ls u) (ll i u) none) := by
            refine cast (congrArg ((X.K i).Ok r p) ?_) hp
            funext u
            simp
          refine (X.K i).leave (X.others i (by omega)) hp' ?_ ?_ ?_
          · intro u
            by_cases hu : Departs X r ls ll u
            · right; rw [if_pos hu]; rfl
            · left; rw [if_neg hu]
          · intro u hu
            cases hl : ls u with
            | none => split <;> rfl
            | some s =>
              have hs : (ls u).isSome = true := by rw [hl]; rfl
              have hd : Departs X r ls ll u := by
                cases ha : (X.G i).aim r (at_space (ls u) (ll i u) none) with
                | none => exact absurd ha hu
                | some x =>
                  obtain ⟨a, b, d⟩ := Geo.aim_some.1 ha
                  rw [hl] at a
                  simp only [at_space, Option.some.injEq] at a
                  exact (hmem (j := i) (by omega) (u, x) (mem_queue.2 ⟨(hkey u).2 hs, a, b, d⟩)).2.2.1
              rw [if_pos hd]; rfl
          · intro u q hu hin
            have hnd : ¬ Departs X r ls ll u := by
              rintro ⟨hs, q0, a, b⟩
              obtain ⟨s, hs'⟩ := Option.isSome_iff_exists.1 hs
              rw [hs'] at hu
              simp only [at_space, Option.some.injEq] at hu
              obtain ⟨-, o2⟩ := h.inside_iff hr (j := i) (by omega) hs hu
              obtain ⟨q0', t1, t2⟩ := hT u hs i (by omega) q hu
              rw [a] at t1
              cases t1
              obtain ⟨-, p2⟩ := h.inside_iff hr X.pos hs a
              have := p2.2 (by rw [t2]; exact o2.1 hin)
              rw [b] at this; cases this
            rw [if_neg hnd])
        refine ⟨c2.clearOob i, B ++ (queue (X.G i) r (keys c.locals) (ll i)).map (fun e => (e.2.1, ⟨e.1, none, i, e.2.2⟩)), mv, ?_, ?_, ?_, ?_, ?_⟩
        · rw [List.range_succ, List.foldlM_append, i1]
          simp only [Option.bind_eq_bind, Option.bind_some, List.foldlM_cons, List.foldlM_nil]
          rw [hqi, hfold]
          simp only [Option.map_some, Option.bind_some, List.append_assoc]
          rfl
        · rw [e5]
          exact ⟨i2.rank, i2.views.congr ty rfl rfl, i2.loc, i2.ghosted, i2.req, i2.removed, i2.ghosts, i2.disj, i2.buf0⟩
        · rw [e5]
          refine hg5.congr ?_ (by simp)
          intro j _ u
          by_cases hj : j = i
          · subst hj; simp [upd]
          · simp only [upd, if_neg hj]
            by_cases hlt : j < i
            · rw [if_pos hlt, if_pos (by omega)]
            · rw [if_neg hlt, if_neg (by omega)]
        · intro k m
          rw [List.mem_append, i4]
          constructor
          · rintro (⟨a, b, d⟩ | hm)
            · exact ⟨a, by omega, d⟩
            · obtain ⟨x, hx, e⟩ := List.mem_map.1 hm
              simp only [Prod.mk.injEq] at e
              obtain ⟨rfl, rfl⟩ := e
              obtain ⟨a, b, d, e⟩ := mem_queue.1 hx
              obtain ⟨s, hs⟩ := Option.isSome_iff_exists.1 ((hkey _).1 a)
              refine ⟨by show 0 < i; omega, by show i < i + 1; omega, by show i < X.m; omega, b, d, e, s, hs, ?_⟩
              show none = if i = 0 then _ else _
              rw [if_neg h0]
          · rintro ⟨a, b, d⟩
            by_cases hm : m.pid < i
            · exact .inl ⟨a, hm, d⟩
            · right
              have hpi : m.pid = i := by omega
              obtain ⟨-, d1, d2, d3, s, d4, d5⟩ := d
              rw [if_neg (by omega)] at d5
              obtain ⟨uid, st, pid, pt⟩ := m
              simp only at hpi d1 d2 d3 d4 d5
              subst hpi d5
              exact List.mem_map.2 ⟨(uid, k, pt), mem_queue.2 ⟨(hkey uid).2 (by rw [d4]; rfl), d1, d2, d3⟩, rfl⟩
        · rw [List.map_append, List.nodup_append]
          refine ⟨i5, ?_, ?_⟩
          · rw [List.map_map]
            have := queue_nodup (r := r) (G := X.G i) (loc := ll i) hnd
            have h2 : ((queue (X.G i) r (keys c.locals) (ll i)).map (·.1)).map (fun u => (u, i)) = (queue (X.G i) r (keys c.locals) (ll i)).map ((fun m : Nat × OobMsg S Q => (m.2.uid, m.2.pid)) ∘ fun e => (e.2.1, ⟨e.1, none, i, e.2.2⟩)) := by
              rw [List.map_map]; rfl
            rw [← h2]
            exact nodup_pair this i
          · intro x hx y hy e
            obtain ⟨⟨k, m⟩, hm, rfl⟩ := List.mem_map.1 hx
            obtain ⟨m', hm', rfl⟩ := List.mem_map.1 hy
            obtain ⟨x, -, rfl⟩ := List.mem_map.1 hm'
            simp only [Prod.mk.injEq] at e
            have := ((i4 k m).1 hm).2.1
            omega
  obtain ⟨c', B, mv, i1, i2, i3, i4, i5⟩ := key X.m X.pos (Nat.le_refl _)
  have hA : ∀ k m, (k, m) ∈ (queue (X.G 0) r (keys c.locals) (ll 0)).filterMap (firstMsg ls) ↔ m.pid = 0 ∧ Sent X r ls ll k m := by
    intro k m
    rw [List.mem_filterMap]
    constructor
    · rintro ⟨x, hx, hm⟩
      obtain ⟨a, b, d, e⟩ := mem_queue.1 hx
      unfold firstMsg at hm
      obtain ⟨s, hs, hm⟩ := Option.map_eq_some_iff.1 hm
      simp only [Prod.mk.injEq] at hm
      obtain ⟨rfl, rfl⟩ := hm
      exact ⟨rfl, X.pos, b, d, e, s, hs, rfl⟩
    · rintro ⟨h0, -, d1, d2, d3, s, d4, d5⟩
      obtain ⟨uid, st, pid, pt⟩ := m
      simp only at h0 d1 d2 d3 d4 d5
      subst h0
      simp only [if_true] at d5
      subst d5
      refine ⟨(uid, k, pt), mem_queue.2 ⟨(hkey uid).2 (by rw [d4]; rfl), d1, d2, d3⟩, ?_⟩
      simp [firstMsg, d4]
  refine ⟨c', (queue (X.G 0) r (keys c.locals) (ll 0)).filterMap (firstMsg ls), B, mv, ?_, ⟨i2, ?_⟩, ?_, ?_, ?_, ?_⟩
  · unfold Cx.gatherOob
    rw [h.sp.1, hus]
    exact i1
  · refine i3.congr ?_ (by simp)
    intro j hj u
    simp only [if_pos hj]
  · intro k m
    rw [List.mem_append, hA, i4]
    constructor
    · rintro (⟨-, h⟩ | ⟨-, -, h⟩) <;> exact h
    · intro h
      by_cases h0 : m.pid = 0
      · exact .inl ⟨h0, h⟩
      · exact .inr ⟨by omega, h.1, h⟩
  · rw [List.map_append, List.nodup_append]
    refine ⟨?_, i5, ?_⟩
    · have hall : ∀ x ∈ queue (X.G 0) r (keys c.locals) (ll 0), (ls x.1).isSome = true := fun x hx => (hmem X.pos x hx).1
      have hqn := queue_nodup (r := r) (G := X.G 0) (loc := ll 0) hnd
      generalize queue (X.G 0) r (keys c.locals) (ll 0) = l at hall hqn
      have heq : (l.filterMap (firstMsg ls)).map (fun m : Nat × OobMsg S Q => (m.2.uid, m.2.pid)) = (l.map (·.1)).map (fun u => (u, 0)) := by
        clear hqn
        induction l with
        | nil => rfl
        | cons x l ih =>
          obtain ⟨y, hy⟩ := Option.isSome_iff_exists.1 (hall x (by simp))
          have := ih (fun x hx => hall x (by simp [hx]))
          rw [List.filterMap_cons]
          simp only [firstMsg, hy, Option.map_some, List.map_cons]
          congr 1
      rw [heq]
      exact nodup_pair hqn 0
    · intro x hx y hy e
      obtain ⟨⟨k, m⟩, hm, rfl⟩ := List.mem_map.1 hx
      obtain ⟨⟨k', m'⟩, hm', rfl⟩ := List.mem_map.1 hy
      simp only [Prod.mk.injEq] at e
      have h1 := ((hA k m).1 hm).1
      have h2 := ((i4 k' m').1 hm').1
      omega
  · rintro ⟨k, m⟩ hm
    obtain ⟨h0, -, -, -, -, s, -, d5⟩ := (hA k m).1 hm
    rw [if_pos h0] at d5
    rw [d5]; rfl
  · intro k m hm
    obtain ⟨h0, h1, -, d1, d2, d3, s, d4, d5⟩ := (i4 k m).1 hm
    have hs : (ls m.uid).isSome = true := by rw [d4]; rfl
    obtain ⟨-, -, -, q0, t1, t2, t3⟩ := hmem h1 (m.uid, k, m.pt) (mem_queue.2 ⟨(hkey _).2 hs, d1, d2, d3⟩)
    exact ⟨⟨m.uid, some (s, none), 0, q0⟩, (hA _ _).2 ⟨rfl, X.pos, t1, t3, t2.symm, s, d4, rfl⟩, rfl⟩

end Repast.Context
