import Verif.Context.ManyKind
import Verif.Context.OneRank

/-! A context with several shared spaces, on one rank: what the steps of `synchronize` do to its view of the local agents and of the ghosts. -/
namespace Repast.Context
open Repast.Dict Repast.Space

variable {S P Q : Type} [Proj P Q] {X : Spaces Q P} {ty : Nat → Nat}

/-- In how many of the first `m` spaces there is a location. -/
def cnt : Nat → (Nat → Option Q) → Nat
  | 0, _ => 0
  | m + 1, f => cnt m f + if (f m).isSome then 1 else 0

theorem cnt_congr {f g : Nat → Option Q} : ∀ {m : Nat}, (∀ j < m, f j = g j) → cnt m f = cnt m g
  | 0, _ => rfl
  | m + 1, h => by simp only [cnt]; rw [cnt_congr (fun j hj => h j (by omega)), h m (by omega)]

theorem cnt_zero {f : Nat → Option Q} : ∀ {m : Nat}, cnt m f = 0 ↔ ∀ j < m, f j = none
  | 0 => by simp [cnt]
  | m + 1 => by
    simp only [cnt]
    constructor
    · intro h j hj
      by_cases hjm : j = m
      · subst hjm
        cases hf : f j with
        | none => rfl
        | some q => rw [hf] at h; simp at h
      · exact (cnt_zero (m := m)).1 (by omega) j (by omega)
    · intro h
      rw [(cnt_zero (m := m)).2 (fun j hj => h j (by omega)), h m (by omega)]
      rfl

theorem cnt_put {f : Nat → Option Q} {j : Nat} {q : Q} (hf : f j = none) : ∀ {m : Nat}, j < m → cnt m (upd f j (some q)) = cnt m f + 1
  | 0, h => by omega
  | m + 1, h => by
    simp only [cnt]
    by_cases hjm : j = m
    · subst hjm
      rw [cnt_congr (m := j) (f := upd f j (some q)) (g := f) (fun i hi => by simp only [upd]; rw [if_neg (by omega)])]
      simp [upd, hf]
    · rw [cnt_put hf (m := m) (by omega)]
      have : upd f j (some q) m = f m := by simp only [upd]; rw [if_neg (fun e => hjm e.symm)]
      rw [this]
      omega

theorem cnt_take {f : Nat → Option Q} {j : Nat} {q : Q} (hf : f j = some q) {m : Nat} (h : j < m) : cnt m (upd f j none) + 1 = cnt m f := by
  have := cnt_put (f := upd f j none) (j := j) (q := q) (by simp [upd]) (m := m) h
  rw [← this]
  refine cnt_congr (fun i _ => ?_)
  simp only [upd]
  split
  · rename_i e; rw [e, hf]
  · rfl

/-- One space of a rank, with the entries `ag` and the buffered agents `bu`. -/
def SpOk (X : Spaces Q P) (r j : Nat) (g : Shared P) (ag : Nat → Option (Option Q)) (bu : Nat → Prop) : Prop :=
  (X.K j).Ok r g.sp ag ∧ g.buffered.Nodup ∧ ∀ u, u ∈ g.buffered ↔ bu u

/-- The projections of the context are the shared spaces, with the entries `ag j` and the buffered agents `bu j`. -/
def SOk (X : Spaces Q P) (r : Nat) (ps : List (Shared P)) (ag : Nat → Nat → Option (Option Q)) (bu : Nat → Nat → Prop) : Prop :=
  ps.length = X.m ∧ ∀ j g, ps[j]? = some g → SpOk X r j g (ag j) (bu j)

section
variable {r : Nat} {ag ag' : Nat → Nat → Option (Option Q)} {bu bu' : Nat → Nat → Prop} {ps : List (Shared P)}

theorem SOk.congr (h : SOk X r ps ag bu) (h1 : ∀ j < X.m, ∀ u, ag' j u = ag j u) (h2 : ∀ j < X.m, ∀ u, bu' j u ↔ bu j u) : SOk X r ps ag' bu' := by
  refine ⟨h.1, fun j g hg => ?_⟩
  have hj : j < X.m := by rw [← h.1]; exact (List.getElem?_eq_some_iff.1 hg).1
  obtain ⟨a, b, c⟩ := h.2 j g hg
  refine ⟨?_, b, fun u => (c u).trans (h2 j hj u).symm⟩
  rw [show ag' j = ag j from funext (h1 j hj)]
  exact a

theorem SOk.get (h : SOk X r ps ag bu) {j : Nat} (hj : j < X.m) : ∃ g, ps[j]? = some g ∧ SpOk X r j g (ag j) (bu j) := by
  have hj' : j < ps.length := by rw [h.1]; exact hj
  exact ⟨ps[j], List.getElem?_eq_getElem hj', h.2 j _ (List.getElem?_eq_getElem hj')⟩

theorem SOk.set (h : SOk X r ps ag bu) {j : Nat} {g : Shared P} {a : Nat → Option (Option Q)} {b : Nat → Prop} (hg : SpOk X r j g a b) :
    SOk X r (ps.set j g) (upd ag j a) (upd bu j b) := by
  refine ⟨by rw [List.length_set]; exact h.1, fun i g' hi => ?_⟩
  rw [List.getElem?_set] at hi
  simp only [upd]
  split at hi
  · rename_i e
    subst e
    split at hi
    · cases hi
      simp only [if_true]
      exact hg
    · cases hi
  · rename_i e
    have e' : ¬ i = j := fun x => e x.symm
    rw [if_neg e', if_neg e']
    exact h.2 i g' hi

theorem SOk.add (h : SOk X r ps ag bu) {u : Nat} (hu : ∀ j < X.m, ag j u = none) :
    SOk X r (ps.map fun g => { g with sp := Proj.add r g.sp u }) (fun j => upd (ag j) u (some none)) bu := by
  refine ⟨by rw [List.length_map]; exact h.1, fun j g hg => ?_⟩
  rw [List.getElem?_map] at hg
  obtain ⟨g', hg', rfl⟩ := Option.map_eq_some_iff.1 hg
  obtain ⟨a, b⟩ := h.2 j g' hg'
  have hj : j < X.m := by rw [← h.1]; exact (List.getElem?_eq_some_iff.1 hg').1
  exact ⟨(X.K j).add a (hu j hj), b⟩

theorem SOk.remove (h : SOk X r ps ag bu) {u : Nat} (hu : ∀ j < X.m, (ag j u).isSome = true) :
    SOk X r (ps.map fun g => { g with sp := Proj.remove r g.sp u }) (fun j => upd (ag j) u none) bu := by
  refine ⟨by rw [List.length_map]; exact h.1, fun j g hg => ?_⟩
  rw [List.getElem?_map] at hg
  obtain ⟨g', hg', rfl⟩ := Option.map_eq_some_iff.1 hg
  obtain ⟨a, b⟩ := h.2 j g' hg'
  have hj : j < X.m := by rw [← h.1]; exact (List.getElem?_eq_some_iff.1 hg').1
  exact ⟨(X.K j).remove a (hu j hj), b⟩

theorem upd_same {α β : Type} [DecidableEq α] (f : α → β) (a : α) : upd f a (f a) = f := by
  funext x
  simp only [upd]
  split
  · rename_i e; rw [e]
  · rfl

theorem projRemove_m {c : Cx S P} (h : SOk X r c.projs ag bu) (hr : c.rank = r) {j u : Nat} (hj : j < X.m) (hu : (ag j u).isSome = true) :
    ∃ ps, c.projRemove j u = { c with projs := ps } ∧ SOk X r ps (upd ag j (upd (ag j) u none)) bu := by
  obtain ⟨g, e, a, b⟩ := h.get hj
  refine ⟨c.projs.set j { g with sp := Proj.remove r g.sp u }, ?_, ?_⟩
  · unfold Cx.projRemove
    rw [e, hr]
  · have := h.set (j := j) (g := { g with sp := Proj.remove r g.sp u }) ⟨(X.K j).remove a hu, b⟩
    rw [upd_same] at this
    exact this

theorem projMove_m {c : Cx S P} (h : SOk X r c.projs ag bu) (hr : c.rank = r) {j u : Nat} (hj : j < X.m) (hu : (ag j u).isSome = true) (pt : Q) (ht : (X.K j).takes pt)
    (hf : (X.G j).excl → ∀ v, v ≠ u → ag j v ≠ some (some ((X.G j).dest pt))) :
    ∃ ps, c.projMove j u pt = some { c with projs := ps } ∧ SOk X r ps (upd ag j (upd (ag j) u (some (some ((X.G j).dest pt))))) bu := by
  obtain ⟨g, e, a, b⟩ := h.get hj
  obtain ⟨p', a0, a1⟩ := (X.K j).move a hu pt ht hf
  refine ⟨c.projs.set j { g with sp := p' }, ?_, ?_⟩
  · unfold Cx.projMove
    rw [e, hr]
    simp [a0]
  · have := h.set (j := j) (g := { g with sp := p' }) ⟨a1, b⟩
    rw [upd_same] at this
    exact this

theorem clearOob_m {c : Cx S P} (h : SOk X r c.projs ag bu) (hr : c.rank = r) {j : Nat} (hj : j < X.m) {a' : Nat → Option (Option Q)}
    (hc : ∀ p, (X.K j).Ok r p (ag j) → (X.K j).Ok r (Proj.clear r p) a') :
    ∃ ps, c.clearOob j = { c with projs := ps } ∧ SOk X r ps (upd ag j a') bu := by
  obtain ⟨g, e, a, b⟩ := h.get hj
  refine ⟨c.projs.set j { g with sp := Proj.clear r g.sp }, ?_, ?_⟩
  · unfold Cx.clearOob
    rw [e, hr]
  · have := h.set (j := j) (g := { g with sp := Proj.clear r g.sp }) ⟨hc _ a, b⟩
    rw [upd_same] at this
    exact this

theorem clearBuffered_m {c : Cx S P} (h : SOk X r c.projs ag bu) {j : Nat} (hj : j < X.m) :
    ∃ ps, c.clearBuffered j = { c with projs := ps } ∧ SOk X r ps ag (upd bu j (fun _ => False)) := by
  obtain ⟨g, e, a, b⟩ := h.get hj
  refine ⟨c.projs.set j { g with buffered := [] }, ?_, ?_⟩
  · unfold Cx.clearBuffered
    rw [e]
  · have := h.set (j := j) (g := { g with buffered := [] }) (b := fun _ => False) ⟨a, by simp, by simp⟩
    rw [upd_same] at this
    exact this

theorem bufferAdd_m {c : Cx S P} (h : SOk X r c.projs ag bu) (hr : c.rank = r) {j u : Nat} (hj : j < X.m) (hu : ag j u = none) (hb : ¬ bu j u) :
    ∃ ps, c.bufferAdd j u = { c with projs := ps } ∧ SOk X r ps (upd ag j (upd (ag j) u (some none))) (upd bu j (fun v => bu j v ∨ v = u)) := by
  obtain ⟨g, e, a, b, d⟩ := h.get hj
  refine ⟨c.projs.set j { sp := Proj.add r g.sp u, buffered := g.buffered ++ [u] }, ?_, ?_⟩
  · unfold Cx.bufferAdd
    rw [e, hr]
  · refine h.set ⟨(X.K j).add a hu, ?_, ?_⟩
    · show (g.buffered ++ [u]).Nodup
      rw [List.nodup_append]
      refine ⟨b, by simp, ?_⟩
      intro x hx y hy e
      rw [List.mem_singleton] at hy
      subst e hy
      exact hb ((d _).1 hx)
    · intro v
      show v ∈ g.buffered ++ [u] ↔ _
      rw [List.mem_append, List.mem_singleton, d]

end

/-- The entry in a space of an agent: `s` is its state if it is local, `l` its location then, and `g` the location of the ghost. -/
def at_space (s : Option S) (l : Option Q) (g : Option Q) : Option (Option Q) :=
  match s with
  | some _ => some l
  | none => g.map some

/-- The context of rank `r`, without its spaces: it has the local agents `ls` with their states, and the ghosts with the locations `gl` in the spaces, whose
states are `gs`. -/
structure RC (X : Spaces Q P) (ty : Nat → Nat) (r : Nat) (c : Cx S P) (ls gs : Nat → Option S) (gl : Nat → Nat → Option Q) : Prop where
  rank : c.rank = r
  views : Views ty c
  loc : ∀ u, get c.locals u = ls u
  ghosted : c.ghosted = []
  req : c.req = []
  removed : c.removed = []
  ghosts : ∀ u, get c.ghosts u = if cnt X.m (fun j => gl j u) = 0 then none else (gs u).map fun s => ⟨s, cnt X.m (fun j => gl j u)⟩
  disj : ∀ u, ∀ j < X.m, (gl j u).isSome = true → ls u = none ∧ (gs u).isSome = true
  buf0 : ∀ j < X.m, (X.G j).buf = 0 → ∀ u, gl j u = none

/-- The context of rank `r`, with the locations `ll` of the local agents. -/
structure MI (X : Spaces Q P) (ty : Nat → Nat) (r : Nat) (c : Cx S P) (ls : Nat → Option S) (ll : Nat → Nat → Option Q) (gs : Nat → Option S) (gl : Nat → Nat → Option Q) : Prop where
  rc : RC X ty r c ls gs gl
  sp : SOk X r c.projs (fun j u => at_space (ls u) (ll j u) (gl j u)) (fun j u => (gl j u).isSome = true)

variable {r : Nat} {c : Cx S P} {ls gs : Nat → Option S} {ll gl : Nat → Nat → Option Q}

theorem RC.congr {ls' gs' : Nat → Option S} {gl' : Nat → Nat → Option Q} (h : RC X ty r c ls gs gl) (h1 : ∀ u, ls' u = ls u) (h2 : ∀ u, ∀ j < X.m, gl' j u = gl j u)
    (h3 : ∀ u, ∀ j < X.m, (gl j u).isSome = true → gs' u = gs u) : RC X ty r c ls' gs' gl' := by
  have hc : ∀ u, cnt X.m (fun j => gl' j u) = cnt X.m (fun j => gl j u) := fun u => cnt_congr (h2 u)
  refine ⟨h.rank, h.views, fun u => (h.loc u).trans (h1 u).symm, h.ghosted, h.req, h.removed, ?_, ?_, ?_⟩
  · intro u
    rw [h.ghosts, hc]
    split
    · rfl
    · rename_i hn
      rw [cnt_zero] at hn
      have : ∃ j, j < X.m ∧ gl j u ≠ none := by
        apply Classical.byContradiction
        intro hx
        apply hn
        intro j hj
        apply Classical.byContradiction
        intro hy
        exact hx ⟨j, hj, hy⟩
      obtain ⟨j, hj, hne⟩ := this
      rw [h3 u j hj (by cases hg : gl j u with | none => exact absurd hg hne | some _ => rfl)]
  · intro u j hj hg
    rw [h2 u j hj] at hg
    rw [h1, h3 u j hj hg]
    exact h.disj u j hj hg
  · intro j hj hb u
    rw [h2 u j hj]
    exact h.buf0 j hj hb u

theorem MI.congr {ls' gs' : Nat → Option S} {ll' gl' : Nat → Nat → Option Q} (h : MI X ty r c ls ll gs gl) (h1 : ∀ u, ls' u = ls u)
    (h2 : ∀ u, (ls u).isSome = true → ∀ j < X.m, ll' j u = ll j u) (h3 : ∀ u, ∀ j < X.m, gl' j u = gl j u)
    (h4 : ∀ u, ∀ j < X.m, (gl j u).isSome = true → gs' u = gs u) : MI X ty r c ls' ll' gs' gl' := by
  refine ⟨h.rc.congr h1 h3 h4, h.sp.congr ?_ ?_⟩
  · intro j hj u
    rw [h1, h3 u j hj]
    cases hl : ls u with
    | none => rfl
    | some s => simp only [at_space]; rw [h2 u (by rw [hl]; rfl) j hj]
  · intro j hj u
    rw [h3 u j hj]

theorem MI.init (X : Spaces Q P) (ty : Nat → Nat) (r : Nat) : MI (S := S) X ty r (Cx.start r ((List.range X.m).map fun j => (X.K j).new)) (fun _ => none) (fun _ _ => none) (fun _ => none) (fun _ _ => none) := by
  refine ⟨⟨rfl, Views.init ty _ _, fun _ => rfl, rfl, rfl, rfl, ?_, by simp, by simp⟩, ?_⟩
  · intro u
    rw [if_pos (cnt_zero.2 (fun _ _ => rfl))]
    rfl
  · refine ⟨by simp [Cx.start], fun j g hg => ?_⟩
    simp only [Cx.start, List.getElem?_map, Option.map_map, Option.map_eq_some_iff] at hg
    obtain ⟨i, hi, rfl⟩ := hg
    obtain ⟨hi1, hi2⟩ := List.getElem?_eq_some_iff.1 hi
    rw [List.getElem_range] at hi2
    subst hi2
    exact ⟨(X.K j).new_ok r, by simp, by simp⟩

/-! ### The operations of the user -/

theorem MI.add (h : MI X ty r c ls ll gs gl) {u : Nat} (h1 : ls u = none) (h2 : ∀ j < X.m, gl j u = none) (s : S) :
    MI X ty r (c.add ty u s) (upd ls u (some s)) (fun j => upd (ll j) u none) gs gl := by
  refine ⟨⟨h.rc.rank, h.rc.views.add ty u s, ?_, h.rc.ghosted, h.rc.req, h.rc.removed, h.rc.ghosts, ?_, h.rc.buf0⟩, ?_⟩
  · intro v
    show get (Dict.set c.locals u s) v = _
    rw [get_set, h.rc.loc]
    simp only [upd]
    by_cases hv : v = u
    · simp [hv]
    · have : ¬ u = v := fun e => hv e.symm
      simp [hv, this]
  · intro v j hj hv
    refine ⟨?_, (h.rc.disj v j hj hv).2⟩
    simp only [upd]
    split
    · rename_i e; rw [e, h2 j hj] at hv; simp at hv
    · exact (h.rc.disj v j hj hv).1
  · have := h.sp.add (u := u) (fun j hj => by simp [at_space, h1, h2 j hj])
    rw [← h.rc.rank] at this ⊢
    refine this.congr ?_ (fun _ _ _ => Iff.rfl)
    intro j hj v
    simp only [upd]
    split
    · simp [at_space]
    · rfl

theorem MI.remove (h : MI X ty r c ls ll gs gl) {u : Nat} (h1 : (ls u).isSome = true) :
    ∃ c', c.remove ty u = some c' ∧ MI X ty r c' (upd ls u none) ll gs gl := by
  obtain ⟨s, hs⟩ := Option.isSome_iff_exists.1 h1
  have hu : u ∈ keys c.locals := mem_keys_of_get (v := s) (by rw [h.rc.loc, hs])
  have hgu : ∀ j < X.m, gl j u = none := by
    intro j hj
    cases hg : gl j u with
    | none => rfl
    | some y => have := (h.rc.disj u j hj (by simp [hg])).1; rw [hs] at this; cases this
  obtain ⟨d, hd⟩ := Option.isSome_iff_exists.1 ((delType_isSome ty h.rc.views u).2 hu)
  have he : c.remove ty u = some (({ c with ghosted := del c.ghosted u, locals := del c.locals u, removed := c.removed, byType := d }).projsRemove u) := by
    unfold Cx.remove
    rw [hd, h.rc.ghosted]
    rfl
  refine ⟨_, he, ⟨h.rc.rank, h.rc.views.remove ty he, ?_, ?_, h.rc.req, h.rc.removed, h.rc.ghosts, ?_, h.rc.buf0⟩, ?_⟩
  · intro v
    show get (del c.locals u) v = _
    rw [get_del, h.rc.loc]
    simp only [upd]
    by_cases hv : v = u
    · simp [hv]
    · have : ¬ u = v := fun e => hv e.symm
      simp [hv, this]
  · show del c.ghosted u = []
    rw [h.rc.ghosted]; rfl
  · intro v j hj hv
    refine ⟨?_, (h.rc.disj v j hj hv).2⟩
    simp only [upd]
    split
    · rfl
    · exact (h.rc.disj v j hj hv).1
  · have := h.sp.remove (u := u) (fun j hj => by simp [at_space, hs])
    rw [← h.rc.rank] at this ⊢
    refine this.congr ?_ (fun _ _ _ => Iff.rfl)
    intro j hj v
    simp only [upd]
    split
    · rename_i e; simp [at_space, e, hgu j hj]
    · rfl

theorem MI.setState (h : MI X ty r c ls ll gs gl) {u : Nat} (h1 : (ls u).isSome = true) (s : S) :
    ∃ c', c.setState u s = some c' ∧ MI X ty r c' (upd ls u (some s)) ll gs gl := by
  obtain ⟨s0, hs⟩ := Option.isSome_iff_exists.1 h1
  have hu : get c.locals u = some s0 := by rw [h.rc.loc, hs]
  have he : c.setState u s = some { c with locals := Dict.set c.locals u s } := by unfold Cx.setState; rw [hu]
  refine ⟨_, he, ⟨h.rc.rank, h.rc.views.setState ty he, ?_, h.rc.ghosted, h.rc.req, h.rc.removed, h.rc.ghosts, ?_, h.rc.buf0⟩, ?_⟩
  · intro v
    show get (Dict.set c.locals u s) v = _
    rw [get_set, h.rc.loc]
    simp only [upd]
    by_cases hv : v = u
    · simp [hv]
    · have : ¬ u = v := fun e => hv e.symm
      simp [hv, this]
  · intro v j hj hv
    refine ⟨?_, (h.rc.disj v j hj hv).2⟩
    simp only [upd]
    split
    · rename_i e; have := (h.rc.disj v j hj hv).1; rw [e, hs] at this; cases this
    · exact (h.rc.disj v j hj hv).1
  · refine h.sp.congr ?_ (fun _ _ _ => Iff.rfl)
    intro j hj v
    simp only [upd]
    split
    · rename_i e; simp [at_space, e, hs]
    · rfl

theorem MI.locIn (h : MI X ty r c ls ll gs gl) {j u : Nat} (hj : j < X.m) {q : Q} (hs : (ls u).isSome = true) (hu : ll j u = some q) : (X.G j).valid q := by
  obtain ⟨g, -, h3, -⟩ := h.sp.get hj
  obtain ⟨s, hs⟩ := Option.isSome_iff_exists.1 hs
  exact (X.K j).valid h3 (u := u) (by simp [at_space, hs, hu])

theorem MI.move (h : MI X ty r c ls ll gs gl) {j u : Nat} (hj : j < X.m) (h1 : (ls u).isSome = true) (pt : Q) (ht : (X.K j).takes pt)
    (hf : (X.G j).excl → ∀ v, v ≠ u → at_space (ls v) (ll j v) (gl j v) ≠ some (some ((X.G j).dest pt))) :
    ∃ c', c.projMove j u pt = some c' ∧ MI X ty r c' ls (upd ll j (upd (ll j) u (some ((X.G j).dest pt)))) gs gl := by
  obtain ⟨s, hs⟩ := Option.isSome_iff_exists.1 h1
  obtain ⟨ps, e, hg⟩ := projMove_m h.sp h.rc.rank hj (u := u) (by simp [at_space, hs]) pt ht hf
  refine ⟨_, e, ⟨h.rc.rank, h.rc.views.congr ty rfl rfl, h.rc.loc, h.rc.ghosted, h.rc.req, h.rc.removed, h.rc.ghosts, h.rc.disj, h.rc.buf0⟩, ?_⟩
  refine hg.congr ?_ (fun _ _ _ => Iff.rfl)
  intro i hi v
  simp only [upd]
  by_cases e : i = j
  · subst e
    simp only [if_true]
    by_cases e : v = u
    · subst e; simp [at_space, hs, upd]
    · simp [upd, e]
  · simp only [if_neg e]

theorem MI.gmove (h : MI X ty r c ls ll gs gl) {j u : Nat} (hj : j < X.m) (h1 : (ls u).isSome = true) (pt : Q) (ht : (X.K j).takes pt)
    (hf : (X.G j).excl → ∀ v, v ≠ u → at_space (ls v) (ll j v) (gl j v) ≠ some (some ((X.G j).dest pt))) :
    ∃ c', c.gmove j u pt = some c' ∧ MI X ty r c' ls (upd ll j (upd (ll j) u (some ((X.G j).dest pt)))) gs gl := by
  obtain ⟨s, hs⟩ := Option.isSome_iff_exists.1 h1
  unfold Cx.gmove
  rw [h.rc.loc, hs]
  exact h.move hj h1 pt ht hf

/-! ### The ghosts leave -/

theorem MI.preSynch (h : MI X ty r c ls ll gs gl) {j : Nat} (hj : j < X.m) : ∃ c', c.preSynch j = some c' ∧ MI X ty r c' ls ll gs (upd gl j (fun _ => none)) := by
  obtain ⟨g, e, h3, h5, h6⟩ := h.sp.get hj
  unfold Cx.preSynch
  rw [e]
  simp only [(X.K j).bufSize h3]
  by_cases hb : (X.G j).buf > 0
  · rw [if_pos hb]
    have key : ∀ (l : List Nat) (c' : Cx S P) (gl' : Nat → Nat → Option Q), l.Nodup → (∀ u ∈ l, (gl' j u).isSome = true) →
        RC X ty r c' ls gs gl' → SOk X r c'.projs (fun j u => at_space (ls u) (ll j u) (gl' j u)) (fun j u => (gl j u).isSome = true) →
        ∃ c'', l.foldlM (fun (c : Cx S P) u => (c.projRemove j u).removeGhost u) c' = some c'' ∧ RC X ty r c'' ls gs (upd gl' j (fun u => if u ∈ l then none else gl' j u)) ∧
          SOk X r c''.projs (fun i u => at_space (ls u) (ll i u) (upd gl' j (fun u => if u ∈ l then none else gl' j u) i u)) (fun j u => (gl j u).isSome = true) := by
      intro l
      induction l with
      | nil =>
        intro c' gl' _ _ a1 a2
        have : upd gl' j (fun u => if u ∈ ([] : List Nat) then none else gl' j u) = gl' := by simpa using upd_same gl' j
        rw [this]
        exact ⟨c', rfl, a1, a2⟩
      | cons u l ih =>
        intro c' gl' hn hl a1 a2
        rw [List.nodup_cons] at hn
        have hu := hl u (by simp)
        obtain ⟨q, hq⟩ := Option.isSome_iff_exists.1 hu
        obtain ⟨d1, d2⟩ := a1.disj u j hj hu
        obtain ⟨s, hs⟩ := Option.isSome_iff_exists.1 d2
        obtain ⟨ps, e1, hg1⟩ := projRemove_m a2 a1.rank hj (u := u) (by simp [at_space, d1, hq])
        have hcnt := cnt_take (f := fun i => gl' i u) (j := j) hq hj
        have hpos : cnt X.m (fun i => gl' i u) ≠ 0 := by omega
        have hupd : ∀ v, (fun i => upd gl' j (upd (gl' j) u none) i v) = if v = u then upd (fun i => gl' i u) j none else fun i => gl' i v := by
          intro v
          by_cases hv : v = u
          · subst hv
            funext i
            by_cases e : i = j <;> simp [e, upd]
          · funext i
            by_cases e : i = j <;> simp [e, hv, upd]
        have e2 : ∃ gs', (c'.projRemove j u).removeGhost u = some { c' with projs := ps, ghosts := gs' } ∧
            ∀ v, get gs' v = if cnt X.m (fun i => upd gl' j (upd (gl' j) u none) i v) = 0 then none else (gs v).map fun s => ⟨s, cnt X.m (fun i => upd gl' j (upd (gl' j) u none) i v)⟩ := by
          rw [e1]
          unfold Cx.removeGhost
          simp only [a1.req, List.not_mem_nil, if_false, a1.ghosts, if_neg hpos, hs, Option.map_some]
          refine ⟨_, rfl, ?_⟩
          intro v
          rw [hupd]
          by_cases hv : v = u
          · subst hv
            simp only [if_true]
            by_cases h0 : cnt X.m (upd (fun i => gl' i v) j none) = 0
            · rw [if_pos h0, if_pos (by omega), get_del]
              simp
            · rw [if_neg h0, if_neg (by omega), get_set, hs]
              simp only [if_true, Option.map_some, Option.some.injEq, Ghost.mk.injEq, true_and]
              omega
          · rw [if_neg hv]
            have hv' : ¬ u = v := fun e => hv e.symm
            rw [← a1.ghosts v]
            split
            · rw [get_del]; simp [hv']
            · rw [get_set]; simp [hv']
        obtain ⟨gs', e2, e3⟩ := e2
        have hkeep : ∀ i v, (upd gl' j (upd (gl' j) u none) i v).isSome = true → (gl' i v).isSome = true := by
          intro i v
          by_cases ei : i = j
          · subst ei
            by_cases ev : v = u <;> simp [upd, ev]
          · simp [upd, ei]
        have r1 : RC X ty r { c' with projs := ps, ghosts := gs' } ls gs (upd gl' j (upd (gl' j) u none)) := by
          refine ⟨a1.rank, a1.views.congr ty rfl rfl, a1.loc, a1.ghosted, a1.req, a1.removed, e3, ?_, ?_⟩
          · intro v i hi hv
            exact a1.disj v i hi (hkeep i v hv)
          · intro i hi hb' v
            cases hg : upd gl' j (upd (gl' j) u none) i v with
            | none => rfl
            | some y =>
              have := hkeep i v (by rw [hg]; rfl)
              rw [a1.buf0 i hi hb' v] at this
              cases this
        obtain ⟨c'', b0, b1, b2⟩ := ih { c' with projs := ps, ghosts := gs' } (upd gl' j (upd (gl' j) u none)) hn.2 (by
            intro v hv
            have hne : v ≠ u := by rintro rfl; exact hn.1 hv
            have : upd gl' j (upd (gl' j) u none) j v = gl' j v := by simp [upd, hne]
            rw [this]
            exact hl v (by simp [hv])) r1 (by
            refine hg1.congr ?_ (fun _ _ _ => Iff.rfl)
            intro i hi v
            by_cases ei : i = j
            · subst ei
              by_cases ev : v = u
              · subst ev; simp [upd, at_space, d1]
              · simp [upd, ev]
            · simp [upd, ei])
        have heq : upd (upd gl' j (upd (gl' j) u none)) j (fun v => if v ∈ l then none else upd gl' j (upd (gl' j) u none) j v) = upd gl' j (fun v => if v ∈ u :: l then none else gl' j v) := by
          funext i v
          by_cases ei : i = j
          · subst ei
            by_cases h1 : v ∈ l <;> by_cases h2 : v = u <;> simp [h1, h2, upd]
          · simp [ei, upd]
        refine ⟨c'', ?_, ?_, ?_⟩
        · rw [List.foldlM_cons, e2]; exact b0
        · rw [← heq]; exact b1
        · rw [← heq]; exact b2
    obtain ⟨c'', b0, b1, b2⟩ := key g.buffered c gl h5 (fun u hu => (h6 u).1 hu) h.rc h.sp
    obtain ⟨ps, e3, hg3⟩ := clearBuffered_m b2 hj
    have hnone : (fun u => if u ∈ g.buffered then none else gl j u) = fun _ => (none : Option Q) := by
      funext u
      split
      · rfl
      · rename_i hu
        cases hg : gl j u with
        | none => rfl
        | some y => exact absurd ((h6 u).2 (by simp [hg])) hu
    rw [hnone] at b1 hg3
    refine ⟨c''.clearBuffered j, by rw [b0]; rfl, ?_⟩
    rw [e3]
    refine ⟨⟨b1.rank, b1.views.congr ty rfl rfl, b1.loc, b1.ghosted, b1.req, b1.removed, b1.ghosts, b1.disj, b1.buf0⟩, ?_⟩
    refine hg3.congr (fun _ _ _ => rfl) ?_
    intro i hi u
    simp only [upd]
    by_cases ei : i = j <;> simp [ei]
  · rw [if_neg hb]
    have h0 := h.rc.buf0 j hj (by omega)
    refine ⟨c, rfl, h.congr (fun _ => rfl) (fun _ _ _ _ => rfl) ?_ (fun _ _ _ _ => rfl)⟩
    intro u i hi
    simp only [upd]
    split
    · rename_i ei; rw [ei, h0]
    · rfl

theorem MI.preSynchAll (h : MI X ty r c ls ll gs gl) : ∃ c', c.preSynchAll = some c' ∧ MI X ty r c' ls ll gs (fun _ _ => none) := by
  have key : ∀ i ≤ X.m, ∃ c', (List.range i).foldlM (fun c pid => c.preSynch pid) c = some c' ∧ MI X ty r c' ls ll gs (fun j u => if j < i then none else gl j u) := by
    intro i
    induction i with
    | zero => intro _; exact ⟨c, rfl, by simpa using h⟩
    | succ i ih =>
      intro hi
      obtain ⟨c1, e1, h1⟩ := ih (by omega)
      obtain ⟨c2, e2, h2⟩ := h1.preSynch (j := i) (by omega)
      refine ⟨c2, ?_, h2.congr (fun _ => rfl) (fun _ _ _ _ => rfl) ?_ (fun _ _ _ _ => rfl)⟩
      · rw [List.range_succ, List.foldlM_append, e1]
        simp only [Option.bind_eq_bind, Option.bind_some, List.foldlM_cons, e2, List.foldlM_nil]
        rfl
      · intro u j hj
        simp only [upd]
        by_cases ej : j = i
        · subst ej; simp
        · rw [if_neg ej]
          by_cases hlt : j < i
          · rw [if_pos hlt, if_pos (by omega)]
          · rw [if_neg hlt, if_neg (by omega)]
  obtain ⟨c', e, h'⟩ := key X.m (Nat.le_refl _)
  unfold Cx.preSynchAll
  rw [h.sp.1]
  refine ⟨c', e, h'.congr (fun _ => rfl) (fun _ _ _ _ => rfl) ?_ (fun _ _ _ _ => rfl)⟩
  intro u j hj
  rw [if_pos hj]

theorem RC.no_ghosts (h : RC X ty r c ls gs (fun _ _ => none)) : c.ghosts = [] := dict_nil (fun u => by rw [h.ghosts, if_pos (cnt_zero.2 (fun _ _ => rfl))])

end Repast.Context
