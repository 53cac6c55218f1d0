import Verif.Context.Kind

/-! A context with one shared space, on one rank: what the steps of `synchronize` do to its view of the local agents and of the ghosts. -/
namespace Repast.Context
open Repast.Dict Repast.Space

variable {S P Q : Type} [Proj P Q] {G : Geo Q} {K : Kind G P} {ty : Nat → Nat}

/-- The projections of the context are one shared space, with the entries `ag` and the buffered agents `bu`. -/
def GOk (K : Kind G P) (r : Nat) (ps : List (Shared P)) (ag : Nat → Option (Option Q)) (bu : Nat → Prop) : Prop :=
  ∃ g, ps = [g] ∧ K.Ok r g.sp ∧ Proj.where_ g.sp = ag ∧ g.buffered.Nodup ∧ ∀ u, u ∈ g.buffered ↔ bu u

section
variable {r : Nat} {ag : Nat → Option (Option Q)} {bu : Nat → Prop}

theorem GOk.add {ps : List (Shared P)} (h : GOk K r ps ag bu) {u : Nat} (hu : ag u = none) :
    GOk K r (ps.map fun g => { g with sp := Proj.add r g.sp u }) (upd ag u (some none)) bu := by
  obtain ⟨g, rfl, h3, rfl, h5⟩ := h
  obtain ⟨a1, a2⟩ := K.add h3 hu
  exact ⟨_, rfl, a1, a2, h5⟩

theorem GOk.remove {ps : List (Shared P)} (h : GOk K r ps ag bu) (u : Nat) :
    GOk K r (ps.map fun g => { g with sp := Proj.remove r g.sp u }) (upd ag u none) bu := by
  obtain ⟨g, rfl, h3, rfl, h5⟩ := h
  obtain ⟨a1, a2⟩ := K.remove h3 u
  exact ⟨_, rfl, a1, a2, h5⟩

theorem projRemove_g {c : Cx S P} (h : GOk K r c.projs ag bu) (hr : c.rank = r) (u : Nat) :
    ∃ ps, c.projRemove 0 u = { c with projs := ps } ∧ GOk K r ps (upd ag u none) bu := by
  have h' := h.remove u
  obtain ⟨g, e, -⟩ := h
  refine ⟨_, ?_, h'⟩
  unfold Cx.projRemove
  rw [e]
  simp [hr]

theorem projMove_g {c : Cx S P} (h : GOk K r c.projs ag bu) (hr : c.rank = r) {u : Nat} (hu : (ag u).isSome = true) (pt : Q)
    (hf : G.excl → ∀ v, v ≠ u → ag v ≠ some (some (G.dest pt))) :
    ∃ ps, c.projMove 0 u pt = some { c with projs := ps } ∧ GOk K r ps (upd ag u (some (some (G.dest pt)))) bu := by
  obtain ⟨g, e, h3, rfl, h5⟩ := h
  obtain ⟨p', a0, a1, a2⟩ := K.move h3 hu pt hf
  refine ⟨[{ g with sp := p' }], ?_, ⟨_, rfl, a1, a2, h5⟩⟩
  unfold Cx.projMove
  rw [e, hr]
  simp [a0]

theorem clearOob_g {c : Cx S P} (h : GOk K r c.projs ag bu) (hr : c.rank = r) (hn : ∀ u, G.aim r (ag u) = none) :
    ∃ ps, c.clearOob 0 = { c with projs := ps } ∧ GOk K r ps ag bu := by
  obtain ⟨g, e, h3, rfl, h5⟩ := h
  obtain ⟨a1, a2⟩ := K.clear h3 hn
  refine ⟨[{ g with sp := Proj.clear r g.sp }], ?_, ⟨_, rfl, a1, a2, h5⟩⟩
  unfold Cx.clearOob
  rw [e]
  simp [hr]

theorem clearBuffered_g {c : Cx S P} (h : GOk K r c.projs ag bu) :
    ∃ ps, c.clearBuffered 0 = { c with projs := ps } ∧ GOk K r ps ag (fun _ => False) := by
  obtain ⟨g, e, h3, rfl, h5⟩ := h
  refine ⟨[{ g with buffered := [] }], ?_, ⟨_, rfl, h3, rfl, by simp, by simp⟩⟩
  unfold Cx.clearBuffered
  rw [e]
  simp

theorem bufferAdd_g {c : Cx S P} (h : GOk K r c.projs ag bu) (hr : c.rank = r) {u : Nat} (hu : ag u = none) (hb : ¬ bu u) :
    ∃ ps, c.bufferAdd 0 u = { c with projs := ps } ∧ GOk K r ps (upd ag u (some none)) (fun v => bu v ∨ v = u) := by
  obtain ⟨g, e, h3, rfl, h5, h6⟩ := h
  obtain ⟨a1, a2⟩ := K.add h3 hu
  refine ⟨[{ sp := Proj.add r g.sp u, buffered := g.buffered ++ [u] }], ?_, ⟨_, rfl, a1, a2, ?_, ?_⟩⟩
  · unfold Cx.bufferAdd
    rw [e]
    simp [hr]
  · show (g.buffered ++ [u]).Nodup
    rw [List.nodup_append]
    refine ⟨h5, by simp, ?_⟩
    intro a ha b hb' e
    rw [List.mem_singleton] at hb'
    subst e hb'
    exact hb ((h6 _).1 ha)
  · intro v
    show v ∈ g.buffered ++ [u] ↔ _
    rw [List.mem_append, List.mem_singleton, h6]

end

/-- The entry in the space of an agent with the given views. -/
def entry {Q : Type} (l : Option (S × Option Q)) (g : Option (S × Q)) : Option (Option Q) := (l.map (·.2)).or (g.map fun x => some x.2)

/-- The context of rank `r` has the local agents `lo`, with their states and locations, and the ghosts `gh`. -/
structure RI (K : Kind G P) (ty : Nat → Nat) (r : Nat) (c : Cx S P) (lo : Nat → Option (S × Option Q)) (gh : Nat → Option (S × Q)) : Prop where
  rank : c.rank = r
  views : Views ty c
  loc : ∀ u, get c.locals u = (lo u).map (·.1)
  ghosted : c.ghosted = []
  req : c.req = []
  removed : c.removed = []
  grid : GOk K r c.projs (fun u => entry (lo u) (gh u)) (fun u => (gh u).isSome = true)
  ghosts : ∀ u, get c.ghosts u = (gh u).map fun x => ⟨x.1, 1⟩
  disj : ∀ u, (gh u).isSome = true → lo u = none
  buf0 : G.buf = 0 → ∀ u, gh u = none

variable {r : Nat} {c : Cx S P} {lo : Nat → Option (S × Option Q)} {gh : Nat → Option (S × Q)}

theorem RI.init (K : Kind G P) (ty : Nat → Nat) (r : Nat) : RI (S := S) K ty r (Cx.start r [K.new]) (fun _ => none) (fun _ => none) :=
  ⟨rfl, Views.init ty _ _, fun _ => rfl, rfl, rfl, rfl,
    ⟨_, rfl, K.new_ok r, K.new_at, by simp, by simp⟩, fun _ => rfl, by simp, by simp⟩

theorem dict_nil {α : Type} {d : Dict α} (h : ∀ u, get d u = none) : d = [] := by
  cases d with
  | nil => rfl
  | cons e d =>
    have := h e.1
    rw [get_cons] at this
    simp at this

theorem RI.no_ghosts (h : RI K ty r c lo (fun _ => none)) : c.ghosts = [] := dict_nil (fun u => by rw [h.ghosts]; rfl)

theorem upd_eq {α β : Type} [DecidableEq α] {f g : α → β} {a : α} {b : β} (h1 : g a = b) (h2 : ∀ x, x ≠ a → g x = f x) : upd f a b = g := by
  funext x
  simp only [upd]
  split
  · rename_i e; rw [e, h1]
  · rename_i e; rw [h2 x e]

/-! ### The operations of the user -/

theorem RI.add (h : RI K ty r c lo gh) {u : Nat} (h1 : lo u = none) (h2 : gh u = none) (s : S) :
    RI K ty r (c.add ty u s) (upd lo u (some (s, none))) gh := by
  refine ⟨h.rank, h.views.add ty u s, ?_, h.ghosted, h.req, h.removed, ?_, h.ghosts, ?_, h.buf0⟩
  · intro v
    show get (set c.locals u s) v = _
    rw [get_set, h.loc]
    simp only [upd]
    by_cases hv : v = u
    · simp [hv]
    · have : ¬ u = v := fun e => hv e.symm
      simp [hv, this]
  · have := h.grid.add (u := u) (by simp [entry, h1, h2])
    rw [← h.rank] at this ⊢
    refine cast (congrArg (fun x => GOk K c.rank _ x _) ?_) this
    refine upd_eq (by simp [entry, upd]) ?_
    intro v hv
    simp [upd, hv]
  · intro v hv
    simp only [upd]
    split
    · rename_i e; rw [e, h2] at hv; simp at hv
    · exact h.disj v hv

theorem RI.remove (h : RI K ty r c lo gh) {u : Nat} {x : S × Option Q} (h1 : lo u = some x) :
    ∃ c', c.remove ty u = some c' ∧ RI K ty r c' (upd lo u none) gh := by
  have hu : u ∈ keys c.locals := mem_keys_of_get (v := x.1) (by rw [h.loc, h1]; rfl)
  have hgu : gh u = none := by
    cases hg : gh u with
    | none => rfl
    | some y => have := h.disj u (by simp [hg]); rw [h1] at this; cases this
  obtain ⟨d, hd⟩ := Option.isSome_iff_exists.1 ((delType_isSome ty h.views u).2 hu)
  have he : c.remove ty u = some (({ c with ghosted := del c.ghosted u, locals := del c.locals u, removed := c.removed, byType := d }).projsRemove u) := by
    unfold Cx.remove
    rw [hd, h.ghosted]
    rfl
  refine ⟨_, he, h.rank, h.views.remove ty he, ?_, ?_, h.req, h.removed, ?_, h.ghosts, ?_, h.buf0⟩
  · intro v
    show get (del c.locals u) v = _
    rw [get_del, h.loc]
    simp only [upd]
    by_cases hv : v = u
    · simp [hv]
    · have : ¬ u = v := fun e => hv e.symm
      simp [hv, this]
  · show del c.ghosted u = []
    rw [h.ghosted]; rfl
  · have := h.grid.remove u
    rw [← h.rank] at this ⊢
    refine cast (congrArg (fun x => GOk K c.rank _ x _) ?_) this
    refine upd_eq (by simp [entry, upd, hgu]) ?_
    intro v hv
    simp [upd, hv]
  · intro v hv
    simp only [upd]
    split
    · rfl
    · exact h.disj v hv

theorem RI.setState (h : RI K ty r c lo gh) {u : Nat} {x : S × Option Q} (h1 : lo u = some x) (s : S) :
    ∃ c', c.setState u s = some c' ∧ RI K ty r c' (upd lo u (some (s, x.2))) gh := by
  have hu : get c.locals u = some x.1 := by rw [h.loc, h1]; rfl
  have he : c.setState u s = some { c with locals := set c.locals u s } := by unfold Cx.setState; rw [hu]
  refine ⟨_, he, h.rank, h.views.setState ty he, ?_, h.ghosted, h.req, h.removed, ?_, h.ghosts, ?_, h.buf0⟩
  · intro v
    show get (set c.locals u s) v = _
    rw [get_set, h.loc]
    simp only [upd]
    by_cases hv : v = u
    · simp [hv]
    · have : ¬ u = v := fun e => hv e.symm
      simp [hv, this]
  · refine cast (congrArg (fun x => GOk K r _ x _) ?_) h.grid
    funext v
    simp only [upd]
    split
    · rename_i e; rw [e, h1]; rfl
    · rfl
  · intro v hv
    simp only [upd]
    split
    · rename_i e; have := h.disj v hv; rw [e, h1] at this; cases this
    · exact h.disj v hv

theorem RI.locIn (h : RI K ty r c lo gh) {u : Nat} {s : S} {q : Q} (hu : lo u = some (s, some q)) : G.valid q := by
  obtain ⟨g, -, h3, h4, -⟩ := h.grid
  exact K.valid h3 (u := u) (by rw [h4]; simp [entry, hu])

theorem RI.ghIn (h : RI K ty r c lo gh) {u : Nat} {s : S} {q : Q} (hu : gh u = some (s, q)) : G.valid q := by
  obtain ⟨g, -, h3, h4, -⟩ := h.grid
  exact K.valid h3 (u := u) (by rw [h4]; simp [entry, hu, h.disj u (by simp [hu])])

theorem RI.move (h : RI K ty r c lo gh) {u : Nat} {x : S × Option Q} (h1 : lo u = some x) (pt : Q) (hf : G.excl → ∀ v, v ≠ u → entry (lo v) (gh v) ≠ some (some (G.dest pt))) :
    ∃ c', c.projMove 0 u pt = some c' ∧ RI K ty r c' (upd lo u (some (x.1, some (G.dest pt)))) gh := by
  obtain ⟨ps, e, hg⟩ := projMove_g h.grid h.rank (u := u) (by simp [entry, h1]) pt hf
  refine ⟨_, e, h.rank, h.views.congr ty rfl rfl, ?_, h.ghosted, h.req, h.removed, ?_, h.ghosts, ?_, h.buf0⟩
  · intro v
    show get c.locals v = _
    rw [h.loc]
    simp only [upd]
    split
    · rename_i e; rw [e, h1]; rfl
    · rfl
  · refine cast (congrArg (fun x => GOk K r _ x _) ?_) hg
    refine upd_eq (by simp [entry, upd]) ?_
    intro v hv
    simp [upd, hv]
  · intro v hv
    simp only [upd]
    split
    · rename_i e; have := h.disj v hv; rw [e, h1] at this; cases this
    · exact h.disj v hv

theorem RI.gmove (h : RI K ty r c lo gh) {u : Nat} {x : S × Option Q} (h1 : lo u = some x) (pt : Q) (hf : G.excl → ∀ v, v ≠ u → entry (lo v) (gh v) ≠ some (some (G.dest pt))) :
    ∃ c', c.gmove 0 u pt = some c' ∧ RI K ty r c' (upd lo u (some (x.1, some (G.dest pt)))) gh := by
  unfold Cx.gmove
  rw [h.loc, h1]
  exact h.move h1 pt hf

/-! ### The ghosts leave -/

theorem RI.preSynch (h : RI K ty r c lo gh) : ∃ c', c.preSynchAll = some c' ∧ RI K ty r c' lo (fun _ => none) := by
  obtain ⟨g, e, h3, h4, h5, h6⟩ := h.grid
  have hall : c.preSynchAll = c.preSynch 0 := by
    unfold Cx.preSynchAll
    rw [e]
    show (List.range 1).foldlM _ c = _
    simp
  rw [hall]
  unfold Cx.preSynch
  rw [e]
  simp only [List.getElem?_cons_zero, K.bufSize h3]
  by_cases hb : G.buf > 0
  · rw [if_pos hb]
    have key : ∀ (l : List Nat) (c' : Cx S P) (gh' : Nat → Option (S × Q)), l.Nodup → (∀ u ∈ l, (gh' u).isSome = true ∧ lo u = none) →
        c'.rank = c.rank → c'.locals = c.locals → c'.byType = c.byType → c'.ghosted = [] → c'.req = [] → c'.removed = [] →
        GOk K r c'.projs (fun u => entry (lo u) (gh' u)) (fun u => (gh u).isSome = true) → (∀ u, get c'.ghosts u = (gh' u).map fun x => ⟨x.1, 1⟩) →
        ∃ c'', l.foldlM (fun (c : Cx S P) u => (c.projRemove 0 u).removeGhost u) c' = some c'' ∧ c''.rank = c.rank ∧ c''.locals = c.locals ∧ c''.byType = c.byType ∧
          c''.ghosted = [] ∧ c''.req = [] ∧ c''.removed = [] ∧
          GOk K r c''.projs (fun u => entry (lo u) (if u ∈ l then none else gh' u)) (fun u => (gh u).isSome = true) ∧
          (∀ u, get c''.ghosts u = (if u ∈ l then none else gh' u).map fun x => ⟨x.1, 1⟩) := by
      intro l
      induction l with
      | nil =>
        intro c' gh' _ _ a1 a2 a3 a4 a5 a6 a7 a8
        exact ⟨c', rfl, a1, a2, a3, a4, a5, a6, by simpa using a7, by simpa using a8⟩
      | cons u l ih =>
        intro c' gh' hn hl a1 a2 a3 a4 a5 a6 a7 a8
        rw [List.nodup_cons] at hn
        obtain ⟨hu1, hu2⟩ := hl u (by simp)
        obtain ⟨ps, e1, hg1⟩ := projRemove_g a7 (a1.trans h.rank) u
        obtain ⟨y, hy⟩ := Option.isSome_iff_exists.1 hu1
        have e2 : (c'.projRemove 0 u).removeGhost u = some { c' with projs := ps, ghosts := del c'.ghosts u } := by
          rw [e1]
          unfold Cx.removeGhost
          simp [a5, a8, hy]
        obtain ⟨c'', b0, b1, b2, b3, b4, b5, b6, b7, b8⟩ := ih { c' with projs := ps, ghosts := del c'.ghosts u } (upd gh' u none) hn.2 (by
            intro v hv
            have hne : v ≠ u := by rintro rfl; exact hn.1 hv
            simp only [upd, if_neg hne]
            exact hl v (by simp [hv])) a1 a2 a3 a4 a5 a6 (by
            refine cast (congrArg (fun x => GOk K r _ x _) ?_) hg1
            refine upd_eq (by simp [entry, upd, hu2]) ?_
            intro v hv
            simp [upd, hv]) (by
            intro v
            show get (del c'.ghosts u) v = _
            rw [get_del, a8]
            simp only [upd]
            by_cases hv : v = u
            · simp [hv]
            · have : ¬ u = v := fun e => hv e.symm
              simp [hv, this])
        have heq : ∀ v, (if v ∈ l then none else upd gh' u none v) = if v ∈ u :: l then none else gh' v := by
          intro v
          simp only [upd, List.mem_cons]
          by_cases h1 : v ∈ l <;> by_cases h2 : v = u <;> simp [h1, h2]
        refine ⟨c'', ?_, b1, b2, b3, b4, b5, b6, ?_, ?_⟩
        · rw [List.foldlM_cons, e2]; exact b0
        · simpa only [heq] using b7
        · simpa only [heq] using b8
    obtain ⟨c'', b0, b1, b2, b3, b4, b5, b6, b7, b8⟩ := key g.buffered c gh h5 (fun u hu => ⟨(h6 u).1 hu, h.disj u ((h6 u).1 hu)⟩) rfl rfl rfl h.ghosted h.req h.removed
      h.grid h.ghosts
    obtain ⟨ps, e3, hg3⟩ := clearBuffered_g b7
    have hnone : ∀ u, (if u ∈ g.buffered then none else gh u) = none := by
      intro u
      split
      · rfl
      · rename_i hu
        cases hg : gh u with
        | none => rfl
        | some y => exact absurd ((h6 u).2 (by simp [hg])) hu
    refine ⟨c''.clearBuffered 0, by rw [b0]; rfl, ?_⟩
    rw [e3]
    refine ⟨b1.trans h.rank, h.views.congr ty b2 b3, fun u => ?_, b4, b5, b6, ?_, ?_, by simp, by simp⟩
    · show get c''.locals u = _
      rw [b2]; exact h.loc u
    · simp only [hnone] at hg3
      simpa using hg3
    · intro u
      show get c''.ghosts u = _
      rw [b8, hnone]
  · rw [if_neg hb]
    have h0 := h.buf0 (by omega)
    refine ⟨c, rfl, ?_⟩
    have : gh = fun _ => none := funext h0
    rw [← this]
    exact h

end Repast.Context
