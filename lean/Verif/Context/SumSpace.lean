import Verif.Context.ManyKind

/-! Contexts with spaces of two different kinds: a space is one of the first kind, with points of the first kind, or one of the second kind. -/
namespace Repast.Context
open Repast.Dict Repast.Space

variable {P1 P2 Q1 Q2 : Type}

/-- A space of the first kind (e.g. `SharedGrid`) or of the second (e.g. `SharedCSpace`); a point of the wrong kind is not accepted by `move`. (Simplified: what happens if one is
passed is not modelled, see `Loose.takes`.) -/
instance sumProj [Proj P1 Q1] [Proj P2 Q2] : Proj (P1 ⊕ P2) (Q1 ⊕ Q2) where
  bufSize
    | .inl p => Proj.bufSize p
    | .inr p => Proj.bufSize p
  where_
    | .inl p, u => (Proj.where_ p u).map (Option.map .inl)
    | .inr p, u => (Proj.where_ p u).map (Option.map .inr)
  oob
    | .inl p, u => (Proj.oob p u).map fun e => (e.1, .inl e.2)
    | .inr p, u => (Proj.oob p u).map fun e => (e.1, .inr e.2)
  add
    | r, .inl p, u => .inl (Proj.add r p u)
    | r, .inr p, u => .inr (Proj.add r p u)
  remove
    | r, .inl p, u => .inl (Proj.remove r p u)
    | r, .inr p, u => .inr (Proj.remove r p u)
  move
    | r, .inl p, u, .inl q => (Proj.move r p u q).map .inl
    | r, .inr p, u, .inr q => (Proj.move r p u q).map .inr
    | _, _, _, _ => none
  clear
    | r, .inl p => .inl (Proj.clear r p)
    | r, .inr p => .inr (Proj.clear r p)
  sends
    | r, n, .inl p => (Proj.sends r n p).map fun l => l.map fun m => (m.1, m.2.1, .inl m.2.2)
    | r, n, .inr p => (Proj.sends r n p).map fun l => l.map fun m => (m.1, m.2.1, .inr m.2.2)

/-- A geometry with points of two kinds, of which only the first are locations. -/
def Geo.left (G : Geo Q1) : Geo (Q1 ⊕ Q2) where
  n := G.n
  buf := G.buf
  dest
    | .inl q => .inl (G.dest q)
    | .inr q => .inr q
  valid
    | .inl q => G.valid q
    | .inr _ => False
  inside
    | r, .inl q => G.inside r q
    | _, .inr _ => false
  owner
    | .inl q => G.owner q
    | .inr _ => 0
  near
    | r, .inl q => G.near r q
    | _, .inr _ => False
  excl := G.excl

/-- A geometry with points of two kinds, of which only the second are locations. -/
def Geo.right (G : Geo Q2) : Geo (Q1 ⊕ Q2) where
  n := G.n
  buf := G.buf
  dest
    | .inl q => .inl q
    | .inr q => .inr (G.dest q)
  valid
    | .inl _ => False
    | .inr q => G.valid q
  inside
    | _, .inl _ => false
    | r, .inr q => G.inside r q
  owner
    | .inl _ => 0
    | .inr q => G.owner q
  near
    | _, .inl _ => False
    | r, .inr q => G.near r q
  excl := G.excl

theorem optMap_inj {α β : Type} {f : α → β} (hf : ∀ a b, f a = f b → a = b) {x y : Option α} (h : x.map f = y.map f) : x = y := by
  cases x <;> cases y <;> simp at h ⊢
  exact hf _ _ h

theorem mapInl_inj : ∀ a b : Option Q1, Option.map (Sum.inl (β := Q2)) a = Option.map Sum.inl b → a = b := fun _ _ h => optMap_inj (fun _ _ h => by cases h; rfl) h
theorem mapInr_inj : ∀ a b : Option Q2, Option.map (Sum.inr (α := Q1)) a = Option.map Sum.inr b → a = b := fun _ _ h => optMap_inj (fun _ _ h => by cases h; rfl) h

theorem Geo.left_aim (G : Geo Q1) (r : Nat) (o : Option (Option Q1)) : (G.left (Q2 := Q2)).aim r (o.map (Option.map .inl)) = (G.aim r o).map fun e => (e.1, .inl e.2) := by
  cases o with
  | none => rfl
  | some l =>
    cases l with
    | none => rfl
    | some q =>
      by_cases h : G.inside r q = true
      · have h' : (G.left (Q2 := Q2)).inside r (.inl q) = true := h
        simp [Geo.aim, h, h']
      · have h' : ¬ (G.left (Q2 := Q2)).inside r (.inl q) = true := h
        simp [Geo.aim, h, h']
        rfl

theorem Geo.right_aim (G : Geo Q2) (r : Nat) (o : Option (Option Q2)) : (G.right (Q1 := Q1)).aim r (o.map (Option.map .inr)) = (G.aim r o).map fun e => (e.1, .inr e.2) := by
  cases o with
  | none => rfl
  | some l =>
    cases l with
    | none => rfl
    | some q =>
      by_cases h : G.inside r q = true
      · have h' : (G.right (Q1 := Q1)).inside r (.inr q) = true := h
        simp [Geo.aim, h, h']
      · have h' : ¬ (G.right (Q1 := Q1)).inside r (.inr q) = true := h
        simp [Geo.aim, h, h']
        rfl

variable [Proj P1 Q1] [Proj P2 Q2]

/-- The first of two kinds of spaces. -/
def Loose.left {G : Geo Q1} (K : Loose G P1) : Loose (G.left (Q2 := Q2)) (P1 ⊕ P2) where
  new := .inl K.new
  Ok r p ag := ∃ p1 ag1, p = .inl p1 ∧ ag = (fun u => (ag1 u).map (Option.map .inl)) ∧ K.Ok r p1 ag1
  exact := K.exact
  n_pos := K.n_pos
  owner_spec := by
    rintro (q | q) h
    · exact K.owner_spec h
    · exact h.elim
  takes
    | .inl q => K.takes q
    | .inr _ => False
  takes_valid := by
    rintro (q | q) h
    · exact K.takes_valid h
    · exact h.elim
  dest_id := by
    rintro (q | q) h
    · exact congrArg Sum.inl (K.dest_id h)
    · exact h.elim
  new_ok r := ⟨_, _, rfl, rfl, K.new_ok r⟩
  shows := by
    rintro r _ _ u x ⟨p, ag, rfl, rfl, h⟩ e
    obtain ⟨y, hy, rfl⟩ := Option.map_eq_some_iff.1 e
    show (Proj.where_ p u).map _ = _
    rw [K.shows h hy]
    rfl
  hides := by
    rintro r _ _ he ⟨p, ag, rfl, rfl, h⟩
    funext u
    show (Proj.where_ p u).map _ = _
    rw [K.hides he h]
  valid := by
    rintro r _ _ u (q | q) ⟨p, ag, rfl, rfl, h⟩ e
    · obtain ⟨y, hy, e⟩ := Option.map_eq_some_iff.1 e
      obtain ⟨z, rfl, e⟩ := Option.map_eq_some_iff.1 e
      cases e
      exact K.valid h hy
    · obtain ⟨y, hy, e⟩ := Option.map_eq_some_iff.1 e
      obtain ⟨z, -, e⟩ := Option.map_eq_some_iff.1 e
      cases e
  bufSize := by
    rintro r _ _ ⟨p, ag, rfl, rfl, h⟩
    exact K.bufSize h
  oob := by
    rintro r _ _ ⟨p, ag, rfl, rfl, h⟩ u
    show (Proj.oob p u).map _ = _
    rw [Geo.left_aim, K.oob h]
  add := by
    rintro r _ _ u ⟨p, ag, rfl, rfl, h⟩ hu
    refine ⟨_, upd ag u (some none), rfl, ?_, K.add h (by simpa using hu)⟩
    funext v
    simp only [upd]
    split <;> rfl
  remove := by
    rintro r _ _ u ⟨p, ag, rfl, rfl, h⟩ hu
    refine ⟨_, upd ag u none, rfl, ?_, K.remove h (by simpa using hu)⟩
    funext v
    simp only [upd]
    split <;> rfl
  move := by
    rintro r _ _ u ⟨p, ag, rfl, rfl, h⟩ hu (q | q) ht hf
    · obtain ⟨p', a, b⟩ := K.move (u := u) h (by simpa using hu) q ht (fun he v hv e => hf he v hv (by simp only [e]; rfl))
      refine ⟨.inl p', ?_, p', upd ag u (some (some (G.dest q))), rfl, ?_, b⟩
      · show (Proj.move r p u q).map _ = _
        rw [a]; rfl
      · funext v
        simp only [upd]
        split <;> rfl
    · exact ht.elim
  clear := by
    rintro r _ _ ⟨p, ag, rfl, rfl, h⟩ hn
    refine ⟨_, ag, rfl, rfl, K.clear h (fun u => ?_)⟩
    have := hn u
    rw [Geo.left_aim] at this
    simpa using this
  leave := by
    rintro r _ ag' ag2 he ⟨p, ag, rfl, rfl, h⟩ h1 h2 h3
    refine ⟨_, fun u => if ag2 u = none then none else ag u, rfl, ?_, K.leave he h ?_ ?_ ?_⟩
    · funext u
      rcases h1 u with e | e
      · simp only [e]
        cases ag u <;> simp
      · simp [e]
    · intro u
      split
      · exact .inr rfl
      · exact .inl rfl
    · intro u hu
      rw [if_pos]
      refine h2 u ?_
      rw [Geo.left_aim]
      simpa using hu
    · intro u q hu hi
      have := h3 u (.inl q) (by simp only [hu]; rfl) hi
      simp only [this, hu]
      simp
  sends := by
    rintro r _ _ h0 hr ⟨p, ag, rfl, rfl, h⟩ hin
    obtain ⟨l, a, b, c⟩ := K.sends h0 hr h (fun u q hu => hin u (.inl q) (by simp only [hu]; rfl))
    refine ⟨l.map fun m => (m.1, m.2.1, .inl m.2.2), ?_, ?_, ?_⟩
    · show (Proj.sends r G.n p).map _ = _
      rw [a]; rfl
    · intro k u q
      rw [List.mem_map]
      constructor
      · rintro ⟨⟨k', u', q'⟩, hm, e⟩
        simp only [Prod.mk.injEq] at e
        obtain ⟨rfl, rfl, rfl⟩ := e
        obtain ⟨b1, b2⟩ := (b _ _ _).1 hm
        exact ⟨by simp only [b1]; rfl, b2⟩
      · rintro ⟨e, e2⟩
        obtain ⟨y, hy, e⟩ := Option.map_eq_some_iff.1 e
        obtain ⟨z, rfl, rfl⟩ := Option.map_eq_some_iff.1 e
        exact ⟨(k, u, z), (b _ _ _).2 ⟨hy, e2⟩, rfl⟩
    · intro k
      rw [List.filter_map, List.map_map]
      exact c k

/-- The second of two kinds of spaces. -/
def Loose.right {G : Geo Q2} (K : Loose G P2) : Loose (G.right (Q1 := Q1)) (P1 ⊕ P2) where
  new := .inr K.new
  Ok r p ag := ∃ p1 ag1, p = .inr p1 ∧ ag = (fun u => (ag1 u).map (Option.map .inr)) ∧ K.Ok r p1 ag1
  exact := K.exact
  n_pos := K.n_pos
  owner_spec := by
    rintro (q | q) h
    · exact h.elim
    · exact K.owner_spec h
  takes
    | .inl _ => False
    | .inr q => K.takes q
  takes_valid := by
    rintro (q | q) h
    · exact h.elim
    · exact K.takes_valid h
  dest_id := by
    rintro (q | q) h
    · exact h.elim
    · exact congrArg Sum.inr (K.dest_id h)
  new_ok r := ⟨_, _, rfl, rfl, K.new_ok r⟩
  shows := by
    rintro r _ _ u x ⟨p, ag, rfl, rfl, h⟩ e
    obtain ⟨y, hy, rfl⟩ := Option.map_eq_some_iff.1 e
    show (Proj.where_ p u).map _ = _
    rw [K.shows h hy]
    rfl
  hides := by
    rintro r _ _ he ⟨p, ag, rfl, rfl, h⟩
    funext u
    show (Proj.where_ p u).map _ = _
    rw [K.hides he h]
  valid := by
    rintro r _ _ u (q | q) ⟨p, ag, rfl, rfl, h⟩ e
    · obtain ⟨y, hy, e⟩ := Option.map_eq_some_iff.1 e
      obtain ⟨z, -, e⟩ := Option.map_eq_some_iff.1 e
      cases e
    · obtain ⟨y, hy, e⟩ := Option.map_eq_some_iff.1 e
      obtain ⟨z, rfl, e⟩ := Option.map_eq_some_iff.1 e
      cases e
      exact K.valid h hy
  bufSize := by
    rintro r _ _ ⟨p, ag, rfl, rfl, h⟩
    exact K.bufSize h
  oob := by
    rintro r _ _ ⟨p, ag, rfl, rfl, h⟩ u
    show (Proj.oob p u).map _ = _
    rw [Geo.right_aim, K.oob h]
  add := by
    rintro r _ _ u ⟨p, ag, rfl, rfl, h⟩ hu
    refine ⟨_, upd ag u (some none), rfl, ?_, K.add h (by simpa using hu)⟩
    funext v
    simp only [upd]
    split <;> rfl
  remove := by
    rintro r _ _ u ⟨p, ag, rfl, rfl, h⟩ hu
    refine ⟨_, upd ag u none, rfl, ?_, K.remove h (by simpa using hu)⟩
    funext v
    simp only [upd]
    split <;> rfl
  move := by
    rintro r _ _ u ⟨p, ag, rfl, rfl, h⟩ hu (q | q) ht hf
    · exact ht.elim
    · obtain ⟨p', a, b⟩ := K.move (u := u) h (by simpa using hu) q ht (fun he v hv e => hf he v hv (by simp only [e]; rfl))
      refine ⟨.inr p', ?_, p', upd ag u (some (some (G.dest q))), rfl, ?_, b⟩
      · show (Proj.move r p u q).map _ = _
        rw [a]; rfl
      · funext v
        simp only [upd]
        split <;> rfl
  clear := by
    rintro r _ _ ⟨p, ag, rfl, rfl, h⟩ hn
    refine ⟨_, ag, rfl, rfl, K.clear h (fun u => ?_)⟩
    have := hn u
    rw [Geo.right_aim] at this
    simpa using this
  leave := by
    rintro r _ ag' ag2 he ⟨p, ag, rfl, rfl, h⟩ h1 h2 h3
    refine ⟨_, fun u => if ag2 u = none then none else ag u, rfl, ?_, K.leave he h ?_ ?_ ?_⟩
    · funext u
      rcases h1 u with e | e
      · simp only [e]
        cases ag u <;> simp
      · simp [e]
    · intro u
      split
      · exact .inr rfl
      · exact .inl rfl
    · intro u hu
      rw [if_pos]
      refine h2 u ?_
      rw [Geo.right_aim]
      simpa using hu
    · intro u q hu hi
      have := h3 u (.inr q) (by simp only [hu]; rfl) hi
      simp only [this, hu]
      simp
  sends := by
    rintro r _ _ h0 hr ⟨p, ag, rfl, rfl, h⟩ hin
    obtain ⟨l, a, b, c⟩ := K.sends h0 hr h (fun u q hu => hin u (.inr q) (by simp only [hu]; rfl))
    refine ⟨l.map fun m => (m.1, m.2.1, .inr m.2.2), ?_, ?_, ?_⟩
    · show (Proj.sends r G.n p).map _ = _
      rw [a]; rfl
    · intro k u q
      rw [List.mem_map]
      constructor
      · rintro ⟨⟨k', u', q'⟩, hm, e⟩
        simp only [Prod.mk.injEq] at e
        obtain ⟨rfl, rfl, rfl⟩ := e
        obtain ⟨b1, b2⟩ := (b _ _ _).1 hm
        exact ⟨by simp only [b1]; rfl, b2⟩
      · rintro ⟨e, e2⟩
        obtain ⟨y, hy, e⟩ := Option.map_eq_some_iff.1 e
        obtain ⟨z, rfl, rfl⟩ := Option.map_eq_some_iff.1 e
        exact ⟨(k, u, z), (b _ _ _).2 ⟨hy, e2⟩, rfl⟩
    · intro k
      rw [List.filter_map, List.map_map]
      exact c k

end Repast.Context
