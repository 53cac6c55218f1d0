import Verif.Mixed.Frame
import Verif.Context.OneSync

/-! The local agents and the shared space of one rank, in a context with networks. -/
namespace Repast.Mixed
open Repast.Dict Repast.Context Repast.Network Repast.Space

variable {S A P Q : Type} [Proj P Q] {G : Geo Q}

/-- Adding an agent that is in the space but has no location changes nothing. -/
def Readd (K : Kind G P) : Prop := ∀ {r p u}, K.Ok r p → Proj.where_ p u = some none → Proj.add r p u = p

/-- The shared space of rank `r`: `lc` are the locations of the local agents, `gh` those of the other agents (if they are known), `used` are the agents that have ever been added,
and `cl` says that there are no buffered ghosts. -/
structure GJ (K : Kind G P) (r : Nat) (g : Shared P) (lc : Nat → Option (Option Q)) (gh : Option (Nat → Option Q)) (used : Nat → Prop) (cl : Prop) : Prop where
  ok : K.Ok r g.sp
  lo : ∀ u x, lc u = some x → Proj.where_ g.sp u = some x
  buf : ∀ u q, lc u = none → Proj.where_ g.sp u = some (some q) → u ∈ g.buffered
  gh : ∀ f, gh = some f → ∀ u, lc u = none → (Proj.where_ g.sp u).bind id = f u
  nl : ∀ u ∈ g.buffered, lc u = none
  bused : ∀ u ∈ g.buffered, used u
  used : ∀ u, (Proj.where_ g.sp u).isSome = true → used u
  buf0 : G.buf = 0 → g.buffered = []
  clean : cl → g.buffered = []

section
variable {K : Kind G P} {r : Nat} {g : Shared P} {lc lc' : Nat → Option (Option Q)} {gh : Option (Nat → Option Q)} {used used' : Nat → Prop} {cl cl' : Prop}

theorem GJ.congr (h : GJ K r g lc gh used cl) (h1 : ∀ u, lc' u = lc u) (h2 : ∀ u, used u → used' u) (h3 : cl' → cl) : GJ K r g lc' gh used' cl' := by
  rw [funext h1]
  exact ⟨h.ok, h.lo, h.buf, h.gh, h.nl, fun u hu => h2 u (h.bused u hu), fun u hu => h2 u (h.used u hu), h.buf0, fun x => h.clean (h3 x)⟩

theorem GJ.forget (h : GJ K r g lc gh used cl) : GJ K r g lc none used False :=
  ⟨h.ok, h.lo, h.buf, by rintro f ⟨⟩, h.nl, h.bused, h.used, h.buf0, False.elim⟩

/-- An agent that is not local is removed from the space. -/
theorem GJ.removeOther (h : GJ K r g lc gh used cl) {u : Nat} (hu : lc u = none) (hf : ∀ f, gh = some f → f u = none) :
    GJ K r { g with sp := Proj.remove r g.sp u } lc gh used cl := by
  obtain ⟨o, e⟩ := K.remove h.ok u
  refine ⟨o, ?_, ?_, ?_, h.nl, h.bused, ?_, h.buf0, h.clean⟩
  · intro v x hv
    show Proj.where_ (Proj.remove r g.sp u) v = _
    rw [e]
    have : v ≠ u := by rintro rfl; rw [hu] at hv; cases hv
    simp only [upd, if_neg this]
    exact h.lo v x hv
  · intro v q hv hw
    replace hw : Proj.where_ (Proj.remove r g.sp u) v = some (some q) := hw
    rw [e] at hw
    simp only [upd] at hw
    split at hw
    · cases hw
    · exact h.buf v q hv hw
  · intro f hg v hv
    show (Proj.where_ (Proj.remove r g.sp u) v).bind id = _
    rw [e]
    simp only [upd]
    split
    · rename_i e2; rw [e2]; exact (hf f hg).symm
    · exact h.gh f hg v hv
  · intro v hv
    replace hv : (Proj.where_ (Proj.remove r g.sp u) v).isSome = true := hv
    rw [e] at hv
    simp only [upd] at hv
    split at hv
    · cases hv
    · exact h.used v hv

/-- A local agent leaves. -/
theorem GJ.removeLocal (h : GJ K r g lc gh used cl) {u : Nat} (hf : ∀ f, gh = some f → f u = none) :
    GJ K r { g with sp := Proj.remove r g.sp u } (upd lc u none) gh used cl := by
  obtain ⟨o, e⟩ := K.remove h.ok u
  refine ⟨o, ?_, ?_, ?_, ?_, h.bused, ?_, h.buf0, h.clean⟩
  · intro v x hv
    show Proj.where_ (Proj.remove r g.sp u) v = _
    rw [e]
    simp only [upd] at hv ⊢
    split at hv
    · cases hv
    · rename_i hne; rw [if_neg hne]; exact h.lo v x hv
  · intro v q hv hw
    replace hw : Proj.where_ (Proj.remove r g.sp u) v = some (some q) := hw
    rw [e] at hw
    simp only [upd] at hw hv
    split at hw
    · cases hw
    · rename_i hne; rw [if_neg hne] at hv; exact h.buf v q hv hw
  · intro f hg v hv
    show (Proj.where_ (Proj.remove r g.sp u) v).bind id = _
    rw [e]
    simp only [upd] at hv ⊢
    split
    · rename_i e2; rw [e2]; exact (hf f hg).symm
    · rename_i hne; rw [if_neg hne] at hv; exact h.gh f hg v hv
  · intro v hv
    simp only [upd]
    split
    · rfl
    · exact h.nl v hv
  · intro v hv
    replace hv : (Proj.where_ (Proj.remove r g.sp u) v).isSome = true := hv
    rw [e] at hv
    simp only [upd] at hv
    split at hv
    · cases hv
    · exact h.used v hv

theorem adds (hre : Readd K) {p : P} {u : Nat} (h : K.Ok r p) (hw : ∀ q, Proj.where_ p u ≠ some (some q)) :
    K.Ok r (Proj.add r p u) ∧ Proj.where_ (Proj.add r p u) = upd (Proj.where_ p) u (some none) := by
  cases e : Proj.where_ p u with
  | none => exact K.add h e
  | some o =>
    cases o with
    | some q => exact absurd e (hw q)
    | none =>
      rw [hre h e]
      refine ⟨h, ?_⟩
      funext v
      simp only [upd]
      split
      · rename_i hv; rw [hv, e]
      · rfl

/-- A new local agent. -/
theorem GJ.addLocal (hre : Readd K) (h : GJ K r g lc gh used cl) {u : Nat} (hw : ∀ q, Proj.where_ g.sp u ≠ some (some q)) (hb : u ∉ g.buffered) :
    GJ K r { g with sp := Proj.add r g.sp u } (upd lc u (some none)) gh (fun v => used v ∨ v = u) cl := by
  obtain ⟨o, e⟩ := adds hre h.ok hw
  refine ⟨o, ?_, ?_, ?_, ?_, fun v hv => .inl (h.bused v hv), ?_, h.buf0, h.clean⟩
  · intro v x hv
    show Proj.where_ (Proj.add r g.sp u) v = _
    rw [e]
    simp only [upd] at hv ⊢
    split at hv
    · rename_i hv2; rw [if_pos hv2, hv]
    · rename_i hne; rw [if_neg hne]; exact h.lo v x hv
  · intro v q hv hw
    replace hw : Proj.where_ (Proj.add r g.sp u) v = some (some q) := hw
    rw [e] at hw
    simp only [upd] at hw hv
    split at hv
    · cases hv
    · rename_i hne; rw [if_neg hne] at hw; exact h.buf v q hv hw
  · intro f hg v hv
    show (Proj.where_ (Proj.add r g.sp u) v).bind id = _
    rw [e]
    simp only [upd] at hv ⊢
    split at hv
    · cases hv
    · rename_i hne; rw [if_neg hne]; exact h.gh f hg v hv
  · intro v hv
    have : v ≠ u := by rintro rfl; exact hb hv
    simp only [upd, if_neg this]
    exact h.nl v hv
  · intro v hv
    replace hv : (Proj.where_ (Proj.add r g.sp u) v).isSome = true := hv
    rw [e] at hv
    simp only [upd] at hv
    split at hv
    · rename_i e; exact .inr e
    · exact .inl (h.used v hv)

/-- A ghost without a location. -/
theorem GJ.addOther (h : GJ K r g lc gh used cl) {u : Nat} (hu : lc u = none) (hus : used u) (hw : Proj.where_ g.sp u = none) :
    GJ K r { g with sp := Proj.add r g.sp u } lc gh used cl := by
  obtain ⟨o, e⟩ := K.add h.ok hw
  refine ⟨o, ?_, ?_, ?_, h.nl, h.bused, ?_, h.buf0, h.clean⟩
  · intro v x hv
    show Proj.where_ (Proj.add r g.sp u) v = _
    rw [e]
    have : v ≠ u := by rintro rfl; rw [hu] at hv; cases hv
    simp only [upd, if_neg this]
    exact h.lo v x hv
  · intro v q hv hw
    replace hw : Proj.where_ (Proj.add r g.sp u) v = some (some q) := hw
    rw [e] at hw
    simp only [upd] at hw
    split at hw
    · cases hw
    · exact h.buf v q hv hw
  · intro f hg v hv
    show (Proj.where_ (Proj.add r g.sp u) v).bind id = _
    rw [e]
    simp only [upd]
    split
    · rename_i e2
      rw [← h.gh f hg v hv, e2, hw]; rfl
    · exact h.gh f hg v hv
  · intro v hv
    replace hv : (Proj.where_ (Proj.add r g.sp u) v).isSome = true := hv
    rw [e] at hv
    simp only [upd] at hv
    split at hv
    · rename_i e; rw [e]; exact hus
    · exact h.used v hv

/-- A local agent moves. -/
theorem GJ.moveLocal (h : GJ K r g lc gh used cl) {u : Nat} {x : Option Q} (hu : lc u = some x) (q : Q)
    (hx : G.excl → ∀ v, v ≠ u → Proj.where_ g.sp v ≠ some (some (G.dest q))) :
    ∃ p', Proj.move r g.sp u q = some p' ∧ GJ K r { g with sp := p' } (upd lc u (some (some (G.dest q)))) gh used cl := by
  obtain ⟨p', e0, o, e⟩ := K.move h.ok (by rw [h.lo u x hu]; rfl) q hx
  refine ⟨p', e0, o, ?_, ?_, ?_, ?_, h.bused, ?_, h.buf0, h.clean⟩
  · intro v x hv
    show Proj.where_ p' v = _
    rw [e]
    simp only [upd] at hv ⊢
    split at hv
    · rename_i hv2; rw [if_pos hv2, hv]
    · rename_i hne; rw [if_neg hne]; exact h.lo v x hv
  · intro v q hv hw
    replace hw : Proj.where_ p' v = some (some q) := hw
    rw [e] at hw
    simp only [upd] at hw hv
    split at hv
    · cases hv
    · rename_i hne; rw [if_neg hne] at hw; exact h.buf v q hv hw
  · intro f hg v hv
    show (Proj.where_ p' v).bind id = _
    rw [e]
    simp only [upd] at hv ⊢
    split at hv
    · cases hv
    · rename_i hne; rw [if_neg hne]; exact h.gh f hg v hv
  · intro v hv
    have hne : v ≠ u := by rintro rfl; rw [h.nl v hv] at hu; cases hu
    simp only [upd, if_neg hne]
    exact h.nl v hv
  · intro v hv
    replace hv : (Proj.where_ p' v).isSome = true := hv
    rw [e] at hv
    simp only [upd] at hv
    split at hv
    · rename_i e; rw [e]; exact h.used u (by rw [h.lo u x hu]; rfl)
    · exact h.used v hv

/-- A buffered ghost. -/
theorem GJ.buffer {f : Nat → Option Q} (hre : Readd K) (h0 : 0 < G.buf) (h : GJ K r g lc (some f) used False) {u : Nat} {q : Q} (hu : lc u = none) (hus : used u) (hf : f u = none)
    (hv : G.valid q) (hx : G.excl → ∀ v, v ≠ u → Proj.where_ g.sp v ≠ some (some q)) :
    ∃ p', Proj.move r (Proj.add r g.sp u) u q = some p' ∧ GJ K r { sp := p', buffered := g.buffered ++ [u] } lc (some (upd f u (some q))) used False := by
  have hw : ∀ q, Proj.where_ g.sp u ≠ some (some q) := by
    intro q' e
    have := h.gh f rfl u hu
    rw [e, hf] at this
    cases this
  obtain ⟨o1, e1⟩ := adds hre h.ok hw
  obtain ⟨p', e0, o, e⟩ := K.move o1 (u := u) (by rw [e1]; simp [upd]) q (by
    intro he v hv'
    rw [e1, K.dest_id hv]
    simp only [upd, if_neg hv']
    exact hx he v hv')
  rw [e1, K.dest_id hv] at e
  have ew : ∀ v, Proj.where_ p' v = if v = u then some (some q) else Proj.where_ g.sp v := by
    intro v
    rw [e]
    simp only [upd]
    split <;> rfl
  refine ⟨p', e0, o, ?_, ?_, ?_, ?_, ?_, ?_, by omega, False.elim⟩
  · intro v x hvx
    show Proj.where_ p' v = _
    have hne : v ≠ u := by rintro rfl; rw [hu] at hvx; cases hvx
    rw [ew, if_neg hne]
    exact h.lo v x hvx
  · intro v q' hl hw
    replace hw : Proj.where_ p' v = some (some q') := hw
    rw [ew] at hw
    split at hw
    · rename_i e; simp [e]
    · exact List.mem_append.2 (.inl (h.buf v q' hl hw))
  · rintro _ ⟨⟩ v hl
    show (Proj.where_ p' v).bind id = _
    rw [ew]
    simp only [upd]
    split
    · rfl
    · exact h.gh f rfl v hl
  · intro v hv
    rcases List.mem_append.1 hv with hv | hv
    · exact h.nl v hv
    · rw [List.mem_singleton.1 hv]; exact hu
  · intro v hv
    rcases List.mem_append.1 hv with hv | hv
    · exact h.bused v hv
    · rw [List.mem_singleton.1 hv]; exact hus
  · intro v hv
    replace hv : (Proj.where_ p' v).isSome = true := hv
    rw [ew] at hv
    split at hv
    · rename_i e; rw [e]; exact hus
    · exact h.used v hv

theorem GJ.clear (h : GJ K r g lc gh used cl) (ha : ∀ u, G.aim r (Proj.where_ g.sp u) = none) : GJ K r { g with sp := Proj.clear r g.sp } lc gh used cl := by
  obtain ⟨o, e⟩ := K.clear h.ok ha
  refine ⟨o, ?_, ?_, ?_, h.nl, h.bused, ?_, h.buf0, h.clean⟩
  all_goals simp only [e]
  · exact h.lo
  · exact h.buf
  · exact h.gh
  · exact h.used

end

/-- The context of rank `r`: `lo` are the states and locations of the local agents; no agent that fulfils `dead` is local anywhere. -/
structure J (K : Kind G P) (r : Nat) (c : Mx S A P) (lo : Nat → Option (S × Option Q)) (gh : Option (Nat → Option Q)) (used dead : Nat → Prop) (cl : Prop) : Prop where
  rank : c.nc.rank = r
  ok : Ok c.nc.locals
  loc : ∀ u, (get c.nc.locals u).map (·.2) = (lo u).map (·.1)
  removed : ∀ e ∈ c.nc.removed, used e.1 ∧ dead e.1
  sp : ∃ g, c.spaces = [g] ∧ GJ K r g (fun u => (lo u).map (·.2)) gh used cl

section
variable {K : Kind G P} {r : Nat} {c c' : Mx S A P} {lo lo' : Nat → Option (S × Option Q)} {gh : Option (Nat → Option Q)} {used used' dead dead' : Nat → Prop} {cl cl' : Prop}

theorem J.congr (h : J K r c lo gh used dead cl) (h1 : ∀ u, lo' u = lo u) (h2 : ∀ u, used u → used' u) (h3 : ∀ u, used u → dead u → dead' u) (h4 : cl' → cl) :
    J K r c lo' gh used' dead' cl' := by
  obtain ⟨g, e, hg⟩ := h.sp
  rw [funext h1]
  exact ⟨h.rank, h.ok, h.loc, fun e he => ⟨h2 _ (h.removed e he).1, h3 _ (h.removed e he).1 (h.removed e he).2⟩, g, e, hg.congr (fun _ => rfl) h2 h4⟩

theorem J.forget (h : J K r c lo gh used dead cl) : J K r c lo none used dead False := by
  obtain ⟨g, e, hg⟩ := h.sp
  exact ⟨h.rank, h.ok, h.loc, h.removed, g, e, hg.forget⟩

/-- What only concerns networks and ghosts. -/
theorem J.keeps (h : J K r c lo gh used dead cl) (hn : Keeps c.nc c'.nc) (hs : c'.spaces = c.spaces) : J K r c' lo gh used dead cl := by
  obtain ⟨g, e, hg⟩ := h.sp
  exact ⟨hn.rank.trans h.rank, by rw [hn.locals]; exact h.ok, by rw [hn.locals]; exact h.loc, by rw [hn.removed]; exact h.removed, g, hs.trans e, hg⟩

theorem J.onNet (h : J K r c lo gh used dead cl) {f : Network.Cx S A → Option (Network.Cx S A)} (hf : ∀ n', f c.nc = some n' → Keeps c.nc n')
    (e : c.onNet f = some c') : J K r c' lo gh used dead cl := by
  obtain ⟨n', hn, rfl⟩ := Option.map_eq_some_iff.1 e
  exact h.keeps (c' := { c with nc := n' }) (hf n' hn) rfl

theorem J.none_local (h : J K r c lo gh used dead cl) {u : Nat} (hu : lo u = none) : get c.nc.locals u = none := by
  have := h.loc u
  rw [hu] at this
  simpa using this

theorem J.some_local (h : J K r c lo gh used dead cl) {u : Nat} {o : Obj × S} (hu : get c.nc.locals u = some o) : ∃ l, lo u = some (o.2, l) := by
  have := h.loc u
  rw [hu] at this
  simp only [Option.map_some] at this
  obtain ⟨⟨s, l⟩, e1, e2⟩ := Option.map_eq_some_iff.1 this.symm
  simp only at e2
  subst e2
  exact ⟨l, e1⟩

theorem J.of_local (h : J K r c lo gh used dead cl) {u : Nat} {s : S} {l : Option Q} (hu : lo u = some (s, l)) : ∃ o, get c.nc.locals u = some (o, s) := by
  have := h.loc u
  rw [hu] at this
  obtain ⟨⟨o, s'⟩, e1, e2⟩ := Option.map_eq_some_iff.1 this
  simp only [Option.map_some] at e2
  subst e2
  exact ⟨o, e1⟩

theorem J.is_used (h : J K r c lo gh used dead cl) {u : Nat} (hu : (lo u).isSome = true) : used u := by
  obtain ⟨g, e, hg⟩ := h.sp
  obtain ⟨x, hx⟩ := Option.isSome_iff_exists.1 hu
  exact hg.used u (by rw [hg.lo u x.2 (by simp [hx])]; rfl)

/-- The user adds an agent, or an agent arrives. -/
theorem J.add (hre : Readd K) (h : J K r c lo gh used dead cl) {u : Nat} (hw : ∀ q, c.placed 0 u ≠ some (some q)) (hb : cl ∨ ¬ used u) (hd : used u → ¬ dead u) (s : S) :
    J K r (c.add u s) (upd lo u (some (s, none))) gh (fun v => used v ∨ v = u) (fun v => dead v ∧ v ≠ u) cl := by
  obtain ⟨g, e, hg⟩ := h.sp
  have hw' : ∀ q, Proj.where_ g.sp u ≠ some (some q) := by
    intro q
    have := hw q
    simp only [Mx.placed, e, List.getElem?_cons_zero, Option.bind_some] at this
    exact this
  have hb' : u ∉ g.buffered := by
    rcases hb with hc | hn
    · rw [hg.clean hc]; simp
    · exact fun hm => hn (hg.bused u hm)
  have hg' := hg.addLocal hre hw' hb'
  refine ⟨h.rank, h.ok.set _ _, ?_, ?_, _, ?_, hg'.congr (lc' := fun v => (upd lo u (some (s, none)) v).map (·.2)) ?_ (fun _ h => h) (fun h => h)⟩
  · intro v
    show (get (set c.nc.locals u (⟨u, c.nc.fresh⟩, s)) v).map (·.2) = _
    rw [get_set]
    simp only [upd]
    by_cases hv : v = u
    · simp [hv]
    · rw [if_neg (fun e => hv e.symm), if_neg hv]; exact h.loc v
  · intro x hx
    obtain ⟨a, b⟩ := h.removed x hx
    exact ⟨.inl a, b, by intro e; rw [e] at a b; exact hd a b⟩
  · show c.spaces.map (fun g => ({ g with sp := Proj.add c.nc.rank g.sp u } : Shared P)) = [{ g with sp := Proj.add r g.sp u }]
    rw [e, h.rank]; rfl
  · intro v
    simp only [upd]
    split <;> rfl

/-- The user removes a local agent. -/
theorem J.remove (h : J K r c lo none used dead cl) {u : Nat} (e : c.remove u = some c') :
    (lo u).isSome = true ∧ J K r c' (upd lo u none) none used (fun v => dead v ∨ v = u) cl := by
  obtain ⟨c1, e1, rfl⟩ := Option.map_eq_some_iff.1 e
  obtain ⟨n', hn, rfl⟩ := Option.map_eq_some_iff.1 e1
  obtain ⟨o, ho, hn⟩ := Option.bind_eq_some_iff.1 hn
  obtain ⟨l, hl⟩ := h.some_local ho
  obtain ⟨hn1, hn2, hn3⟩ := eachNet_keeps hn
  obtain ⟨g, eg, hg⟩ := h.sp
  have hrank : n'.rank = r := hn1.trans h.rank
  refine ⟨by simp [hl], hrank, ?_, ?_, ?_, { g with sp := Proj.remove r g.sp u }, ?_, ?_⟩
  · show Ok n'.locals
    rw [hn2]; exact h.ok.del u
  · intro v
    show (get n'.locals v).map (·.2) = _
    rw [hn2]
    show (get (del c.nc.locals u) v).map (·.2) = _
    rw [get_del]
    simp only [upd]
    by_cases hv : v = u
    · simp [hv]
    · rw [if_neg (fun e => hv e.symm), if_neg hv]; exact h.loc v
  · intro x hx
    replace hx : x ∈ n'.removed := hx
    rw [hn3] at hx
    replace hx : x ∈ (match get c.nc.ghosted u with | some d => c.nc.removed ++ [(u, d)] | none => c.nc.removed) := hx
    have hold : ∀ x ∈ c.nc.removed, used x.1 ∧ (dead x.1 ∨ x.1 = u) := fun x hx => ⟨(h.removed x hx).1, .inl (h.removed x hx).2⟩
    split at hx
    · rcases List.mem_append.1 hx with hx | hx
      · exact hold x hx
      · rw [List.mem_singleton.1 hx]
        exact ⟨h.is_used (by simp [hl]), .inr rfl⟩
    · exact hold x hx
  · show c.spaces.map (fun g => ({ g with sp := Proj.remove n'.rank g.sp u } : Shared P)) = _
    rw [eg, hrank]; rfl
  · refine (hg.removeLocal (u := u) (by rintro f ⟨⟩)).congr ?_ (fun _ h => h) (fun h => h)
    intro v
    simp only [upd]
    split <;> rfl

theorem J.setState (h : J K r c lo gh used dead cl) {u : Nat} {s : S} (e : c.onNet (fun x => x.setState u s) = some c') :
    ∃ x, lo u = some x ∧ J K r c' (upd lo u (some (s, x.2))) gh used dead cl := by
  obtain ⟨n', hn, rfl⟩ := Option.map_eq_some_iff.1 e
  obtain ⟨o, ho, rfl⟩ := Option.map_eq_some_iff.1 hn
  obtain ⟨l, hl⟩ := h.some_local ho
  obtain ⟨g, eg, hg⟩ := h.sp
  refine ⟨_, hl, h.rank, h.ok.set _ _, ?_, h.removed, g, eg, hg.congr ?_ (fun _ h => h) (fun h => h)⟩
  · intro v
    show (get (set c.nc.locals u (o.1, s)) v).map (·.2) = _
    rw [get_set]
    simp only [upd]
    by_cases hv : v = u
    · simp [hv]
    · rw [if_neg (fun e => hv e.symm), if_neg hv]; exact h.loc v
  · intro v
    simp only [upd]
    split
    · rename_i e; rw [e, hl]; rfl
    · rfl

theorem onSpace_one {g : Shared P} (hs : c.spaces = [g]) {pid : Nat} {f : Shared P → Option (Shared P)} (e : c.onSpace pid f = some c') :
    pid = 0 ∧ ∃ g', f g = some g' ∧ c' = { c with spaces := [g'] } := by
  obtain ⟨g0, e0, e⟩ := Option.bind_eq_some_iff.1 e
  rw [hs] at e0
  cases pid with
  | succ k => simp at e0
  | zero =>
    simp only [List.getElem?_cons_zero, Option.some.injEq] at e0
    subst e0
    obtain ⟨g', hg, rfl⟩ := Option.map_eq_some_iff.1 e
    refine ⟨rfl, g', hg, ?_⟩
    rw [hs]; rfl

/-- A local agent moves. -/
theorem J.move (h : J K r c lo gh used dead cl) {pid u : Nat} {q : Q} {x : S × Option Q} (hu : lo u = some x) (hx : G.excl → ∀ v, v ≠ u → c.placed 0 v ≠ some (some (G.dest q)))
    (e : c.spMove pid u q = some c') : J K r c' (upd lo u (some (x.1, some (G.dest q)))) gh used dead cl := by
  obtain ⟨g, eg, hg⟩ := h.sp
  obtain ⟨rfl, g', e1, rfl⟩ := onSpace_one eg e
  obtain ⟨p', e2, hg'⟩ := hg.moveLocal (u := u) (x := x.2) (by simp [hu]) q (by
    intro he v hv
    have := hx he v hv
    simp only [Mx.placed, eg, List.getElem?_cons_zero, Option.bind_some] at this
    exact this)
  rw [h.rank, e2] at e1
  cases e1
  refine ⟨h.rank, h.ok, ?_, h.removed, _, rfl, hg'.congr ?_ (fun _ h => h) (fun h => h)⟩
  · intro v
    simp only [upd]
    split
    · rename_i e; rw [e, h.loc, hu]; rfl
    · exact h.loc v
  · intro v
    simp only [upd]
    split <;> rfl

/-- An agent that is not local is removed from the space. -/
theorem J.spRemoveOther (h : J K r c lo gh used dead cl) {pid u : Nat} (hu : lo u = none) (hf : ∀ f, gh = some f → f u = none) (e : c.spRemove pid u = some c') :
    J K r c' lo gh used dead cl := by
  obtain ⟨g, eg, hg⟩ := h.sp
  obtain ⟨rfl, g', e1, rfl⟩ := onSpace_one eg e
  cases e1
  refine ⟨h.rank, h.ok, h.loc, h.removed, _, rfl, ?_⟩
  rw [h.rank]
  exact hg.removeOther (by simp [hu]) hf

theorem J.spacesRemove (h : J K r c lo gh used dead cl) {u : Nat} (hu : lo u = none) (hf : ∀ f, gh = some f → f u = none) : J K r (c.spacesRemove u) lo gh used dead cl := by
  obtain ⟨g, eg, hg⟩ := h.sp
  refine ⟨h.rank, h.ok, h.loc, h.removed, { g with sp := Proj.remove r g.sp u }, ?_, hg.removeOther (by simp [hu]) hf⟩
  show c.spaces.map (fun g => ({ g with sp := Proj.remove c.nc.rank g.sp u } : Shared P)) = _
  rw [eg, h.rank]; rfl

theorem removeGhostMx_keeps {u : Nat} (e : c.removeGhost u = some c') : Keeps c.nc c'.nc ∧ c'.spaces = c.spaces := by
  obtain ⟨n', hn, rfl⟩ := Option.map_eq_some_iff.1 e
  exact ⟨removeGhost_keeps hn, rfl⟩

/-- `_pre_synch_ghosts` of the space. -/
theorem J.preSpace (h : J K r c lo gh used dead cl) (e : c.preSpace 0 = some c') : J K r c' lo (some fun _ => none) used dead True := by
  obtain ⟨g, eg, hg⟩ := h.sp
  unfold Mx.preSpace at e
  rw [eg] at e
  simp only [List.getElem?_cons_zero, Option.bind_some] at e
  rw [K.bufSize hg.ok] at e
  split at e
  · obtain ⟨c1, e1, e2⟩ := Option.bind_eq_some_iff.1 e
    -- the buffered ghosts leave the space one by one
    have key : ∀ (l : List Nat) (c c1 : Mx S A P), J K r c lo none used dead False → (∀ u ∈ l, lo u = none) →
        (∀ u q, lo u = none → c.placed 0 u = some (some q) → u ∈ l) →
        l.foldlM (fun (c : Mx S A P) u => (c.spRemove 0 u).bind fun c => c.removeGhost u) c = some c1 →
        J K r c1 lo none used dead False ∧ ∀ u q, lo u = none → c1.placed 0 u ≠ some (some q) := by
      intro l
      induction l with
      | nil =>
        intro c c1 h _ hl e
        cases e
        exact ⟨h, fun u q hu hp => by simpa using hl u q hu hp⟩
      | cons u l ih =>
        intro c c1 h hn hl e
        rw [List.foldlM_cons, Option.bind_eq_bind] at e
        obtain ⟨c2, e2, e⟩ := Option.bind_eq_some_iff.1 e
        obtain ⟨c3, e3, e2⟩ := Option.bind_eq_some_iff.1 e2
        have h3 := h.spRemoveOther (hn u (by simp)) (by rintro f ⟨⟩) e3
        obtain ⟨k1, k2⟩ := removeGhostMx_keeps e2
        refine ih c2 c1 (h3.keeps k1 k2) (fun v hv => hn v (by simp [hv])) ?_ e
        intro v q hv hp
        obtain ⟨g, eg, hg⟩ := h.sp
        obtain ⟨-, g', e4, rfl⟩ := onSpace_one eg e3
        cases e4
        simp only [Mx.placed, k2, List.getElem?_cons_zero, Option.bind_some] at hp
        rw [(K.remove (by rw [h.rank]; exact hg.ok) u).2] at hp
        simp only [upd] at hp
        split at hp
        · cases hp
        · rename_i hne
          have := hl v q hv (by simp only [Mx.placed, eg, List.getElem?_cons_zero, Option.bind_some]; exact hp)
          rcases List.mem_cons.1 this with rfl | this
          · exact absurd rfl hne
          · exact this
    obtain ⟨h1, h2⟩ := key g.buffered c c1 h.forget (fun u hu => by simpa using hg.nl u hu) (by
      intro u q hu hp
      simp only [Mx.placed, eg, List.getElem?_cons_zero, Option.bind_some] at hp
      exact hg.buf u q (by simp [hu]) hp) e1
    obtain ⟨g1, eg1, hg1⟩ := h1.sp
    obtain ⟨-, g', e4, rfl⟩ := onSpace_one eg1 e2
    cases e4
    have hno : ∀ u q, lo u = none → Proj.where_ g1.sp u ≠ some (some q) := by
      intro u q hu
      have := h2 u q hu
      simpa only [Mx.placed, eg1, List.getElem?_cons_zero, Option.bind_some] using this
    refine ⟨h1.rank, h1.ok, h1.loc, h1.removed, _, rfl, hg1.ok, hg1.lo, ?_, ?_, by simp, by simp, hg1.used, fun _ => rfl, fun _ => rfl⟩
    · intro u q hu hp
      exact absurd hp (hno u q (by simpa using hu))
    · rintro f ⟨⟩ u hu
      cases hw : Proj.where_ g1.sp u with
      | none => simp [hw]
      | some o =>
        cases o with
        | none => simp [hw]
        | some q => exact absurd hw (hno u q (by simpa using hu))
  · rename_i hb
    cases e
    have hb0 := hg.buf0 (by omega)
    refine ⟨h.rank, h.ok, h.loc, h.removed, g, eg, hg.ok, hg.lo, hg.buf, ?_, hg.nl, hg.bused, hg.used, hg.buf0, fun _ => hb0⟩
    rintro f ⟨⟩ u hu
    cases hw : Proj.where_ g.sp u with
    | none => rfl
    | some o =>
      cases o with
      | none => rfl
      | some q =>
        have := hg.buf u q hu hw
        rw [hb0] at this
        simp at this

end
end Repast.Mixed
