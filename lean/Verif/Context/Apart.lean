import Verif.Context.Requested

/-!
C66: agents that are out of bounds and come to a rank that has a ghost of them. The ghost may be there because the rank requested the agent: the ghosts of buffers are
removed before.
-/
namespace Repast.Context
open Repast.Dict

variable {S P Q : Type} [Proj P Q] {ty : Nat → Nat} {n : Nat}

/-- Specification: no rank has an agent both as a local agent and as a ghost. -/
def NotBoth (w : World S P) : Prop := ∀ r u, ((w r).agent u).isSome = true → (w r).ghostAgent u = none

/-- The agents in `us` may be both. -/
def NotBothBut (us : List Nat) (c : Cx S P) : Prop := ∀ u, (get c.locals u).isSome = true → (get c.ghosts u).isSome = true → u ∈ us

theorem notBoth_iff (w : World S P) : NotBoth w ↔ ∀ r, NotBothBut [] (w r) := by
  unfold NotBoth NotBothBut Cx.agent Cx.ghostAgent
  refine ⟨fun h r u h1 h2 => ?_, fun h r u h1 => ?_⟩
  · have := h r u h1
    cases hg : get (w r).ghosts u with
    | none => rw [hg] at h2; cases h2
    | some g => rw [hg] at this; cases this
  · cases hg : get (w r).ghosts u with
    | none => rfl
    | some g => exact absurd (h r u h1 (by rw [hg]; rfl)) (by simp)

theorem NotBothBut.mono {us vs : List Nat} {c c' : Cx S P} (h : NotBothBut us c) (hl : ∀ u, (get c'.locals u).isSome = true → (get c.locals u).isSome = true)
    (hg : ∀ u, (get c'.ghosts u).isSome = true → (get c.ghosts u).isSome = true) (hs : ∀ u ∈ us, u ∈ vs) : NotBothBut vs c' :=
  fun u h1 h2 => hs u (h u (hl u h1) (hg u h2))

theorem projRemove_dicts (c : Cx S P) (pid u : Nat) : (c.projRemove pid u).locals = c.locals ∧ (c.projRemove pid u).ghosts = c.ghosts := by
  unfold Cx.projRemove
  split <;> exact ⟨rfl, rfl⟩

theorem clearOob_dicts (c : Cx S P) (pid : Nat) : (c.clearOob pid).locals = c.locals ∧ (c.clearOob pid).ghosts = c.ghosts := by
  unfold Cx.clearOob
  split <;> exact ⟨rfl, rfl⟩

theorem take_dicts {c : Cx S P} {u : Nat} {x : Cx S P × S × Option (Dict Int)} (h : c.take ty u = some x) : x.1.locals = del c.locals u ∧ x.1.ghosts = c.ghosts := by
  unfold Cx.take at h
  obtain ⟨s, -, h⟩ := Option.bind_eq_some_iff.1 h
  obtain ⟨d, -, rfl⟩ := Option.map_eq_some_iff.1 h
  exact ⟨rfl, rfl⟩

theorem projMove_ghosts {c c' : Cx S P} {pid u : Nat} {pt : Q} (h : c.projMove pid u pt = some c') : c'.ghosts = c.ghosts := by
  unfold Cx.projMove at h
  split at h
  · cases h
  · obtain ⟨sp, -, rfl⟩ := Option.map_eq_some_iff.1 h
    rfl

theorem arrive_dicts {c : Cx S P} {u : Nat} {s : S} {gh : Option (Dict Int)} {x : Cx S P × Bool} (h : c.arrive ty u s gh = some x) :
    x.1.locals = Dict.set c.locals u s ∧ x.1.ghosts = c.ghosts ∧ x.2 = (get c.ghosts u).isSome := by
  unfold Cx.arrive at h
  simp only at h
  split at h
  · obtain rfl := Option.some.inj h
    exact ⟨rfl, rfl, rfl⟩
  · obtain ⟨c1, hc, rfl⟩ := Option.map_eq_some_iff.1 h
    unfold Cx.setGhosted at hc
    split at hc
    · obtain rfl := Option.some.inj hc
      exact ⟨rfl, rfl, rfl⟩
    · split at hc
      · obtain rfl := Option.some.inj hc
        exact ⟨rfl, rfl, rfl⟩
      · cases hc

/-- A loop keeps what its body keeps. -/
theorem foldlM_keep {B M : Type} {f : B → M → Option B} {I : B → Prop} {ms : List M} (hf : ∀ m ∈ ms, ∀ b b', f b m = some b' → I b → I b') :
    ∀ {b b' : B}, ms.foldlM f b = some b' → I b → I b' := by
  induction ms with
  | nil =>
    intro b b' h hb
    obtain rfl : b = b' := by simpa using h
    exact hb
  | cons m ms ih =>
    intro b b' h hb
    rw [List.foldlM_cons] at h
    obtain ⟨y, h1, h2⟩ := Option.bind_eq_some_iff.1 h
    exact ih (fun m hm => hf m (List.mem_cons_of_mem _ hm)) h2 (hf m List.mem_cons_self b y h1 hb)

/-- What gathering the agents that are out of bounds keeps: the ghosts, and that those whose states are sent are in the list of those that leave. -/
def Gathering (gh : Dict (Ghost S)) (l : Dict S) (x : Cx S P × List (Nat × OobMsg S Q) × List Nat) : Prop :=
  x.1.ghosts = gh ∧ (∀ u, (get x.1.locals u).isSome = true → (get l u).isSome = true) ∧ ((∃ m ∈ x.2.1, m.2.st.isSome = true) → x.2.2 ≠ [])

theorem gatherOob_gathering {c : Cx S P} {x : Cx S P × List (Nat × OobMsg S Q) × List Nat} (h : c.gatherOob ty n = some x) : Gathering c.ghosts c.locals x := by
  unfold Cx.gatherOob at h
  refine foldlM_keep (I := Gathering c.ghosts c.locals) ?_ h ⟨rfl, fun _ h => h, fun ⟨m, hm, _⟩ => by cases hm⟩
  intro pid _ b b' hb hI
  obtain ⟨y, hy, rfl⟩ := Option.map_eq_some_iff.1 hb
  have hI' : Gathering c.ghosts c.locals y := by
    refine foldlM_keep (I := Gathering c.ghosts c.locals) ?_ hy hI
    intro e _ z z' hz hI
    unfold Cx.gatherOne at hz
    split at hz
    · cases hz
    · split at hz
      · obtain rfl := Option.some.inj hz
        refine ⟨hI.1, hI.2.1, ?_⟩
        rintro ⟨m, hm, hs⟩
        rcases List.mem_append.1 hm with hm | hm
        · exact hI.2.2 ⟨m, hm, hs⟩
        · rw [List.mem_singleton.1 hm] at hs
          cases hs
      · obtain ⟨t, ht, rfl⟩ := Option.map_eq_some_iff.1 hz
        obtain ⟨h1, h2⟩ := take_dicts ht
        obtain ⟨h3, h4⟩ := projRemove_dicts t.1 pid e.1
        refine ⟨h4.trans (h2.trans hI.1), ?_, fun _ => by simp⟩
        intro u hu
        simp only at hu
        rw [h3, h1, get_del] at hu
        split at hu
        · cases hu
        · exact hI.2.1 u hu
  obtain ⟨h1, h2⟩ := clearOob_dicts y.1 pid
  exact ⟨h2.trans hI'.1, fun u hu => hI'.2.1 u (by rw [← h1]; exact hu), hI'.2.2⟩

theorem processOob_apart {c : Cx S P} {ms : List (OobMsg S Q)} {x : Cx S P × List Nat} (h : c.processOob ty ms = some x) (hc : NotBothBut [] c) : NotBothBut x.2 x.1 := by
  unfold Cx.processOob at h
  refine foldlM_keep (I := fun b : Cx S P × List Nat => NotBothBut b.2 b.1) ?_ h hc
  intro m _ b b' hb hI
  unfold Cx.processOne at hb
  obtain ⟨t, ht, hb⟩ := Option.bind_eq_some_iff.1 hb
  obtain ⟨c1, hc1, rfl⟩ := Option.map_eq_some_iff.1 hb
  have hI' : NotBothBut t.2 t.1 := by
    unfold Cx.receiveOob at ht
    split at ht
    · obtain rfl := Option.some.inj ht; exact hI
    · split at ht
      · cases ht
      · rename_i s gh _
        obtain ⟨q, hq, rfl⟩ := Option.map_eq_some_iff.1 ht
        obtain ⟨h1, h2, h3⟩ := arrive_dicts hq
        intro u hu hg
        simp only at hu hg ⊢
        rw [h2] at hg
        rw [h1, get_set] at hu
        rw [h3]
        by_cases hm : m.uid = u
        · subst hm
          rw [if_pos hg]
          exact List.mem_append_right _ List.mem_cons_self
        · rw [if_neg hm] at hu
          have := hI u hu hg
          split
          · exact List.mem_append_left _ this
          · exact this
  exact hI'.mono (fun u hu => by rw [projMove_locals hc1] at hu; exact hu) (fun u hu => by rw [projMove_ghosts hc1] at hu; exact hu) (fun _ h => h)

theorem processOob_came {c : Cx S P} {ms : List (OobMsg S Q)} {x : Cx S P × List Nat} (h : c.processOob ty ms = some x) (hx : x.2 ≠ []) : ∃ m ∈ ms, m.st.isSome = true := by
  unfold Cx.processOob at h
  refine foldlM_keep (I := fun b : Cx S P × List Nat => b.2 ≠ [] → ∃ m ∈ ms, m.st.isSome = true) ?_ h (fun e => absurd rfl e) hx
  intro m hm b b' hb hI hne
  unfold Cx.processOne at hb
  obtain ⟨t, ht, hb⟩ := Option.bind_eq_some_iff.1 hb
  obtain ⟨c1, hc1, rfl⟩ := Option.map_eq_some_iff.1 hb
  unfold Cx.receiveOob at ht
  split at ht
  · obtain rfl := Option.some.inj ht; exact hI hne
  · split at ht
    · cases ht
    · rename_i hst
      exact ⟨m, hm, by rw [hst]; rfl⟩

theorem deleteGhosts_apart {us : List Nat} {c c' : Cx S P} (h : c.deleteGhosts us = some c') (hc : NotBothBut us c) : NotBothBut [] c' := by
  unfold Cx.deleteGhosts at h
  induction us generalizing c with
  | nil =>
    obtain rfl : c = c' := by simpa using h
    exact hc
  | cons m us ih =>
    rw [List.foldlM_cons] at h
    obtain ⟨y, h1, h2⟩ := Option.bind_eq_some_iff.1 h
    refine ih h2 ?_
    unfold Cx.deleteGhost at h1
    split at h1
    · cases h1
    · obtain rfl := Option.some.inj h1
      intro u hu hg
      simp only [get_del] at hg
      split at hg
      · cases hg
      · rename_i hne
        rcases List.mem_cons.1 (hc u hu hg) with e | e
        · exact absurd e.symm hne
        · exact e

/-- The agents that are out of bounds are moved, and are no longer ghosts where they come to. -/
theorem moveOob_apart {w w' : World S P} (h : moveOob ty n true w = some w') (hw : ∀ r, NotBothBut [] (w r)) : ∀ r, NotBothBut [] (w' r) := by
  unfold moveOob at h
  simp only at h
  obtain ⟨w1, h1, h2⟩ := Option.bind_eq_some_iff.1 h
  have s1 : ∀ r, NotBothBut [] (w1 r) := by
    intro r
    rcases each_cases h1 r with e | ⟨-, e⟩
    · rw [e]; exact hw r
    · obtain ⟨x, hx, e⟩ := Option.map_eq_some_iff.1 e
      obtain ⟨g1, g2, -⟩ := gatherOob_gathering hx
      rw [← e]
      exact (hw r).mono g2 (fun u hu => by rw [g1] at hu; exact hu) (fun _ h => h)
  intro r
  rcases each_cases h2 r with e | ⟨-, e⟩
  · rw [e]; exact s1 r
  · obtain ⟨x, hx, e⟩ := Option.bind_eq_some_iff.1 e
    have hp := processOob_apart hx (s1 r)
    split at e
    · exact deleteGhosts_apart e hp
    · rename_i hd
      rw [← Option.some.inj e]
      by_cases hx2 : x.2 = []
      · rw [hx2] at hp; exact hp
      · exfalso
        obtain ⟨m, hm, hst⟩ := processOob_came hx hx2
        obtain ⟨y, hy, rfl⟩ := List.mem_map.1 hm
        obtain ⟨hs, hy⟩ := mem_recv.1 hy
        refine hd ?_
        rw [Bool.and_true, List.any_eq_true]
        refine ⟨y.1, List.mem_range.2 hs, ?_⟩
        cases hg : (w y.1).gatherOob ty n with
        | none => rw [hg] at hy; cases hy
        | some z =>
          rw [hg] at hy
          have := (gatherOob_gathering hg).2.2 ⟨_, hy, hst⟩
          unfold leaving
          simp only [Bool.not_eq_true', List.isEmpty_eq_false_iff]
          exact this

/-- `synchronize` without ghosts, with any spaces: an agent that comes to a rank is no longer a ghost there. -/
theorem C66_arrived {w w' : World S P} (hw : NotBoth w) (h : synchronize ty n false w = some w') : NotBoth w' := by
  unfold synchronize at h
  rw [if_neg (by decide)] at h
  exact (notBoth_iff _).2 (moveOob_apart h ((notBoth_iff _).1 hw))

/-! With ghosts: the exchange of the buffers. -/

theorem removeGhost_ghosts {c c' : Cx S P} {u v : Nat} (h : c.removeGhost u = some c') (hv : (get c'.ghosts v).isSome = true) : (get c.ghosts v).isSome = true := by
  unfold Cx.removeGhost at h
  split at h
  · obtain rfl := Option.some.inj h; exact hv
  · split at h
    · cases h
    · rename_i g hg
      obtain rfl := Option.some.inj h
      simp only at hv
      split at hv
      · rw [get_del] at hv
        split at hv
        · cases hv
        · exact hv
      · rw [get_set] at hv
        split at hv
        · rename_i e; subst e; rw [hg]; rfl
        · exact hv

theorem removeGhost_locals {c c' : Cx S P} {u : Nat} (h : c.removeGhost u = some c') : c'.locals = c.locals := by
  unfold Cx.removeGhost at h
  split at h
  · obtain rfl := Option.some.inj h; rfl
  · split at h
    · cases h
    · obtain rfl := Option.some.inj h; rfl

theorem clearBuffered_dicts (c : Cx S P) (pid : Nat) : (c.clearBuffered pid).locals = c.locals ∧ (c.clearBuffered pid).ghosts = c.ghosts := by
  unfold Cx.clearBuffered
  split <;> exact ⟨rfl, rfl⟩

theorem preSynchAll_apart {c c' : Cx S P} (h : c.preSynchAll = some c') (hc : NotBothBut [] c) : NotBothBut [] c' := by
  unfold Cx.preSynchAll at h
  refine foldlM_keep (I := NotBothBut []) ?_ h hc
  intro pid _ b b' hb hI
  unfold Cx.preSynch at hb
  split at hb
  · cases hb
  · split at hb
    · obtain ⟨y, hy, rfl⟩ := Option.map_eq_some_iff.1 hb
      have hI' : NotBothBut [] y := by
        refine foldlM_keep (I := NotBothBut []) ?_ hy hI
        intro u _ z z' hz hI
        obtain ⟨h1, h2⟩ := projRemove_dicts z pid u
        refine hI.mono (fun v hv => ?_) (fun v hv => ?_) (fun _ h => h)
        · rw [removeGhost_locals hz, h1] at hv; exact hv
        · have := removeGhost_ghosts hz hv
          rw [h2] at this; exact this
      obtain ⟨h1, h2⟩ := clearBuffered_dicts y pid
      exact hI'.mono (fun v hv => by rw [h1] at hv; exact hv) (fun v hv => by rw [h2] at hv; exact hv) (fun _ h => h)
    · obtain rfl := Option.some.inj hb; exact hI

theorem refGhost_ghosts {c : Cx S P} {u v : Nat} {i : Int} (hv : (get (c.refGhost u i).ghosts v).isSome = true) : (get c.ghosts v).isSome = true := by
  unfold Cx.refGhost at hv
  split at hv
  · rename_i g hg
    simp only [get_set] at hv
    split at hv
    · rename_i e; subst e; rw [hg]; rfl
    · exact hv
  · exact hv

theorem dropGhost_ghosts {c c' : Cx S P} {u v : Nat} (h : c.dropGhost u = some c') (hv : (get c'.ghosts v).isSome = true) : (get c.ghosts v).isSome = true := by
  unfold Cx.dropGhost at h
  split at h
  · cases h
  · unfold Cx.deleteGhost at h
    split at h
    · cases h
    · obtain rfl := Option.some.inj h
      simp only [get_del] at hv
      split at hv
      · cases hv
      · exact refGhost_ghosts (u := u) (i := 1) hv

theorem updateGhost_ghosts {c c' : Cx S P} {u v : Nat} {s : S} (h : c.updateGhost u s = some c') (hv : (get c'.ghosts v).isSome = true) : (get c.ghosts v).isSome = true := by
  unfold Cx.updateGhost at h
  split at h
  · cases h
  · rename_i g hg
    obtain rfl := Option.some.inj h
    simp only [get_set] at hv
    split at hv
    · rename_i e; subst e; rw [hg]; rfl
    · exact hv

theorem updateGhosts_apart {w w' : World S P} (h : updateGhosts n w = some w') (hw : ∀ r, NotBothBut [] (w r)) : ∀ r, NotBothBut [] (w' r) := by
  unfold updateGhosts at h
  obtain ⟨w1, h1, h2⟩ := Option.bind_eq_some_iff.1 h
  have s1 : ∀ r, NotBothBut [] (w1 r) := by
    unfold updateRemoved at h1
    split at h1
    · intro r
      rcases each_cases h1 r with e | ⟨-, e⟩
      · rw [e]; exact hw r
      · obtain ⟨x, hx, e⟩ := Option.map_eq_some_iff.1 e
        rw [← e]
        have : NotBothBut [] x := foldlM_keep (I := NotBothBut []) (fun u _ z z' hz hI => hI.mono (fun v hv => by rw [dropGhost_locals hz] at hv; exact hv)
          (fun v hv => dropGhost_ghosts hz hv) (fun _ h => h)) hx (hw r)
        exact this
    · cases h1
  unfold updateStates at h2
  simp only at h2
  split at h2
  · intro r
    rcases each_cases h2 r with e | ⟨-, e⟩
    · rw [e]; exact s1 r
    · exact foldlM_keep (I := NotBothBut []) (fun u _ z z' hz hI => hI.mono (fun v hv => by rw [updateGhost_locals hz] at hv; exact hv)
          (fun v hv => updateGhost_ghosts hz hv) (fun _ h => h)) e (s1 r)
  · cases h2

/-- Specification: the ranks of whose local agents there is a ghost have just received the agent from another rank's buffer. -/
def Cx.NotBothOrReceived (c : Cx S P) : Prop :=
  ∀ u, (c.agent u).isSome = true → (c.ghostAgent u).isSome = true → ∃ g ∈ c.projs, u ∈ g.buffered

theorem bufferOne_apart {c c' : Cx S P} {pid : Nat} {m : Nat × S × Q} (h : Cx.bufferOne pid c m = some c') (hc : c.NotBothOrReceived) : c'.NotBothOrReceived := by
  have hl := bufferOne_locals h
  unfold Cx.bufferOne at h
  have hp : ((c.ghostFor m.1 m.2.1).bufferAdd pid m.1).projs = (c.bufferAdd pid m.1).projs ∧ ((c.ghostFor m.1 m.2.1).bufferAdd pid m.1).ghosts = (c.ghostFor m.1 m.2.1).ghosts := by
    have e1 : (c.ghostFor m.1 m.2.1).projs = c.projs ∧ (c.ghostFor m.1 m.2.1).rank = c.rank := by
      unfold Cx.ghostFor Cx.refGhost Cx.addGhost
      split
      · split <;> exact ⟨rfl, rfl⟩
      · exact ⟨rfl, rfl⟩
    unfold Cx.bufferAdd
    rw [e1.1, e1.2]
    split <;> exact ⟨by simp [e1.1], rfl⟩
  obtain ⟨hp, hg⟩ := hp
  have hgh : c'.ghosts = (c.ghostFor m.1 m.2.1).ghosts := (projMove_ghosts h).trans hg
  unfold Cx.projMove at h
  split at h
  · cases h
  · rename_i g0 hg0
    obtain ⟨sp, -, rfl⟩ := Option.map_eq_some_iff.1 h
    rw [hp] at hg0
    have hbuf : (∀ g ∈ c.projs, ∀ u ∈ g.buffered, ∃ g' ∈ (c.bufferAdd pid m.1).projs, u ∈ g'.buffered) ∧ m.1 ∈ g0.buffered := by
      unfold Cx.bufferAdd at hg0 ⊢
      split at hg0
      · rename_i e; rw [e] at hg0; cases hg0
      · rename_i g1 e
        have hlt : pid < c.projs.length := (List.getElem?_eq_some_iff.1 e).1
        simp only [List.getElem?_set, hlt, if_true] at hg0
        obtain rfl := Option.some.inj hg0
        refine ⟨?_, by simp⟩
        intro g hgm u hu
        obtain ⟨k, hk, rfl⟩ := List.mem_iff_getElem.1 hgm
        by_cases hkp : k = pid
        · subst hkp
          refine ⟨_, List.mem_iff_getElem.2 ⟨k, by simpa using hk, rfl⟩, ?_⟩
          rw [List.getElem?_eq_getElem hk] at e
          obtain rfl := Option.some.inj e
          simp [hu]
        · refine ⟨_, List.mem_iff_getElem.2 ⟨k, by simpa using hk, rfl⟩, ?_⟩
          simp only [List.getElem_set]
          rw [if_neg (fun e => hkp e.symm)]
          exact hu
    have hset : ∀ u, (∃ g ∈ (c.bufferAdd pid m.1).projs, u ∈ g.buffered) → ∃ g ∈ ((c.bufferAdd pid m.1).projs.set pid { g0 with sp := sp }), u ∈ g.buffered := by
      rintro u ⟨g, hgm, hu⟩
      obtain ⟨k, hk, rfl⟩ := List.mem_iff_getElem.1 hgm
      refine ⟨_, List.mem_iff_getElem.2 ⟨k, by simpa using hk, rfl⟩, ?_⟩
      simp only [List.getElem_set]
      split
      · rename_i e; subst e
        rw [List.getElem?_eq_getElem hk] at hg0
        obtain rfl := Option.some.inj hg0
        exact hu
      · exact hu
    intro u h1 h2
    simp only [hp]
    refine hset u ?_
    by_cases hu : m.1 = u
    · subst hu
      exact ⟨g0, List.mem_iff_getElem?.2 ⟨pid, hg0⟩, hbuf.2⟩
    · unfold Cx.agent at h1
      unfold Cx.ghostAgent at h2
      rw [hl] at h1
      rw [Option.isSome_map, hgh] at h2
      have h3 : (get c.ghosts u).isSome = true := by
        unfold Cx.ghostFor at h2
        split at h2
        · exact refGhost_ghosts h2
        · simp only [Cx.addGhost, get_set, if_neg hu] at h2
          exact h2
      obtain ⟨g, hgm, hgu⟩ := hc u h1 (by unfold Cx.ghostAgent; rw [Option.isSome_map]; exact h3)
      exact hbuf.1 g hgm u hgu

/-- `synchronize` with ghosts, with any spaces: an agent that comes to a rank is no longer a ghost there, unless a rank sends it as one that is in the buffer. -/
theorem C66_buffers_partial {w w' : World S P} (hw : NotBoth w) (h : synchronize ty n true w = some w') : ∀ r, (w' r).NotBothOrReceived := by
  unfold synchronize at h
  rw [if_pos rfl] at h
  obtain ⟨w1, h1, h⟩ := Option.bind_eq_some_iff.1 h
  obtain ⟨w2, h2, h⟩ := Option.bind_eq_some_iff.1 h
  unfold synchGhosts at h
  obtain ⟨w3, h3, h⟩ := Option.bind_eq_some_iff.1 h
  have s1 : ∀ r, NotBothBut [] (w1 r) := fun r => by
    rcases each_cases h1 r with e | ⟨-, e⟩
    · rw [e]; exact (notBoth_iff w).1 hw r
    · exact preSynchAll_apart e ((notBoth_iff w).1 hw r)
  have s3 : ∀ r, NotBothBut [] (w3 r) := updateGhosts_apart h3 (moveOob_apart h2 s1)
  have s4 : ∀ r, (w3 r).NotBothOrReceived := fun r u a b => by
    unfold Cx.ghostAgent at b
    rw [Option.isSome_map] at b
    exact absurd (s3 r u a b) (by simp)
  refine foldlM_keep (I := fun w : World S P => ∀ r, (w r).NotBothOrReceived) ?_ h s4
  intro pid _ v v' hv hI r
  unfold synchGrid at hv
  simp only at hv
  split at hv
  · split at hv
    · rcases each_cases hv r with e | ⟨-, e⟩
      · rw [e]; exact hI r
      · exact foldlM_keep (I := fun c : Cx S P => c.NotBothOrReceived) (fun m _ z z' hz hI => bufferOne_apart hz hI) e (hI r)
    · cases hv
  · obtain rfl := Option.some.inj hv; exact hI r

/-- Rank 1 requests agent 7 of rank 0, which moves out of bounds to rank 1. -/
def coming7 : List (WOp Nat) := [.add 0 7 1, .gmove 0 0 7 ⟨4, 0, 0⟩, .request fun k => if k = 1 then [(7, 0)] else [], .gmove 0 0 7 ⟨8, 0, 0⟩]

/-- The hypotheses: before `synchronize` the agent is a ghost on rank 1. -/
example : seen [line2 false 2] coming7 1 = some (none, some 1, [some none]) ∧
    seen [line2 false 2] (coming7 ++ [.synch false]) 1 = some (some 1, none, [some (some ⟨8, 0, 0⟩)]) ∧
    seen [line2 false 2] (coming7 ++ [.synch true]) 1 = some (some 1, none, [some (some ⟨8, 0, 0⟩)]) := by
  refine ⟨?_, ?_, ?_⟩ <;> decide +kernel

/-- Violated by `move_agents`, also if it moves no agents: it moves the agents that are out of bounds like `synchronize`, but the ghosts stay. The rank then has the agent
twice. The ghost keeps its state for ever. -/
theorem C66_violation_move_agents :
    seen [line2 false 2] (coming7 ++ [.move fun _ => []]) 1 = some (some 1, some 1, [some (some ⟨8, 0, 0⟩)]) ∧
    seen [line2 false 2] (coming7 ++ [.move fun _ => [], .setState 1 7 5, .synch true]) 1 = some (some 5, some 1, [some (some ⟨8, 0, 0⟩)]) := by
  refine ⟨?_, ?_⟩ <;> decide +kernel

end Repast.Context
