import Verif.Tree.Node
import Verif.Space.Refine

/-! A continuous space behaves like the generic space of `Verif/Space` and its tree represents its location map. -/
namespace Repast.Tree
open Repast.Space (Box upd Op Res Sp Abs Coupled AddsOnlyNew)

/-- The space without addresses and without the tree. -/
def CS.base (s : CS) : Sp CPt := Sp.mk (fun a => (s.agents a).map (·.map s.pts)) s.loc s.wpt

/-- Distinct agents have distinct point objects. -/
structure Addr (s : CS) : Prop where
  lt : ∀ a k, s.agents a = some (some k) → k < s.next
  inj : ∀ a b k, s.agents a = some (some k) → s.agents b = some (some k) → a = b

theorem sp_ext {P : Type} {s t : Sp P} (h1 : ∀ a, s.agents a = t.agents a) (h2 : ∀ p, s.loc p = t.loc p) (h3 : s.wpt = t.wpt) : s = t := by
  cases s; cases t
  simp only [Sp.mk.injEq]
  exact ⟨funext h1, funext h2, h3⟩

theorem Addr.upd_sub {s : CS} (h : Addr s) (s' : CS) (hn : s'.next = s.next) (hs : ∀ a k, s'.agents a = some (some k) → s.agents a = some (some k)) :
    Addr s' := by
  refine ⟨fun a k e => by rw [hn]; exact h.lt a k (hs a k e), fun a b k e1 e2 => h.inj a b k (hs _ _ e1) (hs _ _ e2)⟩

/-- One call, except for the null tree of a one-dimensional space. -/
theorem cstep_base {c : CCfg} {s : CS} (h : Addr s) (hd : c.bounds.numDims ≠ 1) (o : Op CPt) :
    ∃ s' r, cstep c s o = some (s', r) ∧ Addr s' ∧ s'.base = (Space.step c.base s.base o).1 ∧ r = (Space.step c.base s.base o).2 := by
  cases o with
  | getAgent pt => exact ⟨_, _, rfl, ⟨h.lt, h.inj⟩, rfl, rfl⟩
  | getAgents pt => exact ⟨_, _, rfl, ⟨h.lt, h.inj⟩, rfl, rfl⟩
  | getLocation a =>
    refine ⟨_, _, rfl, h, rfl, ?_⟩
    simp only [Space.step, CS.base]
    cases s.agents a <;> rfl
  | contains a =>
    refine ⟨_, _, rfl, h, rfl, ?_⟩
    simp only [Space.step, CS.base]
    cases s.agents a <;> rfl
  | add a =>
    refine ⟨_, _, rfl, h.upd_sub _ rfl ?_, ?_, rfl⟩
    · intro b k e
      simp only [upd] at e
      split at e
      · simp at e
      · exact e
    · refine sp_ext (fun b => ?_) (fun _ => rfl) rfl
      simp only [CS.base, Space.step, Space.add, upd]
      split <;> rfl
  | remove a =>
    have hsub : ∀ b k, upd s.agents a none b = some (some k) → s.agents b = some (some k) := by
      intro b k e
      simp only [upd] at e
      split at e
      · simp at e
      · exact e
    have hag : ∀ b, (upd s.agents a none b).map (·.map s.pts) = upd s.base.agents a none b := by
      intro b
      simp only [upd, CS.base]
      split <;> rfl
    simp only [cstep, cremove, Space.step, Space.remove]
    cases ha : s.agents a with
    | none =>
      have hb : s.base.agents a = none := by simp [CS.base, ha]
      refine ⟨_, _, rfl, h, ?_, ?_⟩ <;> simp only [hb]
    | some o =>
      cases o with
      | none =>
        have hb : s.base.agents a = some none := by simp [CS.base, ha]
        refine ⟨_, _, rfl, h.upd_sub _ rfl hsub, ?_, ?_⟩
        · simp only [hb]
          exact sp_ext hag (fun _ => rfl) rfl
        · simp only [hb]
      | some k =>
        have hb : s.base.agents a = some (some (s.pts k)) := by simp [CS.base, ha]
        simp only [hd, if_false]
        refine ⟨_, _, rfl, h.upd_sub _ rfl hsub, ?_, ?_⟩
        · simp only [hb]
          exact sp_ext hag (fun _ => rfl) rfl
        · simp only [hb]; rfl
  | move a pt =>
    simp only [cstep, cmove, Space.step, Space.move]
    cases ha : s.agents a with
    | none =>
      have hb : s.base.agents a = none := by simp [CS.base, ha]
      refine ⟨_, _, rfl, h, ?_, ?_⟩ <;> simp only [hb]
    | some cur =>
      have hb : s.base.agents a = some (cur.map s.pts) := by simp [CS.base, ha]
      simp only [hb]
      have hw : s.base.wpt = s.wpt := rfl
      have htr : c.base.tr pt s.base.wpt = c.tr pt s.wpt := rfl
      rw [htr]
      by_cases he : cur.map s.pts = some (c.tr pt s.wpt)
      · rw [if_pos he, if_pos he]
        exact ⟨_, _, rfl, ⟨h.lt, h.inj⟩, rfl, rfl⟩
      · rw [if_neg he, if_neg he]
        have hloc : s.base.loc = s.loc := rfl
        rw [hloc]
        cases hp : Space.put c.base s.loc a (c.tr pt s.wpt) with
        | none => exact ⟨_, _, rfl, ⟨h.lt, h.inj⟩, rfl, rfl⟩
        | some loc =>
          simp only [hd, if_false]
          cases cur with
          | none =>
            refine ⟨_, _, rfl, ⟨?_, ?_⟩, ?_, rfl⟩
            · intro b k e
              simp only [upd] at e
              split at e
              · simp only [Option.some.injEq] at e
                simp only; omega
              · have := h.lt b k e
                simp only; omega
            · intro b d k e1 e2
              simp only [upd] at e1 e2
              split at e1 <;> split at e2
              · rename_i h1 h2; rw [h1, h2]
              · simp only [Option.some.injEq] at e1
                have := h.lt d k e2
                omega
              · simp only [Option.some.injEq] at e2
                have := h.lt b k e1
                omega
              · exact h.inj b d k e1 e2
            · refine sp_ext (fun b => ?_) (fun _ => rfl) rfl
              simp only [CS.base, upd]
              by_cases hba : b = a
              · simp [hba, upd_self]
              · simp only [hba, if_false]
                cases hb' : s.agents b with
                | none => rfl
                | some o =>
                  cases o with
                  | none => rfl
                  | some k =>
                    have := h.lt b k hb'
                    simp only [Option.map_some]
                    rw [upd_ne _ _ (by omega)]
          | some k =>
            refine ⟨_, _, rfl, h.upd_sub _ rfl (fun b k e => e), ?_, rfl⟩
            refine sp_ext (fun b => ?_) (fun _ => rfl) rfl
            simp only [CS.base, upd]
            by_cases hba : b = a
            · simp [hba, ha, upd_self]
            · simp only [hba, if_false]
              cases hb' : s.agents b with
              | none => rfl
              | some o =>
                cases o with
                | none => rfl
                | some k' =>
                  simp only [Option.map_some]
                  rw [upd_ne]
                  rintro rfl
                  exact hba (h.inj b a k' hb' ha)

/-! ### the content of the tree -/

/-- The address of the point object of an agent. -/
def CS.ptr (s : CS) (a : Nat) : Option Nat := (s.agents a).getD none

/-- The entry of a point: the point object of the agent that is there longest, and the number of agents. -/
def entry (ptr : Nat → Option Nat) : List Nat → Option (Nat × Nat)
  | [] => none
  | a :: l => (ptr a).map (fun k => (k, l.length + 1))

def CS.content (s : CS) : Content := fun c => entry s.ptr (s.loc c)

theorem ptr_iff {s : CS} {a k : Nat} : s.ptr a = some k ↔ s.agents a = some (some k) := by
  unfold CS.ptr
  cases s.agents a with
  | none => simp
  | some o => simp

/-- The invariant. -/
structure CInv (c : CCfg) (s : CS) (t : Abs CPt) : Prop where
  coup : Coupled c.base s.base t
  addr : Addr s
  inb : ∀ a p, (a, p) ∈ t.placed → (rootBox c.bounds).contains c.d3 p = true
  holds : Holds c.d3 s.pts s.content (fun p => (rootBox c.bounds).contains c.d3 p = true) s.root
  size : SizeOk c.d3 s.root

theorem CInv.at_loc {c : CCfg} {s : CS} {t : Abs CPt} (h : CInv c s t) {a : Nat} {p : CPt} : a ∈ s.loc p ↔ ∃ k, s.agents a = some (some k) ∧ s.pts k = p := by
  have h1 : s.base.loc p = t.at_ p := h.coup.loc p
  have h2 : s.loc p = t.at_ p := h1
  rw [h2, Space.mem_at, h.coup.placed]
  simp only [CS.base]
  cases s.agents a with
  | none => simp
  | some o => cases o <;> simp

theorem CInv.nodup {c : CCfg} {s : CS} {t : Abs CPt} (h : CInv c s t) (p : CPt) : (s.loc p).Nodup := by
  have h2 : s.loc p = t.at_ p := h.coup.loc p
  rw [h2]; exact Space.at_nodup h.coup.nodup p

theorem CInv.key {c : CCfg} {s : CS} {t : Abs CPt} (h : CInv c s t) {p : CPt} {k n : Nat} (e : s.content p = some (k, n)) :
    ∃ a l, s.loc p = a :: l ∧ s.agents a = some (some k) ∧ s.pts k = p ∧ n = l.length + 1 := by
  unfold CS.content at e
  cases hl : s.loc p with
  | nil => rw [hl] at e; cases e
  | cons a l =>
    rw [hl] at e
    simp only [entry, Option.map_eq_some_iff, Prod.mk.injEq] at e
    obtain ⟨k', e1, e2, e3⟩ := e
    subst e2
    have h1 := ptr_iff.1 e1
    obtain ⟨k2, h2, h3⟩ := (h.at_loc (a := a) (p := p)).1 (by rw [hl]; simp)
    rw [h1] at h2
    simp only [Option.some.injEq] at h2
    rw [← h2] at h3
    exact ⟨a, l, rfl, h1, h3, e3.symm⟩

theorem CInv.hK {c : CCfg} {s : CS} {t : Abs CPt} (h : CInv c s t) : ∀ p k n, s.content p = some (k, n) → s.pts k = p ∧ 1 ≤ n := by
  intro p k n e
  obtain ⟨a, l, _, _, e3, e4⟩ := h.key e
  exact ⟨e3, by omega⟩

theorem CInv.locOk {c : CCfg} {s : CS} {t : Abs CPt} (h : CInv c s t) : LocOk s.content s.loc := by
  refine ⟨?_, h.nodup, ?_⟩
  · intro p
    unfold CS.content
    cases hl : s.loc p with
    | nil => simp [entry]
    | cons a l =>
      obtain ⟨k2, h2, h3⟩ := (h.at_loc (a := a) (p := p)).1 (by rw [hl]; simp)
      simp [entry, ptr_iff.2 h2]
  · intro a p p' h1 h2
    obtain ⟨k1, e1, f1⟩ := h.at_loc.1 h1
    obtain ⟨k2, e2, f2⟩ := h.at_loc.1 h2
    rw [e1] at e2
    simp only [Option.some.injEq] at e2
    rw [← f1, ← f2, e2]

/-- In every state the query is exact. -/
theorem CInv.within {c : CCfg} {s : CS} {t : Abs CPt} (h : CInv c s t) (hd : c.bounds.numDims ≠ 1) (q : Box) (hq : QueryFits c.d3 q) :
    ∃ l, getWithin c s q = some l ∧ l.Nodup ∧ ∀ a, a ∈ l ↔ ∃ p, s.base.agents a = some (some p) ∧ q.containsC p = true := by
  obtain ⟨l, e, hs, hl⟩ := within_exact h.hK h.locOk hq h.holds h.size
  have hin : ∀ {a p}, a ∈ s.loc p → (rootBox c.bounds).contains c.d3 p = true := by
    intro a p ha
    refine h.inb a p ((h.coup.placed a p).2 ?_)
    obtain ⟨k, h1, h2⟩ := h.at_loc.1 ha
    simp [CS.base, h1, h2]
  refine ⟨l, by unfold getWithin; rw [if_neg hd]; exact e, ?_, ?_⟩
  · rw [List.nodup_iff_count]
    intro a
    by_cases ha : a ∈ l
    · obtain ⟨p, hp⟩ := hs a ha
      by_cases hc : q.containsC p = true
      · rw [(hl a p hp).1 ⟨hin hp, hc⟩]; exact Nat.le_refl 1
      · rw [(hl a p hp).2 (fun h => hc h.2)]; exact Nat.zero_le 1
    · rw [List.count_eq_zero.2 ha]; exact Nat.zero_le 1
  · intro a
    constructor
    · intro ha
      obtain ⟨p, hp⟩ := hs a ha
      obtain ⟨k, h1, h2⟩ := h.at_loc.1 hp
      refine ⟨p, by simp [CS.base, h1, h2], ?_⟩
      cases hc : q.containsC p with
      | true => rfl
      | false =>
        have := (hl a p hp).2 (by simp [hc])
        exact absurd ha (List.count_eq_zero.1 this)
    · rintro ⟨p, hp, hc⟩
      have hm : a ∈ s.loc p := by
        have : s.loc p = t.at_ p := h.coup.loc p
        rw [this, Space.mem_at]; exact (h.coup.placed a p).2 hp
      have := (hl a p hm).1 ⟨hin hm, hc⟩
      exact List.count_pos_iff.1 (by omega)

/-! ### one call -/

/-- An agent that leaves `p` is alone there or is not the one that is there longest (the one `get_agent` returns). -/
def MayLeave (s : CS) (a : Nat) : Prop :=
  ∀ k, s.agents a = some (some k) → s.loc (s.pts k) = [a] ∨ (s.loc (s.pts k)).head? ≠ some a

/-- No location is shared, or there are not more occupied locations than the threshold of the tree. -/
def Sparse (thr : Int) (s : CS) : Prop := (∀ p, (s.loc p).length ≤ 1) ∨ ∃ L : List CPt, (L.length : Int) ≤ thr ∧ ∀ p, s.loc p ≠ [] → p ∈ L

theorem length_le_of_subset {α : Type} [DecidableEq α] {l L : List α} (hn : l.Nodup) (h : ∀ x ∈ l, x ∈ L) : l.length ≤ L.length := by
  induction l generalizing L with
  | nil => simp
  | cons x l ih =>
    simp only [List.nodup_cons] at hn
    have hx := h x (by simp)
    have := ih hn.2 (L := L.erase x) (by
      intro y hy
      rw [List.mem_erase_of_ne]
      · exact h y (List.mem_cons_of_mem _ hy)
      · rintro rfl; exact hn.1 hy)
    rw [List.length_erase_of_mem hx] at this
    have := List.length_pos_of_mem hx
    simp only [List.length_cons]
    omega

theorem filter_ne_length {l : List Nat} {a : Nat} (hn : l.Nodup) (h : a ∈ l) : (l.filter (fun b => decide (b ≠ a))).length + 1 = l.length := by
  have : l.filter (fun b => decide (b ≠ a)) = l.erase a := by
    rw [hn.erase_eq_filter]
    congr 1
    funext b
    by_cases hb : b = a <;> simp [hb]
  rw [this, List.length_erase_of_mem h]
  have := List.length_pos_of_mem h
  omega

/-- The entry after one agent left. -/
theorem entry_drop {ptr : Nat → Option Nat} {l : List Nat} {a : Nat} (hn : l.Nodup) (ha : a ∈ l) (hl : l = [a] ∨ l.head? ≠ some a) :
    entry ptr (l.filter (fun b => decide (b ≠ a))) = drop1 (entry ptr l) ∨ ∃ b ∈ l, ptr b = none := by
  cases l with
  | nil => cases ha
  | cons b l =>
    rcases hl with e | e
    · simp only [List.cons.injEq] at e
      obtain ⟨rfl, rfl⟩ := e
      cases hp : ptr b with
      | none => exact Or.inr ⟨b, by simp, hp⟩
      | some k => left; simp [entry, drop1, hp]
    · have hb : b ≠ a := by simpa using e
      have ha' : a ∈ l := by
        rcases List.mem_cons.1 ha with e' | h
        · exact absurd e'.symm hb
        · exact h
      cases hp : ptr b with
      | none => exact Or.inr ⟨b, by simp, hp⟩
      | some k =>
        left
        have := filter_ne_length (List.nodup_cons.1 hn).2 ha'
        have hpos := List.length_pos_of_mem ha'
        have hf : (b :: l).filter (fun b => decide (b ≠ a)) = b :: l.filter (fun b => decide (b ≠ a)) := by simp [hb]
        rw [hf]
        simp only [entry, hp, Option.map_some, drop1]
        rw [if_neg (by omega)]
        simp only [Option.some.injEq, Prod.mk.injEq, true_and]
        omega

/-- The tree after the removal of an agent's point object. -/
theorem CInv.tree_remove {c : CCfg} {s : CS} {t : Abs CPt} (h : CInv c s t) {a k : Nat} (ha : s.agents a = some (some k)) (hl : MayLeave s a) :
    let nd := (s.root.remove c.d3 c.single s.pts k).1
    let M := upd s.content (s.pts k) (drop1 (s.content (s.pts k)))
    Holds c.d3 s.pts M (fun p => (rootBox c.bounds).contains c.d3 p = true) nd ∧ SizeOk c.d3 nd ∧
    (∀ p, M p = entry s.ptr (if p = s.pts k then (s.loc p).filter (fun b => decide (b ≠ a)) else s.loc p)) ∧
    (∀ p n, M p ≠ some (k, n)) := by
  intro nd M
  have hm : a ∈ s.loc (s.pts k) := h.at_loc.2 ⟨k, ha, rfl⟩
  have hL := h.locOk
  obtain ⟨⟨k0, n0⟩, hc⟩ : ∃ v, s.content (s.pts k) = some v := by
    cases hc : s.content (s.pts k) with
    | none => rw [(hL.dom _).1 hc] at hm; cases hm
    | some v => exact ⟨v, rfl⟩
  obtain ⟨b, l, e1, e2, e3, e4⟩ := h.key hc
  have hin : (rootBox c.bounds).contains c.d3 (s.pts k) = true :=
    h.inb a _ ((h.coup.placed a _).2 (by simp [CS.base, ha]))
  have hsingle : c.single = true → l = [] := by
    intro hs
    have := h.coup.one hs (s.pts k)
    have h2 : s.loc (s.pts k) = t.at_ (s.pts k) := h.coup.loc _
    rw [← h2, e1] at this
    simp only [List.length_cons] at this
    exact List.eq_nil_of_length_eq_zero (by omega)
  obtain ⟨_, r2, r3, _⟩ := remove_holds (single := c.single) h.hK h.holds h.size hin hc (by
    intro hs
    have := hsingle hs
    subst this
    rw [e1] at hm
    simp only [List.mem_singleton] at hm
    subst hm
    rw [ha] at e2
    simp only [Option.some.injEq] at e2
    exact ⟨e2.symm, e4⟩)
  refine ⟨r2, r3, ?_, ?_⟩
  · intro p
    by_cases hp : p = s.pts k
    · subst hp
      simp only [M, upd_self, if_true]
      rcases entry_drop (ptr := s.ptr) (h.nodup (s.pts k)) hm (hl k ha) with e | ⟨b', hb', e⟩
      · exact e.symm
      · obtain ⟨k', h1, _⟩ := h.at_loc.1 hb'
        rw [ptr_iff.2 h1] at e; cases e
    · simp only [M, upd_ne _ _ hp, if_neg hp]; rfl
  · intro p n
    by_cases hp : p = s.pts k
    · subst hp
      simp only [M, upd_self, hc, drop1]
      by_cases h1 : n0 = 1
      · simp [h1]
      · simp only [h1, if_false]
        intro e
        simp only [Option.some.injEq, Prod.mk.injEq] at e
        rw [e.1] at e2
        have hab := h.addr.inj _ _ _ e2 ha
        subst hab
        rcases hl k ha with e' | e'
        · rw [e1] at e'
          simp only [List.cons.injEq, true_and] at e'
          rw [e'] at e4
          exact h1 e4
        · rw [e1] at e'; exact e' rfl
    · simp only [M, upd_ne _ _ hp]
      intro e
      exact hp (h.hK _ _ _ e).1.symm

theorem content_bump {ptr : Nat → Option Nat} {l : List Nat} {a k : Nat} (ha : ptr a = some k) (hl : ∀ b ∈ l, (ptr b).isSome) :
    entry ptr (l ++ [a]) = some (bump k (entry ptr l)) := by
  cases l with
  | nil => simp [entry, ha, bump]
  | cons b l =>
    obtain ⟨k', hk⟩ := Option.isSome_iff_exists.1 (hl b (by simp))
    simp [entry, hk, bump]

/-- The tree after adding a point object. -/
theorem add_tree {c : CCfg} {s' : CS} {pts : Nat → CPt} {M : Content} {nd : Node} {k : Nat} {w : CPt}
    (hK : ∀ p k n, M p = some (k, n) → pts k = p)
    (h : Holds c.d3 pts M (fun p => (rootBox c.bounds).contains c.d3 p = true) nd) (hz : SizeOk c.d3 nd)
    (hw : pts k = w) (hin : (rootBox c.bounds).contains c.d3 w = true) (hs : c.single = true → M w = none)
    (hc : ∀ p, s'.content p = upd M w (some (bump k (M w))) p)
    (hlen : ∀ p k n, s'.content p = some (k, n) → n = (s'.loc p).length ∧ s'.loc p ≠ [])
    (hsp : Sparse c.thr s') :
    Holds c.d3 pts s'.content (fun p => (rootBox c.bounds).contains c.d3 p = true) (nd.add c.d3 c.single pts c.thr k).1 ∧
      SizeOk c.d3 (nd.add c.d3 c.single pts c.thr k).1 := by
  subst hw
  obtain ⟨a1, a2, _, _⟩ := add_holds (thr := c.thr) (single := c.single) hK h hz hin hs (by
    rcases hsp with e | ⟨L, e1, e2⟩
    · left
      intro p k' n e'
      rw [← hc] at e'
      have := hlen _ _ _ e'
      have h1 := e p
      have h2 := List.length_pos_iff.2 this.2
      omega
    · right
      intro l hn hl
      have := length_le_of_subset hn (L := L) (by
        intro p hp
        have h1 := hl p hp
        rw [← hc] at h1
        cases hv : s'.content p with
        | none => exact absurd hv h1
        | some v => exact e2 p (hlen p v.1 v.2 hv).2)
      omega)
  refine ⟨a1.ext (fun p _ => hc p) (fun _ => Or.inl rfl), a2⟩

theorem entry_some {ptr : Nat → Option Nat} {l : List Nat} {k n : Nat} (h : entry ptr l = some (k, n)) : n = l.length ∧ l ≠ [] := by
  cases l with
  | nil => cases h
  | cons a l =>
    simp only [entry, Option.map_eq_some_iff, Prod.mk.injEq] at h
    obtain ⟨_, _, _, e⟩ := h
    exact ⟨by simp [← e], by simp⟩

/-- What is required of a call. -/
def CallOk (c : CCfg) (s s' : CS) : Op CPt → Prop
  | .remove a => MayLeave s a
  | .move a _ => (s'.base.agents a = s.base.agents a ∨ MayLeave s a) ∧ Sparse c.thr s'
  | _ => True

/-- One call keeps the invariant. -/
theorem CInv.step {c : CCfg} {s : CS} {t : Abs CPt} (h : CInv c s t) (hd : c.bounds.numDims ≠ 1)
    (htr : ∀ p w, (rootBox c.bounds).contains c.d3 (c.tr p w) = true) (o : Op CPt) (hadd : ∀ a, o = .add a → a ∉ t.known) {s' : CS} {r : Res CPt}
    (hs : cstep c s o = some (s', r)) (hok : CallOk c s s' o) :
    CInv c s' (t.step c.single (fun p => c.tr p s.wpt) o).1 := by
  obtain ⟨s1, r1, e1, e2, e3, e4⟩ := cstep_base h.addr hd o
  rw [hs] at e1
  simp only [Option.some.injEq, Prod.mk.injEq] at e1
  obtain ⟨rfl, rfl⟩ := e1
  have hcoup := (h.coup.step o hadd (fun p => c.tr p s.wpt) (fun _ _ _ => rfl)).1
  rw [← e3] at hcoup
  have hcs : c.base.single = c.single := rfl
  rw [hcs] at hcoup
  cases o with
  | getAgent pt =>
    simp only [cstep, Option.some.injEq, Prod.mk.injEq] at hs
    obtain ⟨rfl, _⟩ := hs
    exact ⟨hcoup, e2, h.inb, h.holds, h.size⟩
  | getAgents pt =>
    simp only [cstep, Option.some.injEq, Prod.mk.injEq] at hs
    obtain ⟨rfl, _⟩ := hs
    exact ⟨hcoup, e2, h.inb, h.holds, h.size⟩
  | getLocation a =>
    simp only [cstep, Option.some.injEq, Prod.mk.injEq] at hs
    obtain ⟨rfl, _⟩ := hs
    exact ⟨hcoup, e2, h.inb, h.holds, h.size⟩
  | contains a =>
    simp only [cstep, Option.some.injEq, Prod.mk.injEq] at hs
    obtain ⟨rfl, _⟩ := hs
    exact ⟨hcoup, e2, h.inb, h.holds, h.size⟩
  | add a =>
    simp only [cstep, Option.some.injEq, Prod.mk.injEq] at hs
    obtain ⟨rfl, _⟩ := hs
    have hna : s.agents a = none := by
      have := hadd a rfl
      rw [h.coup.known] at this
      simp only [CS.base] at this
      cases hs : s.agents a <;> simp_all
    refine ⟨hcoup, e2, h.inb, ?_, h.size⟩
    refine h.holds.ext (fun p _ => ?_) (fun _ => Or.inl rfl)
    have hp : (CS.ptr { s with agents := upd s.agents a (some none) }) = s.ptr := by
      funext b
      simp only [CS.ptr, upd]
      by_cases hb : b = a
      · simp [hb, hna]
      · simp [hb]
    show entry _ _ = entry _ _
    rw [hp]
  | remove a =>
    simp only [cstep, cremove] at hs
    have hpl : ∀ b p, (b, p) ∈ t.unplace a → (b, p) ∈ t.placed := fun b p hm => (List.mem_filter.1 hm).1
    cases ha : s.agents a with
    | none =>
      rw [ha] at hs
      simp only [Option.map_some, Option.some.injEq, Prod.mk.injEq] at hs
      obtain ⟨rfl, _⟩ := hs
      exact ⟨hcoup, e2, fun b p hm => h.inb b p (hpl b p hm), h.holds, h.size⟩
    | some o =>
      cases o with
      | none =>
        rw [ha] at hs
        simp only [Option.map_some, Option.some.injEq, Prod.mk.injEq] at hs
        obtain ⟨rfl, _⟩ := hs
        refine ⟨hcoup, e2, fun b p hm => h.inb b p (hpl b p hm), ?_, h.size⟩
        refine h.holds.ext (fun p _ => ?_) (fun _ => Or.inl rfl)
        have hp : (CS.ptr { s with agents := upd s.agents a none }) = s.ptr := by
          funext b
          simp only [CS.ptr, upd]
          by_cases hb : b = a
          · simp [hb, ha]
          · simp [hb]
        show entry _ _ = entry _ _
        rw [hp]
      | some k =>
        rw [ha] at hs
        simp only [hd, if_false, Option.map_some, Option.some.injEq, Prod.mk.injEq] at hs
        obtain ⟨hs', _⟩ := hs
        obtain ⟨t1, t2, t3, t4⟩ := h.tree_remove ha hok
        have hbase : s.base.agents a = some (some (s.pts k)) := by simp [CS.base, ha]
        have hloc : ∀ q, s'.loc q = if q = s.pts k then (s.loc q).filter (fun b => decide (b ≠ a)) else s.loc q := by
          intro q
          have := h.coup.rem_loc hbase q s.loc rfl
          have h2 : s.loc (s.pts k) = t.at_ (s.pts k) := h.coup.loc _
          rw [← hs']
          simp only
          rw [this]
          by_cases hq : q = s.pts k
          · rw [if_pos hq, if_pos hq, hq, h2]
          · rw [if_neg hq, if_neg hq]
        have hptr : ∀ b, b ≠ a → s'.ptr b = s.ptr b := by
          intro b hb
          rw [← hs']
          simp [CS.ptr, upd, hb]
        refine ⟨hcoup, e2, fun b p hm => h.inb b p (hpl b p hm), ?_, by rw [← hs']; exact t2⟩
        have hgoal := t1.ext (M' := s'.content) (pts' := s'.pts) (fun p _ => ?_) (fun k => Or.inl (by rw [← hs']))
        · rw [← hs'] at hgoal ⊢; exact hgoal
        · rw [t3]
          have hnm : a ∉ s'.loc p := by
            rw [hloc]
            by_cases hq : p = s.pts k
            · rw [if_pos hq]; simp
            · rw [if_neg hq]
              intro hm
              obtain ⟨k', h1, h2⟩ := h.at_loc.1 hm
              rw [ha] at h1
              simp only [Option.some.injEq] at h1
              rw [h1] at hq
              exact hq h2.symm
          show entry s'.ptr (s'.loc p) = _
          rw [← hloc]
          cases hl : s'.loc p with
          | nil => rfl
          | cons b l =>
            rw [hl] at hnm
            simp only [entry]
            rw [hptr b (by rintro rfl; exact hnm (by simp))]
  | move a pt =>
    simp only [cstep, cmove] at hs
    cases ha : s.agents a with
    | none =>
      rw [ha] at hs
      simp only [Option.some.injEq, Prod.mk.injEq] at hs
      obtain ⟨rfl, _⟩ := hs
      have hna : a ∉ t.known := by
        rw [h.coup.known]; simp [CS.base, ha]
      simp only [Abs.step, if_pos hna] at hcoup ⊢
      exact ⟨hcoup, e2, h.inb, h.holds, h.size⟩
    | some cur =>
      rw [ha] at hs
      simp only at hs
      have hk : a ∈ t.known := by
        rw [h.coup.known]; simp [CS.base, ha]
      have hinb : ∀ b p, (b, p) ∈ ((t.step c.single (fun p => c.tr p s.wpt) (.move a pt)).1).placed → (rootBox c.bounds).contains c.d3 p = true := by
        intro b p
        simp only [Abs.step]
        split
        · exact h.inb b p
        · split
          · exact h.inb b p
          · split
            · exact h.inb b p
            · simp only [List.mem_append, List.mem_singleton, Prod.mk.injEq]
              rintro (hm | ⟨_, rfl⟩)
              · exact h.inb b p (List.mem_filter.1 hm).1
              · exact htr _ _
      by_cases he : cur.map s.pts = some (c.tr pt s.wpt)
      · rw [if_pos he] at hs
        simp only [Option.some.injEq, Prod.mk.injEq] at hs
        obtain ⟨rfl, _⟩ := hs
        exact ⟨hcoup, e2, hinb, h.holds, h.size⟩
      · rw [if_neg he] at hs
        cases hp : Space.put c.base s.loc a (c.tr pt s.wpt) with
        | none =>
          rw [hp] at hs
          simp only [Option.some.injEq, Prod.mk.injEq] at hs
          obtain ⟨rfl, _⟩ := hs
          exact ⟨hcoup, e2, hinb, h.holds, h.size⟩
        | some loc =>
          rw [hp] at hs
          simp only [hd, if_false] at hs
          have hloc : loc = upd s.loc (c.tr pt s.wpt) (s.loc (c.tr pt s.wpt) ++ [a]) ∧ (c.single = true → s.loc (c.tr pt s.wpt) = []) := by
            unfold Space.put at hp
            simp only [hcs] at hp
            by_cases hsg : c.single = true
            · rw [if_pos hsg] at hp
              split at hp
              · rename_i h0
                simp only [Option.some.injEq] at hp
                rw [← hp, h0]; exact ⟨rfl, fun _ => rfl⟩
              · cases hp
            · rw [if_neg hsg] at hp
              simp only [Option.some.injEq] at hp
              exact ⟨hp.symm, fun h => absurd h hsg⟩
          obtain ⟨hloc, hsgl⟩ := hloc
          cases cur with
          | none =>
            simp only [Option.some.injEq, Prod.mk.injEq] at hs
            obtain ⟨hs', _⟩ := hs
            have hnm : ∀ p, a ∉ s.loc p := by
              intro p hm
              obtain ⟨k, h1, _⟩ := h.at_loc.1 hm
              rw [ha] at h1; cases h1
            have hptr : ∀ b, b ≠ a → s'.ptr b = s.ptr b := by
              intro b hb
              rw [← hs']; simp [CS.ptr, upd, hb]
            have hpa : s'.ptr a = some s.next := by
              rw [← hs']; simp [CS.ptr, upd]
            have hent : ∀ p, entry s'.ptr (s.loc p) = entry s.ptr (s.loc p) := by
              intro p
              cases hl : s.loc p with
              | nil => rfl
              | cons b l =>
                simp only [entry]
                rw [hptr b (by rintro rfl; exact hnm p (by rw [hl]; simp))]
            have hsl : s'.loc = loc := by rw [← hs']
            have hcont : ∀ p, s'.content p = upd s.content (c.tr pt s.wpt) (some (bump s.next (s.content (c.tr pt s.wpt)))) p := by
              intro p
              unfold CS.content
              rw [hsl, hloc]
              by_cases hq : p = c.tr pt s.wpt
              · subst hq
                rw [upd_self, upd_self, content_bump hpa, hent]
                intro b hb
                obtain ⟨k, h1, _⟩ := h.at_loc.1 hb
                rw [hptr b (by rintro rfl; exact hnm _ hb), ptr_iff.2 h1]; rfl
              · rw [upd_ne _ _ hq, upd_ne _ _ hq, hent]
            have hltk : ∀ p k n, s.content p = some (k, n) → k < s.next := by
              intro p k n e
              obtain ⟨b, _, _, h1, _, _⟩ := h.key e
              exact h.addr.lt _ _ h1
            have hh := h.holds.ext (M' := s.content) (pts' := upd s.pts s.next (c.tr pt s.wpt)) (fun _ _ => rfl) (by
              intro k
              by_cases e : k = s.next
              · right
                intro p n _ hc
                have := hltk _ _ _ hc
                omega
              · left; exact upd_ne _ _ e)
            obtain ⟨f1, f2⟩ := add_tree (s' := s') (c := c) (w := c.tr pt s.wpt) (k := s.next) (by
                intro p k n e
                have := hltk _ _ _ e
                rw [upd_ne _ _ (by omega)]
                exact (h.hK _ _ _ e).1) hh h.size (upd_self _ _ _) (htr _ _) (by
                intro hsg
                exact (h.locOk.dom _).2 (hsgl hsg)) hcont (fun p k n e => entry_some e) hok.2
            refine ⟨hcoup, e2, hinb, ?_, ?_⟩
            · rw [← hs'] at f1 ⊢; exact f1
            · rw [← hs']; exact f2
          | some k =>
            simp only [Option.some.injEq, Prod.mk.injEq] at hs
            obtain ⟨hs', _⟩ := hs
            have hwk : c.tr pt s.wpt ≠ s.pts k := by
              intro e; rw [e] at he; exact he rfl
            have hbase : s.base.agents a = some (some (s.pts k)) := by simp [CS.base, ha]
            have hml : MayLeave s a := by
              rcases hok.1 with e | e
              · exfalso
                rw [hbase, ← hs'] at e
                simp only [CS.base, ha, Option.map_some, upd_self, Option.some.injEq] at e
                exact hwk e
              · exact e
            obtain ⟨t1, t2, t3, t4⟩ := h.tree_remove ha hml
            have hnw : a ∉ s.loc (c.tr pt s.wpt) := by
              intro hm
              obtain ⟨k', h1, h2⟩ := h.at_loc.1 hm
              rw [ha] at h1
              simp only [Option.some.injEq] at h1
              rw [← h1] at h2
              exact hwk h2.symm
            have hsl : ∀ q, s'.loc q = upd (fun p => if p = s.pts k then (s.loc p).filter (fun b => decide (b ≠ a)) else s.loc p)
                (c.tr pt s.wpt) (s.loc (c.tr pt s.wpt) ++ [a]) q := by
              intro q
              have h1 := h.coup.rem_loc hbase q loc (by rw [hloc, upd_ne _ _ (Ne.symm hwk)]; rfl)
              have h2 : s.loc (s.pts k) = t.at_ (s.pts k) := h.coup.loc _
              rw [← hs']
              simp only
              rw [h1]
              by_cases hq : q = s.pts k
              · rw [if_pos hq, hq, upd_ne _ _ (Ne.symm hwk)]
                simp only [if_true]
                rw [h2]
              · rw [if_neg hq, hloc]
                by_cases hq' : q = c.tr pt s.wpt
                · rw [hq', upd_self, upd_self]
                · rw [upd_ne _ _ hq', upd_ne _ _ hq']
                  simp only [if_neg hq]
            have hptr : s'.ptr = s.ptr := by rw [← hs']; rfl
            have hpa : s.ptr a = some k := ptr_iff.2 ha
            have hMw := t3 (c.tr pt s.wpt)
            rw [if_neg hwk] at hMw
            have hcont : ∀ p, s'.content p = upd (upd s.content (s.pts k) (drop1 (s.content (s.pts k)))) (c.tr pt s.wpt)
                (some (bump k (upd s.content (s.pts k) (drop1 (s.content (s.pts k))) (c.tr pt s.wpt)))) p := by
              intro p
              have e0 : s'.content p = entry s.ptr (s'.loc p) := by unfold CS.content; rw [hptr]
              rw [e0, hsl]
              by_cases hq : p = c.tr pt s.wpt
              · subst hq
                rw [upd_self, upd_self, hMw, content_bump hpa]
                intro b hb
                obtain ⟨k', h1, _⟩ := h.at_loc.1 hb
                rw [ptr_iff.2 h1]; rfl
              · rw [upd_ne _ _ hq, upd_ne _ _ hq]
                exact (t3 p).symm
            have hh := t1.ext (M' := upd s.content (s.pts k) (drop1 (s.content (s.pts k)))) (pts' := upd s.pts k (c.tr pt s.wpt)) (fun _ _ => rfl) (by
              intro k'
              by_cases e : k' = k
              · right
                intro p n _
                rw [e]; exact t4 p n
              · left; exact upd_ne _ _ e)
            obtain ⟨f1, f2⟩ := add_tree (s' := s') (c := c) (w := c.tr pt s.wpt) (k := k) (by
                intro p k' n e
                have hne : k' ≠ k := by rintro rfl; exact t4 p n e
                rw [upd_ne _ _ hne]
                rw [t3] at e
                by_cases hq : p = s.pts k
                · rw [if_pos hq] at e
                  cases hl : (s.loc p).filter (fun b => decide (b ≠ a)) with
                  | nil => rw [hl] at e; cases e
                  | cons b l =>
                    rw [hl] at e
                    simp only [entry, Option.map_eq_some_iff, Prod.mk.injEq] at e
                    obtain ⟨k2, g1, g2, _⟩ := e
                    have hb : b ∈ s.loc p := (List.mem_filter.1 (by rw [hl]; simp : b ∈ (s.loc p).filter (fun b => decide (b ≠ a)))).1
                    obtain ⟨k3, g3, g4⟩ := h.at_loc.1 hb
                    rw [ptr_iff] at g1
                    rw [g1] at g3
                    simp only [Option.some.injEq] at g3
                    rw [← g2, g3]; exact g4
                · rw [if_neg hq] at e
                  exact (h.hK p k' n e).1) hh t2 (upd_self _ _ _) (htr _ _) (by
                intro hsg
                rw [hMw, hsgl hsg]; rfl) hcont (fun p k n e => entry_some e) hok.2
            refine ⟨hcoup, e2, hinb, ?_, ?_⟩
            · rw [← hs'] at f1 ⊢; exact f1
            · rw [← hs']; exact f2

end Repast.Tree
