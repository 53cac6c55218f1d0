import Verif.Network.NetSynch

/-! Exchanges of messages between ranks, and folds over received messages. -/
namespace Repast.Network
open Repast.Dict Repast.Context

variable {S A : Type} {d : Bool} {n : Nat}

theorem each_some {f : Nat → Option (Cx S A)} {w : World S A} {P : Nat → Cx S A → Prop} (h : ∀ r < n, ∃ c, f r = some c ∧ P r c) :
    ∃ w', each n f w = some w' ∧ ∀ r < n, f r = some (w' r) ∧ P r (w' r) := by
  have hall : ((List.range n).map f).all (·.isSome) = true := by
    rw [List.all_eq_true]
    intro x hx
    obtain ⟨r, hr, rfl⟩ := List.mem_map.1 hx
    obtain ⟨c, hc, -⟩ := h r (List.mem_range.1 hr)
    rw [hc]; rfl
  refine ⟨_, by unfold each; rw [if_pos hall], ?_⟩
  intro r hr
  obtain ⟨c, hc, hp⟩ := h r hr
  have : ((List.range n).map f)[r]? = some (some c) := by simp [hr, hc]
  simp only [this, Option.bind_some, id, Option.getD_some]
  exact ⟨hc, hp⟩

theorem get_map_range {α : Type} (f : Nat → Option α) {r : Nat} (hr : r < n) : ((List.range n).map f)[r]?.bind id = f r := by simp [hr]

theorem recv_congr {M : Type} {out out' : Nat → List (Nat × M)} (h : ∀ r < n, out r = out' r) (k : Nat) : recv n out k = recv n out' k := by
  unfold recv
  rw [List.flatMap_def, List.flatMap_def]
  refine congrArg _ (List.map_congr_left ?_)
  intro r hr
  rw [h r (List.mem_range.1 hr)]

theorem recv_nil {M : Type} (k : Nat) : recv n (fun _ => ([] : List (Nat × M))) k = [] := by
  unfold recv; simp

/-- Each rank sends, then each rank receives. -/
theorem exchange_some {M : Type} {send : Cx S A → Option (Cx S A × List (Nat × M))} {recv1 : Cx S A → Nat × M → Option (Cx S A)} {w : World S A} {out : Nat → List (Nat × M)}
    {P Q : Nat → Cx S A → Prop} (h1 : ∀ r < n, ∃ c, send (w r) = some (c, out r) ∧ P r c)
    (h2 : ∀ r < n, ∀ c, P r c → ∃ c', (recv n out r).foldlM recv1 c = some c' ∧ Q r c') : ∃ w', exchange n send recv1 w = some w' ∧ ∀ r < n, Q r (w' r) := by
  obtain ⟨w1, e1, p1⟩ := each_some (n := n) (f := fun r => (((List.range n).map fun r => send (w r))[r]?.bind id).map (·.1)) (w := w) (P := P) (by
    intro r hr
    obtain ⟨c, hc, hp⟩ := h1 r hr
    rw [get_map_range _ hr, hc]
    exact ⟨c, rfl, hp⟩)
  have hout : ∀ r < n, sent (((List.range n).map fun r => send (w r))[r]?.bind id) = out r := by
    intro r hr
    obtain ⟨c, hc, -⟩ := h1 r hr
    rw [get_map_range _ hr, hc]; rfl
  obtain ⟨w2, e2, p2⟩ := each_some (n := n) (f := fun r => (recv n out r).foldlM recv1 (w1 r)) (w := w1) (P := Q) (by
    intro r hr
    exact h2 r hr _ (p1 r hr).2)
  refine ⟨w2, ?_, fun r hr => (p2 r hr).2⟩
  unfold exchange
  simp only []
  rw [e1, Option.bind_some]
  have : ∀ r, recv n (fun r => sent (((List.range n).map fun r => send (w r))[r]?.bind id)) r = recv n out r := fun r => recv_congr hout r
  simp only [this]
  exact e2

/-- A fold over received messages. -/
theorem foldM_sim {T M : Type} {f : T → M → Option T} (P : List M → T → Prop) (l : List M) (hstep : ∀ pre m suf, l = pre ++ m :: suf → ∀ t, P pre t → ∃ t', f t m = some t' ∧ P (pre ++ [m]) t') :
    ∀ t, P [] t → ∃ t', l.foldlM f t = some t' ∧ P l t' := by
  have key : ∀ suf pre, l = pre ++ suf → ∀ t, P pre t → ∃ t', suf.foldlM f t = some t' ∧ P l t' := by
    intro suf
    induction suf with
    | nil => intro pre hl t ht; rw [List.append_nil] at hl; rw [hl]; exact ⟨t, rfl, ht⟩
    | cons m suf ih =>
      intro pre hl t ht
      obtain ⟨t1, e1, p1⟩ := hstep pre m suf hl t ht
      obtain ⟨t2, e2, p2⟩ := ih (pre ++ [m]) (by rw [hl]; simp) t1 p1
      refine ⟨t2, ?_, p2⟩
      rw [List.foldlM_cons, e1]
      exact e2
  exact key l [] rfl

theorem foldl_sim {T M : Type} {f : T → M → T} (P : List M → T → Prop) (l : List M) (hstep : ∀ pre m suf, l = pre ++ m :: suf → ∀ t, P pre t → P (pre ++ [m]) (f t m)) :
    ∀ t, P [] t → P l (l.foldl f t) := by
  have key : ∀ suf pre, l = pre ++ suf → ∀ t, P pre t → P l (suf.foldl f t) := by
    intro suf
    induction suf with
    | nil => intro pre hl t ht; rw [List.append_nil] at hl; rw [hl]; exact ht
    | cons m suf ih =>
      intro pre hl t ht
      exact ih (pre ++ [m]) (by rw [hl]; simp) _ (hstep pre m suf hl t ht)
  exact key l [] rfl

/-- Messages to `k` are related pairwise if those of each rank are, and those of different ranks. -/
theorem recv_pairwise {M : Type} {send : Nat → List (Nat × M)} {k : Nat} {R : Nat × M → Nat × M → Prop}
    (h1 : ∀ r < n, (send r).Pairwise fun m m' => m.1 = k → m'.1 = k → R (r, m.2) (r, m'.2))
    (h2 : ∀ r < n, ∀ r' < n, r ≠ r' → ∀ m m', (k, m) ∈ send r → (k, m') ∈ send r' → R (r, m) (r', m')) : (recv n send k).Pairwise R := by
  unfold recv
  rw [List.flatMap_def, List.pairwise_flatten]
  constructor
  · intro l hl
    obtain ⟨r, hr, rfl⟩ := List.mem_map.1 hl
    rw [List.pairwise_map, List.pairwise_filter]
    refine (h1 r (List.mem_range.1 hr)).imp ?_
    intro m m' hR e e'
    exact hR (by simpa using e) (by simpa using e')
  · rw [List.pairwise_map]
    have hnd : (List.range n).Pairwise (· ≠ ·) := List.nodup_range
    refine hnd.imp_of_mem ?_
    intro r r' hr hr' hne x hx y hy
    simp only [List.mem_map, List.mem_filter, decide_eq_true_eq] at hx hy
    obtain ⟨⟨k1, m⟩, ⟨hm, e1⟩, rfl⟩ := hx
    obtain ⟨⟨k2, m'⟩, ⟨hm', e2⟩, rfl⟩ := hy
    simp only at e1 e2
    subst e1; subst e2
    exact h2 r (List.mem_range.1 hr) r' (List.mem_range.1 hr') hne m m' hm hm'

theorem pairwise_split {M : Type} {R : M → M → Prop} {l pre suf : List M} {m : M} (h : l.Pairwise R) (hl : l = pre ++ m :: suf) : ∀ m' ∈ pre, R m' m := by
  rw [hl, List.pairwise_append] at h
  intro m' hm'
  exact h.2.2 m' hm' m (by simp)

end Repast.Network
