import Verif.Network.Graph

/-! Lemmas about the attributes of edges. -/
namespace Repast.Network
open Repast.Dict

variable {A : Type}

theorem merge_ok {a : Attr A} (b : Attr A) (h : Dict.Ok a) : Dict.Ok (merge a b) := by
  unfold merge
  induction b generalizing a with
  | nil => exact h
  | cons e b ih => exact ih (h.set _ _)

theorem merge_prefix (a b : Attr A) : Dict.keys a <+: Dict.keys (merge a b) := by
  unfold merge
  induction b generalizing a with
  | nil => exact List.prefix_refl _
  | cons e b ih =>
    refine List.IsPrefix.trans ?_ (ih (Dict.set a e.1 e.2))
    rw [keys_set]
    split
    · exact List.prefix_refl _
    · exact List.prefix_append _ _

theorem set_append {c b : Attr A} {k : Nat} {v : A} (h : k ∉ Dict.keys c) : Dict.set (c ++ b) k v = c ++ Dict.set b k v := by
  induction c with
  | nil => rfl
  | cons e c ih =>
    simp only [Dict.keys, List.map_cons, List.mem_cons, not_or] at h
    show Dict.set (e :: (c ++ b)) k v = e :: (c ++ Dict.set b k v)
    rw [Dict.set, if_neg (fun e' => h.1 e'.symm), ih h.2]

theorem merge_same (a b : Attr A) : ∀ c : Attr A, Dict.keys b = Dict.keys a → (Dict.keys (c ++ a)).Nodup → merge (c ++ b) a = c ++ a := by
  induction a generalizing b with
  | nil =>
    intro c h _
    have : b = [] := by simpa [Dict.keys] using h
    rw [this]; rfl
  | cons e a ih =>
    intro c h hn
    cases b with
    | nil => simp [Dict.keys] at h
    | cons e' b =>
      simp only [Dict.keys, List.map_cons, List.cons.injEq] at h
      have hk : e.1 ∉ Dict.keys c := by
        intro hm
        simp only [Dict.keys, List.map_append, List.map_cons] at hn hm
        rw [List.nodup_append] at hn
        exact hn.2.2 _ hm _ (by simp) rfl
      show merge (Dict.set (c ++ e' :: b) e.1 e.2) a = _
      rw [set_append hk, Dict.set, if_pos h.1]
      have := ih b (c ++ [(e.1, e.2)]) h.2 (by simpa [Dict.keys] using hn)
      simpa using this

theorem merge_new (a : Attr A) : ∀ c : Attr A, (Dict.keys (c ++ a)).Nodup → merge c a = c ++ a := by
  induction a with
  | nil => intro c _; simp [merge]
  | cons e a ih =>
    intro c hn
    have hk : e.1 ∉ Dict.keys c := by
      intro hm
      simp only [Dict.keys, List.map_append, List.map_cons] at hn hm
      rw [List.nodup_append] at hn
      exact hn.2.2 _ hm _ (by simp) rfl
    show merge (Dict.set c e.1 e.2) a = _
    have e1 : Dict.set c e.1 e.2 = c ++ [(e.1, e.2)] := by
      have := set_append (b := []) (v := e.2) hk
      simpa [Dict.set] using this
    rw [e1, ih _ (by simpa [Dict.keys] using hn)]
    simp

theorem merge_append (a b c : Attr A) : merge a (b ++ c) = merge (merge a b) c := by simp [merge, List.foldl_append]

/-- Attributes with the same keys, and possibly more, replace the old ones. -/
theorem merge_replace {a b : Attr A} (h : Dict.keys b <+: Dict.keys a) (hn : (Dict.keys a).Nodup) : merge b a = a := by
  obtain ⟨t, ht⟩ := h
  have hlen : (Dict.keys b).length ≤ a.length := by
    have := congrArg List.length ht
    simp [Dict.keys] at this
    simp [Dict.keys]; omega
  have h1 : Dict.keys (a.take (Dict.keys b).length) = Dict.keys b := by
    have : Dict.keys (a.take (Dict.keys b).length) = (Dict.keys a).take (Dict.keys b).length := by simp [Dict.keys, List.map_take]
    rw [this, ← ht, List.take_left]
  have h2 : a.take (Dict.keys b).length ++ a.drop (Dict.keys b).length = a := List.take_append_drop _ _
  have hn1 : (Dict.keys (a.take (Dict.keys b).length ++ a.drop (Dict.keys b).length)).Nodup := by rw [h2]; exact hn
  conv => lhs; rw [← h2]
  rw [merge_append]
  have hn2 : (Dict.keys ([] ++ a.take (Dict.keys b).length)).Nodup := by
    simp only [Dict.keys, List.map_append, List.nil_append] at hn1 ⊢
    exact (List.nodup_append.1 hn1).1
  have := merge_same (a.take (Dict.keys b).length) b [] h1.symm hn2
  simp only [List.nil_append] at this
  rw [this, merge_new _ _ hn1, h2]

theorem merge_self {a : Attr A} (hn : (Dict.keys a).Nodup) : merge a a = a := merge_replace (List.prefix_refl _) hn

end Repast.Network
