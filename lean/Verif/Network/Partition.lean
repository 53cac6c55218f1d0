/-
Model of the random partition of a network: `_random_partition` (`/repo/src/repast4py/network.py:1115-1142`).
-/
namespace Repast.Network

/-- `math.ceil(num_nodes / n_ranks)` (network.py:1117, 1119), for `n_ranks > 0`. (Simplification: the division is exact; Python divides floating
point numbers, which is exact enough for the ceiling below 2^53 nodes.) -/
def ceilDiv (n k : Nat) : Nat := (n + k - 1) / k

/-- `np.tile(np.arange(n_ranks), math.ceil(nodes_per_rank))` (network.py:1118-1119) -/
def tile (n k : Nat) : List Nat := (List.replicate (ceilDiv n k) (List.range k)).flatten

/-- network.py:1115-1132: the ranks of the nodes, in the order of the nodes; `shuffled` is what `rng.shuffle` made of the tiled array.
`n_ranks = 0` is a `ZeroDivisionError`. -/
def assign (n k : Nat) (shuffle : List Nat → List Nat) : Option (List Nat) :=
  if k = 0 then none
  else
    let a := shuffle (tile n k)
    some (if a.length > n then a.take n else a)

theorem tile_length (n k : Nat) : (tile n k).length = ceilDiv n k * k := by simp [tile]

theorem le_ceilDiv (n k : Nat) (h : 0 < k) : n ≤ ceilDiv n k * k := by
  unfold ceilDiv
  have h1 := Nat.div_add_mod (n + k - 1) k
  have h2 := Nat.mod_lt (n + k - 1) h
  have h3 : (n + k - 1) / k * k = k * ((n + k - 1) / k) := Nat.mul_comm _ _
  omega

/-- The ceiling is what it says: the least number of nodes per rank that is enough. -/
theorem ceilDiv_spec (n k : Nat) (h : 0 < k) : n ≤ ceilDiv n k * k ∧ ceilDiv n k * k < n + k := by
  refine ⟨le_ceilDiv n k h, ?_⟩
  unfold ceilDiv
  have h1 := Nat.div_add_mod (n + k - 1) k
  have h3 : (n + k - 1) / k * k = k * ((n + k - 1) / k) := Nat.mul_comm _ _
  omega

theorem count_range (k r : Nat) : (List.range k).count r = if r < k then 1 else 0 := by
  induction k with
  | zero => simp
  | succ k ih =>
    rw [List.range_succ, List.count_append, ih, List.count_singleton]
    by_cases h : r = k
    · subst h; simp
    · by_cases h2 : r < k
      · have : (k == r) = false := by simp; omega
        simp [this, h2]; omega
      · have : (k == r) = false := by simp; omega
        simp [this, h2]; omega

theorem count_tile (n k r : Nat) : (tile n k).count r = if r < k then ceilDiv n k else 0 := by
  unfold tile
  induction ceilDiv n k with
  | zero => simp
  | succ m ih =>
    rw [List.replicate_succ, List.flatten_cons, List.count_append, ih, count_range]
    split <;> omega

theorem mem_tile (n k r : Nat) (h : r ∈ tile n k) : r < k := by
  simp only [tile, List.mem_flatten, List.mem_replicate] at h
  obtain ⟨l, ⟨_, rfl⟩, hr⟩ := h
  exact List.mem_range.1 hr

theorem count_drop_le (l : List Nat) (m r : Nat) : (l.drop m).count r ≤ l.length - m := by
  have := List.count_le_length (a := r) (l := l.drop m)
  simpa using this

/-- **C45.** For every number `n` of nodes, every number `k` of ranks but 0, and every outcome of the shuffle: each node gets exactly one rank, the
rank exists, no rank gets more than `⌈n/k⌉` nodes, and no rank gets fewer than `⌈n/k⌉` minus the number of places that are left over. -/
theorem C45_random_partition (n k : Nat) (hk : 0 < k) (shuffle : List Nat → List Nat) (hs : ∀ l, (shuffle l).Perm l) :
    ∃ a, assign n k shuffle = some a ∧ a.length = n ∧ (∀ r ∈ a, r < k) ∧
      ∀ r < k, a.count r ≤ (n + k - 1) / k ∧ (n + k - 1) / k ≤ a.count r + (((n + k - 1) / k) * k - n) := by
  have hp := hs (tile n k)
  have hl : (shuffle (tile n k)).length = ceilDiv n k * k := by rw [hp.length_eq, tile_length]
  have hle := le_ceilDiv n k hk
  have hb : ∀ r < k, (shuffle (tile n k)).count r = ceilDiv n k := fun r hr => by rw [hp.count_eq, count_tile, if_pos hr]
  have hm : ∀ r ∈ shuffle (tile n k), r < k := fun r hr => mem_tile n k r ((hp.mem_iff).1 hr)
  have hke : (if (shuffle (tile n k)).length > n then (shuffle (tile n k)).take n else shuffle (tile n k)) = (shuffle (tile n k)).take n := by
    split
    · rfl
    · rename_i h
      rw [List.take_of_length_le (by omega)]
  refine ⟨(shuffle (tile n k)).take n, ?_, ?_, ?_, ?_⟩
  · simp only [assign, if_neg (Nat.pos_iff_ne_zero.1 hk), hke]
  · rw [List.length_take, hl]; omega
  · intro r hr; exact hm r (List.mem_of_mem_take hr)
  · intro r hr
    have hsplit : ((shuffle (tile n k)).take n).count r + ((shuffle (tile n k)).drop n).count r = ceilDiv n k := by
      rw [← List.count_append, List.take_append_drop, hb r hr]
    have hd := count_drop_le (shuffle (tile n k)) n r
    rw [hl] at hd
    unfold ceilDiv at hsplit hd
    omega

/-- A partition over no ranks is an error. -/
theorem C45_no_ranks (n : Nat) (shuffle : List Nat → List Nat) : assign n 0 shuffle = none := by simp [assign]

/-- Seven nodes over three ranks, the shuffle reverses. -/
example : assign 7 3 List.reverse = some [2, 1, 0, 2, 1, 0, 2] ∧ ∀ l : List Nat, l.reverse.Perm l :=
  ⟨by decide, List.reverse_perm⟩

/-- The partition need not give each rank a node although there are more nodes than ranks: the bounds of `C45_random_partition` are exact. -/
example : ∃ shuffle : List Nat → List Nat, (∀ l, (shuffle l).Perm l) ∧ assign 4 3 shuffle = some [0, 0, 2, 2] := by
  refine ⟨fun l => if l = [0, 1, 2, 0, 1, 2] then [0, 0, 2, 2, 1, 1] else l, ?_, by decide⟩
  intro l
  dsimp only
  split
  · rename_i h; rw [h]; decide
  · exact List.Perm.refl l

end Repast.Network
