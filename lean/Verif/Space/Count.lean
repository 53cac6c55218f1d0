import Verif.Space.Props

/-
C62: `get_num_agents` of the shared spaces (spacemodule.cpp:1328-1350, 2225-2247).
-/
namespace Repast.Space

variable {P : Type} [DecidableEq P]

/-- spacemodule.cpp:1328-1350, 2225-2247: `type a` is the type of the agent `a`; `agentType` is -1 if it is not given. -/
def numAgents (s : Sp P) (type : Nat → Int) (pt : P) (agentType : Int) : Nat :=
  if agentType = -1 then (s.loc pt).length
  else (s.loc pt).foldl (fun count a => if type a = agentType then count + 1 else count) 0

theorem count_foldl (p : Nat → Bool) (l : List Nat) (n : Nat) : l.foldl (fun count a => if p a then count + 1 else count) n = n + (l.filter p).length := by
  induction l generalizing n with
  | nil => rfl
  | cons a l ih =>
    rw [List.foldl_cons, ih]
    cases h : p a <;> simp [h]
    omega

/-- C62: after any calls that do not add an agent twice, `get_num_agents(pt, type)` is the number of agents that `get_location` says are at `pt` and that have this
type, and without a type (or with -1) the number of all agents there: there is a list without repetitions of precisely these agents, and the result is its length.
Missing (`_partial`): a repeated `add`, see `C29_double_add`. -/
theorem C62_count_partial (c : Cfg P) (zero : P) (ops : List (Op P)) (ha : AddsOnlyNew [] ops) (type : Nat → Int) (pt : P) (agentType : Int) :
    let s := (run c (Sp.empty zero) ops).1
    ∃ l : List Nat, l.Nodup ∧ (∀ a, a ∈ l ↔ locationOf c s a = .loc (some pt) ∧ (agentType = -1 ∨ type a = agentType)) ∧
      numAgents s type pt agentType = l.length := by
  intro s
  obtain ⟨l, h1, h2, h3⟩ := C29_agreement_partial c zero ops ha pt
  have hl : s.loc pt = l := by
    simpa [agentsAt, step] using h1
  by_cases h : agentType = -1
  · refine ⟨l, h2, fun a => ?_, ?_⟩
    · rw [h3 a]
      simp [h, s]
    · simp [numAgents, h, hl]
  · refine ⟨l.filter fun a => decide (type a = agentType), h2.filter _, fun a => ?_, ?_⟩
    · rw [List.mem_filter, h3 a]
      simp [h, s]
    · have := count_foldl (fun a => decide (type a = agentType)) l 0
      simp only [decide_eq_true_eq] at this
      simp only [numAgents, h, hl, if_false, this]
      omega

/-- C62: if the agents have types less than `n`, the numbers of agents of each type sum up to the number of all. -/
theorem C62_sum (s : Sp P) (type : Nat → Int) (n : Nat) (ht : ∀ a, 0 ≤ type a ∧ type a < n) (pt : P) :
    ((List.range n).map fun t => numAgents s type pt (Int.ofNat t)).sum = numAgents s type pt (-1) := by
  have e : ∀ t : Nat, numAgents s type pt (Int.ofNat t) = ((s.loc pt).filter fun a => decide (type a = t)).length := by
    intro t
    have := count_foldl (fun a => decide (type a = (t : Int))) (s.loc pt) 0
    simp only [decide_eq_true_eq] at this
    have h : ¬ Int.ofNat t = -1 := by simp
    rw [numAgents, if_neg h]
    simp only [Int.ofNat_eq_natCast, this]
    omega
  simp only [e]
  simp only [numAgents, if_true]
  generalize s.loc pt = l
  induction l with
  | nil =>
    simp only [List.filter_nil, List.length_nil]
    clear ht e
    induction n with
    | zero => rfl
    | succ n ih => rw [List.range_succ, List.map_append, List.sum_append, ih]; rfl
  | cons a l ih =>
    obtain ⟨h0, h1⟩ := ht a
    have key : ∀ m : Nat, ((List.range m).map fun t : Nat => ((a :: l).filter fun a => decide (type a = t)).length).sum =
        ((List.range m).map fun t : Nat => (l.filter fun a => decide (type a = t)).length).sum + if type a < m then 1 else 0 := by
      intro m
      induction m with
      | zero => simp; omega
      | succ m im =>
        rw [List.range_succ, List.map_append, List.map_append, List.sum_append, List.sum_append, im]
        simp only [List.map_cons, List.map_nil, List.sum_cons, List.sum_nil, List.filter_cons]
        by_cases hm : type a = (m : Int)
        · simp only [hm, decide_true, if_true, List.length_cons]
          rw [if_neg (by omega), if_pos (by omega)]
          omega
        · have hd : decide (type a = (m : Int)) = false := by simpa using hm
          rw [hd, if_neg Bool.false_ne_true]
          have hs : ((m + 1 : Nat) : Int) = m + 1 := by simp
          by_cases hl : type a < (m : Int)
          · rw [if_pos hl, if_pos (by omega)]; omega
          · rw [if_neg hl, if_neg (by omega)]; omega
    rw [key n, ih, if_pos h1]
    rfl

/-- Three agents at (1, 1), two of type 0; the hypotheses can be met. -/
example : let ops : List (Op Pt) := [.add 1, .add 2, .add 3, .move 1 ⟨1, 1, 0⟩, .move 2 ⟨1, 1, 0⟩, .move 3 ⟨1, 1, 0⟩]
    let s := (run (grid ⟨0, 10, 0, 10, 0, 0⟩ false false) newGrid ops).1
    AddsOnlyNew [] ops ∧ numAgents s (fun a => if a = 2 then 1 else 0) ⟨1, 1, 0⟩ (-1) = 3 ∧ numAgents s (fun a => if a = 2 then 1 else 0) ⟨1, 1, 0⟩ 0 = 2 ∧
      numAgents s (fun a => if a = 2 then 1 else 0) ⟨1, 1, 0⟩ 1 = 1 := by
  refine ⟨by simp [AddsOnlyNew], by decide +kernel, by decide +kernel, by decide +kernel⟩

end Repast.Space
