import Verif.Files.Model

/-
C48: `find_free_filename`.
-/
namespace Repast.Files

/-- A list that contains the members of a list without repetitions is at least as long. -/
theorem length_le_of_nodup {α : Type} [DecidableEq α] {l m : List α} (hl : l.Nodup) (h : ∀ a ∈ l, a ∈ m) : l.length ≤ m.length := by
  induction l generalizing m with
  | nil => simp
  | cons a l ih =>
    rw [List.nodup_cons] at hl
    have ha : a ∈ m := h a (by simp)
    have := ih (m := m.erase a) hl.2 (fun b hb => (List.mem_erase_of_ne (by rintro rfl; exact hl.1 hb)).2 (h b (by simp [hb])))
    have := List.length_erase_of_mem ha
    have : 0 < m.length := List.length_pos_of_mem ha
    simp only [List.length_cons]
    omega

theorem has_iff (fs : FS) (p : Text) : fs.has p = true ↔ p ∈ fs.names := by
  unfold FS.has
  simp

theorem search_some {ex : Text → Bool} {cand : Nat → Text} : ∀ {fuel k : Nat} {p q : Text}, search ex cand fuel k p = some q →
    (ex p = false ∧ q = p) ∨ (ex p = true ∧ ∃ j, k ≤ j ∧ q = cand j ∧ ex q = false ∧ ∀ i, k ≤ i → i < j → ex (cand i) = true) := by
  intro fuel
  induction fuel with
  | zero => intro k p q h; simp [search] at h
  | succ fuel ih =>
    intro k p q h
    unfold search at h
    split at h
    · rename_i hp
      refine .inr ⟨hp, ?_⟩
      rcases ih h with ⟨h1, h2⟩ | ⟨h1, j, h2, h3, h4, h5⟩
      · exact ⟨k, by omega, h2, h2 ▸ h1, fun i h3 h4 => by omega⟩
      · refine ⟨j, by omega, h3, h4, fun i h6 h7 => ?_⟩
        by_cases hi : i = k
        · exact hi ▸ h1
        · exact h5 i (by omega) h7
    · rename_i hp
      cases h
      exact .inl ⟨by simpa using hp, rfl⟩

theorem search_none {ex : Text → Bool} {cand : Nat → Text} : ∀ {fuel k : Nat} {p : Text}, search ex cand fuel k p = none →
    0 < fuel → ex p = true ∧ ∀ i, k ≤ i → i + 1 < k + fuel → ex (cand i) = true := by
  intro fuel
  induction fuel with
  | zero => intro k p _ h; omega
  | succ fuel ih =>
    intro k p h _
    unfold search at h
    split at h
    · rename_i hp
      refine ⟨hp, fun i h1 h2 => ?_⟩
      have := ih h (by omega)
      by_cases hi : i = k
      · exact hi ▸ this.1
      · exact this.2 i (by omega) (by omega)
    · cases h

theorem splitExt_append (name : Text) : (splitExt name).1 ++ (splitExt name).2 = name := by
  unfold splitExt
  simp only []
  split
  · simp
  · simp

theorem toDigits_inj {a b : Nat} (h : Nat.toDigits 10 a = Nat.toDigits 10 b) : a = b := by
  have h1 := Nat.ofDigitChars_ten_toDigits (n := a)
  rw [h, Nat.ofDigitChars_ten_toDigits] at h1
  exact h1.symm

theorem join_inj {dir a b : Text} (h : join dir a = join dir b) : a = b := by
  unfold join at h
  split at h
  · exact h
  · simpa using h

theorem candidate_inj {dir name : Text} {i j : Nat} (h : candidate dir name i = candidate dir name j) : i = j := by
  have := join_inj h
  simp only [List.append_assoc, List.append_cancel_left_eq, List.cons_append, List.cons.injEq, true_and, List.append_cancel_right_eq] at this
  exact toDigits_inj this

theorem candidate_ne (dir name : Text) (i : Nat) : candidate dir name i ≠ join dir name := by
  intro h
  have := join_inj h
  have h2 := congrArg List.length (splitExt_append name)
  have h3 := congrArg List.length this
  simp at h2 h3
  omega

theorem findFree_isSome (fs : FS) (dir name : Text) (hn : name ≠ []) : ∃ q, findFree fs dir name = some q := by
  unfold findFree
  rw [if_neg hn]
  cases h : search fs.has (candidate (pathDir dir) name) (fs.names.length + 1) 1 (join (pathDir dir) name) with
  | some q => exact ⟨q, rfl⟩
  | none =>
    exfalso
    obtain ⟨h1, h2⟩ := search_none h (by omega)
    have hnd : (join (pathDir dir) name :: (List.range fs.names.length).map fun i => candidate (pathDir dir) name (i + 1)).Nodup := by
      rw [List.nodup_cons]
      constructor
      · rw [List.mem_map]
        rintro ⟨i, _, hi⟩
        exact candidate_ne _ _ _ hi
      · rw [List.nodup_iff_pairwise_ne, List.pairwise_map]
        refine List.Pairwise.imp ?_ (List.nodup_iff_pairwise_ne.1 List.nodup_range)
        intro a b hab e
        exact hab (by have := candidate_inj e; omega)
    have := length_le_of_nodup (m := fs.names) hnd (by
      intro a ha
      rw [← has_iff]
      rcases List.mem_cons.1 ha with rfl | ha
      · exact h1
      · obtain ⟨i, hi, rfl⟩ := List.mem_map.1 ha
        rw [List.mem_range] at hi
        exact h2 _ (by omega) (by omega))
    simp at this
    omega

/-- How a name is split into a stem and a suffix: the suffix begins at the last dot, unless nothing precedes or follows this dot. -/
structure IsSplit (name stem suffix : Text) : Prop where
  eq : stem ++ suffix = name
  nonempty : name ≠ [] → stem ≠ []
  dot : suffix = [] ∨ ∃ ext, suffix = '.' :: ext ∧ ext ≠ [] ∧ '.' ∉ ext
  last : suffix = [] → ∀ pre ext, name = pre ++ '.' :: ext → '.' ∉ ext → pre = [] ∨ ext = []

theorem mem_takeWhile_p {α : Type} {p : α → Bool} : ∀ {l : List α} {a : α}, a ∈ l.takeWhile p → p a = true := by
  intro l
  induction l with
  | nil => intro a h; simp at h
  | cons b l ih =>
    intro a h
    rw [List.takeWhile_cons] at h
    split at h
    · rcases List.mem_cons.1 h with rfl | h
      · assumption
      · exact ih h
    · simp at h

/-- Splitting at the last dot. -/
theorem last_dot {name : Text} (h : '.' ∈ name) : ∃ pre ext, name = pre ++ '.' :: ext ∧ '.' ∉ ext := by
  induction name with
  | nil => simp at h
  | cons c name ih =>
    by_cases hn : '.' ∈ name
    · obtain ⟨pre, ext, h1, h2⟩ := ih hn
      exact ⟨c :: pre, ext, by rw [h1]; rfl, h2⟩
    · rcases List.mem_cons.1 h with rfl | h
      · exact ⟨[], name, rfl, hn⟩
      · exact absurd h hn

theorem ext_of_dot {pre ext : Text} (h : '.' ∉ ext) : ((pre ++ '.' :: ext).reverse.takeWhile (· != '.')).reverse = ext := by
  rw [List.reverse_append, List.reverse_cons, List.append_assoc]
  have : (ext.reverse ++ (['.'] ++ pre.reverse)).takeWhile (· != '.') = ext.reverse := by
    rw [List.takeWhile_append_of_pos (by
      intro a ha
      rw [List.mem_reverse] at ha
      simp only [bne_iff_ne, ne_eq]
      rintro rfl
      exact h ha)]
    simp
  rw [this]
  simp

theorem splitExt_spec (name : Text) : IsSplit name (splitExt name).1 (splitExt name).2 := by
  by_cases hd : '.' ∈ name
  · obtain ⟨pre, ext, h1, h2⟩ := last_dot hd
    have he : splitExt name = if pre ≠ [] ∧ ext ≠ [] then (pre, '.' :: ext) else (name, []) := by
      unfold splitExt
      simp only []
      rw [h1, ext_of_dot h2]
      have e : (pre ++ '.' :: ext).length - ext.length - 1 = pre.length := by simp; omega
      rw [e]
      have hc : ('.' ∈ pre ++ '.' :: ext ∧ 0 < pre.length ∧ pre.length < (pre ++ '.' :: ext).length - 1) ↔ (pre ≠ [] ∧ ext ≠ []) := by
        constructor
        · rintro ⟨_, h, h'⟩
          simp at h'
          exact ⟨List.length_pos_iff.1 h, List.length_pos_iff.1 (by omega)⟩
        · rintro ⟨h, h'⟩
          have h3 := List.length_pos_iff.2 h
          have h4 := List.length_pos_iff.2 h'
          simp
          omega
      by_cases hp : pre ≠ [] ∧ ext ≠ []
      · rw [if_pos (hc.2 hp), if_pos hp]
        simp
      · rw [if_neg (fun h => hp (hc.1 h)), if_neg hp]
    refine ⟨splitExt_append name, ?_, ?_, ?_⟩
    · intro hn
      rw [he]
      split
      · rename_i h; exact h.1
      · exact hn
    · rw [he]
      split
      · rename_i h; exact .inr ⟨ext, rfl, h.2, h2⟩
      · exact .inl rfl
    · intro hs p e hpe hne
      have : pre = p ∧ ext = e := by
        have e1 := ext_of_dot (pre := pre) h2
        have e2 := ext_of_dot (pre := p) hne
        rw [← h1] at e1
        rw [← hpe] at e2
        have h3 : ext = e := e1.symm.trans e2
        refine ⟨?_, h3⟩
        have := h1.symm.trans hpe
        rw [h3] at this
        simpa using this
      rw [he] at hs
      split at hs
      · cases hs
      · rename_i h
        rw [← this.1, ← this.2]
        by_cases hp : pre = []
        · exact .inl hp
        · exact .inr (Classical.byContradiction fun hx => h ⟨hp, hx⟩)
  · have he : splitExt name = (name, []) := by
      unfold splitExt
      simp [hd]
    rw [he]
    refine ⟨by simp, fun h => h, .inl rfl, fun _ p e hpe _ => ?_⟩
    exact absurd (by rw [hpe]; simp) hd

/-- For every content of the file system `find_free_filename` returns the path itself if it does not exist, and otherwise the path of the first of
`stem_1.suffix`, `stem_2.suffix`, ... (in the same directory) that does not exist. -/
theorem find_free_spec (fs : FS) (dir name : Text) (hn : name ≠ []) :
    ∃ q, findFree fs dir name = some q ∧ q ∉ fs.names ∧
      (join (pathDir dir) name ∉ fs.names → q = join (pathDir dir) name) ∧
      (join (pathDir dir) name ∈ fs.names → ∃ stem suffix k, IsSplit name stem suffix ∧ 1 ≤ k ∧
        q = join (pathDir dir) (stem ++ "_".toList ++ (toString k).toList ++ suffix) ∧
        ∀ i, 1 ≤ i → i < k → join (pathDir dir) (stem ++ "_".toList ++ (toString i).toList ++ suffix) ∈ fs.names) := by
  obtain ⟨q, hq⟩ := findFree_isSome fs dir name hn
  have hc : ∀ i, candidate (pathDir dir) name i = join (pathDir dir) ((splitExt name).1 ++ "_".toList ++ (toString i).toList ++ (splitExt name).2) := by
    intro i
    unfold candidate
    rw [show (toString i : String).toList = Nat.toDigits 10 i from Nat.toList_repr]
    simp
  refine ⟨q, hq, ?_⟩
  unfold findFree at hq
  rw [if_neg hn] at hq
  rcases search_some hq with ⟨h1, h2⟩ | ⟨h1, k, h2, h3, h4, h5⟩
  · have h1' : join (pathDir dir) name ∉ fs.names := by rw [← has_iff, h1]; simp
    exact ⟨h2 ▸ h1', fun _ => h2, fun h => absurd h h1'⟩
  · have h1' := (has_iff _ _).1 h1
    refine ⟨by rw [← has_iff, h4]; simp, fun h => absurd h1' h, fun _ => ?_⟩
    refine ⟨_, _, k, splitExt_spec name, h2, by rw [h3, hc], fun i h6 h7 => ?_⟩
    rw [← hc, ← has_iff]
    exact h5 i h6 h7

/-- There is a file or a directory with the path. -/
def IsThere (fs : FS) (p : Text) : Prop := (∃ content, (p, content) ∈ fs.files) ∨ p ∈ fs.dirs

/-- The path of a file in a directory. There are two ways to write the current directory. -/
def pathIn (dir file : Text) : Text := if dir = [] ∨ dir = ['.'] then file else dir ++ ['/'] ++ file

theorem isThere_iff {fs : FS} {p : Text} : IsThere fs p ↔ p ∈ fs.names := by
  unfold IsThere FS.names
  rw [List.mem_append, List.mem_map]
  constructor
  · rintro (⟨c, h⟩ | h)
    · exact .inl ⟨_, h, rfl⟩
    · exact .inr h
  · rintro (⟨e, h, rfl⟩ | h)
    · exact .inl ⟨e.2, h⟩
    · exact .inr h

theorem pathIn_eq (dir name : Text) : pathIn dir name = join (pathDir dir) name := by
  unfold pathIn join pathDir
  by_cases h : dir = ['.']
  · simp [h]
  · simp [h]

/-- C48: for every content of the file system `find_free_filename` returns the path itself if it does not exist, and otherwise the path of the first of
`stem_1.suffix`, `stem_2.suffix`, ... (in the same directory) that does not exist. -/
theorem C48_find_free (fs : FS) (dir name : Text) (hn : name ≠ []) :
    ∃ q, findFree fs dir name = some q ∧ ¬ IsThere fs q ∧
      (¬ IsThere fs (pathIn dir name) → q = pathIn dir name) ∧
      (IsThere fs (pathIn dir name) → ∃ stem suffix k, IsSplit name stem suffix ∧ 1 ≤ k ∧
        q = pathIn dir (stem ++ "_".toList ++ (toString k).toList ++ suffix) ∧
        ∀ i, 1 ≤ i → i < k → IsThere fs (pathIn dir (stem ++ "_".toList ++ (toString i).toList ++ suffix))) := by
  simp only [isThere_iff, pathIn_eq]
  exact find_free_spec fs dir name hn

/-- An example: `counts.csv` and `counts_1.csv` exist. -/
example : findFree ⟨["out".toList], [("out/counts.csv".toList, []), ("out/counts_1.csv".toList, []), ("out/b.csv".toList, [])]⟩ "out".toList "counts.csv".toList =
    some "out/counts_2.csv".toList := by decide +kernel

end Repast.Files
