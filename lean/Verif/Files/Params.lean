import Verif.Files.Logging

/-
C49: `init_params`.
-/
namespace Repast.Files

variable {V : Type}

theorem plookup_cons (e : Text × Val V) (l : Params V) (q : Text) : (e :: l : Params V).lookup q = if q = e.1 then some e.2 else l.lookup q := by
  rw [List.lookup_cons]
  by_cases h : q = e.1
  · simp [h]
  · have : (q == e.1) = false := by simpa using h
    simp [this, h]

theorem lookup_set (d : Params V) (k : Text) (v : Val V) (q : Text) : (d.set k v).lookup q = if q = k then some v else d.lookup q := by
  induction d with
  | nil =>
    unfold Params.set
    rw [plookup_cons]
  | cons e l ih =>
    unfold Params.set
    by_cases he : e.1 = k
    · rw [if_pos he, plookup_cons, plookup_cons]
      by_cases h : q = k <;> simp [h, he]
    · rw [if_neg he, plookup_cons, plookup_cons, ih]
      by_cases h : q = k
      · subst h
        have : q ≠ e.1 := fun h => he h.symm
        simp [this]
      · simp [h]

theorem lookup_none {d : Params V} {q : Text} (h : q ∉ d.map (·.1)) : d.lookup q = none := by
  induction d with
  | nil => rfl
  | cons e l ih =>
    simp only [List.map_cons, List.mem_cons, not_or] at h
    rw [plookup_cons, if_neg h.1, ih h.2]

theorem lookup_update (e : Params V) (he : (e.map (·.1)).Nodup) (d : Params V) (q : Text) : (d.update e).lookup q = (e.lookup q).or (d.lookup q) := by
  unfold Params.update
  induction e generalizing d with
  | nil => simp
  | cons a e ih =>
    rw [List.map_cons, List.nodup_cons] at he
    rw [List.foldl_cons, ih he.2, lookup_set, plookup_cons]
    by_cases h : q = a.1
    · rw [h, lookup_none he.1]
      simp
    · simp [h]

/-- The seed after `init_params`: the value of the parameter `random.seed`, the current time if that is null, and the previous seed if there is no such
parameter. -/
def seedOf (now : V) (old : Val V) : Option (Val V) → Val V
  | none => old
  | some .null => .val now
  | some (.val s) => .val s

/-- C49: with a file that is not empty `init_params` raises nothing (without a dump file), and the parameters are those of the text where it gives them, and
otherwise those of the file; the generator is seeded with the resulting `random.seed` if there is one; no file is written. -/
theorem C49_override_partial (now : V) (text : Params V → Text) (fs : FS) (g : Globals V) (file : Params V) (over : Option (Params V))
    (ho : ∀ o, over = some o → (o.map (·.1)).Nodup) :
    ∃ g', initParams now text fs g (some file) over none = some (fs, g') ∧
      (∀ k, g'.params.lookup k = (over.bind fun o => o.lookup k).or (file.lookup k)) ∧
      g'.seed = seedOf now g.seed ((over.bind fun o => o.lookup "random.seed".toList).or (file.lookup "random.seed".toList)) := by
  have key : ∀ p : Params V, ∃ g' : Globals V, (some (fs, ({ params := p, seed := match p.lookup "random.seed".toList with
      | some s => randomInit now s
      | none => g.seed } : Globals V)) : Option (FS × Globals V)) = some (fs, g') ∧ g'.params = p ∧ g'.seed = seedOf now g.seed (p.lookup "random.seed".toList) := by
    intro p
    refine ⟨_, rfl, rfl, ?_⟩
    cases p.lookup "random.seed".toList with
    | none => rfl
    | some s => cases s <;> rfl
  cases over with
  | none =>
    obtain ⟨g', h1, h2, h3⟩ := key file
    refine ⟨g', h1, ?_, ?_⟩
    · intro k; rw [h2]; rfl
    · rw [h3]; rfl
  | some o =>
    obtain ⟨g', h1, h2, h3⟩ := key (file.update o)
    refine ⟨g', h1, ?_, ?_⟩
    · intro k; rw [h2, lookup_update o (ho o rfl)]; rfl
    · rw [h3, lookup_update o (ho o rfl)]; rfl

/-- C49: with a dump file in a directory that exists the resolved parameters are written to a file that did not exist, no other file is changed, and parameters and seed
are the same as without it. -/
theorem C49_dump_partial (now : V) (text : Params V → Text) (fs : FS) (g : Globals V) (file : Params V) (over : Option (Params V))
    (dir name : Text) (hn : name ≠ []) (hd : pathDir dir = [] ∨ pathDir dir ∈ fs.dirs) :
    ∃ fs' g' path, initParams now text fs g (some file) over (some (dir, name)) = some (fs', g') ∧ initParams now text fs g (some file) over none = some (fs, g') ∧
      findFree fs dir name = some path ∧ path ∉ fs.names ∧ fs'.read path = some (text g'.params) ∧ ∀ q, q ≠ path → fs'.read q = fs.read q := by
  obtain ⟨path, hp⟩ := findFree_isSome fs dir name hn
  have hc : ∀ t, create fs dir path t = some { fs with files := writeFile fs.files path t } := by
    intro t
    unfold create
    rw [if_pos hd]
  cases over with
  | none =>
    refine ⟨{ fs with files := writeFile fs.files path (text file) }, _, path, ?_, rfl, hp, findFree_fresh hp, ?_, ?_⟩
    · unfold initParams
      simp only [Option.bind_some]
      rw [hp, Option.bind_some, hc, Option.map_some]
    · unfold FS.read; rw [lookup_write, if_pos rfl]
    · intro q hq; unfold FS.read; rw [lookup_write, if_neg hq]
  | some o =>
    refine ⟨{ fs with files := writeFile fs.files path (text (file.update o)) }, _, path, ?_, rfl, hp, findFree_fresh hp, ?_, ?_⟩
    · unfold initParams
      simp only [Option.bind_some]
      rw [hp, Option.bind_some, hc, Option.map_some]
    · unfold FS.read; rw [lookup_write, if_pos rfl]
    · intro q hq; unfold FS.read; rw [lookup_write, if_neg hq]

/-- C49 is violated for an empty parameter file, for which the YAML parser returns `None`: an exception, even if all parameters are given in the text. -/
theorem C49_violation_empty_file (now : V) (text : Params V → Text) (fs : FS) (g : Globals V) (over : Option (Params V)) (dump : Option (Text × Text)) :
    initParams now text fs g none over dump = none := rfl

example : (initParams 99 (fun _ => []) exFS ⟨[], .val 0⟩ (some [("a".toList, .val 1), ("random.seed".toList, .val 2)]) (some [("random.seed".toList, .val 3), ("b".toList, .val 4)]) none).map
    (fun x => (x.2.params.map (·.1), x.2.seed matches .val 3, x.2.params.lookup "a".toList matches some (.val 1))) =
    some (["a".toList, "random.seed".toList, "b".toList], true, true) := by decide +kernel

end Repast.Files
