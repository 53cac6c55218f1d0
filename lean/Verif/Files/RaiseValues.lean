import Verif.Files.Raise

/-! C67: which values are written after a data source raised. -/
namespace Repast.Files

variable {T V : Type} (f : Fmt T V)

/-- The value that source `j` gives in a call, if it is read at all: the sources are read in order, up to the first that raises (logging.py:317-318). -/
def readBy : Nat → List (Option V) → Option V
  | 0, some v :: _ => some v
  | j + 1, some _ :: vs => readBy j vs
  | _, _ => none

/-- The values that a logger holds. -/
def RLog.held (l : RLog V) : List V := l.data.take l.idx

theorem log_held (zero : V) (l : RLog V) (v : V) (h : l.idx ≤ l.data.length) :
    (l.log zero v).held = l.held ++ [v] ∧ (l.log zero v).idx ≤ (l.log zero v).data.length := by
  have key : ∀ data : List V, l.idx < data.length → data.take l.idx = l.data.take l.idx → (data.set l.idx v).take (l.idx + 1) = l.data.take l.idx ++ [v] := by
    intro data hl e
    rw [List.take_add_one, List.take_set_of_le (Nat.le_refl _), e]
    simp [hl]
  unfold RLog.log RLog.held
  dsimp only
  split
  · rename_i e
    refine ⟨key _ (by rw [List.length_append, List.length_replicate]; omega) ?_, by rw [List.length_set, List.length_append, List.length_replicate]; omega⟩
    rw [List.take_append_of_le_length h]
  · exact ⟨key _ (by omega) rfl, by simp; omega⟩

theorem grow_held (zero : V) (l : RLog V) (h : l.idx ≤ l.data.length) : (l.grow zero).held = l.held ∧ (l.grow zero).idx ≤ (l.grow zero).data.length := by
  unfold RLog.grow RLog.held
  dsimp only
  split
  · refine ⟨by rw [List.take_append_of_le_length h], by rw [List.length_append, List.length_replicate]; omega⟩
  · exact ⟨rfl, h⟩

theorem logLoop_held (ls : List (RLog V × Col V)) (vs : List (Option V)) (hok : ∀ x ∈ ls, x.1.idx ≤ x.1.data.length) (j : Nat) (x : RLog V × Col V) (hj : ls[j]? = some x) :
    ∃ l', (logLoop ls vs).1[j]? = some l' ∧ l'.held = x.1.held ++ (readBy j vs).toList ∧ l'.idx ≤ l'.data.length := by
  induction ls generalizing vs j with
  | nil => simp at hj
  | cons y ls ih =>
    obtain ⟨l, c⟩ := y
    have hl : l.idx ≤ l.data.length := hok _ (List.mem_cons_self ..)
    have stop : ∃ l', (l.grow c.zero :: ls.map (·.1))[j]? = some l' ∧ l'.held = x.1.held ++ [] ∧ l'.idx ≤ l'.data.length := by
      cases j with
      | zero =>
        cases hj
        obtain ⟨h1, h2⟩ := grow_held c.zero l hl
        exact ⟨_, rfl, by rw [h1, List.append_nil], h2⟩
      | succ j =>
        rw [List.getElem?_cons_succ] at hj
        exact ⟨x.1, by rw [List.getElem?_cons_succ, List.getElem?_map, hj]; rfl, by rw [List.append_nil], hok x (List.mem_cons_of_mem _ (List.mem_of_getElem? hj))⟩
    match vs with
    | [] => cases j <;> exact stop
    | none :: vs => cases j <;> exact stop
    | some v :: vs =>
      cases j with
      | zero =>
        cases hj
        obtain ⟨h1, h2⟩ := log_held c.zero l v hl
        exact ⟨_, rfl, h1, h2⟩
      | succ j =>
        rw [List.getElem?_cons_succ] at hj
        obtain ⟨l', h1, h2, h3⟩ := ih vs (fun y hy => hok y (List.mem_cons_of_mem _ hy)) j hj
        exact ⟨l', h1, h2, h3⟩

/-- What the data set holds after the calls `calls`: `log` was called, and nothing was written. -/
structure Solo.Holds (cols : List (Col V)) (buf : Int) (d : Solo T V) (calls : List (T × List (Option V))) : Prop where
  same : d.cols = cols
  buf : d.buf = buf
  out : d.out = header f cols
  ticks : d.ticks = calls.map (·.1)
  len : d.logs.length = cols.length
  vals : ∀ (j : Nat) l, d.logs[j]? = some l → l.held = calls.filterMap (fun c => readBy j c.2) ∧ l.idx ≤ l.data.length

theorem Solo.Holds.log {cols : List (Col V)} {buf : Int} {d : Solo T V} {calls : List (T × List (Option V))} (h : d.Holds f cols buf calls) (t : T) (vals : List (Option V))
    (hb : calls.length + 1 < buf) : (d.log f t vals).1.Holds f cols buf (calls ++ [(t, vals)]) := by
  have hn : (d.noted t vals).Holds f cols buf (calls ++ [(t, vals)]) := by
    refine ⟨h.same, h.buf, h.out, by simp [Solo.noted, h.ticks], by simp [Solo.noted, logLoop_len, h.len, h.same], ?_⟩
    intro j l hj
    have hlt : j < (d.logs.zip d.cols).length := by
      have := (List.getElem?_eq_some_iff.1 hj).1
      simpa [Solo.noted, logLoop_len] using this
    have hx := List.getElem?_eq_getElem hlt
    obtain ⟨l', h1, h2, h3⟩ := logLoop_held _ vals (fun x hx => by
      obtain ⟨i, hi⟩ := List.mem_iff_getElem?.1 hx
      rw [List.getElem?_zip_eq_some] at hi
      exact (h.vals i _ hi.1).2) j _ hx
    have : l = l' := by
      have e : (logLoop (d.logs.zip d.cols) vals).1[j]? = some l := hj
      rw [e] at h1
      exact Option.some.inj h1
    subst this
    have hy := List.getElem?_zip_eq_some.1 hx
    rw [(h.vals j _ hy.1).1] at h2
    refine ⟨?_, h3⟩
    rw [h2, List.filterMap_append]
    cases e : readBy j vals <;> simp [e]
  rcases log_cases f d t vals with e | ⟨hr, e | e⟩
  · rw [e]; exact hn
  · rw [e]; exact hn
  · -- nothing is written: the first logger holds fewer values than the buffer
    have hne : ∀ l rest, (d.noted t vals).logs = l :: rest → ¬ buf ≤ l.idx := by
      intro l rest el
      have h0 : (d.noted t vals).logs[0]? = some l := by rw [el]; rfl
      obtain ⟨h1, h2⟩ := hn.vals 0 l h0
      have h3 : l.held.length = l.idx := by unfold RLog.held; rw [List.length_take]; omega
      have h4 := List.length_filterMap_le (fun c : T × List (Option V) => readBy 0 c.2) (calls ++ [(t, vals)])
      rw [← h1, h3] at h4
      simp at h4
      omega
    have e' : d.log f t vals = (match (d.noted t vals).logs with | [] => (d.noted t vals, false) | l :: _ => if (d.noted t vals).buf ≤ l.idx then (d.noted t vals).write f else (d.noted t vals, true)) := by
      unfold Solo.log Solo.noted
      dsimp only
      rw [if_pos hr]
      cases (logLoop (d.logs.zip d.cols) vals).1 <;> rfl
    rw [e']
    cases el : (d.noted t vals).logs with
    | nil => exact hn
    | cons l rest =>
      dsimp only
      rw [if_neg (by rw [hn.buf]; exact hne l rest el)]
      exact hn

theorem Solo.Holds.new (cols : List (Col V)) (buf : Int) : (Solo.new f cols buf : Solo T V).Holds f cols buf [] := by
  refine ⟨rfl, rfl, rfl, rfl, by simp [Solo.new], ?_⟩
  intro j l hj
  simp only [Solo.new, List.getElem?_map, Option.map_eq_some_iff] at hj
  obtain ⟨c, -, rfl⟩ := hj
  exact ⟨rfl, Nat.zero_le _⟩

theorem Solo.Holds.run {cols : List (Col V)} {buf : Int} (more : List (T × List (Option V))) {d : Solo T V} {calls : List (T × List (Option V))} (h : d.Holds f cols buf calls)
    (hb : calls.length + more.length < buf) : (d.run f (more.map fun c => .log c.1 c.2)).Holds f cols buf (calls ++ more) := by
  induction more generalizing d calls with
  | nil => rw [List.append_nil]; exact h
  | cons c more ih =>
    simp only [List.length_cons] at hb
    have := ih (h.log f c.1 c.2 (by omega)) (by simp; omega)
    rw [List.append_assoc] at this
    exact this

theorem rowLoop_append (cols : List (List V)) (i : Nat) (a b : List T) (h : (rowLoop f cols i a).2 = true) : (rowLoop f cols i a).1 <+: (rowLoop f cols i (a ++ b)).1 := by
  induction a generalizing i with
  | nil => exact List.nil_prefix
  | cons t a ih =>
    simp only [List.cons_append, rowLoop] at h ⊢
    split at h
    · rename_i hr
      rw [if_pos hr, if_pos hr]
      exact (List.prefix_append_right_inj _).2 (ih (i + 1) h)
    · cases h

/-- C67 (partial), after exceptions: when `log` was called `calls.length` times, less often than the buffer is long, then `write` writes rows in which the i-th tick stands beside the i-th value that was read
from each source, for as many rows as each source has values, `rows`. No value that was read is lost or changed up to there; but after an exception it is the value of a later call. -/
theorem C67_values_partial (cols : List (Col V)) (buf : Int) (calls : List (T × List (Option V))) (hb : calls.length < buf) (rows : List (T × List V))
    (hr : ∀ (i : Nat) (r : T × List V), rows[i]? = some r → (calls[i]?).map (·.1) = some r.1 ∧ r.2.length = cols.length ∧
      ∀ j, j < cols.length → (calls.filterMap fun c => readBy j c.2)[i]? = r.2[j]?) :
    header f cols ++ rows.flatMap (soloRow f cols) <+: (((Solo.new f cols buf).run f (calls.map fun c => .log c.1 c.2)).write f).1.out := by
  have h := (Solo.Holds.new f cols buf (T := T)).run f calls (by simpa using hb)
  rw [List.nil_append] at h
  generalize (Solo.new f cols buf).run f (calls.map fun c => .log c.1 c.2) = d at h
  have hrows := rowLoop_text f ((d.cols.zip d.logs).map fun cl => (cl.2.data.take cl.2.idx).map fun v => cl.1.op [v]) 0
    (rows.map fun p => (p.1, (cols.zip p.2).map fun cv => cv.1.op [cv.2])) (by
      intro k r hk
      rw [List.getElem?_map, Option.map_eq_some_iff] at hk
      obtain ⟨p, hp, rfl⟩ := hk
      obtain ⟨-, h2, h3⟩ := hr k p hp
      refine ⟨by simp [h2, h.len, h.same], ?_⟩
      intro j c hc
      rw [List.getElem?_map, Option.map_eq_some_iff] at hc
      obtain ⟨⟨c', l⟩, hz, rfl⟩ := hc
      obtain ⟨hz1, hz2⟩ := List.getElem?_zip_eq_some.1 hz
      rw [h.same] at hz1
      have hj : j < cols.length := (List.getElem?_eq_some_iff.1 hz1).1
      have hv := (h.vals j l hz2).1
      unfold RLog.held at hv
      dsimp only
      rw [hv, Nat.zero_add, List.getElem?_map, h3 j hj]
      have : p.2[j]? = some p.2[j] := List.getElem?_eq_getElem (by omega)
      rw [List.getElem?_map, List.getElem?_zip_eq_some (z := (c', p.2[j])) |>.2 ⟨hz1, this⟩, this]
      rfl)
  have ht : d.ticks = (rows.map fun p => (p.1, (cols.zip p.2).map fun cv => cv.1.op [cv.2])).map (·.1) ++ d.ticks.drop rows.length := by
    rw [List.map_map]
    have e : rows.map (·.1) = d.ticks.take rows.length := by
      apply List.ext_getElem?
      intro i
      rw [List.getElem?_map, List.getElem?_take, h.ticks]
      cases hx : rows[i]? with
      | none =>
        rw [List.getElem?_eq_none_iff] at hx
        rw [if_neg (by omega)]
        rfl
      | some r =>
        rw [if_pos (List.getElem?_eq_some_iff.1 hx).1, List.getElem?_map, (hr i r hx).1]
        rfl
    have e' : ((fun p : T × List V => p.1) ∘ fun p : T × List V => (p.1, (cols.zip p.2).map fun cv => cv.1.op [cv.2])) = fun p => p.1 := rfl
    rw [e', e, List.take_append_drop]
  have hp := rowLoop_append f _ 0 _ (d.ticks.drop rows.length) (show (rowLoop f _ 0 _).2 = true by rw [hrows])
  rw [← ht, hrows] at hp
  have ho : (d.write f).1.out = d.out ++ (rowLoop f ((d.cols.zip d.logs).map fun cl => (cl.2.data.take cl.2.idx).map fun v => cl.1.op [v]) 0 d.ticks).1 := by
    unfold Solo.write
    dsimp only
    split <;> rfl
  rw [ho, h.out]
  refine (List.prefix_append_right_inj _).2 ?_
  have e : rows.flatMap (soloRow f cols) = (rows.map fun p => (p.1, (cols.zip p.2).map fun cv => cv.1.op [cv.2])).flatMap fun r => f.tick r.1 ++ (r.2.flatMap fun w => f.delim ++ f.val w) ++ ['\n'] := by
    rw [List.flatMap_map]
    unfold soloRow
    simp only [List.flatMap_map]
    rfl
  rw [e]
  exact hp

/-- The second source raises in the second call: its value of the third call is written beside the second tick. -/
example : ∀ (i : Nat) (r : Nat × List Nat), [((1 : Nat), [(10 : Nat), 11]), (2, [20, 31])][i]? = some r →
    ([((1 : Nat), [some (10 : Nat), some 11]), (2, [some 20, none]), (3, [some 30, some 31])][i]?).map (·.1) = some r.1 ∧ r.2.length = exCols.length ∧
      ∀ j, j < exCols.length → ([((1 : Nat), [some (10 : Nat), some 11]), (2, [some 20, none]), (3, [some 30, some 31])].filterMap fun c => readBy j c.2)[i]? = r.2[j]? := by
  intro i r h
  match i with
  | 0 => cases h; refine ⟨rfl, rfl, fun j hj => ?_⟩; have : j = 0 ∨ j = 1 := by simp [exCols] at hj; omega
         rcases this with rfl | rfl <;> rfl
  | 1 => cases h; refine ⟨rfl, rfl, fun j hj => ?_⟩; have : j = 0 ∨ j = 1 := by simp [exCols] at hj; omega
         rcases this with rfl | rfl <;> rfl
  | _ + 2 => simp at h

end Repast.Files
