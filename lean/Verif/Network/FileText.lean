import Verif.Network.File

/-! C44: the lines of network files. -/
namespace Repast.Network
open Repast.Dict Repast.Context

variable {S A : Type}

/-- Text of a dictionary that the regular expression for lines recognizes: braces around text without a closing brace. -/
def PlainText (t : Text) : Prop := ∃ body, t = '{' :: body ++ ['}'] ∧ body ≠ [] ∧ '}' ∉ body ∧ '\n' ∉ body

/-- Attributes that are written and read back. -/
def Json.Good (J : Json A) (a : Attr A) : Prop := a.isEmpty = false → PlainText (J.dumps a) ∧ J.loads (J.dumps a) = some a

/-! ### Numbers -/

theorem digit_notSpace {c : Char} (h : c.isDigit = true) : isSpace c = false := by
  unfold isSpace
  cases hw : c.isWhitespace with
  | false => rfl
  | true =>
    exfalso
    simp only [Char.isWhitespace, Bool.or_eq_true, decide_eq_true_eq] at hw
    rcases hw with ((rfl | rfl) | rfl) | rfl <;> revert h <;> decide

theorem digits_digit {n : Nat} {c : Char} (h : c ∈ digits n) : c.isDigit = true := Nat.isDigit_of_mem_toDigits (by omega) (by omega) h

theorem digits_ne (n : Nat) : digits n ≠ [] := Nat.toDigits_ne_nil

/-- A word: what stands between spaces. -/
def Word (w : Text) : Prop := w ≠ [] ∧ (∀ c ∈ w, isSpace c = false) ∧ ∀ c ∈ w, c ≠ '{'

theorem digits_word (n : Nat) : Word (digits n) := by
  refine ⟨digits_ne n, fun c hc => digit_notSpace (digits_digit hc), ?_⟩
  rintro c hc rfl
  have := digits_digit hc
  revert this; decide

theorem dropWhile_none {p : Char → Bool} {l : Text} (h : ∀ c, l.head? = some c → p c = false) : l.dropWhile p = l := by
  cases l with
  | nil => rfl
  | cons c l => rw [List.dropWhile_cons, h c rfl]; rfl

theorem strip_eq {l : Text} (h1 : ∀ c, l.head? = some c → isSpace c = false) (h2 : ∀ c, l.getLast? = some c → isSpace c = false) : strip l = l := by
  unfold strip
  rw [dropWhile_none h1, dropWhile_none (by rw [List.head?_reverse]; exact h2), List.reverse_reverse]

theorem strip_word {w : Text} (h : ∀ c ∈ w, isSpace c = false) : strip w = w :=
  strip_eq (fun c hc => h c (List.mem_of_mem_head? hc)) (fun c hc => h c (List.mem_of_getLast? hc))

theorem toInt_digits (n : Nat) : toInt (digits n) = some n := by
  unfold toInt
  simp only
  rw [strip_word (fun c hc => digit_notSpace (digits_digit hc)), if_neg, if_pos]
  · exact congrArg some Nat.ofDigitChars_ten_toDigits
  · rw [List.all_eq_true]; exact fun c hc => digits_digit hc
  · simp [digits_ne]

/-! ### Lines -/

theorem splitAt_append {c : Char} {l : Text} (h : c ∉ l) (t : Text) : splitAt c (l ++ c :: t) = l :: splitAt c t := by
  induction l with
  | nil => simp [splitAt]
  | cons x l ih =>
    rw [List.mem_cons, not_or] at h
    rw [List.cons_append]
    conv => lhs; unfold splitAt
    rw [if_neg (Ne.symm h.1), ih h.2]

theorem splitAt_none {c : Char} {l : Text} (h : c ∉ l) : splitAt c l = [l] := by
  induction l with
  | nil => rfl
  | cons x l ih =>
    rw [List.mem_cons, not_or] at h
    conv => lhs; unfold splitAt
    rw [if_neg (Ne.symm h.1), ih h.2]

theorem splitAt_unlines (ls : List Text) (h : ∀ l ∈ ls, '\n' ∉ l) : splitAt '\n' (unlines ls) = ls ++ [[]] := by
  induction ls with
  | nil => rfl
  | cons l ls ih =>
    unfold unlines at *
    rw [List.flatMap_cons, List.append_assoc, List.singleton_append, splitAt_append (h l (by simp)), ih (fun l hl => h l (List.mem_cons_of_mem _ hl))]
    rfl

theorem fileLines_unlines {ls : List Text} (h : ∀ l ∈ ls, '\n' ∉ l) : fileLines (unlines ls) = ls := by
  unfold fileLines
  simp only
  rw [splitAt_unlines ls h]
  simp

theorem parseHead_headLine {name : Text} (h : ' ' ∉ name) (d : Bool) : parseHead (headLine name d) = some d := by
  unfold parseHead headLine
  rw [show name ++ [' ', if d then '1' else '0'] = name ++ ' ' :: [if d then '1' else '0'] from rfl, splitAt_append h, splitAt_none (by cases d <;> decide)]
  show (toInt [if d then '1' else '0']).map _ = _
  cases d <;> decide

/-! ### Tokens -/

theorem tokensN_fuel (l : Text) : ∀ f f', l.length ≤ f → l.length ≤ f' → tokensN f l = tokensN f' l := by
  generalize hm : l.length = m
  induction m using Nat.strongRecOn generalizing l with
  | _ m ih =>
    intro f f' hf hf'
    cases l with
    | nil => cases f <;> cases f' <;> rfl
    | cons c cs =>
      simp only [List.length_cons] at hm
      cases f with
      | zero => omega
      | succ f =>
        cases f' with
        | zero => omega
        | succ f' =>
          have hd : ∀ p : Char → Bool, (cs.dropWhile p).length ≤ cs.length := fun p => (List.dropWhile_sublist p).length_le
          unfold tokensN
          simp only
          have e1 : tokensN f ((cs.dropWhile (fun x => decide (x ≠ '}'))).drop 1) = tokensN f' ((cs.dropWhile (fun x => decide (x ≠ '}'))).drop 1) := by
            have := hd (fun x => decide (x ≠ '}'))
            have h2 : ((cs.dropWhile (fun x => decide (x ≠ '}'))).drop 1).length ≤ cs.length := by rw [List.length_drop]; omega
            exact ih _ (by omega) _ rfl _ _ (by omega) (by omega)
          have e2 : tokensN f cs = tokensN f' cs := ih _ (by omega) _ rfl _ _ (by omega) (by omega)
          have e3 : tokensN f (cs.dropWhile (fun x => !isSpace x)) = tokensN f' (cs.dropWhile (fun x => !isSpace x)) := by
            have := hd (fun x => !isSpace x)
            exact ih _ (by omega) _ rfl _ _ (by omega) (by omega)
          rw [e1, e2, e3]

theorem tokensN_eq {f : Nat} {l : Text} (h : l.length ≤ f) : tokensN f l = tokens l := tokensN_fuel l _ _ h (Nat.le_refl _)

theorem takeWhile_word {w : Text} (h : ∀ c ∈ w, isSpace c = false) (rest : Text) (hr : ∀ c, rest.head? = some c → isSpace c = true) :
    (w ++ rest).takeWhile (fun x => !isSpace x) = w ∧ (w ++ rest).dropWhile (fun x => !isSpace x) = rest := by
  induction w with
  | nil =>
    cases rest with
    | nil => exact ⟨rfl, rfl⟩
    | cons c rest => simp [hr c rfl]
  | cons x w ih =>
    have := ih (fun c hc => h c (List.mem_cons_of_mem _ hc))
    simp [h x (by simp), this]

theorem tokens_word {w : Text} (hw : Word w) (rest : Text) (hr : ∀ c, rest.head? = some c → isSpace c = true) : tokens (w ++ rest) = w :: tokens rest := by
  obtain ⟨h1, h2, h3⟩ := hw
  cases w with
  | nil => exact absurd rfl h1
  | cons c w =>
    obtain ⟨t1, t2⟩ := takeWhile_word (w := w) (fun c hc => h2 c (List.mem_cons_of_mem _ hc)) rest hr
    show tokensN ((w ++ rest).length + 1) (c :: (w ++ rest)) = _
    unfold tokensN
    simp only
    rw [if_neg (fun hh => h3 c (by simp) hh.1), if_neg (by rw [h2 c (by simp)]; exact Bool.false_ne_true), t1, t2, tokensN_eq (by rw [List.length_append]; omega)]

theorem tokens_space (rest : Text) : tokens (' ' :: rest) = tokens rest := by
  show tokensN (rest.length + 1) (' ' :: rest) = _
  unfold tokensN
  simp only
  rw [if_neg (fun hh => by cases hh.1), if_pos (by decide), tokensN_eq (Nat.le_refl _)]

theorem tokens_plain {t : Text} (h : PlainText t) : tokens t = [t] := by
  obtain ⟨body, rfl, h1, h2, -⟩ := h
  have hw : ∀ b : Text, '}' ∉ b → (b ++ ['}']).takeWhile (fun x => decide (x ≠ '}')) = b ∧ (b ++ ['}']).dropWhile (fun x => decide (x ≠ '}')) = ['}'] := by
    intro b
    induction b with
    | nil => intro _; exact ⟨by decide, by decide⟩
    | cons x b ih =>
      intro hb
      rw [List.mem_cons, not_or] at hb
      have := ih hb.2
      have hx : x ≠ '}' := Ne.symm hb.1
      simp only [List.cons_append, List.takeWhile_cons, List.dropWhile_cons, decide_eq_true hx, if_true, this, and_self]
  show tokensN ((body ++ ['}']).length + 1) ('{' :: (body ++ ['}'])) = _
  unfold tokensN
  simp only
  rw [(hw body h2).1, (hw body h2).2, if_pos ⟨trivial, h1, by simp⟩]
  have : tokensN (body ++ ['}']).length (List.drop 1 ['}']) = [] := by cases (body ++ ['}']).length <;> rfl
  rw [this]

theorem tokens_nil : tokens [] = [] := rfl

/-- The words of a line that ends with attributes, or not. -/
theorem tokens_suffix {J : Json A} {a : Attr A} (h : J.Good a) : tokens (J.suffix a) = if a.isEmpty then [] else [J.dumps a] := by
  unfold Json.suffix
  cases ha : a.isEmpty with
  | true => rfl
  | false =>
    rw [if_neg (by simp), if_neg (by simp), tokens_space, tokens_plain (h ha).1]

theorem suffix_head (J : Json A) (a : Attr A) : ∀ c, (J.suffix a).head? = some c → isSpace c = true := by
  unfold Json.suffix
  intro c hc
  split at hc
  · cases hc
  · simp only [List.head?_cons, Option.some.injEq] at hc
    rw [← hc]; decide

theorem space_head (t : Text) : ∀ c, (' ' :: t).head? = some c → isSpace c = true := by
  intro c hc
  simp only [List.head?_cons, Option.some.injEq] at hc
  rw [← hc]; decide

/-- How attributes are written. -/
def Json.text (J : Json A) (a : Attr A) : Option Text := if a.isEmpty then none else some (J.dumps a)

theorem read_text {J : Json A} {a : Attr A} (h : J.Good a) : J.read (J.text a) = some a := by
  unfold Json.text
  cases ha : a.isEmpty with
  | true => rw [if_pos rfl]; rw [List.isEmpty_iff] at ha; subst ha; rfl
  | false => rw [if_neg (by simp)]; exact (h ha).2

theorem parseNode_nodeLine {J : Json A} {x : GNode A × Nat} (h : J.Good x.1.attrs) {t : Nat} (ht : x.1.agentType = some t) :
    ∃ l, J.nodeLine x = some l ∧ parseNode l = some (x.1.id, t, x.2, J.text x.1.attrs) := by
  refine ⟨_, by unfold Json.nodeLine; rw [ht]; rfl, ?_⟩
  have e : tokens (digits x.1.id ++ ' ' :: digits t ++ ' ' :: digits x.2 ++ J.suffix x.1.attrs) = digits x.1.id :: digits t :: digits x.2 :: (if x.1.attrs.isEmpty then [] else [J.dumps x.1.attrs]) := by
    rw [List.append_assoc, List.append_assoc, List.cons_append, List.cons_append, tokens_word (digits_word _) _ (space_head _), tokens_space, tokens_word (digits_word _) _ (space_head _), tokens_space,
      tokens_word (digits_word _) _ (suffix_head J _), tokens_suffix h]
  unfold parseNode
  rw [e]
  unfold Json.text
  cases x.1.attrs.isEmpty with
  | true => simp [toInt_digits]
  | false => simp [toInt_digits]

theorem parseEdge_edgeLine {J : Json A} {e : Nat × Nat × Attr A} (h : J.Good e.2.2) : parseEdge (J.edgeLine e) = some (e.1, e.2.1, J.text e.2.2) := by
  have e' : tokens (digits e.1 ++ ' ' :: digits e.2.1 ++ J.suffix e.2.2) = digits e.1 :: digits e.2.1 :: (if e.2.2.isEmpty then [] else [J.dumps e.2.2]) := by
    rw [List.append_assoc, List.cons_append, tokens_word (digits_word _) _ (space_head _), tokens_space, tokens_word (digits_word _) _ (suffix_head J _), tokens_suffix h]
  unfold parseEdge Json.edgeLine
  rw [e']
  unfold Json.text
  cases e.2.2.isEmpty with
  | true => simp [toInt_digits]
  | false => simp [toInt_digits]

/-! ### Nothing is stripped from a line, and a line has no newline -/

theorem digits_head {n : Nat} (rest : Text) : ∀ c, (digits n ++ rest).head? = some c → c.isDigit = true := by
  intro c hc
  cases hd : digits n with
  | nil => exact absurd hd (digits_ne n)
  | cons y ys =>
    rw [hd] at hc
    simp only [List.cons_append, List.head?_cons, Option.some.injEq] at hc
    rw [← hc]; exact digits_digit (by rw [hd]; simp)

theorem getLast_append {l : Text} (pre : Text) (h : l ≠ []) : (pre ++ l).getLast? = l.getLast? := by
  rw [List.getLast?_append]
  cases hl : l.getLast? with
  | none => exact absurd (List.getLast?_eq_none_iff.1 hl) h
  | some c => rfl

theorem suffix_last {J : Json A} {a : Attr A} (h : J.Good a) (pre : Text) {n : Nat} : ∀ c, (pre ++ digits n ++ J.suffix a).getLast? = some c → isSpace c = false := by
  intro c hc
  unfold Json.suffix at hc
  cases ha : a.isEmpty with
  | true =>
    rw [ha, if_pos rfl, List.append_nil, getLast_append _ (digits_ne n)] at hc
    exact digit_notSpace (digits_digit (List.mem_of_getLast? hc))
  | false =>
    obtain ⟨body, hb, -⟩ := (h ha).1
    rw [ha, if_neg (by simp), hb, getLast_append _ (by simp), show ' ' :: ('{' :: body ++ ['}']) = (' ' :: '{' :: body) ++ ['}'] from rfl, getLast_append _ (by simp)] at hc
    simp only [List.getLast?_singleton, Option.some.injEq] at hc
    rw [← hc]; decide

theorem digits_newline (n : Nat) : '\n' ∉ digits n := fun hh => by have := digits_digit hh; revert this; decide

theorem suffix_newline {J : Json A} {a : Attr A} (h : J.Good a) : '\n' ∉ J.suffix a := by
  unfold Json.suffix
  cases ha : a.isEmpty with
  | true => simp
  | false =>
    obtain ⟨body, hb, -, -, h2⟩ := (h ha).1
    rw [hb]
    simp [h2]

theorem nodeLine_ok {J : Json A} {x : GNode A × Nat} (h : J.Good x.1.attrs) {l : Text} (hl : J.nodeLine x = some l) : strip l = l ∧ '\n' ∉ l ∧ l ≠ "EDGES".toList := by
  unfold Json.nodeLine at hl
  obtain ⟨t, -, rfl⟩ := Option.map_eq_some_iff.1 hl
  have hh : ∀ c, (digits x.1.id ++ ' ' :: digits t ++ ' ' :: digits x.2 ++ J.suffix x.1.attrs).head? = some c → c.isDigit = true := by
    rw [List.append_assoc, List.append_assoc]; exact digits_head _
  refine ⟨strip_eq (fun c hc => digit_notSpace (hh c hc)) ?_, ?_, ?_⟩
  · have := suffix_last h (digits x.1.id ++ ' ' :: digits t ++ [' ']) (n := x.2)
    simpa using this
  · simp [digits_newline, suffix_newline h]
  · intro e
    rw [e] at hh
    have := hh 'E' rfl
    revert this; decide

theorem edgeLine_ok {J : Json A} {e : Nat × Nat × Attr A} (h : J.Good e.2.2) : strip (J.edgeLine e) = J.edgeLine e ∧ '\n' ∉ J.edgeLine e := by
  unfold Json.edgeLine
  have hh : ∀ c, (digits e.1 ++ ' ' :: digits e.2.1 ++ J.suffix e.2.2).head? = some c → c.isDigit = true := by
    rw [List.append_assoc]; exact digits_head _
  refine ⟨strip_eq (fun c hc => digit_notSpace (hh c hc)) ?_, ?_⟩
  · have := suffix_last h (digits e.1 ++ [' ']) (n := e.2.1)
    simpa using this
  · simp [digits_newline, suffix_newline h]

end Repast.Network
