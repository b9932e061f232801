/-
C72: lines of assembly as text.
-/
import Verif.Asm.Spec
import Mathlib.Data.List.Basic
import Mathlib.Data.List.Induction
import Mathlib.Data.List.TakeWhile
import Mathlib.Tactic.Common

set_option linter.unusedSimpArgs false
set_option linter.unusedVariables false

namespace Verif.Asm

/-! ### Characters -/

/-- Characters in arguments. -/
def argChar (c : Char) : Bool := isAlnum c || c = '@' || c = ',' || isWs c

theorem ws_cases {c : Char} (h : isWs c = true) : c = ' ' ∨ c = '\t' := by
  simpa [isWs] using h

theorem not_ws {c : Char} {p : Char → Bool} (hc : p c = true) (h1 : p ' ' = false) (h2 : p '\t' = false) :
    isWs c = false := by
  cases h : isWs c with
  | false => rfl
  | true =>
    rcases ws_cases h with rfl | rfl
    · rw [h1] at hc; cases hc
    · rw [h2] at hc; cases hc

theorem ne_char {c d : Char} {p : Char → Bool} (hc : p c = true) (hd : p d = false) : c ≠ d := by
  rintro rfl
  rw [hd] at hc; cases hc

theorem digit_alnum {c : Char} (h : c.isDigit = true) : isAlnum c = true := by
  simp [isAlnum, Char.isAlphanum, h]

theorem alpha_alnum {c : Char} (h : isAlpha c = true) : isAlnum c = true := by
  simp only [isAlpha, Bool.or_eq_true] at h
  simp only [isAlnum, Char.isAlphanum, Bool.or_eq_true]
  rcases h with h | h
  · exact .inl (.inl h)
  · exact .inr h

theorem lower_alnum {c : Char} (h : isLower c = true) : isAlnum c = true := by
  simp only [isLower, Bool.or_eq_true] at h
  simp only [isAlnum, Char.isAlphanum, Char.isAlpha, Bool.or_eq_true]
  rcases h with h | h
  · exact .inl (.inl (.inr h))
  · exact .inr h

theorem alnum_arg {c : Char} (h : isAlnum c = true) : argChar c = true := by simp [argChar, h]

theorem label_alnum {s : Name} (h : IsLabel s) : s ≠ [] ∧ ∀ c ∈ s, isAlnum c = true := by
  obtain ⟨c, r, rfl, h1, h2⟩ := h
  refine ⟨by simp, ?_⟩
  intro x hx
  rcases List.mem_cons.mp hx with rfl | hx
  · exact alpha_alnum h1
  · exact h2 x hx

/-- Characters of an argument: it is not empty, and neither begins nor ends with a blank nor has a comma. -/
theorem arg_chars {a : Name} (h : IsArg a) : a ≠ [] ∧ (∀ c ∈ a, isAlnum c = true ∨ c = '@') := by
  cases h with
  | num _ hne hd => exact ⟨hne, fun c hc => .inl (digit_alnum (hd c hc))⟩
  | reg d hne hd =>
    refine ⟨by simp, ?_⟩
    intro c hc
    rcases List.mem_cons.mp hc with rfl | hc
    · left; decide
    · exact .inl (digit_alnum (hd c hc))
  | label l hl =>
    refine ⟨by simp, ?_⟩
    intro c hc
    rcases List.mem_cons.mp hc with rfl | hc
    · exact .inr rfl
    · exact .inl ((label_alnum hl).2 c hc)

theorem args_chars {a : Name} (h : IsArgs a) : a ≠ [] ∧ (∀ c ∈ a, isAlnum c = true ∨ c = '@') := by
  obtain ⟨as, hne, has, rfl⟩ := h
  constructor
  · obtain ⟨x, xs, rfl⟩ := List.exists_cons_of_ne_nil hne
    have := (arg_chars (has x List.mem_cons_self)).1
    simp [this]
  · intro c hc
    obtain ⟨x, hx, hcx⟩ := List.mem_flatten.mp hc
    exact (arg_chars (has x hx)).2 c hcx

/-- Characters of arguments, none of them a blank or a comma. -/
def tokChar (c : Char) : Bool := isAlnum c || c = '@'

theorem tok_of {a : Name} (h : ∀ c ∈ a, isAlnum c = true ∨ c = '@') : ∀ c ∈ a, tokChar c = true := by
  intro c hc
  rcases h c hc with h | h <;> simp [tokChar, h]

theorem tok_ws {c : Char} (h : tokChar c = true) : isWs c = false := not_ws h (by decide) (by decide)

theorem tok_arg {c : Char} (h : tokChar c = true) : argChar c = true := by
  simp only [tokChar, Bool.or_eq_true] at h
  simp only [argChar, Bool.or_eq_true]
  rcases h with h | h
  · exact .inl (.inl (.inl h))
  · exact .inl (.inl (.inr h))

/-- A list of arguments ends with a character that is not a blank. -/
theorem argList_chars {s : Name} (h : IsArgList s) : (∃ t c, s = t ++ [c] ∧ isWs c = false) ∧
    (∀ c ∈ s, argChar c = true) ∧ ∃ c t, s = c :: t ∧ isWs c = false := by
  have ends : ∀ {a : Name}, a ≠ [] → (∀ c ∈ a, tokChar c = true) → ∃ t c, a = t ++ [c] ∧ isWs c = false := by
    intro a hne ha
    refine ⟨a.dropLast, a.getLast hne, (List.dropLast_append_getLast hne).symm, ?_⟩
    exact tok_ws (ha _ (List.getLast_mem hne))
  have starts : ∀ {a : Name} (b : Name), a ≠ [] → (∀ c ∈ a, tokChar c = true) →
      ∃ c t, a ++ b = c :: t ∧ isWs c = false := by
    intro a b hne ha
    obtain ⟨x, xs, rfl⟩ := List.exists_cons_of_ne_nil hne
    exact ⟨x, xs ++ b, rfl, tok_ws (ha x List.mem_cons_self)⟩
  induction h with
  | last a ha =>
    obtain ⟨h1, h2⟩ := arg_chars ha
    have h2 := tok_of h2
    refine ⟨ends h1 h2, fun c hc => tok_arg (h2 c hc), ?_⟩
    simpa using starts [] h1 h2
  | cons a w s ha hw hs ih =>
    obtain ⟨h1, h2⟩ := args_chars ha
    have h2 := tok_of h2
    obtain ⟨⟨t, c, rfl, hc⟩, i2, i3⟩ := ih
    refine ⟨⟨a ++ ',' :: w ++ t, c, by simp, hc⟩, ?_, ?_⟩
    · intro x hx
      simp only [List.append_assoc, List.cons_append, List.mem_append, List.mem_cons] at hx
      rcases hx with hx | rfl | hx | hx
      · exact tok_arg (h2 x hx)
      · decide
      · simp [argChar, hw x hx]
      · exact i2 x (List.mem_append.mpr (by simpa using hx))
    · rw [List.append_assoc]
      exact starts _ h1 h2

/-! ### The groups are determined -/

/-- Groups of the part before the comment that follows the label. -/
def decodeBody (u : Name) : Name × Name :=
  ((u.dropWhile isWs).takeWhile isLower,
    (((u.dropWhile isWs).dropWhile isLower).reverse.dropWhile isWs).reverse)

/-- The groups. -/
def decode (s : Name) : Line :=
  let t := s.takeWhile (fun c => c ≠ '#')
  let c := (s.dropWhile (fun c => c ≠ '#')).tail
  let b := decodeBody (if ':' ∈ t then (t.dropWhile (fun c => c ≠ ':')).tail else t)
  ⟨if ':' ∈ t then some ((t.takeWhile (fun c => c ≠ ':')).dropWhile isWs) else none, b.1,
    if b.2 = [] then [] else (splitComma b.2).map strip, strip c⟩

theorem dropWhile_ws {w s : Name} (hw : ∀ c ∈ w, isWs c = true) : (w ++ s).dropWhile isWs = s.dropWhile isWs := by
  rw [List.dropWhile_append_of_pos hw]

theorem dropWhile_all {p : Char → Bool} {w : Name} (hw : ∀ c ∈ w, p c = true) : w.dropWhile p = [] := by
  rw [List.dropWhile_eq_nil_iff]; exact hw

theorem lower_ws {c : Char} (h : isLower c = true) : isWs c = false := not_ws h (by decide) (by decide)

theorem ws_lower {c : Char} (h : isWs c = true) : isLower c = false := by
  rcases ws_cases h with rfl | rfl <;> decide

theorem decodeBody_spec {w body i a w₃ : Name} (hw : ∀ c ∈ w, isWs c = true) (hw₃ : ∀ c ∈ w₃, isWs c = true)
    (h : IsBody body i a) : decodeBody (w ++ (body ++ w₃)) = (i, a) := by
  unfold decodeBody
  rw [dropWhile_ws hw]
  have tl : ∀ {x y : Name}, (∀ c ∈ x, isLower c = true) → (∀ c ∈ y.head?, isLower c = false) →
      (x ++ y).takeWhile isLower = x ∧ (x ++ y).dropWhile isLower = y := by
    intro x y hx hy
    rw [List.takeWhile_append_of_pos hx, List.dropWhile_append_of_pos hx]
    cases y with
    | nil => simp
    | cons c y =>
      have := hy c (by simp)
      simp [this]
  have trail : ∀ {x : Name}, (∀ c ∈ x, isWs c = true) → (x.reverse.dropWhile isWs).reverse = [] := by
    intro x hx
    rw [dropWhile_all (fun c hc => hx c (List.mem_reverse.mp hc))]
    rfl
  cases h with
  | none =>
    simp only [List.nil_append]
    rw [dropWhile_all hw₃]
    rfl
  | instr _ hne hi =>
    obtain ⟨c, r, rfl⟩ := List.exists_cons_of_ne_nil hne
    have hd : (c :: r ++ w₃).dropWhile isWs = c :: r ++ w₃ := by
      simp [lower_ws (hi c List.mem_cons_self)]
    obtain ⟨t1, t2⟩ := tl (x := c :: r) (y := w₃) hi (by
      intro x hx
      exact ws_lower (hw₃ x (List.mem_of_mem_head? hx)))
    rw [hd, t1, t2, trail hw₃]
  | args _ w' s hne hi hwne hw' hs =>
    obtain ⟨c, r, rfl⟩ := List.exists_cons_of_ne_nil hne
    obtain ⟨x, xs, rfl⟩ := List.exists_cons_of_ne_nil hwne
    have hd : (c :: r ++ (x :: xs ++ s) ++ w₃).dropWhile isWs = c :: r ++ (x :: xs ++ s ++ w₃) := by
      simp [lower_ws (hi c List.mem_cons_self)]
    obtain ⟨t1, t2⟩ := tl (x := c :: r) (y := x :: xs ++ s ++ w₃) hi (by
      intro y hy
      simp only [List.cons_append, List.head?_cons, Option.mem_def, Option.some.injEq] at hy
      subst hy
      exact ws_lower (hw' _ List.mem_cons_self))
    rw [hd, t1, t2]
    obtain ⟨⟨t, y, rfl, hy⟩, _⟩ := argList_chars hs
    congr 1
    rw [List.reverse_append, List.dropWhile_append_of_pos (fun c hc => hw₃ c (List.mem_reverse.mp hc))]
    simp [hy]

/-- Characters outside comments. -/
theorem body_chars {body i a : Name} (h : IsBody body i a) : ∀ c ∈ body, argChar c = true := by
  cases h with
  | none => simp
  | instr _ hne hi => exact fun c hc => alnum_arg (lower_alnum (hi c hc))
  | args _ w s hne hi hwne hw hs =>
    intro c hc
    simp only [List.mem_append] at hc
    rcases hc with hc | hc | hc
    · exact alnum_arg (lower_alnum (hi c hc))
    · simp [argChar, hw c hc]
    · exact (argList_chars hs).2.1 c hc

theorem ws_arg {w : Name} (hw : ∀ c ∈ w, isWs c = true) : ∀ c ∈ w, argChar c = true := by
  intro c hc; simp [argChar, hw c hc]

theorem split_at {d : Char} {x y : Name} (hx : d ∉ x) :
    (x ++ d :: y).takeWhile (fun c => c ≠ d) = x ∧ (x ++ d :: y).dropWhile (fun c => c ≠ d) = d :: y := by
  have : ∀ c ∈ x, (decide (c ≠ d)) = true := fun c hc => by
    simp only [decide_eq_true_eq]; rintro rfl; exact hx hc
  rw [List.takeWhile_append_of_pos this, List.dropWhile_append_of_pos this]
  simp

theorem split_none {d : Char} {x : Name} (hx : d ∉ x) :
    x.takeWhile (fun c => c ≠ d) = x ∧ x.dropWhile (fun c => c ≠ d) = [] := by
  have : ∀ c ∈ x, (decide (c ≠ d)) = true := fun c hc => by
    simp only [decide_eq_true_eq]; rintro rfl; exact hx hc
  exact ⟨List.takeWhile_eq_self_iff.mpr this, List.dropWhile_eq_nil_iff.mpr this⟩

/-- The characters before the comment. -/
theorem labelled_chars {lab : Name} {l : Option Name} (h : IsLabelled lab l) :
    ∀ c ∈ lab, argChar c = true ∨ c = ':' := by
  cases h with
  | none => simp
  | some l hl =>
    intro c hc
    rcases List.mem_append.mp hc with hc | hc
    · exact .inl (alnum_arg ((label_alnum hl).2 c hc))
    · exact .inr (by simpa using hc)

theorem code_part {s : Name} {l : Line} (h : Matches s l) :
    ∀ c ∈ s.takeWhile (fun c => c ≠ '#'), argChar c = true ∨ c = ':' := by
  obtain ⟨w₁, lab, w₂, body, args, w₃, com, cm, rfl, h1, h2, h3, hl, hb, hc, ha, hcm⟩ := h
  intro c hc'
  have hmem : c ∈ w₁ ++ (lab ++ (w₂ ++ (body ++ w₃))) := by
    cases hc with
    | none =>
      have := List.takeWhile_subset _ hc'
      simpa using this
    | some =>
      by_cases hin : c ∈ w₁ ++ (lab ++ (w₂ ++ (body ++ w₃)))
      · exact hin
      · exfalso
        have hno : '#' ∉ w₁ ++ (lab ++ (w₂ ++ (body ++ w₃))) := by
          intro hm
          simp only [List.mem_append] at hm
          rcases hm with hm | hm | hm | hm | hm
          · have := ws_arg h1 _ hm; revert this; decide
          · have := labelled_chars hl _ hm; revert this; decide
          · have := ws_arg h2 _ hm; revert this; decide
          · have := body_chars hb _ hm; revert this; decide
          · have := ws_arg h3 _ hm; revert this; decide
        have hsp := (split_at (y := cm) hno).1
        simp only [List.append_assoc] at hsp hc'
        rw [hsp] at hc'
        exact hin (by simpa using hc')
  simp only [List.mem_append] at hmem
  rcases hmem with hm | hm | hm | hm | hm
  · exact .inl (ws_arg h1 _ hm)
  · exact labelled_chars hl _ hm
  · exact .inl (ws_arg h2 _ hm)
  · exact .inl (body_chars hb _ hm)
  · exact .inl (ws_arg h3 _ hm)

theorem matches_decode {s : Name} {l : Line} (h : Matches s l) : l = decode s := by
  obtain ⟨w₁, lab, w₂, body, args, w₃, com, cm, rfl, h1, h2, h3, hl, hb, hc, ha, hcm⟩ := h
  have hno : '#' ∉ w₁ ++ (lab ++ (w₂ ++ (body ++ w₃))) := by
    intro hm
    simp only [List.mem_append] at hm
    rcases hm with hm | hm | hm | hm | hm
    · have := ws_arg h1 _ hm; revert this; decide
    · have := labelled_chars hl _ hm; revert this; decide
    · have := ws_arg h2 _ hm; revert this; decide
    · have := body_chars hb _ hm; revert this; decide
    · have := ws_arg h3 _ hm; revert this; decide
  have hsplit : (w₁ ++ (lab ++ (w₂ ++ (body ++ (w₃ ++ com))))).takeWhile (fun c => c ≠ '#') =
      w₁ ++ (lab ++ (w₂ ++ (body ++ w₃))) ∧
      ((w₁ ++ (lab ++ (w₂ ++ (body ++ (w₃ ++ com))))).dropWhile (fun c => c ≠ '#')).tail = cm := by
    cases hc with
    | none =>
      obtain ⟨a, b⟩ := split_none hno
      simp only [List.append_nil]
      exact ⟨a, by rw [b]; rfl⟩
    | some =>
      obtain ⟨a, b⟩ := split_at (y := cm) hno
      simp only [List.append_assoc] at a b
      exact ⟨a, by rw [b]; rfl⟩
  have hcolon : ∀ x : Name, (∀ c ∈ x, argChar c = true) → ':' ∉ x := by
    intro x hx hm
    have := hx _ hm
    revert this; decide
  have hlab : decodeBody (if ':' ∈ w₁ ++ (lab ++ (w₂ ++ (body ++ w₃))) then
      ((w₁ ++ (lab ++ (w₂ ++ (body ++ w₃)))).dropWhile (fun c => c ≠ ':')).tail
      else w₁ ++ (lab ++ (w₂ ++ (body ++ w₃)))) = (l.instr, args) ∧
      (if ':' ∈ w₁ ++ (lab ++ (w₂ ++ (body ++ w₃))) then
        some (((w₁ ++ (lab ++ (w₂ ++ (body ++ w₃)))).takeWhile (fun c => c ≠ ':')).dropWhile isWs) else none) =
      l.label := by
    generalize l.label = L at hl
    cases hl with
    | none =>
      have hn : ':' ∉ w₁ ++ ([] ++ (w₂ ++ (body ++ w₃))) := by
        apply hcolon
        intro c hc
        simp only [List.nil_append, List.mem_append] at hc
        rcases hc with hc | hc | hc | hc
        · exact ws_arg h1 c hc
        · exact ws_arg h2 c hc
        · exact body_chars hb c hc
        · exact ws_arg h3 c hc
      rw [if_neg hn, if_neg hn]
      refine ⟨?_, rfl⟩
      have : w₁ ++ ([] ++ (w₂ ++ (body ++ w₃))) = (w₁ ++ w₂) ++ (body ++ w₃) := by simp
      rw [this]
      apply decodeBody_spec _ h3 hb
      intro c hc
      rcases List.mem_append.mp hc with hc | hc
      · exact h1 c hc
      · exact h2 c hc
    | some lb hlb =>
      obtain ⟨hne, hal⟩ := label_alnum hlb
      have hn : ':' ∉ w₁ ++ lb := by
        apply hcolon
        intro c hc
        rcases List.mem_append.mp hc with hc | hc
        · exact ws_arg h1 c hc
        · exact alnum_arg (hal c hc)
      have hy : ':' ∈ w₁ ++ (lb ++ [':'] ++ (w₂ ++ (body ++ w₃))) := by simp
      have he : w₁ ++ (lb ++ [':'] ++ (w₂ ++ (body ++ w₃))) = (w₁ ++ lb) ++ ':' :: (w₂ ++ (body ++ w₃)) := by simp
      rw [if_pos hy, if_pos hy, he]
      obtain ⟨a, b⟩ := split_at (y := w₂ ++ (body ++ w₃)) hn
      rw [a, b]
      refine ⟨decodeBody_spec h2 h3 hb, ?_⟩
      rw [dropWhile_ws h1]
      obtain ⟨x, xs, rfl⟩ := List.exists_cons_of_ne_nil hne
      have : isWs x = false := not_ws (hal x List.mem_cons_self) (by decide) (by decide)
      simp [this]
  unfold decode
  simp only [hsplit.1, hsplit.2, hlab.1, hlab.2]
  obtain ⟨la, li, lar, lc⟩ := l
  simp only at ha hcm ⊢
  rw [ha, hcm]

/-- **C72, text.** A line of text has one meaning: the regular expression determines label, instruction, arguments and
comment. -/
theorem matches_unique {s : Name} {l l' : Line} (h : Matches s l) (h' : Matches s l') : l = l' := by
  rw [matches_decode h, matches_decode h']

/-- Finding: a minus sign is not accepted, although gains and offsets may be negative and the compiler itself writes
such arguments. -/
theorem negative_refused {s : Name} (h : '-' ∈ s.takeWhile (fun c => c ≠ '#')) (l : Line) : ¬ Matches s l := by
  intro hm
  have := code_part hm _ h
  revert this
  decide

/-! ### Well-formed lines are accepted -/

open Spec (argText Blanks)

theorem blanks_ws {w : Name} (h : Blanks w) : ∀ c ∈ w, isWs c = true := by
  intro c hc
  rcases h c hc with rfl | rfl <;> decide

theorem splitComma_ne {s : Name} : splitComma s ≠ [] := by
  cases s with
  | nil => simp [splitComma]
  | cons c s =>
    rw [splitComma]
    split
    · simp
    · cases splitComma s <;> simp

theorem splitComma_token {a : Name} (h : ',' ∉ a) (b : Name) :
    splitComma (a ++ ',' :: b) = a :: splitComma b ∧ splitComma a = [a] := by
  induction a with
  | nil => simp [splitComma]
  | cons c a ih =>
    have hc : c ≠ ',' := by rintro rfl; exact h List.mem_cons_self
    obtain ⟨i1, i2⟩ := ih (fun hm => h (List.mem_cons_of_mem _ hm))
    constructor
    · rw [List.cons_append, splitComma, if_neg hc, i1]
    · rw [splitComma, if_neg hc, i2]

theorem strip_token {w a : Name} (hw : ∀ c ∈ w, isWs c = true) (hne : a ≠ []) (ha : ∀ c ∈ a, tokChar c = true) :
    strip (w ++ a) = a := by
  unfold strip
  rw [dropWhile_ws hw]
  have h1 : a.dropWhile isWs = a := by
    obtain ⟨x, xs, rfl⟩ := List.exists_cons_of_ne_nil hne
    simp [tok_ws (ha x List.mem_cons_self)]
  rw [h1]
  have h2 : a.reverse.dropWhile isWs = a.reverse := by
    have : a.reverse ≠ [] := by simpa using hne
    obtain ⟨x, xs, hx⟩ := List.exists_cons_of_ne_nil this
    have hm : x ∈ a := List.mem_reverse.mp (hx ▸ List.mem_cons_self)
    rw [hx]
    simp [tok_ws (ha x hm)]
  rw [h2, List.reverse_reverse]

theorem tok_comma {a : Name} (h : ∀ c ∈ a, tokChar c = true) : ',' ∉ a := by
  intro hm
  have := h _ hm
  revert this; decide

theorem ws_comma {a : Name} (h : ∀ c ∈ a, isWs c = true) : ',' ∉ a := by
  intro hm
  have := h _ hm
  revert this; decide

theorem argText_spec (a : Name) (ha : IsArg a) : ∀ (as : List (Name × Name)),
    (∀ p ∈ as, Blanks p.1 ∧ IsArg p.2) → IsArgList (argText a as) ∧ ∀ w, (∀ c ∈ w, isWs c = true) →
      (splitComma (w ++ argText a as)).map strip = a :: as.map Prod.snd := by
  intro as
  induction as generalizing a with
  | nil =>
    intro _
    refine ⟨.last _ ha, ?_⟩
    intro w hw
    obtain ⟨h1, h2⟩ := arg_chars ha
    have h2 := tok_of h2
    have hn : ',' ∉ w ++ a := by
      intro hm
      rcases List.mem_append.mp hm with hm | hm
      · exact ws_comma hw hm
      · exact tok_comma h2 hm
    rw [argText, (splitComma_token hn []).2]
    simp [strip_token hw h1 h2]
  | cons p as ih =>
    intro hp
    obtain ⟨bl, b⟩ := p
    obtain ⟨hb1, hb2⟩ := hp _ List.mem_cons_self
    obtain ⟨i1, i2⟩ := ih b hb2 (fun q hq => hp q (List.mem_cons_of_mem _ hq))
    obtain ⟨h1, h2⟩ := arg_chars ha
    have h2 := tok_of h2
    constructor
    · rw [argText]
      have := IsArgList.cons a bl _ ⟨[a], by simp, by simpa using ha, by simp⟩ (blanks_ws hb1) i1
      simpa using this
    · intro w hw
      have hn : ',' ∉ w ++ a := by
        intro hm
        rcases List.mem_append.mp hm with hm | hm
        · exact ws_comma hw hm
        · exact tok_comma h2 hm
      rw [argText, ← List.append_assoc, (splitComma_token hn _).1]
      simp only [List.map_cons, strip_token hw h1 h2, i2 bl (blanks_ws hb1)]

theorem ident_label {l : Name} (h : Spec.Identifier l) : IsLabel l := by
  obtain ⟨c, r, rfl, h1, h2⟩ := h
  refine ⟨c, r, rfl, ?_, ?_⟩
  · rcases h1 with h | h <;> simp [isAlpha, h]
  · intro x hx
    rcases h2 x hx with h | h | h <;> simp [isAlnum, Char.isAlphanum, h]

theorem argument_arg {a : Name} (h : Spec.Argument a) : IsArg a := by
  obtain ⟨d, ⟨h1, h2, rfl | rfl⟩ | ⟨h1, rfl⟩⟩ := h
  · exact .num _ h1 h2
  · exact .reg _ h1 h2
  · exact .label _ (ident_label h1)

theorem mnemonic_lower {i : Name} (h : Spec.Mnemonic i) : i ≠ [] ∧ ∀ c ∈ i, isLower c = true := by
  refine ⟨h.1, fun c hc => ?_⟩
  rcases h.2 c hc with h | h <;> simp [isLower, h]

/-- **C72, text.** A line with or without label, with an instruction in lower case, any number of arguments that are
numbers, registers or labels, blanks wherever they are usual, and with or without comment, is accepted as what it
says. -/
theorem matches_line (w₁ w₂ w₃ w₄ : Name) (lab : Option Name) (i a : Name) (as : List (Name × Name)) (com : Name)
    (h1 : Blanks w₁) (h2 : Blanks w₂) (h3 : Blanks w₃) (h3' : w₃ ≠ []) (h4 : Blanks w₄)
    (hl : ∀ l ∈ lab, Spec.Identifier l) (hi : Spec.Mnemonic i) (ha : Spec.Argument a)
    (has : ∀ p ∈ as, Blanks p.1 ∧ Spec.Argument p.2) (hc : '\n' ∉ com) :
    Matches (w₁ ++ (((lab.map (· ++ [':'])).getD []) ++ (w₂ ++ ((i ++ (w₃ ++ argText a as)) ++ (w₄ ++ '#' :: com)))))
      ⟨lab, i, a :: as.map Prod.snd, strip com⟩ := by
  have hi := mnemonic_lower hi
  obtain ⟨k1, k2⟩ := argText_spec a (argument_arg ha) as (fun p hp => ⟨(has p hp).1, argument_arg (has p hp).2⟩)
  refine ⟨w₁, (lab.map (· ++ [':'])).getD [], w₂, i ++ (w₃ ++ argText a as), w₃ ++ argText a as, w₄, '#' :: com, com,
    rfl, blanks_ws h1, blanks_ws h2, blanks_ws h4, ?_, ?_, .some _ hc, ?_, rfl⟩
  · cases lab with
    | none => exact .none
    | some l => exact .some _ (ident_label (hl l rfl))
  · exact .args _ _ _ hi.1 hi.2 h3' (blanks_ws h3) k1
  · have : w₃ ++ argText a as ≠ [] := by
      intro h
      exact h3' (List.append_eq_nil_iff.mp h).1
    rw [if_neg this, k2 w₃ (blanks_ws h3)]

/-- The same for instructions without arguments (`nop`, `stop`, `wait_sync` without arguments is not meant). -/
theorem matches_nullary (w₁ w₂ w₄ : Name) (lab : Option Name) (i : Name) (h1 : Blanks w₁) (h2 : Blanks w₂)
    (h4 : Blanks w₄) (hl : ∀ l ∈ lab, Spec.Identifier l) (hi : Spec.Mnemonic i) :
    Matches (w₁ ++ (((lab.map (· ++ [':'])).getD []) ++ (w₂ ++ (i ++ (w₄ ++ []))))) ⟨lab, i, [], []⟩ := by
  have hi := mnemonic_lower hi
  refine ⟨w₁, (lab.map (· ++ [':'])).getD [], w₂, i, [], w₄, [], [],
    rfl, blanks_ws h1, blanks_ws h2, blanks_ws h4, ?_, .instr _ hi.1 hi.2, .none, rfl, rfl⟩
  cases lab with
  | none => exact .none
  | some l => exact .some _ (ident_label (hl l rfl))

theorem argList_split {s : Name} (h : IsArgList s) : ∀ w, (∀ c ∈ w, isWs c = true) →
    ∀ x ∈ (splitComma (w ++ s)).map strip, x ≠ [] := by
  induction h with
  | last a ha =>
    intro w hw
    obtain ⟨h1, h2⟩ := arg_chars ha
    have h2 := tok_of h2
    have hn : ',' ∉ w ++ a := by
      intro hm
      rcases List.mem_append.mp hm with hm | hm
      · exact ws_comma hw hm
      · exact tok_comma h2 hm
    rw [(splitComma_token hn []).2]
    simp [strip_token hw h1 h2, h1]
  | cons a bl s ha hbl hs ih =>
    intro w hw
    obtain ⟨h1, h2⟩ := args_chars ha
    have h2 := tok_of h2
    have hn : ',' ∉ w ++ a := by
      intro hm
      rcases List.mem_append.mp hm with hm | hm
      · exact ws_comma hw hm
      · exact tok_comma h2 hm
    have e : w ++ (a ++ ',' :: bl ++ s) = (w ++ a) ++ ',' :: (bl ++ s) := by simp
    rw [e, (splitComma_token hn _).1]
    intro x hx
    rcases List.mem_cons.mp hx with rfl | hx
    · rw [strip_token hw h1 h2]; exact h1
    · exact ih bl hbl x hx

/-- Arguments of lines that are accepted are not empty. -/
theorem matches_args {s : Name} {l : Line} (h : Matches s l) : ∀ a ∈ l.args, a ≠ [] := by
  obtain ⟨w₁, lab, w₂, body, args, w₃, com, cm, rfl, h1, h2, h3, hl, hb, hc, ha, hcm⟩ := h
  rw [ha]
  intro a hm
  split at hm
  · simp at hm
  · rename_i hne
    generalize l.instr = I at hb
    cases hb with
    | none => exact absurd rfl hne
    | instr _ _ _ => exact absurd rfl hne
    | args _ w s _ _ _ hw hs => exact argList_split hs w hw a hm

/-- Finding: two arguments without a comma between them are taken for one, which is not a register, a number or a
label. -/
theorem no_comma_needed : Matches "move R1R2,R3".toList ⟨none, "move".toList, ["R1R2".toList, "R3".toList], []⟩ := by
  refine ⟨[], [], [], "move R1R2,R3".toList, " R1R2,R3".toList, [], [], [], by decide, by simp, by simp, by simp, .none,
    ?_, .none, by decide, rfl⟩
  have h : IsArgList "R1R2,R3".toList := by
    have := IsArgList.cons "R1R2".toList [] "R3".toList
      ⟨["R1".toList, "R2".toList], by simp, ?_, by decide⟩ (by simp) (.last _ (.reg ['3'] (by simp) (by decide)))
    · simpa using this
    · intro a ha
      simp only [List.mem_cons, List.not_mem_nil, or_false] at ha
      rcases ha with rfl | rfl
      · exact .reg ['1'] (by simp) (by decide)
      · exact .reg ['2'] (by simp) (by decide)
  have := IsBody.args "move".toList " ".toList "R1R2,R3".toList (by decide) (by decide) (by decide) (by decide) h
  simpa using this

end Verif.Asm
