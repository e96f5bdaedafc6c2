import Verif.Lexer.Det

/-!
# C02, C03, C04: lexing is lossless, total, and locations are true
-/
namespace Verif.Lexer
open Spec

variable {F : Type} (parseF64 : List Char → Option F)

theorem collect_spec (fuel : Nat) (pre text : List Char) (hf : text.length < fuel) :
    ∃ ts, Lexer.collect parseF64 fuel ⟨text, locAfter pre⟩ = some ts ∧ Tokenizes parseF64 pre text ts := by
  induction fuel generalizing pre text with
  | zero => omega
  | succ fuel ih =>
    unfold Lexer.collect
    by_cases h : text = []
    · subst h
      exact ⟨[], by simp [Lexer.next, Eat.new, Eat.isEof], .nil _⟩
    · obtain ⟨s, rest, rep, h1, h2, h3, h4⟩ := next_spec (parseF64 := parseF64) ⟨text, locAfter pre⟩ h
      simp only at h1
      rw [h4]
      simp only [eat_locAfter]
      obtain ⟨ts, hts, htok⟩ := ih (pre ++ s) rest (by
        have := congrArg List.length h1
        have := List.length_pos_iff.2 h2
        simp at *; omega)
      refine ⟨_, by rw [hts]; rfl, ?_⟩
      rw [h1]
      exact .cons _ _ _ _ _ h2 h3 htok

/-- **C02–C04 in one.** For every text and every floating-point reader, lexing terminates without panic, and its tokens are a
tokenisation of the text under the lexical grammar of `Spec.lean`, with true locations. -/
theorem lex_tokenizes (text : List Char) :
    ∃ ts, lex parseF64 text = some ts ∧ Tokenizes parseF64 [] text ts :=
  collect_spec parseF64 _ [] text (by omega)

/-- **C03.** Lexing never panics and always terminates. -/
theorem lex_total (text : List Char) : (lex parseF64 text).isSome := by
  obtain ⟨ts, h, _⟩ := lex_tokenizes parseF64 text; simp [h]

theorem tokenizes_slices {pre text ts} (h : Tokenizes parseF64 pre text ts) :
    ∃ slices : List (List Char), slices.flatten = text ∧ slices.length = ts.length ∧
      ∀ i (h : i < slices.length) (h' : i < ts.length),
        slices[i] ≠ [] ∧
        Tok parseF64 ts[i].rep slices[i] (slices.drop (i + 1)).flatten ∧
        ts[i].range.start = locAfter (pre ++ (slices.take i).flatten) ∧
        ts[i].range.end = locAfter (pre ++ (slices.take (i + 1)).flatten) := by
  induction h with
  | nil => exact ⟨[], rfl, rfl, by simp⟩
  | cons pre s rest rep ts hs ht _ ih =>
    obtain ⟨sl, h1, h2, h3⟩ := ih
    refine ⟨s :: sl, by simp [h1], by simp [h2], ?_⟩
    intro i hi hi'
    cases i with
    | zero => simp [hs, h1, ht]
    | succ i =>
      have := h3 i (by simpa using hi) (by simpa using hi')
      simpa using this

/-- **C02.** The text is the concatenation of nonempty slices, one per token; slice `i` is a token of kind `ts[i].rep`
when followed by the remaining text.  **C04.** Token `i` starts and ends at the locations found by counting
bytes, line feeds, and bytes since the last line feed in the text before slice `i` and up to its end. -/
theorem lex_lossless (text : List Char) (ts : List (Token F)) (h : lex parseF64 text = some ts) :
    ∃ slices : List (List Char), slices.flatten = text ∧ slices.length = ts.length ∧
      ∀ i (h : i < slices.length) (h' : i < ts.length),
        slices[i] ≠ [] ∧
        Tok parseF64 ts[i].rep slices[i] (slices.drop (i + 1)).flatten ∧
        ts[i].range.start = locAfter (slices.take i).flatten ∧
        ts[i].range.end = locAfter (slices.take (i + 1)).flatten := by
  obtain ⟨ts', h', ht⟩ := lex_tokenizes parseF64 text
  rw [h] at h'; cases h'
  simpa using tokenizes_slices parseF64 ht

/-- **C02, contiguity.** The first token starts at the beginning, each token begins where the previous one ended, the last one ends at the end. -/
theorem lex_contiguous (text : List Char) (ts : List (Token F)) (h : lex parseF64 text = some ts) :
    (∀ t, ts.head? = some t → t.range.start = ⟨0, 0, 0⟩) ∧
    (∀ i (h : i + 1 < ts.length), ts[i].range.end = ts[i + 1].range.start) ∧
    (∀ t, ts.getLast? = some t → t.range.end = locAfter text) ∧
    (∀ t ∈ ts, t.range.start.offset < t.range.end.offset) := by
  obtain ⟨sl, h1, h2, h3⟩ := lex_lossless parseF64 text ts h
  refine ⟨?_, ?_, ?_, ?_⟩
  · intro t ht
    cases ts with
    | nil => simp at ht
    | cons a as =>
      simp at ht; subst ht
      have := (h3 0 (by simp [h2]) (by simp)).2.2.1
      simpa [locAfter, bytes, lastLine] using this
  · intro i hi
    rw [(h3 i (by omega) (by omega)).2.2.2, (h3 (i + 1) (by omega) hi).2.2.1]
  · intro t ht
    rw [List.getLast?_eq_getElem?] at ht
    obtain ⟨hlt, rfl⟩ := List.getElem?_eq_some_iff.1 ht
    rw [(h3 _ (by omega) hlt).2.2.2, List.take_of_length_le (by omega), h1]
  · intro t ht
    obtain ⟨i, hi, rfl⟩ := List.getElem_of_mem ht
    obtain ⟨hne, _, hs, he⟩ := h3 i (by omega) hi
    rw [hs, he]
    simp only [locAfter, ← byteLen_eq]
    rw [List.take_add_one, List.getElem?_eq_getElem (by omega)]
    simp only [Option.toList_some, List.flatten_append, List.flatten_singleton, byteLen_append]
    have := byteLen_pos hne
    omega

/-- **C02–C04, exactness.** `lex` returns `ts` if and only if `ts` is the tokenisation of the text; there is just one. -/
theorem lex_iff (text : List Char) (ts : List (Token F)) :
    lex parseF64 text = some ts ↔ Tokenizes parseF64 [] text ts := by
  obtain ⟨ts', h', ht⟩ := lex_tokenizes parseF64 text
  constructor
  · intro h; rw [h] at h'; cases h'; exact ht
  · intro h; rw [h', ht.det h]

theorem esc_inside (s : List Char) : Inside (Str.esc s) := by
  induction s with
  | nil => exact .nil
  | cons c cs ih =>
    simp only [Str.esc, List.flatMap_cons]
    cases h : Str.escapeChar c with
    | none =>
      refine .plain _ _ ?_ ?_ ih <;> (rintro rfl; simp [Str.escapeChar] at h)
    | some e =>
      unfold Str.escapeChar at h
      split at h <;> first | (cases h; exact .escaped _ _ (by simp) ih) | simp at h

/-- A printed string literal followed by any text lexes as that string and then the tokens of that text (ties C01 and C02). -/
theorem lex_string_literal (s e rest : List Char) (h : Str.escape s = some e) :
    ∃ stop ts, lex parseF64 ('"' :: e ++ ['"'] ++ rest) = some (⟨⟨⟨0, 0, 0⟩, stop⟩, .string s⟩ :: ts) ∧
      Tokenizes parseF64 ('"' :: e ++ ['"']) rest ts := by
  rw [Str.escape_eq] at h; cases h
  obtain ⟨ts, _, hts⟩ := collect_spec parseF64 (rest.length + 1) ('"' :: Str.esc s ++ ['"']) rest (by omega)
  refine ⟨_, ts, (lex_iff _ _ _).2 (.cons [] _ _ _ _ (by simp) (.string _ _ _ (esc_inside s) (Str.esc_denotes s)) hts), hts⟩

-- non-vacuity: a text with every kind of difficulty lexes (the float reader here accepts nothing)
example : (lex (F := Unit) (fun _ => none) "(a\n \"x\\n\" #\\\\t #\\日 +5 -6 ,@ #q \"z\\q".toList).map (·.map (·.rep)) =
    some [.lParen, .symbol ['a'], .whitespaces, .string ['x', '\n'], .whitespaces, .char '\t', .whitespaces, .char '日',
      .whitespaces, .unsigned 5, .whitespaces, .signed (-6), .whitespaces, .commaAt, .whitespaces, .unknownCharacter,
      .symbol ['q'], .whitespaces, .unterminatedString, .symbol ['q']] := by decide +kernel
example : ((lex (F := Unit) (fun _ => none) "日\n  b".toList).map (·.map (·.range.end))) =
    some [⟨3, 0, 3⟩, ⟨6, 1, 2⟩, ⟨7, 1, 3⟩] := by decide +kernel

end Verif.Lexer
