import Verif.SelfLexer.Panic

/-!
# C84: the lexer of the self-hosted compiler agrees with that of `llrl0`
-/

namespace Verif.SelfLexer

open Verif.Lexer (Token TokenRep Lexer)
open Verif.Lexer.Spec (bytes locAfter)
open Spec

variable {F : Type}

theorem collect_near (f0 f1 : List Char → Option F) (fuel : Nat) (pre text : List Char)
    (hk : ∀ c ∈ text, known c = true) (hf : text.length < fuel) :
    ∃ ts ts1, Lexer.Lexer.collect f0 fuel ⟨text, locAfter pre⟩ = some ts ∧
      collect f1 fuel ⟨text, locAfter pre⟩ = some ts1 ∧ Each (Near f0 f1 (pre ++ text)) ts ts1 := by
  induction fuel generalizing pre text with
  | zero => omega
  | succ fuel ih =>
    unfold Lexer.Lexer.collect collect
    by_cases h : text = []
    · subst h
      exact ⟨[], [], rfl, rfl, .nil⟩
    · obtain ⟨s, rest, rep, h1, h2, h3, h4⟩ :=
        Lexer.next_spec (parseF64 := f0) ⟨text, locAfter pre⟩ h
      simp only at h1
      have key : ∃ rep1, next f1 ⟨text, locAfter pre⟩ =
          some (some (⟨⟨locAfter pre, (locAfter pre).eat s⟩, rep1⟩, ⟨rest, (locAfter pre).eat s⟩)) ∧
          (rep = rep1 ∨ Excepted f0 f1 s) := by
        rcases next_near (f0 := f0) (f1 := f1) ⟨text, locAfter pre⟩ h hk with h5 | ⟨s', rest', rep', h5, h6, h7, h8, h9⟩
        · exact ⟨rep, by rw [h5, h4], .inl rfl⟩
        · rw [h4] at h5
          simp only [Option.some.injEq, Prod.mk.injEq, Token.mk.injEq, Lexer.mk.injEq] at h5
          obtain ⟨⟨_, _⟩, hr, hl⟩ := h5
          subst hr
          simp only at h7
          have hs : s = s' := List.append_cancel_right (h1.symm.trans h7)
          subst hs
          exact ⟨rep', h6, .inr h9⟩
      obtain ⟨rep1, h5, h6⟩ := key
      rw [h4, h5]
      simp only [Lexer.eat_locAfter]
      have hlen : rest.length < fuel := by
        have := congrArg List.length h1
        have := List.length_pos_iff.2 h2
        simp only [List.length_append] at *
        omega
      obtain ⟨ts, ts1, h7, h8, h9⟩ := ih (pre ++ s) rest (fun c hc => hk c (by simp [h1, hc])) hlen
      rw [h7, h8]
      refine ⟨_, _, rfl, rfl, .cons _ _ _ _ ⟨rfl, ?_⟩ (by rw [h1, ← List.append_assoc]; exact h9)⟩
      rcases h6 with rfl | h6
      · exact .inl rfl
      · exact .inr ⟨pre, s, rest, by rw [h1, List.append_assoc], rfl, rfl, h6⟩

/-- C84, partial: for every text of characters up to 111411 and all readers of floating-point numbers,
both lexers give tokens at the same places, and the same ones, save where the text of a token is an
integer with a plus sign or is read differently by the readers of floating-point numbers.
What is missing does not hold: see `plus_differs` and `lex_panics_iff`. -/
theorem lexers_agree_partial (f0 f1 : List Char → Option F) (text : List Char)
    (hk : ∀ c ∈ text, c.toNat ≤ 111411) :
    ∃ ts ts1, Lexer.lex f0 text = some ts ∧ lex f1 text = some ts1 ∧ Each (Near f0 f1 text) ts ts1 :=
  collect_near f0 f1 _ [] text (fun c hc => by simpa [known] using hk c hc) (by omega)

/-- C84, partial: so they give the same tokens for a text none of whose parts is excepted. -/
theorem lexers_equal_partial (f0 f1 : List Char → Option F) (text : List Char)
    (hk : ∀ c ∈ text, c.toNat ≤ 111411)
    (hx : ∀ a s b, text = a ++ s ++ b → ¬ Excepted f0 f1 s) : lex f1 text = Lexer.lex f0 text := by
  obtain ⟨ts, ts1, h1, h2, h3⟩ := lexers_agree_partial f0 f1 text hk
  rw [h1, h2]
  congr 1
  clear h1 h2
  induction h3 with
  | nil => rfl
  | cons x y xs ys h _ ih =>
    rw [ih]
    congr 1
    obtain ⟨r, p⟩ := x
    obtain ⟨r', p'⟩ := y
    obtain ⟨h4, h5 | ⟨a, s, b, h5, _, _, h6⟩⟩ := h
    · simp only at h4 h5
      rw [h4, h5]
    · exact absurd h6 (hx a s b h5)

/-- C84: the lexer of the self-hosted compiler panics exactly on the texts that have a character above
111411, whereas that of `llrl0` never does (`Lexer.lex_total`). -/
theorem lex_panics_iff (f1 : List Char → Option F) (text : List Char) :
    lex f1 text = none ↔ ∃ c ∈ text, 111411 < c.toNat := by
  constructor
  · intro h
    apply Classical.byContradiction
    intro hn
    obtain ⟨_, ts1, _, h2, _⟩ := lexers_agree_partial f1 f1 text fun c hc => by
      apply Classical.byContradiction
      intro hl
      exact hn ⟨c, hc, by omega⟩
    rw [h] at h2
    simp at h2
  · rintro ⟨c, hc, hl⟩
    cases h : lex f1 text with
    | none => rfl
    | some ts =>
      have := collect_known h c hc
      simp only [known, decide_eq_true_eq] at this
      omega

/-- C84, refutation: `+5` is the integer 5 for the one lexer and a floating-point number for the other,
even if their readers of floating-point numbers are the same. -/
theorem plus_differs : ∃ f : List Char → Option Unit,
    (Lexer.lex f ['+', '5']).map (·.map (·.rep)) = some [.unsigned 5] ∧
    (lex f ['+', '5']).map (·.map (·.rep)) = some [.fpNumber ()] :=
  ⟨fun s => if s = ['+', '5'] then some () else none, by decide +kernel, by decide +kernel⟩

/-- A reader that knows one number. -/
private def half : List Char → Option Unit := fun s => if s = ['0', '.', '5'] then some () else none

/-- `(f -1 0.5 "a\n" #\é)` and a comment: thirteen tokens, the same ones in both lexers. -/
example : (lex half "(f -1 0.5 \"a\\n\" #\\é) ; x".toList).map (·.map (·.rep)) =
    some [.lParen, .symbol ['f'], .whitespaces, .signed (-1), .whitespaces, .fpNumber (), .whitespaces,
      .string ['a', '\n'], .whitespaces, .char 'é', .rParen, .whitespaces, .lineComment] := by
  decide +kernel

example : lex half "(f -1 0.5 \"a\\n\" #\\é) ; x".toList =
    Lexer.lex half "(f -1 0.5 \"a\\n\" #\\é) ; x".toList := by decide +kernel

/-- Two lines, with locations. -/
example : (lex half ['a', '\n', 'é']).map (·.map (·.range)) =
    some [⟨⟨0, 0, 0⟩, ⟨1, 0, 1⟩⟩, ⟨⟨1, 0, 1⟩, ⟨2, 1, 0⟩⟩, ⟨⟨2, 1, 0⟩, ⟨4, 1, 2⟩⟩] := by decide +kernel

/-- A text without excepted parts. -/
example : lex half ['(', 'a', ')'] = Lexer.lex half ['(', 'a', ')'] := by
  apply lexers_equal_partial
  · decide
  · rintro a s b h (⟨d, n, rfl, _⟩ | hf)
    · have : '+' ∈ ['(', 'a', ')'] := by rw [h]; simp
      simp at this
    · exact hf rfl

/-- An emoji makes the lexer of the self-hosted compiler panic. -/
example : lex half ['😀'] = none := (lex_panics_iff half _).2 ⟨'😀', by decide, by decide⟩

end Verif.SelfLexer
