import Verif.Lexer.Model
import Verif.Str.Props

/-!
# Specification of lexing: the lexical grammar, locations, and tokenisations of a text

Only the data types of the model (`TokenRep`, `Token`, `Location`) are used here, and `Str.Denotes` (the meaning of escaped text).
-/
namespace Verif.Lexer.Spec
open Verif.Lexer

/-- Number of bytes of a text in UTF-8. -/
def bytes : List Char → Nat
  | [] => 0
  | c :: cs => c.utf8Size + bytes cs

/-- The part of a text after its last line feed. -/
def lastLine (s : List Char) : List Char := (s.reverse.takeWhile (· ≠ '\n')).reverse

/-- The location just after the text `pre`, for a text that starts with `pre`:
bytes before, line feeds before, bytes since the last line feed. -/
def locAfter (pre : List Char) : Location :=
  { offset := bytes pre, line := pre.count '\n', character := bytes (lastLine pre) }

/-- Whitespace characters. -/
def Space (c : Char) : Prop := c ∈ [' ', '\t', '\r', '\n']

/-- Identifier characters: ASCII letters and digits and the listed punctuation. -/
def IdChar (c : Char) : Prop :=
  ('0' ≤ c ∧ c ≤ '9') ∨ ('A' ≤ c ∧ c ≤ 'Z') ∨ ('a' ≤ c ∧ c ≤ 'z') ∨
  c ∈ ['!', '$', '%', '&', '*', '+', '-', '.', '/', ':', '<', '=', '>', '?', '^', '_', '|']

/-- `s` is a maximal run of characters of class `P` before `rest`. -/
def Run (P : Char → Prop) (s rest : List Char) : Prop :=
  s ≠ [] ∧ (∀ c ∈ s, P c) ∧ (∀ c, rest.head? = some c → ¬ P c)

/-- Decimal value of a digit string, by place value. -/
def decimal : List Char → Nat
  | [] => 0
  | c :: cs => (c.toNat - '0'.toNat) * 10 ^ cs.length + decimal cs

/-- A nonempty string of decimal digits. -/
def Digits (s : List Char) : Prop := s ≠ [] ∧ ∀ c ∈ s, '0' ≤ c ∧ c ≤ '9'

/-- `s` is an unsigned 64-bit integer literal of value `n`. -/
def UnsignedLit (s : List Char) (n : Nat) : Prop :=
  ∃ d, (s = d ∨ s = '+' :: d) ∧ Digits d ∧ decimal d = n ∧ n < 2 ^ 64

/-- `s` is a negative 64-bit integer literal of value `i`. -/
def NegativeLit (s : List Char) (i : Int) : Prop :=
  ∃ d, s = '-' :: d ∧ Digits d ∧ i = -(decimal d : Int) ∧ -(2 ^ 63) ≤ i

/-- The fixed tokens. -/
def fixed {F : Type} : List (List Char × TokenRep F) :=
  [(['('], .lParen), ([')'], .rParen), (['['], .lBrack), ([']'], .rBrack), (['{'], .lBrace), (['}'], .rBrace),
   (['\''], .quote), (['`'], .backquote), (['\\'], .backslash), (['~'], .tilde),
   ([',', '@'], .commaAt), ([','], .comma), (['@'], .at), (['#', 't'], .true), (['#', 'f'], .false)]

/-- A text with no unescaped double quote that denotes some string: the inside of a string literal read so far. -/
inductive Inside : List Char → Prop
  | nil : Inside []
  | plain (c : Char) (s) : c ≠ '"' → c ≠ '\\' → Inside s → Inside (c :: s)
  | escaped (l : Char) (s) : l ∈ ['t', 'r', 'n', '"', '\\'] → Inside s → Inside ('\\' :: l :: s)

variable {F : Type} (parseF64 : List Char → Option F)

/-- The lexical grammar: `Tok rep s rest` – when the remaining text is `s ++ rest`, the next token is `rep` and its text is `s`. -/
inductive Tok : TokenRep F → List Char → List Char → Prop
  | whitespaces (s rest) : Run Space s rest → Tok .whitespaces s rest
  | commentLine (body rest) : '\n' ∉ body → Tok .lineComment (';' :: body ++ ['\n']) rest
  | commentEof (body) : '\n' ∉ body → Tok .lineComment (';' :: body) []
  | unsigned (s rest n) : Run IdChar s rest → UnsignedLit s n → Tok (.unsigned n) s rest
  | signed (s rest i) : Run IdChar s rest → NegativeLit s i → Tok (.signed i) s rest
  | fp (s rest f) : Run IdChar s rest → (∀ n, ¬ UnsignedLit s n) → (∀ i, ¬ NegativeLit s i) →
      parseF64 s = some f → Tok (.fpNumber f) s rest
  | dot (rest) : Run IdChar ['.'] rest → parseF64 ['.'] = none → Tok .dot ['.'] rest
  | question (rest) : Run IdChar ['?'] rest → parseF64 ['?'] = none → Tok .question ['?'] rest
  | exclamation (rest) : Run IdChar ['!'] rest → parseF64 ['!'] = none → Tok .exclamation ['!'] rest
  | symbol (s rest) : Run IdChar s rest → (∀ n, ¬ UnsignedLit s n) → (∀ i, ¬ NegativeLit s i) →
      parseF64 s = none → s ∉ [['.'], ['?'], ['!']] → Tok (.symbol s) s rest
  | string (w body rest) : Inside w → Str.Denotes w body → Tok (.string body) ('"' :: w ++ ['"']) rest
  | stringEof (w) : Inside w → Tok .unterminatedString ('"' :: w) []
  | stringBadEscape (w rest) : Inside w → (∀ c, rest.head? = some c → c ∉ ['t', 'r', 'n', '"', '\\']) →
      Tok .unterminatedString ('"' :: w ++ ['\\']) rest
  | char (w c rest) : Str.Denotes w [c] → Tok (.char c) (['#', '\\'] ++ w) rest
  | charEof : Tok .unterminatedChar ['#', '\\'] []
  | charBadEscape (rest) : (∀ c, rest.head? = some c → c ∉ ['t', 'r', 'n', '"', '\\']) →
      Tok .unterminatedChar ['#', '\\', '\\'] rest
  | fixed (text rep rest) : (text, rep) ∈ fixed (F := F) → (text = [','] → rest.head? ≠ some '@') →
      Tok rep text rest
  | unknown (c rest) : ¬ Space c → ¬ IdChar c → c ∉ [';', '"'] →
      (∀ t ∈ (fixed (F := F)).map Prod.fst, ¬ t <+: c :: rest) → ¬ ['#', '\\'] <+: c :: rest →
      Tok .unknownCharacter [c] rest

/-- `Tokenizes pre text ts`: after the text `pre` was read, the tokens of the remaining `text` are `ts`, with their locations. -/
inductive Tokenizes : List Char → List Char → List (Token F) → Prop
  | nil (pre) : Tokenizes pre [] []
  | cons (pre s rest rep ts) : s ≠ [] → Tok parseF64 rep s rest → Tokenizes (pre ++ s) rest ts →
      Tokenizes pre (s ++ rest) (⟨⟨locAfter pre, locAfter (pre ++ s)⟩, rep⟩ :: ts)

end Verif.Lexer.Spec
