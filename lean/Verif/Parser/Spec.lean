import Verif.Parser.Model
import Verif.Lexer.Spec

/-!
# Specification of parsing: the grammar of S-expressions

Only the data types `Tok` and `Sexp` of the model are used.  The grammar is over tokens without whitespace and comments:

```
S    ::= mark S | T
T    ::= atom | ( B ) | [ B ] | T ? | T ! | T { S* }
B    ::= S* | S* @ B | S* . S
```
-/
namespace Verif.Parser.Spec
open Verif.Parser

variable {F : Type}

/-- Whitespace and comments. -/
def Ambient (t : Tok F) : Prop := t = .lexed .whitespaces ∨ t = .lexed .lineComment

/-- `Strip ts us`: `us` are the tokens of `ts` without whitespace and comments. -/
inductive Strip : List (Tok F) → List (Tok F) → Prop
  | nil : Strip [] []
  | skip (t ts us) : Ambient t → Strip ts us → Strip (t :: ts) us
  | keep (t ts us) : ¬ Ambient t → Strip ts us → Strip (t :: ts) (t :: us)

/-- The tokens that recovery from an error drops: blanks, what the lexer rejected, and the beginnings of postfix forms. -/
def Dropped (t : Tok F) : Prop :=
  Ambient t ∨ t ∈ [.lexed .unterminatedString, .lexed .unterminatedChar, .lexed .unknownCharacter, .lexed .lBrace, .lexed .question, .lexed .exclamation]

/-- The tokens that are S-expressions by themselves.  A signed integer is kept modulo 2 to the 64. -/
inductive Atom : Tok F → Sexp F → Prop
  | signed (i : Int) (n : Nat) : n < 2 ^ 64 → (∃ k : Int, i = n + k * 2 ^ 64) → Atom (.lexed (.signed i)) (.integer true n)
  | unsigned (n) : Atom (.lexed (.unsigned n)) (.integer false n)
  | fpNumber (f) : Atom (.lexed (.fpNumber f)) (.fpNumber f)
  | symbol (s) : Atom (.lexed (.symbol s)) (.symbol s)
  | string (s) : Atom (.lexed (.string s)) (.string s)
  | char (c) : Atom (.lexed (.char c)) (.char c)
  | true : Atom (.lexed .true) (.bool true)
  | false : Atom (.lexed .false) (.bool false)

/-- The marks before an S-expression and their names. -/
inductive Mark : Tok F → String → Prop
  | quote : Mark (.lexed .quote) "quote"
  | quasiquote : Mark (.lexed .backquote) "quasiquote"
  | unquote : Mark (.lexed .comma) "unquote"
  | unquoteSplicing : Mark (.lexed .commaAt) "unquote-splicing"
  | capture : Mark (.lexed .backslash) "capture"
  | load : Mark (.lexed .tilde) "load"

/-- The brackets of a list. -/
inductive Brackets : Tok F → Tok F → Prop
  | paren : Brackets (.lexed .lParen) (.lexed .rParen)
  | brack : Brackets (.lexed .lBrack) (.lexed .rBrack)

/-- One more S-expression before the elements of a list. -/
def cons (a : Sexp F) : Sexp F → Sexp F
  | .list l => .list (a :: l)
  | .listLike h i l => .listLike a (h :: i) l
  | x => .listLike a [] x

/-- The form with a name and arguments. -/
def form (name : String) (args : List (Sexp F)) : Sexp F := .list (.symbol name.toList :: args)

mutual

inductive S : List (Tok F) → Sexp F → Prop
  | marked (t u s name) : Mark t name → S u s → S (t :: u) (form name [s])
  | term (u s) : T u s → S u s

inductive T : List (Tok F) → Sexp F → Prop
  | atom (t s) : Atom t s → T [t] s
  | list (l r u s) : Brackets l r → B u s → T (l :: u ++ [r]) s
  | question (u s) : T u s → T (u ++ [.lexed .question]) (form "try?" [s])
  | exclamation (u s) : T u s → T (u ++ [.lexed .exclamation]) (form "try!" [s])
  | annotate (u s v ss) : T u s → Ss v ss → T (u ++ .lexed .lBrace :: v ++ [.lexed .rBrace]) (form "annotate" (s :: ss))

inductive Ss : List (Tok F) → List (Sexp F) → Prop
  | nil : Ss [] []
  | cons (u s v ss) : S u s → Ss v ss → Ss (u ++ v) (s :: ss)

inductive B : List (Tok F) → Sexp F → Prop
  | list (u ss) : Ss u ss → B u (.list ss)
  | nested (u ss v s) : Ss u ss → B v s → B (u ++ .lexed .at :: v) (.list (ss ++ [s]))
  | dotted (u ss v s) : Ss u ss → S v s → B (u ++ .lexed .dot :: v) (ss.foldr cons s)

end

/-! ## S-expressions whose printed text says what they are -/

/-- The forms printed with a mark before their argument. -/
def Marked (x : Sexp F) : Prop := ∃ t name y, Mark (F := F) t name ∧ x = form name [y]

/-- The forms printed with a `?` or `!` after their argument, which is a list. -/
def Tried (x : Sexp F) : Prop := ∃ name l, name ∈ ["try?", "try!"] ∧ x = form name [.list l]

/-- A text read as a symbol. -/
def SymbolText (parseF64 : List Char → Option F) (s : List Char) : Prop :=
  s ≠ [] ∧ (∀ c ∈ s, Lexer.Spec.IdChar c) ∧ (∀ n, ¬ Lexer.Spec.UnsignedLit s n) ∧ (∀ i, ¬ Lexer.Spec.NegativeLit s i) ∧
  parseF64 s = none ∧ s ∉ [['.'], ['?'], ['!']]

/-- A text read as the float `f`. -/
def FloatText (parseF64 : List Char → Option F) (s : List Char) (f : F) : Prop :=
  s ≠ [] ∧ (∀ c ∈ s, Lexer.Spec.IdChar c) ∧ (∀ n, ¬ Lexer.Spec.UnsignedLit s n) ∧ (∀ i, ¬ Lexer.Spec.NegativeLit s i) ∧
  parseF64 s = some f

/-- The S-expressions that printing keeps: unsigned and negative integers of 64 bits, floats and symbols whose texts are read as themselves, any
strings, characters and booleans, lists, and dotted lists not ending in a list; but not a `?` or `!` put after a marked form or after another `?` or `!`,
nor an annotation put after a marked form. -/
inductive Faithful (parseF64 : List Char → Option F) (printF64 : F → List Char) : Sexp F → Prop
  | unsigned (n) : n < 2 ^ 64 → Faithful parseF64 printF64 (.integer false n)
  | negative (n) : 2 ^ 63 ≤ n → n < 2 ^ 64 → Faithful parseF64 printF64 (.integer true n)
  | fpNumber (f) : FloatText parseF64 (printF64 f) f → Faithful parseF64 printF64 (.fpNumber f)
  | symbol (s) : SymbolText parseF64 s → Faithful parseF64 printF64 (.symbol s)
  | string (s) : Faithful parseF64 printF64 (.string s)
  | char (c) : Faithful parseF64 printF64 (.char c)
  | bool (b) : Faithful parseF64 printF64 (.bool b)
  | list (ls) : (∀ x ∈ ls, Faithful parseF64 printF64 x) →
      (∀ name l, name ∈ ["try?", "try!"] → .list ls = form name [.list l] → ¬ Marked (.list l) ∧ ¬ Tried (.list l)) →
      (∀ x xs, .list ls = form "annotate" (x :: xs) → ¬ Marked x) →
      Faithful parseF64 printF64 (.list ls)
  | listLike (h i l) : Faithful parseF64 printF64 h → (∀ x ∈ i, Faithful parseF64 printF64 x) → Faithful parseF64 printF64 l →
      (∀ ls, l ≠ .list ls) → (∀ h' i' l', l ≠ .listLike h' i' l') → Faithful parseF64 printF64 (.listLike h i l)

end Verif.Parser.Spec
