import Verif.Lexer.Spec

/-!
# Specification: when two token lists of one text agree
-/

namespace Verif.SelfLexer.Spec

open Verif.Lexer (Token)
open Verif.Lexer.Spec (bytes UnsignedLit)

/-- The texts that may be read differently: an integer with a plus sign, and what the two readers of
floating-point numbers read differently. -/
def Excepted {F : Type} (f0 f1 : List Char → Option F) (s : List Char) : Prop :=
  (∃ d n, s = '+' :: d ∧ UnsignedLit s n) ∨ f0 s ≠ f1 s

/-- Two tokens of `text` at the same place, which are the same unless the text there is excepted. -/
def Near {F : Type} (f0 f1 : List Char → Option F) (text : List Char) (t u : Token F) : Prop :=
  t.range = u.range ∧ (t.rep = u.rep ∨ ∃ a s b, text = a ++ s ++ b ∧ bytes a = t.range.start.offset ∧
    bytes (a ++ s) = t.range.end.offset ∧ Excepted f0 f1 s)

/-- Two lists whose elements are related one by one. -/
inductive Each {A : Type} (R : A → A → Prop) : List A → List A → Prop
  | nil : Each R [] []
  | cons (x y xs ys) : R x y → Each R xs ys → Each R (x :: xs) (y :: ys)

end Verif.SelfLexer.Spec
