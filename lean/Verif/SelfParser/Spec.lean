import Verif.Parser.Spec

/-!
# Specification: the grammar of the self-hosted parser

That of `llrl0` (`Parser.Spec`), save that `@` is allowed within braces:

```
S    ::= mark S | T
T    ::= atom | ( B ) | [ B ] | T ? | T ! | T { A }
B    ::= S B | @ B | . S |
A    ::= S A | @ A |
```
-/

namespace Verif.SelfParser.Spec

open Verif.Parser (Tok Sexp)
open Verif.Parser.Spec (Atom Mark Brackets cons form)

variable {F : Type}

mutual

/-- S-expressions. -/
inductive S : List (Tok F) → Sexp F → Prop
  | marked (t u s name) : Mark t name → S u s → S (t :: u) (form name [s])
  | term (u s) : T u s → S u s

/-- Those without a mark. -/
inductive T : List (Tok F) → Sexp F → Prop
  | atom (t s) : Atom t s → T [t] s
  | list (l r u s) : Brackets l r → B true u s → T (l :: (u ++ [r])) s
  | question (u s) : T u s → T (u ++ [.lexed .question]) (form "try?" [s])
  | exclamation (u s) : T u s → T (u ++ [.lexed .exclamation]) (form "try!" [s])
  | annotate (u s v x) : T u s → B false v x →
      T (u ++ .lexed .lBrace :: (v ++ [.lexed .rBrace])) (cons (.symbol "annotate".toList) (cons s x))

/-- Bodies of lists (`true`) and of annotations (`false`). -/
inductive B : Bool → List (Tok F) → Sexp F → Prop
  | nil (b) : B b [] (.list [])
  | cons (b u s v x) : S u s → B b v x → B b (u ++ v) (cons s x)
  | nested (b v x) : B b v x → B b (.lexed .at :: v) (.list [x])
  | dotted (v s) : S v s → B true (.lexed .dot :: v) s

end

/-- Sequences of S-expressions. -/
inductive Ss : List (Tok F) → List (Sexp F) → Prop
  | nil : Ss [] []
  | cons (u s v ss) : S u s → Ss v ss → Ss (u ++ v) (s :: ss)

end Verif.SelfParser.Spec
