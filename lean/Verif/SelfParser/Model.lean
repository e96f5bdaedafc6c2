import Verif.Parser.Model

/-!
# Model of the parser of the self-hosted compiler

`llrl1/sexp/parser.llrl`, with the S-expressions of `llrl1/sexp/data.llrl`.

Locations are left out. So `peek`, which alone takes tokens from the lexer and skips spaces and
comments (llrl1/sexp/parser.llrl 39-46), is looking at the first of the tokens that are left, from
which spaces and comments were taken out before. Results are `none` if the fuel is used up; after an
error the tokens left do not matter, as every function passes errors on.
-/

namespace Verif.SelfParser

open Verif.Parser (Tok)

variable {F : Type}

/-- `S` and `SRep`. llrl1/sexp/data.llrl 23-24 and 41-50. -/
inductive Cell (F : Type) where
  | integer (signed : Bool) (value : Nat)
  | fpNumber (f : F)
  | bool (b : Bool)
  | symbol (s : List Char)
  | string (s : List Char)
  | char (c : Char)
  | cons (car cdr : Cell F)
  | nil
  deriving DecidableEq, Repr

/-- `s/from-syntax-sugar` of all but annotations. llrl1/sexp/data.llrl 93-110. -/
def sugar (name : String) (s : Cell F) : Cell F := .cons (.symbol name.toList) (.cons s .nil)

/-- `s/from-syntax-sugar` of annotations. llrl1/sexp/data.llrl 111-113. -/
def sugarAnnotate (a b : Cell F) : Cell F := .cons (.symbol "annotate".toList) (.cons a b)

/-- `Error`: the token that was not expected, or none at the end. llrl1/sexp/parser.llrl 7-8. -/
structure Error (F : Type) where
  unexpected : Option (Tok F)
  expected : String

/-- What a function of the grammar gives. -/
abbrev R (F A : Type) := Option (Except (Error F) (A × List (Tok F)))

/-- `error`. llrl1/sexp/parser.llrl 63-66. -/
def error {A : Type} (expected : String) (ts : List (Tok F)) : R F A :=
  some (.error ⟨ts.head?, expected⟩)

/-- To go on unless there is an error, `!` in the code. -/
def andThen {A B : Type} (r : R F A) (k : A → List (Tok F) → R F B) : R F B :=
  match r with
  | none => none
  | some (.error e) => some (.error e)
  | some (.ok (a, ts)) => k a ts

/-- The prefixes. llrl1/sexp/parser.llrl 86-98. -/
def mark : Tok F → Option String
  | .lexed .quote => some "quote"
  | .lexed .backquote => some "quasiquote"
  | .lexed .backslash => some "capture"
  | .lexed .tilde => some "load"
  | .lexed .comma => some "unquote"
  | .lexed .commaAt => some "unquote-splicing"
  | _ => none

/-- The tokens that are S-expressions. llrl1/sexp/parser.llrl 125-149, llrl1/sexp/data.llrl 81-85. -/
def atom : Tok F → Option (Cell F)
  | .lexed (.signed n) => some (.integer true (n % 2 ^ 64).toNat)
  | .lexed (.unsigned n) => some (.integer false n)
  | .lexed (.fpNumber n) => some (.fpNumber n)
  | .lexed (.symbol s) => some (.symbol s)
  | .lexed (.string s) => some (.string s)
  | .lexed (.char c) => some (.char c)
  | .lexed .true => some (.bool true)
  | .lexed .false => some (.bool false)
  | _ => none

/-- `(grammar/terminal :r-paren p)`. llrl1/sexp/parser.llrl 188-200. -/
def rParen : List (Tok F) → R F Unit
  | .lexed .rParen :: ts => some (.ok ((), ts))
  | ts => error ")" ts

/-- `(grammar/terminal :r-brack p)`. llrl1/sexp/parser.llrl 188-200. -/
def rBrack : List (Tok F) → R F Unit
  | .lexed .rBrack :: ts => some (.ok ((), ts))
  | ts => error "]" ts

/-- `(grammar/terminal :r-brace p)`. llrl1/sexp/parser.llrl 188-200. -/
def rBrace : List (Tok F) → R F Unit
  | .lexed .rBrace :: ts => some (.ok ((), ts))
  | ts => error "}" ts

mutual

/-- `grammar/s?`. llrl1/sexp/parser.llrl 81-100. -/
def s? : Nat → List (Tok F) → R F (Option (Cell F))
  | 0, _ => none
  | n + 1, [] => s2? n []
  | n + 1, t :: ts =>
    match mark t with
    | some name => andThen (s n ts) fun c ts => some (.ok (some (sugar name c), ts))
    | none => s2? n (t :: ts)

/-- `grammar/s`. llrl1/sexp/parser.llrl 76-79. -/
def s : Nat → List (Tok F) → R F (Cell F)
  | 0, _ => none
  | n + 1, ts => andThen (s? n ts) fun c ts =>
    match c with
    | some c => some (.ok (c, ts))
    | none => error "S-expression" ts

/-- `grammar/s-2?`. llrl1/sexp/parser.llrl 102-119. -/
def s2? : Nat → List (Tok F) → R F (Option (Cell F))
  | 0, _ => none
  | n + 1, ts => andThen (s3? n ts) fun main ts =>
    match main with
    | some main => andThen (suffix n main ts) fun main ts => some (.ok (some main, ts))
    | none => some (.ok (none, ts))

/-- The loop over suffixes, with `grammar/annotation-suffix?`.
llrl1/sexp/parser.llrl 107-118 and 180-186. -/
def suffix : Nat → Cell F → List (Tok F) → R F (Cell F)
  | 0, _, _ => none
  | n + 1, main, .lexed .question :: ts => suffix n (sugar "try?" main) ts
  | n + 1, main, .lexed .exclamation :: ts => suffix n (sugar "try!" main) ts
  | n + 1, main, .lexed .lBrace :: ts => andThen (body n false ts) fun ann ts =>
    andThen (rBrace ts) fun _ ts => suffix n (sugarAnnotate main ann) ts
  | _ + 1, main, ts => some (.ok (main, ts))

/-- `grammar/s-3?`. llrl1/sexp/parser.llrl 121-161. -/
def s3? : Nat → List (Tok F) → R F (Option (Cell F))
  | 0, _ => none
  | n + 1, .lexed .lParen :: ts => andThen (body n true ts) fun c ts =>
    andThen (rParen ts) fun _ ts => some (.ok (some c, ts))
  | n + 1, .lexed .lBrack :: ts => andThen (body n true ts) fun c ts =>
    andThen (rBrack ts) fun _ ts => some (.ok (some c, ts))
  | _ + 1, t :: ts =>
    match atom t with
    | some c => some (.ok (some c, ts))
    | none => some (.ok (none, t :: ts))
  | _ + 1, [] => some (.ok (none, []))

/-- `grammar/s-list-body` and `grammar/s-list-body-rep`. llrl1/sexp/parser.llrl 163-178. -/
def body : Nat → Bool → List (Tok F) → R F (Cell F)
  | 0, _, _ => none
  | n + 1, improper, ts => andThen (s? n ts) fun l ts =>
    match l, ts with
    | some l, ts => andThen (body n improper ts) fun c ts => some (.ok (.cons l c, ts))
    | none, .lexed .at :: ts => andThen (body n improper ts) fun c ts => some (.ok (.cons c .nil, ts))
    | none, .lexed .dot :: ts => if improper then s n ts else some (.ok (.nil, .lexed .dot :: ts))
    | none, ts => some (.ok (.nil, ts))

end

/-- `grammar/ss`. llrl1/sexp/parser.llrl 70-74. -/
def ss : Nat → List (Tok F) → R F (List (Cell F))
  | 0, _ => none
  | n + 1, ts => andThen (s? n ts) fun c ts =>
    match c with
    | some c => andThen (ss n ts) fun cs ts => some (.ok (c :: cs, ts))
    | none => some (.ok ([], ts))

/-- `parser/parse-ss!`, with `parse-exact!`. llrl1/sexp/parser.llrl 23-24 and 33-37. -/
def parseSs (n : Nat) (ts : List (Tok F)) : R F (List (Cell F)) :=
  andThen (ss n (ts.filter fun t => !t.isAmbient)) fun cs ts =>
    match ts with
    | [] => some (.ok (cs, []))
    | ts => error "eof" ts

end Verif.SelfParser
