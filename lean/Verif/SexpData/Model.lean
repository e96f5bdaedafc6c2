import Verif.Parser.Model
import Verif.SexpData.Spec

/-!
# Model of how S-expressions are handed to macros, and of how the standard library writes them

`llrl0/src/ast/builtin.rs`, `llrl0/src/sexp.rs`, `llrl0/src/backend/native/data.rs`,
`std/s-display.llrl`.

The bytes of a cell are left out, and so is the collector: a cell is a node of a tree.
Recursion runs on fuel where it is not structural; `none` means that the fuel was used up or that
the code panics.
-/

namespace Verif.SexpData

variable {L F U : Type}

/-! ## Conversion -/

/-- `Sexp` of the macros, one level of it. llrl0/src/ast/builtin.rs 177-188. -/
inductive Body (L F U : Type) where
  | integer (signed : Bool) (value : Nat)
  | fpNumber (f : F)
  | bool (b : Bool)
  | symbol (s : List Char)
  | string (s : List Char)
  | char (c : Char)
  | cons (car cdr : Host L F U)
  | nil
  | use (u : U)

/-- `SexpRep::list_like`, with the location of the result. llrl0/src/sexp.rs 89-91 and 208-225. -/
def hostListLike (l : L) (head : Host L F U) (init : List (Host L F U)) (last : Host L F U) :
    Host L F U :=
  match last with
  | .list _ ss => .list l (head :: (init ++ ss))
  | .listLike _ h i t => .listLike l head (init ++ h :: i) t
  | last => .listLike l head init last

/-- `SexpRep::cons`, with the location of the result. llrl0/src/sexp.rs 97-99 and 227-240. -/
def hostCons (l : L) (car cdr : Host L F U) : Host L F U :=
  match cdr with
  | .list _ ss => .list l (car :: ss)
  | .listLike _ h i t => .listLike l car (h :: i) t
  | cdr => hostListLike l car [] cdr

/-- `SyntaxBody::pack`. llrl0/src/ast/builtin.rs 193-205. -/
def pack (l : L) : Body L F U → Host L F U
  | .integer s v => .integer l s v
  | .fpNumber f => .fpNumber l f
  | .bool b => .bool l b
  | .symbol s => .symbol l s
  | .string s => .string l s
  | .char c => .char l c
  | .cons car cdr => hostCons l car cdr
  | .nil => .list l []
  | .use u => .use l u

/-- `SyntaxBody::unpack`; a native value that is not a captured use panics.
llrl0/src/ast/builtin.rs 207-241. -/
def unpack : Host L F U → Option (L × Body L F U)
  | .integer l s v => some (l, .integer s v)
  | .fpNumber l f => some (l, .fpNumber f)
  | .symbol l s => some (l, .symbol s)
  | .string l s => some (l, .string s)
  | .char l c => some (l, .char c)
  | .list l [] => some (l, .nil)
  | .list l (s :: ss) => some (l, .cons s (.list l ss))
  | .listLike l h [] t => some (l, .cons h t)
  | .listLike l h (s :: ss) t => some (l, .cons h (.listLike l s ss t))
  | .bool l b => some (l, .bool b)
  | .use l u => some (l, .use u)
  | .native _ => none

/-- `from_host` of `NativeSyntax`, `NativeSyntaxBuffer` and `NativeSexp`.
llrl0/src/backend/native/data.rs 289-296, 324-329 and 478-493. -/
def fromHost : Nat → Host L F U → Option (Cell L F U)
  | 0, _ => none
  | n + 1, s =>
    match unpack s with
    | none => none
    | some (l, .integer s v) => some (.integer l s v)
    | some (l, .fpNumber f) => some (.fpNumber l f)
    | some (l, .bool b) => some (.bool l b)
    | some (l, .symbol s) => some (.symbol l s)
    | some (l, .string s) => some (.string l s)
    | some (l, .char c) => some (.char l c)
    | some (l, .nil) => some (.nil l)
    | some (l, .use u) => some (.use l u)
    | some (l, .cons car cdr) =>
      match fromHost n car with
      | none => none
      | some car =>
        match fromHost n cdr with
        | none => none
        | some cdr => some (.cons l car cdr)

/-- `into_host` of `NativeSyntax`, `NativeSyntaxBuffer` and `NativeSexp`.
llrl0/src/backend/native/data.rs 284-287, 318-322 and 464-476. -/
def intoHost : Cell L F U → Host L F U
  | .integer l s v => pack l (.integer s v)
  | .fpNumber l f => pack l (.fpNumber f)
  | .bool l b => pack l (.bool b)
  | .symbol l s => pack l (.symbol s)
  | .string l s => pack l (.string s)
  | .char l c => pack l (.char c)
  | .cons l car cdr => pack l (.cons (intoHost car) (intoHost cdr))
  | .nil l => pack l .nil
  | .use l u => pack l (.use u)

mutual
/-- An S-expression without its locations, as the model of the parser has it; `useText` is what the
compiler writes for a captured use. llrl0/src/sexp.rs 174-185. -/
def Host.erase (useText : U → List Char) : Host L F U → Verif.Parser.Sexp F
  | .integer _ s v => .integer s v
  | .fpNumber _ f => .fpNumber f
  | .symbol _ s => .symbol s
  | .string _ s => .string s
  | .char _ c => .char c
  | .list _ ss => .list (Host.eraseAll useText ss)
  | .listLike _ h i t => .listLike (h.erase useText) (Host.eraseAll useText i) (t.erase useText)
  | .bool _ b => .bool b
  | .use _ u => .native (useText u)
  | .native _ => .native []

/-- All of them. -/
def Host.eraseAll (useText : U → List Char) : List (Host L F U) → List (Verif.Parser.Sexp F)
  | [] => []
  | s :: ss => s.erase useText :: Host.eraseAll useText ss
end

/-! ## Display, std/s-display.llrl -/

open Verif.Parser (QUOTE QUASIQUOTE UNQUOTE UNQUOTE_SPLICING LOAD CAPTURE TRY_QUESTION
  TRY_EXCLAMATION ANNOTATE digits signedText)

/-- `char/escape?`. std/char.llrl 27-34. -/
def charEscape : Char → Option (List Char)
  | '\t' => some ['\\', 't']
  | '\r' => some ['\\', 'r']
  | '\n' => some ['\\', 'n']
  | '"' => some ['\\', '"']
  | '\\' => some ['\\', '\\']
  | _ => none

/-- A character or its escape. std/internal/string-text.llrl 368-370. -/
def escaped (c : Char) : List Char :=
  match charEscape c with
  | some s => s
  | none => [c]

/-- `debug-display!` of a string. std/internal/string-text.llrl 364-371. -/
def debugString (s : List Char) : List Char := '"' :: s.flatMap escaped ++ ['"']

/-- `debug-display!` of a character. std/char.llrl 83-88. -/
def debugChar (c : Char) : List Char := '#' :: '\\' :: escaped c

/-- `SyntaxSugar`. std/s-display.llrl 57-66. -/
inductive Sugar (L F U : Type) where
  | quote (s : Cell L F U)
  | quasiquote (s : Cell L F U)
  | unquote (s : Cell L F U)
  | unquoteSplicing (s : Cell L F U)
  | load (s : Cell L F U)
  | capture (s : Cell L F U)
  | tryQuestion (s : Cell L F U)
  | tryExclamation (s : Cell L F U)
  | annotate (s ss : Cell L F U)

/-- `s/force-proper-list` succeeds. std/s.llrl 9-20. -/
def isProper : Cell L F U → Bool
  | .nil _ => true
  | .cons _ _ d => isProper d
  | _ => false

/-- The pattern `(s:nil)`. std/s-display.llrl 70-89. -/
def Cell.isNil : Cell L F U → Bool
  | .nil _ => true
  | _ => false

/-- The pattern `(s:cons _ _)`. std/s-display.llrl 82-85. -/
def Cell.isCons : Cell L F U → Bool
  | .cons .. => true
  | _ => false

/-- `syntax-sugar/from-s`. std/s-display.llrl 68-89. -/
def sugar (c : Cell L F U) : Option (Sugar L F U) :=
  if isProper c then
    match c with
    | .cons _ (.symbol _ sym) (.cons _ s rest) =>
      if sym = QUOTE ∧ rest.isNil then some (.quote s)
      else if sym = QUASIQUOTE ∧ rest.isNil then some (.quasiquote s)
      else if sym = UNQUOTE ∧ rest.isNil then some (.unquote s)
      else if sym = UNQUOTE_SPLICING ∧ rest.isNil then some (.unquoteSplicing s)
      else if sym = LOAD ∧ rest.isNil then some (.load s)
      else if sym = CAPTURE ∧ rest.isNil then some (.capture s)
      else if sym = TRY_QUESTION ∧ rest.isNil ∧ s.isCons then some (.tryQuestion s)
      else if sym = TRY_EXCLAMATION ∧ rest.isNil ∧ s.isCons then some (.tryExclamation s)
      else if sym = ANNOTATE then some (.annotate s rest)
      else none
    | _ => none
  else none

/-- `display-all!` of three parts, with what they wrote. std/display.llrl 16-31. -/
def all3 (a : List Char) (b : Option (List Char)) (c : Option (List Char)) : Option (List Char) :=
  match b, c with
  | some b, some c => some (a ++ b ++ c)
  | _, _ => none

/-- What is written and a text after it, the last part of `display-all!`. std/display.llrl 16-31. -/
def followed (a : Option (List Char)) (b : List Char) : Option (List Char) :=
  match a with
  | some a => some (a ++ b)
  | none => none

variable (showF64 : F → List Char)

mutual
/-- `display!` of `(Syntax Sexp)`: what is written to a writer that does not fail. The decimal
texts of integers are taken from C49. std/s-display.llrl 16-42. -/
def display : Nat → Cell L F U → Option (List Char)
  | 0, _ => none
  | n + 1, c =>
    match c with
    | .integer _ true v => some (signedText v)
    | .integer _ false v => some (digits v)
    | .fpNumber _ f => some (showF64 f)
    | .bool _ b => some (if b then ['#', 't'] else ['#', 'f'])
    | .symbol _ s => some s
    | .string _ s => some (debugString s)
    | .char _ c => some (debugChar c)
    | .cons l car cdr =>
      match sugar (.cons l car cdr) with
      | some ss => displaySugar n ss
      | none => followed (all3 ['('] (display n car) (displayTail n cdr)) [')']
    | .nil _ => some ['(', ')']
    | .use .. => some "<use>".toList

/-- `display!` of `Tail`. std/s-display.llrl 44-55. -/
def displayTail : Nat → Cell L F U → Option (List Char)
  | 0, _ => none
  | n + 1, c =>
    match c with
    | .cons _ car cdr => all3 [' '] (display n car) (displayTail n cdr)
    | .nil _ => some []
    | c => all3 [' ', '.', ' '] (display n c) (some [])

/-- `display!` of `SyntaxSugar`. std/s-display.llrl 91-113. -/
def displaySugar : Nat → Sugar L F U → Option (List Char)
  | 0, _ => none
  | n + 1, ss =>
    match ss with
    | .quote s => all3 ['\''] (display n s) (some [])
    | .quasiquote s => all3 ['`'] (display n s) (some [])
    | .unquote s => all3 [','] (display n s) (some [])
    | .unquoteSplicing s => all3 [',', '@'] (display n s) (some [])
    | .load s => all3 ['~'] (display n s) (some [])
    | .capture s => all3 ['\\'] (display n s) (some [])
    | .tryQuestion s => followed (display n s) ['?']
    | .tryExclamation s => followed (display n s) ['!']
    | .annotate s (.cons _ car cdr) =>
      match display n s with
      | some t => followed (all3 (t ++ [' ', '{']) (display n car) (displayTail n cdr)) ['}']
      | none => none
    | .annotate s _ => followed (display n s) [' ', '{', '}']
end

end Verif.SexpData
