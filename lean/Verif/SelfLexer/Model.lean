import Verif.Integer.Model
import Verif.Lexer.Model

/-!
# Model of the lexer of the self-hosted compiler

`llrl1/sexp/lexer.llrl`, `llrl1/source-location.llrl`.

Tokens, locations and the cursor `Eat` are those of the model of the lexer of `llrl0` (C02 to C04):
the code keeps the number of bytes consumed, the cursor here what was consumed. A string is its
characters. The functions of the standard library on strings panic on characters above 111411
(C37 and C38), which is `none`; so is every failed assertion. Reading floating-point numbers is a
parameter.
-/

namespace Verif.SelfLexer

open Verif.Lexer (Location Token TokenRep Lexer Eat byteLen splitLines splitBytes)

/-- The characters that the standard library knows. std/internal/utf-8.llrl 32-45 and 83-96. -/
def known (c : Char) : Bool := c.toNat ≤ 111411

/-- The body of the loop of `location/eat` for the lines after the first one.
llrl1/source-location.llrl 30-35. -/
def eatLines : Nat → Nat → List (List Char) → Nat × Nat
  | line, character, [] => (line, character)
  | line, _, l :: ls => eatLines (line + 1) (byteLen l) ls

/-- `location/eat`. llrl1/source-location.llrl 25-36. -/
def eatLocation (s : List Char) (loc : Location) : Location :=
  match splitLines s with
  | [] => { loc with offset := loc.offset + byteLen s }
  | l :: ls =>
    match eatLines loc.line (loc.character + byteLen l) ls with
    | (line, character) => ⟨loc.offset + byteLen s, line, character⟩

/-- `eat!`. llrl1/sexp/lexer.llrl 115-122. -/
def eat (len : Nat) (e : Eat) : Option (Bool × Eat) :=
  if len ≠ 0 ∧ len ≤ byteLen e.current then
    match splitBytes len e.current with
    | none => none
    | some (a, b) => some (true, ⟨e.consumed ++ a, b⟩)
  else some (false, e)

/-- `eat-exact!`. llrl1/sexp/lexer.llrl 124-126. -/
def eatExact (s : List Char) (e : Eat) : Option (Bool × Eat) :=
  if s.isPrefixOf e.current then eat (byteLen s) e else some (false, e)

/-- `eat-if!`. llrl1/sexp/lexer.llrl 128-132. -/
def eatIf (f : Char → Bool) (e : Eat) : Option (Bool × Eat) :=
  match e.current with
  | [] => some (false, e)
  | ch :: _ =>
    if known ch then
      if f ch then eat ch.utf8Size e else some (false, e)
    else none

/-- The sum in `eat-while!`. llrl1/sexp/lexer.llrl 136. -/
def takeLen (f : Char → Bool) : List Char → Option Nat
  | [] => some 0
  | ch :: rest =>
    if known ch then
      if f ch then (takeLen f rest).map (ch.utf8Size + ·) else some 0
    else none

/-- `eat-while!`. llrl1/sexp/lexer.llrl 134-137. -/
def eatWhile (f : Char → Bool) (e : Eat) : Option (Bool × Eat) :=
  match takeLen f e.current with
  | none => none
  | some len => eat len e

/-- `eat-whitespaces!`. llrl1/sexp/lexer.llrl 139-140. -/
def eatWhitespaces (e : Eat) : Option (Bool × Eat) :=
  eatWhile (fun c => match c with | ' ' => true | '\t' => true | '\r' => true | '\n' => true | _ => false) e

/-- `eat-line-comment!`. llrl1/sexp/lexer.llrl 142-148. -/
def eatLineComment (e : Eat) : Option (Bool × Eat) := do
  let (b, e) ← eatExact [';'] e
  if b then
    let (_, e) ← eatWhile (fun c => match c with | '\n' => false | _ => true) e
    let (_, e) ← eatExact ['\n'] e
    pure (true, e)
  else pure (false, e)

/-- The characters of `eat-id!`. llrl1/sexp/lexer.llrl 153-157. -/
def idChar (ch : Char) : Bool :=
  let c := ch.toNat
  c == 33 || (36 ≤ c && c ≤ 38) || (42 ≤ c && c ≤ 43) || (45 ≤ c && c ≤ 58) || (60 ≤ c && c ≤ 63)
  || (65 ≤ c && c ≤ 90) || (94 ≤ c && c ≤ 95) || (97 ≤ c && c ≤ 122) || c == 124

/-- `eat-id!`. llrl1/sexp/lexer.llrl 150-158. -/
def eatId (e : Eat) : Option (Bool × Eat) := eatWhile idChar e

/-- `char/unescape?`. std/char.llrl 36-43. -/
def unescape : Char → Option Char
  | 't' => some '\t'
  | 'r' => some '\r'
  | 'n' => some '\n'
  | '"' => some '"'
  | '\\' => some '\\'
  | _ => none

/-- `eat-escape-sequence!`. llrl1/sexp/lexer.llrl 182-184. -/
def eatEscape (e : Eat) : Option (Option Bool × Eat) := do
  let (b, e) ← eatExact ['\\'] e
  if b then
    let (v, e) ← eatIf (fun c => (unescape c).isSome) e
    pure (some v, e)
  else pure (none, e)

/-- The loop of `eat-string!`, with fuel. llrl1/sexp/lexer.llrl 162-170. -/
def stringLoop : Nat → Eat → Option (Bool × Eat)
  | 0, _ => none
  | fuel + 1, e => do
    let (_, e) ← eatWhile (fun c => match c with | '"' => false | '\\' => false | _ => true) e
    let (v, e) ← eatEscape e
    match v with
    | some valid => if valid then stringLoop fuel e else pure (false, e)
    | none =>
      let (q, e) ← eatExact ['"'] e
      if q then pure (true, e) else pure (false, e)

/-- `eat-string!`. llrl1/sexp/lexer.llrl 160-170. -/
def eatString (e : Eat) : Option (Option Bool × Eat) := do
  let (b, e) ← eatExact ['"'] e
  if b then
    let (t, e) ← stringLoop (e.current.length + 1) e
    pure (some t, e)
  else pure (none, e)

/-- `eat-char!`. llrl1/sexp/lexer.llrl 172-180. -/
def eatChar (e : Eat) : Option (Option Bool × Eat) := do
  let (b, e) ← eatExact ['#', '\\'] e
  if b then
    let (v, e) ← eatEscape e
    match v with
    | some valid => pure (some valid, e)
    | none =>
      let (b, e) ← eatIf (fun c => c ≠ '\\') e
      if b then pure (some true, e) else pure (some false, e)
  else pure (none, e)

/-- The loop of `unescape-string?`, and what follows it. llrl1/sexp/lexer.llrl 189-197. -/
def unescapeLoop : Bool → List Char → List Char → Option (List Char)
  | next, buf, [] => if next then none else some buf
  | true, buf, c :: cs =>
    match unescape c with
    | none => none
    | some c => unescapeLoop false (buf ++ [c]) cs
  | false, buf, c :: cs => if c = '\\' then unescapeLoop true buf cs else unescapeLoop false (buf ++ [c]) cs

/-- `unescape-string?`. llrl1/sexp/lexer.llrl 186-197. -/
def unescapeString (s : List Char) : Option (List Char) := unescapeLoop false [] s

/-- `unescape-char?`. llrl1/sexp/lexer.llrl 199-203. -/
def unescapeChar : List Char → Option Char
  | [] => none
  | c :: cs =>
    if c = '\\' then
      match cs with
      | [] => none
      | c :: _ => unescape c
    else some c

variable {F : Type} (parseF64 : List Char → Option F)

/-- The bytes of an identifier, which is ASCII. -/
def ascii (s : List Char) : List UInt8 := s.map fun c => UInt8.ofNat c.toNat

/-- The function for identifiers in `next!`; `(float/from-string? s)` is `parseF64`.
llrl1/sexp/lexer.llrl 22-36. -/
def idRep (s : List Char) : Option (TokenRep F) :=
  match Integer.fromString? ⟨false, 64⟩ 10 (ascii s) with
  | .error _ => none
  | .ok (some v) => some (.unsigned v.toNat)
  | .ok none =>
    match Integer.fromString? ⟨true, 64⟩ 10 (ascii s) with
    | .error _ => none
    | .ok (some v) => some (.signed v)
    | .ok none =>
      match parseF64 s with
      | some f => some (.fpNumber f)
      | none =>
        if s = ['.'] then some .dot
        else if s = ['?'] then some .question
        else if s = ['!'] then some .exclamation
        else some (.symbol s)

/-- The function for strings in `next!`. llrl1/sexp/lexer.llrl 39-49. -/
def stringRep (terminated : Bool) (s : List Char) : Option (TokenRep F) :=
  if terminated then
    if 2 ≤ byteLen s then
      match unescapeString ((s.drop 1).take (s.length - 1 - 1)) with
      | none => none
      | some body => some (.string body)
    else none
  else some .unterminatedString

/-- The function for characters in `next!`. llrl1/sexp/lexer.llrl 51-61. -/
def charRep (terminated : Bool) (s : List Char) : Option (TokenRep F) :=
  if terminated then
    if 3 ≤ byteLen s then
      match unescapeChar (s.drop 2) with
      | none => none
      | some c => some (.char c)
    else none
  else some .unterminatedChar

/-- `produce!*`. llrl1/sexp/lexer.llrl 101-109. -/
def produce (l : Lexer) (e : Eat) (f : List Char → Option (TokenRep F)) :
    Option (Option (Token F × Lexer)) :=
  let stop := eatLocation e.consumed l.location
  match f e.consumed with
  | none => none
  | some rep => some (some (⟨⟨l.location, stop⟩, rep⟩, ⟨e.current, stop⟩))

/-- The fixed texts, in the order in which they are tried. llrl1/sexp/lexer.llrl 62-91. -/
def punctuation : List (List Char × TokenRep F) :=
  [(['('], .lParen), ([')'], .rParen), (['['], .lBrack), ([']'], .rBrack), (['{'], .lBrace),
   (['}'], .rBrace), (['\''], .quote), (['`'], .backquote), (['\\'], .backslash), (['~'], .tilde),
   ([',', '@'], .commaAt), ([','], .comma), (['@'], .at), (['#', 't'], .true), (['#', 'f'], .false)]

/-- The clauses for fixed texts and the last clause. llrl1/sexp/lexer.llrl 62-93. -/
def nextPunct (l : Lexer) (e : Eat) :
    List (List Char × TokenRep F) → Option (Option (Token F × Lexer))
  | [] => do
    let (b, e) ← eatIf (fun _ => true) e
    if b then produce l e (fun _ => some .unknownCharacter) else some none
  | (text, rep) :: more => do
    let (b, e) ← eatExact text e
    if b then produce l e (fun _ => some rep) else nextPunct l e more

/-- `next!`. The outer `none` is a panic, the inner one the end. llrl1/sexp/lexer.llrl 14-93. -/
def next (l : Lexer) : Option (Option (Token F × Lexer)) := do
  let (b, e) ← eatWhitespaces (Eat.new l)
  if b then produce l e (fun _ => some .whitespaces)
  else
    let (b, e) ← eatLineComment e
    if b then produce l e (fun _ => some .lineComment)
    else
      let (b, e) ← eatId e
      if b then produce l e (idRep parseF64)
      else
        let (t, e) ← eatString e
        match t with
        | some terminated => produce l e (stringRep terminated)
        | none =>
          let (t, e) ← eatChar e
          match t with
          | some terminated => produce l e (charRep terminated)
          | none => nextPunct l e punctuation

/-- All that the iterator gives, with fuel. llrl1/sexp/lexer.llrl 8-12. -/
def collect : Nat → Lexer → Option (List (Token F))
  | 0, _ => none
  | fuel + 1, l =>
    match next parseF64 l with
    | none => none
    | some none => some []
    | some (some (t, l)) => (collect fuel l).map (t :: ·)

/-- `lex`. llrl1/sexp/lexer.llrl 8-12. -/
def lex (input : List Char) : Option (List (Token F)) :=
  collect parseF64 (input.length + 1) ⟨input, ⟨0, 0, 0⟩⟩

end Verif.SelfLexer
