import Verif.Lexer.Model

/-!
# Model of the parser and of the printing of S-expressions

`llrl0/src/parser.rs`, `llrl0/src/parser/primitive.rs`, `llrl0/src/parser/grammar.rs`, `llrl0/src/sexp.rs`.

Source locations are left out of tokens, S-expressions and errors: no decision of the parser depends on them.  Recursion and loops run on
fuel; `none` means that the fuel was used up or that the code panics.
-/
namespace Verif.Parser
open Verif.Lexer (TokenRep)

variable {F : Type}

/-- `TokenRep`, llrl0/src/token.rs:19-55: the tokens of the lexer and `Eof`. -/
inductive Tok (F : Type) where
  | lexed (rep : TokenRep F)
  | eof
deriving DecidableEq, Repr

/-- `TokenRep::is_ambient`, llrl0/src/token.rs:58-60. -/
def Tok.isAmbient : Tok F → Bool
  | .lexed .whitespaces | .lexed .lineComment => true
  | _ => false

/-- `TokenRep::is_error`, llrl0/src/token.rs:62-67. -/
def Tok.isError : Tok F → Bool
  | .lexed .unterminatedString | .lexed .unterminatedChar | .lexed .unknownCharacter => true
  | _ => false

/-- `SexpRep`, llrl0/src/sexp.rs:175-185, and `Sexp` without its location.  A native value is only its displayed text. -/
inductive Sexp (F : Type) where
  | integer (signed : Bool) (value : Nat)
  | fpNumber (f : F)
  | symbol (s : List Char)
  | string (s : List Char)
  | char (c : Char)
  | list (ss : List (Sexp F))
  | listLike (head : Sexp F) (init : List (Sexp F)) (last : Sexp F)
  | bool (b : Bool)
  | native (text : List Char)
deriving Repr

/-- `SexpRep::signed`, llrl0/src/sexp.rs:188-190: the cast to `u64` wraps. -/
def Sexp.ofSigned (i : Int) : Sexp F := .integer true (i % 2 ^ 64).toNat

/-- `SexpRep::list_like`, llrl0/src/sexp.rs:208-225. -/
def Sexp.mkListLike (head : Sexp F) (init : List (Sexp F)) (last : Sexp F) : Sexp F :=
  match last with
  | .list l => .list (head :: init ++ l)
  | .listLike h i l => .listLike head (init ++ h :: i) l
  | last => .listLike head init last

/-- `Error`, llrl0/src/parser/error.rs:5-10. -/
structure Err (F : Type) where
  unexpected : Tok F
  expected : String

/-- `Parser`, llrl0/src/parser.rs:28-36: the tokens to come and the errors collected. -/
structure St (F : Type) where
  toks : List (Tok F)
  errs : List (Err F)

/-- A parsing function: fuel or panic, the result or the error passed on with `?`, and the parser after it. -/
def P (F α : Type) := St F → Option (Except (Err F) α × St F)

def P.pure {α} (a : α) : P F α := fun s => some (.ok a, s)

/-- `let x = p?; q`. -/
def P.bind {α β} (p : P F α) (q : α → P F β) : P F β := fun s =>
  match p s with
  | none => none
  | some (.error e, s) => some (.error e, s)
  | some (.ok a, s) => q a s

instance : Monad (P F) where
  pure := P.pure
  bind := P.bind

/-- `peek_token`, llrl0/src/parser.rs:53-63. -/
def peek (s : St F) : Option (Tok F) × St F :=
  let toks := s.toks.dropWhile Tok.isAmbient
  (toks.head?, { s with toks := toks })

/-- `next_token`, llrl0/src/parser.rs:65-77. -/
def next (s : St F) : Option (Tok F) × St F :=
  match s.toks.dropWhile Tok.isAmbient with
  | [] => (none, { s with toks := [] })
  | t :: ts => (some t, { s with toks := ts })

/-- `next_token_start`, llrl0/src/parser.rs:79-84, of which only the peeking is left; called by `capture_source_location`,
llrl0/src/parser.rs:94-108. -/
def capture : P F Unit := fun s => some (.ok (), (peek s).2)

/-- `Err(p.error_expected(..))`, llrl0/src/parser.rs:165-171. -/
def expected {α} (msg : String) : P F α := fun s =>
  let (t, s) := peek s
  some (.error ⟨t.getD .eof, msg⟩, s)

/-- `should_parse`, llrl0/src/parser.rs:115-120. -/
def should (leading : Tok F → Bool) : P F Bool := fun s =>
  match peek s with
  | (some t, s) => some (.ok (leading t), s)
  | (none, s) => some (.ok false, s)

/-- `try_parse`, llrl0/src/parser.rs:122-128. -/
def tryParse {α} (leading : Tok F → Bool) (p : P F α) : P F (Option α) := do
  if ← should leading then do
    let a ← p
    pure (some a)
  else pure none

/-- `impl_token_nonterminal`, llrl0/src/parser/primitive.rs:125-152: the payload of a kind of token. -/
def token {α} (get : Tok F → Option α) (msg : String) : P F α := fun s =>
  match peek s with
  | (some t, s) =>
    match get t with
    | some _ =>
      match next s with
      | (some t, s) =>
        match get t with
        | some a => some (.ok a, s)
        | none => none
      | (none, _) => none
    | none => expected msg s
  | (none, s) => expected msg s

/-- `is_leading_token` of a kind of token, llrl0/src/parser/primitive.rs:146-150. -/
def leads {α} (get : Tok F → Option α) (t : Tok F) : Bool := (get t).isSome

/-- The kinds of tokens with payload, llrl0/src/parser/primitive.rs:154-159. -/
def getSigned : Tok F → Option Int | .lexed (.signed i) => some i | _ => none
def getUnsigned : Tok F → Option Nat | .lexed (.unsigned n) => some n | _ => none
def getFP : Tok F → Option F | .lexed (.fpNumber f) => some f | _ => none
def getSymbol : Tok F → Option (List Char) | .lexed (.symbol s) => some s | _ => none
def getString : Tok F → Option (List Char) | .lexed (.string s) => some s | _ => none
def getChar : Tok F → Option Char | .lexed (.char c) => some c | _ => none

/-- The other kinds of tokens, llrl0/src/parser/primitive.rs:161-179. -/
def getDot : Tok F → Option Unit | .lexed .dot => some () | _ => none
def getQuestion : Tok F → Option Unit | .lexed .question => some () | _ => none
def getExclamation : Tok F → Option Unit | .lexed .exclamation => some () | _ => none
def getLParen : Tok F → Option Unit | .lexed .lParen => some () | _ => none
def getRParen : Tok F → Option Unit | .lexed .rParen => some () | _ => none
def getLBrack : Tok F → Option Unit | .lexed .lBrack => some () | _ => none
def getRBrack : Tok F → Option Unit | .lexed .rBrack => some () | _ => none
def getLBrace : Tok F → Option Unit | .lexed .lBrace => some () | _ => none
def getRBrace : Tok F → Option Unit | .lexed .rBrace => some () | _ => none
def getQuote : Tok F → Option Unit | .lexed .quote => some () | _ => none
def getBackquote : Tok F → Option Unit | .lexed .backquote => some () | _ => none
def getBackslash : Tok F → Option Unit | .lexed .backslash => some () | _ => none
def getTilde : Tok F → Option Unit | .lexed .tilde => some () | _ => none
def getComma : Tok F → Option Unit | .lexed .comma => some () | _ => none
def getCommaAt : Tok F → Option Unit | .lexed .commaAt => some () | _ => none
def getAt : Tok F → Option Unit | .lexed .at => some () | _ => none
def getTrue : Tok F → Option Unit | .lexed .true => some () | _ => none
def getFalse : Tok F → Option Unit | .lexed .false => some () | _ => none

/-- `prim::Eof`, llrl0/src/parser/primitive.rs:7-16. -/
def eof : P F Unit := fun s =>
  match peek s with
  | (none, s) => some (.ok (), s)
  | (some _, s) => expected "eof" s

/-- `SexpInteger`, llrl0/src/parser/grammar.rs:114-134. -/
def integer : P F (Sexp F) := do
  if let some i ← tryParse (leads getSigned) (token getSigned "signed integer") then pure (Sexp.ofSigned i)
  else if let some n ← tryParse (leads getUnsigned) (token getUnsigned "unsigned integer") then pure (.integer false n)
  else expected "integer"

/-- `SexpBool`, llrl0/src/parser/grammar.rs:270-284. -/
def bool : P F (Sexp F) := do
  if let some _ ← tryParse (leads getTrue) (token getTrue "#t") then pure (.bool true)
  else if let some _ ← tryParse (leads getFalse) (token getFalse "#f") then pure (.bool false)
  else expected "boolean"

/-- `is_leading_token` of `Sexp`, llrl0/src/parser/grammar.rs:88-101. -/
def leadsSexp : Tok F → Bool
  | .lexed .dot | .lexed .at | .lexed .question | .lexed .exclamation | .lexed .rParen | .lexed .rBrack | .lexed .rBrace => false
  | _ => true

/-- `is_following_token` of `Sexp`, llrl0/src/parser/grammar.rs:103-112. -/
def followsSexp (t : Tok F) : Bool :=
  !t.isAmbient && !t.isError && !(match t with | .lexed .lBrace | .lexed .question | .lexed .exclamation => true | _ => false)

/-- The loop of `parse_with_error_swallowed`, llrl0/src/parser.rs:139-144: tokens are dropped up to one that may follow. -/
def recover : List (Tok F) → List (Tok F)
  | [] => []
  | t :: ts => if t.isAmbient then recover ts else if followsSexp t then t :: ts else recover ts

/-- `parse_with_error_swallowed`, llrl0/src/parser.rs:134-148. -/
def swallow {α} (p : P F α) : P F (Option α) := fun s =>
  match p s with
  | none => none
  | some (.ok a, s) => some (.ok (some a), s)
  | some (.error e, s) => some (.ok none, { toks := recover s.toks, errs := s.errs ++ [e] })

/-- The names of the special forms, llrl0/src/sexp.rs:164-172. -/
def QUOTE : List Char := "quote".toList
def QUASIQUOTE : List Char := "quasiquote".toList
def UNQUOTE : List Char := "unquote".toList
def UNQUOTE_SPLICING : List Char := "unquote-splicing".toList
def LOAD : List Char := "load".toList
def CAPTURE : List Char := "capture".toList
def TRY_QUESTION : List Char := "try?".toList
def TRY_EXCLAMATION : List Char := "try!".toList
def ANNOTATE : List Char := "annotate".toList

/-- `SexpQuoted`, llrl0/src/parser/grammar.rs:254-262 with llrl0/src/parser/grammar.rs:292-392: a mark and an S-expression. -/
def quoted (get : Tok F → Option Unit) (msg : String) (name : List Char) (sexp : P F (Sexp F)) : P F (Sexp F) := do
  capture
  token get msg
  let s ← sexp
  pure (.list [.symbol name, s])

mutual

/-- `Sexp::parse_nonterminal`, llrl0/src/parser/grammar.rs:24-62. -/
def sexp : Nat → P F (Sexp F)
  | 0 => fun _ => none
  | fuel + 1 => do
    capture
    capture
    let s ← (do
      if let some s ← tryParse (fun t => leads getSigned t || leads getUnsigned t) integer then pure s
      else if let some f ← tryParse (leads getFP) (token getFP "number") then pure (.fpNumber f)
      else if let some s ← tryParse (leads getSymbol) (token getSymbol "symbol") then pure (.symbol s)
      else if let some s ← tryParse (leads getString) (token getString "string") then pure (.string s)
      else if let some c ← tryParse (leads getChar) (token getChar "char") then pure (.char c)
      else if let some s ← tryParse (leads getLParen) (do
        token getLParen "("
        let r ← body fuel
        token getRParen ")"
        pure r) then pure s
      else if let some s ← tryParse (leads getLBrack) (do
        token getLBrack "["
        let r ← body fuel
        token getRBrack "]"
        pure r) then pure s
      else if let some s ← tryParse (leads getQuote) (quoted getQuote "'" QUOTE (sexp fuel)) then pure s
      else if let some s ← tryParse (leads getBackquote) (quoted getBackquote "`" QUASIQUOTE (sexp fuel)) then pure s
      else if let some s ← tryParse (leads getComma) (quoted getComma "," UNQUOTE (sexp fuel)) then pure s
      else if let some s ← tryParse (leads getCommaAt) (quoted getCommaAt ",@" UNQUOTE_SPLICING (sexp fuel)) then pure s
      else if let some s ← tryParse (leads getBackslash) (quoted getBackslash "\\" CAPTURE (sexp fuel)) then pure s
      else if let some s ← tryParse (leads getTilde) (quoted getTilde "~" LOAD (sexp fuel)) then pure s
      else if let some s ← tryParse (fun t => leads getTrue t || leads getFalse t) bool then pure s
      else expected "S-expression")
    post fuel s

/-- The loop over the postfix forms, llrl0/src/parser/grammar.rs:64-84. -/
def post : Nat → Sexp F → P F (Sexp F)
  | 0, _ => fun _ => none
  | fuel + 1, s => do
    if let some _ ← tryParse (leads getQuestion) (token getQuestion "?") then post fuel (.list [.symbol TRY_QUESTION, s])
    else if let some _ ← tryParse (leads getExclamation) (token getExclamation "!") then post fuel (.list [.symbol TRY_EXCLAMATION, s])
    else if let some _ ← tryParse (leads getLBrace) (token getLBrace "{") then do
      let ss ← seq fuel
      token getRBrace "}"
      post fuel (.list (.symbol ANNOTATE :: s :: ss))
    else pure s

/-- `RecoverableSeq<Sexp>`, llrl0/src/parser/primitive.rs:105-123: the separator `()` always succeeds. -/
def seq : Nat → P F (List (Sexp F))
  | 0 => fun _ => none
  | fuel + 1 => do
    if ← should leadsSexp then do
      let a ← swallow (sexp fuel)
      let more ← seq fuel
      pure (a.toList ++ more)
    else pure []

/-- `SexpListLikeBody`, llrl0/src/parser/grammar.rs:228-248. -/
def body : Nat → P F (Sexp F)
  | 0 => fun _ => none
  | fuel + 1 => do
    let items ← seq fuel
    if let some _ ← tryParse (leads getAt) (token getAt "@") then do
      capture
      let last ← body fuel
      pure (.list (items ++ [last]))
    else if let some _ ← tryParse (leads getDot) (token getDot ".") then do
      let last ← sexp fuel
      match items with
      | [] => pure last
      | head :: items => pure (Sexp.mkListLike head items last)
    else pure (.list items)

end

/-- `Ss::parse_nonterminal`, llrl0/src/parser/grammar.rs:6-19. -/
def sexps (fuel : Nat) : P F (List (Sexp F)) := do
  capture
  let ss ← seq fuel
  eof
  pure ss

/-- `parse::<Ss>`, llrl0/src/parser.rs:17-24: the final result, the collected errors and the tokens left. -/
def parse (fuel : Nat) (toks : List (Tok F)) : Option (Except (Err F) (List (Sexp F)) × List (Err F) × List (Tok F)) :=
  (sexps fuel ⟨toks, []⟩).map (fun (r, s) => (r, s.errs, s.toks))

/-- `aggregate_errors`, llrl0/src/parser/result.rs:14-23. -/
def aggregate {α} (r : Except (Err F) α) (errs : List (Err F)) : Except (Err F) α :=
  match r, errs with
  | .ok v, [] => .ok v
  | .ok _, e :: _ => .error e
  | .error e, _ => .error e

/-! ## Printing -/

/-- Decimal digits, as the standard library prints an unsigned integer (`write!(f, "{}", v)`, llrl0/src/sexp.rs:326). -/
def digits (n : Nat) : List Char :=
  if n < 10 then [Char.ofNat ('0'.toNat + n)] else digits (n / 10) ++ [Char.ofNat ('0'.toNat + n % 10)]

/-- `*v as i64` and its printing, llrl0/src/sexp.rs:325. -/
def signedText (v : Nat) : List Char := if v < 2 ^ 63 then digits v else '-' :: digits (2 ^ 64 - v)

/-- `write!(f, " {}", s)` for each element. -/
def spaced (texts : List (List Char)) : List Char := texts.flatMap (' ' :: ·)

/-- The loops over the elements of a list, llrl0/src/sexp.rs:309-315 and 333-339: a space before each but the first. -/
def separated : List (List Char) → List Char
  | [] => []
  | t :: ts => t ++ spaced ts

def Sexp.isList : Sexp F → Bool
  | .list _ => true
  | _ => false

/-- The printing of a list, llrl0/src/sexp.rs:293-322 and 331-341, from its elements and their printed texts. -/
def listText (ls : List (Sexp F)) (texts : List (List Char)) : List Char :=
  let plain := '(' :: separated texts ++ [')']
  match ls, texts with
  | [.symbol sym, s], [_, t] =>
    if sym = QUOTE then '\'' :: t
    else if sym = QUASIQUOTE then '`' :: t
    else if sym = UNQUOTE then ',' :: t
    else if sym = UNQUOTE_SPLICING then ',' :: '@' :: t
    else if sym = LOAD then '~' :: t
    else if sym = CAPTURE then '\\' :: t
    else if sym = TRY_QUESTION ∧ s.isList then t ++ ['?']
    else if sym = TRY_EXCLAMATION ∧ s.isList then t ++ ['!']
    else if sym = ANNOTATE then t ++ [' ', '{'] ++ ['}']
    else plain
  | .symbol sym :: _ :: _, _ :: t :: ts =>
    if sym = ANNOTATE then t ++ [' ', '{'] ++ separated ts ++ ['}'] else plain
  | _, _ => plain

variable (printF64 : F → List Char)

mutual
/-- `Display` of `SexpRep`, llrl0/src/sexp.rs:291-354; the printing of a float is a parameter.  `escape` always gives a text
(`Str.escape_unescape`). -/
def Sexp.text : Sexp F → List Char
  | .integer true v => signedText v
  | .integer false v => digits v
  | .fpNumber f => printF64 f
  | .symbol s => s
  | .string s => '"' :: (Str.escape s).getD [] ++ ['"']
  | .char c => '#' :: '\\' :: (Str.escape [c]).getD []
  | .list ls => listText ls (Sexp.texts ls)
  | .listLike h i l => '(' :: Sexp.text h ++ spaced (Sexp.texts i) ++ [' ', '.', ' '] ++ Sexp.text l ++ [')']
  | .bool true => ['#', 't']
  | .bool false => ['#', 'f']
  | .native t => t

def Sexp.texts : List (Sexp F) → List (List Char)
  | [] => []
  | s :: ss => Sexp.text s :: Sexp.texts ss
end

/-- `Display` of `Ss`, llrl0/src/sexp.rs:26-36: a line feed before each but the first. -/
def ssText (ss : List (Sexp F)) : List Char :=
  match Sexp.texts printF64 ss with
  | [] => []
  | t :: ts => t ++ ts.flatMap ('\n' :: ·)

end Verif.Parser
