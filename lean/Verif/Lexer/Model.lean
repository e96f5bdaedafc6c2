import Verif.Str.Model

/-!
# Model of `llrl0/src/lexer.rs`, `llrl0/src/token.rs`, `llrl0/src/source_loc/location.rs`

Text is `List Char`.  Byte lengths are `Char.utf8Size`.  The Rust code uses `u32` for locations; the model uses `Nat`
(simplification: sources of 4 GiB and more are not modelled).
Parsing of floating-point literals (`str::parse::<f64>`) is a parameter `parseF64` of the model (any partial function into any type `F`).
A panic of the Rust code is `none` in the outer `Option` of the functions below.
-/
namespace Verif.Lexer

/-- `Location`, llrl0/src/source_loc/location.rs:4-11. -/
structure Location where
  offset : Nat
  line : Nat
  character : Nat
deriving DecidableEq, Repr

/-- `Location::new`, llrl0/src/source_loc/location.rs:14-16. -/
def Location.new : Location := ⟨0, 0, 0⟩

/-- `str::len`: length in bytes of the UTF-8 encoding. -/
def byteLen (s : List Char) : Nat := (s.map Char.utf8Size).sum

/-- The pieces of `s` between line feeds: `str::split('\n')`.  Never empty. -/
def splitLines : List Char → List (List Char)
  | [] => [[]]
  | c :: cs =>
    if c = '\n' then [] :: splitLines cs
    else match splitLines cs with
      | [] => [[c]]
      | l :: ls => (c :: l) :: ls

/-- `Location::eat`, llrl0/src/source_loc/location.rs:24-38.  `rsplit('\n')` yields the pieces of `split` in reverse:
its first item is the last line, the number of further items is the number of line feeds. -/
def Location.eat (loc : Location) (substr : List Char) : Location :=
  let offset := loc.offset + byteLen substr
  match (splitLines substr).reverse with
  | [] => loc   -- `lines.next().unwrap()` panics; never happens as `splitLines` is never empty
  | last :: lines =>
    let lastLineLen := byteLen last
    match lines.length with
    | 0 => { loc with offset := offset, character := loc.character + lastLineLen }
    | n => { offset := offset, line := loc.line + n, character := lastLineLen }

/-- `LocationRange`, llrl0/src/source_loc/location_range.rs. -/
structure LocationRange where
  start : Location
  «end» : Location
deriving DecidableEq, Repr

/-- `TokenRep`, llrl0/src/token.rs:19-55 (`Eof` is produced by the parser only and left out). -/
inductive TokenRep (F : Type) where
  | signed (i : Int) | unsigned (n : Nat) | fpNumber (f : F)
  | symbol (s : List Char) | string (s : List Char) | char (c : Char)
  | dot | question | exclamation
  | lParen | rParen | lBrack | rBrack | lBrace | rBrace
  | quote | backquote | backslash | tilde | comma | commaAt | at | true | false
  | whitespaces | lineComment
  | unterminatedString | unterminatedChar | unknownCharacter
deriving DecidableEq, Repr

/-- `Token`, llrl0/src/token.rs:7-10. -/
structure Token (F : Type) where
  range : LocationRange
  rep : TokenRep F
deriving DecidableEq, Repr

/-- `Lexer`, llrl0/src/lexer.rs:11-14. -/
structure Lexer where
  input : List Char
  location : Location

/-- `Lexer::new`, llrl0/src/lexer.rs:17-22. -/
def Lexer.new (input : List Char) : Lexer := ⟨input, Location.new⟩

/-- `Eat`, llrl0/src/lexer.rs:111-115.  `consumed` is the part of the lexer's input before `current`
(the Rust code keeps its byte length `consumed_len`, and splits the input there in `produce_with`). -/
structure Eat where
  consumed : List Char
  current : List Char

/-- `Eat::new`, llrl0/src/lexer.rs:118-125. -/
def Eat.new (l : Lexer) : Eat := ⟨[], l.input⟩

/-- `is_eof`, llrl0/src/lexer.rs:139-141. -/
def Eat.isEof (e : Eat) : Bool := e.current.isEmpty

/-- Drop `len` bytes from the front of a text: `&s[len..]` (with the part dropped).  `none` = panic, as `len` is not on a character boundary. -/
def splitBytes : Nat → List Char → Option (List Char × List Char)
  | 0, s => some ([], s)
  | _ + 1, [] => none
  | n + 1, c :: cs =>
    if c.utf8Size ≤ n + 1 then
      (splitBytes (n + 1 - c.utf8Size) cs).map (fun (a, b) => (c :: a, b))
    else none
termination_by _ s => s.length

/-- `eat`, llrl0/src/lexer.rs:143-151. -/
def Eat.eat (e : Eat) (len : Nat) : Option (Bool × Eat) :=
  if len ≠ 0 ∧ len ≤ byteLen e.current then
    match splitBytes len e.current with
    | none => none
    | some (a, b) => some (Bool.true, ⟨e.consumed ++ a, b⟩)
  else some (Bool.false, e)

/-- `eat_exact`, llrl0/src/lexer.rs:153-159. -/
def Eat.eatExact (e : Eat) (text : List Char) : Option (Bool × Eat) :=
  if text.isPrefixOf e.current then e.eat (byteLen text) else some (Bool.false, e)

/-- `eat_if`, llrl0/src/lexer.rs:161-166. -/
def Eat.eatIf (e : Eat) (f : Char → Bool) : Option (Bool × Eat) :=
  match e.current with
  | [] => some (Bool.false, e)
  | ch :: _ => if f ch then e.eat ch.utf8Size else some (Bool.false, e)

/-- The loop of `eat_while`, llrl0/src/lexer.rs:169-177: the value of `next_start` at its end. -/
def whileLen (f : Char → Bool) : List Char → Nat
  | [] => 0
  | ch :: rest => if f ch then ch.utf8Size + whileLen f rest else 0

/-- `eat_while`, llrl0/src/lexer.rs:168-179. -/
def Eat.eatWhile (e : Eat) (f : Char → Bool) : Option (Bool × Eat) :=
  e.eat (whileLen f e.current)

/-- The whitespace class, llrl0/src/lexer.rs:182. -/
def isSpace (c : Char) : Bool := c = ' ' || c = '\t' || c = '\r' || c = '\n'

/-- The identifier character class, llrl0/src/lexer.rs:197-201. -/
def isIdChar (c : Char) : Bool :=
  c = '!' || c = '$' || c = '%' || c = '&' || c = '*' || c = '+' || c = '-' || c = '.' || c = '/'
  || ('0' ≤ c && c ≤ '9') || c = ':' || c = '<' || c = '=' || c = '>' || c = '?'
  || ('A' ≤ c && c ≤ 'Z') || c = '^' || c = '_' || ('a' ≤ c && c ≤ 'z') || c = '|'

/-- `eat_whitespaces`, llrl0/src/lexer.rs:181-183. -/
def Eat.eatWhitespaces (e : Eat) : Option (Bool × Eat) := e.eatWhile isSpace

/-- `eat_line_comment`, llrl0/src/lexer.rs:185-193. -/
def Eat.eatLineComment (e : Eat) : Option (Bool × Eat) := do
  let (b, e) ← e.eatExact [';']
  if b then
    let (_, e) ← e.eatWhile (fun c => c ≠ '\n')
    let (_, e) ← e.eatExact ['\n']
    pure (Bool.true, e)
  else pure (Bool.false, e)

/-- `eat_id`, llrl0/src/lexer.rs:195-203. -/
def Eat.eatId (e : Eat) : Option (Bool × Eat) := e.eatWhile isIdChar

/-- The `while` loop of `eat_string`, llrl0/src/lexer.rs:207-214, on fuel (out of fuel = `none`, as a panic; shown impossible). -/
def Eat.stringLoop : Nat → Eat → Option (Bool × Eat)
  | 0, _ => none
  | fuel + 1, e => do
    let (_, e) ← e.eatWhile (fun c => !(c = '"' || c = '\\'))
    let (q, e) ← e.eatExact ['"']
    if q then pure (Bool.true, e)
    else
      let (b, e) ← e.eat ('\\'.utf8Size)
      if b then
        let (b, e) ← e.eatIf (fun c => (Str.unescapeChar c).isSome)
        if b then Eat.stringLoop fuel e else pure (Bool.false, e)
      else pure (Bool.false, e)

/-- `eat_string`, llrl0/src/lexer.rs:205-218. -/
def Eat.eatString (e : Eat) : Option (Option Bool × Eat) := do
  let (b, e) ← e.eatExact ['"']
  if b then
    let (t, e) ← Eat.stringLoop (e.current.length + 1) e
    pure (some t, e)
  else pure (none, e)

/-- `eat_char`, llrl0/src/lexer.rs:220-230. -/
def Eat.eatChar (e : Eat) : Option (Option Bool × Eat) := do
  let (b, e) ← e.eatExact ['#', '\\']
  if b then
    let (b, e) ← e.eatIf (fun c => c ≠ '\\')
    if b then pure (some Bool.true, e)
    else
      let (b, e) ← e.eat ('\\'.utf8Size)
      if b then
        let (b, e) ← e.eatIf (fun c => (Str.unescapeChar c).isSome)
        pure (some b, e)
      else pure (some Bool.false, e)
  else pure (none, e)

/-- Decimal digits read as a number; `none` on a non-digit. -/
def digits : Nat → List Char → Option Nat
  | acc, [] => some acc
  | acc, c :: cs => if '0' ≤ c ∧ c ≤ '9' then digits (acc * 10 + (c.toNat - '0'.toNat)) cs else none

/-- Drop one leading `+` (part of Rust's integer parsing). -/
def stripPlus : List Char → List Char
  | '+' :: r => r
  | s => s

/-- Rust's `str::parse::<u64>()` (library function used at llrl0/src/lexer.rs:38): an optional `+`, one or more digits, in range. -/
def parseU64 (s : List Char) : Option Nat :=
  if (stripPlus s).isEmpty then none
  else (digits 0 (stripPlus s)).bind (fun n => if n < 2 ^ 64 then some n else none)

/-- Rust's `str::parse::<i64>()` (library function used at llrl0/src/lexer.rs:40): an optional sign, one or more digits, in range. -/
def parseI64 (s : List Char) : Option Int :=
  match s with
  | '-' :: r =>
    if r.isEmpty then none
    else (digits 0 r).bind (fun n => if n ≤ 2 ^ 63 then some (-(n : Int)) else none)
  | _ =>
    if (stripPlus s).isEmpty then none
    else (digits 0 (stripPlus s)).bind (fun n => if n < 2 ^ 63 then some (n : Int) else none)

variable {F : Type} (parseF64 : List Char → Option F)

/-- The closure classifying identifier text, llrl0/src/lexer.rs:37-53. -/
def idRep (s : List Char) : TokenRep F :=
  match parseU64 s with
  | some n => .unsigned n
  | none =>
    match parseI64 s with
    | some i => .signed i
    | none =>
      match parseF64 s with
      | some f => .fpNumber f
      | none =>
        if s = ['.'] then .dot
        else if s = ['?'] then .question
        else if s = ['!'] then .exclamation
        else .symbol s

/-- The closure for string literals, llrl0/src/lexer.rs:55-63: `unwrap` may panic. -/
def stringRep (terminated : Bool) (s : List Char) : Option (TokenRep F) :=
  if terminated then
    match Str.unescape ((s.drop 1).take (s.length - 1 - 1)) with
    | none => none
    | some body => some (.string body)
  else some .unterminatedString

/-- The closure for character literals, llrl0/src/lexer.rs:65-72: `unwrap` and `expect` may panic. -/
def charRep (terminated : Bool) (s : List Char) : Option (TokenRep F) :=
  if terminated then
    match Str.unescape (s.drop 2) with
    | none => none
    | some [] => none
    | some (c :: _) => some (.char c)
  else some .unterminatedChar

/-- `produce_with`, llrl0/src/lexer.rs:131-137. -/
def produceWith (l : Lexer) (e : Eat) (f : List Char → Option (TokenRep F)) :
    Option (Option (Token F × Lexer)) :=
  let stop := l.location.eat e.consumed
  match f e.consumed with
  | none => none
  | some rep => some (some (⟨⟨l.location, stop⟩, rep⟩, ⟨e.current, stop⟩))

/-- The alternatives that are a fixed text, llrl0/src/lexer.rs:73-102 with :232-290, in the order in which `next` tries them. -/
def punctuation : List (List Char × TokenRep F) :=
  [(['('], .lParen), ([')'], .rParen), (['['], .lBrack), ([']'], .rBrack), (['{'], .lBrace), (['}'], .rBrace),
   (['\''], .quote), (['`'], .backquote), (['\\'], .backslash), (['~'], .tilde),
   ([',', '@'], .commaAt), ([','], .comma), (['@'], .at), (['#', 't'], .true), (['#', 'f'], .false)]

/-- The chain of `else if e.eat_xxx()` for `punctuation`, then the fallback, llrl0/src/lexer.rs:73-107. -/
def nextPunct (l : Lexer) (e : Eat) : List (List Char × TokenRep F) → Option (Option (Token F × Lexer))
  | [] => do
    let (b, e) ← e.eatIf (fun _ => Bool.true)
    if b then produceWith l e (fun _ => some .unknownCharacter)
    else none   -- panic!("no characters consumed")
  | (text, rep) :: more => do
    let (b, e) ← e.eatExact text
    if b then produceWith l e (fun _ => some rep) else nextPunct l e more

/-- `Lexer::next`, llrl0/src/lexer.rs:28-108. Outer `none`: panic.  Inner `none`: end of input. -/
def Lexer.next (l : Lexer) : Option (Option (Token F × Lexer)) :=
  let e := Eat.new l
  if e.isEof then some none
  else do
    let (b, e) ← e.eatWhitespaces
    if b then produceWith l e (fun _ => some .whitespaces)
    else
      let (b, e) ← e.eatLineComment
      if b then produceWith l e (fun _ => some .lineComment)
      else
        let (b, e) ← e.eatId
        if b then produceWith l e (fun s => some (idRep parseF64 s))
        else
          let (t, e) ← e.eatString
          match t with
          | some terminated => produceWith l e (stringRep terminated)
          | none =>
            let (t, e) ← e.eatChar
            match t with
            | some terminated => produceWith l e (charRep terminated)
            | none => nextPunct l e punctuation

/-- `Iterator::collect` over the lexer, with fuel (out of fuel = `none`). -/
def Lexer.collect : Nat → Lexer → Option (List (Token F))
  | 0, _ => none
  | fuel + 1, l =>
    match l.next parseF64 with
    | none => none
    | some none => some []
    | some (some (t, l')) => (Lexer.collect fuel l').map (t :: ·)

/-- `lex`, llrl0/src/lexer.rs:6-8. `none` is a panic or non-termination; `Props.lean` shows it does not happen. -/
def lex (input : List Char) : Option (List (Token F)) :=
  (Lexer.new input).collect parseF64 (input.length + 1)

end Verif.Lexer
