/-!
# Model of `llrl0/src/string.rs` (escaping of string literals)

A Rust `&str` is modelled as `List Char` (sequence of Unicode scalar values).
`Cow` (borrowed / owned) is dropped: only the text matters.
-/
namespace Verif.Str

/-- `escape_char`, llrl0/src/string.rs:3-12. -/
def escapeChar (c : Char) : Option (List Char) :=
  match c with
  | '\t' => some ['\\', 't']
  | '\r' => some ['\\', 'r']
  | '\n' => some ['\\', 'n']
  | '"' => some ['\\', '"']
  | '\\' => some ['\\', '\\']
  | _ => none

/-- `unescape_char`, llrl0/src/string.rs:14-23. -/
def unescapeChar (c : Char) : Option Char :=
  match c with
  | 't' => some '\t'
  | 'r' => some '\r'
  | 'n' => some '\n'
  | '"' => some '"'
  | '\\' => some '\\'
  | _ => none

/-- The `while let Some(index) = found` loop of `replace`, llrl0/src/string.rs:61-66.
`input.find(pattern)` splits the input at the first character satisfying `pattern`
(`takeWhile`/`dropWhile` of the negation).  The replacer returns what it appends to the buffer and
the rest of the input.  The loop runs on fuel; running out of fuel is `none` like a failure of the replacer
(`escape`/`unescape` below never run out: see `Props.lean`). -/
def replaceLoop (pattern : Char → Bool)
    (replacer : List Char → Option (List Char × List Char)) :
    Nat → List Char → List Char → Option (List Char)
  | 0, _, _ => none
  | fuel + 1, input, buf =>
    match input.dropWhile (fun c => !pattern c) with
    | [] => some (buf ++ input)
    | found =>
      match replacer found with
      | none => none
      | some (pushed, rest) =>
        replaceLoop pattern replacer fuel rest
          (buf ++ input.takeWhile (fun c => !pattern c) ++ pushed)

/-- `replace`, llrl0/src/string.rs:54-71.  The borrowed case (nothing found) is the first iteration of the loop. -/
def replace (pattern : Char → Bool)
    (replacer : List Char → Option (List Char × List Char)) (input : List Char) :
    Option (List Char) :=
  replaceLoop pattern replacer (input.length + 1) input []

/-- The replacer closure of `escape`, llrl0/src/string.rs:29-34. -/
def escapeReplacer : List Char → Option (List Char × List Char)
  | [] => none
  | c :: rest => (escapeChar c).map (fun ec => (ec, rest))

/-- `escape`, llrl0/src/string.rs:25-37; the final `unwrap` may panic, hence `Option`. -/
def escape (input : List Char) : Option (List Char) :=
  replace (fun c => (escapeChar c).isSome) escapeReplacer input

/-- The replacer closure of `unescape`, llrl0/src/string.rs:43-50. -/
def unescapeReplacer : List Char → Option (List Char × List Char)
  | _ :: c2 :: rest => (unescapeChar c2).map (fun ec => ([ec], rest))
  | _ => none

/-- `unescape`, llrl0/src/string.rs:39-52. -/
def unescape (input : List Char) : Option (List Char) :=
  replace (fun c => c == '\\') unescapeReplacer input

end Verif.Str
