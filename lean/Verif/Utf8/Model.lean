/-!
# Model of `std/internal/utf-8.llrl` and of the UTF-8 parts of `std/internal/string-text.llrl` and `std/char.llrl`

Values of type `U8` and `U32` are natural numbers; conversions and shifts truncate as the machine does.  The theorems assume that
bytes are below 256.  Strings are lists of bytes; iterators are the lists of what they yield, a failing `assert` is `none`.
-/
namespace Verif.Utf8

/-- `Incomplete`, std/internal/utf-8.llrl:11-17. -/
inductive Incomplete
  | i2a (a : Nat) | i3a (a : Nat) | i3b (a b : Nat) | i4a (a : Nat) | i4b (a b : Nat) | i4c (a b c : Nat)
deriving DecidableEq, Repr

/-- `Complete`, utf-8.llrl:19-23. -/
inductive Complete
  | latin (a : Nat) | c2 (a b : Nat) | c3 (a b c : Nat) | c4 (a b c d : Nat)
deriving DecidableEq, Repr

/-- `Decode`, utf-8.llrl:25-29. -/
inductive Decode
  | invalid | invalidProduce (x : Nat) | continue (i : Incomplete) | produce (x : Nat)
deriving DecidableEq, Repr

/-- `&<<`, utf-8.llrl:116-117: the shift is one of 32-bit numbers. -/
def andShl (x range shift : Nat) : Nat := ((x &&& range) <<< shift) % 2 ^ 32

/-- `>>&|`, utf-8.llrl:119-120: `conv` from 32 to 8 bits truncates. -/
def shrAndOr (x shift range header : Nat) : Nat := (((x >>> shift) % 256) &&& range) ||| header

/-- `decode`, utf-8.llrl:31-44. -/
def decode : Complete → Decode
  | .latin a => if a ≤ 127 then .produce a else .invalid
  | .c2 a b =>
    let x := andShl a 31 6 ||| andShl b 63 0
    if 128 ≤ x ∧ x ≤ 2047 then .produce x else .invalid
  | .c3 a b c =>
    let x := andShl a 15 12 ||| (andShl b 63 6 ||| andShl c 63 0)
    if (2048 ≤ x ∧ x ≤ 65535) ∧ ¬ (55296 ≤ x ∧ x ≤ 57343) then .produce x else .invalid
  | .c4 a b c d =>
    let x := andShl a 7 18 ||| (andShl b 63 12 ||| (andShl c 63 6 ||| andShl d 63 0))
    if 65536 ≤ x ∧ x ≤ 111411 then .produce x else .invalid

/-- `InputClass`, utf-8.llrl:99-105. -/
inductive InputClass | invalid | latin | progress | h2 | h3 | h4
deriving DecidableEq, Repr

/-- `input-class`, utf-8.llrl:107-114. -/
def inputClass (i : Nat) : InputClass :=
  if 128 &&& i = 0 then .latin
  else if 64 &&& i = 0 then .progress
  else if 32 &&& i = 0 then .h2
  else if 16 &&& i = 0 then .h3
  else if 8 &&& i = 0 then .h4
  else .invalid

/-- `decode/mark-invalid`, utf-8.llrl:61-64. -/
def markInvalid : Decode → Decode
  | .produce n => .invalidProduce n
  | d => d

/-- `decode-step`, utf-8.llrl:46-59. -/
def decodeStep (s : Option Incomplete) (n : Nat) : Decode :=
  match s, inputClass n with
  | none, .latin => decode (.latin n)
  | some _, .latin => markInvalid (decode (.latin n))
  | none, .h2 => .continue (.i2a n)
  | some (.i2a a), .progress => decode (.c2 a n)
  | none, .h3 => .continue (.i3a n)
  | some (.i3a a), .progress => .continue (.i3b a n)
  | some (.i3b a b), .progress => decode (.c3 a b n)
  | none, .h4 => .continue (.i4a n)
  | some (.i4a a), .progress => .continue (.i4b a n)
  | some (.i4b a b), .progress => .continue (.i4c a b n)
  | some (.i4c a b c), .progress => decode (.c4 a b c n)
  | _, _ => .invalid

/-- `decode/valid?`, utf-8.llrl:66-70. -/
def isValid : Decode → Bool
  | .invalid => false
  | .invalidProduce _ => false
  | _ => true

/-- `decode/continue?`, utf-8.llrl:72-75. -/
def isContinue : Decode → Option Incomplete
  | .continue i => some i
  | _ => none

/-- `encode`, utf-8.llrl:81-92; `none` is `encode:invalid`. -/
def encode (x : Nat) : Option Complete :=
  if x ≤ 127 then some (.latin (x % 256))
  else if 128 ≤ x ∧ x ≤ 2047 then some (.c2 (shrAndOr x 6 31 192) (shrAndOr x 0 63 128))
  else if (2048 ≤ x ∧ x ≤ 65535) ∧ ¬ (55296 ≤ x ∧ x ≤ 57343) then
    some (.c3 (shrAndOr x 12 15 224) (shrAndOr x 6 63 128) (shrAndOr x 0 63 128))
  else if 65536 ≤ x ∧ x ≤ 111411 then
    some (.c4 (shrAndOr x 18 7 240) (shrAndOr x 12 63 128) (shrAndOr x 6 63 128) (shrAndOr x 0 63 128))
  else none

/-- The bytes written by `display!` of a `Char`, std/char.llrl:58-79; `none` when `encode/force-success` fails (utf-8.llrl:94-97). -/
def displayChar (x : Nat) : Option (List Nat) :=
  match encode x with
  | none => none
  | some (.latin a) => some [a]
  | some (.c2 a b) => some [a, b]
  | some (.c3 a b c) => some [a, b, c]
  | some (.c4 a b c d) => some [a, b, c, d]

/-- `char/utf-8-length`, std/char.llrl:45-50. -/
def utf8Length (x : Nat) : Option Nat :=
  match encode x with
  | none => none
  | some (.latin _) => some 1
  | some (.c2 _ _) => some 2
  | some (.c3 _ _ _) => some 3
  | some (.c4 _ _ _ _) => some 4

/-- `char/from-unicode-scalar`, std/char.llrl:16-19. -/
def fromUnicodeScalar (n : Nat) : Option Nat :=
  if n ≤ 111411 ∧ ¬ (55296 ≤ n ∧ n ≤ 57343) then some n else none

/-- The loop of `string/valid-sequence?`, std/internal/string-text.llrl:51-57. -/
def validLoop : Option Incomplete → List Nat → Bool
  | state, [] => state.isNone
  | state, c :: cs =>
    let r := decodeStep state c
    if !isValid r then false else validLoop (isContinue r) cs

/-- `string/valid-sequence?`, string-text.llrl:51-57. -/
def validSequence (bytes : List Nat) : Bool := validLoop none bytes

/-- `string/chars`, string-text.llrl:104-114, run to its end: `none` when the assertion fails.  A truncated sequence at the end of
the input ends the iteration (`?` on the byte iterator). -/
def charsLoop : Option Incomplete → List Nat → Option (List Nat)
  | _, [] => some []
  | state, c :: cs =>
    match decodeStep state c with
    | .continue i => charsLoop (some i) cs
    | .produce x => (charsLoop none cs).map (x :: ·)
    | _ => none

def chars (s : List Nat) : Option (List Nat) := charsLoop none s

/-- `string/char-indices`, string-text.llrl:116-127: `index` starts from the greatest 64-bit number. -/
def charIndicesLoop (start : Nat) : Nat → Nat → Option Incomplete → List Nat → Option (List (Nat × Nat))
  | _, _, _, [] => some []
  | i, index, state, c :: cs =>
    match decodeStep state c with
    | .continue st => charIndicesLoop start (i + 1) (min i index) (some st) cs
    | .produce x => (charIndicesLoop start (i + 1) start none cs).map ((min i index, x) :: ·)
    | _ => none

def charIndices (s : List Nat) : Option (List (Nat × Nat)) := charIndicesLoop (2 ^ 64 - 1) 0 (2 ^ 64 - 1) none s

/-- `string/char-boundary?`, string-text.llrl:99-102. -/
def charBoundary (index : Nat) (s : List Nat) : Bool :=
  if 0 < index ∧ index < s.length then isValid (decodeStep none (s.getD index 0))
  else decide (0 = index) || decide (s.length = index)

/-- `string/substring`, string-text.llrl:80-84 and 93-94; `none` when an assertion fails. -/
def substring (start «end» : Nat) (s : List Nat) : Option (List Nat) :=
  if (start ≤ «end» ∧ «end» ≤ s.length) ∧ charBoundary start s ∧ charBoundary «end» s then
    some ((s.drop start).take («end» - start))
  else none

/-- `text/from-chars` / `string/from-chars`, string-text.llrl:129-130, 327-330. -/
def fromChars : List Nat → Option (List Nat)
  | [] => some []
  | c :: cs => do
    let b ← displayChar c
    let r ← fromChars cs
    some (b ++ r)

/-- `string/reverse`, string-text.llrl:233-237: reverses the bytes. -/
def reverse (s : List Nat) : List Nat := if s.length ≤ 1 then s else s.reverse

end Verif.Utf8
