import Verif.Utf8.Model

/-!
# Model of the string operations of `std/internal/string-text.llrl`

A string is the list of its bytes, a text (the growing buffer) too: that a vector of bytes behaves like a list is proved in the area
`Vector`.  Lengths are natural numbers; the theorems assume that they are below `2^64`, and then none of the additions and
subtractions below wraps.  An iterator is the list of what it yields when it is run to its end.

A loop without an evident end runs on fuel, and running out of fuel is an outcome of its own, to tell a loop that does not end from
a failing assertion.
-/
namespace Verif.StrOps
open Verif.Utf8

inductive Err
  | assertion | fuel
deriving DecidableEq, Repr

abbrev M := Except Err

def lift {α} : Option α → M α
  | some a => .ok a
  | none => .error .assertion

/-- `string/unsafe-substring`, string-text.llrl:93-94. -/
def cut (start «end» : Nat) (s : List Nat) : List Nat := (s.drop start).take («end» - start)

/-- `string/take`, string-text.llrl:86-87. -/
def take (n : Nat) (s : List Nat) : M (List Nat) := lift (substring 0 (min n s.length) s)

/-- `string/skip`, string-text.llrl:89-90. -/
def skip (n : Nat) (s : List Nat) : M (List Nat) := lift (substring (min n s.length) s.length s)

/-- `it/all?` of `it/zip*` of `eq?`, std/it.llrl:63-67 and 189-192: the iteration ends with the shorter of the two. -/
def allZip : List Nat → List Nat → Bool
  | a :: as, b :: bs => if !(a == b) then false else allZip as bs
  | _, _ => true

/-- `string/starts-with?`, string-text.llrl:134-138. -/
def startsWith (pre s : List Nat) : Bool :=
  if pre.length = 0 then true else decide (pre.length ≤ s.length) && allZip pre s

/-- `string/ends-with?`, string-text.llrl:140-145. -/
def endsWith (suffix s : List Nat) : Bool :=
  if suffix.length = 0 then true else decide (suffix.length ≤ s.length) && allZip suffix.reverse s.reverse

/-- The `for` loop of `string/find?`, string-text.llrl:156-158, over `string/char-indices`, string-text.llrl:116-127, which is
asked for one more character at a time: `i` is the index of the next byte, `index` the least index of the bytes taken for the
character being decoded. -/
def findLoop (part s : List Nat) : Nat → Nat → Option Incomplete → List Nat → M (Option Nat)
  | _, _, _, [] => .ok none
  | i, index, state, c :: cs =>
    match decodeStep state c with
    | .continue st => findLoop part s (i + 1) (min i index) (some st) cs
    | .produce _ =>
      let k := min i index
      if s.length - k < part.length then .ok none
      else if startsWith part (cut k s.length s) then .ok (some k)
      else findLoop part s (i + 1) (2 ^ 64 - 1) none cs
    | _ => .error .assertion

/-- `string/find?`, string-text.llrl:154-159. -/
def find (part s : List Nat) : M (Option Nat) :=
  if part.length = 0 then .ok (some 0) else findLoop part s 0 (2 ^ 64 - 1) none s

/-- `string/contains?`, string-text.llrl:147-152: the same loop, with `#t` for an index and `#f` for none. -/
def contains (part s : List Nat) : M Bool :=
  if part.length = 0 then .ok true else do
    match ← findLoop part s 0 (2 ^ 64 - 1) none s with
    | some _ => .ok true
    | none => .ok false

/-- The loop of `string/replace` for an empty `from`, string-text.llrl:164-166. -/
def replaceEmpty (to : List Nat) : List Nat → List Nat → M (List Nat)
  | buf, [] => .ok buf
  | buf, c :: cs => do
    let b ← lift (displayChar c)
    replaceEmpty to (buf ++ b ++ to) cs

/-- The `while-match1` loop of `string/replace`, string-text.llrl:174-178. -/
def replaceLoop («from» to : List Nat) : Nat → List Nat → List Nat → M (List Nat)
  | 0, _, _ => .error .fuel
  | fuel + 1, buf, s => do
    match ← find «from» s with
    | some i => replaceLoop «from» to fuel (buf ++ cut 0 i s ++ to) (cut (i + «from».length) s.length s)
    | none => .ok (buf ++ s)

/-- `string/replace`, string-text.llrl:161-181. -/
def replace (fuel : Nat) («from» to s : List Nat) : M (List Nat) :=
  if «from».length = 0 then do
    let cs ← lift (chars s)
    replaceEmpty to to cs
  else do
    match ← find «from» s with
    | some i => replaceLoop «from» to fuel (cut 0 i s ++ to) (cut (i + «from».length) s.length s)
    | none => .ok s

/-- `string/remove-start`, string-text.llrl:183-188. -/
def removeStart (pre : List Nat) : Nat → List Nat → M (List Nat)
  | 0, _ => .error .fuel
  | fuel + 1, s =>
    if startsWith pre s then do
      let r ← skip pre.length s
      removeStart pre fuel r
    else .ok s

/-- `string/remove-end`, string-text.llrl:190-195. -/
def removeEnd (suffix : List Nat) : Nat → List Nat → M (List Nat)
  | 0, _ => .error .fuel
  | fuel + 1, s =>
    if endsWith suffix s then do
      let r ← take (s.length - suffix.length) s
      removeEnd suffix fuel r
    else .ok s

/-- `string/from-chars` of each character, string-text.llrl:199. -/
def singles : List Nat → M (List (List Nat))
  | [] => .ok []
  | c :: cs => do
    let b ← lift (fromChars [c])
    let r ← singles cs
    .ok (b :: r)

/-- The iterator of `string/split`, string-text.llrl:200-212, run to its end. -/
def splitLoop (sep : List Nat) : Nat → List Nat → M (List (List Nat))
  | 0, _ => .error .fuel
  | fuel + 1, s => do
    match ← find sep s with
    | some i => do
      let r ← splitLoop sep fuel (cut (i + sep.length) s.length s)
      .ok (cut 0 i s :: r)
    | none => .ok [s]

/-- `string/split`, string-text.llrl:197-212. -/
def split (fuel : Nat) (sep s : List Nat) : M (List (List Nat)) :=
  if sep.length = 0 then do
    let cs ← lift (chars s)
    singles cs
  else splitLoop sep fuel s

/-- The iterator of `string/split-lines`, string-text.llrl:216-231, run to its end. -/
def linesLoop : Nat → List Nat → M (List (List Nat))
  | 0, _ => .error .fuel
  | fuel + 1, s => do
    match ← find [10] s with
    | some i => do
      let a := if 1 ≤ i ∧ s.getD (i - 1) 0 = 13 then i - 1 else i
      let r := cut (i + 1) s.length s
      if r.length = 0 then .ok [cut 0 a s] else do
        let rest ← linesLoop fuel r
        .ok (cut 0 a s :: rest)
    | none => .ok [s]

/-- `string/split-lines`, string-text.llrl:214-231. -/
def splitLines (fuel : Nat) (s : List Nat) : M (List (List Nat)) :=
  if s.length = 0 then .ok [] else linesLoop fuel s

/-- The loop of `string/join`, string-text.llrl:241-243, with `it/with-index`. -/
def joinLoop (sep : List Nat) : Nat → List Nat → List (List Nat) → List Nat
  | _, buf, [] => buf
  | i, buf, s :: rest => joinLoop sep (i + 1) ((if 0 < i then buf ++ sep else buf) ++ s) rest

/-- `string/join`, string-text.llrl:239-244. -/
def join (sep : List Nat) (it : List (List Nat)) : List Nat := joinLoop sep 0 [] it

/-- `text/consume!`, string-text.llrl:332-334: what is taken and what stays in the text. -/
def consume (n : Nat) (t : List Nat) : M (List Nat × List Nat) :=
  if charBoundary n t then .ok (t.take n, t.drop n) else .error .assertion

end Verif.StrOps
