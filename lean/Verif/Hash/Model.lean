import Verif.Hash.Spec
import Verif.XxHash.Model

/-!
# Model of the instances of `Hash` (std/hash.llrl) and of `Eq` they have to agree with

`hash!` is modelled by the calls of `hasher/write!` it makes, in order.  Results are `none` for a value that is not of the type.
Not modelled: `Hash.OrdMap` for a map whose internals are broken (the elements come in order, C32), and functions the user writes as instances.
-/
namespace Verif.Hash

/-- The bytes of a number in memory, least first: `array/unsafe-temporary-bytearray`, std/internal/array-vector.llrl:193-194. -/
def bytes : Nat → Nat → List Nat
  | 0, _ => []
  | w + 1, n => n % 256 :: bytes w (n / 256)

/-- Is it `U8` (or `I8`, which has no `hash-array!` of its own)?  The instances are chosen by type: `int 1` stands for `U8`. -/
def isU8 : Ty → Bool
  | .int 1 => true
  | _ => false

/-- The instances for numbers: hash.llrl:48-54 (`Bool`, `Ordering`), 56-66 (numbers), 68-70 (`Ptr`), std/char.llrl:106-108 (`Char`, as `U32`). -/
def hashNum : Ty → Nat → Option (List (List Nat))
  | .bool, n => some [bytes 1 (if n ≠ 0 then 1 else 0)]
  | .ordering, n => some [bytes 1 n]
  | .char, n => some [bytes 4 n]
  | .int w, n => some [bytes w n]
  | .float d, n => some [bytes (if d then 8 else 4) n]
  | .ptr, n => some [bytes 8 n]
  | _, _ => none

/-- The bytes of an array of `U8`. -/
def u8s : Vs → Option (List Nat)
  | .nil => some []
  | .cons (.num n) vs => do
    let r ← u8s vs
    some (n % 256 :: r)
  | _ => none

mutual

/-- `hash!`: what is written, in order. -/
def hash (D : Decls) : Ty → V → Option (List (List Nat))
  | t, .num n => hashNum t n
  | t, .str bs => match t with
    -- std/internal/string-text.llrl:398-404: the array of bytes, by the `hash-array!` of `U8`
    | .string => some [bs]
    | _ => none
  | t, .con i fs => match t with
    -- std/tuple.llrl:26-27
    | .unit => some []
    -- hash.llrl:72-78
    | .box t => hashFields D [t] fs
    -- hash.llrl:80-87
    | .option t => match i with
      | 0 => some [bytes 1 0]
      | 1 => do some (bytes 1 1 :: (← hashFields D [t] fs))
      | _ => none
    -- hash.llrl:89-97 (`err` is 0, `ok` is 1)
    | .result t e => match i with
      | 0 => do some (bytes 1 0 :: (← hashFields D [e] fs))
      | 1 => do some (bytes 1 1 :: (← hashFields D [t] fs))
      | _ => none
    -- hash.llrl:99-107
    | .either l r => match i with
      | 0 => do some (bytes 1 0 :: (← hashFields D [l] fs))
      | 1 => do some (bytes 1 1 :: (← hashFields D [r] fs))
      | _ => none
    -- tuple.llrl:91-97
    | .tuple ts => hashFields D ts fs
    -- hash.llrl:117-165: the index (as `U16`) unless there is one value constructor only, then the fields
    | .data d => do
      let ts ← (D d)[i]?
      let r ← hashFields D ts fs
      some (if (D d).length = 1 then r else bytes 2 i :: r)
    | _ => none
  | t, .list vs => match t with
    -- hash.llrl:109-115, 60-61 (`U8`: one write), 35-40 (the others: one element after the other)
    | .arr t => if isU8 t then do some [← u8s vs] else hashAll D t vs
    -- std/ord-map.llrl:570-573
    | .ordMap k v => hashAll D (.tuple [k, v]) vs
    | _ => none

/-- `hash-all!` (hash.llrl:42-47) and the fields in a derived instance (hash.llrl:159-165). -/
def hashFields (D : Decls) : List Ty → Vs → Option (List (List Nat))
  | [], .nil => some []
  | t :: ts, .cons v vs => do
    let a ← hash D t v
    let b ← hashFields D ts vs
    some (a ++ b)
  | _, _ => none

/-- `hash-array!`, hash.llrl:35-40. -/
def hashAll (D : Decls) : Ty → Vs → Option (List (List Nat))
  | _, .nil => some []
  | t, .cons v vs => do
    let a ← hash D t v
    let b ← hashAll D t vs
    some (a ++ b)

end

/-- `float.eq`.  LLVM: an ordered comparison (llrl0/src/backend/llvm/codegen.rs:352, llvm0/src/builder.rs:314).  Chibi
(llrl0/src/backend/chibi/codegen.rs:973-989): `comisd` and `sete`; `comisd` sets the zero flag for equal and also for unordered operands. -/
def floatEq (chibi : Bool) (double : Bool) (a b : Nat) : Bool :=
  if isNaN double a || isNaN double b then chibi else (a == b) || (isZero double a && isZero double b)

/-- The instances of `Eq` for numbers: std/eq.llrl:47-48 (`Bool`), std/ordering.llrl:54-55, std/char.llrl:90-91, std/integer.llrl (`integer.eq`),
std/float.llrl:36-37, std/memory.llrl:70-71. -/
def eqNum (chibi : Bool) : Ty → Nat → Nat → Option Bool
  | .bool, a, b | .ordering, a, b | .char, a, b | .int _, a, b | .ptr, a, b => some (a == b)
  | .float d, a, b => some (floatEq chibi d a b)
  | _, _, _ => none

/-- `array/length` and `ord-map/length`. -/
def Vs.length : Vs → Nat
  | .nil => 0
  | .cons _ vs => vs.length + 1

mutual

/-- `eq?`. -/
def eq (D : Decls) (chibi : Bool) : Ty → V → V → Option Bool
  | t, .num a, w => match w with
    | .num b => eqNum chibi t a b
    | _ => none
  | t, .str a, w => match t, w with
    -- string-text.llrl:377-385
    | .string, .str b => some (a == b)
    | _, _ => none
  | t, .con i fs, w => match w with
    | .con j gs => match t with
      -- tuple.llrl:20-21
      | .unit => some true
      -- std/box.llrl:28-29, std/ref.llrl:30-31
      | .box t => eqFields D chibi [t] fs gs
      -- std/option.llrl:98-103
      | .option t => match i, j with
        | 1, 1 => eqFields D chibi [t] fs gs
        | 0, 0 => some true
        | _, _ => some false
      -- std/result.llrl:114-119
      | .result t e => match i, j with
        | 0, 0 => eqFields D chibi [e] fs gs
        | 1, 1 => eqFields D chibi [t] fs gs
        | _, _ => some false
      -- std/either.llrl:6-8 (derived)
      | .either l r => match i, j with
        | 0, 0 => eqFields D chibi [l] fs gs
        | 1, 1 => eqFields D chibi [r] fs gs
        | _, _ => some false
      -- tuple.llrl:73-81
      | .tuple ts => eqFields D chibi ts fs gs
      -- eq.llrl:52-85: a clause for each value constructor, then `[_ #f]`
      | .data d => match (D d)[i]? with
        | some ts => if i = j then eqFields D chibi ts fs gs else some false
        | none => none
      | _ => none
    | _ => none
  | t, .list vs, w => match w with
    | .list ws => match t with
      -- array-vector.llrl:421-436
      | .arr t => if vs.length = ws.length then eqAll D chibi t vs ws else some false
      -- ord-map.llrl:555-560
      | .ordMap k v => if vs.length = ws.length then eqAll D chibi (.tuple [k, v]) vs ws else some false
      | _ => none
    | _ => none

/-- `(and (eq? l r) ...)` over the fields: stops at the first that differ. -/
def eqFields (D : Decls) (chibi : Bool) : List Ty → Vs → Vs → Option Bool
  | [], .nil, .nil => some true
  | t :: ts, .cons v vs, .cons w ws => do
    let b ← eq D chibi t v w
    if b then eqFields D chibi ts vs ws else some false
  | _, _, _ => none

/-- The loop over the elements, up to the first that differ. -/
def eqAll (D : Decls) (chibi : Bool) : Ty → Vs → Vs → Option Bool
  | _, .nil, .nil => some true
  | t, .cons v vs, .cons w ws => do
    let b ← eq D chibi t v w
    if b then eqAll D chibi t vs ws else some false
  | _, _, _ => none

end

/-- `hash`, hash.llrl:16-19, with the hasher of std/xxhash.llrl (the state before does not matter after `hasher/reset!`). -/
def hashWith (seed : XxHash.Word) (st : XxHash.State) (D : Decls) (t : Ty) (v : V) : Option (List XxHash.Word) := do
  let ws ← hash D t v
  XxHash.run seed (.reset :: ws.map (fun b => .write (b.map (BitVec.ofNat 8))) ++ [.finish]) st

end Verif.Hash
