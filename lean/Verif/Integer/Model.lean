import Verif.Integer.Spec

/-!
# Model of integer printing and reading: `rt/rt.c` and `std/integer.llrl`

Strings are byte lists.  `Err.undefined` is undefined behaviour in C (a write outside the buffer, a division by zero, signed overflow), `Err.assert` a failed
assertion in llrl, `Err.fuel` a loop that does not end.
-/
namespace Verif.Integer

inductive Err where
  | undefined
  | assert
  | fuel
deriving DecidableEq

/-- `digit_to_char`, rt.c:313-315. -/
def digitToChar (d : Nat) : UInt8 := if d < 10 then UInt8.ofNat (48 + d) else UInt8.ofNat (97 + (d - 10))

/-- The loop of `llrt_u64_to_string`, rt.c:342-346: `buf[63 - len]` is inside the buffer only for `len ≤ 63`.  `acc` is the written part of the buffer. -/
def printLoopU (radix : Nat) : Nat → Nat → Nat → List UInt8 → Except Err (Nat × List UInt8)
  | 0, _, _, _ => .error .fuel
  | n + 1, value, len, acc =>
    if value ≠ 0 then
      if radix = 0 then .error .undefined
      else if len ≤ 63 then printLoopU radix n (value / radix) (len + 1) (digitToChar (value % radix) :: acc)
      else .error .undefined
    else .ok (len, acc)

/-- `llrt_u64_to_string`, rt.c:338-352. -/
def u64ToString (radix value : Nat) : Except Err (List UInt8) :=
  if value = 0 then .ok [48]
  else
    match printLoopU radix 66 value 0 [] with
    | .error e => .error e
    | .ok (_, s) => .ok s

/-- The loop of `llrt_i64_to_string`, rt.c:322-326; C's `/` and `%` truncate. -/
def printLoopI (radix : Nat) (sign : Int) : Nat → Int → Nat → List UInt8 → Except Err (Nat × List UInt8)
  | 0, _, _, _ => .error .fuel
  | n + 1, value, len, acc =>
    if value ≠ 0 then
      if radix = 0 then .error .undefined
      else if len ≤ 63 then printLoopI radix sign n (value.tdiv radix) (len + 1) (digitToChar ((value.tmod radix) * sign).toNat :: acc)
      else .error .undefined
    else .ok (len, acc)

/-- `llrt_i64_to_string`, rt.c:317-336. -/
def i64ToString (radix : Nat) (value : Int) : Except Err (List UInt8) :=
  if value = 0 then .ok [48]
  else
    let sign : Int := if value < 0 then -1 else 1
    match printLoopI radix sign 66 value 0 [] with
    | .error e => .error e
    | .ok (len, s) =>
      if sign < 0 then
        if len ≤ 63 then .ok (45 :: s) else .error .undefined
      else .ok s

/-- `char_to_digit`, rt.c:354-363; bytes above 127 are negative `char`s and give `-1` as well. -/
def charToDigit (c : UInt8) : Int :=
  if 48 ≤ c.toNat ∧ c.toNat ≤ 57 then c.toNat - 48
  else if 97 ≤ c.toNat ∧ c.toNat ≤ 122 then c.toNat - 97 + 10
  else if 65 ≤ c.toNat ∧ c.toNat ≤ 90 then c.toNat - 65 + 10
  else -1

/-- The loop of `llrt_string_to_i64`, rt.c:378-388; `none` is `.success = 0`. -/
def readLoopI (radix : Int) (sign : Int) : Int → List UInt8 → Except Err (Option Int)
  | value, [] => .ok (some value)
  | value, c :: s =>
    let digit := charToDigit c
    if digit < 0 ∨ radix ≤ digit then .ok none
    else if radix = 0 then .error .undefined
    else if sign < 0 then
      if (-2 ^ 63 + digit).tdiv radix > value then .ok none
      else if -2 ^ 63 ≤ value * radix - digit ∧ value * radix - digit < 2 ^ 63 then readLoopI radix sign (value * radix - digit) s
      else .error .undefined
    else
      if (2 ^ 63 - 1 - digit).tdiv radix < value then .ok none
      else if -2 ^ 63 ≤ value * radix + digit ∧ value * radix + digit < 2 ^ 63 then readLoopI radix sign (value * radix + digit) s
      else .error .undefined

/-- `llrt_string_to_i64`, rt.c:365-390. -/
def stringToI64 (radix : Nat) (s : List UInt8) : Except Err (Option Int) :=
  match s with
  | 45 :: c :: t => readLoopI radix (-1) 0 (c :: t)
  | [] => .ok none
  | s => readLoopI radix 1 0 s

/-- The loop of `llrt_string_to_u64`, rt.c:395-402; arithmetic modulo 2^64. -/
def readLoopU (radix : Nat) : Nat → List UInt8 → Except Err (Option Nat)
  | value, [] => .ok (some value)
  | value, c :: s =>
    let digit := charToDigit c
    if digit < 0 ∨ (radix : Int) ≤ digit then .ok none
    else if radix = 0 then .error .undefined
    else if (2 ^ 64 - 1 - digit.toNat) / radix < value then .ok none
    else readLoopU radix ((value * radix + digit.toNat) % 2 ^ 64) s

/-- `llrt_string_to_u64`, rt.c:392-404. -/
def stringToU64 (radix : Nat) (s : List UInt8) : Except Err (Option Nat) := if s.length = 0 then .ok none else readLoopU radix 0 s

/-- `integer/min` and `integer/max`, integer.llrl:123-135. -/
def IntTy.min (ty : IntTy) : Int := if ty.signed then -2 ^ (ty.bits - 1) else 0
def IntTy.max (ty : IntTy) : Int := if ty.signed then 2 ^ (ty.bits - 1) - 1 else 2 ^ ty.bits - 1

/-- `conv` from the 64-bit type of the same signedness: `integer.trunc` or the identity, conv.llrl:31-32, 66-68, 102-104 and 133. -/
def IntTy.conv (ty : IntTy) (v : Int) : Int := if ty.signed then v.bmod (2 ^ ty.bits) else v % 2 ^ ty.bits

/-- `integer/to-string`, integer.llrl:46-48 and 87-89; `conv` to the 64-bit type keeps the value. -/
def toString (ty : IntTy) (radix : Nat) (v : Int) : Except Err (List UInt8) :=
  if 2 ≤ radix ∧ radix ≤ 36 then
    if ty.signed then i64ToString radix v else u64ToString radix v.toNat
  else .error .assert

/-- `integer/from-string?`, integer.llrl:50-57 and 91-98. -/
def fromString? (ty : IntTy) (radix : Nat) (s : List UInt8) : Except Err (Option Int) :=
  match (if ty.signed then stringToI64 radix s else (stringToU64 radix s).map (Option.map Int.ofNat)) with
  | .error e => .error e
  | .ok none => .ok none
  | .ok (some v) => if ty.min ≤ v ∧ v ≤ ty.max then .ok (some (ty.conv v)) else .ok none

end Verif.Integer
