/-!
# What the arithmetic operations mean

On integers, independent of any machine: results are taken modulo `2 ^ n`, a division by zero or whose quotient does not fit has no result.
Floats are what the comparison and conversion instructions see of them: ordered or not, and the integer part.
-/
namespace Verif.Arith

/-- The binary operations on integers and pointers. -/
inductive BinOp
  | shl | ashr | lshr | and | or | xor
  | sadd | ssub | smul | sdiv | srem
  | uadd | usub | umul | udiv | urem
deriving DecidableEq, Repr

/-- The comparisons of integers and pointers. -/
inductive CmpOp
  | ptrEq | ptrLt | ptrLe | ptrGt | ptrGe
  | ieq | slt | sle | sgt | sge | ult | ule | ugt | uge
deriving DecidableEq, Repr

/-- The comparisons of floats. -/
inductive FCmpOp
  | feq | flt | fle | fgt | fge
deriving DecidableEq, Repr

namespace Spec

variable {n : Nat}

/-- The result of an operation on integers of `n` bits.  Shifts have a meaning for amounts below `n` only. -/
def binary (op : BinOp) (a b : BitVec n) : Option (BitVec n) :=
  match op with
  | .shl => if b.toNat < n then some (BitVec.ofNat n (a.toNat * 2 ^ b.toNat)) else none
  | .lshr => if b.toNat < n then some (BitVec.ofNat n (a.toNat / 2 ^ b.toNat)) else none
  | .ashr => if b.toNat < n then some (BitVec.ofInt n (a.toInt / 2 ^ b.toNat)) else none
  | .and => some (BitVec.ofNat n (a.toNat &&& b.toNat))
  | .or => some (BitVec.ofNat n (a.toNat ||| b.toNat))
  | .xor => some (BitVec.ofNat n (a.toNat ^^^ b.toNat))
  | .sadd => some (BitVec.ofInt n (a.toInt + b.toInt))
  | .ssub => some (BitVec.ofInt n (a.toInt - b.toInt))
  | .smul => some (BitVec.ofInt n (a.toInt * b.toInt))
  | .uadd => some (BitVec.ofInt n ((a.toNat : Int) + b.toNat))
  | .usub => some (BitVec.ofInt n ((a.toNat : Int) - b.toNat))
  | .umul => some (BitVec.ofInt n ((a.toNat : Int) * b.toNat))
  | .udiv => if b.toNat = 0 then none else some (BitVec.ofNat n (a.toNat / b.toNat))
  | .urem => if b.toNat = 0 then none else some (BitVec.ofNat n (a.toNat % b.toNat))
  | .sdiv => if b.toInt = 0 ∨ a.toInt.tdiv b.toInt = 2 ^ (n - 1) then none else some (BitVec.ofInt n (a.toInt.tdiv b.toInt))
  | .srem => if b.toInt = 0 ∨ a.toInt.tdiv b.toInt = 2 ^ (n - 1) then none else some (BitVec.ofInt n (a.toInt.tmod b.toInt))

/-- The truth of a comparison; pointers compare as unsigned numbers. -/
def compare (op : CmpOp) (a b : BitVec n) : Bool :=
  match op with
  | .ptrEq | .ieq => decide (a = b)
  | .ptrLt | .ult => decide (a.toNat < b.toNat)
  | .ptrLe | .ule => decide (a.toNat ≤ b.toNat)
  | .ptrGt | .ugt => decide (a.toNat > b.toNat)
  | .ptrGe | .uge => decide (a.toNat ≥ b.toNat)
  | .slt => decide (a.toInt < b.toInt)
  | .sle => decide (a.toInt ≤ b.toInt)
  | .sgt => decide (a.toInt > b.toInt)
  | .sge => decide (a.toInt ≥ b.toInt)

/-- How two floats compare: in an order, or not at all when one is not-a-number. -/
abbrev Relation := Option Ordering

/-- The truth of a comparison of floats (IEEE 754): false when unordered. -/
def fcompare (op : FCmpOp) (r : Relation) : Bool :=
  match op, r with
  | .feq, some .eq => true
  | .flt, some .lt => true
  | .fle, some .lt | .fle, some .eq => true
  | .fgt, some .gt => true
  | .fge, some .gt | .fge, some .eq => true
  | _, _ => false

/-- The number of ones. -/
def ones (x : Nat) : Nat → Nat
  | 0 => 0
  | k + 1 => ones x k + (if x.testBit k then 1 else 0)

/-- Rounding a number to a multiple of `2 ^ k`, to the nearest, ties to the even multiple. -/
def roundTo (k x : Nat) : Nat :=
  let q := x / 2 ^ k
  let r := x % 2 ^ k
  if 2 * r < 2 ^ k ∨ (2 * r = 2 ^ k ∧ q % 2 = 0) then q * 2 ^ k else (q + 1) * 2 ^ k

/-- Rounding a natural number to a float with `p` bits of precision, to nearest even: with `m` bits, to a multiple of `2 ^ (m - p)`. -/
def toFloat (p x : Nat) : Nat := roundTo (x.log2 + 1 - p) x

end Spec
end Verif.Arith
