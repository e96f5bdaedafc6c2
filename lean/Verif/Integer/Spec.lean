/-!
# Specification of integer text (C49)
-/
namespace Verif.Integer

/-- An integer type: `I8` … `U64`. -/
structure IntTy where
  signed : Bool
  bits : Nat
deriving DecidableEq

/-- The eight integer types. -/
def IntTy.Valid (ty : IntTy) : Prop := ty.bits = 8 ∨ ty.bits = 16 ∨ ty.bits = 32 ∨ ty.bits = 64

/-- The values of the type. -/
def IntTy.InRange (ty : IntTy) (v : Int) : Prop :=
  if ty.signed then -2 ^ (ty.bits - 1) ≤ v ∧ v < 2 ^ (ty.bits - 1) else 0 ≤ v ∧ v < 2 ^ ty.bits

/-- The value of a digit character: `0-9`, `a-z`, `A-Z`. -/
def digitValue (c : UInt8) : Option Nat :=
  let n := c.toNat
  if 48 ≤ n ∧ n ≤ 57 then some (n - 48) else if 97 ≤ n ∧ n ≤ 122 then some (n - 97 + 10) else if 65 ≤ n ∧ n ≤ 90 then some (n - 65 + 10) else none

/-- The number a digit sequence denotes, most significant digit first, with `a` for what precedes. -/
def denoteFrom (radix : Nat) (a : Nat) : List UInt8 → Option Nat
  | [] => some a
  | c :: s =>
    match digitValue c with
    | some d => if d < radix then denoteFrom radix (a * radix + d) s else none
    | none => none

/-- Text that denotes the value `v` of the type: at least one digit, for signed types optionally after `-`. -/
def Denotes (ty : IntTy) (radix : Nat) (s : List UInt8) (v : Int) : Prop :=
  ty.InRange v ∧
    ((s ≠ [] ∧ ∃ n : Nat, denoteFrom radix 0 s = some n ∧ v = n) ∨
      (ty.signed = true ∧ ∃ t, s = 45 :: t ∧ t ≠ [] ∧ ∃ n : Nat, denoteFrom radix 0 t = some n ∧ v = -(n : Int)))

end Verif.Integer
