/-!
# Specification of UTF-8 (RFC 3629), by arithmetic on scalar values
-/
namespace Verif.Utf8.Spec

/-- Unicode scalar values. -/
def Scalar (x : Nat) : Prop := x < 0xD800 ∨ (0xE000 ≤ x ∧ x ≤ 0x10FFFF)

/-- The UTF-8 encoding of a scalar value. -/
def utf8 (x : Nat) : List Nat :=
  if x < 0x80 then [x]
  else if x < 0x800 then [0xC0 + x / 0x40, 0x80 + x % 0x40]
  else if x < 0x10000 then [0xE0 + x / 0x1000, 0x80 + x / 0x40 % 0x40, 0x80 + x % 0x40]
  else [0xF0 + x / 0x40000, 0x80 + x / 0x1000 % 0x40, 0x80 + x / 0x40 % 0x40, 0x80 + x % 0x40]

/-- The encoding of a sequence of scalar values. -/
def utf8s (xs : List Nat) : List Nat := xs.flatMap utf8

end Verif.Utf8.Spec
