import Verif.Utf8.Spec
import Verif.Path.Model

/-!
# Strings of the two compilers, for C86

A string of llrl0 is a list of characters, and one of the self-hosted compiler the list of its bytes.
-/
namespace Verif.SelfPath

/-- The bytes of a string. -/
def enc (s : List Char) : List Nat := Utf8.Spec.utf8s (s.map Char.toNat)

/-- All characters of the string are known to the standard library, which takes those above 111411
for invalid (C38). -/
def Known (s : List Char) : Prop := ∀ c ∈ s, c.toNat ≤ 111411

/-- The length of the string in bytes is a number of 64 bits. -/
def Fits (s : List Char) : Prop := (enc s).length < 2 ^ 64

end Verif.SelfPath
