import Verif.Utf8.Spec

/-!
# Specification of string operations, on lists of bytes and without the model

`Text` is the set of well-formed strings: encodings of sequences of characters, where a character is what the library takes for
one (scalar values up to 111411; that it refuses the others is a finding of the area `Utf8`).
-/
namespace Verif.StrOps.Spec
open Verif.Utf8.Spec

/-- Well-formed strings. -/
def Text (s : List Nat) : Prop := ∃ xs, (∀ x ∈ xs, Scalar x ∧ x ≤ 111411) ∧ s = utf8s xs

/-- `part` occurs in `s` at the byte offset `i`. -/
def At (part s : List Nat) (i : Nat) : Prop := ∃ a b, s = a ++ part ++ b ∧ a.length = i

/-- `i` is the first offset at which `part` occurs in `s`. -/
def First (part s : List Nat) (i : Nat) : Prop := At part s i ∧ ∀ j, At part s j → i ≤ j

/-- `parts` is what cutting `s` at the leftmost, non-overlapping occurrences of `sep` leaves. -/
inductive Cut (sep : List Nat) : List Nat → List (List Nat) → Prop
  | last (s) : (∀ i, ¬ At sep s i) → Cut sep s [s]
  | cut (a b parts) : First sep (a ++ sep ++ b) a.length → Cut sep b parts → Cut sep (a ++ sep ++ b) (a :: parts)

/-- The parts with `sep` between them. -/
def glue (sep : List Nat) : List (List Nat) → List Nat
  | [] => []
  | [p] => p
  | p :: q :: rest => p ++ sep ++ glue sep (q :: rest)

/-- `s` repeated `n` times. -/
def times (s : List Nat) : Nat → List Nat
  | 0 => []
  | n + 1 => s ++ times s n

/-- The lines of a text: a line ends at a line feed, and a carriage return right before that belongs to the end of the line.  A
text without anything after its last line feed has no line there. -/
inductive Lines : List Nat → List (List Nat) → Prop
  | none : Lines [] []
  | rest (s) : s ≠ [] → 10 ∉ s → Lines s [s]
  | lf (l b ls) : 10 ∉ l → (∀ a, l ≠ a ++ [13]) → Lines b ls → Lines (l ++ [10] ++ b) (l :: ls)
  | crlf (l b ls) : 10 ∉ l → Lines b ls → Lines (l ++ [13, 10] ++ b) (l :: ls)

end Verif.StrOps.Spec
