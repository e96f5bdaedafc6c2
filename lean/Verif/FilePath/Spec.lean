/-!
# What a path denotes

A path is a list of bytes; 47 is the slash and 46 the dot.  A location is the list of names from the root down.  The meaning is
the lexical one (`..` leaves the directory it stands in; there are no links).
-/
namespace Verif.FilePath.Spec

/-- What lies before, between and after the slashes. -/
def pieces : List Nat → List (List Nat)
  | [] => [[]]
  | c :: cs =>
    if c = 47 then [] :: pieces cs
    else match pieces cs with
      | p :: ps => (c :: p) :: ps
      | [] => [[c]]

/-- The names in a path: repeated slashes are like one. -/
def names (p : List Nat) : List (List Nat) := (pieces p).filter (fun n => !n.isEmpty)

/-- One step from a location. -/
def step (loc : List (List Nat)) (name : List Nat) : List (List Nat) :=
  if name = [46] then loc else if name = [46, 46] then loc.dropLast else loc ++ [name]

def walk (loc : List (List Nat)) (ns : List (List Nat)) : List (List Nat) := ns.foldl step loc

def absolute (p : List Nat) : Prop := p.head? = some 47

instance (p : List Nat) : Decidable (absolute p) := inferInstanceAs (Decidable (_ = _))

/-- The location that a path denotes for a process working in `here`. -/
def denotes (here : List (List Nat)) (p : List Nat) : List (List Nat) :=
  walk (if absolute p then [] else here) (names p)

/-- The path of a location, from the root: the root itself is a single slash. -/
def write : List (List Nat) → List Nat
  | [] => [47]
  | [n] => 47 :: n
  | n :: m :: rest => 47 :: n ++ write (m :: rest)

/-- A base name `stem.ext`. -/
def Ext (base ext : List Nat) : Prop := ∃ stem, stem ≠ [] ∧ base = stem ++ [46] ++ ext ∧ 46 ∉ ext

end Verif.FilePath.Spec
