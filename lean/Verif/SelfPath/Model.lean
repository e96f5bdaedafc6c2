import Verif.StrOps.Model

/-!
# Model of the module paths of the self-hosted compiler

`llrl1/path.llrl`, on top of the string operations of the standard library as they are modelled in
the area `StrOps`: a string is the list of its bytes, and the outer result is a failed assertion.
`eq?` of strings is equality of lists of bytes (C37).
-/
namespace Verif.SelfPath
open Verif.StrOps (M)

/-- What a function gives: a failed assertion, or the part of
`error:path-contains-illegal-characters`, or a value. llrl1/path.llrl 7-8. -/
abbrev R (A : Type) := M (Except (List Nat) A)

/-- The string `"/"`. llrl1/path.llrl 44. -/
def slash : List Nat := [47]

/-- The string `"~"`. llrl1/path.llrl 86. -/
def tilde : List Nat := [126]

/-- The string `"prelude"`. llrl1/path.llrl 120. -/
def prelude : List Nat := [112, 114, 101, 108, 117, 100, 101]

/-- `PackageName`. llrl1/path.llrl 62-63. -/
abbrev PackageName := Option (List Nat)

/-- `ModuleName`. llrl1/path.llrl 106-107. -/
abbrev ModuleName := List (List Nat)

/-- `Path`. llrl1/path.llrl 22-23. -/
structure Path where
  package : PackageName
  module : ModuleName
deriving DecidableEq, Repr

/-- `package-name/valid?` and `module-name/valid-part?`, the same text; `and` is lazy.
llrl1/path.llrl 98-103 and 134-139. -/
def valid? (name : List Nat) : M Bool :=
  if name = [] then .ok false
  else match StrOps.find slash name with
    | .error e => .error e
    | .ok (some _) => .ok false
    | .ok none => .ok (name != tilde && name != [46] && name != [46, 46])

/-- `package-name/external`. llrl1/path.llrl 80-83. -/
def external (name : List Nat) : R PackageName :=
  match valid? name with
  | .error e => .error e
  | .ok true => .ok (.ok (some name))
  | .ok false => .ok (.error name)

/-- `package-name/from-string`. llrl1/path.llrl 85-88. -/
def packageFromString (name : List Nat) : R PackageName :=
  if name = tilde then .ok (.ok none) else external name

/-- `it/find?` of the parts that are not valid. llrl1/path.llrl 122. -/
def findInvalid : List (List Nat) → M (Option (List Nat))
  | [] => .ok none
  | part :: parts =>
    match valid? part with
    | .error e => .error e
    | .ok false => .ok (some part)
    | .ok true => findInvalid parts

/-- `module-name/from-parts`. llrl1/path.llrl 118-124. -/
def fromParts (parts : List (List Nat)) : R ModuleName :=
  if parts = [prelude] then .ok (.ok [])
  else match findInvalid parts with
    | .error e => .error e
    | .ok (some part) => .ok (.error part)
    | .ok none => .ok (.ok parts)

/-- `module-name/from-string`. llrl1/path.llrl 126-127. -/
def moduleFromString (name : List Nat) : R ModuleName :=
  match StrOps.split (name.length + 1) slash name with
  | .error e => .error e
  | .ok parts => fromParts parts

/-- To go on unless there is an error, `!` in the code, as at llrl1/path.llrl 47-48. -/
def andThen {A B : Type} (r : R A) (k : A → R B) : R B :=
  match r with
  | .error e => .error e
  | .ok (.error e) => .ok (.error e)
  | .ok (.ok a) => k a

/-- `path/from-string`. llrl1/path.llrl 43-52. -/
def fromString (path : List Nat) : R Path :=
  match StrOps.find slash path with
  | .error e => .error e
  | .ok (some index) =>
    match StrOps.take index path, StrOps.skip (index + slash.length) path with
    | .ok head, .ok tail => andThen (packageFromString head) fun package =>
      andThen (moduleFromString tail) fun module => .ok (.ok ⟨package, module⟩)
    | .error e, _ => .error e
    | _, .error e => .error e
  | .ok none => andThen (packageFromString path) fun package => .ok (.ok ⟨package, []⟩)

/-- What is displayed of a package name. llrl1/path.llrl 65-69. -/
def showPackage : PackageName → List Nat
  | some name => name
  | none => tilde

/-- The loop of what is displayed of `it/format`, and what was displayed before.
llrl1/util.llrl 85-91. -/
def formatLoop (sep : List Nat) : Nat → List Nat → List (List Nat) → List Nat
  | _, buf, [] => buf
  | i, buf, a :: as => formatLoop sep (i + 1) ((if i ≠ 0 then buf ++ sep else buf) ++ a) as

/-- What is displayed of `it/format`. llrl1/util.llrl 79-91. -/
def format (sep : List Nat) (as : List (List Nat)) : List Nat := formatLoop sep 0 [] as

/-- What is displayed of a module name. llrl1/path.llrl 109-113. -/
def showModule (m : ModuleName) : List Nat := if m.isEmpty then prelude else format slash m

/-- What is displayed of a path. llrl1/path.llrl 25-29. -/
def print (p : Path) : List Nat :=
  if p.module.isEmpty then showPackage p.package
  else showPackage p.package ++ slash ++ showModule p.module

/-- `package-name/builtin`, before it is forced. llrl1/path.llrl 74-75. -/
def builtin : R PackageName := external [98, 117, 105, 108, 116, 105, 110]

/-- `package-name/std`, before it is forced. llrl1/path.llrl 77-78. -/
def std : R PackageName := external [115, 116, 100]

end Verif.SelfPath
