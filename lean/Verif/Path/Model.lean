/-!
# Model of `llrl0/src/path.rs` and of the file name computed in `llrl0/src/source/loader.rs`

Strings are lists of characters.  Errors carry no text.
-/
namespace Verif.Path

abbrev Str := List Char

/-- `str::split('/')` of the Rust standard library: always at least one part. -/
def split : Str → List Str
  | [] => [[]]
  | c :: rest =>
    if c = '/' then [] :: split rest
    else match split rest with
      | part :: parts => (c :: part) :: parts
      | [] => [[c]]

/-- `str::find(c)` and the slices before and after the first `c`. -/
def cutAt (c : Char) : Str → Option (Str × Str)
  | [] => none
  | d :: rest => if d = c then some ([], rest) else (cutAt c rest).map fun (a, b) => (d :: a, b)

/-- `parts.iter().format("/")` of itertools. -/
def join : List Str → Str
  | [] => []
  | [p] => p
  | p :: q :: rest => p ++ '/' :: join (q :: rest)

/-- `PackageName`, llrl0/src/path.rs:76. -/
abbrev PackageName := Option Str
/-- `ModuleName`, llrl0/src/path.rs:139. -/
abbrev ModuleName := List Str

/-- `Path`, llrl0/src/path.rs:18-21. -/
structure Path where
  package : PackageName
  module : ModuleName
deriving DecidableEq, Repr

def tilde : Str := ['~']
def prelude : Str := ['p', 'r', 'e', 'l', 'u', 'd', 'e']

/-- `is_valid_external_name`, path.rs:111-113, and `is_valid_part`, path.rs:168-170 (the same text). -/
def validPart (s : Str) : Bool :=
  !s.isEmpty && !s.contains '/' && s != tilde && s != ['.'] && s != ['.', '.']

/-- `PackageName::external`, path.rs:88-94. -/
def external (name : Str) : Option PackageName := if validPart name then some (some name) else none

/-- `PackageName::from_str`, path.rs:119-125. -/
def parsePackage (name : Str) : Option PackageName := if name = tilde then some none else external name

/-- `PackageName::fmt`, path.rs:126-131. -/
def showPackage : PackageName → Str
  | none => tilde
  | some name => name

/-- `ModuleName::from_parts`, path.rs:145-154. -/
def fromParts (parts : List Str) : Option ModuleName :=
  if parts.length = 1 ∧ parts.head? = some prelude then some []
  else if parts.all validPart then some parts else none

/-- `ModuleName::from_str`, path.rs:176-178. -/
def parseModule (name : Str) : Option ModuleName := fromParts (split name)

/-- `ModuleName::fmt`, path.rs:179-184. -/
def showModule : ModuleName → Str
  | [] => prelude
  | parts => join parts

/-- `Path::from_str`, path.rs:44-56; `find('/')` and the slices around it. -/
def parse (path : Str) : Option Path :=
  match cutAt '/' path with
  | some (head, tail) => do some ⟨← parsePackage head, ← parseModule tail⟩
  | none => do some ⟨← parsePackage path, []⟩

/-- `Path::fmt`, path.rs:60-66. -/
def print (p : Path) : Str :=
  if p.module.isEmpty then showPackage p.package else showPackage p.package ++ '/' :: showModule p.module

/-- `file_name` up to its last dot: `Path::file_stem` of the Rust standard library for names other than `..`
(a name whose only dot is its first character has no extension). -/
def stem (name : Str) : Str :=
  match cutAt '.' name.reverse with
  | none => name
  | some (_, before) => if before.isEmpty then name else before.reverse

def extension : Str := ['.', 'l', 'l', 'r', 'l']

/-- Path components below the package directory of the file read for a module, llrl0/src/source/loader.rs:79-91:
`push` for every part, then `set_extension("llrl")` on the last one. -/
def fileOf (m : ModuleName) : List Str :=
  let parts := if m.isEmpty then [prelude] else m
  parts.dropLast ++ [stem (parts.getLast?.getD []) ++ extension]

end Verif.Path
