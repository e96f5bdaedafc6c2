import Verif.Util.HMap

/-!
# Model of `llrl0/src/module/sema/importer.rs`, `exporter.rs` and of the top-level scope

Names are lists of characters.  A construct (`ast::Construct`) is an opaque value with decidable equality; locations are left out.
A `HashMap` that is iterated is given as the list of its entries in iteration order; theorems hold for every order.
`s.matches::<syntax::..>` has already split the S-expressions into imports and targets.
-/
namespace Verif.Import

abbrev Name := List Char

/-- llrl0/src/module/sema/importer.rs:11-16. -/
inductive Wild where
  | everything
  | startsWith (pre : Name)
  | endsWith (suf : Name)
deriving DecidableEq, Repr

/-- `WILDCARD`, importer.rs:9. -/
def wildcard : Name := ['_']

/-- `str::strip_prefix`. -/
def stripPrefix (p s : Name) : Option Name := if p.isPrefixOf s then some (s.drop p.length) else none
/-- `str::strip_suffix`. -/
def stripSuffix (p s : Name) : Option Name := if p.isSuffixOf s then some (s.take (s.length - p.length)) else none

/-- `WildcardPortTarget::from_pattern`, importer.rs:20-30. -/
def fromPattern (input : Name) : Option Wild :=
  if input = wildcard then some .everything
  else match stripPrefix wildcard input with
    | some pat => some (.endsWith pat)
    | none => match stripSuffix wildcard input with
      | some pat => some (.startsWith pat)
      | none => none

/-- `deconstruct`, importer.rs:32-51. -/
def deconstruct (w : Wild) (input : Name) : Option Name :=
  match w with
  | .everything => some input
  | .startsWith pre => if pre.isPrefixOf input && input.length != pre.length then some (input.drop pre.length) else none
  | .endsWith suf =>
    if suf.isSuffixOf input && input.length != suf.length then some (input.take (input.length - suf.length)) else none

/-- `construct`, importer.rs:53-59. -/
def construct (w : Wild) (input : Name) : Name :=
  match w with
  | .everything => input
  | .startsWith pre => pre ++ input
  | .endsWith suf => input ++ suf

inductive Err where
  | wildcardPortNameMustBeWildcard
  | unresolved (name : Name)
  | multipleDeclarations (name : Name)
  | conflictingExports (name : Name)
deriving DecidableEq, Repr

variable {K : Type} [DecidableEq K]

/-- `TopLevel`, llrl0/src/module/scope.rs:26-29. -/
abbrev Top (K : Type) := HMap Name K

/-- `TopLevel::define`, scope.rs:52-59 (the state left behind by an error is not used: every caller returns the error). -/
def define (top : Top K) (name : Name) (k : K) : Except Err (Top K) :=
  match top.get name with
  | some old => if old ≠ k then .error (.multipleDeclarations name) else .ok (top.insert name k)
  | none => .ok (top.insert name k)

/-- `syntax::PortTarget`: a name or pattern, and what it is renamed to. -/
structure Target where
  sym : Name
  name : Option Name

/-- An `import` form with the exports of the module it names, in iteration order, and the id of that module. -/
structure Import (K : Type) where
  module : Nat
  exports : List (Name × K)
  targets : List Target

/-- The loop over the exports, importer.rs:90-97. -/
def wildLoop (src dest : Wild) : List (Name × K) → Top K → Except Err (Top K)
  | [], top => .ok top
  | (n, k) :: rest, top =>
    match deconstruct src n with
    | some r => do wildLoop src dest rest (← define top (construct dest r) k)
    | none => wildLoop src dest rest top

/-- The body of the loop over targets, importer.rs:76-113. -/
def importTarget (exports : List (Name × K)) (t : Target) (top : Top K) : Except Err (Top K) :=
  match fromPattern t.sym with
  | some src =>
    match t.name with
    | some name => match fromPattern name with
      | some dest => wildLoop src dest exports top
      | none => .error .wildcardPortNameMustBeWildcard
    | none => wildLoop src src exports top
  | none =>
    match HMap.get exports t.sym with
    | some k => define top (t.name.getD t.sym) k
    | none => .error (.unresolved t.sym)

def importTargets (exports : List (Name × K)) : List Target → Top K → Except Err (Top K)
  | [], top => .ok top
  | t :: ts, top => do importTargets exports ts (← importTarget exports t top)

/-- The loop over the imports, importer.rs:70-117, with the `EnsureInitialized` expressions it adds. -/
def importLoop : List (Import K) → Top K × List Nat → Except Err (Top K × List Nat)
  | [], st => .ok st
  | i :: is, (top, inits) => do
    let top' ← importTargets i.exports i.targets top
    importLoop is (top', inits ++ [i.module])

/-- The loop over the exports of `std`, importer.rs:123-127. -/
def stdLoop : List (Name × K) → Top K → Except Err (Top K)
  | [], top => .ok top
  | (n, k) :: rest, top =>
    if (top.get n).isNone then do stdLoop rest (← define top n k) else stdLoop rest top

/-- `importer::run`, importer.rs:62-139, on a new module (its top level is empty, llrl0/src/module.rs:123).
`builtin` is `none` for the builtin module itself; `std` is present when `implicit_std` is set. -/
def run (builtin : Option Nat) (imports : List (Import K)) (std : Option (Nat × List (Name × K))) :
    Except Err (Top K × List Nat) := do
  let (top, inits) ← importLoop imports ([], builtin.toList)
  match std with
  | none => .ok (top, inits)
  | some (id, exports) => do .ok (← stdLoop exports top, inits ++ [id])

/-- The definitions of the module itself, llrl0/src/module.rs:132-227: each calls `top_level.define` with a new construct. -/
def defineAll : List (Name × K) → Top K → Except Err (Top K)
  | [], top => .ok top
  | (n, k) :: rest, top => do defineAll rest (← define top n k)

/-- `Exports::add`, llrl0/src/module/meaning.rs:43-48, with the error its callers make of a conflict. -/
def addExport (ex : Top K) (name reported : Name) (k : K) : Except Err (Top K) :=
  match ex.get name with
  | some old => if old ≠ k then .error (.conflictingExports reported) else .ok (ex.insert name k)
  | none => .ok (ex.insert name k)

/-- exporter.rs:22-28. -/
def exportWildLoop (src dest : Wild) : List (Name × K) → Top K → Except Err (Top K)
  | [], ex => .ok ex
  | (n, k) :: rest, ex =>
    match deconstruct src n with
    | some r => do exportWildLoop src dest rest (← addExport ex (construct dest r) r k)
    | none => exportWildLoop src dest rest ex

/-- exporter.rs:9-45. -/
def exportTarget (top : List (Name × K)) (t : Target) (ex : Top K) : Except Err (Top K) :=
  match fromPattern t.sym with
  | some src =>
    match t.name with
    | some name => match fromPattern name with
      | some dest => exportWildLoop src dest top ex
      | none => .error .wildcardPortNameMustBeWildcard
    | none => exportWildLoop src src top ex
  | none =>
    match HMap.get top t.sym with
    | some k => addExport ex (t.name.getD t.sym) (t.name.getD t.sym) k
    | none => .error (.unresolved t.sym)

/-- `exporter::run`, llrl0/src/module/sema/exporter.rs:5-50. -/
def runExport (top : List (Name × K)) : List Target → Top K → Except Err (Top K)
  | [], ex => .ok ex
  | t :: ts, ex => do runExport top ts (← exportTarget top t ex)

end Verif.Import
