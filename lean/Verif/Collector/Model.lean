import Verif.Path.Model
import Verif.Util.HMap
/-!
# Collecting the sources of a program

llrl0/src/source.rs, llrl0/src/source/collector.rs and the map of llrl0/src/source/set.rs.  The threads of the rayon scope are a list of threads, each a
list of atomic actions still to be done; a step runs the first action of any thread.  Simplifications: source locations are left out; the loader (with
parser and preprocessor) is a function from the path to the declarations of the module, of which only the ones that matter here are told apart.
-/
namespace Verif.Collector

open Verif.Path (Str Path PackageName ModuleName)

/-- A declaration of a module, as seen by `resolve_dependencies`, source.rs:92-95. -/
inductive Item
  | noImplicitStd
  | import (text : Str)
  | other
deriving DecidableEq, Repr

/-- source/error.rs, the variants that matter. -/
inductive Error
  | load
  | parse
  | cannotImportModuleItself
  | invalidImportPath (text : Str)
deriving DecidableEq, Repr

/-- `Source`, source.rs:28-34; `code` is `none` for `SourceRep::Empty`. -/
structure Source where
  path : Path
  implicitStd : Bool
  deps : HMap Str Path
  code : Option (List Item)
  errors : List Error
deriving DecidableEq, Repr

/-- `Source::empty`, source.rs:37-45. -/
def Source.empty (path : Path) : Source := ⟨path, true, [], none, []⟩

/-- `Source::from_error`, source.rs:47-51. -/
def Source.fromError (path : Path) (e : Error) : Source := { Source.empty path with errors := [e] }

/-- `Path::builtin()`, path.rs:31-33. -/
def builtin : Path := ⟨some ['b', 'u', 'i', 'l', 't', 'i', 'n'], []⟩
/-- `Path::std()`, path.rs:35-37. -/
def std : Path := ⟨some ['s', 't', 'd'], []⟩

/-- source.rs:97-101: an import path `~/...` is relative to the package of the importing module. -/
def relative (self imp : Path) : Path :=
  if imp.package.isNone && !self.package.isNone then { imp with package := self.package } else imp

/-- One declaration, source.rs:92-115. -/
def resolveItem (s : Source) : Item → Source
  | .noImplicitStd => { s with implicitStd := false }
  | .import text =>
    match Verif.Path.parse text with
    | some p =>
      if relative s.path p = s.path then { s with errors := s.errors ++ [.cannotImportModuleItself] }
      else { s with deps := HMap.insert s.deps text (relative s.path p) }
    | none => { s with errors := s.errors ++ [.invalidImportPath text] }
  | .other => s

/-- source.rs:117-121. -/
def addBuiltin (s : Source) : Source :=
  if s.path ≠ builtin then { s with deps := HMap.insert s.deps (Verif.Path.print builtin) builtin } else s

/-- source.rs:123-132. -/
def addStd (s : Source) : Source :=
  if s.implicitStd then
    if s.path = std then { s with errors := s.errors ++ [.cannotImportModuleItself] }
    else { s with deps := HMap.insert s.deps (Verif.Path.print std) std }
  else s

/-- `Source::resolve_dependencies`, source.rs:85-133. -/
def resolve (s : Source) : Source :=
  match s.code with
  | none => s
  | some items => addStd (addBuiltin (items.foldl resolveItem s))

/-- What the loader finds at a path: `none` an error of the loader or of the parser, otherwise the declarations after preprocessing with the errors of
the parser (`inner_errors`) and of the preprocessor; loader.rs, source.rs:59-83. -/
abbrev Loader := Path → Option (List Item × List Error)

/-- The source of a path: collector.rs:65-76. -/
def sourceOf (load : Loader) (p : Path) : Source :=
  resolve (match load p with
    | none => Source.fromError p .load
    | some (items, errors) => { Source.empty p with code := some items, errors := errors })

/-- `SourceSet`, set.rs:8-10. -/
abbrev SourceSet := HMap PackageName (HMap ModuleName Source)

/-- `SourceSet::insert`, set.rs:20-26. -/
def SourceSet.insert (m : SourceSet) (s : Source) : SourceSet :=
  HMap.insert m s.path.package (HMap.insert ((HMap.get m s.path.package).getD []) s.path.module s)

/-- `SourceSet::sources`, set.rs:32-34. -/
def SourceSet.sources (m : SourceSet) : List Source := m.flatMap fun e => e.2.map Prod.snd

/-- The atomic actions. -/
inductive Act
  /-- `collect`, the part under the lock, collector.rs:47-55 -/
  | collect (p : Path)
  /-- `scope.spawn`, 58 -/
  | spawn (p : Path)
  /-- loading, 59-76 -/
  | load (p : Path)
  /-- `self.result.lock().unwrap().insert(source)`, 81 -/
  | insert (p : Path)
deriving DecidableEq, Repr

structure State where
  ongoing : List Path
  result : SourceSet
  threads : List (List Act)
  /-- the paths given to the loader so far -/
  loaded : List Path

/-- What an action does: the rest of its thread is `rest`; the new actions of the thread, and the new threads.  `order p` is the order in which the
hash map of dependencies of the source of `p` is iterated, 78-80. -/
def act (load : Loader) (order : Path → List Path) (s : State) (rest : List Act) : Act → List Act × List (List Act) × State
  | .collect p => if p ∈ s.ongoing then (rest, [], s) else (.spawn p :: rest, [], { s with ongoing := p :: s.ongoing })
  | .spawn p => (rest, [[.load p]], s)
  | .load p => ((order p).map .collect ++ .insert p :: rest, [], { s with loaded := s.loaded ++ [p] })
  | .insert p => (rest, [], { s with result := s.result.insert (sourceOf load p) })

/-- A step: some thread runs its first action. -/
inductive Step (load : Loader) (order : Path → List Path) : State → State → Prop
  | run {s : State} (pre post : List (List Act)) (a : Act) (rest : List Act) : s.threads = pre ++ (a :: rest) :: post →
      Step load order s { (act load order s rest a).2.2 with
        threads := pre ++ (act load order s rest a).1 :: post ++ (act load order s rest a).2.1 }

/-- collector.rs:18-31: the first thread collects the inputs. -/
def initial (inputs : List Path) : State := ⟨[], [], [inputs.map .collect], []⟩

/-- The states `collect` can be in after `k` steps. -/
inductive Run (load : Loader) (order : Path → List Path) (inputs : List Path) : Nat → State → Prop
  | nil : Run load order inputs 0 (initial inputs)
  | cons {k s t} : Run load order inputs k s → Step load order s t → Run load order inputs (k + 1) t

/-- The scope ends when every thread is done. -/
def State.done (s : State) : Prop := ∀ t ∈ s.threads, t = []

end Verif.Collector
