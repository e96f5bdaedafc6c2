import Verif.Util.HMap

/-!
# Model of `llrl0/src/module/scope.rs`

`LocatedConstruct` is a location and a construct; the construct is all that matters here except in error
messages, so `C` is the type of constructs (`DecidableEq` as in `old_c.construct != c.construct`).
Errors carry the name.
-/
namespace Verif.Scope

variable {C : Type}

/-- The errors of this file. -/
inductive Err | multipleDeclarations (name : String) | duplicatedIdentifier (name : String) | panic
deriving DecidableEq, Repr

/-- `TopLevel::define`, llrl0/src/module/scope.rs:52-59.  Returns the new map and the error, if any. -/
def topDefine [DecidableEq C] (map : HMap String C) (name : String) (c : C) : HMap String C × Option Err :=
  (map.insert name c,
   match map.get name with
   | some old => if old ≠ c then some (.multipleDeclarations name) else none
   | none => none)

/-- `LocalScope`, llrl0/src/module/scope.rs:62-65, together with the scopes that enclose it.  All scopes share one
mutable borrow of the top-level map; `stashes` lists the stash of each open scope, innermost first. -/
structure State (C : Type) where
  map : HMap String C
  stashes : List (HMap String (Option C))

/-- `enter_scope` / `LocalScope::new`, llrl0/src/module/scope.rs:48-50, 68-73, 92-94. -/
def enter (s : State C) : State C := { s with stashes := [] :: s.stashes }

/-- `LocalScope::define`, llrl0/src/module/scope.rs:96-110, on the innermost scope. The `unwrap`s at 104 may panic. -/
def define (s : State C) (name : String) (c : C) : State C × Option Err :=
  match s.stashes with
  | [] => (s, some .panic)   -- not a `LocalScope`
  | stash :: outer =>
    let removed := s.map.get name          -- self.map.remove(name)
    let map := s.map.remove name
    let stash' := stash.insert name removed
    if (stash.get name).isSome then
      match stash'.get name with
      | some (some _) => (⟨map, stash' :: outer⟩, some (.duplicatedIdentifier name))
      | _ => (⟨map, stash' :: outer⟩, some .panic)
    else (⟨map.insert name c, stash' :: outer⟩, none)

/-- The loop of `Drop for LocalScope`, llrl0/src/module/scope.rs:76-85, over the drained entries in some order. -/
def restore : List (String × Option C) → HMap String C → HMap String C
  | [], map => map
  | (name, some c) :: rest, map => restore rest (map.insert name c)
  | (name, none) :: rest, map => restore rest (map.remove name)

/-- Leaving the innermost scope: `drop`, with the stash drained in the order `drained`. -/
def leave (s : State C) (drained : List (String × Option C)) : State C :=
  match s.stashes with
  | [] => s
  | _ :: outer => ⟨restore drained s.map, outer⟩

/-- `get`, llrl0/src/module/scope.rs:88-90. -/
def get (s : State C) (name : String) : Option C := s.map.get name

end Verif.Scope
