import Verif.Collector.Model
namespace Verif.Collector.Spec

open Verif.Collector Verif.Path

/-- A module loaded without errors declares the path `q` as an import. -/
def Imports (load : Loader) (p q : Path) : Prop :=
  ∃ items errors text imp, load p = some (items, errors) ∧ Item.import text ∈ items ∧ parse text = some imp ∧
    q = (if imp.package = none ∧ p.package ≠ none then ⟨p.package, imp.module⟩ else imp)

/-- A module uses another: it imports it, or it is the builtin module, or the standard library if that is not switched off.  A module that cannot be
loaded uses nothing, and no module uses itself. -/
def Uses (load : Loader) (p q : Path) : Prop :=
  q ≠ p ∧ ∃ items errors, load p = some (items, errors) ∧ (Imports load p q ∨ q = builtin ∨ q = std ∧ Item.noImplicitStd ∉ items)

/-- The inputs and everything they use, directly or indirectly. -/
inductive Reach (load : Loader) (inputs : List Path) : Path → Prop
  | input {p} : p ∈ inputs → Reach load inputs p
  | uses {p q} : Reach load inputs p → Uses load p q → Reach load inputs q

end Verif.Collector.Spec
