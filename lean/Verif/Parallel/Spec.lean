import Verif.Parallel.Model
namespace Verif.Parallel.Spec

open Verif.Parallel

variable {P : Type}

/-- Module `i` has module `j` among its dependencies. -/
def Dep (ss : List (Source P)) (i j : Nat) : Prop := ∃ a b, ss[i]? = some a ∧ ss[j]? = some b ∧ b.path ∈ a.deps

/-- Every module comes after its dependencies, and paths are different. -/
structure Sorted (ss : List (Source P)) : Prop where
  nodup : (ss.map (·.path)).Nodup
  order : ∀ i j, Dep ss i j → j < i

/-- Directly or indirectly. -/
inductive DependsOn (ss : List (Source P)) : Nat → Nat → Prop
  | one {i j} : Dep ss i j → DependsOn ss i j
  | more {i j k} : Dep ss i j → DependsOn ss j k → DependsOn ss i k

end Verif.Parallel.Spec
