import Verif.RobinHood.Model

/-! # Finite maps, independently of hashing -/
namespace Verif.RobinHood.Spec
open Verif

variable {K V : Type} [DecidableEq K]

/-- The result of an operation on a finite map (a list of pairs with distinct keys) and the map afterwards. -/
def step (a : HMap K V) : Op K V → Out V × HMap K V
  | .get k => (.value (a.get k), a)
  | .has k => (.bool (a.get k).isSome, a)
  | .insert k v => (.value (a.get k), a.insert k v)
  | .remove k => (.value (a.get k), a.remove k)
  | .clear => (.unit, [])
  | .length => (.nat a.length, a)
  | .reserve _ => (.unit, a)

def run : List (Op K V) → HMap K V → List (Out V) × HMap K V
  | [], a => ([], a)
  | op :: ops, a =>
    let (o, a) := step a op
    let (os, a) := run ops a
    (o :: os, a)

/-- Two finite maps are equal: every key has the same value. -/
def Same (a b : HMap K V) : Prop := ∀ k, a.get k = b.get k

end Verif.RobinHood.Spec
