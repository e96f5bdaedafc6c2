/-!
# Specification of finite maps

A finite map over keys with an equality is a function of a key.  Nothing of the model is used.
-/
namespace Verif.Hamt.Spec

variable {K V : Type}

/-- An equality of keys that is an equivalence. -/
structure KeyEq (eq : K → K → Bool) : Prop where
  refl : ∀ a, eq a a = true
  symm : ∀ a b, eq a b = true → eq b a = true
  trans : ∀ a b c, eq a b = true → eq b c = true → eq a c = true

inductive Op (K V : Type) where
  | insert (k : K) (v : V)
  | remove (k : K)

/-- The key of an operation. -/
def Op.key : Op K V → K
  | .insert k _ => k
  | .remove k => k

/-- The map after an operation. -/
def step (eq : K → K → Bool) (m : K → Option V) : Op K V → K → Option V
  | .insert k v => fun x => if eq k x then some v else m x
  | .remove k => fun x => if eq k x then none else m x

/-- The map after operations on the empty map. -/
def run (eq : K → K → Bool) (ops : List (Op K V)) : K → Option V := ops.foldl (step eq) (fun _ => none)

/-- `es` lists the map: each key once, with its value. -/
structure Listing (eq : K → K → Bool) (es : List (K × V)) (m : K → Option V) : Prop where
  distinct : es.Pairwise (fun a b => eq a.1 b.1 = false)
  lists : ∀ k v, m k = some v ↔ ∃ e ∈ es, eq e.1 k = true ∧ e.2 = v

/-- Two maps have the same keys with equal values. -/
def Same (eqV : V → V → Bool) (m m' : K → Option V) : Prop :=
  ∀ k, match m k, m' k with
    | none, none => True
    | some v, some v' => eqV v v' = true
    | _, _ => False

end Verif.Hamt.Spec
