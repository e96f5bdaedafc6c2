import Verif.RbMap.Model

/-! # Finite maps over an ordered key type, independently of trees -/
namespace Verif.RbMap.Spec

variable {K V : Type}

/-- A finite map: what is bound to each key. -/
abbrev FMap (K V : Type) := K → Option V

/-- Keys are identified when they compare equal. -/
def FMap.insert (cmp : K → K → Ordering) (k : K) (v : V) (m : FMap K V) : FMap K V := fun x => if cmp x k = .eq then some v else m x
def FMap.remove (cmp : K → K → Ordering) (k : K) (m : FMap K V) : FMap K V := fun x => if cmp x k = .eq then none else m x

/-- Changes of a map. -/
inductive Op (K V : Type)
  | insert (k : K) (v : V)
  | remove (k : K)
  | removeMin
  | removeMax

/-- The map is built from the empty one by these operations (newest first); every intermediate map is a value that stays as it is. -/
inductive Built (cmp : K → K → Ordering) : Tree K V → Prop
  | empty : Built cmp .leaf
  | insert {m} (k : K) (v : V) : Built cmp m → Built cmp (RbMap.insert cmp k v m)
  | remove {m m'} (k : K) : Built cmp m → RbMap.remove cmp k m = some m' → Built cmp m'
  | removeMin {m m'} : Built cmp m → removeMinMap m = some m' → Built cmp m'
  | removeMax {m m'} : Built cmp m → removeMaxMap m = some m' → Built cmp m'

/-- Depth of a tree. -/
def depth : Tree K V → Nat
  | .leaf => 0
  | .node _ _ _ l r => max (depth l) (depth r) + 1

/-- No red node has a red child. -/
def NoRedRed : Tree K V → Prop
  | .leaf => True
  | .node c _ _ l r => NoRedRed l ∧ NoRedRed r ∧
      (c = .red → (∀ k v a b, l ≠ .node .red k v a b) ∧ ∀ k v a b, r ≠ .node .red k v a b)

/-- The numbers of black nodes on the paths from the root to the leaves. -/
def blackPaths : Tree K V → List Nat
  | .leaf => [0]
  | .node c _ _ l r => (blackPaths l ++ blackPaths r).map (· + if c = .black then 1 else 0)

end Verif.RbMap.Spec
