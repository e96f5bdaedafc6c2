/-!
# Specification of mutable ordered maps

A finite map gives for a key the element that is stored for it: the key as it was first inserted, and the value.  Keys that compare equal are the same key.
Nothing of the model is used.
-/
namespace Verif.BTree.Spec

variable {K V : Type}

/-- What is stored for each key. -/
abbrev FMap (K V : Type) := K → Option (K × V)

inductive Op (K V : Type) where
  | get (k : K)
  | getMin
  | getMax
  | insert (k : K) (v : V)
  | remove (k : K)
  | removeMin
  | removeMax
  | clear

/-- What an operation gives. -/
inductive Out (K V : Type) where
  | value (v : Option V)
  | elem (e : Option (K × V))
  | unit
deriving DecidableEq

section
variable (cmp : K → K → Ordering)

/-- The element is in the map and no other is smaller. -/
def Least (m : FMap K V) (e : K × V) : Prop := m e.1 = some e ∧ ∀ k e', m k = some e' → e' = e ∨ cmp e.1 e'.1 = .lt

/-- The element is in the map and no other is greater. -/
def Greatest (m : FMap K V) (e : K × V) : Prop := m e.1 = some e ∧ ∀ k e', m k = some e' → e' = e ∨ cmp e'.1 e.1 = .lt

def Empty (m : FMap K V) : Prop := ∀ k, m k = none

/-- A new key is stored with its value; a key that is there stays as it is and gets the value. -/
def put (k : K) (v : V) (m : FMap K V) : FMap K V := fun x => if cmp x k = .eq then some (((m k).map Prod.fst).getD k, v) else m x

def drop (k : K) (m : FMap K V) : FMap K V := fun x => if cmp x k = .eq then none else m x

/-- `Step m op out m'`: in `m`, the operation gives `out` and leaves `m'`. -/
inductive Step (m : FMap K V) : Op K V → Out K V → FMap K V → Prop
  | get (k) : Step m (.get k) (.value ((m k).map Prod.snd)) m
  | getMin (e) (h : Least cmp m e) : Step m .getMin (.elem (some e)) m
  | getMinEmpty (h : Empty m) : Step m .getMin (.elem none) m
  | getMax (e) (h : Greatest cmp m e) : Step m .getMax (.elem (some e)) m
  | getMaxEmpty (h : Empty m) : Step m .getMax (.elem none) m
  | insert (k v) : Step m (.insert k v) (.value ((m k).map Prod.snd)) (put cmp k v m)
  | remove (k) : Step m (.remove k) (.value ((m k).map Prod.snd)) (drop cmp k m)
  | removeMin (e) (h : Least cmp m e) : Step m .removeMin (.elem (some e)) (drop cmp e.1 m)
  | removeMinEmpty (h : Empty m) : Step m .removeMin (.elem none) m
  | removeMax (e) (h : Greatest cmp m e) : Step m .removeMax (.elem (some e)) (drop cmp e.1 m)
  | removeMaxEmpty (h : Empty m) : Step m .removeMax (.elem none) m
  | clear : Step m .clear .unit (fun _ => none)

/-- The outputs of a sequence of operations, and the map after them. -/
inductive Run : FMap K V → List (Op K V) → List (Out K V) → FMap K V → Prop
  | nil (m) : Run m [] [] m
  | cons (m op out m' ops outs m'') (h : Step cmp m op out m') (hr : Run m' ops outs m'') : Run m (op :: ops) (out :: outs) m''

/-- The elements of the map, in the order of the keys, each once. -/
structure Listing (es : List (K × V)) (m : FMap K V) : Prop where
  sorted : es.Pairwise (fun a b => cmp a.1 b.1 = .lt)
  mem : ∀ k e, m k = some e ↔ e ∈ es ∧ cmp k e.1 = .eq

end

/-- The order of words over an ordered alphabet. -/
def lex (cmpE : K × V → K × V → Ordering) : List (K × V) → List (K × V) → Ordering
  | [], [] => .eq
  | [], _ :: _ => .lt
  | _ :: _, [] => .gt
  | a :: as, b :: bs => (cmpE a b).then (lex cmpE as bs)

end Verif.BTree.Spec
