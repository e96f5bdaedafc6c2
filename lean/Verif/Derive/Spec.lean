/-!
# Specification of derived orderings (C50)

Values, their types and the order a reader of a data declaration expects: constructors in declaration order, then fields lexicographically.
-/
namespace Verif.Derive

/-- A value: of a base type or made by a constructor. -/
inductive Val (A : Type) where
  | base (a : A)
  | con (name : String) (fields : List (Val A))

/-- The type of a field: a base type or a declared data type (its instance with type arguments is one of the `ι`). -/
inductive FTy (β ι : Type) where
  | base (b : β)
  | data (k : ι)

/-- A constructor in a declaration: `name` (`none`) or `(name field ...)`. -/
structure ConDecl (β ι : Type) where
  name : String
  fields : Option (List (FTy β ι))

/-- The field types of a constructor; a plain name has no fields. -/
def ConDecl.ftys {β ι : Type} (c : ConDecl β ι) : List (FTy β ι) := c.fields.getD []

/-- The declarations of all data types; they may refer to each other. -/
abbrev Decls (β ι : Type) := ι → List (ConDecl β ι)

variable {A β ι : Type}

mutual
/-- The values of a type; `dom b` are the values of base type `b`. -/
inductive Typed (D : Decls β ι) (dom : β → A → Prop) : FTy β ι → Val A → Prop
  | base {b a} : dom b a → Typed D dom (.base b) (.base a)
  | con {k fs} {c : ConDecl β ι} : c ∈ D k → TypedAll D dom c.ftys fs → Typed D dom (.data k) (.con c.name fs)
inductive TypedAll (D : Decls β ι) (dom : β → A → Prop) : List (FTy β ι) → List (Val A) → Prop
  | nil : TypedAll D dom [] []
  | cons {t ts v vs} : Typed D dom t v → TypedAll D dom ts vs → TypedAll D dom (t :: ts) (v :: vs)
end

/-- The position of a constructor in a declaration. -/
def conIndex (cs : List (ConDecl β ι)) (name : String) : Nat := cs.findIdx (fun c => c.name == name)

/-- The field types of a constructor in a declaration. -/
def conTypes (cs : List (ConDecl β ι)) (name : String) : List (FTy β ι) := ((cs.find? (fun c => c.name == name)).map ConDecl.ftys).getD []

mutual
/-- The expected order: the order of the base type, or by position of the constructor and then by the fields from left to right. -/
def order (D : Decls β ι) (cmp : β → A → A → Ordering) : FTy β ι → Val A → Val A → Ordering
  | .base b, .base x, .base y => cmp b x y
  | .data k, .con c xs, .con d ys => (compare (conIndex (D k) c) (conIndex (D k) d)).then (lex D cmp (conTypes (D k) c) xs ys)
  | _, _, _ => .eq
def lex (D : Decls β ι) (cmp : β → A → A → Ordering) : List (FTy β ι) → List (Val A) → List (Val A) → Ordering
  | t :: ts, x :: xs, y :: ys => (order D cmp t x y).then (lex D cmp ts xs ys)
  | _, _, _ => .eq
end

/-- A three-way comparison is a total preorder on `P`. -/
structure IsOrder {X : Type} (P : X → Prop) (cmp : X → X → Ordering) : Prop where
  refl : ∀ a, P a → cmp a a = .eq
  swap : ∀ a b, P a → P b → cmp b a = (cmp a b).swap
  trans : ∀ a b c, P a → P b → P c → cmp a b ≠ .gt → cmp b c ≠ .gt → cmp a c ≠ .gt

/-- Constructor names are distinct in each declaration. -/
def Distinct (D : Decls β ι) : Prop := ∀ k, ((D k).map ConDecl.name).Nodup

end Verif.Derive
