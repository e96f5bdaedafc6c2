/-!
# Types, values and float zeros, for the property that equal keys hash alike

Values are first-order: a number (its bits), the bytes of a string, a value constructor with its fields, or a sequence.  What a value of a type
looks like is `Typed`.
-/
namespace Verif.Hash

/-- The types with instances of `Eq` and `Hash` in the standard library.  `data d` is a type (with its arguments filled in) for which both
instances are derived; `string` is `String` or `Text`, `box` is `Box` or `Ref`, `arr` is `Array` or `Vector`; an ordered set is an ordered map
with values `unit`. -/
inductive Ty
  | never | unit | bool | ordering | char | string
  | int (bytes : Nat)
  | float (double : Bool)
  | ptr
  | box (t : Ty)
  | option (t : Ty)
  | result (t e : Ty)
  | either (l r : Ty)
  | arr (t : Ty)
  | tuple (ts : List Ty)
  | ordMap (k v : Ty)
  | data (d : Nat)

/-- Declarations of the data types: for each, the fields of its value constructors. -/
abbrev Decls := Nat → List (List Ty)

mutual

/-- Values.  `list` is the elements of an array, a vector, an ordered map (each a `con 0` of a key and a value). -/
inductive V
  | num (bits : Nat)
  | str (bytes : List Nat)
  | con (index : Nat) (fields : Vs)
  | list (elems : Vs)

/-- Sequences of values. -/
inductive Vs
  | nil
  | cons (v : V) (vs : Vs)

end

/-- The bits of a float of the given width that are not the sign. -/
def magnitude (double : Bool) (bits : Nat) : Nat := if double then bits % 2 ^ 63 else bits % 2 ^ 31

/-- The magnitude of infinity. -/
def infinity (double : Bool) : Nat := if double then 0x7ff0000000000000 else 0x7f800000

/-- Not a number: above infinity. -/
def isNaN (double : Bool) (bits : Nat) : Bool := decide (infinity double < magnitude double bits)

/-- The two zeros. -/
def isZero (double : Bool) (bits : Nat) : Bool := magnitude double bits == 0

mutual

/-- The values of a type. -/
def Typed (D : Decls) : Ty → V → Prop
  | .unit, .con i .nil => i = 0
  | .bool, .num n => n < 2
  | .ordering, .num n => n < 3
  | .char, .num n => n < 0x110000
  | .string, .str bs => ∀ b ∈ bs, b < 256
  | .int w, .num n => n < 256 ^ w
  | .float d, .num n => n < if d then 2 ^ 64 else 2 ^ 32
  | .ptr, .num n => n < 2 ^ 64
  | .box t, .con 0 fs => TypedFields D [t] fs
  | .option _, .con 0 fs => TypedFields D [] fs
  | .option t, .con 1 fs => TypedFields D [t] fs
  | .result _ e, .con 0 fs => TypedFields D [e] fs
  | .result t _, .con 1 fs => TypedFields D [t] fs
  | .either l _, .con 0 fs => TypedFields D [l] fs
  | .either _ r, .con 1 fs => TypedFields D [r] fs
  | .arr t, .list vs => TypedAll D t vs
  | .tuple ts, .con 0 fs => TypedFields D ts fs
  | .ordMap k v, .list vs => TypedAll D (.tuple [k, v]) vs
  | .data d, .con i fs => ∃ ts, (D d)[i]? = some ts ∧ TypedFields D ts fs
  | _, _ => False

/-- Fields of the given types. -/
def TypedFields (D : Decls) : List Ty → Vs → Prop
  | [], .nil => True
  | t :: ts, .cons v vs => Typed D t v ∧ TypedFields D ts vs
  | _, _ => False

/-- Elements of one type. -/
def TypedAll (D : Decls) : Ty → Vs → Prop
  | _, .nil => True
  | t, .cons v vs => Typed D t v ∧ TypedAll D t vs

end

/-- The types of the fields of a value constructor. -/
def fieldTypes (D : Decls) : Ty → Nat → List Ty
  | .box t, _ => [t]
  | .option _, 0 => []
  | .option t, _ => [t]
  | .result _ e, 0 => [e]
  | .result t _, _ => [t]
  | .either l _, 0 => [l]
  | .either _ r, _ => [r]
  | .tuple ts, _ => ts
  | .data d, i => (D d)[i]?.getD []
  | _, _ => []

/-- The type of the elements of a sequence. -/
def elemType : Ty → Ty
  | .arr t => t
  | .ordMap k v => .tuple [k, v]
  | t => t

/-- A number that is neither the negative zero nor not-a-number, if the type is a float. -/
def RegularNum : Ty → Nat → Prop
  | .float d, n => isNaN d n = false ∧ (isZero d n = true → n = 0)
  | _, _ => True

mutual

/-- No float inside the value is the negative zero or not-a-number. -/
def Regular (D : Decls) : Ty → V → Prop
  | t, .num n => RegularNum t n
  | _, .str _ => True
  | t, .con i fs => RegularFields D (fieldTypes D t i) fs
  | t, .list vs => RegularAll D (elemType t) vs

/-- The same of all fields. -/
def RegularFields (D : Decls) : List Ty → Vs → Prop
  | t :: ts, .cons v vs => Regular D t v ∧ RegularFields D ts vs
  | _, _ => True

/-- The same of all elements. -/
def RegularAll (D : Decls) : Ty → Vs → Prop
  | _, .nil => True
  | t, .cons v vs => Regular D t v ∧ RegularAll D t vs

end

mutual

/-- No float in the type itself (through the declared types, see `Decls.NoFloat`). -/
def Ty.NoFloat : Ty → Prop
  | .float _ => False
  | .box t | .option t | .arr t => t.NoFloat
  | .result t e => t.NoFloat ∧ e.NoFloat
  | .either l r => l.NoFloat ∧ r.NoFloat
  | .ordMap k v => k.NoFloat ∧ v.NoFloat
  | .tuple ts => NoFloats ts
  | _ => True

/-- No float in any of the types. -/
def NoFloats : List Ty → Prop
  | [] => True
  | t :: ts => t.NoFloat ∧ NoFloats ts

end

/-- No float in any field of the declared types. -/
def Decls.NoFloat (D : Decls) : Prop := ∀ d ts, ts ∈ D d → NoFloats ts

end Verif.Hash
