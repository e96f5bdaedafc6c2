import Verif.Util.HMap

/-!
# Model of `llrl0/src/interning.rs`
-/
namespace Verif.Interning

variable {T : Type} [DecidableEq T]

/-- `InternTable`, llrl0/src/interning.rs:53-57; an `Interned` (9-13) is its `index : u32`. -/
structure Table (T : Type) where
  ids : List T
  symbols : HMap T Nat

/-- `InternTable::new`, interning.rs:60-65. -/
def Table.new : Table T := ⟨[], []⟩

/-- `get_interned`, interning.rs:74-81. -/
def getInterned (t : Table T) (id : T) : Option Nat := t.symbols.get id

/-- `intern`, interning.rs:90-107; `as u32` keeps the low 32 bits. -/
def intern (t : Table T) (id : T) : Nat × Table T :=
  match getInterned t id with
  | some s => (s, t)
  | none =>
    let s := t.ids.length % 2 ^ 32
    (s, ⟨t.ids ++ [id], t.symbols.insert id s⟩)

/-- `review`, interning.rs:109-111: an index out of bounds panics (`none`). -/
def review (t : Table T) (s : Nat) : Option T := t.ids[s]?

end Verif.Interning
