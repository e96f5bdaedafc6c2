import Mathlib.Data.List.Basic

/-!
# What iterators yield

An iterator is a state and a function that gives the next element and changes the state.  The
function has fuel, as it may not end; `none` on the outside means that the fuel is used up.
-/

namespace Verif.Iter

/-- A function for the next element. -/
abbrev Next (σ α : Type) := Nat → σ → Option (Option α × σ)

variable {σ α β ρ : Type}

/-- A call of the function in a state ends with a result and a new state. -/
def Gives (next : Next σ α) (s : σ) (r : Option α) (s' : σ) : Prop :=
  ∃ n0, ∀ n, n0 ≤ n → next n s = some (r, s')

/-- There are no more elements, however often it is called. -/
def Ended (next : Next σ α) (s : σ) : Prop :=
  ∃ P : σ → Prop, P s ∧ ∀ s, P s → ∃ s', Gives next s none s' ∧ P s'

/-- Every call ends, however often it is called. -/
def Total (next : Next σ α) (s : σ) : Prop :=
  ∃ P : σ → Prop, P s ∧ ∀ s, P s → ∃ r s', Gives next s r s' ∧ P s'

/-- The elements of an iterator are exactly these; afterwards it has ended. -/
inductive Yields (next : Next σ α) : σ → List α → Prop where
  | nil {s} : Ended next s → Yields next s []
  | cons {s a s' l} : Gives next s (some a) s' → Yields next s' l → Yields next s (a :: l)

/-- These are the first elements of an iterator that may be infinite, and `s'` is the state after
them. -/
inductive Begins (next : Next σ α) : σ → List α → σ → Prop where
  | nil {s} : Begins next s [] s
  | cons {s a s' l s''} : Gives next s (some a) s' → Begins next s' l s'' →
      Begins next s (a :: l) s''

/-- A computation with fuel ends with a result. -/
def Ends (c : Nat → Option ρ) (r : ρ) : Prop := ∃ n0, ∀ n, n0 ≤ n → c n = some r

/-- What `unfold` has to yield. -/
inductive Unfolds (f : β → Option (α × β)) : β → List α → Prop where
  | nil {b} : f b = none → Unfolds f b []
  | cons {b a b' l} : f b = some (a, b') → Unfolds f b' l → Unfolds f b (a :: l)

/-- `ZipEither` (std/it.llrl:80-83). -/
inductive ZipEither (α β : Type) where
  | left (a : α)
  | right (b : β)
  | both (a : α) (b : β)
deriving DecidableEq, Repr

/-- What `zip-either` has to yield. -/
def zipEither : List α → List β → List (ZipEither α β)
  | a :: as, b :: bs => .both a b :: zipEither as bs
  | as, [] => as.map .left
  | [], bs => bs.map .right

/-- A list of numbers is the range from `start` (included) to `stop` (excluded) in steps. -/
def IsRange (start stop step : Int) (l : List Int) : Prop :=
  ∀ (k : Nat) x, l[k]? = some x ↔
    x = start + k * step ∧ ((0 < step ∧ x < stop) ∨ (step < 0 ∧ stop < x))

end Verif.Iter
