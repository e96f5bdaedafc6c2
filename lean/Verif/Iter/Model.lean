import Verif.Iter.Spec

/-!
# Iterators of the standard library

A model of `std/iterator.llrl` and `std/it.llrl`.

Simplifications.
* An `Iterator` is a closure over references.  Here it is the contents of the references and a
  function from them to the next element and the new contents.  An iterator that is used in two
  places at once is left out.
* Functions that are given to combinators have no effects and always return.
* Loops have fuel.
* `iterate` on a container is a function from the container to a state.
* Vectors are lists.  The macro `it/concat` (std/it.llrl:48-55) is repeated `it/chain`.
-/

namespace Verif.Iter

variable {σ τ α β γ δ ρ ε : Type}

/-- A number in 64 bits. -/
def u64 (n : Nat) : Nat := n % 2 ^ 64

/-! ## std/iterator.llrl -/

/-- `iterator/empty` (std/iterator.llrl:17-18). -/
def emptyNext : Next Unit α := fun _ _ => some (none, ())

/-- `iterator/forever` (std/iterator.llrl:20-21). -/
def foreverNext (a : α) : Next Unit α := fun _ _ => some (some a, ())

/-- `iterator/only` (std/iterator.llrl:23-28); the state is `next`. -/
def onlyNext : Next (Option α) α := fun _ next =>
  match next with
  | none => some (none, none)
  | some x => some (some x, none)

/-- `iterator/repeat` (std/iterator.llrl:30-35); the state is `i`. -/
def repeatNext (a : α) : Next Nat α := fun _ i =>
  if 0 < i then some (some a, i - 1) else some (none, i)

/-- `iterator/unfold` (std/iterator.llrl:37-42). -/
def unfoldNext (f : β → Option (α × β)) : Next β α := fun _ b =>
  match f b with
  | some (a, b') => some (some a, b')
  | none => some (none, b)

/-- `iterator/range` (std/iterator.llrl:44-53) for a type of integers, where sums are wrapped by
`wrap`. -/
def rangeNext (wrap : Int → Int) (stop step : Int) : Next Int Int := fun _ i =>
  if (0 < step ∧ i < stop) ∨ (0 > step ∧ i > stop) then some (some i, wrap (i + step))
  else some (none, i)

/-- The macro `for` (std/iterator.llrl:61-71): a loop over the elements, where the body changes
variables `v` or returns from the function. -/
def forLoop (next : Next σ α) (body : α → β → Except ρ β) : Nat → σ → β → Option (Except ρ β × σ)
  | 0, _, _ => none
  | n + 1, s, v =>
    match next n s with
    | some (some a, s') =>
      match body a v with
      | .ok v' => forLoop next body n s' v'
      | .error r => some (.error r, s')
    | some (none, s') => some (.ok v, s')
    | none => none

/-- What a function returns, which has a loop and the value `last` for when the loop has ended. -/
def returns (last : β → ρ) : Option (Except ρ β × σ) → Option (ρ × σ)
  | some (.ok v, s) => some (last v, s)
  | some (.error r, s) => some (r, s)
  | none => none

/-! ## std/it.llrl -/

/-- `it/count` (std/it.llrl:11-14). -/
def count (next : Next σ α) (s : σ) (n : Nat) : Option (Nat × σ) :=
  returns id (forLoop next (fun _ c => .ok (u64 (c + 1))) n s 0)

/-- `it/first?` (std/it.llrl:16-18). -/
def first (next : Next σ α) (s : σ) (n : Nat) : Option (Option α × σ) :=
  returns (fun _ => none) (forLoop next (fun x () => .error (some x)) n s ())

/-- `it/at` (std/it.llrl:20-26). -/
def at' (index : Nat) (next : Next σ α) (s : σ) (n : Nat) : Option (Option α × σ) :=
  returns (fun _ => none)
    (forLoop next (fun x i => if i = 0 then .error (some x) else .ok (i - 1)) n s index)

/-- `Chain` (std/it.llrl:32-34). -/
inductive Chain (σ γ τ : Type) where
  | a (s : σ) (b : γ)
  | b (t : τ)

/-- `chain/next!` (std/it.llrl:36-46), for `it/chain` (28-30). -/
def chainNext (nextA : Next σ α) (iterate : γ → τ) (nextB : Next τ α) :
    Next (Chain σ γ τ) α := fun n c =>
  match c with
  | .a s b =>
    match nextA n s with
    | some (none, _) =>
      match nextB n (iterate b) with
      | some (r, t) => some (r, .b t)
      | none => none
    | some (some x, s') => some (some x, .a s' b)
    | none => none
  | .b t =>
    match nextB n t with
    | some (r, t') => some (r, .b t')
    | none => none

/-- `it/zip*` (std/it.llrl:63-67). -/
def zipWithNext (f : α → β → δ) (nextA : Next σ α) (nextB : Next τ β) : Next (σ × τ) δ :=
  fun n st =>
  match nextA n st.1 with
  | some (none, s') => some (none, (s', st.2))
  | some (some a, s') =>
    match nextB n st.2 with
    | some (none, t') => some (none, (s', t'))
    | some (some b, t') => some (some (f a b), (s', t'))
    | none => none
  | none => none

/-- `it/zip` (std/it.llrl:57-61), which is the same with pairs. -/
def zipNext (nextA : Next σ α) (nextB : Next τ β) : Next (σ × τ) (α × β) := fun n st =>
  match nextA n st.1 with
  | some (none, s') => some (none, (s', st.2))
  | some (some a, s') =>
    match nextB n st.2 with
    | some (none, t') => some (none, (s', t'))
    | some (some b, t') => some (some (a, b), (s', t'))
    | none => none
  | none => none

/-- `it/zip-either` (std/it.llrl:69-78). -/
def zipEitherNext (nextA : Next σ α) (nextB : Next τ β) : Next (σ × τ) (ZipEither α β) :=
  fun n st =>
  match nextA n st.1, nextB n st.2 with
  | some (a, s'), some (b, t') =>
    match a, b with
    | some a, some b => some (some (.both a b), (s', t'))
    | some a, none => some (some (.left a), (s', t'))
    | none, some b => some (some (.right b), (s', t'))
    | none, none => some (none, (s', t'))
  | _, _ => none

/-- `it/map` (std/it.llrl:85-87). -/
def mapNext (f : α → β) (next : Next σ α) : Next σ β := fun n s =>
  match next n s with
  | some (some a, s') => some (some (f a), s')
  | some (none, s') => some (none, s')
  | none => none

/-- `it/filter` (std/it.llrl:89-94). -/
def filterNext (f : α → Bool) (next : Next σ α) : Next σ α
  | 0, _ => none
  | n + 1, s =>
    match next n s with
    | some (some a, s') => if f a then some (some a, s') else filterNext f next n s'
    | some (none, s') => some (none, s')
    | none => none

/-- `it/filter-map` (std/it.llrl:96-101). -/
def filterMapNext (f : α → Option β) (next : Next σ α) : Next σ β
  | 0, _ => none
  | n + 1, s =>
    match next n s with
    | some (some a, s') =>
      match f a with
      | some b => some (some b, s')
      | none => filterMapNext f next n s'
    | some (none, s') => some (none, s')
    | none => none

/-- `it/with-index` (std/it.llrl:103-112). -/
def withIndexNext (next : Next σ α) : Next (σ × Nat) (Nat × α) := fun n st =>
  match next n st.1 with
  | some (some v, s') => some (some (st.2, v), (s', u64 (st.2 + 1)))
  | some (none, s') => some (none, (s', st.2))
  | none => none

/-- `it/take` (std/it.llrl:114-123). -/
def takeNext (next : Next σ α) : Next (σ × Nat) α := fun n st =>
  if 0 < st.2 then
    match next n st.1 with
    | some (r, s') => some (r, (s', st.2 - 1))
    | none => none
  else some (none, st)

/-- The loop in `it/skip` (std/it.llrl:130-132): whether elements were left. -/
def skipLoop (next : Next σ α) : Nat → σ → Nat → Option (Bool × σ × Nat)
  | 0, _, _ => none
  | n + 1, s, i =>
    if 0 < i then
      match next n s with
      | some (some _, s') => skipLoop next n s' (i - 1)
      | some (none, s') => some (false, s', i)
      | none => none
    else some (true, s, i)

/-- `it/skip` (std/it.llrl:125-133). -/
def skipNext (next : Next σ α) : Next (σ × Nat) α := fun n st =>
  match skipLoop next n st.1 st.2 with
  | some (true, s, i) =>
    match next n s with
    | some (r, s') => some (r, (s', i))
    | none => none
  | some (false, s, i) => some (none, (s, i))
  | none => none

/-- `it/take-while` (std/it.llrl:135-147). -/
def takeWhileNext (f : α → Bool) (next : Next σ α) : Next (σ × Bool) α := fun n st =>
  if st.2 then some (none, st)
  else
    match next n st.1 with
    | some (some a, s') =>
      if f a then some (some a, (s', st.2)) else some (none, (s', true))
    | some (none, s') => some (none, (s', st.2))
    | none => none

/-- The loop in `it/skip-while` (std/it.llrl:156-157): the first element that is not skipped. -/
def skipWhileLoop (f : α → Bool) (next : Next σ α) : Nat → σ → Option (Option α × σ)
  | 0, _ => none
  | n + 1, s =>
    match next n s with
    | some (some a, s') => if !f a then some (some a, s') else skipWhileLoop f next n s'
    | some (none, s') => some (none, s')
    | none => none

/-- `it/skip-while` (std/it.llrl:149-158). -/
def skipWhileNext (f : α → Bool) (next : Next σ α) : Next (σ × Bool) α := fun n st =>
  if !st.2 then
    match skipWhileLoop f next n st.1 with
    | some (some a, s') => some (some a, (s', true))
    | some (none, s') =>
      match next n s' with
      | some (r, s'') => some (r, (s'', true))
      | none => none
    | none => none
  else
    match next n st.1 with
    | some (r, s') => some (r, (s', st.2))
    | none => none

/-- `flat-map/next!` (std/it.llrl:167-182), for `it/flat-map` (160-165). -/
def flatMapNext (f : α → τ) (outer : Next σ α) (inner : Next τ β) : Next (σ × Option τ) β
  | 0, _ => none
  | n + 1, (s, none) =>
    match outer n s with
    | some (some x, s') => flatMapNext f outer inner n (s', some (f x))
    | some (none, s') => some (none, (s', none))
    | none => none
  | n + 1, (s, some t) =>
    match inner n t with
    | some (some x, t') => some (some x, (s, some t'))
    | some (none, _) => flatMapNext f outer inner n (s, none)
    | none => none

/-- `it/fold` (std/it.llrl:184-187). -/
def fold (f : β → α → β) (init : β) (next : Next σ α) (s : σ) (n : Nat) : Option (β × σ) :=
  returns id (forLoop next (fun a ret => .ok (f ret a)) n s init)

/-- `it/all?` (std/it.llrl:189-192). -/
def all (f : α → Bool) (next : Next σ α) (s : σ) (n : Nat) : Option (Bool × σ) :=
  returns (fun _ => true)
    (forLoop next (fun a () => if !f a then .error false else .ok ()) n s ())

/-- `it/any?` (std/it.llrl:194-197). -/
def any (f : α → Bool) (next : Next σ α) (s : σ) (n : Nat) : Option (Bool × σ) :=
  returns (fun _ => false)
    (forLoop next (fun a () => if f a then .error true else .ok ()) n s ())

/-- `it/find?` (std/it.llrl:199-202). -/
def find (f : α → Bool) (next : Next σ α) (s : σ) (n : Nat) : Option (Option α × σ) :=
  returns (fun _ => none)
    (forLoop next (fun a () => if f a then .error (some a) else .ok ()) n s ())

/-- `it/find-map?` (std/it.llrl:204-207). -/
def findMap (f : α → Option β) (next : Next σ α) (s : σ) (n : Nat) : Option (Option β × σ) :=
  returns (fun _ => none)
    (forLoop next (fun a () =>
      match f a with
      | some b => .error (some b)
      | none => .ok ()) n s ())

/-- `it/find-index?` (std/it.llrl:209-214). -/
def findIndex (f : α → Bool) (next : Next σ α) (s : σ) (n : Nat) : Option (Option Nat × σ) :=
  returns (fun _ => none)
    (forLoop next (fun a i => if f a then .error (some i) else .ok (u64 (i + 1))) n s 0)

/-- `it/sum` and `it/product` (std/it.llrl:216-220), for the operation and its unit. -/
def total (op : α → α → α) (unit : α) (next : Next σ α) (s : σ) (n : Nat) : Option (α × σ) :=
  fold (fun a b => op a b) unit next s n

/-- `it/traverse-option` (std/it.llrl:222-230). -/
def traverseOption (f : α → Option β) (next : Next σ α) (s : σ) (n : Nat) :
    Option (Option (List β) × σ) :=
  returns some
    (forLoop next (fun a buf =>
      match f a with
      | some b => .ok (buf ++ [b])
      | none => .error none) n s [])

/-- `it/traverse-result` (std/it.llrl:232-240). -/
def traverseResult (f : α → Except ε β) (next : Next σ α) (s : σ) (n : Nat) :
    Option (Except ε (List β) × σ) :=
  returns .ok
    (forLoop next (fun a buf =>
      match f a with
      | .ok b => .ok (buf ++ [b])
      | .error e => .error (.error e)) n s [])

end Verif.Iter
