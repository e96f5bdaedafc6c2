/-!
# Specification of arrays and vectors (C39, C40)

The meaning of every operation is given on lists.
-/
namespace Verif.Vector

/-- The operations on one vector. -/
inductive Op (α : Type) where
  | push (x : α)
  | pop
  | insert (i : Nat) (x : α)
  | remove (i : Nat)
  | swapRemove (i : Nat)
  | truncate (n : Nat)
  | clear
  | append (xs : List α)
  | appendSelf
  | reserveCapacity (n : Nat) (exact : Bool)
  | reserveFree (n : Nat) (exact : Bool)
  | get (i : Nat)
  | get? (i : Nat)
  | set (i : Nat) (x : α)
  | swap (i j : Nat)
  | reverse
  | fill (x : α)
  | consume (n : Nat)
  | consumeAll
deriving DecidableEq

/-- What an operation returns. -/
inductive Res (α : Type) where
  | unit
  | val (x : α)
  | opt (x : Option α)
  | arr (xs : List α)
deriving DecidableEq

/-- The operation on a list; `none` is a failed assertion. -/
def Op.onList {α : Type} (xs : List α) : Op α → Option (Res α × List α)
  | .push x => some (.unit, xs ++ [x])
  | .pop => some (.opt xs.getLast?, xs.dropLast)
  | .insert i x => if i ≤ xs.length then some (.unit, xs.insertIdx i x) else none
  | .remove i => xs[i]?.map fun x => (.val x, xs.eraseIdx i)
  | .swapRemove i => xs[i]?.bind fun x => xs.getLast?.map fun l => (.val x, (xs.set i l).dropLast)
  | .truncate n => some (.unit, xs.take n)
  | .clear => some (.unit, [])
  | .append ys => some (.unit, xs ++ ys)
  | .appendSelf => some (.unit, xs ++ xs)
  | .reserveCapacity _ _ => some (.unit, xs)
  | .reserveFree _ _ => some (.unit, xs)
  | .get i => xs[i]?.map fun x => (.val x, xs)
  | .get? i => some (.opt xs[i]?, xs)
  | .set i x => if i < xs.length then some (.unit, xs.set i x) else none
  | .swap i j => xs[i]?.bind fun x => xs[j]?.map fun y => (.unit, (xs.set i y).set j x)
  | .reverse => some (.unit, xs.reverse)
  | .fill x => some (.unit, List.replicate xs.length x)
  | .consume n => if n ≤ xs.length then some (.arr (xs.take n), xs.drop n) else none
  | .consumeAll => some (.arr xs, [])

/-- The results of a sequence of operations on a list and the final list, or the results up to the failed assertion. -/
def onLists {α : Type} (xs : List α) : List (Op α) → List (Res α) × Option (List α)
  | [] => ([], some xs)
  | op :: ops =>
    match op.onList xs with
    | none => ([], none)
    | some (r, ys) => ((r :: (onLists ys ops).1), (onLists ys ops).2)

end Verif.Vector
