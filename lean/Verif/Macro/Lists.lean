import Verif.Macro.Model

/-!
# C78: the functions on lists of S-expressions

On the proper list of some S-expressions each function gives what the function of its name
gives for lists; on anything else it gives its error.
-/

namespace Verif.Macro

open Sexp

/-- The first error, or all results: what `s/traverse` is to do, on lists. -/
def results (f : Sexp → Except String Sexp) : List Sexp → Except String (List Sexp)
  | [] => .ok []
  | a :: as =>
    match f a, results f as with
    | .error e, _ => .error e
    | .ok _, .error e => .error e
    | .ok b, .ok bs => .ok (b :: bs)

/-- Calls a function for each element until there is an error. -/
def runs {τ : Type} (f : Sexp → τ → Except String Unit × τ) :
    List Sexp → τ → Except String Unit × τ
  | [], st => (.ok (), st)
  | a :: as, st => if (f a st).1.isOk then runs f as (f a st).2 else f a st

/-- The right fold of a list that is not empty: `f a (f b (… z))`. -/
def foldr1 (f : Sexp → Sexp → Sexp) (a : Sexp) : List Sexp → Sexp
  | [] => a
  | b :: bs => f a (foldr1 f b bs)

theorem forceProperListLoop_list {ε : Type} (r : Sexp) (e : ε) (as : List Sexp) :
    forceProperListLoop r e (list as) = .ok r := by
  induction as with
  | nil => rfl
  | cons a as ih => exact ih

theorem forceProperListLoop_not {ε : Type} (r : Sexp) (e : ε) (s : Sexp)
    (h : ∀ as, s ≠ list as) : forceProperListLoop r e s = .error e := by
  induction s with
  | cons a d _ ih => exact ih fun as has => h (a :: as) (by rw [has]; rfl)
  | nil => exact absurd rfl (h [])
  | _ => rfl

/-- C78: `s/force-proper-list` gives back exactly the proper lists. -/
theorem forceProperList_list {ε : Type} (e : ε) (as : List Sexp) :
    forceProperList e (list as) = .ok (list as) := forceProperListLoop_list _ e as

theorem forceProperList_not {ε : Type} (e : ε) (s : Sexp) (h : ∀ as, s ≠ list as) :
    forceProperList e s = .error e := forceProperListLoop_not _ e s h

theorem reverseUnchecked_list (as bs : List Sexp) :
    reverseUnchecked (list bs) (list as) = list (as.reverse ++ bs) := by
  induction as generalizing bs with
  | nil => rfl
  | cons a as ih =>
    show reverseUnchecked (list (a :: bs)) (list as) = _
    rw [ih]
    simp

theorem reverse_list (as : List Sexp) : reverse (list as) = .ok (list as.reverse) := by
  rw [reverse, forceProperList_list]
  have := reverseUnchecked_list as []
  simp only [List.append_nil] at this
  exact congrArg Except.ok this

theorem append_list (as : List Sexp) (b : Sexp) : append (list as) b = .ok (listTo as b) := by
  rw [append, forceProperList_list]
  refine congrArg Except.ok ?_
  induction as with
  | nil => rfl
  | cons a as ih => exact congrArg (Sexp.cons a) ih

theorem traverse_list (f : Sexp → Except String Sexp) (as : List Sexp) :
    traverse f (list as) = (results f as).map list := by
  rw [traverse, forceProperList_list]
  show traverseUnchecked f (list as) = _
  induction as with
  | nil => rfl
  | cons a as ih =>
    show traverseUnchecked f (.cons a (list as)) = _
    rw [traverseUnchecked, results, ih]
    cases f a <;> cases results f as <;> rfl

theorem forEach_list {τ : Type} (f : Sexp → τ → Except String Unit × τ) (as : List Sexp) (st : τ) :
    forEach f (list as) st = runs f as st := by
  rw [forEach, forceProperList_list]
  show forEachUnchecked f (list as) st = _
  induction as generalizing st with
  | nil => rfl
  | cons a as ih =>
    show forEachUnchecked f (.cons a (list as)) st = _
    rw [forEachUnchecked, runs]
    rcases f a st with ⟨_ | u, st'⟩
    · rfl
    · exact ih st'

theorem map_list (f : Sexp → Sexp) (as : List Sexp) : map f (list as) = .ok (list (as.map f)) := by
  rw [map, forceProperList_list]
  refine congrArg Except.ok ?_
  induction as with
  | nil => rfl
  | cons a as ih => exact congrArg (Sexp.cons (f a)) ih

theorem zip_list (f : Sexp → Sexp → Sexp) (as bs : List Sexp) (h : as.length = bs.length) :
    zip f (list as) (list bs) = .ok (list (List.zipWith f as bs)) := by
  induction as generalizing bs with
  | nil =>
    cases bs with
    | nil => rfl
    | cons => cases h
  | cons a as ih =>
    cases bs with
    | nil => cases h
    | cons b bs =>
      show zip f (.cons a (list as)) (.cons b (list bs)) = _
      rw [zip, ih bs (by simpa using h)]
      rfl

/-- `s/zip` gives nothing for other arguments. -/
theorem zip_not (f : Sexp → Sexp → Sexp) (s t : Sexp)
    (h : ∀ as bs, as.length = bs.length → s = list as → t ≠ list bs) :
    zip f s t = .error "s/zip expects proper same-length lists" := by
  induction s generalizing t with
  | cons a s _ ih =>
    cases t with
    | cons b t =>
      rw [zip, ih t]
      intro as bs hl hs ht
      exact h (a :: as) (b :: bs) (by simp [hl]) (by rw [hs]; rfl) (by rw [ht]; rfl)
    | _ => rfl
  | nil =>
    cases t with
    | nil => exact absurd rfl (h [] [] rfl rfl)
    | _ => rfl
  | _ => rfl

theorem foldl_list (f : Sexp → Sexp → Sexp) (a : Sexp) (bs : List Sexp) :
    foldl f a (list bs) = .ok (bs.foldl f a) := by
  rw [foldl, forceProperList_list]
  refine congrArg Except.ok ?_
  induction bs generalizing a with
  | nil => rfl
  | cons b bs ih => exact ih (f a b)

theorem foldr_list (f : Sexp → Sexp → Sexp) (a : Sexp) (bs : List Sexp) :
    foldr f a (list bs) = .ok (foldr1 f a bs) := by
  rw [foldr, forceProperList_list]
  refine congrArg Except.ok ?_
  induction bs generalizing a with
  | nil => rfl
  | cons b bs ih => exact congrArg (f a) (ih b)

theorem lengthUnchecked_list (n : Nat) (as : List Sexp) (h : n + as.length < 2 ^ 64) :
    lengthUnchecked n (list as) = n + as.length := by
  induction as generalizing n with
  | nil => rfl
  | cons a as ih =>
    show lengthUnchecked ((n + 1) % 2 ^ 64) (list as) = _
    simp only [List.length_cons] at h ⊢
    rw [Nat.mod_eq_of_lt (by omega), ih _ (by omega)]
    omega

theorem length_list (as : List Sexp) (h : as.length < 2 ^ 64) :
    length (list as) = .ok as.length := by
  rw [length, forceProperList_list]
  refine congrArg Except.ok ?_
  rw [lengthUnchecked_list _ _ (by omega)]
  omega

theorem unsnocGo_list (accum : List Sexp) (a : Sexp) (bs : List Sexp) :
    unsnocGo (list accum) a (list bs) =
      (list (accum.reverse ++ (a :: bs).dropLast), (a :: bs).getLast (by simp)) := by
  induction bs generalizing accum a with
  | nil =>
    show (reverseUnchecked (list []) (list accum), a) = _
    rw [reverseUnchecked_list]
    rfl
  | cons b bs ih =>
    show unsnocGo (list (a :: accum)) b (list bs) = _
    rw [ih]
    simp

/-- The last element, and what is before it. -/
theorem unsnoc_list (as : List Sexp) (a : Sexp) :
    unsnoc (list (as ++ [a])) = .ok (some (list as, a)) := by
  rw [unsnoc, forceProperList_list]
  refine congrArg Except.ok ?_
  cases as with
  | nil => rfl
  | cons b bs =>
    show some (unsnocGo (list []) b (list (bs ++ [a]))) = _
    rw [unsnocGo_list]
    simp only [← List.cons_append, List.dropLast_concat, List.getLast_concat]
    rfl

theorem unsnoc_nil : unsnoc (list []) = .ok none := rfl

/-- C78: on anything else there is an error. -/
theorem lists_not (s : Sexp) (h : ∀ as, s ≠ list as) :
    (∃ e, reverse s = .error e) ∧ (∀ b, ∃ e, append s b = .error e) ∧
    (∀ f, ∃ e, traverse f s = .error e) ∧ (∀ f, ∃ e, map f s = .error e) ∧
    (∀ (f : Sexp → Nat → Except String Unit × Nat) st, ∃ e, forEach f s st = (.error e, st)) ∧
    (∀ f a, ∃ e, foldl f a s = .error e) ∧ (∀ f a, ∃ e, foldr f a s = .error e) ∧
    (∃ e, length s = .error e) ∧ ∃ e, unsnoc s = .error e := by
  simp [reverse, append, traverse, map, forEach, foldl, foldr, length, unsnoc,
    forceProperList_not _ s h]

/-- Every S-expression is a proper list or is not. -/
example : (∀ as, Sexp.cons .nil (.bool true) ≠ list as) ∧
    Sexp.cons .nil (.cons (.bool true) .nil) = list [.nil, .bool true] := by
  refine ⟨?_, rfl⟩
  rintro (_ | ⟨a, _ | ⟨b, as⟩⟩) h <;> cases h

example : unsnoc (list [.nil, .bool true, .bool false]) =
    .ok (some (list [.nil, .bool true], .bool false)) := rfl

example : foldr (fun a b => list [a, b]) (.bool true) (list [.nil, .bool false]) =
    .ok (list [.bool true, list [.nil, .bool false]]) := rfl

end Verif.Macro
