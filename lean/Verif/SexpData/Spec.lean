/-!
# S-expressions of the compiler and of the macros, for C80 and C81

What it means that a tree of cells is an S-expression. Nothing here mentions how one is
converted to the other.
-/

namespace Verif.SexpData

/-- S-expressions of the compiler with their locations. llrl0/src/sexp.rs 38-43 and 174-185. `L` are
the locations, `F` the floating-point numbers, `U` the captured uses; `native` is any other
native value. -/
inductive Host (L F U : Type) where
  | integer (l : L) (signed : Bool) (value : Nat)
  | fpNumber (l : L) (f : F)
  | symbol (l : L) (s : List Char)
  | string (l : L) (s : List Char)
  | char (l : L) (c : Char)
  | list (l : L) (ss : List (Host L F U))
  | listLike (l : L) (head : Host L F U) (init : List (Host L F U)) (last : Host L F U)
  | bool (l : L) (b : Bool)
  | use (l : L) (u : U)
  | native (l : L)

/-- S-expressions of the macros: the value `syntax` with its location around the
data of `Sexp`. llrl0/src/backend/native/data.rs 305-310 and 365-459. -/
inductive Cell (L F U : Type) where
  | integer (l : L) (signed : Bool) (value : Nat)
  | fpNumber (l : L) (f : F)
  | bool (l : L) (b : Bool)
  | symbol (l : L) (s : List Char)
  | string (l : L) (s : List Char)
  | char (l : L) (c : Char)
  | cons (l : L) (car cdr : Cell L F U)
  | nil (l : L)
  | use (l : L) (u : U)

variable {L F U : Type}

/-- The elements of a list of cells, whatever it ends with. -/
def Cell.elements : Cell L F U → List (Cell L F U)
  | .cons _ a d => a :: d.elements
  | _ => []

/-- What a list of cells ends with. -/
def Cell.last : Cell L F U → Cell L F U
  | .cons _ _ d => d.last
  | c => c

/-- The locations of the cells that make up a list. -/
def Cell.locs : Cell L F U → List L
  | .cons l _ d => l :: d.locs
  | _ => []

/-- A list, with a dot or without. -/
def Host.isList : Host L F U → Bool
  | .list .. | .listLike .. => true
  | _ => false

mutual
/-- The S-expressions that the compiler makes: what follows a dot is not a list, and native values
are captured uses. -/
def Host.Ok : Host L F U → Prop
  | .list _ ss => Host.OkAll ss
  | .listLike _ h i t => h.Ok ∧ Host.OkAll i ∧ t.Ok ∧ t.isList = false
  | .native _ => False
  | _ => True

/-- All of them are. -/
def Host.OkAll : List (Host L F U) → Prop
  | [] => True
  | s :: ss => s.Ok ∧ Host.OkAll ss
end

/-- A tree of cells is this S-expression: the same elements in the same order with the same
locations; the cells that make up a list have the location of the list. -/
inductive Same : Host L F U → Cell L F U → Prop
  | integer {l s v} : Same (.integer l s v) (.integer l s v)
  | fpNumber {l f} : Same (.fpNumber l f) (.fpNumber l f)
  | symbol {l s} : Same (.symbol l s) (.symbol l s)
  | string {l s} : Same (.string l s) (.string l s)
  | char {l c} : Same (.char l c) (.char l c)
  | bool {l b} : Same (.bool l b) (.bool l b)
  | use {l u} : Same (.use l u) (.use l u)
  | list {l ss c} : ss.length = c.elements.length →
      (∀ p ∈ ss.zip c.elements, Same p.1 p.2) → c.last = .nil l → (∀ m ∈ c.locs, m = l) →
      Same (.list l ss) c
  | listLike {l h i t c} : i.length + 1 = c.elements.length →
      (∀ p ∈ (h :: i).zip c.elements, Same p.1 p.2) → Same t c.last → (∀ m ∈ c.locs, m = l) →
      Same (.listLike l h i t) c

/-- The cells after the first one of a list have the location of the first one. `o` is the location
of the cell before. -/
def Cell.relocated : Cell L F U → Option L → Cell L F U
  | .cons l a d, o => .cons (o.getD l) (a.relocated none) (d.relocated (some (o.getD l)))
  | .nil l, o => .nil (o.getD l)
  | c, _ => c

/-- `(try? ())`, `(try! ())`, `(try? (a . b))` and the like. -/
def OddTry (ss : List (Host L F U)) : Prop :=
  ∃ l sym x, ss = [.symbol l sym, x] ∧ (sym = "try?".toList ∨ sym = "try!".toList) ∧
    ((∃ m, x = .list m []) ∨ ∃ m h i t, x = .listLike m h i t)

mutual
/-- S-expressions without such lists; the floating-point numbers in it are written alike on both
sides, and captured uses as `<use>`. -/
def Host.Plain (showF64 printF64 : F → List Char) (useText : U → List Char) : Host L F U → Prop
  | .fpNumber _ f => showF64 f = printF64 f
  | .use _ u => useText u = "<use>".toList
  | .list _ ss => Host.PlainAll showF64 printF64 useText ss ∧ ¬ OddTry ss
  | .listLike _ h i t => h.Plain showF64 printF64 useText ∧
      Host.PlainAll showF64 printF64 useText i ∧ t.Plain showF64 printF64 useText
  | _ => True

/-- All of them are. -/
def Host.PlainAll (showF64 printF64 : F → List Char) (useText : U → List Char) :
    List (Host L F U) → Prop
  | [] => True
  | s :: ss => s.Plain showF64 printF64 useText ∧ Host.PlainAll showF64 printF64 useText ss
end

end Verif.SexpData
