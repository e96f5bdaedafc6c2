import Verif.Branch.Model
/-!
# What a match means, and what the built expression computes

Values are abstract: `Sem` gives the machine's operations on them.
-/
namespace Verif.Branch.Spec

open Verif.Branch

/-- The operations on values; `equals .unit` tells the unit value.  `none` where the operation is undefined (loading a null pointer, an element of a non-struct, …). -/
structure Sem (V : Type) where
  load : V → Option V
  elem : Nat → V → Option V
  reint : Nat → V → Option V
  body : V → Option V
  isNull : V → Bool
  equals : Const → V → Bool

variable {V : Type}

/-- Result of trying a clause: no match, or a match with the values of its variables. -/
inductive Res (V : Type) where
  | fail
  | ok (binds : List (Nat × V))

mutual
/-- Trying a pattern on a place whose content is `v`; `none` if an undefined operation is needed.  A wildcard does not look
at the place. -/
def smatch (S : Sem V) : Pat → Option V → Option (Res V)
  | .var id, v => v.bind fun x => some (.ok [(id, x)])
  | .as id p, v => v.bind fun x =>
    match smatch S p (some x) with
    | none => none
    | some .fail => some .fail
    | some (.ok bs) => some (.ok ((id, x) :: bs))
  | .wild, _ => some (.ok [])
  | .deref p, v => smatch S p (v.bind S.load)
  | .nonNull p, v => v.bind fun x => if S.isNull x then some .fail else smatch S p (S.load x)
  | .null, v => v.bind fun x => if S.isNull x then some (.ok []) else some .fail
  | .struct args, v => smatchArgs S args 0 v
  | .reint ty p, v => smatch S p (v.bind (S.reint ty))
  | .syntax p, v => smatch S p (v.bind S.body)
  | .const c, v => v.bind fun x =>
    if S.equals c x then some (.ok []) else if c = .unit then none else some .fail
/-- Fields are tried from left to right until one fails. -/
def smatchArgs (S : Sem V) : List (Nat × Pat) → Nat → Option V → Option (Res V)
  | [], _, _ => some (.ok [])
  | (_, p) :: args, i, v =>
    match smatch S p (v.bind (S.elem i)) with
    | none => none
    | some .fail => some .fail
    | some (.ok bs) =>
      match smatchArgs S args (i + 1) v with
      | none => none
      | some .fail => some .fail
      | some (.ok bs') => some (.ok (bs ++ bs'))
end

/-- The clauses from top to bottom: the index of the first that matches, and its variables. -/
def firstMatch (S : Sem V) (v : V) : List Pat → Nat → Option (Option (Nat × List (Nat × V)))
  | [], _ => some none
  | p :: ps, i =>
    match smatch S p (some v) with
    | none => none
    | some .fail => firstMatch S v ps (i + 1)
    | some (.ok bs) => some (some (i, bs))

/-- Evaluation of a test. -/
def evalTest (S : Sem V) : Test → V → Bool
  | .notNull, x => !(S.isNull x)
  | .isNull, x => S.isNull x
  | .equals c, x => S.equals c x

def evalGet (S : Sem V) : Get → V → Option V
  | .load, x => S.load x
  | .elem i, x => S.elem i x
  | .reint ty, x => S.reint ty x
  | .body, x => S.body x

/-- Where evaluation of the built expression ends. -/
inductive Out (V : Type) where
  | never
  | call (id : Nat) (args : List V)

def vals (ρ : Nat → Option V) : List Nat → Option (List V)
  | [] => some []
  | x :: xs => match ρ x, vals ρ xs with
    | some v, some vs => some (v :: vs)
    | _, _ => none

/-- Evaluation; `none` if a variable is unbound or an operation undefined. -/
def eval (S : Sem V) : Tree → (Nat → Option V) → Option (Out V)
  | .never, _ => some .never
  | .call id args, ρ => (vals ρ args).map (.call id)
  | .ite t x a b, ρ => (ρ x).bind fun v => if evalTest S t v then eval S a ρ else eval S b ρ
  | .letv y g x t, ρ => (ρ x).bind fun v => (evalGet S g v).bind fun w => eval S t (fun z => if z = y then some w else ρ z)

/-- Position of a continuation. -/
def contIndex (id : Nat) : List Cont → Nat → Option (Nat × List Nat)
  | [], _ => none
  | c :: cs, i => if c.id = id then some (i, c.params) else contIndex id cs (i + 1)

/-- Running what `expand` builds on the target value `v`: the clause whose body runs and its variables (`some none`: the
unreachable branch). -/
def run (S : Sem V) (e : Expanded) (v : V) : Option (Option (Nat × List (Nat × V))) :=
  match eval S e.tree (fun z => if z = e.root then some v else none) with
  | none => none
  | some .never => some none
  | some (.call id args) =>
    match contIndex id e.conts 0 with
    | none => none
    | some (i, params) => if params.length = args.length then some (some (i, params.zip args)) else none

mutual
/-- Variables of a pattern, from left to right. -/
def pvars : Pat → List Nat
  | .var id => [id]
  | .as id p => id :: pvars p
  | .wild | .null | .const _ => []
  | .deref p | .nonNull p | .reint _ p | .syntax p => pvars p
  | .struct args => pvarsL args
def pvarsL : List (Nat × Pat) → List Nat
  | [] => []
  | (_, p) :: args => pvars p ++ pvarsL args
end

mutual
/-- Constants of a pattern. -/
def pconsts : Pat → List Const
  | .const c => [c]
  | .var _ | .wild | .null => []
  | .as _ p | .deref p | .nonNull p | .reint _ p | .syntax p => pconsts p
  | .struct args => pconstsL args
def pconstsL : List (Nat × Pat) → List Const
  | [] => []
  | (_, p) :: args => pconsts p ++ pconstsL args
end

/-- No value equals two different constants among `cs`. -/
def Distinct (S : Sem V) (cs : List Const) : Prop :=
  ∀ c ∈ cs, ∀ c' ∈ cs, ∀ v, S.equals c v = true → S.equals c' v = true → c = c'

end Verif.Branch.Spec
