import Verif.PatMatch.Model
/-!
# What matching means

Types, values and typed matching of source patterns.  A type is either a data type with a list of constructors (of given
field types) or a type of atoms, whose values are written by literals; types without literals (functions, pointers, …) are
types of atoms whose literals denote nothing.
-/
namespace Verif.PatMatch.Spec

open Verif.PatMatch

/-- `atom`: `dom` are the values, `den c` the value the literal `c` stands for (`none`: the literal is ill-typed). -/
inductive Shape (Ty Lit : Type) where
  | atom (dom : Lit → Prop) (den : Const → Option Lit)
  | data (cons : List (FiniteCon × List Ty))

/-- A universe of types.  Instantiated types (`(Option I32)`, `(Option Bool)`) are different types with the same constructors. -/
structure Sig (Ty Lit : Type) where
  shape : Ty → Shape Ty Lit

inductive Value (Lit : Type) where
  | atom (x : Lit)
  | con (use : Nat) (args : List (Value Lit))

variable {Ty Lit : Type}

mutual
inductive HasTy (S : Sig Ty Lit) : Value Lit → Ty → Prop
  | atom {τ dom den x} (hs : S.shape τ = .atom dom den) (hx : dom x) : HasTy S (.atom x) τ
  | con {τ cons c τs args} (hs : S.shape τ = .data cons) (hc : (c, τs) ∈ cons) (ha : HasTys S args τs) : HasTy S (.con c.use args) τ
inductive HasTys (S : Sig Ty Lit) : List (Value Lit) → List Ty → Prop
  | nil : HasTys S [] []
  | cons {v vs τ τs} (h : HasTy S v τ) (hs : HasTys S vs τs) : HasTys S (v :: vs) (τ :: τs)
end

mutual
/-- The source pattern `p` matches the value `v` of type `τ`. -/
inductive SMatches (S : Sig Ty Lit) : Ty → SPat → Value Lit → Prop
  | var {τ id v} : SMatches S τ (.var id) v
  | as {τ id p v} (h : SMatches S τ p v) : SMatches S τ (.as id p) v
  | wild {τ v} : SMatches S τ .wild v
  | const {τ dom den c x} (hs : S.shape τ = .atom dom den) (hc : den c = some x) : SMatches S τ (.const c) (.atom x)
  | decon {τ cons c τs ps vs} (hs : S.shape τ = .data cons) (hc : (c, τs) ∈ cons) (h : SMatchesL S τs ps vs) :
    SMatches S τ (.decon c.use ps) (.con c.use vs)
inductive SMatchesL (S : Sig Ty Lit) : List Ty → List SPat → List (Value Lit) → Prop
  | nil : SMatchesL S [] [] []
  | cons {τ τs p ps v vs} (h : SMatches S τ p v) (hs : SMatchesL S τs ps vs) : SMatchesL S (τ :: τs) (p :: ps) (v :: vs)
end

mutual
/-- The pattern `p` of an error report matches the value `v` of type `τ`. -/
inductive PMatches (S : Sig Ty Lit) : Ty → Pat → Value Lit → Prop
  | wild {τ v} : PMatches S τ .wild v
  | const {τ dom den c x} (hs : S.shape τ = .atom dom den) (hc : den c = some x) : PMatches S τ (.con (.const c) []) (.atom x)
  | con {τ cons c τs sibs ps vs} (hs : S.shape τ = .data cons) (hc : (c, τs) ∈ cons) (h : PMatchesL S τs ps vs) :
    PMatches S τ (.con (.finite c sibs) ps) (.con c.use vs)
inductive PMatchesL (S : Sig Ty Lit) : List Ty → List Pat → List (Value Lit) → Prop
  | nil : PMatchesL S [] [] []
  | cons {τ τs p ps v vs} (h : PMatches S τ p v) (hs : PMatchesL S τs ps vs) : PMatchesL S (τ :: τs) (p :: ps) (v :: vs)
end

mutual
/-- The source pattern is well-typed at `τ`. -/
inductive STyped (S : Sig Ty Lit) : Ty → SPat → Prop
  | var {τ id} : STyped S τ (.var id)
  | as {τ id p} (h : STyped S τ p) : STyped S τ (.as id p)
  | wild {τ} : STyped S τ .wild
  | const {τ dom den c x} (hs : S.shape τ = .atom dom den) (hc : den c = some x) (hx : dom x) : STyped S τ (.const c)
  | decon {τ cons c τs ps} (hs : S.shape τ = .data cons) (hc : (c, τs) ∈ cons) (h : STypedL S τs ps) : STyped S τ (.decon c.use ps)
inductive STypedL (S : Sig Ty Lit) : List Ty → List SPat → Prop
  | nil : STypedL S [] []
  | cons {τ τs p ps} (h : STyped S τ p) (hs : STypedL S τs ps) : STypedL S (τ :: τs) (p :: ps)
end

/-- The declarations are consistent: the constructors of a type have different names, the arity noted is the number of fields,
and the declarations the compiler looks up are those of the types.  No literal denotes a quoted S-expression. -/
structure Sig.Ok (S : Sig Ty Lit) (d : Decls) : Prop where
  names : ∀ {τ cons}, S.shape τ = .data cons → (cons.map fun c => c.1.use).Nodup
  arity : ∀ {τ cons c τs}, S.shape τ = .data cons → (c, τs) ∈ cons → c.arity = τs.length
  decl : ∀ {τ cons c τs}, S.shape τ = .data cons → (c, τs) ∈ cons → ∃ tc, d.typeOf c.use = some tc ∧ d.consOf tc = cons.map (·.1)
  quoted : ∀ {τ dom den}, S.shape τ = .atom dom den → den .syntaxSexp = none

/-- Every type has a value. -/
def Sig.Inhabited (S : Sig Ty Lit) : Prop := ∀ τ, ∃ v, HasTy S v τ

mutual
/-- The literals written in a pattern. -/
def sconsts : SPat → List Const
  | .var _ => []
  | .as _ p => sconsts p
  | .wild => []
  | .decon _ ps => sconstsL ps
  | .const c => [c]
def sconstsL : List SPat → List Const
  | [] => []
  | p :: ps => sconsts p ++ sconstsL ps
end

/-- Every atomic type has a value none of the literals `cs` denotes. -/
def Sig.Roomy (S : Sig Ty Lit) (cs : List Const) : Prop :=
  ∀ τ dom den, S.shape τ = .atom dom den → ∃ x, dom x ∧ ∀ c ∈ cs, den c ≠ some x

/-- Different literals among `cs` denote different values. -/
def Sig.Distinct (S : Sig Ty Lit) (cs : List Const) : Prop :=
  ∀ τ dom den, S.shape τ = .atom dom den → ∀ c ∈ cs, ∀ c' ∈ cs, ∀ x, den c = some x → den c' = some x → c = c'

end Verif.PatMatch.Spec
