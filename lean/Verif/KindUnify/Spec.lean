/-!
# Kinds and assignments, independently of the unifier

A kind is a finite tree.  Equations between kinds with unknowns are solved by an assignment of kinds to the unknowns.
-/
namespace Verif.KindUnify

/-- `ast::Kind`, llrl0/src/ast/kind.rs:14-23 (`Use` has no values, kind.rs:43; an `Error` made by the unifier is the name of an unknown,
unification/kind.rs:177, so `error v` is `Error("_v")`). -/
inductive AKind
  | type
  | constraint
  | satisfaction
  | value
  | mac
  | func (args : List AKind) (ret : AKind)
  | error (v : Nat)

/-- A kind with unknowns `0, 1, ...` as a user of the unifier writes it. -/
inductive Term
  | unknown (n : Nat)
  | type
  | constraint
  | satisfaction
  | value
  | mac
  | func (args : List Term) (ret : Term)

mutual
/-- The kind a term is under an assignment of kinds to the unknowns; a function without arguments is its result (ast/kind.rs:49-55). -/
def Term.eval (τ : Nat → AKind) : Term → AKind
  | .unknown n => τ n
  | .type => .type
  | .constraint => .constraint
  | .satisfaction => .satisfaction
  | .value => .value
  | .mac => .mac
  | .func [] ret => ret.eval τ
  | .func (a :: as) ret => .func (a.eval τ :: Term.evals τ as) (ret.eval τ)
def Term.evals (τ : Nat → AKind) : List Term → List AKind
  | [] => []
  | a :: as => a.eval τ :: Term.evals τ as
end

/-- An assignment solves a list of equations. -/
def Solves (τ : Nat → AKind) (eqs : List (Term × Term)) : Prop := ∀ e ∈ eqs, e.1.eval τ = e.2.eval τ

mutual
/-- Replacing the unknowns in a kind. -/
def AKind.subst (ρ : Nat → AKind) : AKind → AKind
  | .error v => ρ v
  | .func args ret => .func (AKind.substs ρ args) (ret.subst ρ)
  | .type => .type
  | .constraint => .constraint
  | .satisfaction => .satisfaction
  | .value => .value
  | .mac => .mac
def AKind.substs (ρ : Nat → AKind) : List AKind → List AKind
  | [] => []
  | a :: as => a.subst ρ :: AKind.substs ρ as
end

mutual
/-- A kind without unknowns, as a term; `error` does not occur in kinds that are imported. -/
def AKind.toTerm : AKind → Term
  | .func args ret => .func (AKind.toTerms args) ret.toTerm
  | .type => .type
  | .constraint => .constraint
  | .satisfaction => .satisfaction
  | .value => .value
  | .mac => .mac
  | .error _ => .type
def AKind.toTerms : List AKind → List Term
  | [] => []
  | a :: as => a.toTerm :: AKind.toTerms as
end

mutual
/-- No `error` occurs. -/
def AKind.noError : AKind → Bool
  | .func args ret => AKind.noErrors args && ret.noError
  | .error _ => false
  | _ => true
def AKind.noErrors : List AKind → Bool
  | [] => true
  | a :: as => a.noError && AKind.noErrors as
end

/-- The kinds a history talks about: `m` unknowns, the terms returned so far and the equations demanded so far. -/
structure Abs where
  m : Nat
  terms : List Term
  eqs : List (Term × Term)

/-- A most general solution. -/
def MostGeneral (a : Abs) (τ₀ : Nat → AKind) : Prop :=
  Solves τ₀ a.eqs ∧ ∀ τ, Solves τ a.eqs → ∃ ρ, ∀ t ∈ a.terms, t.eval τ = (t.eval τ₀).subst ρ

end Verif.KindUnify
