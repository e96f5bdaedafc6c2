/-!
# Types, kinds and levels, independently of the unifier

`Kd` is the type of (interned) kinds.  A type is a finite tree; `unknown` is a type that is not known yet.
-/
namespace Verif.TypeUnify

/-- What is known about kinds: the kind of types, the result of a function kind (`none` for other kinds), and the kinds of type constructors
and type parameters. -/
structure Env (Kd : Type) where
  type : Kd
  ret : Kd → Option Kd
  con : Nat → Kd
  gen : Nat → Kd

/-- Types.  The level of a type parameter or an unknown is the scope it belongs to (0 is the outermost). -/
inductive AType (Kd : Type)
  | con (c : Nat)
  | app (callee : AType Kd) (args : List (AType Kd))
  | gen (g : Nat) (lv : Nat)
  | unknown (v : Nat) (k : Kd) (lv : Nat)

/-- `ast::Type`, llrl0/src/ast/types.rs: no levels; an unknown is exported as `Error("_v")` (unification/types.rs:575). -/
inductive SType
  | con (c : Nat)
  | app (callee : SType) (args : List SType)
  | gen (g : Nat)
  | error (v : Nat)

variable {Kd : Type}

/-- The kind of a type. -/
def AType.kindOf (env : Env Kd) : AType Kd → Option Kd
  | .con c => some (env.con c)
  | .app callee _ => (callee.kindOf env).bind env.ret
  | .gen g _ => some (env.gen g)
  | .unknown _ k _ => some k

mutual
/-- The innermost scope a type depends on. -/
def AType.maxLevel : AType Kd → Nat
  | .con _ => 0
  | .app callee args => max callee.maxLevel (AType.maxLevels args)
  | .gen _ lv => lv
  | .unknown _ _ lv => lv
def AType.maxLevels : List (AType Kd) → Nat
  | [] => 0
  | a :: as => max a.maxLevel (AType.maxLevels as)
end

mutual
/-- Replacing the unknowns in a type. -/
def AType.subst (ρ : Nat → AType Kd) : AType Kd → AType Kd
  | .con c => .con c
  | .app callee args => .app (callee.subst ρ) (AType.substs ρ args)
  | .gen g lv => .gen g lv
  | .unknown v _ _ => ρ v
def AType.substs (ρ : Nat → AType Kd) : List (AType Kd) → List (AType Kd)
  | [] => []
  | a :: as => a.subst ρ :: AType.substs ρ as
end

mutual
/-- Replacing type parameters in a type. -/
def AType.substGen (m : Nat → Option (AType Kd)) : AType Kd → AType Kd
  | .con c => .con c
  | .app callee args => .app (callee.substGen m) (AType.substGens m args)
  | .gen g lv => (m g).getD (.gen g lv)
  | .unknown v k lv => .unknown v k lv
def AType.substGens (m : Nat → Option (AType Kd)) : List (AType Kd) → List (AType Kd)
  | [] => []
  | a :: as => a.substGen m :: AType.substGens m as
end

mutual
/-- The type without levels. -/
def AType.erase : AType Kd → SType
  | .con c => .con c
  | .app callee args => .app callee.erase (AType.erases args)
  | .gen g _ => .gen g
  | .unknown v _ _ => .error v
def AType.erases : List (AType Kd) → List SType
  | [] => []
  | a :: as => a.erase :: AType.erases as
end

/-- A type with unknowns `0, 1, ...` as a user of the unifier writes it. -/
inductive Term
  | unknown (n : Nat)
  | con (c : Nat)
  | app (callee : Term) (args : List Term)
  | gen (g : Nat) (lv : Nat)

mutual
/-- The type a term is under an assignment of types to the unknowns; an application without arguments is its callee
(ast/types.rs:65-71). -/
def Term.eval (τ : Nat → AType Kd) : Term → AType Kd
  | .unknown n => τ n
  | .con c => .con c
  | .app callee [] => callee.eval τ
  | .app callee (a :: as) => .app (callee.eval τ) (a.eval τ :: Term.evals τ as)
  | .gen g lv => .gen g lv
def Term.evals (τ : Nat → AType Kd) : List Term → List (AType Kd)
  | [] => []
  | a :: as => a.eval τ :: Term.evals τ as
end

/-- The unknowns of a history with their kinds and levels, the types returned so far and the equations demanded so far. -/
structure Abs (Kd : Type) where
  unknowns : List (Kd × Nat)
  terms : List Term
  eqs : List (Term × Term)

/-- An assignment solves the equations, every unknown is assigned a type of its kind, and no type of an inner scope escapes into an unknown. -/
structure Solves (env : Env Kd) (a : Abs Kd) (τ : Nat → AType Kd) : Prop where
  kind : ∀ (n : Nat) (k : Kd) (lv : Nat), a.unknowns[n]? = some (k, lv) → (τ n).kindOf env = some k
  level : ∀ (n : Nat) (k : Kd) (lv : Nat), a.unknowns[n]? = some (k, lv) → (τ n).maxLevel ≤ lv
  eqs : ∀ e ∈ a.eqs, e.1.eval τ = e.2.eval τ

/-- A most general solution: every solution is an instance of it. -/
def MostGeneral (env : Env Kd) (a : Abs Kd) (τ₀ : Nat → AType Kd) : Prop :=
  Solves env a τ₀ ∧ ∀ τ, Solves env a τ → ∃ ρ, ∀ t ∈ a.terms, t.eval τ = (t.eval τ₀).subst ρ

end Verif.TypeUnify
