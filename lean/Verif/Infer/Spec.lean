/-!
# Programs and their types, independently of type inference

The declarative type system of Hindley and Milner for the expressions of llrl0/src/ast/expr.rs: functions may be used at several types,
parameters and variables may not.  Every binder has its own number.  Left out: type classes (constraints of schemes, numbers that stand for
any number type), kinds.
-/
namespace Verif.Infer

mutual
/-- Types.  `gen g l` is version `l` of type parameter `g`; `unk v` is a type that is not known (there is none in the end). -/
inductive Ty
  | con (c : Nat)
  | app (f : Ty) (args : Tys)
  | gen (g l : Nat)
  | unk (v : Nat)
inductive Tys
  | nil
  | cons (t : Ty) (ts : Tys)
end

/-- As a list of its own. -/
def Tys.ofList : List Ty → Tys
  | [] => .nil
  | t :: ts => .cons t (.ofList ts)

/-- Functions: ast/types.rs, `TypeBuilder::new_fun`. -/
def arrow (ps : List Ty) (r : Ty) : Ty := .app (.con 0) (.ofList (ps ++ [r]))

def unitTy : Ty := .con 1
def boolTy : Ty := .con 2

mutual
/-- Every unknown type and every type parameter in a type satisfies a predicate. -/
def Ty.All (pu : Nat → Prop) (pg : Nat → Nat → Prop) : Ty → Prop
  | .con _ => True
  | .app f args => f.All pu pg ∧ args.All pu pg
  | .gen g l => pg g l
  | .unk v => pu v
def Tys.All (pu : Nat → Prop) (pg : Nat → Nat → Prop) : Tys → Prop
  | .nil => True
  | .cons t ts => t.All pu pg ∧ ts.All pu pg
end

mutual
/-- Replacing unknown types. -/
def Ty.subst (σ : Nat → Ty) : Ty → Ty
  | .con c => .con c
  | .app f args => .app (f.subst σ) (args.subst σ)
  | .gen g l => .gen g l
  | .unk v => σ v
def Tys.subst (σ : Nat → Ty) : Tys → Tys
  | .nil => .nil
  | .cons t ts => .cons (t.subst σ) (ts.subst σ)
end

mutual
/-- Replacing type parameters, whatever their version. -/
def Ty.inst (m : Nat → Option Ty) : Ty → Ty
  | .con c => .con c
  | .app f args => .app (f.inst m) (args.inst m)
  | .gen g l => (m g).getD (.gen g l)
  | .unk v => .unk v
def Tys.inst (m : Nat → Option Ty) : Tys → Tys
  | .nil => .nil
  | .cons t ts => .cons (t.inst m) (ts.inst m)
end

/-- The versions of the type parameters in scope. -/
abbrev Vers := Nat → Option Nat

/-- A type as it is written, for the versions in scope. -/
def Ty.at (ρ : Vers) (t : Ty) : Ty := t.inst fun g => (ρ g).map (Ty.gen g)

/-- The parameters get this version. -/
def Vers.set (ρ : Vers) (gs : List Nat) (l : Nat) : Vers := fun g => if g ∈ gs then some l else ρ g

/-- A type for all types in place of the parameters. -/
structure Sch where
  gs : List Nat
  t : Ty

/-- What variables, functions and constructors are. -/
abbrev Env := Nat → Option Sch

def Env.set (Γ : Env) (x : Nat) (sc : Sch) : Env := fun y => if y = x then some sc else Γ y

/-- Patterns, ast/pattern.rs. -/
inductive Pat
  | wild
  | var (x : Nat)
  | as_ (x : Nat) (p : Pat)
  /-- a constructor without fields -/
  | con (c : Nat)
  /-- a constructor applied to fields -/
  | decon (c : Nat) (ps : List Pat)
  | const (t : Ty)
  | num

mutual
/-- Expressions, ast/expr.rs. -/
inductive Expr
  /-- a variable, function or constructor -/
  | use (x : Nat)
  /-- a constant of a known type -/
  | const (t : Ty)
  /-- a number -/
  | num
  | app (f : Expr) (args : Exprs)
  | ann (e : Expr) (t : Ty)
  /-- functions with an annotation; functions without one, in groups; variables -/
  | let_ (es : EFuns) (gs : Groups) (vs : Vars) (b : Expr)
  | seq (e b : Expr)
  | ite (c t e : Expr)
  | while (c b : Expr)
  | match_ (e : Expr) (cs : Clauses)
  | ret (e : Expr)
  | retUnit
inductive Exprs
  | nil
  | cons (e : Expr) (es : Exprs)
inductive Clauses
  | nil
  | cons (p : Pat) (b : Expr) (cs : Clauses)
inductive Vars
  | nil
  | cons (x : Nat) (e : Expr) (ann : Option Ty) (vs : Vars)
/-- Functions with annotation `∀ gs. t`. -/
inductive EFuns
  | nil
  | cons (f : Nat) (gs : List Nat) (t : Ty) (ps : Option (List Nat)) (b : Expr) (es : EFuns)
/-- Functions without annotation. -/
inductive Funs
  | nil
  | cons (f : Nat) (ps : Option (List Nat)) (b : Expr) (fs : Funs)
/-- Groups of functions that use each other, in the order in which they are typed. -/
inductive Groups
  | nil
  | cons (fs : Funs) (gs : Groups)
end

/-! ### Typing -/

/-- A scheme at some types. -/
def Sch.at (sc : Sch) (m : Nat → Ty) : Ty := sc.t.inst fun g => if g ∈ sc.gs then some (m g) else none

/-- A type without parameters. -/
def mono (t : Ty) : Sch := ⟨[], t⟩

/-- The type of a function; a function may be written without parameters at all, and is then just its body. -/
def funTy : Option (List Nat) → List Ty → Ty → Ty
  | none, _, r => r
  | some _, ts, r => arrow ts r

/-- The parameters have these types. -/
def Env.params (Γ : Env) : Option (List Nat) → List Ty → Env
  | some (x :: xs), t :: ts => (Γ.set x (mono t)).params (some xs) ts
  | _, _ => Γ

/-- As many types as parameters. -/
def arity : Option (List Nat) → Nat
  | none => 0
  | some ps => ps.length

/-- The annotated functions have the types they are annotated with. -/
def Env.expl (ρ : Vers) (Γ : Env) : EFuns → Env
  | .nil => Γ
  | .cons f gs t _ _ es => (Γ.set f ⟨gs, t.at ρ⟩).expl ρ es

/-- The functions of a group with their types, for all types in place of the parameters `qs`. -/
def Env.funs (Γ : Env) (qs : List Nat) : Funs → List (List Ty × Ty) → Env
  | .cons f ps _ fs, (ts, r) :: tys => (Γ.set f ⟨qs, funTy ps ts r⟩).funs qs fs tys
  | _, _ => Γ

/-- No version that satisfies the predicate of a type parameter is free in the environment. -/
def Fresh (g : Nat) (p : Nat → Prop) (Γ : Env) : Prop := ∀ x sc, Γ x = some sc → g ∉ sc.gs → sc.t.All (fun _ => True) fun g' l => g' = g → ¬ p l

mutual
/-- The types of patterns, with the variables they bind. -/
def PatTy : Pat → Ty → Env → Env → Prop
  | .wild, _, Γ, Γ' => Γ' = Γ
  | .var x, t, Γ, Γ' => Γ' = Γ.set x (mono t)
  | .as_ x p, t, Γ, Γ' => PatTy p t (Γ.set x (mono t)) Γ'
  | .con c, t, Γ, Γ' => Γ' = Γ ∧ ∃ sc m, Γ c = some sc ∧ t = sc.at m
  | .decon c ps, t, Γ, Γ' => ∃ sc m ts, Γ c = some sc ∧ arrow ts t = sc.at m ∧ PatTys ps ts Γ Γ'
  | .const c, t, Γ, Γ' => Γ' = Γ ∧ t = c
  | .num, _, Γ, Γ' => Γ' = Γ
def PatTys : List Pat → List Ty → Env → Env → Prop
  | [], ts, Γ, Γ' => ts = [] ∧ Γ' = Γ
  | p :: ps, ts, Γ, Γ' => ∃ t ts' Γ1, ts = t :: ts' ∧ PatTy p t Γ Γ1 ∧ PatTys ps ts' Γ1 Γ'
end

mutual
/-- The types of expressions; `ret` is the type of the function around it. -/
def HasTy (ρ : Vers) (Γ : Env) (ret : Option Ty) : Expr → Ty → Prop
  | .use x, t => ∃ sc m, Γ x = some sc ∧ t = sc.at m
  | .const c, t => t = c
  | .num, _ => True
  | .app f args, t => ∃ ts, HasTy ρ Γ ret f (arrow ts t) ∧ HasTys ρ Γ ret args ts
  | .ann e a, t => t = a.at ρ ∧ HasTy ρ Γ ret e t
  | .let_ es gs vs b, t => ∃ Γ1 Γ2, GroupsTy ρ (Γ.expl ρ es) gs Γ1 ∧ ExplTy ρ Γ1 es ∧ VarsTy ρ Γ1 ret vs Γ2 ∧ HasTy ρ Γ2 ret b t
  | .seq e b, t => (∃ u, HasTy ρ Γ ret e u) ∧ HasTy ρ Γ ret b t
  | .ite c a b, t => HasTy ρ Γ ret c boolTy ∧ HasTy ρ Γ ret a t ∧ HasTy ρ Γ ret b t
  | .while c b, t => t = unitTy ∧ HasTy ρ Γ ret c boolTy ∧ ∃ u, HasTy ρ Γ ret b u
  | .match_ e cs, t => ∃ u, HasTy ρ Γ ret e u ∧ ClausesTy ρ Γ ret cs u t
  | .ret e, _ => ∃ r, ret = some r ∧ HasTy ρ Γ ret e r
  | .retUnit, _ => ret = some unitTy
def HasTys (ρ : Vers) (Γ : Env) (ret : Option Ty) : Exprs → List Ty → Prop
  | .nil, ts => ts = []
  | .cons e es, ts => ∃ t ts', ts = t :: ts' ∧ HasTy ρ Γ ret e t ∧ HasTys ρ Γ ret es ts'
/-- Clauses for values of type `u` with results of type `t`. -/
def ClausesTy (ρ : Vers) (Γ : Env) (ret : Option Ty) : Clauses → Ty → Ty → Prop
  | .nil, _, _ => True
  | .cons p b cs, u, t => (∃ Γ1, PatTy p u Γ Γ1 ∧ HasTy ρ Γ1 ret b t) ∧ ClausesTy ρ Γ ret cs u t
def VarsTy (ρ : Vers) (Γ : Env) (ret : Option Ty) : Vars → Env → Prop
  | .nil, Γ' => Γ' = Γ
  | .cons x e ann vs, Γ' => ∃ t, HasTy ρ Γ ret e t ∧ (∀ a, ann = some a → t = a.at ρ) ∧ VarsTy ρ (Γ.set x (mono t)) ret vs Γ'
/-- A function with an annotation is right for any types in place of its parameters: for a version of them that is not in the environment. -/
def ExplTy (ρ : Vers) (Γ : Env) : EFuns → Prop
  | .nil => True
  | .cons _ gs t ps b es => (∃ l ts r, (∀ g ∈ gs, Fresh g (· = l) Γ) ∧ t.at (ρ.set gs l) = funTy ps ts r ∧ ts.length = arity ps ∧
      HasTy (ρ.set gs l) (Γ.params ps ts) (some r) b r) ∧ ExplTy ρ Γ es
/-- The bodies of functions of these types. -/
def BodiesTy (ρ : Vers) (Γ : Env) : Funs → List (List Ty × Ty) → Prop
  | .nil, tys => tys = []
  | .cons _ ps b fs, tys => ∃ ts r tys', tys = (ts, r) :: tys' ∧ ts.length = arity ps ∧ HasTy ρ (Γ.params ps ts) (some r) b r ∧ BodiesTy ρ Γ fs tys'
/-- The functions of a group have one type within the group, and may be used outside for all types in place of parameters that are not in the environment. -/
def GroupsTy (ρ : Vers) (Γ : Env) : Groups → Env → Prop
  | .nil, Γ' => Γ' = Γ
  | .cons fs gs, Γ' => ∃ tys qs, BodiesTy ρ (Γ.funs [] fs tys) fs tys ∧ (∀ q ∈ qs, ρ q = none ∧ Fresh q (fun _ => True) Γ) ∧ GroupsTy ρ (Γ.funs qs fs tys) gs Γ'
end

/-- A module: functions with and without annotation, and expressions to evaluate. -/
structure Prog where
  es : EFuns
  gs : Groups
  inits : Exprs

/-- A module is well-typed in the environment of what it imports; `Γ` is the environment in the end. -/
def ProgTy (Γ0 : Env) (p : Prog) (Γ : Env) : Prop :=
  GroupsTy (fun _ => none) (Γ0.expl (fun _ => none) p.es) p.gs Γ ∧ ExplTy (fun _ => none) Γ p.es ∧ ∃ ts, HasTys (fun _ => none) Γ none p.inits ts

/-- Nothing is unknown in the types of an environment. -/
def Env.Known (Γ : Env) : Prop := ∀ x sc, Γ x = some sc → sc.t.All (fun _ => False) fun _ _ => True

/-! ### Programs as the compiler makes them -/

/-- A type as it is written: its type parameters satisfy a predicate. -/
def Written (p : Nat → Prop) (t : Ty) : Prop := t.All (fun _ => False) fun g _ => p g

/-- A constant type. -/
def Const (t : Ty) : Prop := t.All (fun _ => False) fun _ _ => False

mutual
/-- Constants in patterns have constant types. -/
def Pat.OK : Pat → Prop
  | .wild | .var _ | .con _ | .num => True
  | .as_ _ p => p.OK
  | .decon _ ps => Pat.OKs ps
  | .const t => Const t
def Pat.OKs : List Pat → Prop
  | [] => True
  | p :: ps => p.OK ∧ Pat.OKs ps
end

mutual
/-- Type parameters are used in annotations only where they are in scope (`D`); those of the program are smaller than `B`. -/
def Expr.OK (B : Nat) (D : Nat → Prop) : Expr → Prop
  | .use _ | .num | .retUnit => True
  | .const t => Const t
  | .app f args => f.OK B D ∧ args.OK B D
  | .ann e t => e.OK B D ∧ Written D t
  | .let_ es gs vs b => es.OK B D ∧ gs.OK B D ∧ vs.OK B D ∧ b.OK B D
  | .seq e b => e.OK B D ∧ b.OK B D
  | .ite c t e => c.OK B D ∧ t.OK B D ∧ e.OK B D
  | .while c b => c.OK B D ∧ b.OK B D
  | .match_ e cs => e.OK B D ∧ cs.OK B D
  | .ret e => e.OK B D
def Exprs.OK (B : Nat) (D : Nat → Prop) : Exprs → Prop
  | .nil => True
  | .cons e es => e.OK B D ∧ es.OK B D
def Clauses.OK (B : Nat) (D : Nat → Prop) : Clauses → Prop
  | .nil => True
  | .cons p b cs => p.OK ∧ b.OK B D ∧ cs.OK B D
def Vars.OK (B : Nat) (D : Nat → Prop) : Vars → Prop
  | .nil => True
  | .cons _ e ann vs => e.OK B D ∧ (∀ a, ann = some a → Written D a) ∧ vs.OK B D
def EFuns.OK (B : Nat) (D : Nat → Prop) : EFuns → Prop
  | .nil => True
  | .cons _ gs t _ b es => (∀ g ∈ gs, g < B) ∧ Written (fun g => D g ∨ g ∈ gs) t ∧ b.OK B (fun g => D g ∨ g ∈ gs) ∧ es.OK B D
def Funs.OK (B : Nat) (D : Nat → Prop) : Funs → Prop
  | .nil => True
  | .cons _ _ b fs => b.OK B D ∧ fs.OK B D
def Groups.OK (B : Nat) (D : Nat → Prop) : Groups → Prop
  | .nil => True
  | .cons fs gs => fs.OK B D ∧ gs.OK B D
end

def Prog.OK (B : Nat) (p : Prog) : Prop := p.es.OK B (fun _ => False) ∧ p.gs.OK B (fun _ => False) ∧ p.inits.OK B fun _ => False

/-- What a module imports has closed types. -/
def Env.Closed (B : Nat) (Γ : Env) : Prop := ∀ x sc, Γ x = some sc → Written (· ∈ sc.gs) sc.t ∧ ∀ g ∈ sc.gs, g < B

mutual
/-- No group has more than one function. -/
def Expr.Single : Expr → Prop
  | .use _ | .num | .retUnit | .const _ => True
  | .app f args => f.Single ∧ args.Single
  | .ann e _ => e.Single
  | .let_ es gs vs b => es.Single ∧ gs.Single ∧ vs.Single ∧ b.Single
  | .seq e b => e.Single ∧ b.Single
  | .ite c t e => c.Single ∧ t.Single ∧ e.Single
  | .while c b => c.Single ∧ b.Single
  | .match_ e cs => e.Single ∧ cs.Single
  | .ret e => e.Single
def Exprs.Single : Exprs → Prop
  | .nil => True
  | .cons e es => e.Single ∧ es.Single
def Clauses.Single : Clauses → Prop
  | .nil => True
  | .cons _ b cs => b.Single ∧ cs.Single
def Vars.Single : Vars → Prop
  | .nil => True
  | .cons _ e _ vs => e.Single ∧ vs.Single
def EFuns.Single : EFuns → Prop
  | .nil => True
  | .cons _ _ _ _ b es => b.Single ∧ es.Single
def Funs.Single : Funs → Prop
  | .nil => True
  | .cons _ _ b fs => b.Single ∧ fs = .nil
def Groups.Single : Groups → Prop
  | .nil => True
  | .cons fs gs => fs.Single ∧ gs.Single
end

def Prog.Single (p : Prog) : Prop := p.es.Single ∧ p.gs.Single ∧ p.inits.Single

end Verif.Infer
