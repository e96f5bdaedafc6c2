import Verif.Closure.Scope

/-!
# When a call may be replaced by the body of the function

The language and its meaning are in `Verif.Closure.Spec`.
-/
namespace Verif.Inline

open Verif.Closure

mutual
/-- Variables, constants, static functions, and data and environments made of those. -/
def Pure : Expr → Prop
  | .var _ => True
  | .sfun _ => True
  | .sfunEnv _ e => Pure e
  | .int _ => True
  | .prim (.data _) as => Pures as
  | .prim .env as => Pures as
  | _ => False
def Pures : Exprs → Prop
  | .nil => True
  | .cons e es => Pure e ∧ Pures es
end

/-- Without a return. -/
def NoRet : Expr → Prop := go
where
  go : Expr → Prop
  | .sfunEnv _ e => go e
  | .call f as => go f ∧ gos as
  | .prim _ as => gos as
  | .seq a b => go a ∧ go b
  | .ite c t e => go c ∧ go t ∧ go e
  | .while c b => go c ∧ go b
  | .case e cs => go e ∧ goc cs
  | .ret _ => False
  | .letVar _ e b => go e ∧ go b
  | .letFun _ b => go b
  | _ => True
  gos : Exprs → Prop
  | .nil => True
  | .cons e es => go e ∧ gos es
  goc : Clauses → Prop
  | .nil => True
  | .cons _ b cs => go b ∧ goc cs

/-- A root that may turn into a call of a transparent function has pure arguments. -/
def RootOK (t : Ct → Bool) : Expr → Prop
  | .call (.var _) as => Pures as
  | .call (.sfun c) as => t c = true → Pures as
  | _ => True

/-- What is asked of a transparent function: no environment, no return, distinct and old names. -/
structure TransOK (t : Ct → Bool) (next : Nat) (d : Def) : Prop where
  env : d.env = none
  noRet : NoRet d.body
  params : d.params.Nodup
  scope : OK d.params [] d.body
  names : d.body.defs.Nodup
  old : ∀ z ∈ d.body.defs, z < next
  root : RootOK t d.body

/-- Not a variable of a transparent function, and old. -/
def Away (t : Ct → Bool) (P : Prog) (next : Nat) (z : Id) : Prop := z < next ∧ ∀ c d, t c = true → P c = some d → z ∉ d.body.defs

mutual
/-- Every call that may be replaced has pure arguments: one of a transparent function, and one of the result of a call. -/
def PureCalls (t : Ct → Bool) : Expr → Prop
  | .sfunEnv _ e => PureCalls t e
  | .call f as => (match f with
      | .sfun c => t c = true → Pures as
      | .call _ _ => Pures as
      | _ => True) ∧ PureCalls t f ∧ PureCallss t as
  | .prim _ as => PureCallss t as
  | .seq a b => PureCalls t a ∧ PureCalls t b
  | .ite c a b => PureCalls t c ∧ PureCalls t a ∧ PureCalls t b
  | .while c b => PureCalls t c ∧ PureCalls t b
  | .case e cs => PureCalls t e ∧ PureCallsc t cs
  | .ret e => PureCalls t e
  | .letVar _ e b => PureCalls t e ∧ PureCalls t b
  | .letFun _ b => PureCalls t b
  | _ => True
def PureCallss (t : Ct → Bool) : Exprs → Prop
  | .nil => True
  | .cons e es => PureCalls t e ∧ PureCallss t es
def PureCallsc (t : Ct → Bool) : Clauses → Prop
  | .nil => True
  | .cons _ b cs => PureCalls t b ∧ PureCallsc t cs
end

/-- With some fuel the program ends so. -/
def Ends (P : Prog) (main : Expr) (r : Out Val) : Prop := r ≠ .timeout ∧ ∃ n, run P main n = r

/-- The program is never stuck: the type checker took it. -/
def Safe (P : Prog) (main : Expr) : Prop := ∀ n, run P main n ≠ .stuck

end Verif.Inline
