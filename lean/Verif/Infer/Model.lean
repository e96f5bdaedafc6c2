import Mathlib.Data.List.Dedup
import Verif.Infer.Spec

/-!
# Model of `llrl0/src/module/sema/type_inference.rs`

`none` is an error that is reported (or a unification that has not ended with the given fuel).  The pool of cells of the unifier is replaced
by the substitution it stands for (`Verif.TypeUnify` is about the pool), kinds are left out.  The tables of schemes and types
(type_inference.rs:1287-1294) are passed down as an environment instead of being changed: every construct has a number of its own, and what is
entered for it is used within its scope only.  Left out: type classes (constraints, premises, satisfactions, 133-256 and most of 258-412), classes, instances and
macros, the recorded instantiations, the arities of constructors in patterns.

The flag `fx` selects a variant: `false` is the code as it is; with `true` a group of functions is generalised over the variables of any of its
types instead of the variables that are in all of them.
-/
namespace Verif.Infer

deriving instance DecidableEq for Ty, Tys

/-- The unknown types made so far, what they are (`unk v` is not known yet), their levels, and the next type parameter to be made:
`u::Context` (unification/types.rs:32-39) and the generator of `new_gen` (type_env.rs:150-159). -/
structure St where
  n : Nat
  σ : Nat → Ty
  lv : Nat → Nat
  g : Nat

/-- `new_type_var`, unification/types.rs:87-89. -/
def newVar (lv : Nat) (s : St) : Ty × St := (.unk s.n, { s with n := s.n + 1, lv := fun v => if v = s.n then lv else s.lv v })

/-- Several of them. -/
def newVars : Nat → Nat → St → List Ty × St
  | 0, _, s => ([], s)
  | k + 1, lv, s => ((newVar lv s).1 :: (newVars k lv (newVar lv s).2).1, (newVars k lv (newVar lv s).2).2)

/-- `Level::bottom`, unification.rs:151-153. -/
def bottom : Nat := 2 ^ 32 - 1

mutual
/-- The unknown types in a type: `collect_vars`, unification/types.rs:318-331. -/
def Ty.unks : Ty → List Nat
  | .con _ => []
  | .app f args => f.unks ++ args.unks
  | .gen _ _ => []
  | .unk v => [v]
def Tys.unks : Tys → List Nat
  | .nil => []
  | .cons t ts => t.unks ++ ts.unks
end

mutual
/-- No type parameter of a deeper level: `adjust_level`, unification/types.rs:361-376. -/
def Ty.shallow (l : Nat) : Ty → Bool
  | .con _ => true
  | .app f args => f.shallow l && args.shallow l
  | .gen _ l' => l' ≤ l
  | .unk _ => true
def Tys.shallow (l : Nat) : Tys → Bool
  | .nil => true
  | .cons t ts => t.shallow l && ts.shallow l
end

/-- `t` where `v` is `u`. -/
def single (v : Nat) (u : Ty) : Nat → Ty := fun w => if w = v then u else .unk w

/-- An unknown type becomes known, unification/types.rs:147-157: occurs check, levels. -/
def bindVar (v : Nat) (t : Ty) (s : St) : Option St :=
  if v ∈ t.unks then none
  else if t.shallow (s.lv v) then
    some { s with σ := fun w => (s.σ w).subst (single v t), lv := fun w => if w ∈ t.unks then min (s.lv w) (s.lv v) else s.lv w }
  else none

mutual
/-- `unify`, unification/types.rs:139-170. -/
def unify : Nat → Ty → Ty → St → Option St
  | 0, _, _, _ => none
  | k + 1, a, b, s =>
    match a.subst s.σ, b.subst s.σ with
    | .unk v, t => if t = .unk v then some s else bindVar v t s
    | t, .unk v => bindVar v t s
    | .con c, .con d => if c = d then some s else none
    | .gen g l, .gen h m => if g = h ∧ l = m then some s else none
    | .app f as, .app h bs => do
      let s ← unify k f h s
      unifys k as bs s
    | _, _ => none
def unifys : Nat → Tys → Tys → St → Option St
  | 0, _, _, _ => none
  | _ + 1, .nil, .nil, s => some s
  | k + 1, .cons a as, .cons b bs, s => do
    let s ← unify k a b s
    unifys k as bs s
  | _, _, _, _ => none
end

/-- The types for the parameters of a scheme: the fresh ones from `n` on. -/
def freshMap : List Nat → Nat → Nat → Option Ty
  | [], _ => fun _ => none
  | g :: gs, n => fun h => if h = g then some (.unk n) else freshMap gs (n + 1) h

/-- `infer_use`, type_inference.rs:1084-1101, with `instantiate_types`, type_inference/unification.rs:14-26. -/
def inferUse (lv : Nat) (sc : Sch) (s : St) : Ty × St :=
  ((sc.t.subst s.σ).inst (freshMap sc.gs s.n), (newVars sc.gs.length lv s).2)

mutual
/-- `infer_pattern`, type_inference.rs:992-1048, with `infer_const`. -/
def inferPat (k lv : Nat) : Pat → Env → St → Option (Ty × Env × St)
  | .wild, Γ, s => some ((newVar lv s).1, Γ, (newVar lv s).2)
  | .var x, Γ, s => some ((newVar lv s).1, Γ.set x (mono (newVar lv s).1), (newVar lv s).2)
  | .as_ x p, Γ, s => do
    let (t, s) := newVar lv s
    let (u, Γ, s) ← inferPat k lv p (Γ.set x (mono t)) s
    let s ← unify k t u s
    some (t, Γ, s)
  | .con c, Γ, s => do
    let sc ← Γ c
    some ((inferUse lv sc s).1, Γ, (inferUse lv sc s).2)
  | .decon c ps, Γ, s => do
    let sc ← Γ c
    let (t, s) := inferUse lv sc s
    let (ts, Γ, s) ← inferPats k lv ps Γ s
    let (r, s) := newVar lv s
    let s ← unify k t (arrow ts r) s
    some (r, Γ, s)
  | .const t, Γ, s => some (t, Γ, s)
  | .num, Γ, s => some ((newVar lv s).1, Γ, (newVar lv s).2)
def inferPats (k lv : Nat) : List Pat → Env → St → Option (List Ty × Env × St)
  | [], Γ, s => some ([], Γ, s)
  | p :: ps, Γ, s => do
    let (t, Γ, s) ← inferPat k lv p Γ s
    let (ts, Γ, s) ← inferPats k lv ps Γ s
    some (t :: ts, Γ, s)
end

/-- `unify_with_params`, type_inference.rs:108-131: the types of the parameters and of the result. -/
def withParams (k : Nat) (ps : Option (List Nat)) (t : Ty) (s : St) : Option ((List Ty × Ty) × St) :=
  match ps with
  | none => some (([], t), s)
  | some ps => do
    let (ts, s) := newVars ps.length bottom s
    let (r, s) := newVar bottom s
    let s ← unify k (arrow ts r) t s
    some ((ts, r), s)

/-- `prepare_tentative_scheme_with_params`, type_inference.rs:604-614, for the functions of a group. -/
def prepare (k lv : Nat) : Funs → St → Option (List (List Ty × Ty) × St)
  | .nil, s => some ([], s)
  | .cons _ ps _ fs, s => do
    let (t, s) := newVar lv s
    let (p, s) ← withParams k ps t s
    let (tys, s) ← prepare k lv fs s
    some (p :: tys, s)

/-- The types of the functions of a group. -/
def funTys : Funs → List (List Ty × Ty) → List Ty
  | .cons _ ps _ fs, (ts, r) :: tys => funTy ps ts r :: funTys fs tys
  | _, _ => []

/-- `get_vars`, unification/types.rs:309-316: the unknown types of at least this level. -/
def getVars (lv : Nat) (s : St) (t : Ty) : List Nat := ((t.subst s.σ).unks.filter fun v => lv ≤ s.lv v).dedup

/-- `compute_common_type_vars`, type_inference.rs:616-628. -/
def commonVars (fx : Bool) (lv : Nat) (s : St) : List Ty → List Nat
  | [] => []
  | [t] => getVars lv s t
  | t :: ts => if fx then (getVars lv s t ++ commonVars fx lv s ts).dedup else (getVars lv s t).filter (· ∈ commonVars fx lv s ts)

/-- The type parameters made by `finalize_scope`, type_inference.rs:310-325: each variable becomes a new type parameter. -/
def quantify : List Nat → St → List Nat × St
  | [], s => ([], s)
  | v :: vs, s =>
    let (qs, s') := quantify vs { s with g := s.g + 1, σ := fun w => (s.σ w).subst (single v (.gen s.g 0)) }
    (s.g :: qs, s')

mutual
/-- `infer_expr`, type_inference.rs:775-813, and the functions it calls; `lv` is the level of the scope, `ρ` are its `scoped_gen_types`. -/
def infer (fx : Bool) (k lv : Nat) (ρ : Vers) (Γ : Env) (ret : Option Ty) : Expr → St → Option (Ty × St)
  | .use x, s => do
    let sc ← Γ x
    some (inferUse lv sc s)
  | .const t, s => some (t, s)
  | .num, s => some (newVar lv s)
  -- `infer_expr_apply`, 815-831
  | .app f args, s => do
    let (t, s) ← infer fx k lv ρ Γ ret f s
    let (ts, s) ← inferList fx k lv ρ Γ ret args s
    let (r, s) := newVar lv s
    let s ← unify k t (arrow ts r) s
    some (r, s)
  -- `infer_expr_annotate`, 876-886
  | .ann e a, s => do
    let (t, s) ← infer fx k lv ρ Γ ret e s
    let s ← unify k t (a.at ρ) s
    some (t, s)
  -- `infer_expr_let`, 833-867
  | .let_ es gs vs b, s => do
    let (Γ, s) ← inferGroups fx k (lv + 1) ρ (Γ.expl ρ es) gs s
    let s ← inferExpl fx k (lv + 1) ρ Γ es s
    let (Γ, s) ← inferVars fx k lv ρ Γ ret vs s
    infer fx k lv ρ Γ ret b s
  -- `infer_expr_seq`, 869-874
  | .seq e b, s => do
    let (_, s) ← infer fx k lv ρ Γ ret e s
    infer fx k lv ρ Γ ret b s
  -- `infer_expr_if`, 888-896
  | .ite c a b, s => do
    let (t, s) ← infer fx k lv ρ Γ ret c s
    let s ← unify k t boolTy s
    let (t, s) ← infer fx k lv ρ Γ ret a s
    let (u, s) ← infer fx k lv ρ Γ ret b s
    let s ← unify k t u s
    some (t, s)
  -- `infer_expr_while`, 898-904
  | .while c b, s => do
    let (t, s) ← infer fx k lv ρ Γ ret c s
    let s ← unify k t boolTy s
    let (_, s) ← infer fx k lv ρ Γ ret b s
    some (unitTy, s)
  -- `infer_expr_match`, 978-990
  | .match_ e cs, s => do
    let (u, s) ← infer fx k lv ρ Γ ret e s
    let (r, s) := newVar lv s
    let s ← inferClauses fx k lv ρ Γ ret cs u r s
    some (r, s)
  -- 799-811
  | .ret e, s => do
    let r ← ret
    let (t, s) ← infer fx k lv ρ Γ ret e s
    let s ← unify k r t s
    some (newVar lv s)
  | .retUnit, s => do
    let r ← ret
    let s ← unify k r unitTy s
    some (newVar lv s)
def inferList (fx : Bool) (k lv : Nat) (ρ : Vers) (Γ : Env) (ret : Option Ty) : Exprs → St → Option (List Ty × St)
  | .nil, s => some ([], s)
  | .cons e es, s => do
    let (t, s) ← infer fx k lv ρ Γ ret e s
    let (ts, s) ← inferList fx k lv ρ Γ ret es s
    some (t :: ts, s)
/-- The clauses of `infer_expr_match`, type_inference.rs:982-987. -/
def inferClauses (fx : Bool) (k lv : Nat) (ρ : Vers) (Γ : Env) (ret : Option Ty) : Clauses → Ty → Ty → St → Option St
  | .nil, _, _, s => some s
  | .cons p b cs, u, r, s => do
    let (t, Γ1, s) ← inferPat k lv p Γ s
    let s ← unify k u t s
    let (t, s) ← infer fx k lv ρ Γ1 ret b s
    let s ← unify k r t s
    inferClauses fx k lv ρ Γ ret cs u r s
/-- The local variables of `infer_expr_let`, type_inference.rs:855-864. -/
def inferVars (fx : Bool) (k lv : Nat) (ρ : Vers) (Γ : Env) (ret : Option Ty) : Vars → St → Option (Env × St)
  | .nil, s => some (Γ, s)
  | .cons x e ann vs, s => do
    let (t, s) ← infer fx k lv ρ Γ ret e s
    let s ← (match ann with
      | some a => unify k t (a.at ρ) s
      | none => some s)
    inferVars fx k lv ρ (Γ.set x (mono t)) ret vs s
/-- `infer_expl_local_function`, type_inference.rs:955-976, and `infer_expl_function`, 630-646 (where `register_scoped_gen_types` is not necessary:
the level is 0).  The scoped types are replaced twice there, which is the same. -/
def inferExpl (fx : Bool) (k lv : Nat) (ρ : Vers) (Γ : Env) : EFuns → St → Option St
  | .nil, s => some s
  | .cons _ gs t ps b es, s => do
    let (p, s) ← withParams k ps (t.at (ρ.set gs lv)) s
    let (t, s) ← infer fx k lv (ρ.set gs lv) (Γ.params ps p.1) (some p.2) b s
    let s ← unify k p.2 t s
    inferExpl fx k lv ρ Γ es s
/-- The bodies of a group, type_inference.rs:571-574, 923-926. -/
def inferBodies (fx : Bool) (k lv : Nat) (ρ : Vers) (Γ : Env) : Funs → List (List Ty × Ty) → St → Option St
  | .nil, _, s => some s
  | .cons _ ps b fs, p :: tys, s => do
    let (t, s) ← infer fx k lv ρ (Γ.params ps p.1) (some p.2) b s
    let s ← unify k p.2 t s
    inferBodies fx k lv ρ Γ fs tys s
  | .cons _ _ _ _, [], _ => none
/-- `infer_impl_local_functions`, type_inference.rs:906-953, and `infer_impl_functions`, 558-602, for group after group. -/
def inferGroups (fx : Bool) (k lv : Nat) (ρ : Vers) (Γ : Env) : Groups → St → Option (Env × St)
  | .nil, s => some (Γ, s)
  | .cons fs gs, s => do
    let (tys, s) ← prepare k lv fs s
    let s ← inferBodies fx k lv ρ (Γ.funs [] fs tys) fs tys s
    let (qs, s) := quantify (commonVars fx lv s (funTys fs tys)) s
    inferGroups fx k lv ρ (Γ.funs qs fs tys) gs s
end

/-- The expressions to evaluate, type_inference.rs:440-447: each in a scope of its own. -/
def inferInits (fx : Bool) (k : Nat) (Γ : Env) : Exprs → St → Option (List Ty × St)
  | .nil, s => some ([], s)
  | .cons e es, s => do
    let (t, s) ← infer fx k 0 (fun _ => none) Γ none e s
    let (ts, s) ← inferInits fx k Γ es s
    some (t :: ts, s)

/-- What is still unknown is `unit`: `default_vars`, type_inference.rs:467-488. -/
def defaults (s : St) : St := { s with σ := fun v => (s.σ v).subst fun _ => unitTy }

/-- The types of an environment in the end: `export`, type_inference.rs:43-65. -/
def Env.export (Γ : Env) (s : St) : Env := fun x => (Γ x).map fun sc => ⟨sc.gs, sc.t.subst s.σ⟩

/-- `run`, type_inference.rs:414-491, for functions and expressions to evaluate; type parameters made here are those from `B` on. -/
def run (fx : Bool) (k B : Nat) (Γ : Env) (p : Prog) : Option Env := do
  let (Γ, s) ← inferGroups fx k 0 (fun _ => none) (Γ.expl (fun _ => none) p.es) p.gs ⟨0, Ty.unk, fun _ => 0, B⟩
  let s ← inferExpl fx k 0 (fun _ => none) Γ p.es s
  let (_, s) ← inferInits fx k Γ p.inits s
  some (Γ.export (defaults s))

end Verif.Infer
