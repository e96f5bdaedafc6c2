import Verif.Closure.Scope

/-!
# Model of the inlining of transparent functions in `llrl0/src/lowering/normalizer.rs`

`Normalizer.after_rt` replaces a call of a transparent function by its body (normalizer.rs:103-122, 232-240).  The language and its meaning are those
of `Verif.Closure.Spec`.  By the time a call is looked at, local functions are lifted (`get_processing_def` normalises the definition first,
context.rs:133-153), so they are not inlined here: `none` where the code has nothing to do with them.  `none` also stands for a failed assertion.
-/
namespace Verif.Inline

open Verif.Closure

mutual
/-- `replace_rt`, ir/rewriter.rs:529-544: a parameter becomes the argument. -/
def replaceRt (m : List (Id × Expr)) : Expr → Expr
  | .var x => (look m x).getD (.var x)
  | .lfun f => .lfun f
  | .sfun c => .sfun c
  | .sfunEnv c e => .sfunEnv c (replaceRt m e)
  | .int n => .int n
  | .call f as => .call (replaceRt m f) (replaceRts m as)
  | .prim p as => .prim p (replaceRts m as)
  | .seq a b => .seq (replaceRt m a) (replaceRt m b)
  | .ite c t e => .ite (replaceRt m c) (replaceRt m t) (replaceRt m e)
  | .while c b => .while (replaceRt m c) (replaceRt m b)
  | .case e cs => .case (replaceRt m e) (replaceRtc m cs)
  | .ret e => .ret (replaceRt m e)
  | .never => .never
  | .letVar x e b => .letVar x (replaceRt m e) (replaceRt m b)
  | .letFun fs b => .letFun fs b
def replaceRts (m : List (Id × Expr)) : Exprs → Exprs
  | .nil => .nil
  | .cons e es => .cons (replaceRt m e) (replaceRts m es)
def replaceRtc (m : List (Id × Expr)) : Clauses → Clauses
  | .nil => .nil
  | .cons p b cs => .cons p (replaceRt m b) (replaceRtc m cs)
end

/-- `ReallocRts`: the next fresh name and the map, ir/rewriter.rs:550-551. -/
structure RS where
  next : Nat
  map : List (Id × Id)

/-- `after_rt_def`, ir/rewriter.rs:556-561: a name is defined once, or the assertion fails. -/
def defR (x : Id) (s : RS) : Option (Id × RS) :=
  if (look s.map x).isSome then none else some (s.next, ⟨s.next + 1, (x, s.next) :: s.map⟩)

/-- `after_rt_use`, ir/rewriter.rs:563-568. -/
def useR (s : RS) (x : Id) : Id := rename s.map x

mutual
def reallocPat : Pat → RS → Option (Pat × RS)
  | .wild, s => some (.wild, s)
  | .var x p, s => do
    let (y, s) ← defR x s
    let (p, s) ← reallocPat p s
    some (.var y p, s)
  | .int n, s => some (.int n, s)
  | .data t ps, s => do
    let (ps, s) ← reallocPats ps s
    some (.data t ps, s)
  | .deref p, s => do
    let (p, s) ← reallocPat p s
    some (.deref p, s)
def reallocPats : Pats → RS → Option (Pats × RS)
  | .nil, s => some (.nil, s)
  | .cons p ps, s => do
    let (p, s) ← reallocPat p s
    let (ps, s) ← reallocPats ps s
    some (.cons p ps, s)
end

mutual
/-- `realloc_rts`, ir/rewriter.rs:546-548, in the order of the traversal (ir/rewriter.rs:192-303; a variable is defined before its value is visited,
lines 486-492). -/
def realloc : Expr → RS → Option (Expr × RS)
  | .var x, s => some (.var (useR s x), s)
  | .lfun _, _ => none
  | .sfun c, s => some (.sfun c, s)
  | .sfunEnv c e, s => do
    let (e, s) ← realloc e s
    some (.sfunEnv c e, s)
  | .int n, s => some (.int n, s)
  | .call f as, s => do
    let (f, s) ← realloc f s
    let (as, s) ← reallocs as s
    some (.call f as, s)
  | .prim p as, s => do
    let (as, s) ← reallocs as s
    some (.prim p as, s)
  | .seq a b, s => do
    let (a, s) ← realloc a s
    let (b, s) ← realloc b s
    some (.seq a b, s)
  | .ite c t e, s => do
    let (c, s) ← realloc c s
    let (t, s) ← realloc t s
    let (e, s) ← realloc e s
    some (.ite c t e, s)
  | .while c b, s => do
    let (c, s) ← realloc c s
    let (b, s) ← realloc b s
    some (.while c b, s)
  | .case e cs, s => do
    let (e, s) ← realloc e s
    let (cs, s) ← reallocc cs s
    some (.case e cs, s)
  | .ret e, s => do
    let (e, s) ← realloc e s
    some (.ret e, s)
  | .never, s => some (.never, s)
  | .letVar x e b, s => do
    let (y, s) ← defR x s
    let (e, s) ← realloc e s
    let (b, s) ← realloc b s
    some (.letVar y e b, s)
  | .letFun _ _, _ => none
def reallocs : Exprs → RS → Option (Exprs × RS)
  | .nil, s => some (.nil, s)
  | .cons e es, s => do
    let (e, s) ← realloc e s
    let (es, s) ← reallocs es s
    some (.cons e es, s)
def reallocc : Clauses → RS → Option (Clauses × RS)
  | .nil, s => some (.nil, s)
  | .cons p b cs, s => do
    let (p, s) ← reallocPat p s
    let (b, s) ← realloc b s
    let (cs, s) ← reallocc cs s
    some (.cons p b cs, s)
end

def Exprs.toList : Exprs → List Expr
  | .nil => []
  | .cons e es => e :: toList es

/-- `call_transparent`, normalizer.rs:232-240: the body with the arguments for the parameters and with fresh names. -/
def callTransparent (d : Def) (as : Exprs) (next : Nat) : Option (Expr × Nat) :=
  if d.env.isSome then none
  else if d.params.length ≠ (Exprs.toList as).length then none
  else (realloc (replaceRt (d.params.zip (Exprs.toList as)) d.body) ⟨next, []⟩).map fun q => (q.1, q.2.next)

/-- `Normalizer.after_rt`, normalizer.rs:103-122, on a call whose parts are done; `tr` are the transparent functions, `P` the definitions, done
already.  What comes out of a call is looked at again, at its root (line 117).  With an environment the first assertion of `call_transparent` fails. -/
def afterRt (tr : Ct → Bool) (P : Prog) : Nat → Expr → Expr → Exprs → Nat → Option (Expr × Nat)
  | 0, _, _, _, _ => none
  | fuel + 1, e, .sfun c, as, next =>
    if tr c then match P c with
      | none => some (e, next)
      | some d => do
        let (e, next) ← callTransparent d as next
        match e with
        | .call f as => afterRt tr P fuel (.call f as) f as next
        | e => some (e, next)
    else some (e, next)
  | _ + 1, e, .sfunEnv c _, _, next => if tr c then none else some (e, next)
  | _ + 1, e, _, _, next => some (e, next)

mutual
/-- `Normalizer` on an expression without local functions: the parts first (ir/rewriter.rs:192-303), then `after_rt`. -/
def inl (tr : Ct → Bool) (P : Prog) (fuel : Nat) : Expr → Nat → Option (Expr × Nat)
  | .var x, n => some (.var x, n)
  | .lfun _, _ => none
  | .sfun c, n => some (.sfun c, n)
  | .sfunEnv c e, n => do
    let (e, n) ← inl tr P fuel e n
    some (.sfunEnv c e, n)
  | .int i, n => some (.int i, n)
  | .call f as, n => do
    let (f, n) ← inl tr P fuel f n
    let (as, n) ← inls tr P fuel as n
    afterRt tr P fuel (.call f as) f as n
  | .prim p as, n => do
    let (as, n) ← inls tr P fuel as n
    some (.prim p as, n)
  | .seq a b, n => do
    let (a, n) ← inl tr P fuel a n
    let (b, n) ← inl tr P fuel b n
    some (.seq a b, n)
  | .ite c t e, n => do
    let (c, n) ← inl tr P fuel c n
    let (t, n) ← inl tr P fuel t n
    let (e, n) ← inl tr P fuel e n
    some (.ite c t e, n)
  | .while c b, n => do
    let (c, n) ← inl tr P fuel c n
    let (b, n) ← inl tr P fuel b n
    some (.while c b, n)
  | .case e cs, n => do
    let (e, n) ← inl tr P fuel e n
    let (cs, n) ← inlc tr P fuel cs n
    some (.case e cs, n)
  | .ret e, n => do
    let (e, n) ← inl tr P fuel e n
    some (.ret e, n)
  | .never, n => some (.never, n)
  | .letVar x a b, n => do
    let (a, n) ← inl tr P fuel a n
    let (b, n) ← inl tr P fuel b n
    some (.letVar x a b, n)
  | .letFun _ _, _ => none
def inls (tr : Ct → Bool) (P : Prog) (fuel : Nat) : Exprs → Nat → Option (Exprs × Nat)
  | .nil, n => some (.nil, n)
  | .cons e es, n => do
    let (e, n) ← inl tr P fuel e n
    let (es, n) ← inls tr P fuel es n
    some (.cons e es, n)
def inlc (tr : Ct → Bool) (P : Prog) (fuel : Nat) : Clauses → Nat → Option (Clauses × Nat)
  | .nil, n => some (.nil, n)
  | .cons p b cs, n => do
    let (b, n) ← inl tr P fuel b n
    let (cs, n) ← inlc tr P fuel cs n
    some (.cons p b cs, n)
end

/-- A function normalised: context.rs:133-149. -/
def normFun (tr : Ct → Bool) (P : Prog) (fuel : Nat) (c : Ct) (next : Nat) : Option (Prog × Nat) := do
  let d ← P c
  let (b, next) ← inl tr P fuel d.body next
  some (fun c' => if c' = c then some { d with body := b } else P c', next)

end Verif.Inline
