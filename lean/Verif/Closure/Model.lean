import Verif.Closure.Spec

/-!
# Model of closure conversion in `llrl0/src/lowering/normalizer.rs`

`Normalizer.before_rt` converts a group of local functions (outermost first) and goes on with the result; the lifted functions are normalised as
definitions of their own.
Simplified: types, generic parameters and their instances are erased (a generic local function is lifted to a generic definition, the conversion
does not look at types); definitions are normalised in the order of a queue, in the code when they are first used (context.rs:138-158), which
changes only the numbers of fresh names; the inlining of transparent functions (`after_rt`, normalizer.rs:103-122) is not modelled here.
The order in which a `HashSet` is iterated is a parameter.
-/
namespace Verif.Closure

mutual
/-- The variables a pattern defines, ir/traverser.rs:426-470 (`Var` before the pattern under it). -/
def Pat.vars : Pat → List Id
  | .wild => []
  | .var x p => x :: p.vars
  | .int _ => []
  | .data _ ps => ps.vars
  | .deref p => p.vars
def Pats.vars : Pats → List Id
  | .nil => []
  | .cons p ps => p.vars ++ ps.vars
end

mutual
/-- `CapturedVars.uses`, ir/traverser.rs:530-533: variables (line 191) and local functions (line 195). -/
def Expr.uses : Expr → List Id
  | .var x => [x]
  | .lfun f => [f]
  | .sfun _ => []
  | .sfunEnv _ e => e.uses
  | .int _ => []
  | .call f as => f.uses ++ as.uses
  | .prim _ as => as.uses
  | .seq a b => a.uses ++ b.uses
  | .ite c t e => c.uses ++ (t.uses ++ e.uses)
  | .while c b => c.uses ++ b.uses
  | .case e cs => e.uses ++ cs.uses
  | .ret e => e.uses
  | .never => []
  | .letVar _ e b => e.uses ++ b.uses
  | .letFun fs b => fs.uses ++ b.uses
def Exprs.uses : Exprs → List Id
  | .nil => []
  | .cons e es => e.uses ++ es.uses
def Clauses.uses : Clauses → List Id
  | .nil => []
  | .cons _ b cs => b.uses ++ cs.uses
def Funs.uses : Funs → List Id
  | .nil => []
  | .cons _ _ b fs => b.uses ++ fs.uses
end

mutual
/-- `CapturedVars.defs`, ir/traverser.rs:535-538: parameters, names of local functions, variables of `let` and of patterns. -/
def Expr.defs : Expr → List Id
  | .var _ => []
  | .lfun _ => []
  | .sfun _ => []
  | .sfunEnv _ e => e.defs
  | .int _ => []
  | .call f as => f.defs ++ as.defs
  | .prim _ as => as.defs
  | .seq a b => a.defs ++ b.defs
  | .ite c t e => c.defs ++ (t.defs ++ e.defs)
  | .while c b => c.defs ++ b.defs
  | .case e cs => e.defs ++ cs.defs
  | .ret e => e.defs
  | .never => []
  | .letVar x e b => x :: (e.defs ++ b.defs)
  | .letFun fs b => fs.defs ++ b.defs
def Exprs.defs : Exprs → List Id
  | .nil => []
  | .cons e es => e.defs ++ es.defs
def Clauses.defs : Clauses → List Id
  | .nil => []
  | .cons p b cs => p.vars ++ (b.defs ++ cs.defs)
def Funs.defs : Funs → List Id
  | .nil => []
  | .cons f ps b fs => ps ++ (f :: (b.defs ++ fs.defs))
end

/-- The names of a group. -/
def Funs.names : Funs → List Id
  | .nil => []
  | .cons f _ _ fs => f :: fs.names

/-- One of each. -/
def dedup : List Id → List Id
  | [] => []
  | x :: xs => if x ∈ xs then dedup xs else x :: dedup xs

/-- `captured_vars`, ir/traverser.rs:507-518: the uses that are not defined in the group. -/
def captured (fs : Funs) : List Id := dedup (fs.uses.filter fun x => x ∉ fs.defs)

/-- A lookup in a map given as a list. -/
def look {α : Type} : List (Id × α) → Id → Option α
  | [], _ => none
  | (x, a) :: r, z => if x = z then some a else look r z

/-- The variable for a captured one, and itself for the others. -/
def rename (r : List (Id × Id)) (z : Id) : Id := (look r z).getD z

mutual
/-- `ClosureConversion.after_rt`, normalizer.rs:207-229, with the traversal of ir/rewriter.rs: captured variables and the functions of the group are
replaced. -/
def cc (r : List (Id × Id)) (lifted : List (Id × Ct)) (ee : Option Id) : Expr → Expr
  | .var x => .var (rename r x)
  | .lfun f => match look lifted f with
    | some c => match ee with
      | some e => .sfunEnv c (.var e)
      | none => .sfun c
    | none => .lfun f
  | .sfun c => .sfun c
  | .sfunEnv c e => .sfunEnv c (cc r lifted ee e)
  | .int n => .int n
  | .call f as => .call (cc r lifted ee f) (ccs r lifted ee as)
  | .prim p as => .prim p (ccs r lifted ee as)
  | .seq a b => .seq (cc r lifted ee a) (cc r lifted ee b)
  | .ite c t e => .ite (cc r lifted ee c) (cc r lifted ee t) (cc r lifted ee e)
  | .while c b => .while (cc r lifted ee c) (cc r lifted ee b)
  | .case e cs => .case (cc r lifted ee e) (ccClauses r lifted ee cs)
  | .ret e => .ret (cc r lifted ee e)
  | .never => .never
  | .letVar x e b => .letVar x (cc r lifted ee e) (cc r lifted ee b)
  | .letFun fs b => .letFun (ccFuns r lifted ee fs) (cc r lifted ee b)
def ccs (r : List (Id × Id)) (lifted : List (Id × Ct)) (ee : Option Id) : Exprs → Exprs
  | .nil => .nil
  | .cons e es => .cons (cc r lifted ee e) (ccs r lifted ee es)
def ccClauses (r : List (Id × Id)) (lifted : List (Id × Ct)) (ee : Option Id) : Clauses → Clauses
  | .nil => .nil
  | .cons p b cs => .cons p (cc r lifted ee b) (ccClauses r lifted ee cs)
def ccFuns (r : List (Id × Id)) (lifted : List (Id × Ct)) (ee : Option Id) : Funs → Funs
  | .nil => .nil
  | .cons f ps b fs => .cons f ps (cc r lifted ee b) (ccFuns r lifted ee fs)
end

/-- The state of the normaliser: the next fresh names (`RtIdGen`, `CtIdGen`) and the definitions to be normalised. -/
structure S where
  rt : Nat
  ct : Nat
  queue : List (Ct × Def)

/-- So many fresh names from the given one. -/
def fresh : Nat → Nat → List Nat
  | _, 0 => []
  | n, k + 1 => n :: fresh (n + 1) k

/-- Insertion into the `BTreeMap` of captured variables. -/
def insert (p : Id × Id) : List (Id × Id) → List (Id × Id)
  | [] => [p]
  | q :: r => if p.1 < q.1 then p :: q :: r else q :: insert p r

def sort : List (Id × Id) → List (Id × Id)
  | [] => []
  | p :: r => insert p (sort r)

/-- What `ClosureConversion` holds, normalizer.rs:129-133. -/
structure Conv where
  lifted : List (Id × Ct)
  caps : List (Id × Id)
  env : Option Id

/-- `ClosureConversion::new`, normalizer.rs:136-155, and the state after it.  `order` is the order of the `HashSet`. -/
def newConv (order : List Id → List Id) (fs : Funs) (s : S) : Conv × S :=
  let names := fs.names
  let vars := order (captured fs)
  let n := vars.length
  let caps := sort (vars.zip (fresh s.rt n))
  let env := if caps.isEmpty then none else some (s.rt + n)
  (⟨names.zip (fresh s.ct names.length), caps, env⟩,
    { s with rt := if caps.isEmpty then s.rt + n else s.rt + n + 1, ct := s.ct + names.length })

/-- The definitions of the lifted functions, normalizer.rs:175-189. -/
def lift (c : Conv) : Funs → List (Ct × Def)
  | .nil => []
  | .cons f ps b fs =>
    ((look c.lifted f).getD 0, ⟨c.env.map fun e => (e, c.caps.map (·.2)), ps, cc c.caps c.lifted c.env b⟩) :: lift c fs

def varsOf : List Id → Exprs
  | [] => .nil
  | x :: xs => .cons (.var x) (varsOf xs)

/-- What replaces the group, normalizer.rs:191-203 (`captured_vars` is cleared first). -/
def group (c : Conv) (b : Expr) : Expr :=
  let b := cc [] c.lifted c.env b
  match c.env with
  | some e => .letVar e (.prim .env (varsOf (c.caps.map (·.1)))) b
  | none => b

mutual
/-- `normalize` on an expression: `Normalizer.before_rt`, normalizer.rs:91-101, with the traversal of ir/rewriter.rs.  `none`: out of fuel. -/
def norm (order : List Id → List Id) : Nat → Expr → S → Option (Expr × S)
  | 0, _, _ => none
  | _ + 1, .var x, s => some (.var x, s)
  | _ + 1, .lfun f, s => some (.lfun f, s)
  | _ + 1, .sfun c, s => some (.sfun c, s)
  | n + 1, .sfunEnv c e, s => do
    let (e, s) ← norm order n e s
    some (.sfunEnv c e, s)
  | _ + 1, .int i, s => some (.int i, s)
  | n + 1, .call f as, s => do
    let (f, s) ← norm order n f s
    let (as, s) ← norms order n as s
    some (.call f as, s)
  | n + 1, .prim p as, s => do
    let (as, s) ← norms order n as s
    some (.prim p as, s)
  | n + 1, .seq a b, s => do
    let (a, s) ← norm order n a s
    let (b, s) ← norm order n b s
    some (.seq a b, s)
  | n + 1, .ite c t e, s => do
    let (c, s) ← norm order n c s
    let (t, s) ← norm order n t s
    let (e, s) ← norm order n e s
    some (.ite c t e, s)
  | n + 1, .while c b, s => do
    let (c, s) ← norm order n c s
    let (b, s) ← norm order n b s
    some (.while c b, s)
  | n + 1, .case e cs, s => do
    let (e, s) ← norm order n e s
    let (cs, s) ← normClauses order n cs s
    some (.case e cs, s)
  | n + 1, .ret e, s => do
    let (e, s) ← norm order n e s
    some (.ret e, s)
  | _ + 1, .never, s => some (.never, s)
  | n + 1, .letVar x e b, s => do
    let (e, s) ← norm order n e s
    let (b, s) ← norm order n b s
    some (.letVar x e b, s)
  | n + 1, .letFun fs b, s =>
    let (c, s) := newConv order fs s
    norm order n (group c b) { s with queue := s.queue ++ lift c fs }
def norms (order : List Id → List Id) : Nat → Exprs → S → Option (Exprs × S)
  | 0, _, _ => none
  | _ + 1, .nil, s => some (.nil, s)
  | n + 1, .cons e es, s => do
    let (e, s) ← norm order n e s
    let (es, s) ← norms order n es s
    some (.cons e es, s)
def normClauses (order : List Id → List Id) : Nat → Clauses → S → Option (Clauses × S)
  | 0, _, _ => none
  | _ + 1, .nil, s => some (.nil, s)
  | n + 1, .cons p b cs, s => do
    let (b, s) ← norm order n b s
    let (cs, s) ← normClauses order n cs s
    some (.cons p b cs, s)
end

/-- The definitions waiting are normalised until there is none, context.rs:138-158. -/
def drive (order : List Id → List Id) : Nat → S → List (Ct × Def) → Option (List (Ct × Def))
  | 0, _, _ => none
  | n + 1, s, done => match s.queue with
    | [] => some done
    | (c, d) :: q => do
      let (b, s) ← norm order n d.body { s with queue := q }
      drive order n s (done ++ [(c, { d with body := b })])

/-- A program: definitions and the expression to run. -/
structure Program where
  defs : List (Ct × Def)
  main : Expr

/-- `populate`, context.rs:48-58, as far as normalisation goes. -/
def normalize (order : List Id → List Id) (n : Nat) (rt ct : Nat) (P : Program) : Option Program := do
  let (main, s) ← norm order n P.main ⟨rt, ct, P.defs⟩
  let defs ← drive order n s []
  some ⟨defs, main⟩

end Verif.Closure
