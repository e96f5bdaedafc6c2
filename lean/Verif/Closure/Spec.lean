/-!
# A language with local functions and static functions, and what it means

The part of the IR (llrl0/src/lowering/ir/rt.rs) closure conversion works on.  Types are erased.  The state is a memory of values and the numbers
printed.  A run with fuel ends in a value, a `return`, is stuck (a program the type checker rejects), or is out of fuel; only calls and loops take
fuel.  Environments of static functions are values here: they are allocated on the heap but nothing writes to them.
-/
namespace Verif.Closure

/-- `RtId`. -/
abbrev Id := Nat

/-- `CtId` of a function. -/
abbrev Ct := Nat

mutual
/-- `RtPat`: `Wildcard`, `Var` (with the pattern under it), `Const`, `Data`, `Deref`. -/
inductive Pat
  | wild
  | var (x : Id) (p : Pat)
  | int (n : Int)
  | data (tag : Nat) (ps : Pats)
  | deref (p : Pat)
inductive Pats
  | nil
  | cons (p : Pat) (ps : Pats)
end

/-- Primitives: arithmetic, memory, output, `ConstructData`, and `ConstructEnv`. -/
inductive Prim
  | add | sub | mul | eq | lt
  | alloc | load | store
  | print
  | data (tag : Nat)
  | env
deriving DecidableEq, Repr

mutual
/-- `Rt`. -/
inductive Expr
  | var (x : Id)
  /-- `LocalFun` -/
  | lfun (f : Id)
  /-- `StaticFun` without an environment -/
  | sfun (c : Ct)
  /-- `StaticFun` with one -/
  | sfunEnv (c : Ct) (e : Expr)
  | int (n : Int)
  | call (f : Expr) (as : Exprs)
  | prim (p : Prim) (as : Exprs)
  | seq (a b : Expr)
  | ite (c t e : Expr)
  | while (c b : Expr)
  | case (e : Expr) (cs : Clauses)
  | ret (e : Expr)
  | never
  | letVar (x : Id) (e b : Expr)
  | letFun (fs : Funs) (b : Expr)
inductive Exprs
  | nil
  | cons (e : Expr) (es : Exprs)
inductive Clauses
  | nil
  | cons (p : Pat) (b : Expr) (cs : Clauses)
/-- A group of local functions: name, parameters, body. -/
inductive Funs
  | nil
  | cons (f : Id) (ps : List Id) (b : Expr) (fs : Funs)
end

mutual
inductive Val
  | int (n : Int)
  | data (tag : Nat) (vs : Vals)
  | ptr (a : Nat)
  | env (vs : Vals)
  | sclos (c : Ct)
  | sclosEnv (c : Ct) (vs : Vals)
  /-- a local function: its group, its name, what the group saw -/
  | lclos (fs : Funs) (f : Id) (ρ : Env)
inductive Vals
  | nil
  | cons (v : Val) (vs : Vals)
inductive Env
  | nil
  | var (x : Id) (v : Val) (ρ : Env)
  | funs (fs : Funs) (ρ : Env)
end

/-- `Function`: the environment (its own name and the names of what is in it), parameters, body. -/
structure Def where
  env : Option (Id × List Id)
  params : List Id
  body : Expr

/-- The static functions. -/
abbrev Prog := Ct → Option Def

/-- The state. -/
structure St where
  mem : List Val
  out : List Int

/-- How a run ends. -/
inductive Out (α : Type) where
  | timeout
  | stuck
  | ok (a : α) (s : St)
  | ret (v : Val) (s : St)

abbrev M (α : Type) := St → Out α

def M.bind {α β : Type} (m : M α) (k : α → M β) : M β := fun s =>
  match m s with
  | .timeout => .timeout
  | .stuck => .stuck
  | .ok a s => k a s
  | .ret v s => .ret v s

def M.pure {α : Type} (a : α) : M α := fun s => .ok a s

def M.stuck {α : Type} : M α := fun _ => .stuck

/-- The end of a function: `return` is a value. -/
def M.catch (m : M Val) : M Val := fun s =>
  match m s with
  | .ret v s => .ok v s
  | r => r

/-- The value or stuck. -/
def M.of {α : Type} : Option α → M α
  | some a => M.pure a
  | none => M.stuck

/-- The function of the group with the name. -/
def Funs.find : Funs → Id → Option (List Id × Expr)
  | .nil, _ => none
  | .cons f ps b fs, g => if f = g then some (ps, b) else fs.find g

def Env.lookupVar : Env → Id → Option Val
  | .nil, _ => none
  | .var x v ρ, z => if x = z then some v else ρ.lookupVar z
  | .funs _ ρ, z => ρ.lookupVar z

/-- A local function is found with the group that defines it and what the group sees. -/
def Env.lookupFun : Env → Id → Option Val
  | .nil, _ => none
  | .var _ _ ρ, g => ρ.lookupFun g
  | .funs fs ρ, g => match fs.find g with
    | some _ => some (.lclos fs g ρ)
    | none => ρ.lookupFun g

def Env.bindAll : List Id → Vals → Env → Option Env
  | [], .nil, ρ => some ρ
  | x :: xs, .cons v vs, ρ => bindAll xs vs (.var x v ρ)
  | _, _, _ => none

/-- A number as a truth value. -/
def ofBool (b : Bool) : Val := .int (if b then 1 else 0)

def unit : Val := .data 0 .nil

def primStep : Prim → Vals → M Val
  | .add, .cons (.int a) (.cons (.int b) .nil) => M.pure (.int (a + b))
  | .sub, .cons (.int a) (.cons (.int b) .nil) => M.pure (.int (a - b))
  | .mul, .cons (.int a) (.cons (.int b) .nil) => M.pure (.int (a * b))
  | .eq, .cons (.int a) (.cons (.int b) .nil) => M.pure (ofBool (a == b))
  | .lt, .cons (.int a) (.cons (.int b) .nil) => M.pure (ofBool (decide (a < b)))
  | .alloc, .cons v .nil => fun s => .ok (.ptr s.mem.length) { s with mem := s.mem ++ [v] }
  | .load, .cons (.ptr a) .nil => fun s => match s.mem[a]? with
    | some v => .ok v s
    | none => .stuck
  | .store, .cons v (.cons (.ptr a) .nil) => fun s => if a < s.mem.length then .ok unit { s with mem := s.mem.set a v } else .stuck
  | .print, .cons (.int n) .nil => fun s => .ok unit { s with out := s.out ++ [n] }
  | .data t, vs => M.pure (.data t vs)
  | .env, vs => M.pure (.env vs)
  | _, _ => M.stuck

/-- The result of matching. -/
inductive Matched where
  | stuck
  | no
  | yes (ρ : Env)

mutual
def pmatch (mem : List Val) : Pat → Val → Env → Matched
  | .wild, _, ρ => .yes ρ
  | .var x p, v, ρ => pmatch mem p v (.var x v ρ)
  | .int n, .int m, ρ => if n = m then .yes ρ else .no
  | .data t ps, .data u vs, ρ => if t = u then pmatchs mem ps vs ρ else .no
  | .deref p, .ptr a, ρ => match mem[a]? with
    | some v => pmatch mem p v ρ
    | none => .stuck
  | _, _, _ => .stuck
def pmatchs (mem : List Val) : Pats → Vals → Env → Matched
  | .nil, .nil, ρ => .yes ρ
  | .cons p ps, .cons v vs, ρ => match pmatch mem p v ρ with
    | .yes ρ => pmatchs mem ps vs ρ
    | r => r
  | _, _, _ => .stuck
end

/-- By the truth of a number. -/
def branch : Val → M Val → M Val → M Val
  | .int n, t, e => if n = 0 then e else t
  | _, _, _ => M.stuck

/-- A loop, at most so many times. -/
def loop : Nat → M Val → M Val → M Val
  | 0, _, _ => fun _ => .timeout
  | k + 1, c, b => c.bind fun v => branch v (b.bind fun _ => loop k c b) (M.pure unit)

mutual
/-- The value of an expression; `app` calls a function, loops turn at most `k` times. -/
def eval (app : Val → Vals → M Val) (k : Nat) : Expr → Env → M Val
  | .var x, ρ => M.of (ρ.lookupVar x)
  | .lfun f, ρ => M.of (ρ.lookupFun f)
  | .sfun c, _ => M.pure (.sclos c)
  | .sfunEnv c e, ρ => (eval app k e ρ).bind fun
    | .env vs => M.pure (.sclosEnv c vs)
    | _ => M.stuck
  | .int n, _ => M.pure (.int n)
  | .call f as, ρ => (eval app k f ρ).bind fun v => (evals app k as ρ).bind fun vs => app v vs
  | .prim p as, ρ => (evals app k as ρ).bind fun vs => primStep p vs
  | .seq a b, ρ => (eval app k a ρ).bind fun _ => eval app k b ρ
  | .ite c t e, ρ => (eval app k c ρ).bind fun v => branch v (eval app k t ρ) (eval app k e ρ)
  | .while c b, ρ => loop k (eval app k c ρ) (eval app k b ρ)
  | .case e cs, ρ => (eval app k e ρ).bind fun v => evalClauses app k cs v ρ
  | .ret e, ρ => (eval app k e ρ).bind fun v s => .ret v s
  | .never, _ => M.stuck
  | .letVar x e b, ρ => (eval app k e ρ).bind fun v => eval app k b (.var x v ρ)
  | .letFun fs b, ρ => eval app k b (.funs fs ρ)
def evals (app : Val → Vals → M Val) (k : Nat) : Exprs → Env → M Vals
  | .nil, _ => M.pure .nil
  | .cons e es, ρ => (eval app k e ρ).bind fun v => (evals app k es ρ).bind fun vs => M.pure (.cons v vs)
def evalClauses (app : Val → Vals → M Val) (k : Nat) : Clauses → Val → Env → M Val
  | .nil, _, _ => M.stuck
  | .cons p b cs, v, ρ => fun s => match pmatch s.mem p v ρ with
    | .yes ρ => eval app k b ρ s
    | .no => evalClauses app k cs v ρ s
    | .stuck => .stuck
end

/-- What a static function sees before its parameters. -/
def entry (env : Option (Id × List Id)) (vs : Vals) : Option Env :=
  match env with
  | none => some .nil
  | some (e, ys) => Env.bindAll ys vs (.var e (.env vs) .nil)

/-- Calls with fuel. -/
def apply (P : Prog) : Nat → Val → Vals → M Val
  | 0, _, _ => fun _ => .timeout
  | k + 1, .lclos fs f ρ, as => (M.of (fs.find f)).bind fun d => (M.of (Env.bindAll d.1 as (.funs fs ρ))).bind fun ρ =>
    (eval (apply P k) k d.2 ρ).catch
  | k + 1, .sclos c, as => (M.of (P c)).bind fun d => match d.env with
    | none => (M.of (Env.bindAll d.params as .nil)).bind fun ρ => (eval (apply P k) k d.body ρ).catch
    | some _ => M.stuck
  | k + 1, .sclosEnv c vs, as => (M.of (P c)).bind fun d => match d.env with
    | some env => (M.of (entry (some env) vs)).bind fun ρ => (M.of (Env.bindAll d.params as ρ)).bind fun ρ => (eval (apply P k) k d.body ρ).catch
    | none => M.stuck
  | _ + 1, _, _ => M.stuck

/-- The run of a program. -/
def run (P : Prog) (main : Expr) (k : Nat) : Out Val := (eval (apply P k) k main .nil).catch { mem := [], out := [] }

mutual
/-- What can be seen of a value: functions are not looked into. -/
inductive Seen
  | int (n : Int)
  | data (tag : Nat) (vs : Seens)
  | ptr (a : Nat)
  | env (vs : Seens)
  | fn
inductive Seens
  | nil
  | cons (v : Seen) (vs : Seens)
end

mutual
def Val.see : Val → Seen
  | .int n => .int n
  | .data t vs => .data t vs.see
  | .ptr a => .ptr a
  | .env vs => .env vs.see
  | .sclos _ => .fn
  | .sclosEnv _ _ => .fn
  | .lclos _ _ _ => .fn
def Vals.see : Vals → Seens
  | .nil => .nil
  | .cons v vs => .cons v.see vs.see
end

/-- Two runs that cannot be told apart: both go on, or both end with the same result, the same output and the same memory. -/
def Same : Out Val → Out Val → Prop
  | .timeout, .timeout => True
  | .ok v s, .ok v' s' => v.see = v'.see ∧ s.out = s'.out ∧ s.mem.map Val.see = s'.mem.map Val.see
  | _, _ => False

end Verif.Closure
