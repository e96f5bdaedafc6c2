import Verif.KindUnify.Spec

/-!
# Programs as kind inference sees them, and what it means that they are well kinded

The rules are stated for an arbitrary assignment `K` of kinds to the constructs of a program; they do not mention unification.
-/
namespace Verif.KindInfer
open Verif.KindUnify (AKind)

/-- `ast::Construct`: one number for every type parameter, type constructor, class, instance, function, method and local function. -/
abbrev Id := Nat

/-- `ast::Type`, llrl0/src/ast/types.rs:11-17, after resolving: `Use` has no values left (kind_inference.rs:442) and `Error` panics (456). -/
inductive Ty
  | con (c : Id)
  | app (callee : Ty) (args : List Ty)
  | gen (p : Id)

/-- `ast::Constraint`, types.rs:373-376 and 404-406: a class and its arguments. -/
structure Con where
  cls : Id
  args : List Ty

/-- A kind that occurs in a source or was recorded for another module: `Kind::Error` is for messages only (`import` panics on it,
llrl0/src/unification/kind.rs:171). -/
abbrev SrcKind := { k : AKind // k.noError = true }

/-- `ast::TypeParameter`, types.rs:415-418. -/
structure TParam where
  id : Id
  ann : Option SrcKind

/-- `ast::Scheme`, types.rs:421-425. -/
structure Scheme where
  params : List TParam
  cons : List Con
  body : Ty

mutual
/-- `ast::ExprRep`, llrl0/src/ast/expr.rs:154-167.  Only annotations and local definitions matter for kinds; `node` is every other form
with its subexpressions in the order of `ExprDfsSameLevel` (expr.rs:80-131). -/
inductive Expr
  | node (es : Exprs)
  | annotate (body : Expr) (ann : Ty)
  | let_ (vars : Vars) (funs : Funs) (body : Expr)
inductive Exprs
  | nil
  | cons (e : Expr) (es : Exprs)
/-- The local variables of a `let`, expr.rs:434-438. -/
inductive Vars
  | nil
  | cons (ann : Option Ty) (init : Expr) (rest : Vars)
/-- The local functions of a `let`, expr.rs:441-446. -/
inductive Funs
  | nil
  | cons (id : Id) (ann : Option Scheme) (body : Expr) (rest : Funs)
end

/-- A data type with the fields of all its value constructors, ast/decl.rs:56-61 and 117-120. -/
structure Data where
  id : Id
  params : List TParam
  fields : List Ty

/-- A built-in type with the fields of all its value constructors, decl.rs:146-151 and 192-195. -/
structure Builtin where
  id : Id
  params : List TParam
  fields : List Ty

/-- `ClassMethod`, decl.rs:257-264. -/
structure Method where
  id : Id
  ann : Scheme
  default : Option Expr

/-- A class with its methods, decl.rs:219-226 and 317-320. -/
structure Class where
  id : Id
  params : List TParam
  superclasses : List Con
  methods : List Method

/-- `InstanceMethod`, `Function`: an optional annotation and a body, decl.rs:6-12 and 366-374. -/
structure Fun where
  id : Id
  ann : Option Scheme
  body : Expr

/-- An instance with its methods, decl.rs:347-353. -/
structure Inst where
  id : Id
  params : List TParam
  cons : List Con
  target : Con
  methods : List Fun

/-- `BuiltinOp`, decl.rs:28-32. -/
structure BuiltinOp where
  id : Id
  ann : Scheme

/-- `ast::Root`, ast/root.rs:4-19; the order of the lists is the order in which the hash maps happen to be iterated. -/
structure Root where
  builtins : List Builtin
  datas : List Data
  classes : List Class
  functions : List Fun
  cFunctions : List Ty
  builtinOps : List BuiltinOp
  macros : List Expr
  instances : List Inst
  inits : List Expr

/-! ## What a program declares -/

/-- A declaration and its type parameters. -/
def Generic (c : Id) (params : List TParam) (d : Id) : Prop := d = c ∨ ∃ p ∈ params, d = p.id

mutual
/-- The annotated local functions of an expression and their type parameters. -/
def Expr.Declares (d : Id) : Expr → Prop
  | .node es => Exprs.Declares d es
  | .annotate b _ => b.Declares d
  | .let_ vs fs b => Vars.Declares d vs ∨ Funs.Declares d fs ∨ b.Declares d
def Exprs.Declares (d : Id) : Exprs → Prop
  | .nil => False
  | .cons e es => e.Declares d ∨ Exprs.Declares d es
def Vars.Declares (d : Id) : Vars → Prop
  | .nil => False
  | .cons _ e vs => e.Declares d ∨ Vars.Declares d vs
def Funs.Declares (d : Id) : Funs → Prop
  | .nil => False
  | .cons c ann e fs => (∃ s, ann = some s ∧ Generic c s.params d) ∨ e.Declares d ∨ Funs.Declares d fs
end

def Fun.Declares (d : Id) (f : Fun) : Prop := (∃ s, f.ann = some s ∧ Generic f.id s.params d) ∨ f.body.Declares d

def Method.Declares (d : Id) (m : Method) : Prop := Generic m.id m.ann.params d ∨ ∃ e, m.default = some e ∧ e.Declares d

/-- Everything a module declares that has a kind. -/
def Root.Declares (d : Id) (r : Root) : Prop :=
  (∃ b ∈ r.builtins, Generic b.id b.params d) ∨ (∃ t ∈ r.datas, Generic t.id t.params d) ∨
    (∃ c ∈ r.classes, Generic c.id c.params d ∨ ∃ m ∈ c.methods, m.Declares d) ∨ (∃ f ∈ r.functions, f.Declares d) ∨
    (∃ o ∈ r.builtinOps, Generic o.id o.ann.params d) ∨ (∃ e ∈ r.macros, e.Declares d) ∨
    (∃ i ∈ r.instances, Generic i.id i.params d ∨ ∃ m ∈ i.methods, m.Declares d) ∨ ∃ e ∈ r.inits, e.Declares d

mutual
/-- All type parameters of an expression satisfy `P`. -/
def Expr.All (P : TParam → Prop) : Expr → Prop
  | .node es => Exprs.All P es
  | .annotate b _ => b.All P
  | .let_ vs fs b => Vars.All P vs ∧ Funs.All P fs ∧ b.All P
def Exprs.All (P : TParam → Prop) : Exprs → Prop
  | .nil => True
  | .cons e es => e.All P ∧ Exprs.All P es
def Vars.All (P : TParam → Prop) : Vars → Prop
  | .nil => True
  | .cons _ e vs => e.All P ∧ Vars.All P vs
def Funs.All (P : TParam → Prop) : Funs → Prop
  | .nil => True
  | .cons _ ann e fs => (∀ s, ann = some s → ∀ p ∈ s.params, P p) ∧ e.All P ∧ Funs.All P fs
end

def Fun.All (P : TParam → Prop) (f : Fun) : Prop := (∀ s, f.ann = some s → ∀ p ∈ s.params, P p) ∧ f.body.All P

def Method.All (P : TParam → Prop) (m : Method) : Prop := (∀ p ∈ m.ann.params, P p) ∧ ∀ e, m.default = some e → e.All P

/-- All type parameters of a module satisfy `P`. -/
def Root.All (P : TParam → Prop) (r : Root) : Prop :=
  (∀ b ∈ r.builtins, ∀ p ∈ b.params, P p) ∧ (∀ t ∈ r.datas, ∀ p ∈ t.params, P p) ∧
    (∀ c ∈ r.classes, (∀ p ∈ c.params, P p) ∧ ∀ m ∈ c.methods, m.All P) ∧ (∀ f ∈ r.functions, f.All P) ∧
    (∀ o ∈ r.builtinOps, ∀ p ∈ o.ann.params, P p) ∧ (∀ e ∈ r.macros, e.All P) ∧
    (∀ i ∈ r.instances, (∀ p ∈ i.params, P p) ∧ ∀ m ∈ i.methods, m.All P) ∧ ∀ e ∈ r.inits, e.All P

/-! ## Kinding rules -/

/-- The kind of something with parameters. -/
def arrow (args : List AKind) (ret : AKind) : AKind := if args = [] then ret else .func args ret

mutual
/-- A kind that is built from `*` and functions only: what a type parameter can have. -/
def FirstClass : AKind → Prop
  | .type => True
  | .func args ret => FirstClasses args ∧ FirstClass ret
  | _ => False
def FirstClasses : List AKind → Prop
  | [] => True
  | a :: as => FirstClass a ∧ FirstClasses as
end

mutual
/-- The kind as it is written, a function without arguments being its result. -/
def written : AKind → AKind
  | .func args ret => arrow (writtens args) (written ret)
  | k => k
def writtens : List AKind → List AKind
  | [] => []
  | a :: as => written a :: writtens as
end

variable (K : Id → AKind)

mutual
/-- The kinds of types. -/
inductive HasKind : Ty → AKind → Prop
  | con (c : Id) : HasKind (.con c) (K c)
  | gen (p : Id) : HasKind (.gen p) (K p)
  | app {t : Ty} {ts : List Ty} {ks : List AKind} {k : AKind} : HasKind t (arrow ks k) → HasKinds ts ks → HasKind (.app t ts) k
inductive HasKinds : List Ty → List AKind → Prop
  | nil : HasKinds [] []
  | cons {t : Ty} {ts : List Ty} {k : AKind} {ks : List AKind} : HasKind t k → HasKinds ts ks → HasKinds (t :: ts) (k :: ks)
end

/-- A type that values can have. -/
def IsType (t : Ty) : Prop := HasKind K t .type

/-- A constraint gives the class arguments of the kinds it has parameters for. -/
def ConOk (c : Con) : Prop := ∃ ks, HasKinds K c.args ks ∧ K c.cls = arrow ks .constraint

/-- The kind of a construct with type parameters and constraints. -/
def GenericEq (c : Id) (params : List TParam) (cons : Nat) (ret : AKind) : Prop :=
  K c = arrow (params.map (fun p => K p.id) ++ List.replicate cons .satisfaction) ret ∧
    ∀ p ∈ params, ∀ a, p.ann = some a → K p.id = written a.1

/-- Type parameters have the kinds they are annotated with, and these are first class. -/
def GenericOk (c : Id) (params : List TParam) (cons : Nat) (ret : AKind) : Prop :=
  GenericEq K c params cons ret ∧ ∀ p ∈ params, FirstClass (K p.id)

def SchemeOk (s : Scheme) : Prop := (∀ c ∈ s.cons, ConOk K c) ∧ IsType K s.body

/-- Something with an annotated type. -/
def AnnOk (c : Id) (s : Scheme) : Prop := GenericOk K c s.params s.cons.length .value ∧ SchemeOk K s

mutual
def ExprOk : Expr → Prop
  | .node es => ExprsOk es
  | .annotate b t => ExprOk b ∧ IsType K t
  | .let_ vs fs b => VarsOk vs ∧ ExprOk b ∧ FunsOk fs
def ExprsOk : Exprs → Prop
  | .nil => True
  | .cons e es => ExprOk e ∧ ExprsOk es
def VarsOk : Vars → Prop
  | .nil => True
  | .cons ann e vs => (∀ t, ann = some t → IsType K t) ∧ ExprOk e ∧ VarsOk vs
def FunsOk : Funs → Prop
  | .nil => True
  | .cons c ann e fs => (∀ s, ann = some s → AnnOk K c s) ∧ ExprOk e ∧ FunsOk fs
end

def DataOk (d : Data) : Prop := GenericOk K d.id d.params 0 .type ∧ ∀ t ∈ d.fields, IsType K t

def BuiltinOk (d : Builtin) : Prop := GenericOk K d.id d.params 0 .type ∧ ∀ t ∈ d.fields, IsType K t

def ClassOk (c : Class) : Prop :=
  GenericOk K c.id c.params 0 .constraint ∧ (∀ s ∈ c.superclasses, ConOk K s) ∧
    ∀ m ∈ c.methods, AnnOk K m.id m.ann ∧ ∀ e, m.default = some e → ExprOk K e

def FunOk (f : Fun) : Prop := (∀ s, f.ann = some s → AnnOk K f.id s) ∧ ExprOk K f.body

def InstOk (i : Inst) : Prop :=
  GenericOk K i.id i.params i.cons.length .satisfaction ∧ (∀ c ∈ i.cons, ConOk K c) ∧ ConOk K i.target ∧ ∀ m ∈ i.methods, FunOk K m

/-- **A program is well kinded** with the kinds `K`. -/
def WellKinded (r : Root) : Prop :=
  (∀ d ∈ r.builtins, BuiltinOk K d) ∧ (∀ d ∈ r.datas, DataOk K d) ∧ (∀ c ∈ r.classes, ClassOk K c) ∧ (∀ f ∈ r.functions, FunOk K f) ∧
    (∀ t ∈ r.cFunctions, IsType K t) ∧ (∀ o ∈ r.builtinOps, AnnOk K o.id o.ann) ∧ (∀ e ∈ r.macros, ExprOk K e) ∧
    (∀ i ∈ r.instances, InstOk K i) ∧ ∀ e ∈ r.inits, ExprOk K e

/-- `K` gives the constructs of other modules the kinds they have there. -/
def Imports (ext : Id → Option SrcKind) : Prop := ∀ c k, ext c = some k → K c = written k.1

/-- `K` agrees with a table of kinds. -/
def Agrees (table : Id → Option AKind) : Prop := ∀ c k, table c = some k → K c = k

end Verif.KindInfer
