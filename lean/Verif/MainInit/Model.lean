import Verif.Util.HMap
/-!
# The statements of the main function

llrl0/src/lowering.rs (`process_requests`, `MainStatements`), llrl0/src/lowering/ir/def.rs (`Function::main`), and the places that add the
initialisation expressions of a module: llrl0/src/module/sema/importer.rs, llrl0/src/module/sema/ast_builder.rs.  `E` are the expressions; lowering them
(`populate`) and executing macros is left out.
-/
namespace Verif.MainInit

variable {E : Type}

/-- `ast::InitExpr`, llrl0/src/ast/expr.rs:455-458; modules are numbered. -/
inductive InitExpr (E : Type)
  | eval (e : E)
  | ensure (m : Nat)
deriving DecidableEq, Repr

/-- The initialisation expressions of a module: importer.rs:68-70 (the builtin module is number 0), 113 (one for each import), 117-119 (std), then the
top-level expressions, ast_builder.rs:76-79. -/
def moduleInits (mid std : Nat) (imports : List Nat) (implicitStd : Bool) (exprs : List E) : List (InitExpr E) :=
  (if mid ≠ 0 then [.ensure 0] else []) ++ imports.map .ensure ++ (if implicitStd then [.ensure std] else []) ++ exprs.map .eval

/-- The loop of `MainStatements::enqueue`, lowering.rs:174-179; the state is `visited` and `queue`. -/
def initLoop (visit : Nat → List Nat × List (InitExpr E) → Option (List Nat × List (InitExpr E))) :
    List (InitExpr E) → List Nat × List (InitExpr E) → Option (List Nat × List (InitExpr E))
  | [], s => some s
  | .eval e :: rest, s => initLoop visit rest (s.1, s.2 ++ [.eval e])
  | .ensure n :: rest, s =>
    match visit n (s.1, s.2 ++ [.ensure n]) with
    | none => none
    | some s => initLoop visit rest s

/-- `MainStatements::enqueue`, lowering.rs:169-180.  `none` is a panic (`map[&mid]`), or fuel running out. -/
def enqueue (map : HMap Nat (List (InitExpr E))) : Nat → Nat → List Nat × List (InitExpr E) → Option (List Nat × List (InitExpr E))
  | 0, _, _ => none
  | f + 1, m, s =>
    if m ∈ s.1 then some s
    else match HMap.get map m with
      | none => none
      | some inits => initLoop (enqueue map f) inits (m :: s.1, s.2)

/-- `Request`, lowering.rs:76-83. -/
inductive Req (E : Type)
  | add (m : Nat) (inits : List (InitExpr E)) (entry : Bool)
  | macro
deriving DecidableEq, Repr

/-- The state of `process_requests`: `pending` are the requests that were not received yet, `out` what was given to `backend.put_main`. -/
structure State (E : Type) where
  pending : List (Req E)
  modules : HMap Nat (List (InitExpr E))
  visited : List Nat
  queue : List (InitExpr E)
  out : List E

/-- The translation of an initialisation expression, lowering/translator.rs:447-456. -/
def InitExpr.evals : InitExpr E → List E
  | .eval e => [e]
  | .ensure _ => []

/-- One turn of the loop of `process_requests`, lowering.rs:109-151.  Whether `try_recv` finds the next request already is left open, so a statement
can be taken from the queue at any time. -/
inductive Step : State E → State E → Prop
  | addModule {s : State E} {m inits rest} : s.pending = .add m inits false :: rest →
      Step s { s with pending := rest, modules := HMap.insert s.modules m inits }
  | addEntry {s : State E} {m inits rest v q} : s.pending = .add m inits true :: rest →
      enqueue (HMap.insert s.modules m inits) ((HMap.insert s.modules m inits).length + 1) m (s.visited, s.queue) = some (v, q) →
      Step s { s with pending := rest, modules := HMap.insert s.modules m inits, visited := v, queue := q }
  | macro {s : State E} {rest} : s.pending = .macro :: rest → Step s { s with pending := rest }
  | dequeue {s : State E} {i rest} : s.queue = i :: rest → Step s { s with queue := rest, out := s.out ++ i.evals }

/-- The loop ends when the channel is closed and nothing is scheduled, lowering.rs:149. -/
def State.done (s : State E) : Prop := s.pending = [] ∧ s.queue = []

inductive Run (reqs : List (Req E)) : Nat → State E → Prop
  | nil : Run reqs 0 ⟨reqs, [], [], [], []⟩
  | cons {k s t} : Run reqs k s → Step s t → Run reqs (k + 1) t

/-- `Function::main`, lowering/ir/def.rs:122-138: the statements and the expression of the returned value.  `isBool` tells the expressions of type
`Ct::BOOL`, `false_` is `Rt::Const(Const::bool(false))`. -/
def mainFunction (isBool : E → Bool) (false_ : E) (inits : List E) : List E × E :=
  match inits.getLast? with
  | some last => if isBool last then (inits.dropLast, last) else (inits, false_)
  | none => (inits, false_)

end Verif.MainInit
