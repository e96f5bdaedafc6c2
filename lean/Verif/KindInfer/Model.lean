import Verif.KindInfer.Spec
import Verif.KindUnify.Model
import Verif.TopoSort.Model

/-!
# Model of `llrl0/src/module/sema/kind_inference.rs`

`none` stands for a panic or for a call of the unifier that did not return with the given fuel.  Where an error was found (`on`) is left out,
and so is the export of the two kinds for the message (kind_inference.rs:36-37).
-/
namespace Verif.KindInfer
open Verif Verif.KindUnify

/-- `Error::CannotUnifyKind` and `Error::UnsupportedKind`, kind_inference.rs:38 and 87. -/
inductive Err
  | cannotUnify (e : KindUnify.Error)
  | unsupported (k : AKind)

/-- `Context`, kind_inference.rs:19-26: the unifier, `u_kinds` and `inferred_kinds`. -/
structure St where
  pool : Pool
  kinds : Id → Option Kind
  recorded : Id → Option AKind

/-- Computations with fuel for the unifier.  The table of inferred kinds belongs to the module, so it survives an error. -/
def M (α : Type) := Nat → St → Option (Except Err α × St)

instance : Monad M where
  pure a := fun _ s => some (.ok a, s)
  bind m f := fun n s =>
    match m n s with
    | none => none
    | some (.error e, s) => some (.error e, s)
    | some (.ok a, s) => f a n s

def throwM {α} (e : Err) : M α := fun _ s => some (.error e, s)

def panicM {α} : M α := fun _ _ => none

/-- Loops over lists, e.g. kind_inference.rs:230-232. -/
def each {α} (f : α → M Unit) : List α → M Unit
  | [] => pure ()
  | a :: as => do
    f a
    each f as

def upd {α} (f : Id → Option α) (c : Id) (a : α) : Id → Option α := fun d => if d = c then some a else f d

/-- `unify`, kind_inference.rs:29-41. -/
def unifyM (a b : Kind) : M Unit := fun n s =>
  match unify n a b s.pool with
  | none => none
  | some (.ok (), p) => some (.ok (), { s with pool := p })
  | some (.error e, p) => some (.error (.cannotUnify e), { s with pool := p })

/-- `u_ctx.new_var()`. -/
def newVarM : M Kind := fun _ s => some (.ok (newVar s.pool).1, { s with pool := (newVar s.pool).2 })

/-- `build_kind!(u_ctx, (-> ...{args} {ret}))`. -/
def newFunM (args : List Kind) (ret : Kind) : M Kind := fun _ s =>
  some (.ok (newFun args ret s.pool).1, { s with pool := (newFun args ret s.pool).2 })

/-- `u_ctx.import(kind)`. -/
def importM (k : AKind) : M Kind := fun _ s =>
  match importKind k s.pool with
  | none => none
  | some (k, p) => some (.ok k, { s with pool := p })

/-- `u_ctx.default_vars(kind, u::Kind::Type).unwrap()`, kind_inference.rs:132. -/
def defaultM (k : Kind) : M Unit := fun n s =>
  match defaultVars .type n k s.pool with
  | some (.ok (), p) => some (.ok (), { s with pool := p })
  | _ => none

/-- `u_ctx.export(kind, &mut ast::Ast)`. -/
def exportM (k : Kind) : M AKind := fun n s =>
  match exportKind n k s.pool with
  | none => none
  | some (k, p) => some (.ok k, { s with pool := p })

mutual
/-- `ast::Kind::is_first_class`, llrl0/src/ast/kind.rs:34-42. -/
def isFirstClass : AKind → Bool
  | .type => true
  | .func args ret => areFirstClass args && isFirstClass ret
  | _ => false
def areFirstClass : List AKind → Bool
  | [] => true
  | a :: as => isFirstClass a && areFirstClass as
end

variable (ext : Id → Option SrcKind)

/-- The closure of `or_insert_with` and the insertion, kind_inference.rs:61-74.  `ext` has the kinds of the constructs of other modules;
they are always there, other modules being inferred before (the panic of line 71). -/
def freshKind (c : Id) : M Kind :=
  match ext c with
  | none => newVarM
  | some k => importM k.1

def setKind (c : Id) (k : Kind) : M Unit := fun _ s => some (.ok (), { s with kinds := upd s.kinds c k })

/-- `kind_of`, kind_inference.rs:55-75. -/
def kindOf (c : Id) : M Kind := fun n s =>
  match s.kinds c with
  | some k => some (.ok k, s)
  | none => (do let k ← freshKind ext c; setKind c k; pure k : M Kind) n s

def record (c : Id) (k : AKind) : M Unit := fun _ s => some (.ok (), { s with recorded := upd s.recorded c k })

/-- `fix_kind_of`, kind_inference.rs:77-91. -/
def fixKindOf (c : Id) (first : Bool) : M Unit := do
  let k ← kindOf ext c
  let k ← exportM k
  if k.noError = false then panicM
  else if (first && !isFirstClass k) = true then throwM (.unsupported k)
  else record c k

/-- The closure for one type parameter, kind_inference.rs:107-114. -/
def setupParam (p : TParam) : M Kind := do
  let k ← kindOf ext p.id
  match p.ann with
  | none => pure k
  | some a => do
    let a ← importM a.1
    unifyM k a
    pure k

def setupParams : List TParam → M (List Kind)
  | [] => pure []
  | p :: ps => do
    let k ← setupParam ext p
    let ks ← setupParams ps
    pure (k :: ks)

/-- The kind of the declaration, kind_inference.rs:101-120; `is_monomorphic` is ast.rs:97-99. -/
def genericKind (params : List TParam) (cons : Nat) (ret : Kind) : M Kind :=
  if (params.isEmpty && cons == 0) = true then pure ret
  else do
    let ks ← setupParams ext params
    newFunM (ks ++ List.replicate cons .satisfaction) ret

/-- `setup_generic`, kind_inference.rs:93-123; nobody uses the kind it returns. -/
def setupGeneric (c : Id) (params : List TParam) (cons : Nat) (ret : Kind) : M Unit := do
  let a ← kindOf ext c
  let b ← genericKind ext params cons ret
  unifyM a b

/-- The loop body of `fix_generic`, kind_inference.rs:130-134. -/
def fixParam (p : TParam) : M Unit := do
  let k ← kindOf ext p.id
  defaultM k
  fixKindOf ext p.id true

/-- `fix_generic`, kind_inference.rs:125-136. -/
def fixGeneric (c : Id) (params : List TParam) : M Unit := do
  each (fixParam ext) params
  fixKindOf ext c false

mutual
/-- Types, kind_inference.rs:437-459. -/
def inferTy : Ty → M Kind
  | .con c => kindOf ext c
  | .app callee args => do
    let callee ← inferTy callee
    let args ← inferTys args
    let ret ← newVarM
    let fn ← newFunM args ret
    unifyM callee fn
    pure ret
  | .gen p => kindOf ext p
def inferTys : List Ty → M (List Kind)
  | [] => pure []
  | t :: ts => do
    let k ← inferTy t
    let ks ← inferTys ts
    pure (k :: ks)
end

/-- `Annotation<Type>` and fields, kind_inference.rs:427-435 and 234-237. -/
def inferType (t : Ty) : M Unit := do
  let k ← inferTy ext t
  unifyM k .type

/-- Constraints, kind_inference.rs:461-476. -/
def inferCon (c : Con) : M Unit := do
  let con ← kindOf ext c.cls
  let args ← inferTys ext c.args
  let k ← newFunM args .constraint
  unifyM k con

/-- Schemes, kind_inference.rs:487-496. -/
def inferScheme (s : Scheme) : M Unit := do
  each (inferCon ext) s.cons
  inferType ext s.body

/-- An annotated function, kind_inference.rs:344-348, 383-387 and 365-367. -/
def inferAnn (c : Id) (s : Scheme) : M Unit := do
  setupGeneric ext c s.params s.cons.length .value
  inferScheme ext s
  fixGeneric ext c s.params

mutual
/-- Expressions, kind_inference.rs:392-414: subexpressions of the same level come first. -/
def inferExpr : Expr → M Unit
  | .node es => inferExprs es
  | .annotate b t => do
    inferExpr b
    inferType ext t
  | .let_ vs fs b => do
    inferInits vs
    inferExpr b
    inferFuns fs
    inferAnns vs
def inferExprs : Exprs → M Unit
  | .nil => pure ()
  | .cons e es => do
    inferExpr e
    inferExprs es
/-- The initial values of local variables (`ExprDfsSameLevel`, ast/expr.rs:96-101). -/
def inferInits : Vars → M Unit
  | .nil => pure ()
  | .cons _ e vs => do
    inferExpr e
    inferInits vs
/-- The annotations of local variables, kind_inference.rs:403-407. -/
def inferAnns : Vars → M Unit
  | .nil => pure ()
  | .cons none _ vs => inferAnns vs
  | .cons (some t) _ vs => do
    inferType ext t
    inferAnns vs
/-- Local functions, kind_inference.rs:400-402 and 379-390. -/
def inferFuns : Funs → M Unit
  | .nil => pure ()
  | .cons c ann e fs => do
    (match ann with
      | none => pure ()
      | some s => inferAnn ext c s)
    inferExpr e
    inferFuns fs
end

/-- A group of data types, kind_inference.rs:226-245. -/
def inferDatas (g : List Data) : M Unit := do
  each (fun d => setupGeneric ext d.id d.params 0 .type) g
  each (inferType ext) (g.flatMap (·.fields))
  each (fun d => fixGeneric ext d.id d.params) g

/-- A built-in type, kind_inference.rs:247-257. -/
def inferBuiltin (d : Builtin) : M Unit := do
  setupGeneric ext d.id d.params 0 .type
  fixGeneric ext d.id d.params

/-- `Option<Expr>`, kind_inference.rs:201-210. -/
def inferDefault (m : Method) : M Unit :=
  match m.default with
  | none => pure ()
  | some e => inferExpr ext e

/-- A group of classes, kind_inference.rs:272-303. -/
def inferClasses (g : List Class) : M Unit := do
  each (fun c => do
    setupGeneric ext c.id c.params 0 .constraint
    each (fun m => setupGeneric ext m.id m.ann.params m.ann.cons.length .value) c.methods) g
  each (fun c => do
    each (inferCon ext) c.superclasses
    each (fun m => inferScheme ext m.ann) c.methods) g
  each (fun c => do
    fixGeneric ext c.id c.params
    each (fun m => fixGeneric ext m.id m.ann.params) c.methods) g
  each (inferDefault ext) (g.flatMap (·.methods))

/-- What is done to the annotation of an instance method, `if let Some(ref scheme) = method.ann`. -/
def whenAnn (f : Fun) (g : Scheme → M Unit) : M Unit :=
  match f.ann with
  | none => pure ()
  | some s => g s

/-- Instances, kind_inference.rs:305-338. -/
def inferInst (i : Inst) : M Unit := do
  setupGeneric ext i.id i.params i.cons.length .satisfaction
  each (fun m => whenAnn m fun s => setupGeneric ext m.id s.params s.cons.length .value) i.methods
  each (inferCon ext) i.cons
  inferCon ext i.target
  each (fun m => whenAnn m (inferScheme ext)) i.methods
  fixGeneric ext i.id i.params
  each (fun m => whenAnn m fun s => fixGeneric ext m.id s.params) i.methods
  each (fun m => inferExpr ext m.body) i.methods

/-- Functions, kind_inference.rs:340-351. -/
def inferFun (f : Fun) : M Unit := do
  whenAnn f (inferAnn ext f.id)
  inferExpr ext f.body

mutual
/-- `Type::traverse_dependencies`, ast/types.rs:96-104: the type constructors in the order of `dfs` (types.rs:78-94). -/
def tyCons : Ty → List Id
  | .con c => [c]
  | .app t ts => tyCons t ++ tysCons ts
  | .gen _ => []
def tysCons : List Ty → List Id
  | [] => []
  | t :: ts => tyCons t ++ tysCons ts
end

/-- `DataType::traverse_dependencies`, ast/decl.rs:137-143. -/
def dataDeps (d : Data) : List Id := tysCons d.fields

/-- `Class::traverse_dependencies` and `constraints_on_interface`, decl.rs:330-344. -/
def classDeps (c : Class) : List Id := (c.superclasses ++ c.methods.flatMap (·.ann.cons)).map (·.cls)

/-- `for group in topological_sort::run(items) { self.infer(group)? }`, kind_inference.rs:161-163 and 171-173. -/
def groups {α} (deps : α → List Id) (id : α → Id) (items : List α) (f : List α → M Unit) : M Unit :=
  match TopoSort.run deps (items.map fun a => (id a, a)) with
  | none => panicM
  | some gs => each f gs

/-- The whole module, kind_inference.rs:153-199. -/
def inferRoot (r : Root) : M Unit := do
  each (inferBuiltin ext) r.builtins
  groups dataDeps (·.id) r.datas (inferDatas ext)
  each (fun b => each (inferType ext) b.fields) r.builtins
  groups classDeps (·.id) r.classes (inferClasses ext)
  each (inferFun ext) r.functions
  each (inferType ext) r.cFunctions
  each (fun o => inferAnn ext o.id o.ann) r.builtinOps
  each (inferExpr ext) r.macros
  each (inferInst ext) r.instances
  each (inferExpr ext) r.inits

def St.init : St := ⟨new, fun _ => none, fun _ => none⟩

/-- `run`, kind_inference.rs:7-17. -/
def run (n : Nat) (r : Root) : Option (Except Err Unit × (Id → Option AKind)) :=
  (inferRoot ext r n .init).map fun x => (x.1, x.2.recorded)

end Verif.KindInfer
