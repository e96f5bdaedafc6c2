import Verif.Util.HMap
import Verif.TopoSort.Model
/-!
# Representation of data types (llrl0/src/lowering/data_expander.rs)

The types `Ct`, the data definitions, the choice of a representation (`computeDataExpansion`, `compute`), the lowering of
constructor applications, patterns and types, and what the lowered expressions and patterns do when they run.

Simplifications.  Of `Ct` the forms erased by the normalizer (`GenericInst`, `TableGet`) are left out and the scalar types
without contents are numbered.  Of `Rt` and `RtPat` there are the forms the expansion takes apart or produces, plus
variables, other constants (`prim`, numbered) and `match`; the remaining forms are passed through by the rewriter in the same way as
`match`.  The rewriter (`before_*` then children) is written as a recursive function, see `lowerE` and `lowerP`.
`(n as f64).log2().ceil()` is the exact rounded up logarithm (`f64` is exact for the number of constructors a program can have).
A panic is `none`.
-/
namespace Verif.DataExpander

open Verif

/-- llrl0/src/lowering/ir/ct.rs:31-48 `Ct`; `prim` stands for `F32`, `F64`, `String`, `Char`, `CapturedUse` and `Env`. -/
inductive Ct where
  | id (k : Nat)
  | ptr (t : Ct)
  | clos (args : List Ct) (ret : Ct)
  | s (n : Nat)
  | u (n : Nat)
  | array (t : Ct)
  | unit
  | syntax (t : Ct)
  | prim (k : Nat)


mutual
/-- llrl0/src/lowering/ir/traverser.rs:541-557 `visit_ct_uses` on a type: the ids used. -/
def Ct.ids : Ct → List Nat
  | .id k => [k]
  | .ptr t | .array t | .syntax t => t.ids
  | .clos args ret => idsList args ++ ret.ids
  | .s _ | .u _ | .unit | .prim _ => []
/-- The ids used in a list of types. -/
def idsList : List Ct → List Nat
  | [] => []
  | t :: ts => t.ids ++ idsList ts
end

/-- ir/def.rs:63-67 `DataRepr`. -/
inductive DataRepr where
  | boxed
  | value
  | c
  deriving DecidableEq

/-- ir/def.rs:57-60 `Data`. -/
structure Data where
  repr : DataRepr
  cons : List (List Ct)


/-- `traverse_dependencies`, data_expander.rs:440-444. -/
def Data.uses (d : Data) : List Nat := idsList d.cons.flatten

/-- data_expander.rs:260-265 `TaggedDataBody`. -/
inductive Body where
  | alias (i : Nat) (t : Ct)
  | struct (i : Nat) (id : Nat)
  | union (id : Nat) (structs : List Nat)


/-- data_expander.rs:89-98 `DataExpansion`. -/
inductive Expansion where
  | unit
  | enum (n : Nat)
  | alias (t : Ct)
  | boxedStruct (id : Nat)
  | struct (id : Nat)
  | boxedTagged (id n : Nat) (body : Body)
  | tagged (id n : Nat) (body : Body)


/-! ## Choice of a representation -/

/-- The rounded up logarithm of data_expander.rs:240. -/
def ceilLog2 (n : Nat) : Nat := if 2 ^ Nat.log2 n = n then Nat.log2 n else Nat.log2 n + 1

/-- data_expander.rs:237-242 `enum_ct`. -/
def enumCt : Nat → Ct
  | 0 | 1 => .unit
  | n + 2 => .u (ceilLog2 (n + 2))

/-- data_expander.rs:289-298 `TaggedDataBody::to_ct`. -/
def Body.toCt : Body → Ct
  | .alias _ t => t
  | .struct _ id => .id id
  | .union id _ => .id id

/-- data_expander.rs:135-152 `DataExpansion::to_ct`. -/
def Expansion.toCt : Expansion → Ct
  | .unit => .unit
  | .enum n => enumCt n
  | .boxedStruct id => .ptr (.id id)
  | .struct id => .id id
  | .alias t => t
  | .boxedTagged id _ _ => .id id
  | .tagged id _ _ => .id id

/-- A definition added with `add_def`; `StructRepr` is left out. -/
inductive Def where
  | struct (fields : List Ct)
  | union (cases : List Ct)

/-- context.rs:283-288 `add_def`: the next id and the definitions added so far. -/
structure Env where
  next : Nat
  defs : List (Nat × Def)

/-- context.rs:284-288 `add_def`. -/
def Env.addDef (e : Env) (d : Def) : Nat × Env := (e.next, ⟨e.next + 1, (e.next, d) :: e.defs⟩)

/-- data_expander.rs:276-279, the structs of `union_on`. -/
def addStructs : List (List Ct) → Env → List Nat × Env
  | [], e => ([], e)
  | fs :: rest, e => ((e.addDef (.struct fs)).1 :: (addStructs rest (e.addDef (.struct fs)).2).1, (addStructs rest (e.addDef (.struct fs)).2).2)

/-- data_expander.rs:275-287 `union_on`. -/
def unionOn (cons : List (List Ct)) (e : Env) : Body × Env :=
  (.union ((addStructs cons e).2.addDef (.union ((addStructs cons e).1.map .id))).1 (addStructs cons e).1,
    ((addStructs cons e).2.addDef (.union ((addStructs cons e).1.map .id))).2)

/-- data_expander.rs:415-426, the single constructor with fields. -/
def singleBody (index : Nat) (fields : List Ct) (e : Env) : Body × Env :=
  match fields with
  | [field] => (.alias index field, e)
  | fields => (.struct index (e.addDef (.struct fields)).1, (e.addDef (.struct fields)).2)

/-- data_expander.rs:432-435. -/
def wrap (r : DataRepr) (size : Nat) (b : Body × Env) : Expansion × Env :=
  match r with
  | .boxed => (.boxedTagged (b.2.addDef (.struct [enumCt size, .ptr b.1.toCt])).1 size b.1, (b.2.addDef (.struct [enumCt size, .ptr b.1.toCt])).2)
  | _ => (.tagged (b.2.addDef (.struct [enumCt size, b.1.toCt])).1 size b.1, (b.2.addDef (.struct [enumCt size, b.1.toCt])).2)

/-- data_expander.rs:390-406, data with one constructor. -/
def oneCon (r : DataRepr) (named : Bool) (fields : List Ct) (e : Env) : Expansion × Env :=
  if fields.length = 0 ∧ r ≠ .c then (.unit, e)
  else
    match fields, decide (r = .value) && !named with
    | [field], true => (.alias field, e)
    | fields, _ =>
      match r with
      | .boxed => (.boxedStruct (e.addDef (.struct fields)).1, (e.addDef (.struct fields)).2)
      | _ => (.struct (e.addDef (.struct fields)).1, (e.addDef (.struct fields)).2)

/-- data_expander.rs:386-437 `compute_data_expansion`; `none` is the panic of line 408. -/
def computeDataExpansion (d : Data) (named : Bool) (e : Env) : Option (Expansion × Env) :=
  match d.cons with
  | [] => some (.unit, e)
  | [fields] => some (oneCon d.repr named fields e)
  | cons =>
    if d.repr = .c then none
    else
      match (cons.filter fun fs => !fs.isEmpty).length with
      | 0 => some (.enum cons.length, e)
      | 1 =>
        match cons.findIdx? (fun fs => !fs.isEmpty) with
        | none => none
        | some index => some (wrap d.repr cons.length (singleBody index (cons[index]?.getD []) e))
      | _ => some (wrap d.repr cons.length (unionOn cons e))

/-- data_expander.rs:27-31, one group. -/
def computeGroup (named : Bool) : List (Nat × Data) → HMap Nat Expansion → Env → Option (HMap Nat Expansion × Env)
  | [], m, e => some (m, e)
  | (id, d) :: rest, m, e =>
    match computeDataExpansion d named e with
    | none => none
    | some (x, e') => computeGroup named rest (m.insert id x) e'

/-- data_expander.rs:381-384 `has_recursion`. -/
def hasRecursion (p : Nat × Data) : Bool := p.2.uses.contains p.1

/-- data_expander.rs:22-23. -/
def shouldBeNamed (g : List (Nat × Data)) : Bool :=
  decide (g.length ≥ 2) || match g with
    | [] => false
    | p :: _ => hasRecursion p

/-- data_expander.rs:22-32, the groups in order. -/
def computeGroups : List (List (Nat × Data)) → HMap Nat Expansion → Env → Option (HMap Nat Expansion × Env)
  | [], m, e => some (m, e)
  | g :: rest, m, e =>
    match computeGroup (shouldBeNamed g) g m e with
    | none => none
    | some (m', e') => computeGroups rest m' e'

/-- data_expander.rs:16-32 `compute`. -/
def compute (data : List (Nat × Data)) (m : HMap Nat Expansion) (e : Env) : Option (HMap Nat Expansion × Env) :=
  match TopoSort.run (fun p : Nat × Data => p.2.uses) (data.map fun p => (p.1, p)) with
  | none => none
  | some gs => computeGroups gs m e

/-! ## Types -/

mutual
/-- `before_ct` and the traversal of the children, data_expander.rs:46-57.  `none` when the fuel is used up: the real rewriter
would not return. -/
def expandCt (m : HMap Nat Expansion) : Nat → Ct → Option Ct
  | 0, _ => none
  | n + 1, .id k =>
    match m.get k with
    | some x => expandCt m n x.toCt
    | none => some (.id k)
  | n + 1, .ptr t => (expandCt m n t).map .ptr
  | n + 1, .array t => (expandCt m n t).map .array
  | n + 1, .syntax t => (expandCt m n t).map .syntax
  | n + 1, .clos args ret =>
    match expandCts m n args, expandCt m n ret with
    | some args', some ret' => some (.clos args' ret')
    | _, _ => none
  | _ + 1, .s k => some (.s k)
  | _ + 1, .u k => some (.u k)
  | _ + 1, .unit => some .unit
  | _ + 1, .prim k => some (.prim k)
/-- The children of a closure type. -/
def expandCts (m : HMap Nat Expansion) : Nat → List Ct → Option (List Ct)
  | 0, _ => none
  | _ + 1, [] => some []
  | n + 1, t :: ts =>
    match expandCt m n t, expandCts m n ts with
    | some t', some ts' => some (t' :: ts')
    | _, _ => none
end

/-! ## Expressions and patterns before the expansion -/

/-- ir/rt.rs:476-487 `RtPat` before the expansion; `prim` is a constant, `var` binds (and may have an inner pattern). -/
inductive SPat where
  | var (x : Nat)
  | as (x : Nat) (p : SPat)
  | wild
  | prim (k : Nat)
  | data (id i : Nat) (args : List SPat)

mutual
/-- ir/rt.rs:34-67 `Rt` before the expansion: variables, constants, `ConstructData` and `Match`. -/
inductive SExp where
  | var (x : Nat)
  | prim (k : Nat)
  | con (id i : Nat) (args : SExps)
  | case (e : SExp) (cs : SClauses)
/-- A list of expressions. -/
inductive SExps where
  | nil
  | cons (e : SExp) (es : SExps)
/-- The clauses of a match. -/
inductive SClauses where
  | nil
  | cons (p : SPat) (e : SExp) (cs : SClauses)
end

/-! ## Expressions and patterns after the expansion -/

/-- Constants: the ones of data_expander.rs:252-257 and the others (`prim`). -/
inductive Const where
  | unit
  | int (bits v : Nat)
  | prim (k : Nat)
  deriving DecidableEq

/-- ir/rt.rs:476-487 `RtPat` after the expansion. -/
inductive LPat where
  | var (x : Nat)
  | as (x : Nat) (p : LPat)
  | wild
  | const (c : Const)
  | deref (p : LPat)
  | struct (id : Nat) (args : List LPat)
  | reint (id : Nat) (p : LPat)

mutual
/-- ir/rt.rs:34-67 `Rt` after the expansion. -/
inductive LExp where
  | var (x : Nat)
  | const (c : Const)
  | alloc (e : LExp)
  | struct (id : Nat) (args : LExps)
  | uninit
  | reint (id : Nat) (e : LExp)
  | case (e : LExp) (cs : LClauses)
/-- A list of expressions. -/
inductive LExps where
  | nil
  | cons (e : LExp) (es : LExps)
/-- The clauses of a match. -/
inductive LClauses where
  | nil
  | cons (p : LPat) (e : LExp) (cs : LClauses)
end

/-- `args.pop().unwrap()`, data_expander.rs:180, 304. -/
def LExps.last? : LExps → Option LExp
  | .nil => none
  | .cons e .nil => some e
  | .cons _ es => es.last?

/-- data_expander.rs:252-257 `enum_const`. -/
def enumConst : Nat → Nat → Const
  | 0, _ | 1, _ => .unit
  | n + 2, index => .int (ceilLog2 (n + 2)) index

/-- data_expander.rs:300-325 `TaggedDataBody::to_rt`. -/
def Body.toRt (b : Body) (index : Nat) (args : LExps) : Option LExp :=
  match b with
  | .alias i _ => if index = i then args.last? else some .uninit
  | .struct i id => if index = i then some (.struct id args) else some .uninit
  | .union id structs =>
    match structs[index]? with
    | none => none
    | some s => some (.reint id (.struct s args))

/-- data_expander.rs:327-337 `to_rt_boxed`. -/
def Body.toRtBoxed (b : Body) (index : Nat) (args : LExps) : Option LExp :=
  match b with
  | .alias i t => if index ≠ i then some .uninit else (Body.toRt (.alias i t) index args).map .alloc
  | .struct i id => if index ≠ i then some .uninit else (Body.toRt (.struct i id) index args).map .alloc
  | .union id structs => (Body.toRt (.union id structs) index args).map .alloc

/-- data_expander.rs:154-192 `DataExpansion::to_rt`. -/
def Expansion.toRt (x : Expansion) (index : Nat) (args : LExps) : Option LExp :=
  match x with
  | .unit => some (.const .unit)
  | .enum n => some (.const (enumConst n index))
  | .boxedStruct id => some (.alloc (.struct id args))
  | .struct id => some (.struct id args)
  | .alias _ => args.last?
  | .boxedTagged id n b =>
    match b.toRtBoxed index args with
    | none => none
    | some e => some (.struct id (.cons (.const (enumConst n index)) (.cons e .nil)))
  | .tagged id n b =>
    match b.toRt index args with
    | none => none
    | some e => some (.struct id (.cons (.const (enumConst n index)) (.cons e .nil)))

/-- data_expander.rs:339-363 `TaggedDataBody::to_rt_pat`. -/
def Body.toRtPat (b : Body) (index : Nat) (args : List LPat) : Option LPat :=
  match b with
  | .alias i _ => if index = i then args.getLast? else some .wild
  | .struct i id => if index = i then some (.struct id args) else some .wild
  | .union id structs =>
    match structs[index]? with
    | none => none
    | some s => some (.reint id (.struct s args))

/-- data_expander.rs:365-371 `to_rt_pat_boxed`. -/
def Body.toRtPatBoxed (b : Body) (index : Nat) (args : List LPat) : Option LPat :=
  match b with
  | .alias i t => if index ≠ i then some .wild else (Body.toRtPat (.alias i t) index args).map .deref
  | .struct i id => if index ≠ i then some .wild else (Body.toRtPat (.struct i id) index args).map .deref
  | .union id structs => (Body.toRtPat (.union id structs) index args).map .deref

/-- data_expander.rs:194-235 `DataExpansion::to_rt_pat`. -/
def Expansion.toRtPat (x : Expansion) (index : Nat) (args : List LPat) : Option LPat :=
  match x with
  | .unit => some (.const .unit)
  | .enum n => some (.const (enumConst n index))
  | .boxedStruct id => some (.deref (.struct id args))
  | .struct id => some (.struct id args)
  | .alias _ => args.getLast?
  | .boxedTagged id n b =>
    match b.toRtPatBoxed index args with
    | none => none
    | some p => some (.struct id [.const (enumConst n index), p])
  | .tagged id n b =>
    match b.toRtPat index args with
    | none => none
    | some p => some (.struct id [.const (enumConst n index), p])

mutual
/-- `before_rt_pat` and the traversal of the children, data_expander.rs:74-86: rewriting a pattern from the top and then the
arguments that were put in it is lowering the arguments and putting them in.  `none` is a panic, also for the data that has no
expansion (which would be one in the branch expander). -/
def lowerP (m : HMap Nat Expansion) : SPat → Option LPat
  | .var x => some (.var x)
  | .as x p => (lowerP m p).map (.as x)
  | .wild => some .wild
  | .prim k => some (.const (.prim k))
  | .data id i args =>
    match m.get id, lowerPs m args with
    | some x, some args' => x.toRtPat i args'
    | _, _ => none
/-- The arguments of a pattern. -/
def lowerPs (m : HMap Nat Expansion) : List SPat → Option (List LPat)
  | [] => some []
  | p :: ps =>
    match lowerP m p, lowerPs m ps with
    | some p', some ps' => some (p' :: ps')
    | _, _ => none
end

mutual
/-- `before_rt` and the traversal of the children, data_expander.rs:59-72. -/
def lowerE (m : HMap Nat Expansion) : SExp → Option LExp
  | .var x => some (.var x)
  | .prim k => some (.const (.prim k))
  | .con id i args =>
    match m.get id, lowerEs m args with
    | some x, some args' => x.toRt i args'
    | _, _ => none
  | .case e cs =>
    match lowerE m e, lowerCs m cs with
    | some e', some cs' => some (.case e' cs')
    | _, _ => none
/-- The arguments of an expression. -/
def lowerEs (m : HMap Nat Expansion) : SExps → Option LExps
  | .nil => some .nil
  | .cons e es =>
    match lowerE m e, lowerEs m es with
    | some e', some es' => some (.cons e' es')
    | _, _ => none
/-- The clauses of a match. -/
def lowerCs (m : HMap Nat Expansion) : SClauses → Option LClauses
  | .nil => some .nil
  | .cons p e cs =>
    match lowerP m p, lowerE m e, lowerCs m cs with
    | some p', some e', some cs' => some (.cons p' e' cs')
    | _, _, _ => none
end

/-! ## Running the lowered program -/

/-- Values at run time.  `junk` is the value of `Uninitialized`; `union id v` is a value of the struct `v` read as the union. -/
inductive LV where
  | unit
  | int (bits v : Nat)
  | prim (k : Nat)
  | struct (id : Nat) (fields : List LV)
  | ptr (a : Nat)
  | union (id : Nat) (v : LV)
  | junk

/-- The value of a constant: a number of `bits` bits. -/
def Const.val : Const → LV
  | .unit => .unit
  | .int b v => .int b (v % 2 ^ b)
  | .prim k => .prim k

/-- The comparison with a constant made by the branch expander (branch_expander.rs:426-462): no test for the unit constant, a
comparison of numbers of the same width, and `none` (the program reads something undefined) for other values. -/
def Const.test : Const → LV → Option Bool
  | .unit, _ => some true
  | .int b v, .int b' v' => if b = b' then some (decide (v % 2 ^ b = v')) else none
  | .prim k, .prim k' => some (decide (k = k'))
  | _, _ => none

/-- Outcome of a match: `none` something undefined is read, `some none` rejected, `some (some s)` accepted with bindings. -/
abbrev MRes (V : Type) := Option (Option (List (Nat × V)))

mutual
/-- A lowered pattern against a value.  Parts are tested from left to right and testing stops at the first failure, as in the
tests generated from the parts of a pattern (branch_expander.rs:278-326). -/
def matchL (h : List LV) : LPat → LV → MRes LV
  | .var x, v => some (some [(x, v)])
  | .as x p, v =>
    match matchL h p v with
    | some (some s) => some (some ((x, v) :: s))
    | r => r
  | .wild, _ => some (some [])
  | .const c, v => (c.test v).map fun b => if b then some [] else none
  | .deref p, .ptr a =>
    match h[a]? with
    | some v => matchL h p v
    | none => none
  | .deref _, _ => none
  | .struct id ps, .struct id' vs => if id = id' then matchLs h ps vs else none
  | .struct _ _, _ => none
  | .reint id p, .union id' v => if id = id' then matchL h p v else none
  | .reint _ _, _ => none
/-- The fields of a struct. -/
def matchLs (h : List LV) : List LPat → List LV → MRes LV
  | [], [] => some (some [])
  | p :: ps, v :: vs =>
    match matchL h p v with
    | some (some s) =>
      match matchLs h ps vs with
      | some (some s') => some (some (s ++ s'))
      | r => r
    | r => r
  | _, _ => none
end

/-- Value of a variable: the binding made last. -/
def lookup {V : Type} (x : Nat) : List (Nat × V) → Option V
  | [] => none
  | (y, v) :: rest => if x = y then some v else lookup x rest

/-- Outcome of running an expression: a value and the heap, no clause of a match accepts, or something undefined is read. -/
inductive Out (A : Type) where
  | ok (a : A) (h : List LV)
  | noClause
  | undef

mutual
/-- A lowered expression in an environment and a heap. -/
def evalL : LExp → List (Nat × LV) → List LV → Out LV
  | .var x, s, h =>
    match lookup x s with
    | some v => .ok v h
    | none => .undef
  | .const c, _, h => .ok c.val h
  | .alloc e, s, h =>
    match evalL e s h with
    | .ok v h' => .ok (.ptr h'.length) (h' ++ [v])
    | .noClause => .noClause
    | .undef => .undef
  | .struct id args, s, h =>
    match evalLs args s h with
    | .ok vs h' => .ok (.struct id vs) h'
    | .noClause => .noClause
    | .undef => .undef
  | .uninit, _, h => .ok .junk h
  | .reint id e, s, h =>
    match evalL e s h with
    | .ok v h' => .ok (.union id v) h'
    | .noClause => .noClause
    | .undef => .undef
  | .case e cs, s, h =>
    match evalL e s h with
    | .ok v h' => evalLc cs v s h'
    | .noClause => .noClause
    | .undef => .undef
/-- Arguments, from left to right. -/
def evalLs : LExps → List (Nat × LV) → List LV → Out (List LV)
  | .nil, _, h => .ok [] h
  | .cons e es, s, h =>
    match evalL e s h with
    | .ok v h' =>
      match evalLs es s h' with
      | .ok vs h'' => .ok (v :: vs) h''
      | .noClause => .noClause
      | .undef => .undef
    | .noClause => .noClause
    | .undef => .undef
/-- Clauses, in order. -/
def evalLc : LClauses → LV → List (Nat × LV) → List LV → Out LV
  | .nil, _, _, _ => .noClause
  | .cons p e cs, v, s, h =>
    match matchL h p v with
    | none => .undef
    | some none => evalLc cs v s h
    | some (some b) => evalL e (b ++ s) h
end

end Verif.DataExpander
