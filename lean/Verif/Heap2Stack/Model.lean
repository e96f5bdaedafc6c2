/-
The pass that promotes heap allocations to stack allocations.

Source: /repo/llrl0/src/lowering/heap2stack.rs, run as the last step of
/repo/llrl0/src/lowering/context.rs:47-90, over the runtime expressions of
/repo/llrl0/src/lowering/ir/rt.rs:34-66 in the order of
/repo/llrl0/src/lowering/ir/rewriter.rs:192-303.

What is simplified.
* Types are left out: the pass never looks at them.
* The forms that earlier passes have erased (`LocalFun`, `LetLocalFun`, `ConstructData`, `And`,
  `Or`, `Match`) are left out.
* `Const`, `Nullary`, `Ternary`, `Unary` other than `Load` and `Panic`, `Binary` other than
  `Store`, `AllocArray`, `ConstructEnv`, `ConstructStruct`, `ConstructSyntax` and calls of C
  functions are one form `prim` with an operation number: the pass only visits their operands,
  in order.
* Every `Alloc` carries a number, its site.  The back ends give each `Alloc` of the text its own
  place in the frame; the number stands for that place.
* A `HashSet` of variable ids is a list of ids.
-/

namespace Verif.Heap2Stack

/-- Where an allocation is made: /repo/llrl0/src/lowering/ir/rt.rs:463-467.  `StackDynamic`
is treated like `Heap` by the back ends and is left out. -/
inductive Loc
  | heap
  | stackStatic
deriving DecidableEq, Repr

mutual
/-- Runtime expressions: /repo/llrl0/src/lowering/ir/rt.rs:34-66. -/
inductive Rt
  | var (x : Nat)
  | fn (f : Nat)
  | clos (f : Nat) (env : Rt)
  | prim (op : Nat) (args : Rts)
  | call (callee : Rt) (args : Rts)
  | contCall (k : Nat) (args : Rts)
  | load (p : Rt)
  | store (v p : Rt)
  | panic (e : Rt)
  | alloc (loc : Loc) (site : Nat) (init : Rt)
  | seq (ss : Rts) (e : Rt)
  | ite (c t e : Rt)
  | while (c b : Rt)
  | ret (e : Rt)
  | never
  | letVar (vs : Vars) (b : Rt)
  | letCont (ks : Conts) (b : Rt)

/-- Operand lists (`Vec<Rt>`): /repo/llrl0/src/lowering/ir/rt.rs:34-66. -/
inductive Rts
  | nil
  | cons (e : Rt) (es : Rts)

/-- The variables of a `LetVar` (`Vec<RtVar>`): /repo/llrl0/src/lowering/ir/rt.rs:34-66. -/
inductive Vars
  | nil
  | cons (x : Nat) (init : Rt) (vs : Vars)

/-- The continuations of a `LetCont` (`Vec<RtCont>`): /repo/llrl0/src/lowering/ir/rt.rs:34-66. -/
inductive Conts
  | nil
  | cons (k : Nat) (params : List Nat) (body : Rt) (ks : Conts)
end

/-- `self.load_only_vars.remove(id)`: /repo/llrl0/src/lowering/heap2stack.rs:20-22. -/
def remove (x : Nat) (S : List Nat) : List Nat := S.filter (fun y => y != x)

/-- The insertion at a `LetVar`: /repo/llrl0/src/lowering/heap2stack.rs:34-40. -/
def insertAllocs : Vars → List Nat → List Nat
  | .nil, S => S
  | .cons x init vs, S =>
    match init with
    | .alloc _ _ _ => insertAllocs vs (x :: S)
    | _ => insertAllocs vs S

/-- The promotion of one initial value: /repo/llrl0/src/lowering/heap2stack.rs:48-54. -/
def promoteInit (S : List Nat) (x : Nat) (init : Rt) : Rt :=
  if x ∈ S then
    match init with
    | .alloc _ s i => .alloc .stackStatic s i
    | e => e
  else init

/-- `after_rt` at a `LetVar`: /repo/llrl0/src/lowering/heap2stack.rs:46-57. -/
def promote (S : List Nat) : Vars → Vars
  | .nil => .nil
  | .cons x init vs => .cons x (promoteInit S x init) (promote S vs)

mutual
/-- The pass at an expression, `before_rt` (/repo/llrl0/src/lowering/heap2stack.rs:18-44), the
operands (/repo/llrl0/src/lowering/ir/rewriter.rs:192-303) and `after_rt`
(/repo/llrl0/src/lowering/heap2stack.rs:46-57).  The second component is `load_only_vars`. -/
def pass : Rt → List Nat → Rt × List Nat
  | .var x, S => (.var x, remove x S)
  | .fn f, S => (.fn f, S)
  | .clos f e, S => let r := pass e S; (.clos f r.1, r.2)
  | .prim op as, S => let r := passList as S; (.prim op r.1, r.2)
  | .call c as, S =>
    let r := pass c S
    let q := passList as r.2
    (.call r.1 q.1, q.2)
  | .contCall k as, S => let r := passList as S; (.contCall k r.1, r.2)
  | .load (.var x), S => (.load (.var x), S)
  | .load p, S => let r := pass p S; (.load r.1, r.2)
  | .store v (.var x), S => let r := pass v S; (.store r.1 (.var x), r.2)
  | .store v p, S =>
    let r := pass v S
    let q := pass p r.2
    (.store r.1 q.1, q.2)
  | .panic e, S => let r := pass e S; (.panic r.1, r.2)
  | .alloc l s i, S => let r := pass i S; (.alloc l s r.1, r.2)
  | .seq ss e, S =>
    let r := passList ss S
    let q := pass e r.2
    (.seq r.1 q.1, q.2)
  | .ite c t e, S =>
    let r := pass c S
    let q := pass t r.2
    let w := pass e q.2
    (.ite r.1 q.1 w.1, w.2)
  | .while c b, S =>
    let r := pass c S
    let q := pass b r.2
    (.while r.1 q.1, q.2)
  | .ret e, S => let r := pass e S; (.ret r.1, r.2)
  | .never, S => (.never, S)
  | .letVar vs b, S =>
    let r := passVars vs (insertAllocs vs S)
    let q := pass b r.2
    (.letVar (promote q.2 r.1) q.1, q.2)
  | .letCont ks b, S =>
    let r := passConts ks S
    let q := pass b r.2
    (.letCont r.1 q.1, q.2)

/-- Operands from left to right: /repo/llrl0/src/lowering/ir/rewriter.rs:70-77. -/
def passList : Rts → List Nat → Rts × List Nat
  | .nil, S => (.nil, S)
  | .cons e es, S =>
    let r := pass e S
    let q := passList es r.2
    (.cons r.1 q.1, q.2)

/-- The initial values of a `LetVar` in order: /repo/llrl0/src/lowering/ir/rewriter.rs:286-289. -/
def passVars : Vars → List Nat → Vars × List Nat
  | .nil, S => (.nil, S)
  | .cons x i vs, S =>
    let r := pass i S
    let q := passVars vs r.2
    (.cons x r.1 q.1, q.2)

/-- The bodies of the continuations in order: /repo/llrl0/src/lowering/ir/rewriter.rs:290-293. -/
def passConts : Conts → List Nat → Conts × List Nat
  | .nil, S => (.nil, S)
  | .cons k ps b ks, S =>
    let r := pass b S
    let q := passConts ks r.2
    (.cons k ps r.1 q.1, q.2)
end

/-- A function: /repo/llrl0/src/lowering/ir/def.rs:87-94, the variables of its environment,
its parameters and its body. -/
structure Fn where
  env : List Nat
  params : List Nat
  body : Rt

/-- `heap2stack::run` over all functions of a target, with one set of ids for all of them:
/repo/llrl0/src/lowering/heap2stack.rs:6-8 and /repo/llrl0/src/lowering/ir/rewriter.rs:162-169. -/
def run : List Fn → List Nat → List Fn
  | [], _ => []
  | f :: fs, S =>
    let r := pass f.body S
    { f with body := r.1 } :: run fs r.2

end Verif.Heap2Stack
