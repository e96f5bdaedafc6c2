import Verif.Util.HMap

/-!
# Model of `llrl0/src/backend/chibi/codegen/stack_frame.rs`

Expressions are those of the lowered IR (lowering/ir/rt.rs:33-69), reduced to what `StackFrameBuilder` looks at: variable bindings,
continuation bindings, static stack allocations, and everything else (`node`) with its sub-expressions in traversal order.  Types are
replaced by their number of eightbytes (`self.ctx.layout(ty).num_eightbytes()`; see `Verif.MemLayout`).  Offsets are unbounded integers
where the code has `i32`, i.e. frames are smaller than 2^31 bytes.
-/
namespace Verif.StackFrame

/-- A bound variable and the eightbytes its type takes (`RtParam`, rt.rs). -/
abbrev Binder := Nat × Nat

mutual
/-- `Rt`, lowering/ir/rt.rs:33-69. -/
inductive Rt
  | node (children : Rts)
  /-- `Rt::Alloc` at `Location::StackStatic`; 0 eightbytes when the operand has no type. -/
  | alloc (eightbytes : Nat) (child : Rt)
  | letVar (vars : Vars) (body : Rt)
  | letCont (conts : Conts) (body : Rt)
inductive Rts
  | nil
  | cons (e : Rt) (es : Rts)
/-- `Vec<RtVar>`. -/
inductive Vars
  | nil
  | cons (var : Binder) (init : Rt) (vars : Vars)
/-- `Vec<RtCont>`. -/
inductive Conts
  | nil
  | cons (params : List Binder) (body : Rt) (conts : Conts)
end

/-- `StackFrame` with the `scope_vars` of `StackFrameBuilder`, stack_frame.rs:15-22, 55-60. -/
structure St where
  vars : Nat := 0
  allocs : Nat := 0
  scopeVars : Nat := 0
  varOffsets : Verif.HMap Nat Int := []
  retPtr : Option Int := none

/-- `StackFrameBuilder::allocate`, stack_frame.rs:105-109. -/
def allocate (s : St) (n : Nat) : Int × St :=
  let scope := s.scopeVars + n
  (-8 * (scope : Int), { s with scopeVars := scope, vars := max s.vars scope })

/-- `StackFrameBuilder::add_var`, stack_frame.rs:111-115. -/
def addVar (s : St) (b : Binder) : St :=
  let (offset, s) := allocate s b.2
  { s with varOffsets := Verif.HMap.insert s.varOffsets b.1 offset }

/-- `for p in cont.params.iter() { self.add_var(..) }`, stack_frame.rs:149-151. -/
def addVars (s : St) (bs : List Binder) : St := bs.foldl addVar s

mutual
/-- `StackFrameBuilder::before_rt` and the default traversal, stack_frame.rs:125-171. -/
def traverse : St → Rt → St
  | s, .node es => traverses s es
  | s, .alloc n e => traverse { s with allocs := s.allocs + n } e
  | s, .letVar vs body =>
    let s' := traverse (traverseVars s vs) body
    { s' with scopeVars := s.scopeVars }
  | s, .letCont cs body =>
    let s' := traverse { s with vars := s.scopeVars } body
    traverseConts { s' with scopeVars := s'.vars, vars := max s'.vars s.vars } cs
/-- Children in order. -/
def traverses : St → Rts → St
  | s, .nil => s
  | s, .cons e es => traverses (traverse s e) es
/-- The loop over the variables, stack_frame.rs:129-132. -/
def traverseVars : St → Vars → St
  | s, .nil => s
  | s, .cons v init vs => traverseVars (traverse (addVar s v) init) vs
/-- The loop over the continuations, stack_frame.rs:146-154. -/
def traverseConts : St → Conts → St
  | s, .nil => s
  | s, .cons ps body cs =>
    let s' := traverse (addVars s ps) body
    traverseConts { s' with scopeVars := s.scopeVars } cs
end

/-- What `collect` needs of a function, lowering/ir/function.rs. -/
structure Fun where
  /-- the environment variable and its elements -/
  env : Option (Nat × List Binder)
  /-- whether the class of the result is `Memory` -/
  retInMemory : Bool
  macro_ : Bool
  params : List Binder
  body : Rt

/-- The loop over parameters passed on the stack, stack_frame.rs:96-100. -/
def addParams : St → Int → List Binder → St
  | s, _, [] => s
  | s, offset, p :: ps =>
    let offset := offset - (p.2 : Int) * 8
    addParams { s with varOffsets := Verif.HMap.insert s.varOffsets p.1 offset } offset ps

/-- `StackFrameBuilder::collect` before the traversal of the body, stack_frame.rs:63-101. -/
def collectHeader (f : Fun) : St :=
  let s : St := match f.env with
    | some (id, elems) => addVars (addVar {} (id, 1)) elems
    | none => {}
  let s : St := if f.retInMemory then
      let (offset, s) := allocate s 1
      { s with retPtr := some offset }
    else s
  if f.macro_ then addVars s (f.params.take 1)
  else addParams s (16 + ((f.params.map (·.2)).foldl (· + ·) 0 : Nat) * 8) f.params

/-- `StackFrame::new`, stack_frame.rs:25-40, and `StackFrameBuilder::collect`, 63-103. -/
def collect (f : Fun) : St := traverse (collectHeader f) f.body

/-- `StackFrame::reserved_area`, stack_frame.rs:42-44, in eightbytes. -/
def St.reserved (s : St) : Nat := s.vars + s.allocs

/-- `StackFrame::consume_alloc_area`, stack_frame.rs:46-51; `none` is the failed assertion. -/
def consume (s : St) (n : Nat) : Option (Int × St) :=
  if n ≤ s.allocs then some (-8 * ((s.vars + n : Nat) : Int), { s with vars := s.vars + n, allocs := s.allocs - n }) else none

/-- The allocation sites in the order in which code is generated for them. -/
def consumeAll : St → List Nat → Option (List (Int × Nat))
  | _, [] => some []
  | s, n :: ns => do
    let (o, s) ← consume s n
    let r ← consumeAll s ns
    some ((o, n) :: r)

end Verif.StackFrame
