import Verif.StackFrame.Model

/-!
# Model of `llrl0/src/backend/chibi/codegen.rs`

Expressions are those of the lowered IR that reach the code generator (lowering/ir/rt.rs:33-69).  Types are replaced by their number of
eightbytes, and every component of a value is a whole eightbyte; up to two of them are in `rax` and `rdx`, larger values (`Class::Memory`) on
the stack.  What happens inside an eightbyte is the subject of `Verif.StackMachine` (bytes) and `Verif.Arith` (operations).  Left out: floating
point, strings, arrays, syntax, static stack allocation (see `Verif.StackFrame`), arguments of C functions beyond six eightbytes or larger than
one, results of C functions larger than two, indirect calls of C functions.

`none` is a panic of the code generator, or an expression that does not fit together (sizes of arguments, operands and branches); the latter
is checked here where the code relies on types, because otherwise the depth it keeps means nothing.

The flag `fx` selects a variant of the generator: `false` is the code as it is, `true` has three changes that the theorems are about
(`Props.lean`): a callee without a type is evaluated, a loop restores the depth, and arguments of C functions are evaluated from left to right.
-/
namespace Verif.Codegen
open Verif (HMap)

/-! ### Instructions -/

/-- The registers used; `r11` is `TMP_GP2`, stack_inst.rs:11. -/
inductive Reg | rax | rdx | rdi | rsi | rcx | r8 | r9 | r11 | rsp | rbp
  deriving DecidableEq

/-- Some operations on eightbytes; see `Verif.Arith` for all of them. -/
inductive Op | add | sub | mul | eq | lt
  deriving DecidableEq

/-- Whether the operation is a comparison, codegen.rs:865-890. -/
def Op.cmp : Op → Bool
  | .eq | .lt => true
  | _ => false

/-- Instructions of xten/asm as the generator uses them; displacements and sizes in bytes. -/
inductive Instr
  | sub (n : Nat)
  | add (n : Nat)
  | push (r : Reg)
  | pop (r : Reg)
  /-- `movq r, [b + o]` -/
  | ld (r b : Reg) (o : Int)
  /-- `movq [b + o], r` -/
  | st (b : Reg) (o : Int) (r : Reg)
  | lea (r b : Reg) (o : Int)
  | mov (r r' : Reg)
  | imm (r : Reg) (i : Int)
  /-- `movq r, AddressTable(label of function c)` -/
  | faddr (r : Reg) (c : Nat)
  /-- the operation on `rax` (left) and `rcx` (right) -/
  | alu (op : Op)
  /-- `cmpq rcx, rax` and `setcc al` -/
  | cmpset (op : Op)
  /-- `cmpb al, 0` and `je l` -/
  | jz (l : Nat)
  | jmp (l : Nat)
  | callr
  /-- `callq AddressTable(sym)` of a C function with that many arguments and eightbytes of result -/
  | ext (sym args ret : Nat)
  /-- `callq AddressTable("GC_malloc")` -/
  | malloc
  | retq
  /-- `define` of a label issued by `issue_label` -/
  | label (l : Nat)
  /-- `define` of the label of a function -/
  | fn (c : Nat)
  deriving DecidableEq

abbrev Code := List Instr

/-! ### Expressions -/

/-- A bound variable and the eightbytes of its type. -/
abbrev Binder := StackFrame.Binder

mutual
/-- `Rt`, lowering/ir/rt.rs:33-69. -/
inductive Rt
  | var (x n : Nat)
  /-- `StaticFun` without environment -/
  | sfun (c : Nat)
  /-- `StaticFun` with environment -/
  | clos (c : Nat) (env : Rt)
  | const (i : Int)
  /-- `Const::Unit` -/
  | unit
  /-- `Call` of `Standard(callee)`; the sizes are those in the type of the callee -/
  | call (callee : Rt) (tys : List Nat) (ret : Nat) (args : Rts)
  /-- `Call` of `CDirect(sym, ret)` -/
  | ccall (sym ret : Nat) (args : Rts)
  | jump (k : Nat) (ret : Option Nat) (args : Rts)
  | bin (op : Op) (a b : Rt)
  | load (n : Nat) (p : Rt)
  | store (v p : Rt)
  /-- `StructElem`: offset and size, in eightbytes -/
  | elem (o n : Nat) (a : Rt)
  /-- `Alloc` at `Location::Heap` -/
  | alloc (e : Rt)
  | mkEnv (es : Rts)
  | mkStruct (tys : List Nat) (es : Rts)
  | seq (es : Rts) (e : Rt)
  | ite (c t e : Rt)
  | loop (c b : Rt)
  | ret (e : Rt)
  | never
  | letVar (vs : Vars) (body : Rt)
  | letCont (cs : Conts) (body : Rt)
inductive Rts
  | nil
  | cons (e : Rt) (es : Rts)
/-- `Vec<RtVar>` -/
inductive Vars
  | nil
  | cons (var : Binder) (init : Rt) (vars : Vars)
/-- `Vec<RtCont>` -/
inductive Conts
  | nil
  | cons (k : Nat) (params : List Binder) (body : Rt) (conts : Conts)
end

/-- The total of a list of sizes. -/
def sum : List Nat → Nat
  | [] => 0
  | n :: ns => n + sum ns

/-- `Rt::ty`, lowering/ir/rt.rs:211-247, with `Unary::ty`, `Binary::ty` and `RtCallee::ret_ty`, 261-268, 351-372, 429-446. -/
def tyOf : Rt → Option Nat
  | .var _ n => some n
  | .sfun _ => some 2
  | .clos _ _ => some 2
  | .const _ => some 1
  | .unit => some 0
  | .call c _ ret _ => match tyOf c with | none => none | some _ => some ret
  | .ccall _ ret _ => some ret
  | .jump _ ret _ => ret
  | .bin op a _ => if op.cmp then some 1 else tyOf a
  | .load n p => match tyOf p with | none => none | some _ => some n
  | .store _ _ => some 0
  | .elem _ n _ => some n
  | .alloc e => match tyOf e with | none => none | some _ => some 1
  | .mkEnv _ => some 1
  | .mkStruct tys _ => some (sum tys)
  | .seq _ e => tyOf e
  | .ite _ t e => match tyOf t with | none => tyOf e | some n => some n
  | .loop _ _ => some 0
  | .ret _ => none
  | .never => none
  | .letVar _ b => tyOf b
  | .letCont _ b => tyOf b

/-- The types of all of a list, `None` if one has none: codegen.rs:303-308, 450-456. -/
def tysOf : Rts → Option (List Nat)
  | .nil => some []
  | .cons e es => match tyOf e, tysOf es with
    | some n, some ns => some (n :: ns)
    | _, _ => none

/-! ### Stack operations, codegen/stack_inst.rs -/

/-- Eightbytes a value takes on the stack when it is the last value: `size_in_stack(true)`, those of `Class::Memory`. -/
def msz (n : Nat) : Nat := if n ≤ 2 then 0 else n

/-- Eightbytes a value has in registers. -/
def rsz (n : Nat) : Nat := if n ≤ 2 then n else 0

/-- `extend_stack`, stack_inst.rs:26-32. -/
def extend (n : Nat) : Code := if n = 0 then [] else [.sub (8 * n)]

/-- `shrink_stack`, stack_inst.rs:34-40. -/
def shrink (n : Nat) : Code := if n = 0 then [] else [.add (8 * n)]

/-- `push`, stack_inst.rs:114-128. -/
def pushV : Nat → Code
  | 1 => [.push .rax]
  | 2 => [.push .rdx, .push .rax]
  | _ => []

/-- `pop`, stack_inst.rs:131-144. -/
def popV : Nat → Code
  | 1 => [.pop .rax]
  | 2 => [.pop .rax, .pop .rdx]
  | _ => []

/-- The loop of `load` for `Class::Memory`, stack_inst.rs:160-163: from the last eightbyte to the first. -/
def loadMem (b : Reg) (o : Int) : Nat → Code
  | 0 => []
  | n + 1 => .ld .r11 b (o + 8 * (n : Int)) :: .push .r11 :: loadMem b o n

/-- `load`, stack_inst.rs:147-166. -/
def loadV (b : Reg) (o : Int) : Nat → Code
  | 0 => []
  | 1 => [.ld .rax b o]
  | 2 => [.ld .rax b o, .ld .rdx b (o + 8)]
  | n => loadMem b o n

/-- The loop of `store` for `Class::Memory`, stack_inst.rs:183-186. -/
def storeMem (b : Reg) (o : Int) : Nat → Code
  | 0 => []
  | n + 1 => .pop .r11 :: .st b o .r11 :: storeMem b (o + 8) n

/-- `store`, stack_inst.rs:169-189. -/
def storeV (b : Reg) (o : Int) : Nat → Code
  | 0 => []
  | 1 => [.st b o .rax]
  | 2 => [.st b o .rax, .st b (o + 8) .rdx]
  | n => storeMem b o n

/-- `slide_in_stack` towards higher addresses, stack_inst.rs:45-53: from the last eightbyte to the first.  Offsets in eightbytes. -/
def slideUp (src dst : Nat) : Nat → Code
  | 0 => []
  | n + 1 => .ld .r11 .rsp (8 * ((src + n : Nat) : Int)) :: .st .rsp (8 * ((dst + n : Nat) : Int)) .r11 :: slideUp src dst n

/-- `slide_in_stack` towards lower addresses, stack_inst.rs:54-62. -/
def slideDown (src dst : Nat) : Nat → Code
  | 0 => []
  | n + 1 => .ld .r11 .rsp (8 * (src : Int)) :: .st .rsp (8 * (dst : Int)) .r11 :: slideDown (src + 1) (dst + 1) n

/-- `slide_in_stack`, stack_inst.rs:42-65. -/
def slide (src dst n : Nat) : Code :=
  if src = dst then [] else if src < dst then slideUp src dst n else slideDown src dst n

/-! ### The generator -/

/-- The depth of the stack frame (stack_inst.rs:21-24) and the label to be issued next. -/
structure St where
  depth : Nat
  next : Nat
  deriving DecidableEq

/-- `LocalCont`, codegen.rs:1218-1223: label, parameters (with their sizes) and depth. -/
abbrev LConts := Nat → Option (Nat × List Binder × Nat)

/-- What is fixed within a function: the variant, the offsets of the variables, the label of the epilogue. -/
structure Cx where
  fx : Bool
  off : HMap Nat Int
  epi : Nat

/-- `eval_builtin_call("GC_malloc", ..)`, codegen.rs:501-518, after `rdi` has got the size. -/
def mallocCode (depth bytes : Nat) : Code :=
  [.imm .rdi (bytes : Int)] ++ extend (depth % 2) ++ [.malloc] ++ shrink (depth % 2)

/-- The registers of the arguments of C functions, call_frame.rs:77. -/
def cRegs : List Reg := [.rdi, .rsi, .rdx, .rcx, .r8, .r9]

/-- The order in which the arguments of C functions are evaluated, codegen.rs:472. -/
def order {α : Type} (fx : Bool) (l : List α) : List α := if fx then l else l.reverse

/-- The instructions after the operands of a binary operation, codegen.rs:865-893: of a comparison and of an arithmetic operation. -/
def binCode (op : Op) : Code :=
  if op.cmp then [.pop .rcx, .cmpset op] else [.mov .rcx .rax, .pop .rax, .alu op]

/-- `StructElem`, codegen.rs:641-651, of a value of `N` eightbytes. -/
def elemCode (o n N : Nat) : Code :=
  if o ≠ 0 ∨ n < N then pushV N ++ slide o (N - n) n ++ shrink (N - n) ++ popV n else []

/-- The local continuations of `eval_let_cont`, codegen.rs:1097-1104: continuation `i` gets the label `l + i`. -/
def addConts (depth : Nat) : Conts → Nat → LConts → LConts
  | .nil, _, K => K
  | .cons k ps _ cs, l, K => addConts depth cs (l + 1) fun k' => if k' = k then some (l, ps, depth) else K k'

/-- How many continuations. -/
def Conts.length : Conts → Nat
  | .nil => 0
  | .cons _ _ _ cs => cs.length + 1

mutual
/-- `FunctionCodegen::eval`, codegen.rs:191-404, and the functions it calls.  The result is the code, the layout of the value or `none` when
control does not reach the end (`continues!`), and the state.  The map of local continuations is passed down instead of being changed and
restored; this is the same since no two binders have the same `RtId`. -/
def comp (cx : Cx) (K : LConts) : Rt → St → Option (Code × Option Nat × St)
  | .var x n, s => do
    let o ← HMap.get cx.off x
    some (loadV .rbp o n, some n, { s with depth := s.depth + msz n })
  | .sfun c, s => some ([.imm .rdx 0, .faddr .rax c], some 2, s)
  | .clos c env, s => do
    let (c1, l, s) ← comp cx K env s
    match l with
    | none => some (c1, none, s)
    | some n => if n = 1 then some (c1 ++ [.mov .rdx .rax, .faddr .rax c], some 2, s) else none
  | .const i, s => some ([.imm .rax i], some 1, s)
  | .unit, s => some ([], some 0, s)
  -- `eval_call`, codegen.rs:406-439
  | .call callee tys ret args, s =>
    match tyOf callee with
    | none =>
      if cx.fx then do
        let (c1, l, s) ← compSeq cx K args s
        if l then
          let (c2, l, s) ← comp cx K callee s
          if l.isSome then none else some (c1 ++ c2, none, s)
        else some (c1, none, s)
      else some ([], none, s)
    | some _ => do
      let pad := (s.depth + msz ret + sum tys) % 2
      let (c1, l, s) ← compArgs cx K args { s with depth := s.depth + (msz ret + pad) }
      match l with
      | none => some (extend (msz ret + pad) ++ c1, none, s)
      | some ns =>
        if ns = tys then
          let (c2, l, s) ← comp cx K callee s
          match l with
          | none => some (extend (msz ret + pad) ++ c1 ++ c2, none, s)
          | some n =>
            if n = 2 then
              some (extend (msz ret + pad) ++ c1 ++ c2 ++ [.mov .rsi .rdx] ++
                (if msz ret = 0 then [] else [.lea .rdi .rsp (8 * ((sum tys + pad : Nat) : Int))]) ++ [.callr] ++ shrink (sum tys + pad),
                some ret, { s with depth := s.depth - (sum tys + pad) })
            else none
        else none
  -- `eval_c_call`, codegen.rs:441-499
  | .ccall sym ret args, s =>
    if cx.fx = false ∧ tysOf args = none then do
      let (c1, l, s) ← compSeq cx K args s
      if l then none else some (c1, none, s)
    else do
      let pad := s.depth % 2
      let (c1, l, s) ← (if cx.fx then compArgs cx K args { s with depth := s.depth + pad } else compArgsR cx K args { s with depth := s.depth + pad })
      match l with
      | none => some (extend pad ++ c1, none, s)
      | some ns =>
        if ns.length ≤ 6 ∧ ns = List.replicate ns.length 1 ∧ ret ≤ 2 then
          some (extend pad ++ c1 ++ (order cx.fx (cRegs.take ns.length)).reverse.map .pop ++ [.ext sym ns.length ret] ++ shrink pad,
            some ret, { s with depth := s.depth - ns.length - pad })
        else none
  -- `eval_cont_call`, codegen.rs:520-536
  | .jump k _ args, s => do
    let (l, ps, d) ← K k
    let (c1, r, s) ← compStores cx K args ps s
    if r then if d = s.depth then some (c1 ++ [.jmp l], none, s) else none
    else some (c1, none, s)
  -- `eval_binary`, codegen.rs:844-
  | .bin op a b, s => do
    let (c1, l, s) ← comp cx K a s
    match l with
    | none => some (c1, none, s)
    | some n =>
      let (c2, l, s) ← comp cx K b { s with depth := s.depth + rsz n }
      match l with
      | none => some (c1 ++ pushV n ++ c2, none, s)
      | some m => if n = 1 ∧ m = 1 then some (c1 ++ pushV n ++ c2 ++ binCode op, some 1, { s with depth := s.depth - 1 }) else none
  -- codegen.rs:635-640
  | .load n p, s => do
    let (c1, l, s) ← comp cx K p s
    match l with
    | none => some (c1, none, s)
    | some m => if m = 1 then some (c1 ++ [.mov .rdi .rax] ++ loadV .rdi 0 n, some n, { s with depth := s.depth + msz n }) else none
  -- codegen.rs:852-857
  | .store v p, s => do
    let (c1, l, s) ← comp cx K v s
    match l with
    | none => some (c1, none, s)
    | some n =>
      let (c2, l, s) ← comp cx K p { s with depth := s.depth + rsz n }
      match l with
      | none => some (c1 ++ pushV n ++ c2, none, s)
      | some m =>
        if m = 1 then
          some (c1 ++ pushV n ++ c2 ++ [.mov .rdi .rax] ++ popV n ++ storeV .rdi 0 n, some 0, { s with depth := s.depth - n })
        else none
  -- codegen.rs:641-651
  | .elem o n a, s => do
    let (c1, l, s) ← comp cx K a s
    match l with
    | none => some (c1, none, s)
    | some N => if o + n ≤ N then some (c1 ++ elemCode o n N, some n, { s with depth := s.depth + rsz N - (N - n) - rsz n }) else none
  -- codegen.rs:255-286
  | .alloc e, s =>
    match tyOf e with
    | none => do
      let (c1, l, s) ← comp cx K e s
      if l.isSome then none else some (c1, none, s)
    | some n => do
      let c0 := mallocCode s.depth (8 * n) ++ pushV 1
      let (c1, l, s) ← comp cx K e { s with depth := s.depth + 1 }
      match l with
      | none => some (c0 ++ c1, none, s)
      | some m =>
        if m = n then
          some (c0 ++ c1 ++ [.ld .rdi .rsp (8 * (msz n : Int))] ++ storeV .rdi 0 n ++ popV 1, some 1, { s with depth := s.depth - msz n - 1 })
        else none
  -- codegen.rs:299-327
  | .mkEnv es, s =>
    match tysOf es with
    | none => do
      let (c1, l, s) ← compSeq cx K es s
      if l then none else some (c1, none, s)
    | some ns => do
      let c0 := mallocCode s.depth (8 * sum ns) ++ pushV 1
      let (c1, l, s) ← compEnv cx K es 0 { s with depth := s.depth + 1 }
      match l with
      | none => some (c0 ++ c1, none, s)
      | some ms => if ms = ns then some (c0 ++ c1 ++ popV 1, some 1, { s with depth := s.depth - 1 }) else none
  -- codegen.rs:331-348
  | .mkStruct tys es, s => do
    let N := sum tys
    let (c1, l, s) ← compStruct cx K es tys 0 { s with depth := s.depth + N }
    if l then some (extend N ++ c1 ++ popV N, some N, { s with depth := s.depth - rsz N })
    else some (extend N ++ c1, none, s)
  -- codegen.rs:374-377
  | .seq es e, s => do
    let (c1, l, s) ← compSeq cx K es s
    if l then
      let (c2, l, s) ← comp cx K e s
      some (c1 ++ c2, l, s)
    else some (c1, none, s)
  -- `eval_if`, codegen.rs:546-576
  | .ite c t e, s => do
    let (c0, l, s) ← comp cx K c s
    match l with
    | none => some (c0, none, s)
    | some n =>
      if n = 1 then
        let le := s.next
        let lc := s.next + 1
        let d := s.depth
        let (c1, r1, s) ← comp cx K t { s with next := s.next + 2 }
        let d1 := s.depth
        let (c2, r2, s) ← comp cx K e { s with depth := d }
        let code := c0 ++ [.jz le] ++ c1 ++ (if r1.isSome then [.jmp lc] else []) ++ [.label le] ++ c2 ++ [.label lc]
        match r1, r2 with
        | some n1, some n2 => if n1 = n2 ∧ d1 = s.depth then some (code, some n1, s) else none
        | some n1, none => some (code, some n1, { s with depth := d1 })
        | none, some n2 => some (code, some n2, s)
        | none, none => some (code, none, s)
      else none
  -- `eval_while`, codegen.rs:578-594
  | .loop c b, s => do
    let li := s.next
    let lc := s.next + 1
    let (c0, l, s) ← comp cx K c { s with next := s.next + 2 }
    match l with
    | none => some ([.label li] ++ c0, none, s)
    | some n =>
      if n = 1 then
        let d := s.depth
        let (c1, r, s) ← comp cx K b s
        let s := match r with | some m => { s with depth := s.depth - msz m } | none => s
        some ([.label li] ++ c0 ++ [.jz lc] ++ c1 ++ (match r with | some m => shrink (msz m) ++ [.jmp li] | none => []) ++ [.label lc], some 0,
          if cx.fx then { s with depth := d } else s)
      else none
  -- codegen.rs:390-394
  | .ret e, s => do
    let (c1, l, s) ← comp cx K e s
    if l.isSome then some (c1 ++ [.jmp cx.epi], none, s) else some (c1, none, s)
  | .never, s => some ([], none, s)
  -- `eval_let_var`, codegen.rs:1086-1094
  | .letVar vs body, s => do
    let (c1, l, s) ← compVars cx K vs s
    if l then
      let (c2, l, s) ← comp cx K body s
      some (c1 ++ c2, l, s)
    else some (c1, none, s)
  -- `eval_let_cont`, codegen.rs:1096-1133
  | .letCont cs body, s => do
    let l0 := s.next
    let lm := s.next + cs.length
    let d := s.depth
    let (c1, r1, s) ← comp cx (addConts d cs l0 K) body { s with next := lm + 1 }
    let (c2, r, s) ← compConts cx K cs l0 lm d (r1.map fun n => (n, s.depth)) s
    some (c1 ++ (if r1.isSome then [.jmp lm] else []) ++ c2, r.map Prod.fst, match r with | some (_, d') => { s with depth := d' } | none => s)
/-- `eval_seq`, codegen.rs:538-544; `discard`, stack_inst.rs:104-111. -/
def compSeq (cx : Cx) (K : LConts) : Rts → St → Option (Code × Bool × St)
  | .nil, s => some ([], true, s)
  | .cons e es, s => do
    let (c1, l, s) ← comp cx K e s
    match l with
    | none => some (c1, false, s)
    | some n =>
      let (c2, l, s) ← compSeq cx K es { s with depth := s.depth - msz n }
      some (c1 ++ shrink (msz n) ++ c2, l, s)
/-- The arguments of a call, codegen.rs:419-422: each is pushed. -/
def compArgs (cx : Cx) (K : LConts) : Rts → St → Option (Code × Option (List Nat) × St)
  | .nil, s => some ([], some [], s)
  | .cons e es, s => do
    let (c1, l, s) ← comp cx K e s
    match l with
    | none => some (c1, none, s)
    | some n =>
      let (c2, l, s) ← compArgs cx K es { s with depth := s.depth + rsz n }
      some (c1 ++ pushV n ++ c2, l.map (n :: ·), s)
/-- The arguments of a call from the last to the first, codegen.rs:472-475. -/
def compArgsR (cx : Cx) (K : LConts) : Rts → St → Option (Code × Option (List Nat) × St)
  | .nil, s => some ([], some [], s)
  | .cons e es, s => do
    let (c1, l, s) ← compArgsR cx K es s
    match l with
    | none => some (c1, none, s)
    | some ns =>
      let (c2, l, s) ← comp cx K e s
      match l with
      | none => some (c1 ++ c2, none, s)
      | some n => some (c1 ++ c2 ++ pushV n, some (ns ++ [n]), { s with depth := s.depth + rsz n })
/-- The arguments of a jump, codegen.rs:527-531: each is stored in its parameter. -/
def compStores (cx : Cx) (K : LConts) : Rts → List Binder → St → Option (Code × Bool × St)
  | .cons e es, p :: ps, s => do
    let (c1, l, s) ← comp cx K e s
    match l with
    | none => some (c1, false, s)
    | some n =>
      if n = p.2 then
        let o ← HMap.get cx.off p.1
        let (c2, l, s) ← compStores cx K es ps { s with depth := s.depth - msz n }
        some (c1 ++ storeV .rbp o n ++ c2, l, s)
      else none
  | .nil, [], s => some ([], true, s)
  | _, _, _ => none
/-- The elements of an environment, codegen.rs:317-323: each is stored at its offset in the memory whose address is on the stack. -/
def compEnv (cx : Cx) (K : LConts) : Rts → Nat → St → Option (Code × Option (List Nat) × St)
  | .nil, _, s => some ([], some [], s)
  | .cons e es, o, s => do
    let (c1, l, s) ← comp cx K e s
    match l with
    | none => some (c1, none, s)
    | some n =>
      let (c2, l, s) ← compEnv cx K es (o + n) { s with depth := s.depth - msz n }
      some (c1 ++ [.ld .rdi .rsp (8 * (msz n : Int))] ++ storeV .rdi (8 * (o : Int)) n ++ c2, l.map (n :: ·), s)
/-- The components of a structure, codegen.rs:338-343: each is stored at its offset in the temporary area. -/
def compStruct (cx : Cx) (K : LConts) : Rts → List Nat → Nat → St → Option (Code × Bool × St)
  | .nil, [], _, s => some ([], true, s)
  | .cons e es, t :: tys, o, s => do
    let (c1, l, s) ← comp cx K e s
    match l with
    | none => some (c1, false, s)
    | some n =>
      if n = t then
        let (c2, l, s) ← compStruct cx K es tys (o + n) { s with depth := s.depth - msz n }
        some (c1 ++ [.lea .rdi .rsp (8 * ((o + msz n : Nat) : Int))] ++ storeV .rdi 0 n ++ c2, l, s)
      else none
  | _, _, _, _ => none
/-- The variables of `eval_let_var`, codegen.rs:1087-1091. -/
def compVars (cx : Cx) (K : LConts) : Vars → St → Option (Code × Bool × St)
  | .nil, s => some ([], true, s)
  | .cons x e vs, s => do
    let (c1, l, s) ← comp cx K e s
    match l with
    | none => some (c1, false, s)
    | some n =>
      if n = x.2 then
        let o ← HMap.get cx.off x.1
        let (c2, l, s) ← compVars cx K vs { s with depth := s.depth - msz n }
        some (c1 ++ storeV .rbp o n ++ c2, l, s)
      else none
/-- The continuations of `eval_let_cont`, codegen.rs:1113-1126, with what follows the body. -/
def compConts (cx : Cx) (K : LConts) : Conts → Nat → Nat → Nat → Option (Nat × Nat) → St → Option (Code × Option (Nat × Nat) × St)
  | .nil, _, lm, _, m, s => some ([.label lm], m, s)
  | .cons _ _ body cs, l, lm, d, m, s => do
    let (c1, r, s) ← comp cx (addConts d cs (l + 1) K) body { s with depth := d }
    match r with
    | none =>
      let (c2, m, s) ← compConts cx K cs (l + 1) lm d m s
      some ([.label l] ++ c1 ++ c2, m, s)
    | some n =>
      if m = none ∨ m = some (n, s.depth) then
        let (c2, m, s) ← compConts cx K cs (l + 1) lm d (some (n, s.depth)) s
        some ([.label l] ++ c1 ++ [.jmp lm] ++ c2, m, s)
      else none
end

/-! ### Functions -/

/-- `Function`, lowering/ir/function.rs: the environment variable with its elements, the parameters, the size of the result, the body. -/
structure Fun where
  id : Nat
  env : Option (Nat × List Binder)
  params : List Binder
  ret : Nat
  body : Rt

mutual
/-- What `StackFrameBuilder` sees of an expression: bindings and sub-expressions in the order of the traversal (`Verif.StackFrame.Model`). -/
def skel : Rt → StackFrame.Rt
  | .var _ _ | .sfun _ | .const _ | .unit | .never => .node .nil
  | .clos _ e => .node (.cons (skel e) .nil)
  | .call c _ _ args => .node (.cons (skel c) (skels args))
  | .ccall _ _ args => .node (skels args)
  | .jump _ _ args => .node (skels args)
  | .bin _ a b => .node (.cons (skel a) (.cons (skel b) .nil))
  | .load _ p => .node (.cons (skel p) .nil)
  | .store v p => .node (.cons (skel v) (.cons (skel p) .nil))
  | .elem _ _ a => .node (.cons (skel a) .nil)
  | .alloc e => .node (.cons (skel e) .nil)
  | .mkEnv es => .node (skels es)
  | .mkStruct _ es => .node (skels es)
  | .seq es e => .node (.cons (.node (skels es)) (.cons (skel e) .nil))
  | .ite c t e => .node (.cons (skel c) (.cons (skel t) (.cons (skel e) .nil)))
  | .loop c b => .node (.cons (skel c) (.cons (skel b) .nil))
  | .ret e => .node (.cons (skel e) .nil)
  | .letVar vs b => .letVar (skelV vs) (skel b)
  | .letCont cs b => .letCont (skelC cs) (skel b)
/-- Of a list of expressions. -/
def skels : Rts → StackFrame.Rts
  | .nil => .nil
  | .cons e es => .cons (skel e) (skels es)
/-- Of bound variables. -/
def skelV : Vars → StackFrame.Vars
  | .nil => .nil
  | .cons x e vs => .cons x (skel e) (skelV vs)
/-- Of continuations. -/
def skelC : Conts → StackFrame.Conts
  | .nil => .nil
  | .cons _ ps b cs => .cons ps (skel b) (skelC cs)
end

/-- The function as `StackFrame::new` sees it. -/
def Fun.frame (f : Fun) : StackFrame.Fun where
  env := f.env
  retInMemory := msz f.ret ≠ 0
  macro_ := false
  params := f.params
  body := skel f.body

/-- The elements of the environment in `prologue`, codegen.rs:155-162: from the memory `rsi` points to into their slots. -/
def envCode (off : HMap Nat Int) : List Binder → Nat → Option Code
  | [], _ => some []
  | b :: bs, o => do
    let d ← HMap.get off b.1
    let c ← envCode off bs (o + b.2)
    some (loadV .rsi (8 * (o : Int)) b.2 ++ storeV .rbp d b.2 ++ c)

/-- `FunctionCodegen::prologue`, codegen.rs:139-173. -/
def prologue (f : Fun) (fr : StackFrame.St) : Option Code := do
  let c ← match f.env with
    | none => some []
    | some (id, elems) => do
      let o ← HMap.get fr.varOffsets id
      let c ← envCode fr.varOffsets elems 0
      some (.st .rbp o .rsi :: c)
  some ([.push .rbp, .mov .rbp .rsp] ++ extend fr.reserved ++ (match fr.retPtr with | some o => [.st .rbp o .rdi] | none => []) ++ c)

/-- `FunctionCodegen::epilogue`, codegen.rs:175-189, and the return, 136. -/
def epilogue (f : Fun) (fr : StackFrame.St) (epi : Nat) : Code :=
  [.label epi] ++ (match fr.retPtr with | some o => [.ld .rax .rbp o] ++ storeV .rax 0 f.ret | none => []) ++ [.mov .rsp .rbp, .pop .rbp, .retq]

/-- `FunctionCodegen::run`, codegen.rs:121-137, after the definition of the label of the function, 83-85; with the label to be issued next. -/
def compFun (fx : Bool) (f : Fun) (next : Nat) : Option (Code × Nat) := do
  let fr := StackFrame.collect f.frame
  let c0 ← prologue f fr
  let (c1, l, s) ← comp ⟨fx, fr.varOffsets, next⟩ (fun _ => none) f.body { depth := fr.reserved, next := next + 1 }
  match l with
  | some n => if n = f.ret then some (.fn f.id :: c0 ++ c1 ++ epilogue f fr next, s.next) else none
  | none => some (.fn f.id :: c0 ++ c1 ++ epilogue f fr next, s.next)

/-- `object`, codegen.rs:67-107: the functions one after another. -/
def compAll (fx : Bool) : List Fun → Nat → Option Code
  | [], _ => some []
  | f :: fs, next => do
    let (c, next) ← compFun fx f next
    let c' ← compAll fx fs next
    some (c ++ c')

/-! ### The machine -/

/-- Registers, memory by addresses of eightbytes (all addresses used on the stack differ by multiples of 8), the program counter, where
`GC_malloc` allocates next, and the calls of C functions made so far. -/
structure M where
  r : Reg → Int
  mem : Int → Int
  pc : Int
  brk : Int
  out : List (Nat × List Int)

/-- What the world decides: the results of C functions, and what calls leave in the registers they need not preserve. -/
structure World where
  ext : List (Nat × List Int) → Nat → List Int → Int × Int
  junk : M → Reg → Int

/-- Write a register or an address. -/
def upd {α : Type} [DecidableEq α] (f : α → Int) (a : α) (v : Int) : α → Int := fun b => if b = a then v else f b

/-- The result of an operation. -/
def Op.run : Op → Int → Int → Int
  | .add, a, b => a + b
  | .sub, a, b => a - b
  | .mul, a, b => a * b
  | .eq, a, b => if a = b then 1 else 0
  | .lt, a, b => if a < b then 1 else 0

/-- The place of an instruction; the length of the code if it does not occur. -/
def find (C : Code) (i : Instr) : Int := (C.findIdx (· = i) : Nat)

/-- What a C function leaves: the result in `rax` and `rdx`, `rsp` and `rbp` as they were, anything else in the other registers. -/
def clobber (w : World) (m : M) (a d : Int) : Reg → Int
  | .rax => a
  | .rdx => d
  | .rsp => m.r .rsp
  | .rbp => m.r .rbp
  | r => w.junk m r

/-- Where a C function looks for its arguments: the calling convention of System V for x86-64, independently of the generator. -/
def sysV : List Reg := [.rdi, .rsi, .rdx, .rcx, .r8, .r9]

/-- One instruction.  A call with a stack that is not aligned to 16 bytes faults (System V ABI, 3.2.2), also one of the program itself, since
the callee relies on it. -/
def exec (w : World) (C : Code) (m : M) : Instr → Option M
  | .sub n => some { m with r := upd m.r .rsp (m.r .rsp - n), pc := m.pc + 1 }
  | .add n => some { m with r := upd m.r .rsp (m.r .rsp + n), pc := m.pc + 1 }
  | .push r => some { m with r := upd m.r .rsp (m.r .rsp - 8), mem := upd m.mem (m.r .rsp - 8) (m.r r), pc := m.pc + 1 }
  | .pop r => some { m with r := upd (upd m.r .rsp (m.r .rsp + 8)) r (m.mem (m.r .rsp)), pc := m.pc + 1 }
  | .ld r b o => some { m with r := upd m.r r (m.mem (m.r b + o)), pc := m.pc + 1 }
  | .st b o r => some { m with mem := upd m.mem (m.r b + o) (m.r r), pc := m.pc + 1 }
  | .lea r b o => some { m with r := upd m.r r (m.r b + o), pc := m.pc + 1 }
  | .mov r r' => some { m with r := upd m.r r (m.r r'), pc := m.pc + 1 }
  | .imm r i => some { m with r := upd m.r r i, pc := m.pc + 1 }
  | .faddr r c => some { m with r := upd m.r r (find C (.fn c)), pc := m.pc + 1 }
  | .alu op => some { m with r := upd m.r .rax (op.run (m.r .rax) (m.r .rcx)), pc := m.pc + 1 }
  | .cmpset op => some { m with r := upd m.r .rax (op.run (m.r .rcx) (m.r .rax)), pc := m.pc + 1 }
  | .jz l => some { m with pc := if m.r .rax = 0 then find C (.label l) else m.pc + 1 }
  | .jmp l => some { m with pc := find C (.label l) }
  | .callr =>
    if m.r .rsp % 16 = 0 then
      some { m with r := upd m.r .rsp (m.r .rsp - 8), mem := upd m.mem (m.r .rsp - 8) (m.pc + 1), pc := m.r .rax }
    else none
  | .ext sym n _ =>
    if m.r .rsp % 16 = 0 then
      let args := (sysV.take n).map m.r
      let v := w.ext m.out sym args
      some { m with r := clobber w m v.1 v.2, out := m.out ++ [(sym, args)], pc := m.pc + 1 }
    else none
  | .malloc =>
    if m.r .rsp % 16 = 0 then
      some { m with r := clobber w m m.brk (w.junk m .rdx), brk := m.brk + m.r .rdi, pc := m.pc + 1 }
    else none
  | .retq => some { m with r := upd m.r .rsp (m.r .rsp + 8), pc := m.mem (m.r .rsp) }
  | .label _ => some { m with pc := m.pc + 1 }
  | .fn _ => some { m with pc := m.pc + 1 }

/-- One step: the instruction at the program counter. -/
def step (w : World) (C : Code) (m : M) : Option M :=
  if m.pc < 0 then none else
    match C[m.pc.toNat]? with
    | none => none
    | some i => exec w C m i

/-- That many steps. -/
def run (w : World) (C : Code) : Nat → M → Option M
  | 0, m => some m
  | n + 1, m => do run w C n (← step w C m)

end Verif.Codegen
