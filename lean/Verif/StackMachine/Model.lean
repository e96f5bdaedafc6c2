import Verif.MemLayout.Model
/-!
# The stack machine of the chibi backend

`llrl0/src/backend/chibi/codegen/stack_inst.rs` and the parts of `chibi/codegen.rs` that move values: variables, `let`, loads,
structs, element access and reinterpretation.

The machine: registers are their eight bytes (byte 0 lowest), memory is a map from addresses to bytes.  Addresses are integers: they do
not wrap around.  Only the registers rax (0), rdx (2), r10 (10), r11 (11) and xmm0, xmm1 carry data; rsp, rbp and rdi hold addresses.
A panic of the compiler is an instruction that cannot be executed.
-/
namespace Verif.StackMachine

open Verif.MemLayout

/-- The base of an address; the code uses rsp, rbp and rdi (and rsi or rax, which it treats alike, in the prologue and epilogue). -/
inductive Base | rsp | rbp | rdi
deriving DecidableEq, Repr

abbrev Addr := Base × Int

/-- The instructions emitted; shift counts are in bits. -/
inductive Inst
  | subRsp (n : Nat)
  | addRsp (n : Nat)
  | pushq (r : Nat)
  | popq (r : Nat)
  | movqGX (r x : Nat)
  | movqXG (x r : Nat)
  | movb (r : Nat) (a : Addr) | movw (r : Nat) (a : Addr) | movl (r : Nat) (a : Addr) | movq (r : Nat) (a : Addr)
  | movzbq (r : Nat) (a : Addr) | movzwq (r : Nat) (a : Addr)
  | shlq (r k : Nat) | shrq (r k : Nat) | shrl (r k : Nat)
  | orq (r r' : Nat)
  | stb (a : Addr) (r : Nat) | stw (a : Addr) (r : Nat) | stl (a : Addr) (r : Nat) | stq (a : Addr) (r : Nat)
  | leaRdi (off : Int)
  | movRdiRax
  | panic
deriving DecidableEq, Repr

/-- The machine state. -/
structure St where
  gpr : Nat → Nat → Nat
  xmm : Nat → Nat → Nat
  rsp : Int
  rbp : Int
  rdi : Int
  mem : Int → Nat

def St.base (s : St) : Base → Int
  | .rsp => s.rsp
  | .rbp => s.rbp
  | .rdi => s.rdi

/-- Effective address. -/
def St.ea (s : St) (a : Addr) : Int := s.base a.1 + a.2

def upd {α} (f : Nat → α) (k : Nat) (v : α) : Nat → α := fun x => if x = k then v else f x

/-- Memory after writing `n` bytes at `a`. -/
def setMem (m : Int → Nat) (a : Int) (n : Nat) (f : Nat → Nat) : Int → Nat :=
  fun x => if a ≤ x ∧ x < a + n then f (x - a).toNat else m x

/-- The number held by the first `n` bytes from byte `i` on. -/
def leNum (f : Nat → Nat) : Nat → Nat → Nat
  | 0, _ => 0
  | n + 1, i => f i + 256 * leNum f n (i + 1)

/-- x86-64 semantics of the instructions: `movb` and `movw` keep the upper bytes of the register, `movl` and `shrl` clear the upper half. -/
def step : Inst → St → Option St
  | .subRsp n, s => some { s with rsp := s.rsp - n }
  | .addRsp n, s => some { s with rsp := s.rsp + n }
  | .pushq r, s => some { s with rsp := s.rsp - 8, mem := setMem s.mem (s.rsp - 8) 8 (s.gpr r) }
  | .popq r, s => some { s with rsp := s.rsp + 8, gpr := upd s.gpr r fun i => s.mem (s.rsp + i) }
  | .movqGX r x, s => some { s with gpr := upd s.gpr r (s.xmm x) }
  | .movqXG x r, s => some { s with xmm := upd s.xmm x (s.gpr r) }
  | .movb r a, s => some { s with gpr := upd s.gpr r fun i => if i < 1 then s.mem (s.ea a + i) else s.gpr r i }
  | .movw r a, s => some { s with gpr := upd s.gpr r fun i => if i < 2 then s.mem (s.ea a + i) else s.gpr r i }
  | .movl r a, s => some { s with gpr := upd s.gpr r fun i => if i < 4 then s.mem (s.ea a + i) else 0 }
  | .movq r a, s => some { s with gpr := upd s.gpr r fun i => s.mem (s.ea a + i) }
  | .movzbq r a, s => some { s with gpr := upd s.gpr r fun i => if i < 1 then s.mem (s.ea a + i) else 0 }
  | .movzwq r a, s => some { s with gpr := upd s.gpr r fun i => if i < 2 then s.mem (s.ea a + i) else 0 }
  | .shlq r k, s => some { s with gpr := upd s.gpr r fun i => if i < k / 8 then 0 else s.gpr r (i - k / 8) }
  | .shrq r k, s => some { s with gpr := upd s.gpr r fun i => if i + k / 8 < 8 then s.gpr r (i + k / 8) else 0 }
  | .shrl r k, s => some { s with gpr := upd s.gpr r fun i => if i + k / 8 < 4 then s.gpr r (i + k / 8) else 0 }
  | .orq r r', s => some { s with gpr := upd s.gpr r fun i => s.gpr r i ||| s.gpr r' i }
  | .stb a r, s => some { s with mem := setMem s.mem (s.ea a) 1 (s.gpr r) }
  | .stw a r, s => some { s with mem := setMem s.mem (s.ea a) 2 (s.gpr r) }
  | .stl a r, s => some { s with mem := setMem s.mem (s.ea a) 4 (s.gpr r) }
  | .stq a r, s => some { s with mem := setMem s.mem (s.ea a) 8 (s.gpr r) }
  | .leaRdi off, s => some { s with rdi := s.rsp + off }
  | .movRdiRax, s => some { s with rdi := leNum (s.gpr 0) 8 0 }
  | .panic, _ => none

def exec : List Inst → St → Option St
  | [], s => some s
  | i :: is, s => (step i s).bind (exec is)

/-! ### Moving eightbytes -/

def Addr.offset (a : Addr) (k : Int) : Addr := (a.1, a.2 + k)

/-- stack_inst.rs:5-6, 13-14: `TMP_GP1`, `TMP_GP2`, `LAST_VALUE_GPS`, `LAST_VALUE_FPS`. -/
def tmp1 : Nat := 10
def tmp2 : Nat := 11
def gps : List Nat := [0, 2]
def fps : List Nat := [0, 1]

/-- stack_inst.rs:216-252 `Gpr64::load`. -/
def gprLoad (r : Nat) (a : Addr) : Nat → List Inst
  | 0 => []
  | 1 => [.movb r a]
  | 2 => [.movw r a]
  | 3 => [.movzwq r a, .movzbq tmp1 (a.offset 2), .shlq tmp1 16, .orq r tmp1]
  | 4 => [.movl r a]
  | 5 => [.movl r a, .movzbq tmp1 (a.offset 4), .shlq tmp1 32, .orq r tmp1]
  | 6 => [.movl r a, .movzwq tmp1 (a.offset 4), .shlq tmp1 32, .orq r tmp1]
  | 7 => [.movl r a, .movzwq tmp1 (a.offset 4), .shlq tmp1 32, .orq r tmp1,
          .movzbq tmp1 (a.offset 6), .shlq tmp1 48, .orq r tmp1]
  | 8 => [.movq r a]
  | _ => [.panic]

/-- stack_inst.rs:254-290 `Gpr64::store`. -/
def gprStore (r : Nat) (a : Addr) : Nat → List Inst
  | 0 => []
  | 1 => [.stb a r]
  | 2 => [.stw a r]
  | 3 => [.stw a r, .shrl r 16, .stb (a.offset 2) r]
  | 4 => [.stl a r]
  | 5 => [.stl a r, .shrq r 32, .stb (a.offset 4) r]
  | 6 => [.stl a r, .shrq r 32, .stw (a.offset 4) r]
  | 7 => [.stl a r, .shrq r 32, .stw (a.offset 4) r, .shrq r 16, .stb (a.offset 6) r]
  | 8 => [.stq a r]
  | _ => [.panic]

/-- stack_inst.rs:206-209, 294-298, 323-329 `push`. -/
def regPush : AssignedReg → List Inst
  | .gpr r => [.pushq r]
  | .xmm x => [.movqGX tmp2 x, .pushq tmp2]
  | .void => []

/-- stack_inst.rs:211-214, 300-304, 331-337 `pop`. -/
def regPop : AssignedReg → List Inst
  | .gpr r => [.popq r]
  | .xmm x => [.popq tmp2, .movqXG x tmp2]
  | .void => []

/-- Eightbytes pushed or popped (the `usize` result of `push` and `pop`). -/
def regNum : AssignedReg → Int
  | .gpr _ => 1
  | .xmm _ => 1
  | .void => 0

/-- stack_inst.rs:306-309, 339-345 `load`. -/
def regLoad (r : AssignedReg) (a : Addr) (size : Nat) : List Inst :=
  match r with
  | .gpr r => gprLoad r a size
  | .xmm x => gprLoad tmp2 a size ++ [.movqXG x tmp2]
  | .void => []

/-- stack_inst.rs:311-314, 347-353 `store`. -/
def regStore (r : AssignedReg) (a : Addr) (size : Nat) : List Inst :=
  match r with
  | .gpr r => gprStore r a size
  | .xmm x => [.movqGX tmp2 x] ++ gprStore tmp2 a size
  | .void => []

/-! ### `StackAwareInstWriter`: the code, and the change of `depth` -/

abbrev Code := List Inst × Int

def Code.cat (a b : Code) : Code := (a.1 ++ b.1, a.2 + b.2)

def Code.flat : List Code → Code
  | [] => ([], 0)
  | c :: cs => c.cat (Code.flat cs)

/-- stack_inst.rs:25-31 `extend_stack`. -/
def extendStack (l : Layout) : Code := if l.size ≠ 0 then ([.subRsp (l.numEightbytes * 8)], l.numEightbytes) else ([], 0)

/-- stack_inst.rs:33-39 `shrink_stack`. -/
def shrinkStack (l : Layout) : Code := if l.size ≠ 0 then ([.addRsp (l.numEightbytes * 8)], -(l.numEightbytes : Int)) else ([], 0)

/-- The body of the loops of `slide_in_stack`. -/
def slideOne (src dst : Nat) (l : Layout) (i : Nat) : List Inst :=
  gprLoad tmp2 (.rsp, src + i * 8) (min (l.size - i * 8) 8) ++ gprStore tmp2 (.rsp, dst + i * 8) (min (l.size - i * 8) 8)

/-- stack_inst.rs:41-66 `slide_in_stack`. -/
def slideInStack (src dst : Nat) (l : Layout) : Code :=
  if src = dst then ([], 0)
  else if src < dst then ((((List.range l.numEightbytes).reverse).map (slideOne src dst l)).flatten, 0)
  else (((List.range l.numEightbytes).map (slideOne src dst l)).flatten, 0)

/-- stack_inst.rs:68-79 `push_eightbyte`, `pop_eightbyte`. -/
def pushEightbyte (r : AssignedReg) : Code := (regPush r, regNum r)
def popEightbyte (r : AssignedReg) : Code := (regPop r, -regNum r)

/-- stack_inst.rs:112-126 `push`. -/
def push (l : Layout) : Code :=
  match build l gps fps with
  | some (as, _) => Code.flat (as.reverse.map fun a => pushEightbyte a.reg)
  | none => ([], 0)

/-- stack_inst.rs:128-142 `pop`. -/
def pop (l : Layout) : Code :=
  match build l gps fps with
  | some (as, _) => Code.flat (as.map fun a => popEightbyte a.reg)
  | none => ([], 0)

/-- stack_inst.rs:144-165 `load`. -/
def load (a : Addr) (l : Layout) : Code :=
  match build l gps fps with
  | some (as, _) => Code.flat (as.map fun x => (regLoad x.reg (a.offset x.offset) x.size, 0))
  | none =>
    if l.cls = .memory then
      Code.flat (l.eightbytes.reverse.map fun e => (gprLoad tmp2 (a.offset e.offset) e.size ++ regPush (.gpr tmp2), 1))
    else ([], 0)

/-- stack_inst.rs:167-188 `store`. -/
def store (a : Addr) (l : Layout) : Code :=
  match build l gps fps with
  | some (as, _) => Code.flat (as.map fun x => (regStore x.reg (a.offset x.offset) x.size, 0))
  | none =>
    if l.cls = .memory then
      Code.flat (l.eightbytes.map fun e => (regPop (.gpr tmp2) ++ gprStore tmp2 (a.offset e.offset) e.size, -1))
    else ([], 0)

/-- stack_inst.rs:101-110 `discard`. -/
def discard (l : Layout) : Code := if l.cls = .memory then shrinkStack l else ([], 0)

/-! ### Expressions (the value-moving fragment of `Rt`) -/

/-- `Rt::Var`, `Rt::LetVar` of one variable, `Unary::Load`, `Rt::ConstructStruct`, `Unary::StructElem`, `Unary::Reinterpret`, `Rt::Seq` of two
expressions; variables are given by their slot (stack_frame.var_offsets) and every type by its layout. -/
inductive Ex
  | var (off : Int) (l : Layout)
  | letv (off : Int) (e body : Ex)
  | load (l : Layout) (e : Ex)
  | struct (l : Layout) (es : List Ex)
  | elem (i : Nat) (e : Ex)
  | reint (l : Layout) (e : Ex)
  | seq (e body : Ex)

/-- codegen.rs:641-651, the code of `StructElem` after its operand. -/
def elemCode (a : Layout) (i : Nat) : Option (Code × Layout) :=
  match a.composite with
  | none => none
  | some (es, _) =>
    match es[i]? with
    | none => none
    | some (offset, l) =>
      if offset ≠ 0 ∨ a.numEightbytes > l.numEightbytes then
        let diff := (a.numEightbytes - l.numEightbytes) * 8
        some (Code.flat [push a, slideInStack offset diff l, shrinkStack (Layout.memory diff 8), pop l], l)
      else some (([], 0), l)

/-- codegen.rs:652-669, the code of `Reinterpret` after its operand. -/
def reintCode (a b : Layout) : Code :=
  if a.numEightbytes < b.numEightbytes then
    let diff := (b.numEightbytes - a.numEightbytes) * 8
    Code.flat [push a, extendStack (Layout.memory diff 8), slideInStack diff 0 a, pop b]
  else
    let diff := (a.numEightbytes - b.numEightbytes) * 8
    Code.flat [push a, slideInStack 0 diff b, shrinkStack (Layout.memory diff 8), pop b]

mutual
/-- codegen.rs:191-396 `eval`, for this fragment; `none` is a panic. -/
def compile : Ex → Option (Code × Layout)
  | .var off l => some (load (.rbp, off) l.inStack, l)
  | .letv off e body =>
    match compile e with
    | none => none
    | some (c, l) =>
      match compile body with
      | none => none
      | some (c', l') => some (Code.flat [c, store (.rbp, off) l.inStack, c'], l')
  | .load l e =>
    match compile e with
    | none => none
    | some (c, _) => some (Code.flat [c, ([.movRdiRax], 0), load (.rdi, 0) l], l)
  | .struct l es =>
    match l.composite with
    | none => none
    | some (ls, _) =>
      match compileFields (ls.map (·.1)) es with
      | none => none
      | some c => some (Code.flat [extendStack l, c, pop l], l)
  | .elem i e =>
    match compile e with
    | none => none
    | some (c, a) =>
      match elemCode a i with
      | none => none
      | some (c', l) => some (c.cat c', l)
  | .reint l e =>
    match compile e with
    | none => none
    | some (c, a) => some (c.cat (reintCode a l), l)
  | .seq e body =>
    match compile e with
    | none => none
    | some (c, l) =>
      match compile body with
      | none => none
      | some (c', l') => some (Code.flat [c, discard l, c'], l')
/-- codegen.rs:340-346: putting the components in the temporary area. -/
def compileFields : List Nat → List Ex → Option Code
  | o :: os, e :: es =>
    match compile e with
    | none => none
    | some (c, l) =>
      match compileFields os es with
      | none => none
      | some c' => some (Code.flat [c, ([.leaRdi (o + l.sizeInStack true : Nat)], 0), store (.rdi, 0) l, c'])
  | _, _ => some ([], 0)
end

end Verif.StackMachine
