import Verif.Arith.Spec

/-!
# Model of the arithmetic in the chibi backend, `llrl0/src/backend/chibi/codegen.rs`

`eval_binary` and `eval_unary` for integers, pointers and the comparisons and conversions of floats: the instructions they emit after the
operands are evaluated (the left one pushed, the right one in `rax`), and what these instructions do to the registers `rax`, `rcx`, `rdx`, the
flags and the stack.  `none` is a trap of the processor (`#DE`).
Not modelled: the evaluation of the operands and how values get to the stack (C54), the arithmetic of floats (one instruction each), calls of the
C library, and widths other than 1, 2, 4 and 8 bytes (`unsupported_op!`).
-/
namespace Verif.Arith

/-- Operand sizes: the suffixes `b`, `w`, `l`, `q`. -/
inductive Sz | b | w | l | q
deriving DecidableEq, Repr

def Sz.bits : Sz → Nat
  | .b => 8 | .w => 16 | .l => 32 | .q => 64

/-- The registers used. -/
inductive Reg | rax | rcx | rdx
deriving DecidableEq, Repr

inductive Alu | add | sub | and | or | xor
deriving DecidableEq, Repr

inductive Shift | shl | sar | shr
deriving DecidableEq, Repr

/-- Conditions of `setcc`. -/
inductive CC | e | l | le | g | ge | b | be | a | ae
deriving DecidableEq, Repr

/-- The instructions, destination first. -/
inductive Inst
  | pop (r : Reg)
  | mov (s : Sz) (d r : Reg)
  | movAlAh
  | alu (op : Alu) (s : Sz) (d r : Reg)
  /-- with the sign-extended immediate -1 -/
  | xorOnes (s : Sz)
  | cmp (s : Sz) (d r : Reg)
  /-- into `al` -/
  | set (c : CC)
  /-- of `rax` by `cl` -/
  | shift (k : Shift) (s : Sz)
  /-- of `rax` by the operand; the high half goes to `rdx` (or `ah`) -/
  | imul1 (s : Sz) (r : Reg)
  | idiv (s : Sz) (r : Reg)
  | div (s : Sz) (r : Reg)
  /-- `cwtd`, `cltd`, `cqto`: the sign of `rax` to `rdx` -/
  | signToRdx (s : Sz)
  /-- `movsx`, `cbtw`, `cwtl`, `cltq`: within `rax` -/
  | movs (src dst : Sz)
  /-- `movzx` within `rax` -/
  | movz (src dst : Sz)
  | popcnt (s : Sz)
deriving DecidableEq, Repr

structure Flags where
  zf : Bool
  cf : Bool
  sf : Bool
  of : Bool
deriving DecidableEq, Repr

structure St where
  rax : BitVec 64
  rcx : BitVec 64
  rdx : BitVec 64
  flags : Flags
  stack : List (BitVec 64)
deriving DecidableEq

def St.get (s : St) : Reg → BitVec 64
  | .rax => s.rax
  | .rcx => s.rcx
  | .rdx => s.rdx

def St.set (s : St) (r : Reg) (v : BitVec 64) : St :=
  match r with
  | .rax => { s with rax := v }
  | .rcx => { s with rcx := v }
  | .rdx => { s with rdx := v }

/-- The low part of a register. -/
def rd (n : Nat) (r : BitVec 64) : BitVec n := r.setWidth n

/-- Writing the low part: a write of 32 bits clears the upper half, narrower ones leave the rest. -/
def wr (n : Nat) (r : BitVec 64) (v : BitVec n) : BitVec 64 :=
  if n = 32 then v.setWidth 64 else ((r >>> n) <<< n) ||| v.setWidth 64

def aluOp {n : Nat} : Alu → BitVec n → BitVec n → BitVec n
  | .add, a, b => a + b
  | .sub, a, b => a - b
  | .and, a, b => a &&& b
  | .or, a, b => a ||| b
  | .xor, a, b => a ^^^ b

/-- The flags after `a - b`. -/
def subFlags {n : Nat} (a b : BitVec n) : Flags where
  zf := a - b == 0#n
  cf := decide (a.toNat < b.toNat)
  sf := (a - b).msb
  of := (a.msb != b.msb) && ((a - b).msb != a.msb)

def CC.holds (f : Flags) : CC → Bool
  | .e => f.zf
  | .l => f.sf != f.of
  | .le => f.zf || (f.sf != f.of)
  | .g => !f.zf && (f.sf == f.of)
  | .ge => f.sf == f.of
  | .b => f.cf
  | .be => f.cf || f.zf
  | .a => !f.cf && !f.zf
  | .ae => !f.cf

/-- A shift: the count is taken modulo 32, or modulo 64 for quad words. -/
def shiftOp {n : Nat} (k : Shift) (a : BitVec n) (c : Nat) : BitVec n :=
  match k with
  | .shl => a <<< c
  | .sar => a.sshiftRight c
  | .shr => a >>> c

def count (s : Sz) (cl : BitVec 8) : Nat := cl.toNat % (if s = .q then 64 else 32)

/-- `div`: of the number with the given halves. -/
def udivide {n : Nat} (hi lo d : BitVec n) : Option (BitVec n × BitVec n) :=
  let x := hi.toNat * 2 ^ n + lo.toNat
  if d.toNat = 0 ∨ 2 ^ n ≤ x / d.toNat then none else some (BitVec.ofNat n (x / d.toNat), BitVec.ofNat n (x % d.toNat))

/-- `idiv`: truncates towards zero. -/
def sdivide {n : Nat} (hi lo d : BitVec n) : Option (BitVec n × BitVec n) :=
  let x := hi.toInt * 2 ^ n + lo.toNat
  if d.toInt = 0 ∨ x.tdiv d.toInt < -2 ^ (n - 1) ∨ 2 ^ (n - 1) ≤ x.tdiv d.toInt then none
  else some (BitVec.ofInt n (x.tdiv d.toInt), BitVec.ofInt n (x.tmod d.toInt))

/-- The high halves for a division or multiplication: `ah` for bytes, else `rdx`. -/
def high (s : Sz) (st : St) : BitVec s.bits :=
  if s = .b then rd s.bits (st.rax >>> 8) else rd s.bits st.rdx

/-- Results of a division or multiplication: low half to `al` / `ax` / `eax` / `rax`, high half to `ah` or `rdx`. -/
def putPair (s : Sz) (st : St) (hi lo : BitVec s.bits) : St :=
  if s = .b then { st with rax := wr 16 st.rax ((hi.setWidth 16 <<< 8) ||| lo.setWidth 16) }
  else { st with rax := wr s.bits st.rax lo, rdx := wr s.bits st.rdx hi }

/-- One instruction. -/
def step : Inst → St → Option St
  | .pop r, st => match st.stack with
    | [] => none
    | v :: rest => some ({ st with stack := rest }.set r v)
  | .mov s d r, st => some (st.set d (wr s.bits (st.get d) (rd s.bits (st.get r))))
  | .movAlAh, st => some { st with rax := wr 8 st.rax (rd 8 (st.rax >>> 8)) }
  | .alu op s d r, st => some (st.set d (wr s.bits (st.get d) (aluOp op (rd s.bits (st.get d)) (rd s.bits (st.get r)))))
  | .xorOnes s, st => some { st with rax := wr s.bits st.rax (rd s.bits st.rax ^^^ BitVec.allOnes s.bits) }
  | .cmp s d r, st => some { st with flags := subFlags (rd s.bits (st.get d)) (rd s.bits (st.get r)) }
  | .set c, st => some { st with rax := wr 8 st.rax (if c.holds st.flags then 1#8 else 0#8) }
  | .shift k s, st => some { st with rax := wr s.bits st.rax (shiftOp k (rd s.bits st.rax) (count s (rd 8 st.rcx))) }
  | .imul1 s r, st =>
    let p := (rd s.bits st.rax).toInt * (rd s.bits (st.get r)).toInt
    some (putPair s st (BitVec.ofInt s.bits (p / 2 ^ s.bits)) (BitVec.ofInt s.bits p))
  | .idiv s r, st => do
    let (q, m) ← sdivide (high s st) (rd s.bits st.rax) (rd s.bits (st.get r))
    some (putPair s st m q)
  | .div s r, st => do
    let (q, m) ← udivide (high s st) (rd s.bits st.rax) (rd s.bits (st.get r))
    some (putPair s st m q)
  | .signToRdx s, st => some { st with rdx := wr s.bits st.rdx (if (rd s.bits st.rax).msb then BitVec.allOnes s.bits else 0#s.bits) }
  | .movs src dst, st => some { st with rax := wr dst.bits st.rax ((rd src.bits st.rax).signExtend dst.bits) }
  | .movz src dst, st => some { st with rax := wr dst.bits st.rax ((rd src.bits st.rax).setWidth dst.bits) }
  | .popcnt s, st => some { st with rax := wr s.bits st.rax (BitVec.ofNat s.bits (Spec.ones (rd s.bits st.rax).toNat s.bits)) }

def exec : List Inst → St → Option St
  | [], st => some st
  | i :: is, st => do
    let st ← step i st
    exec is st

/-! ## What is emitted -/

/-- `SDiv | SRem`, codegen.rs:930-945. -/
def sdivCode : Sz → List Inst
  | .b => [.movs .b .w, .idiv .b .rcx]
  | .w => [.signToRdx .w, .idiv .w .rcx]
  | .l => [.signToRdx .l, .idiv .l .rcx]
  | .q => [.signToRdx .q, .idiv .q .rcx]

/-- `UDiv | URem`, codegen.rs:946-961. -/
def udivCode : Sz → List Inst
  | .b => [.movz .b .w, .div .b .rcx]
  | .w => [.alu .xor .l .rdx .rdx, .div .w .rcx]
  | .l => [.alu .xor .l .rdx .rdx, .div .l .rcx]
  | .q => [.alu .xor .l .rdx .rdx, .div .q .rcx]

/-- The move of the remainder, codegen.rs:964-970. -/
def remMove : Sz → List Inst
  | .b => [.movAlAh]
  | .w => [.mov .w .rax .rdx]
  | .l => [.mov .l .rax .rdx]
  | .q => [.mov .q .rax .rdx]

/-- The operation itself, codegen.rs:893-970. -/
def opCode (s : Sz) : BinOp → List Inst
  | .shl => [.shift .shl s]
  | .ashr => [.shift .sar s]
  | .lshr => [.shift .shr s]
  | .and => [.alu .and s .rax .rcx]
  | .or => [.alu .or s .rax .rcx]
  | .xor => [.alu .xor s .rax .rcx]
  | .sadd | .uadd => [.alu .add s .rax .rcx]
  | .ssub | .usub => [.alu .sub s .rax .rcx]
  | .smul | .umul => [.imul1 s .rcx]
  | .sdiv => sdivCode s
  | .udiv => udivCode s
  | .srem => sdivCode s ++ remMove s
  | .urem => udivCode s ++ remMove s

/-- `eval_binary`, arithmetic, codegen.rs:889-972: the instructions after the operands. -/
def binary (op : BinOp) (s : Sz) : List Inst := .mov .q .rcx .rax :: .pop .rax :: opCode s op

/-- `eval_binary`, comparisons of integers and pointers, codegen.rs:865-888. -/
def compare (op : CmpOp) (s : Sz) : List Inst :=
  [.pop .rcx, .cmp s .rcx .rax,
    .set (match op with
      | .ieq | .ptrEq => .e
      | .slt => .l
      | .sle => .le
      | .sgt => .g
      | .sge => .ge
      | .ult | .ptrLt => .b
      | .ule | .ptrLe => .be
      | .ugt | .ptrGt => .a
      | .uge | .ptrGe => .ae)]

/-- `eval_unary`, `IComplement` and `IPopCount`, codegen.rs:683-699. -/
def complement (s : Sz) : List Inst := [.xorOnes s]

def popCount : Sz → List Inst
  | .b => [.movz .b .w, .popcnt .w]
  | s => [.popcnt s]

/-- `eval_unary`, `ITrunc`, `SExt`, `UExt`, codegen.rs:700-716; `movl eax, eax` clears the upper half. -/
def sext : Sz → Sz → Option (List Inst)
  | .b, .w => some [.movs .b .w]
  | .b, .l => some [.movs .b .l]
  | .b, .q => some [.movs .b .q]
  | .w, .l => some [.movs .w .l]
  | .w, .q => some [.movs .w .q]
  | .l, .q => some [.movs .l .q]
  | _, _ => none

def uext : Sz → Sz → Option (List Inst)
  | .b, .w => some [.movz .b .w]
  | .b, .l => some [.movz .b .l]
  | .b, .q => some [.movz .b .q]
  | .w, .l => some [.movz .w .l]
  | .w, .q => some [.movz .w .q]
  | .l, .q => some [.mov .l .rax .rax]
  | _, _ => none

def trunc (_ _ : Sz) : List Inst := []

/-! ## Floats -/

/-- The flags of `comiss` and `comisd`: greater: none; less: carry; equal: zero; unordered: zero, parity and carry. -/
def comiFlags : Spec.Relation → Flags
  | some .gt => ⟨false, false, false, false⟩
  | some .lt => ⟨false, true, false, false⟩
  | some .eq => ⟨true, false, false, false⟩
  | none => ⟨true, true, false, false⟩

/-- `eval_binary`, comparisons of floats, codegen.rs:973-989: the condition set from the flags of left against right. -/
def fcompare (op : FCmpOp) (r : Spec.Relation) : Bool :=
  (match op with
    | .feq => CC.e
    | .flt => CC.b
    | .fle => CC.be
    | .fgt => CC.a
    | .fge => CC.ae).holds (comiFlags r)

/-- `eval_unary`, `SToF`, codegen.rs:717-736: what comes before `cvtsi2ss` or `cvtsi2sd`, and the size of its operand. -/
def stofInput : Sz → List Inst × Sz
  | .b => ([.movs .b .l], .l)
  | .w => ([.movs .w .l], .l)
  | .l => ([], .l)
  | .q => ([], .q)

/-- `eval_unary`, `UToF` below 8 bytes, codegen.rs:737-760. -/
def utofInput : Sz → Option (List Inst × Sz)
  | .b => some ([.movz .b .l], .l)
  | .w => some ([.movz .w .l], .l)
  | .l => some ([.mov .l .rax .rax], .q)
  | .q => none

/-- `cvtsi2ss` / `cvtsi2sd` of a non-negative quad word: rounds to the nearest. -/
def cvtsi (p : Nat) (x : BitVec 64) : Nat := Spec.toFloat p x.toNat

/-- `eval_unary`, `UToF` of 8 bytes, codegen.rs:761-791: numbers with the top bit are halved, keeping the lost bit, converted and doubled (`addss`,
`addsd`: exact, no overflow at these magnitudes). -/
def utof (p : Nat) (x : BitVec 64) : Nat :=
  if x.msb then
    let low := (x &&& 1#64).setWidth 32   -- `andl eax, 1` (clears the upper half of `rax`)
    let half := (x >>> 1) ||| low.setWidth 64
    2 * cvtsi p half
  else cvtsi p x

/-- `cvttss2si` / `cvttsd2si`: the integer part if it is in the range of signed numbers of the width, else the smallest. -/
def cvtt (n : Nat) (i : Int) : BitVec n :=
  if -2 ^ (n - 1) ≤ i ∧ i < 2 ^ (n - 1) then BitVec.ofInt n i else BitVec.ofInt n (-2 ^ (n - 1))

/-- `eval_unary`, `FToS`, codegen.rs:792-804: by `eax` up to 4 bytes, by `rax` for 8. -/
def ftos (s : Sz) (i : Int) : BitVec s.bits :=
  match s with
  | .q => cvtt 64 i
  | s => (cvtt 32 i).setWidth s.bits

/-- `eval_unary`, `FToU`, codegen.rs:792-804: by `eax` up to 2 bytes, by `rax` for 4 and 8. -/
def ftou (s : Sz) (i : Int) : BitVec s.bits :=
  match s with
  | .b => (cvtt 32 i).setWidth 8
  | .w => (cvtt 32 i).setWidth 16
  | s => (cvtt 64 i).setWidth s.bits

end Verif.Arith
