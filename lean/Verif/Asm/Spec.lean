import Verif.Asm.Model

/-!
# The architecture's rules for operands

Written from the Intel manual (volume 2, chapter 2), without the helpers of the encoder: a decoder
of REX, ModR/M, SIB and displacement, and the names of the registers by number.
-/

namespace Verif.Asm.Spec

/-- Register numbers (volume 2, table 2-2 and table 3-1). -/
def gpr64 : List Gpr64 := [.rax, .rcx, .rdx, .rbx, .rsp, .rbp, .rsi, .rdi, .r8, .r9, .r10, .r11, .r12, .r13, .r14, .r15]
def gpr32 : List Gpr32 := [.eax, .ecx, .edx, .ebx, .esp, .ebp, .esi, .edi, .r8d, .r9d, .r10d, .r11d, .r12d, .r13d, .r14d, .r15d]
def gpr16 : List Gpr16 := [.ax, .cx, .dx, .bx, .sp, .bp, .si, .di, .r8w, .r9w, .r10w, .r11w, .r12w, .r13w, .r14w, .r15w]
def xmm : List Xmm := [.xmm0, .xmm1, .xmm2, .xmm3, .xmm4, .xmm5, .xmm6, .xmm7, .xmm8, .xmm9, .xmm10, .xmm11, .xmm12, .xmm13, .xmm14, .xmm15]
/-- Without a REX prefix the numbers 4 to 7 name the high byte registers. -/
def gpr8NoRex : List Gpr8 := [.al, .cl, .dl, .bl, .ah, .ch, .dh, .bh]
/-- With any REX prefix they name the low byte of `rsp`, `rbp`, `rsi`, `rdi`. -/
def gpr8Rex : List Gpr8 := [.al, .cl, .dl, .bl, .spl, .bpl, .sil, .dil, .r8b, .r9b, .r10b, .r11b, .r12b, .r13b, .r14b, .r15b]

/-- Class of registers an instruction uses for an operand. -/
inductive RegClass
  | c64 | c32 | c16 | c8 | cx
  deriving DecidableEq, Repr

/-- The register with number `n` in a class. -/
def regOf (c : RegClass) (rexPresent : Bool) (n : Nat) : Option RegOp :=
  match c with
  | .c64 => (gpr64[n]?).map .r64
  | .c32 => (gpr32[n]?).map .r32
  | .c16 => (gpr16[n]?).map .r16
  | .cx => (xmm[n]?).map .xmm
  | .c8 => ((if rexPresent then gpr8Rex else gpr8NoRex)[n]?).map .r8

/-- Base of an effective address. -/
inductive Base
  | none | rip | gpr (r : Gpr64)
  deriving DecidableEq, Repr

/-- An effective address: `base + index * factor + disp`. -/
structure EffAddr where
  base : Base
  index : Option (Gpr64 × Nat)
  disp : Int
  deriving DecidableEq, Repr

/-- What an operand of the `r/m` kind denotes. -/
inductive RmVal
  | reg (r : RegOp)
  | mem (a : EffAddr)
  deriving DecidableEq, Repr

/-- Value of bytes, least significant first. -/
def leVal : List Nat → Nat
  | [] => 0
  | b :: bs => b + 256 * leVal bs

/-- Two's complement value of bytes. -/
def signedVal (bs : List Nat) : Int :=
  if 2 * leVal bs < 256 ^ bs.length then leVal bs else leVal bs - (256 ^ bs.length : Nat)

/-- Split off `n` bytes. -/
def takeBytes (n : Nat) (bs : List Nat) : Option (List Nat × List Nat) :=
  if n ≤ bs.length then some (bs.take n, bs.drop n) else none

/-- Displacement of `n` bytes (`n = 0`: none, value 0). -/
def readDisp (n : Nat) (bs : List Nat) : Option (Int × List Nat) := do
  let (d, rest) ← takeBytes n bs
  some (signedVal d, rest)

/-- The REX prefix, if the next byte is one (40 to 4F), and the rest. -/
def readRex : List Nat → Option Nat × List Nat
  | b :: bs => if b / 16 = 4 then (some b, bs) else (none, b :: bs)
  | [] => (none, [])

/-- A bit of the REX prefix: W = 3, R = 2, X = 1, B = 0. -/
def rexBit (rex : Option Nat) (i : Nat) : Bool :=
  match rex with
  | none => false
  | some b => b / 2 ^ i % 2 == 1

/-- A 3-bit field extended by a bit of REX. -/
def ext (bit : Bool) (n : Nat) : Nat := if bit then 8 + n else n

/-- Index register and factor; number 4 means that there is none. -/
def readIndex (n ss : Nat) : Option (Option (Gpr64 × Nat)) :=
  if n = 4 then some none else (gpr64[n]?).map fun r => some (r, 2 ^ ss)

/-- Volume 2, 2.1.5 and 2.2.1.2: ModR/M, SIB, displacement. -/
def readModRM (c : RegClass) (rex : Option Nat) : List Nat → Option (Nat × RmVal × List Nat)
  | [] => none
  | b :: bs => do
    let m := b / 64 % 4
    let reg := b / 8 % 8
    let rm := b % 8
    if m = 3 then
      let r ← regOf c rex.isSome (ext (rexBit rex 0) rm)
      some (ext (rexBit rex 2) reg, .reg r, bs)
    else if rm = 4 then
      match bs with
      | [] => none
      | s :: bs => do
        let ss := s / 64 % 4
        let index ← readIndex (ext (rexBit rex 1) (s / 8 % 8)) ss
        if s % 8 = 5 ∧ m = 0 then
          let (d, bs) ← readDisp 4 bs
          some (ext (rexBit rex 2) reg, .mem ⟨.none, index, d⟩, bs)
        else
          let base ← gpr64[ext (rexBit rex 0) (s % 8)]?
          let (d, bs) ← readDisp (if m = 0 then 0 else if m = 1 then 1 else 4) bs
          some (ext (rexBit rex 2) reg, .mem ⟨.gpr base, index, d⟩, bs)
    else if rm = 5 ∧ m = 0 then
      let (d, bs) ← readDisp 4 bs
      some (ext (rexBit rex 2) reg, .mem ⟨.rip, none, d⟩, bs)
    else
      let base ← gpr64[ext (rexBit rex 0) rm]?
      let (d, bs) ← readDisp (if m = 0 then 0 else if m = 1 then 1 else 4) bs
      some (ext (rexBit rex 2) reg, .mem ⟨.gpr base, none, d⟩, bs)

/-- Operand-size and repeat prefixes used as mandatory prefixes. -/
def isLegacy (b : Nat) : Bool := b == 0x66 || b == 0xF2 || b == 0xF3 || b == 0xF0

/-- Leading legacy prefixes. -/
def readLegacy : List Nat → List Nat × List Nat
  | b :: bs => if isLegacy b then let (l, r) := readLegacy bs; (b :: l, r) else ([], b :: bs)
  | [] => ([], [])

/-- Opcode: one byte, `0F xx`, `0F 38 xx` or `0F 3A xx`. -/
def readOpcode : List Nat → Option (List Nat × List Nat)
  | 0x0F :: b :: bs =>
    if b = 0x38 ∨ b = 0x3A then
      match bs with
      | c :: cs => some ([0x0F, b, c], cs)
      | [] => none
    else some ([0x0F, b], bs)
  | [0x0F] => none
  | b :: bs => some ([b], bs)
  | [] => none

/-- A decoded instruction with ModR/M. -/
structure Decoded where
  legacy : List Nat
  rexW : Bool
  rexPresent : Bool
  opcode : List Nat
  /-- number in the `reg` field, extended by REX.R -/
  reg : Nat
  rm : RmVal
  rest : List Nat
  deriving DecidableEq, Repr

/-- Decode an instruction with a ModR/M byte whose `r/m` register operands are of class `c`. -/
def decode (c : RegClass) (bs : List Nat) : Option Decoded := do
  let (legacy, bs) := readLegacy bs
  let (rex, bs) := readRex bs
  let (opcode, bs) ← readOpcode bs
  let (reg, rm, rest) ← readModRM c rex bs
  some ⟨legacy, rexBit rex 3, rex.isSome, opcode, reg, rm, rest⟩

/-- An opcode as listed by the manual: not a prefix byte, and one of the escape forms. -/
def OpcodeOk (op : List Nat) : Prop :=
  (∃ b, op = [b] ∧ b ≠ 0x0F ∧ isLegacy b = false ∧ b / 16 ≠ 4) ∨
  (∃ b, op = [0x0F, b] ∧ b ≠ 0x38 ∧ b ≠ 0x3A) ∨
  (∃ b c, op = [0x0F, b, c] ∧ (b = 0x38 ∨ b = 0x3A))

/-- Class of a register operand. -/
def classOf : RegOp → RegClass
  | .r64 _ => .c64
  | .r32 _ => .c32
  | .r16 _ => .c16
  | .r8 _ => .c8
  | .xmm _ => .cx

/-- Factor of a scale. -/
def factor : Scale → Nat
  | .scale1 => 1
  | .scale2 => 2
  | .scale4 => 4
  | .scale8 => 8

/-- Value of a displacement. -/
def dispVal : Displacement → Int
  | .disp8 v => v
  | .disp32 v => v

/-- The address an address expression of the assembler stands for. -/
def effAddr : Address → EffAddr
  | .abs d => ⟨.none, none, d⟩
  | .absIdx d i => ⟨.none, some (i.index, factor i.scale), d⟩
  | .rip => ⟨.rip, none, 0⟩
  | .ripDisp d => ⟨.rip, none, d⟩
  | .base b => ⟨.gpr b, none, 0⟩
  | .baseDisp b d => ⟨.gpr b, none, dispVal d⟩
  | .baseIdx b i => ⟨.gpr b, some (i.index, factor i.scale), 0⟩
  | .baseDispIdx b d i => ⟨.gpr b, some (i.index, factor i.scale), dispVal d⟩

/-- What the given `r/m` operand stands for. -/
def rmVal : RmSlot → RmVal
  | .reg r => .reg r
  | .mem a => .mem (effAddr a)

/-- The index register of an address expression. -/
def indexOf : Address → Option IndexScale
  | .absIdx _ i | .baseIdx _ i | .baseDispIdx _ _ i => some i
  | _ => none

/-- Displacements are values of their Rust types and the index is built by `Gpr64 * scale`. -/
def Wf (a : Address) : Prop :=
  (∀ i, indexOf a = some i → ∃ r s, Gpr64.mulScale r s = some i) ∧
  match a with
  | .abs d | .absIdx d _ | .ripDisp d => -2147483648 ≤ d ∧ d < 2147483648
  | .baseDisp _ d | .baseDispIdx _ d _ => d.InRange
  | _ => True

/-- Well-formedness of an `r/m` operand. -/
def RmOk : RmSlot → Prop
  | .reg _ => True
  | .mem a => Wf a

/-- The 64-bit register a smaller register is part of, and the bit it starts at. -/
def partOf : RegOp → Option (Gpr64 × Nat)
  | .r64 r => some (r, 0)
  | .r32 r => (gpr32.zip gpr64).lookup r |>.map (·, 0)
  | .r16 r => (gpr16.zip gpr64).lookup r |>.map (·, 0)
  | .r8 r =>
    match (gpr8Rex.zip gpr64).lookup r with
    | some q => some (q, 0)
    | none => ([(Gpr8.ah, Gpr64.rax), (.ch, .rcx), (.dh, .rdx), (.bh, .rbx)].lookup r).map (·, 8)
  | .xmm _ => none

end Verif.Asm.Spec
