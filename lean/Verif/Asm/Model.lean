/-!
# Operands of the assembler and their encoding

Model of `/repo/xten0/src/asm/encoding.rs` and `/repo/xten0/src/asm/operand.rs`.

A byte is a `Nat` (always below 256 for the bytes produced here, see `encode_bytes_lt`), an `i8`/`i32` is an `Int` together with a
range condition.  A failing `assert!`/`panic!` is `none`.
-/

namespace Verif.Asm

/-- operand.rs:9-26 `Gpr64` -/
inductive Gpr64
  | rax | rcx | rdx | rbx | rsp | rbp | rsi | rdi | r8 | r9 | r10 | r11 | r12 | r13 | r14 | r15
  deriving DecidableEq, Repr

/-- operand.rs:29-48 `Gpr64::register_code` -/
def Gpr64.registerCode : Gpr64 → Nat
  | .rax => 0
  | .rcx => 1
  | .rdx => 2
  | .rbx => 3
  | .rsp => 4
  | .rbp => 5
  | .rsi => 6
  | .rdi => 7
  | .r8 => 8
  | .r9 => 9
  | .r10 => 10
  | .r11 => 11
  | .r12 => 12
  | .r13 => 13
  | .r14 => 14
  | .r15 => 15

/-- operand.rs:134-151 `Gpr32` -/
inductive Gpr32
  | eax | ecx | edx | ebx | esp | ebp | esi | edi | r8d | r9d | r10d | r11d | r12d | r13d | r14d | r15d
  deriving DecidableEq, Repr

/-- operand.rs:154-173 `Gpr32::register_code` -/
def Gpr32.registerCode : Gpr32 → Nat
  | .eax => 0
  | .ecx => 1
  | .edx => 2
  | .ebx => 3
  | .esp => 4
  | .ebp => 5
  | .esi => 6
  | .edi => 7
  | .r8d => 8
  | .r9d => 9
  | .r10d => 10
  | .r11d => 11
  | .r12d => 12
  | .r13d => 13
  | .r14d => 14
  | .r15d => 15

/-- operand.rs:192-209 `Gpr16` -/
inductive Gpr16
  | ax | cx | dx | bx | sp | bp | si | di | r8w | r9w | r10w | r11w | r12w | r13w | r14w | r15w
  deriving DecidableEq, Repr

/-- operand.rs:212-231 `Gpr16::register_code` -/
def Gpr16.registerCode : Gpr16 → Nat
  | .ax => 0
  | .cx => 1
  | .dx => 2
  | .bx => 3
  | .sp => 4
  | .bp => 5
  | .si => 6
  | .di => 7
  | .r8w => 8
  | .r9w => 9
  | .r10w => 10
  | .r11w => 11
  | .r12w => 12
  | .r13w => 13
  | .r14w => 14
  | .r15w => 15

/-- operand.rs:250-271 `Gpr8` -/
inductive Gpr8
  | al | cl | dl | bl | ah | ch | dh | bh | spl | bpl | sil | dil | r8b | r9b | r10b | r11b | r12b | r13b | r14b | r15b
  deriving DecidableEq, Repr

/-- operand.rs:274-297 `Gpr8::register_code` -/
def Gpr8.registerCode : Gpr8 → Nat
  | .al => 0
  | .cl => 1
  | .dl => 2
  | .bl => 3
  | .ah => 4
  | .ch => 5
  | .dh => 6
  | .bh => 7
  | .spl => 4
  | .bpl => 5
  | .sil => 6
  | .dil => 7
  | .r8b => 8
  | .r9b => 9
  | .r10b => 10
  | .r11b => 11
  | .r12b => 12
  | .r13b => 13
  | .r14b => 14
  | .r15b => 15

/-- operand.rs:328-345 `Xmm` -/
inductive Xmm
  | xmm0 | xmm1 | xmm2 | xmm3 | xmm4 | xmm5 | xmm6 | xmm7 | xmm8 | xmm9 | xmm10 | xmm11 | xmm12 | xmm13 | xmm14 | xmm15
  deriving DecidableEq, Repr

/-- operand.rs:348-367 `Xmm::encoding_index` -/
def Xmm.encodingIndex : Xmm → Nat
  | .xmm0 => 0
  | .xmm1 => 1
  | .xmm2 => 2
  | .xmm3 => 3
  | .xmm4 => 4
  | .xmm5 => 5
  | .xmm6 => 6
  | .xmm7 => 7
  | .xmm8 => 8
  | .xmm9 => 9
  | .xmm10 => 10
  | .xmm11 => 11
  | .xmm12 => 12
  | .xmm13 => 13
  | .xmm14 => 14
  | .xmm15 => 15

/-- operand.rs:54-73 `Gpr64::l` -/
def Gpr64.l : Gpr64 → Gpr32
  | .rax => .eax
  | .rcx => .ecx
  | .rdx => .edx
  | .rbx => .ebx
  | .rsp => .esp
  | .rbp => .ebp
  | .rsi => .esi
  | .rdi => .edi
  | .r8 => .r8d
  | .r9 => .r9d
  | .r10 => .r10d
  | .r11 => .r11d
  | .r12 => .r12d
  | .r13 => .r13d
  | .r14 => .r14d
  | .r15 => .r15d

/-- operand.rs:75-94 `Gpr64::w` -/
def Gpr64.w : Gpr64 → Gpr16
  | .rax => .ax
  | .rcx => .cx
  | .rdx => .dx
  | .rbx => .bx
  | .rsp => .sp
  | .rbp => .bp
  | .rsi => .si
  | .rdi => .di
  | .r8 => .r8w
  | .r9 => .r9w
  | .r10 => .r10w
  | .r11 => .r11w
  | .r12 => .r12w
  | .r13 => .r13w
  | .r14 => .r14w
  | .r15 => .r15w

/-- operand.rs:96-115 `Gpr64::b` -/
def Gpr64.b : Gpr64 → Gpr8
  | .rax => .al
  | .rcx => .cl
  | .rdx => .dl
  | .rbx => .bl
  | .rsp => .spl
  | .rbp => .bpl
  | .rsi => .sil
  | .rdi => .dil
  | .r8 => .r8b
  | .r9 => .r9b
  | .r10 => .r10b
  | .r11 => .r11b
  | .r12 => .r12b
  | .r13 => .r13b
  | .r14 => .r14b
  | .r15 => .r15b

/-- encoding.rs:6-13 `RexPrefix` -/
inductive RexPrefix
  | notRequired | required | denied | inconsistent
  deriving DecidableEq, Repr

/-- encoding.rs:16-24 `RexPrefix::merge` -/
def RexPrefix.merge : RexPrefix → RexPrefix → RexPrefix
  | .notRequired, .notRequired => .notRequired
  | .required, .required => .required
  | .notRequired, .required => .required
  | .required, .notRequired => .required
  | .denied, .denied => .denied
  | .notRequired, .denied => .denied
  | .denied, .notRequired => .denied
  | _, _ => .inconsistent

/-- encoding.rs:390-392 `bit_mask` (the left shift of a `u8` never exceeds 8 bits for the ranges used) -/
def bitMask (start stop : Nat) : Nat := ((1 <<< (stop - start)) - 1) <<< start

/-- encoding.rs:400-405 `set_bits`; `none` when the value does not fit into the range.
`!mask` is the complement within 8 bits.  `<<` on a `u8` drops the bits beyond 8: the callers pass
values of at most 3 bits to ranges ending at most at bit 8, where nothing is dropped. -/
def setBits (self value start stop : Nat) : Option Nat :=
  let mask := bitMask start stop
  let value := (value <<< start) % 256
  if value &&& (255 ^^^ mask) = 0 then some ((self &&& (255 ^^^ mask)) ||| value) else none

/-- encoding.rs:29-44 `RexPrefix::byte`; the outer `none` is the panic, the inner one "no prefix". -/
def RexPrefix.byte (p : RexPrefix) (w r x b : Bool) : Option (Option Nat) := do
  let required ← match p, (w || r || x || b) with
    | .notRequired, e => some e
    | .required, _ => some true
    | .denied, false => some false
    | _, _ => none
  if required then
    let v ← setBits 0 4 4 8
    let v ← setBits v w.toNat 3 4
    let v ← setBits v r.toNat 2 3
    let v ← setBits v x.toNat 1 2
    let v ← setBits v b.toNat 0 1
    some (some v)
  else some none

/-- encoding.rs:94-98 `Reg` -/
structure Reg where
  modRmReg : Nat
  rexR : Bool
  rexPrefix : RexPrefix
  deriving DecidableEq, Repr

/-- encoding.rs:101-108 `Reg::new` -/
def Reg.new (reg : Nat) : Option Reg :=
  if reg ≤ 15 then some ⟨reg &&& 7, (reg &&& 8) != 0, .notRequired⟩ else none

/-- encoding.rs:110-112 `Reg::rex_prefix` -/
def Reg.withRex (r : Reg) (p : RexPrefix) : Reg := { r with rexPrefix := p }

/-- encoding.rs:125-130 `From<PartOfOpcode> for Reg` -/
def Reg.ofDigit (d : Nat) : Option Reg := if d ≤ 7 then Reg.new d else none

/-- encoding.rs:294-297 `Displacement` -/
inductive Displacement
  | disp8 (v : Int)
  | disp32 (v : Int)
  deriving DecidableEq, Repr

/-- The values an `i8` respectively an `i32` can have. -/
def Displacement.InRange : Displacement → Prop
  | .disp8 v => -128 ≤ v ∧ v < 128
  | .disp32 v => -2147483648 ≤ v ∧ v < 2147483648

/-- encoding.rs:304-309 `Displacement::mod_rm_mod` -/
def Displacement.modRmMod : Displacement → Nat
  | .disp8 _ => 1
  | .disp32 _ => 2

/-- encoding.rs:314-319 `Displacement::size` -/
def Displacement.size : Displacement → Nat
  | .disp8 _ => 1
  | .disp32 _ => 4

/-- `to_le_bytes` of the standard library: two's complement, least significant byte first. -/
def leBytes : Nat → Int → List Nat
  | 0, _ => []
  | n + 1, v => (v % 256).toNat :: leBytes n (v / 256)

/-- encoding.rs:321-326 `Displacement::bytes` -/
def Displacement.bytes : Displacement → List Nat
  | .disp8 v => leBytes 1 v
  | .disp32 v => leBytes 4 v

/-- encoding.rs:345-350 `Scale` -/
inductive Scale
  | scale1 | scale2 | scale4 | scale8
  deriving DecidableEq, Repr

/-- encoding.rs:353-360 `Scale::bits` -/
def Scale.bits : Scale → Nat
  | .scale1 => 0
  | .scale2 => 1
  | .scale4 => 2
  | .scale8 => 3

/-- encoding.rs:363-373 `From<u8> for Scale`; `none` is the panic. -/
def Scale.ofU8 : Nat → Option Scale
  | 1 => some .scale1
  | 2 => some .scale2
  | 4 => some .scale4
  | 8 => some .scale8
  | _ => none

/-- encoding.rs:167-177 `Rm` -/
structure Rm where
  modRmMod : Nat
  modRmRm : Nat
  rexX : Bool
  rexB : Bool
  sibScale : Option Scale
  sibIndex : Option Nat
  sibBase : Option Nat
  disp : Option Displacement
  rexPrefix : RexPrefix
  deriving DecidableEq, Repr

/-- encoding.rs:180-194 `Rm::new` -/
def Rm.new (m rm : Nat) : Option Rm :=
  if m ≤ 3 ∧ rm ≤ 15 then
    some ⟨m, rm &&& 7, false, (rm &&& 8) != 0, none, none, none, none, .notRequired⟩
  else none

/-- encoding.rs:225-227 `Rm::sib_present` -/
def Rm.sibPresent (r : Rm) : Bool := r.modRmMod != 3 && r.modRmRm == 4

/-- encoding.rs:196-202 `Rm::sib_scale` -/
def Rm.withScale (r : Rm) (s : Scale) : Option Rm :=
  if r.sibPresent then some { r with sibScale := some s } else none

/-- encoding.rs:204-212 `Rm::sib_index` -/
def Rm.withIndex (r : Rm) (i : Nat) : Option Rm :=
  if r.sibPresent ∧ i ≤ 15 then
    some { r with rexX := (i &&& 8) != 0, sibIndex := some (i &&& 7) }
  else none

/-- encoding.rs:214-222 `Rm::sib_base` -/
def Rm.withBase (r : Rm) (b : Nat) : Option Rm :=
  if r.sibPresent ∧ b ≤ 15 then
    some { r with rexB := (b &&& 8) != 0, sibBase := some (b &&& 7) }
  else none

/-- encoding.rs:253-273 `Rm::disp_size` -/
def Rm.dispSize (r : Rm) : Option Nat :=
  if r.modRmMod = 1 then some 1
  else if r.modRmMod = 2 then some 4
  else if r.modRmMod = 0 ∧ r.modRmRm = 5 then some 4
  else if r.sibPresent ∧ r.modRmMod = 0 ∧ r.rexB = false ∧ r.sibBase = some 5 then some 4
  else none

/-- encoding.rs:242-249 `Rm::disp` -/
def Rm.withDisp (r : Rm) (d : Displacement) : Option Rm :=
  if some d.size = r.dispSize then some { r with disp := some d } else none

/-- encoding.rs:230-240 `Rm::sib_byte`; outer `none` is the panic of `set_bits`. -/
def Rm.sibByte (r : Rm) : Option (Option Nat) :=
  if r.sibPresent then do
    let v ← setBits 0 (match r.sibScale with | none => 0 | some s => s.bits) 6 8
    let v ← setBits v (r.sibIndex.getD 0) 3 6
    let v ← setBits v (r.sibBase.getD 0) 0 3
    some (some v)
  else some none

/-- encoding.rs:276-279 `Rm::disp_bytes`; outer `none` is the failed assertion. -/
def Rm.dispBytes (r : Rm) : Option (Option (List Nat)) :=
  if r.dispSize = r.disp.map (·.size) then some (r.disp.map (·.bytes)) else none

/-- encoding.rs:281-283 `Rm::rex_prefix` -/
def Rm.withRex (r : Rm) (p : RexPrefix) : Rm := { r with rexPrefix := p }

/-- encoding.rs:49-52 `ModRM` -/
structure ModRM where
  reg : Reg
  rm : Rm
  deriving DecidableEq, Repr

/-- encoding.rs:63-70 `ModRM::rex_byte` -/
def ModRM.rexByte (m : ModRM) (w : Bool) : Option (Option Nat) :=
  (m.reg.rexPrefix.merge m.rm.rexPrefix).byte w m.reg.rexR m.rm.rexX m.rm.rexB

/-- encoding.rs:73-77 `ModRM::byte` -/
def ModRM.byte (m : ModRM) : Option Nat := do
  let v ← setBits 0 m.rm.modRmMod 6 8
  let v ← setBits v m.reg.modRmReg 3 6
  setBits v m.rm.modRmRm 0 3

/-- encoding.rs:134-138 `RegInOpcode`. -/
structure RegInOpcode where
  byteAddedToOpcode : Nat
  rexB : Bool
  rexPrefix : RexPrefix
  deriving DecidableEq, Repr

/-- encoding.rs:148-161 `From<T: Into<Reg>> for RegInOpcode` -/
def RegInOpcode.ofReg (r : Reg) : RegInOpcode := ⟨r.modRmReg, r.rexR, r.rexPrefix⟩

/-- encoding.rs:142-144 `RegInOpcode::rex_byte` -/
def RegInOpcode.rexByte (r : RegInOpcode) (w : Bool) : Option (Option Nat) :=
  r.rexPrefix.byte w false false r.rexB

/-- operand.rs:299-305 `Gpr8::rex_prefix` -/
def Gpr8.rexPrefix : Gpr8 → RexPrefix
  | .spl | .bpl | .sil | .dil => .required
  | .ah | .ch | .dh | .bh => .denied
  | _ => .notRequired

/-- A register operand of any class.  The code has one Rust type per class. -/
inductive RegOp
  | r64 (r : Gpr64)
  | r32 (r : Gpr32)
  | r16 (r : Gpr16)
  | r8 (r : Gpr8)
  | xmm (r : Xmm)
  deriving DecidableEq, Repr

/-- operand.rs:118-122, 176-180, 234-238, 308-312, 370-374: `From<…> for Reg` -/
def RegOp.toReg : RegOp → Option Reg
  | .r64 r => Reg.new r.registerCode
  | .r32 r => Reg.new r.registerCode
  | .r16 r => Reg.new r.registerCode
  | .r8 r => (Reg.new r.registerCode).map (·.withRex r.rexPrefix)
  | .xmm r => Reg.new r.encodingIndex

/-- operand.rs:124-128, 182-186, 240-244, 314-318, 376-380: `From<…> for Rm` -/
def RegOp.toRm : RegOp → Option Rm
  | .r64 r => Rm.new 3 r.registerCode
  | .r32 r => Rm.new 3 r.registerCode
  | .r16 r => Rm.new 3 r.registerCode
  | .r8 r => (Rm.new 3 r.registerCode).map (·.withRex r.rexPrefix)
  | .xmm r => Rm.new 3 r.encodingIndex

/-- operand.rs:386-389 `IndexScale` -/
structure IndexScale where
  index : Gpr64
  scale : Scale
  deriving DecidableEq, Repr

/-- operand.rs:399-407 `Mul<Scale> for Gpr64`; `none` is the panic. -/
def Gpr64.mulScale (r : Gpr64) (s : Scale) : Option IndexScale :=
  if r ≠ .rsp then some ⟨r, s⟩ else none

/-- operand.rs:391-397 `Mul<u8> for Gpr64` -/
def Gpr64.mul (r : Gpr64) (s : Nat) : Option IndexScale := do r.mulScale (← Scale.ofU8 s)

/-- operand.rs:411-415 `Address<Base, Disp, Idxs>`: the instances that can be encoded, one
constructor per `From<Address<…>> for EncodedAddress`. -/
inductive Address
  | abs (disp : Int)
  | absIdx (disp : Int) (i : IndexScale)
  | rip
  | ripDisp (disp : Int)
  | base (b : Gpr64)
  | baseDisp (b : Gpr64) (d : Displacement)
  | baseIdx (b : Gpr64) (i : IndexScale)
  | baseDispIdx (b : Gpr64) (d : Displacement) (i : IndexScale)
  deriving DecidableEq, Repr

/-- operand.rs:566-702: the conversions `From<Address<…>> for EncodedAddress` -/
def Address.toRm : Address → Option Rm
  | .abs disp => -- 587-597
    if 0 ≤ disp then do
      let r ← Rm.new 0 4
      let r ← r.withBase 5
      let r ← r.withIndex 4
      r.withDisp (.disp32 disp)
    else none
  | .absIdx disp i => do -- 600-610
    let r ← Rm.new 0 4
    let r ← r.withBase 5
    let r ← r.withIndex i.index.registerCode
    let r ← r.withScale i.scale
    r.withDisp (.disp32 disp)
  | .rip => do -- 613-617
    let r ← Rm.new 0 5
    r.withDisp (.disp32 0)
  | .ripDisp disp => do -- 620-627
    let r ← Rm.new 0 5
    r.withDisp (.disp32 disp)
  | .base b => -- 630-647
    match b with
    | .rsp | .r12 => do
      let r ← Rm.new 0 4
      let r ← r.withBase b.registerCode
      r.withIndex 4
    | .rbp | .r13 => do
      let r ← Rm.new 1 b.registerCode
      r.withDisp (.disp8 0)
    | _ => Rm.new 0 b.registerCode
  | .baseDisp b d => -- 650-667
    match b with
    | .rsp | .r12 => do
      let r ← Rm.new d.modRmMod 4
      let r ← r.withBase b.registerCode
      let r ← r.withIndex 4
      r.withDisp d
    | _ => do
      let r ← Rm.new d.modRmMod b.registerCode
      r.withDisp d
  | .baseIdx b i => -- 670-687
    match b with
    | .rbp | .r13 => do
      let r ← Rm.new 1 4
      let r ← r.withBase b.registerCode
      let r ← r.withIndex i.index.registerCode
      let r ← r.withScale i.scale
      r.withDisp (.disp8 0)
    | _ => do
      let r ← Rm.new 0 4
      let r ← r.withBase b.registerCode
      let r ← r.withIndex i.index.registerCode
      r.withScale i.scale
  | .baseDispIdx b d i => do -- 690-701
    let r ← Rm.new d.modRmMod 4
    let r ← r.withBase b.registerCode
    let r ← r.withIndex i.index.registerCode
    let r ← r.withScale i.scale
    r.withDisp d

/-- The operand of the `r` kind: a register, or the digit of a `/digit` opcode. -/
inductive RegSlot
  | reg (r : RegOp)
  | digit (d : Nat)
  deriving DecidableEq, Repr

/-- `Into<Reg>` -/
def RegSlot.toReg : RegSlot → Option Reg
  | .reg r => r.toReg
  | .digit d => Reg.ofDigit d

/-- The operand of the `r/m` kind: a register or a memory operand (operand.rs:550-560). -/
inductive RmSlot
  | reg (r : RegOp)
  | mem (a : Address)
  deriving DecidableEq, Repr

/-- `Into<Rm>` -/
def RmSlot.toRm : RmSlot → Option Rm
  | .reg r => r.toRm
  | .mem a => a.toRm

/-- The bytes written by a `write_inst` of inst.rs that uses a ModR/M byte (for example
inst.rs:3865-3877, 7878-7891, 11361-11374): mandatory prefixes, REX, opcode, ModR/M, SIB,
displacement, immediate.  inst.rs is generated by xtencg/templates/xten0.rs.j2; all such
instances have this shape and differ in the prefix bytes, the REX.W flag, the opcode bytes
and the operand classes. -/
def encodeModRM (legacy : List Nat) (w : Bool) (opcode : List Nat) (reg : RegSlot) (rm : RmSlot)
    (imm : List Nat) : Option (List Nat) := do
  let reg ← reg.toReg
  let rm ← rm.toRm
  let m : ModRM := ⟨reg, rm⟩
  let rex ← m.rexByte w
  let b ← m.byte
  let sib ← rm.sibByte
  let disp ← rm.dispBytes
  some (legacy ++ rex.toList ++ opcode ++ [b] ++ sib.toList ++ disp.getD [] ++ imm)

/-- The bytes written by a `write_inst` of inst.rs whose register is embedded in the opcode (for
example inst.rs:11308-11317): the register code is added to the last opcode byte. -/
def encodeInOpcode (legacy : List Nat) (w : Bool) (escape : List Nat) (op : Nat) (reg : RegOp)
    (imm : List Nat) : Option (List Nat) := do
  let reg ← reg.toReg
  let rio := RegInOpcode.ofReg reg
  let rex ← rio.rexByte w
  some (legacy ++ rex.toList ++ escape ++ [op + rio.byteAddedToOpcode] ++ imm)

end Verif.Asm
