import Verif.Obj.Model
import Verif.Asm.Spec

/-! # What objects and jumps mean (independent of the writer) -/

namespace Verif.Obj.Spec

open Verif.Asm Verif.Asm.Spec

/-- Size of the field of a relocation type. -/
def width : RelocType → Nat
  | .pcRel8 => 1
  | .pcRel32 => 4
  | .table32 => 4
  | .abs64 => 8

/-- Reading `n` bytes. -/
def readField (buf : List Nat) (pos n : Nat) : List Nat := (buf.drop pos).take n

/-- The direct jumps of the architecture. -/
inductive Jump
  | call
  | jmp
  | jcc (cc : Nat)
  deriving DecidableEq, Repr

/-- Intel SDM volume 2 (`CALL`, `JMP`, `Jcc`): a direct relative jump at `pos`, and its destination: the
address of the next instruction plus the signed displacement. -/
def jumpAt (text : List Nat) (pos : Nat) : Option (Jump × Int) :=
  match text.drop pos with
  | 0xE8 :: bs => (readDisp 4 bs).map fun (d, _) => (.call, (pos : Int) + 5 + d)
  | 0xE9 :: bs => (readDisp 4 bs).map fun (d, _) => (.jmp, (pos : Int) + 5 + d)
  | 0xEB :: bs => (readDisp 1 bs).map fun (d, _) => (.jmp, (pos : Int) + 2 + d)
  | 0x0F :: b :: bs =>
    if b / 16 = 8 then (readDisp 4 bs).map fun (d, _) => (.jcc (b % 16), (pos : Int) + 6 + d) else none
  | b :: bs => if b / 16 = 7 then (readDisp 1 bs).map fun (d, _) => (.jcc (b % 16), (pos : Int) + 2 + d) else none
  | [] => none

/-- An instruction at `pos` with a memory operand relative to the instruction pointer and `imm` bytes of
immediate: the instruction as decoded, and the address of its operand: the address of the next instruction
plus the displacement. -/
def ripOperandAt (imm : Nat) (text : List Nat) (pos : Nat) : Option (Decoded × Int) :=
  match decode .c64 (text.drop pos) with
  | none => none
  | some d =>
    match d.rm with
    | .mem ⟨.rip, none, disp⟩ =>
      some (d, ((text.length - d.rest.length + imm : Nat) : Int) + disp)
    | _ => none

/-- Byte `i` of section `s` is in the field of a relocation. -/
def RelocCovers (r : Reloc) (s : Section) (i : Nat) : Prop :=
  r.location.section_ = s ∧ r.location.pos ≤ i ∧ i < r.location.pos + width r.ty

/-- Address of the target of a relocation, for given load addresses and symbols. -/
def targetAddr (base : Section → Nat) (sym : String → Option Nat) : Target → Option Nat
  | .symbol n => sym n
  | .sect s => some (base s)

/-- obj.rs:53, 69-86: the contents of a field required by a relocation (the psABI relocations
`R_X86_64_PC8`, `PC32`, `GOTPCREL`, `64`): `S + A - P`, for the address table the address of its entry. -/
def FieldOk (base : Section → Nat) (sym table : String → Option Nat) (r : Reloc) (field : List Nat) : Prop :=
  let place : Int := (base r.location.section_ : Int) + (r.location.pos : Int)
  match r.ty with
  | .pcRel8 | .pcRel32 =>
    ∃ addr, targetAddr base sym r.target = some addr ∧ signedVal field = (addr : Int) + r.addend - place
  | .table32 => ∃ n addr, r.target = .symbol n ∧ table n = some addr ∧
      signedVal field = (addr : Int) + r.addend - place
  | .abs64 => ∃ addr, targetAddr base sym r.target = some addr ∧
      ((leVal field : Int) - ((addr : Int) + r.addend)) % 2 ^ 64 = 0

/-- The object `o` loaded at the addresses `base` of its sections and linked: `img` is the contents of the
sections in memory, `sym` the addresses of symbols, `table` the addresses of the address table entries. -/
structure Linked (o : Object) (base : Section → Nat) (sym table : String → Option Nat)
    (img : Section → List Nat) : Prop where
  len : ∀ s, s ≠ .bss → (img s).length = (o.buf s).length
  bytes : ∀ s, ∀ b ∈ img s, b < 256
  same : ∀ s i, s ≠ .bss → (∀ r ∈ o.relocs, ¬ RelocCovers r s i) → (img s)[i]? = (o.buf s)[i]?
  field : ∀ r ∈ o.relocs, FieldOk base sym table r (readField (img r.location.section_) r.location.pos (width r.ty))
  defined : ∀ n loc, (n, .loc loc) ∈ o.symbols ∨ (n, .global (some loc)) ∈ o.symbols →
    sym n = some (base loc.section_ + loc.pos)

end Verif.Obj.Spec
