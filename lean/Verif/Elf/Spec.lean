import Mathlib.Data.List.Basic

/-!
# What an ELF object file says

How a linker reads a relocatable ELF64 file for x86-64, from the System V ABI: the file header,
the table of section headers, string tables, symbol tables and relocations with addends.  Nothing
here is shared with the model of the writer.  `Represents` says that a file, read in this way,
contains exactly the sections, symbols and relocations of an object.

Bytes are natural numbers.
-/

namespace Verif.Elf

abbrev Bytes := List Nat

/-! ## Objects (xten0/src/asm/obj.rs:4-86) -/

/-- `LocationSection` (xten0/src/asm/obj.rs:45-51). -/
inductive Sec where
  | text
  | data
  | rodata
  | bss
deriving DecidableEq, Repr

/-- `Location` (xten0/src/asm/obj.rs:30-35). -/
structure Loc where
  sec : Sec
  pos : Nat
deriving DecidableEq, Repr

/-- `Binding` (xten0/src/asm/obj.rs:22-28). -/
inductive Binding where
  | local (l : Loc)
  | global (l : Option Loc)
deriving DecidableEq, Repr

/-- `RelocTarget` (xten0/src/asm/obj.rs:62-66).  Names are their bytes. -/
inductive Target where
  | symbol (name : Bytes)
  | section (s : Sec)
deriving DecidableEq, Repr

/-- `RelocType` (xten0/src/asm/obj.rs:68-86). -/
inductive RelocType where
  | pcRel8
  | pcRel32
  | pcRelToAddressTable32
  | abs64
deriving DecidableEq, Repr

/-- `Reloc` (xten0/src/asm/obj.rs:53-60). -/
structure Reloc where
  loc : Loc
  target : Target
  addend : Int
  ty : RelocType
deriving DecidableEq, Repr

/-- `Object` (xten0/src/asm/obj.rs:4-13) with its `Symbol`s (15-20). -/
structure Object where
  text : Bytes
  data : Bytes
  rodata : Bytes
  bss : Nat
  symbols : List (Bytes × Binding)
  relocs : List Reloc
deriving DecidableEq, Repr

/-- The fields of an object have the ranges of their types. -/
structure Object.Typed (o : Object) : Prop where
  bytes : ∀ b ∈ o.text ++ o.data ++ o.rodata, b < 256
  names : ∀ s ∈ o.symbols, ∀ b ∈ s.1, b < 256
  bss : o.bss < 2 ^ 64
  pos : ∀ s ∈ o.symbols, ∀ l, s.2 = .local l ∨ s.2 = .global (some l) → l.pos < 2 ^ 64
  use : ∀ r ∈ o.relocs, r.loc.pos < 2 ^ 64 ∧ -2 ^ 63 ≤ r.addend ∧ r.addend < 2 ^ 63

/-! ## Reading -/

/-- A number in little-endian order. -/
def number : Bytes → Nat
  | [] => 0
  | b :: bs => b + 256 * number bs

/-- The part of a file at an offset. -/
def slice (bs : Bytes) (off len : Nat) : Bytes := (bs.drop off).take len

/-- Numbers of the given widths, one after the other from an offset. -/
def record (bs : Bytes) : Nat → List Nat → List Nat
  | _, [] => []
  | off, w :: ws => number (slice bs off w) :: record bs (off + w) ws

/-- The string at an offset, up to the first zero byte. -/
def cstr (bs : Bytes) (off : Nat) : Bytes := (bs.drop off).takeWhile (· != 0)

/-- A number of 64 bits in two's complement. -/
def signed (n : Nat) : Int := if n < 2 ^ 63 then n else n - 2 ^ 64

/-- The file header after `e_ident` (`Elf64_Ehdr`): `e_type`, `e_machine`, `e_version`,
`e_entry`, `e_phoff`, `e_shoff`, `e_flags`, `e_ehsize`, `e_phentsize`, `e_phnum`, `e_shentsize`,
`e_shnum`, `e_shstrndx`. -/
def ehdr (bs : Bytes) : List Nat := record bs 16 [2, 2, 4, 8, 8, 8, 4, 2, 2, 2, 2, 2, 2]

def shoff (bs : Bytes) : Nat := (ehdr bs).getD 5 0
def shnum (bs : Bytes) : Nat := (ehdr bs).getD 11 0
def shstrndx (bs : Bytes) : Nat := (ehdr bs).getD 12 0

/-- The header of section `i` (`Elf64_Shdr`): `sh_name`, `sh_type`, `sh_flags`, `sh_addr`,
`sh_offset`, `sh_size`, `sh_link`, `sh_info`, `sh_addralign`, `sh_entsize`. -/
def shdr (bs : Bytes) (i : Nat) : List Nat :=
  record bs (shoff bs + 64 * i) [4, 4, 8, 8, 8, 8, 4, 4, 8, 8]

def shType (bs : Bytes) (i : Nat) : Nat := (shdr bs i).getD 1 0
def shFlags (bs : Bytes) (i : Nat) : Nat := (shdr bs i).getD 2 0
def shOffset (bs : Bytes) (i : Nat) : Nat := (shdr bs i).getD 4 0
def shSize (bs : Bytes) (i : Nat) : Nat := (shdr bs i).getD 5 0
def shLink (bs : Bytes) (i : Nat) : Nat := (shdr bs i).getD 6 0
def shInfo (bs : Bytes) (i : Nat) : Nat := (shdr bs i).getD 7 0
def shAlign (bs : Bytes) (i : Nat) : Nat := (shdr bs i).getD 8 0
def shEntsize (bs : Bytes) (i : Nat) : Nat := (shdr bs i).getD 9 0

/-- The bytes of section `i`, if it occupies the file. -/
def contents (bs : Bytes) (i : Nat) : Bytes := slice bs (shOffset bs i) (shSize bs i)

def shName (bs : Bytes) (i : Nat) : Bytes :=
  cstr (contents bs (shstrndx bs)) ((shdr bs i).getD 0 0)

/-- A symbol as it is read (`Elf64_Sym`). -/
structure Sym where
  name : Bytes
  bind : Nat
  type : Nat
  other : Nat
  shndx : Nat
  value : Nat
  size : Nat
deriving DecidableEq, Repr

/-- The symbol at an offset of a symbol table with the string table `str`. -/
def symAt (tab str : Bytes) (off : Nat) : Sym :=
  let r := record tab off [4, 1, 1, 2, 8, 8]
  { name := cstr str (r.getD 0 0), bind := r.getD 1 0 / 16, type := r.getD 1 0 % 16,
    other := r.getD 2 0, shndx := r.getD 3 0, value := r.getD 4 0, size := r.getD 5 0 }

/-- The symbols of the symbol table in section `i`. -/
def symbols (bs : Bytes) (i : Nat) : List Sym :=
  (List.range (shSize bs i / 24)).map fun j =>
    symAt (contents bs i) (contents bs (shLink bs i)) (24 * j)

/-- A relocation as it is read (`Elf64_Rela`). -/
structure Rel where
  offset : Nat
  sym : Nat
  type : Nat
  addend : Int
deriving DecidableEq, Repr

def relAt (tab : Bytes) (off : Nat) : Rel :=
  let r := record tab off [8, 8, 8]
  { offset := r.getD 0 0, sym := r.getD 1 0 / 2 ^ 32, type := r.getD 1 0 % 2 ^ 32,
    addend := signed (r.getD 2 0) }

/-- The relocations in section `i`. -/
def relocations (bs : Bytes) (i : Nat) : List Rel :=
  (List.range (shSize bs i / 24)).map fun j => relAt (contents bs i) (24 * j)

/-! ## What the file has to say -/

def ascii (s : String) : Bytes := s.toList.map Char.toNat

/-- Relocation types of x86-64: R_X86_64_PC8, R_X86_64_PC32, R_X86_64_GOTPCREL, R_X86_64_64. -/
def relType : RelocType → Nat
  | .pcRel8 => 15
  | .pcRel32 => 2
  | .pcRelToAddressTable32 => 9
  | .abs64 => 1

/-- The symbol that is read for a symbol of the object, given the indices of the sections:
STB_LOCAL is 0, STB_GLOBAL is 1, an undefined symbol is in section 0. -/
def symOf (ix : Sec → Nat) : Bytes × Binding → Sym
  | (name, .local l) => ⟨name, 0, 0, 0, ix l.sec, l.pos, 0⟩
  | (name, .global (some l)) => ⟨name, 1, 0, 0, ix l.sec, l.pos, 0⟩
  | (name, .global none) => ⟨name, 1, 0, 0, 0, 0, 0⟩

/-- The symbol for a section as such (STT_SECTION). -/
def sectionSym (ix : Sec → Nat) (s : Sec) : Sym := ⟨[], 0, 3, 0, ix s, 0, 0⟩

def isLocal : Bytes × Binding → Bool
  | (_, .local _) => true
  | _ => false

/-- The relocation `r'` that is read is `r`. -/
def SameReloc (o : Object) (ix : Sec → Nat) (syms : List Sym) (r : Reloc) (r' : Rel) : Prop :=
  r'.offset = r.loc.pos ∧ r'.type = relType r.ty ∧ r'.addend = r.addend ∧
    match r.target with
    | .symbol s => ∃ b, (s, b) ∈ o.symbols ∧ syms[r'.sym]? = some (symOf ix (s, b))
    | .section s => syms[r'.sym]? = some (sectionSym ix s)

/-- Section `i` has a name, type, flags and alignment. -/
structure IsSection (bs : Bytes) (i : Nat) (name : String) (type flags align : Nat) : Prop where
  lt : i < shnum bs
  name : shName bs i = ascii name
  type : shType bs i = type
  flags : shFlags bs i = flags
  align : shAlign bs i = align

/-- Section `i` is the relocation section for `s`, and its entries are the relocations of the
object for that section, in the same order. -/
structure IsRela (bs : Bytes) (o : Object) (ix : Sec → Nat) (isym i : Nat) (name : String)
    (s : Sec) : Prop where
  sect : IsSection bs i name 4 0x40 8
  link : shLink bs i = isym
  info : shInfo bs i = ix s
  entsize : shEntsize bs i = 24
  entries : List.Forall₂ (SameReloc o ix (symbols bs isym))
    (o.relocs.filter fun r => r.loc.sec = s) (relocations bs i)

/-- The file says exactly what is in the object. -/
structure Represents (bs : Bytes) (file : Bytes) (o : Object) : Prop where
  octets : ∀ b ∈ bs, b < 256
  /-- ELF, 64 bits, little endian, version 1, System V. -/
  ident : bs.take 16 = [0x7f, 0x45, 0x4c, 0x46, 2, 1, 1, 0, 0, 0, 0, 0, 0, 0, 0, 0]
  /-- A relocatable file for x86-64 without program headers. -/
  header : ehdr bs = [1, 62, 1, 0, 0, shoff bs, 0, 64, 0, 0, 64, shnum bs, shstrndx bs]
  /-- The section headers are at the end of the file, aligned. -/
  headers : shoff bs + 64 * shnum bs = bs.length ∧ 8 ∣ shoff bs
  /-- The null section. -/
  null : shName bs 0 = [] ∧ shType bs 0 = 0 ∧ shSize bs 0 = 0
  /-- Sections lie between the header and the section headers. -/
  inside : ∀ i < shnum bs, shType bs i ≠ 8 →
    64 ≤ shOffset bs i ∧ shOffset bs i + shSize bs i ≤ shoff bs
  /-- Sections that occupy the file do not overlap. -/
  apart : ∀ i j, i < j → j < shnum bs → shType bs i ≠ 8 →
    shOffset bs i + shSize bs i ≤ shOffset bs j
  rest : ∃ (ix : Sec → Nat) (isym istr irt ird irr : Nat),
    (IsSection bs (ix .text) ".text" 1 6 16 ∧ contents bs (ix .text) = o.text) ∧
    (IsSection bs (ix .data) ".data" 1 3 16 ∧ contents bs (ix .data) = o.data) ∧
    (IsSection bs (ix .rodata) ".rodata" 1 2 16 ∧ contents bs (ix .rodata) = o.rodata) ∧
    (IsSection bs (ix .bss) ".bss" 8 3 16 ∧ shSize bs (ix .bss) = o.bss) ∧
    IsSection bs istr ".strtab" 3 0 1 ∧
    IsSection bs isym ".symtab" 2 0 8 ∧ shLink bs isym = istr ∧ shEntsize bs isym = 24 ∧
    /- The symbols: the null symbol, the file, the sections, the locals, the globals. -/
    symbols bs isym =
      [⟨[], 0, 0, 0, 0, 0, 0⟩, ⟨file, 0, 4, 0, 0xfff1, 0, 0⟩,
        sectionSym ix .text, sectionSym ix .data, sectionSym ix .rodata, sectionSym ix .bss] ++
      (o.symbols.filter isLocal).map (symOf ix) ++
      (o.symbols.filter fun s => !isLocal s).map (symOf ix) ∧
    /- The index of the first global symbol. -/
    shInfo bs isym = 6 + (o.symbols.filter isLocal).length ∧
    IsRela bs o ix isym irt ".rela.text" .text ∧
    IsRela bs o ix isym ird ".rela.data" .data ∧
    IsRela bs o ix isym irr ".rela.rodata" .rodata

end Verif.Elf
