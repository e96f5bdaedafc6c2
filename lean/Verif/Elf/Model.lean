import Verif.Elf.Spec

/-!
# Writing ELF object files

A model of `xten0/src/elf/format.rs` and `xten0/src/elf/adapter.rs`.

Simplifications.
* Bytes are natural numbers, strings their bytes.
* A panic is `none`.  Errors of the output stream are left out.
* `HashMap` is an association list.
* Fields of sections that never change (`addr`, `entry` and `flags` of the file) are written as
  zero; visibilities and sizes of symbols, which are always default and zero, likewise.
-/

namespace Verif.Elf

/-- `write_u8` … `write_u64` of a number in `k` bytes (byteorder, little endian). -/
def enc : Nat → Nat → Bytes
  | 0, _ => []
  | k + 1, v => v % 256 :: enc k (v / 256)

/-- Several numbers with their widths. -/
def encs : List (Nat × Nat) → Bytes
  | [] => []
  | f :: fs => enc f.1 f.2 ++ encs fs

/-- `Strtab` (xten0/src/elf/format.rs:17-23). -/
structure Strtab where
  payload : Bytes
  map : List (Bytes × Nat)

/-- `Strtab::new` (xten0/src/elf/format.rs:26-34). -/
def Strtab.new : Strtab := ⟨[0], [([], 0)]⟩

/-- `Strtab::get` (xten0/src/elf/format.rs:36-46). -/
def Strtab.get (t : Strtab) (s : Bytes) : Option (Nat × Strtab) :=
  match t.map.lookup s with
  | some i => some (i, t)
  | none =>
    let index := t.payload.length % 2 ^ 32
    if s.contains 0 then none
    else some (index, ⟨t.payload ++ (s ++ [0]), (s, index) :: t.map⟩)

/-- `Symtab` (xten0/src/elf/format.rs:57-64). -/
structure Symtab where
  strtab : Strtab
  first : Option Nat
  payload : Bytes

/-- `Symtab::new` (xten0/src/elf/format.rs:67-74). -/
def Symtab.new : Symtab := ⟨.new, none, List.replicate 24 0⟩

/-- `Symtab::next_index` (xten0/src/elf/format.rs:76-78). -/
def Symtab.next (t : Symtab) : Nat := t.payload.length / 24 % 2 ^ 32

/-- `Symbol` (xten0/src/elf/format.rs:100-109). -/
structure Symbol where
  name : Bytes
  ty : Nat
  shndx : Nat
  value : Nat

/-- `Symbol::new` (xten0/src/elf/format.rs:114-123), `undef`, `file` and `section`
(125-135). -/
def Symbol.new (name : Bytes) (shndx value : Nat) : Symbol := ⟨name, 0, shndx, value⟩
def Symbol.undef (name : Bytes) : Symbol := .new name 0 0
def Symbol.file (name : Bytes) : Symbol := { Symbol.new name 0xfff1 0 with ty := 4 }
def Symbol.section (shndx : Nat) : Symbol := { Symbol.new [] shndx 0 with ty := 3 }

/-- `Symtab::add` (xten0/src/elf/format.rs:80-91). -/
def Symtab.add (t : Symtab) (s : Symbol) : Option (Nat × Symtab) :=
  let index := t.next
  match t.strtab.get s.name with
  | some (name, strtab) =>
    let bind := (if t.first.isSome then 1 else 0) <<< 4
    some (index, { t with
      strtab := strtab
      payload := t.payload ++
        encs [(4, name), (1, bind ||| s.ty), (1, 0), (2, s.shndx), (8, s.value), (8, 0)] })
  | none => none

/-- `Symtab::begin_global` (xten0/src/elf/format.rs:94-97). -/
def Symtab.beginGlobal (t : Symtab) : Option Symtab :=
  if t.first.isNone then some { t with first := some t.next } else none

/-- `RelocationType::from` and its number (xten0/src/elf/format.rs:264-298). -/
def relocNumber : RelocType → Nat
  | .pcRel8 => 15
  | .pcRel32 => 2
  | .pcRelToAddressTable32 => 9
  | .abs64 => 1

/-- A number of 64 bits for an integer (`write_i64`). -/
def unsigned (a : Int) : Nat := (a % 2 ^ 64).toNat

/-- `Rela::add` (xten0/src/elf/format.rs:216-221): what is appended to the payload. -/
def relaEntry (offset sym ty : Nat) (addend : Int) : Bytes :=
  encs [(8, offset), (8, sym <<< 32 ||| ty), (8, unsigned addend)]

/-- `SectionBody` (xten0/src/elf/format.rs:386-390). -/
inductive Body where
  | bytes (b : Bytes)
  | size (n : Nat)

/-- `SectionBody::size` (xten0/src/elf/format.rs:392-398). -/
def Body.length (inElf : Bool) : Body → Nat
  | .bytes b => b.length
  | .size n => if inElf then 0 else n

/-- `Section` (xten0/src/elf/format.rs:310-321). -/
structure Section where
  name : Bytes
  ty : Nat
  flags : Nat
  link : Nat
  info : Nat
  align : Nat
  entsize : Nat
  body : Body

/-- `Section::new` (xten0/src/elf/format.rs:326-338), and `undef`, `text`, `data`, `rodata`,
`bss` (356-375) with the flags (377-380) and types (413-446). -/
def Section.new (name : Bytes) (ty align : Nat) (body : Body) : Section :=
  ⟨name, ty, 0, 0, 0, align, 0, body⟩
def Section.undef : Section := .new [] 0 0 (.size 0)
def Section.text (name body : Bytes) : Section :=
  { Section.new name 1 16 (.bytes body) with flags := 0x2 ||| 0x4 }
def Section.data (name body : Bytes) : Section :=
  { Section.new name 1 16 (.bytes body) with flags := 0x2 ||| 0x1 }
def Section.rodata (name body : Bytes) : Section :=
  { Section.new name 1 16 (.bytes body) with flags := 0x2 }
def Section.bss (name : Bytes) (size : Nat) : Section :=
  { Section.new name 8 16 (.size size) with flags := 0x2 ||| 0x1 }

/-- `add_section` for a `Section` (xten0/src/elf/format.rs:566-572), on the sections of an
`Elf` (449-454). -/
def addSection (e : List Section) (s : Section) : Nat × List Section :=
  (e.length % 2 ^ 16, e ++ [s])

/-- `add_section` for a `Strtab` (xten0/src/elf/format.rs:574-579). -/
def addStrtab (e : List Section) (name : Bytes) (t : Strtab) : Nat × List Section :=
  addSection e (.new name 3 1 (.bytes t.payload))

/-- `add_section` for a `Symtab` (xten0/src/elf/format.rs:581-591), of the name `.symtab` with a
string table `.strtab`. -/
def addSymtab (e : List Section) (t : Symtab) : Nat × List Section :=
  let next := t.next
  let (strtab, e) := addStrtab e (ascii ".strtab") t.strtab
  addSection e { Section.new (ascii ".symtab") 2 8 (.bytes t.payload) with
    link := strtab, info := t.first.getD next, entsize := 24 }

/-- `add_section` for a `Rela` (xten0/src/elf/format.rs:593-602). -/
def addRela (e : List Section) (name : Bytes) (symtab target : Nat) (payload : Bytes) :
    Nat × List Section :=
  addSection e { Section.new name 4 8 (.bytes payload) with
    flags := 0x40, link := symtab, info := target, entsize := 24 }

/-- The names of sections, entered into the string table (xten0/src/elf/format.rs:472-474). -/
def sectionNames : List Section → Strtab → Option (List Nat × Strtab)
  | [], t => some ([], t)
  | s :: ss, t =>
    match t.get s.name with
    | some (i, t) =>
      match sectionNames ss t with
      | some (is, t) => some (i :: is, t)
      | none => none
    | none => none

/-- `add_shstrtab` (xten0/src/elf/format.rs:468-479): the index, the names, and all sections. -/
def addShstrtab (e : List Section) : Option (Nat × List Nat × List Section) :=
  match sectionNames e .new with
  | some (names, t) =>
    match t.get (ascii ".shstrtab") with
    | some (i, t) =>
      let (shndx, e) := addStrtab e (ascii ".shstrtab") t
      some (shndx, names ++ [i], e)
    | none => none
  | none => none

/-- The sections with their offsets (xten0/src/elf/format.rs:521-530): the bytes and the
offsets. -/
def bodies : Nat → List Section → Bytes × List Nat
  | _, [] => ([], [])
  | off, s :: ss =>
    match s.body with
    | .bytes b =>
      let r := bodies (off + b.length) ss
      (b ++ r.1, off :: r.2)
    | .size _ =>
      let r := bodies off ss
      (r.1, off :: r.2)

/-- A section header (xten0/src/elf/format.rs:537-546). -/
def header (s : Section) (offset name : Nat) : Bytes :=
  encs [(4, name), (4, s.ty), (8, s.flags), (8, 0), (8, offset), (8, s.body.length false),
    (4, s.link), (4, s.info), (8, s.align), (8, s.entsize)]

/-- The section headers (xten0/src/elf/format.rs:536-547). -/
def headers : List Section → List Nat → List Nat → Bytes
  | s :: ss, off :: offs, name :: names => header s off name ++ headers ss offs names
  | _, _, _ => []

/-- `Elf::write` (xten0/src/elf/format.rs:481-550) of a file of type `Rel`, with the constants
(552-559). -/
def write (e : List Section) : Option Bytes :=
  match addShstrtab e with
  | some (shstrndx, names, ss) =>
    let shoff := 0x40 + (ss.map (·.body.length true)).sum
    let shalign := (8 - shoff % 8) % 8
    let shoff := shoff + shalign
    let (body, offsets) := bodies 0x40 ss
    some <|
      [0x7f, 0x45, 0x4c, 0x46, 2, 1, 1, 0, 0, 0, 0, 0, 0, 0, 0, 0] ++
      encs [(2, 1), (2, 62), (4, 1), (8, 0), (8, 0), (8, shoff), (4, 0), (2, 0x40), (2, 0), (2, 0),
        (2, 0x40), (2, ss.length % 2 ^ 16), (2, shstrndx)] ++
      body ++ List.replicate shalign 0 ++ headers ss offsets names
  | none => none

/-! ## The adapter -/

/-- The indices of the sections (xten0/src/elf/adapter.rs:24-30), as they come out of
`add_section` (19-22). -/
def shndxOf (t d r b : Nat) : Sec → Nat
  | .text => t
  | .data => d
  | .rodata => r
  | .bss => b

/-- The local symbols (xten0/src/elf/adapter.rs:43-48). -/
def addLocals (ix : Sec → Nat) : List (Bytes × Binding) → Symtab → List (Bytes × Nat) →
    Option (Symtab × List (Bytes × Nat))
  | [], t, m => some (t, m)
  | (name, .local l) :: ss, t, m =>
    match t.add (.new name (ix l.sec) l.pos) with
    | some (i, t) => addLocals ix ss t ((name, i) :: m)
    | none => none
  | (_, .global _) :: ss, t, m => addLocals ix ss t m

/-- The global symbols (xten0/src/elf/adapter.rs:50-58). -/
def addGlobals (ix : Sec → Nat) : List (Bytes × Binding) → Symtab → List (Bytes × Nat) →
    Option (Symtab × List (Bytes × Nat))
  | [], t, m => some (t, m)
  | (name, .global l) :: ss, t, m =>
    let sym := match l with
      | some l => Symbol.new name (ix l.sec) l.pos
      | none => .undef name
    match t.add sym with
    | some (i, t) => addGlobals ix ss t ((name, i) :: m)
    | none => none
  | (_, .local _) :: ss, t, m => addGlobals ix ss t m

/-- The payloads of the three relocation sections. -/
structure Relas where
  text : Bytes
  data : Bytes
  rodata : Bytes

/-- The relocations (xten0/src/elf/adapter.rs:65-80). -/
def addRelocs (m : List (Bytes × Nat)) (sectionIx : Sec → Nat) : List Reloc → Relas → Option Relas
  | [], p => some p
  | r :: rs, p =>
    let sym := match r.target with
      | .symbol s => m.lookup s
      | .section s => some (sectionIx s)
    match sym with
    | some sym =>
      let entry := relaEntry r.loc.pos sym (relocNumber r.ty) r.addend
      match r.loc.sec with
      | .text => addRelocs m sectionIx rs { p with text := p.text ++ entry }
      | .data => addRelocs m sectionIx rs { p with data := p.data ++ entry }
      | .rodata => addRelocs m sectionIx rs { p with rodata := p.rodata ++ entry }
      | .bss => none
    | none => none

/-- `into_relocatable_object` (xten0/src/elf/adapter.rs:16-86), beginning with `Elf::new`
(xten0/src/elf/format.rs:459-466). -/
def intoElf (file : Bytes) (o : Object) : Option (List Section) := do
  let e := [Section.undef]
  let (text, e) := addSection e (.text (ascii ".text") o.text)
  let (data, e) := addSection e (.data (ascii ".data") o.data)
  let (rodata, e) := addSection e (.rodata (ascii ".rodata") o.rodata)
  let (bss, e) := addSection e (.bss (ascii ".bss") o.bss)
  let ix := shndxOf text data rodata bss
  let t := Symtab.new
  let (_, t) ← t.add (.file file)
  let (textSym, t) ← t.add (.section text)
  let (dataSym, t) ← t.add (.section data)
  let (rodataSym, t) ← t.add (.section rodata)
  let (bssSym, t) ← t.add (.section bss)
  let (t, m) ← addLocals ix o.symbols t []
  let t ← t.beginGlobal
  let (t, m) ← addGlobals ix o.symbols t m
  let (symtab, e) := addSymtab e t
  let p ← addRelocs m (shndxOf textSym dataSym rodataSym bssSym) o.relocs ⟨[], [], []⟩
  let (_, e) := addRela e (ascii ".rela.text") symtab text p.text
  let (_, e) := addRela e (ascii ".rela.data") symtab data p.data
  let (_, e) := addRela e (ascii ".rela.rodata") symtab rodata p.rodata
  return e

/-- `write_relocatable_object` (xten0/src/elf/adapter.rs:8-13): the bytes that are written. -/
def writeObject (file : Bytes) (o : Object) : Option Bytes := do
  write (← intoElf file o)

end Verif.Elf
