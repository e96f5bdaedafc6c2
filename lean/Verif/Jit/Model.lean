import Verif.Obj.Model

/-! # The JIT engine (xten0/src/jit.rs, xten0/src/jit/*.rs)

Addresses are natural numbers, memory is a function from addresses to bytes.  The operating system is an
oracle `Os`: the answer to `mmap` may depend on all mappings made so far.  The engine unmaps nothing before
it is dropped.  Protections (`mprotect`) are not modelled: every `mprotect` succeeds and the program being
loaded does not run meanwhile.  The resolver of undefined symbols is a function (0 is the null pointer).
Operations that fail return the state they leave behind. -/

namespace Verif.Jit

open Verif.Asm Verif.Obj

/-- mmap.rs:9-13 `Mmap` -/
structure Mmap where
  ptr : Nat
  pages : Nat
  deriving DecidableEq, Repr

/-- mmap.rs:46-48, 69 `size`, `PAGE_SIZE` -/
def Mmap.size (m : Mmap) : Nat := m.pages * 4096

/-- mmap.rs:17-37: what the operating system answers, given all mappings so far and the number of pages. -/
abbrev Os := List Mmap → Nat → Option Nat

/-- segment.rs:7-12 `Segment`; the newest chunk comes first -/
structure Segment where
  chunks : List Mmap
  offset : Nat

/-- segment.rs:28-34 `last_mmap_capacity` -/
def Segment.lastCapacity (s : Segment) : Nat :=
  match s.chunks with
  | m :: _ => m.size - s.offset
  | [] => 0

/-- jit.rs:26-28, address_table.rs:8: the segments of an engine, `table` is the payload of the address table -/
inductive SegId
  | table | ro | rw | rx
  deriving DecidableEq, Repr

/-- Mappings, segments and memory. -/
structure World where
  maps : List Mmap
  seg : SegId → Segment
  mem : Nat → Nat

/-- Replaces a segment. -/
def World.setSeg (w : World) (id : SegId) (s : Segment) : World :=
  { w with seg := fun i => if i = id then s else w.seg i }

/-- mmap.rs:17-37 `Mmap::new`: anonymous mappings are zero -/
def mmap (os : Os) (w : World) (pages : Nat) : Option (Mmap × World) :=
  match os w.maps pages with
  | none => none
  | some p =>
    let m : Mmap := ⟨p, pages⟩
    some (m, { w with maps := m :: w.maps, mem := fun a => if p ≤ a ∧ a < p + m.size then 0 else w.mem a })

/-- segment.rs:41-43: the segment has room, or gets a new chunk -/
def ensure (os : Os) (w : World) (id : SegId) (size : Nat) : Option World :=
  if (w.seg id).lastCapacity < size then
    match mmap os w ((size + 4096 - 1) / 4096) with
    | none => none
    | some (m, w) => some (w.setSeg id ⟨m :: (w.seg id).chunks, 0⟩)
  else some w

/-- segment.rs:78-83 `as_ptr` -/
def Segment.ptr (s : Segment) : Nat :=
  match s.chunks with
  | m :: _ => m.ptr + s.offset
  | [] => 0

/-- segment.rs:38-49 `allocate`: the address of the part; `none`: `mmap` failed, nothing changed -/
def allocate (os : Os) (w : World) (id : SegId) (size : Nat) : Option (Nat × World) :=
  match ensure os w id size with
  | none => none
  | some w => some ((w.seg id).ptr, w.setSeg id ⟨(w.seg id).chunks, (w.seg id).offset + size⟩)

/-- `ptr::copy` and `ptr::write`: bytes written at an address -/
def poke (mem : Nat → Nat) (p : Nat) (bytes : List Nat) : Nat → Nat :=
  fun a => if p ≤ a ∧ a < p + bytes.length then bytes.getD (a - p) 0 else mem a

/-- Bytes written at an address. -/
def World.poke (w : World) (p : Nat) (bytes : List Nat) : World := { w with mem := Jit.poke w.mem p bytes }

/-- jit.rs:23-29 `Engine`, with the entries of the symbol table (symbol_table.rs:6) and of the address
table (address_table.rs:7) -/
structure Engine where
  symbols : HMap String Nat
  entries : HMap String Nat
  world : World

/-- jit.rs:33-41 `Engine::new` -/
def Engine.new (mem : Nat → Nat) : Engine := ⟨[], [], ⟨[], fun _ => ⟨[], 0⟩, mem⟩⟩

/-- jit/error.rs:5-15 `Error`; the resolver of symbols -/
inductive Error
  | mmap
  | undefinedSymbol (n : String)
  | duplicateSymbol (n : String)
  | offsetOutOfRange (ty : RelocType) (v : Int)
  | unsupportedSectionRelocation (ty : RelocType)
  deriving DecidableEq, Repr

/-- symbol_table.rs:18-38 `bind`; `none` is success -/
def bindSymbol (resolver : String → Nat) (t : HMap String Nat) (n : String) (ptr : Option Nat) :
    Except Error (HMap String Nat) :=
  match HMap.get t n, ptr with
  | none, some p => .ok (HMap.insert t n p)
  | none, none => if resolver n ≠ 0 then .ok (HMap.insert t n (resolver n)) else .error (.undefinedSymbol n)
  | some _, some _ => .error (.duplicateSymbol n)
  | some _, none => .ok t

/-- jit.rs:44-46 `register` -/
def register (e : Engine) (n : String) (p : Nat) : Except Error Engine :=
  match bindSymbol (fun _ => 0) e.symbols n (some p) with
  | .ok t => .ok { e with symbols := t }
  | .error err => .error err

/-- jit.rs:49-51 `get` -/
def Engine.get (e : Engine) (n : String) : Option Nat := HMap.get e.symbols n

/-- jit.rs:137-145 `locate`; `base` is the `Locator` -/
def locate (base : Section → Nat) (l : Location) : Nat := base l.section_ + l.pos

/-- jit.rs:148-153 `Linker` -/
structure Linker where
  engine : Engine
  base : Section → Nat
  locals_ : HMap String Nat

/-- jit.rs:165-178 `bind` -/
def Linker.bind (resolver : String → Nat) (k : Linker) (n : String) (b : Binding) : Except Error Linker :=
  match b with
  | .loc l =>
    match HMap.get k.locals_ n with
    | none => .ok { k with locals_ := HMap.insert k.locals_ n (locate k.base l) }
    | some _ => .error (.duplicateSymbol n)
  | .global l =>
    match bindSymbol resolver k.engine.symbols n (l.map (locate k.base)) with
    | .ok t => .ok { k with engine := { k.engine with symbols := t } }
    | .error err => .error err

/-- jit.rs:219-229 `reloc_target_direct` -/
def Linker.direct (k : Linker) : Target → Except Error Nat
  | .symbol n =>
    match HMap.get k.locals_ n with
    | some p => .ok p
    | none =>
      match HMap.get k.engine.symbols n with
      | some p => .ok p
      | none => .error (.undefinedSymbol n)
  | .sect s => .ok (locate k.base ⟨s, 0⟩)

/-- table.rs:23-30 `put`: a pointer in the payload of the address table -/
def put (os : Os) (w : World) (p : Nat) : Option (Nat × World) :=
  match allocate os w .table 8 with
  | none => none
  | some (a, w) => some (a, w.poke a (leBytes 8 (p : Int)))

/-- address_table.rs:19-31 `prepare`: an entry for a symbol; `none` in the result is an undefined symbol -/
def prepare (os : Os) (e : Engine) (n : String) : Except Error (Option (Nat × Engine)) :=
  match HMap.get e.entries n with
  | some a => .ok (some (a, e))
  | none =>
    match HMap.get e.symbols n with
    | some p =>
      match put os e.world p with
      | none => .error .mmap
      | some (a, w) => .ok (some (a, { e with entries := HMap.insert e.entries n a, world := w }))
    | none => .ok none

/-- jit.rs:231-243 `reloc_target_address_table_entry` -/
def Linker.viaTable (os : Os) (k : Linker) (ty : RelocType) : Target → Except Error (Nat × Linker)
  | .symbol n =>
    match prepare os k.engine n with
    | .error err => .error err
    | .ok (some (a, e)) => .ok (a, { k with engine := e })
    | .ok none => .error (.undefinedSymbol n)
  | .sect _ => .error (.unsupportedSectionRelocation ty)

/-- Bytes written at an address. -/
def Linker.poke (k : Linker) (p : Nat) (bytes : List Nat) : Linker :=
  { k with engine := { k.engine with world := k.engine.world.poke p bytes } }

/-- jit.rs:187-192, 196-200, 205-209: the check of the range and the write of `value as iN`, which keeps the
low bytes.  The `isize` wraparound of `value` does not change them. -/
def Linker.writeRel (k : Linker) (ty : RelocType) (lo hi : Int) (n : Nat) (dest : Nat) (value : Int) :
    Except Error Linker :=
  if value < lo ∧ hi < value then .error (.offsetOutOfRange ty value) else .ok (k.poke dest (leBytes n value))

/-- jit.rs:180-217 `relocate` -/
def Linker.relocate (os : Os) (k : Linker) (r : Reloc) : Except Error Linker :=
  let dest := locate k.base r.location
  match r.ty with
  | .pcRel8 =>
    match k.direct r.target with
    | .error err => .error err
    | .ok src => k.writeRel r.ty (-128) 127 1 dest ((src : Int) + r.addend - (dest : Int))
  | .pcRel32 =>
    match k.direct r.target with
    | .error err => .error err
    | .ok src => k.writeRel r.ty (-2147483648) 2147483647 4 dest ((src : Int) + r.addend - (dest : Int))
  | .table32 =>
    match k.viaTable os r.ty r.target with
    | .error err => .error err
    | .ok (src, k) => k.writeRel r.ty (-2147483648) 2147483647 4 dest ((src : Int) + r.addend - (dest : Int))
  | .abs64 =>
    match k.direct r.target with
    | .error err => .error err
    | .ok src => .ok (k.poke dest (leBytes 8 ((src : Int) + r.addend)))

/-- jit.rs:100-102: the loop over the symbols; returns the state at the first error -/
def bindAll (resolver : String → Nat) : Linker → List (String × Binding) → Linker × Option Error
  | k, [] => (k, none)
  | k, (n, b) :: rest =>
    match k.bind resolver n b with
    | .ok k => bindAll resolver k rest
    | .error err => (k, some err)

/-- jit.rs:104-106: the loop over the relocations; returns the state at the first error -/
def relocateAll (os : Os) : Linker → List Reloc → Linker × Option Error
  | k, [] => (k, none)
  | k, r :: rest =>
    match k.relocate os r with
    | .ok k => relocateAll os k rest
    | .error err => (k, some err)

/-- jit.rs:55-57 `align` -/
def align16 (n : Nat) : Nat := (n + 15) / 16 * 16

/-- jit.rs:65-67: the blocks of an object: the addresses of text, data and rodata; the state reached, and
whether all three were given -/
def allocateAll (os : Os) (w : World) (o : Object) : Option (Nat × Nat × Nat) × World :=
  match allocate os w .rx (align16 o.text.length) with
  | none => (none, w)
  | some (text, w) =>
    match allocate os w .rw (align16 o.data.length + align16 o.bss) with
    | none => (none, w)
    | some (data, w) =>
      match allocate os w .ro (align16 o.rodata.length) with
      | none => (none, w)
      | some (rodata, w) => (some (text, data, rodata), w)

/-- jit.rs:128-135: the `Locator` -/
def locator (text data rodata bss : Nat) : Section → Nat
  | .text => text
  | .data => data
  | .rodata => rodata
  | .bss => bss

/-- jit.rs:73-91: text, data, bss and rodata are copied into the blocks -/
def load (w : World) (o : Object) (base : Section → Nat) : World :=
  (((w.poke (base .text) o.text).poke (base .data) o.data).poke (base .bss) (List.replicate o.bss 0)).poke
    (base .rodata) o.rodata

/-- jit.rs:93-106: symbols, then relocations -/
def link (os : Os) (resolver : String → Nat) (k : Linker) (o : Object) : Linker × Option Error :=
  match bindAll resolver k o.symbols with
  | (k, some err) => (k, some err)
  | (k, none) => relocateAll os k o.relocs

/-- jit.rs:54-113 `add_object`: the final linker (the engine, the addresses of the sections and the local
symbols; the code returns only the engine) and the result -/
def addObject (os : Os) (resolver : String → Nat) (e : Engine) (o : Object) : Linker × Option Error :=
  match allocateAll os e.world o with
  | (none, w) => (⟨{ e with world := w }, fun _ => 0, []⟩, some .mmap)
  | (some (text, data, rodata), w) =>
    let base := locator text data rodata (data + align16 o.data.length)
    link os resolver ⟨{ e with world := load w o base }, base, []⟩ o

/-- What a user does with an engine. -/
inductive Op
  | register (n : String) (p : Nat)
  | addObject (o : Object)

/-- One operation, successful or not. -/
def step (os : Os) (resolver : String → Nat) (e : Engine) : Op → Engine
  | .register n p =>
    match register e n p with
    | .ok e => e
    | .error _ => e
  | .addObject o => (addObject os resolver e o).1.engine

/-- A sequence of operations. -/
def run (os : Os) (resolver : String → Nat) : Engine → List Op → Engine
  | e, [] => e
  | e, op :: ops => run os resolver (step os resolver e op) ops

end Verif.Jit
