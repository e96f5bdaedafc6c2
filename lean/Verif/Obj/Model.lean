import Verif.Asm.Model
import Verif.Util.HMap

/-! # Objects and the object writer (xten0/src/asm/obj.rs, xten0/src/asm/writer.rs)

Positions are natural numbers: overflow of `u64`/`i64` positions is not modelled (a section would need
2^63 bytes).  Writing to a `Cursor<Vec<u8>>` never fails.  A panic is `none` or `Fail.panic`. -/

namespace Verif.Obj

open Verif.Asm

/-- obj.rs:46-51 `LocationSection` -/
inductive Section
  | text | data | rodata | bss
  deriving DecidableEq, Repr

/-- obj.rs:32-35 `Location` -/
structure Location where
  section_ : Section
  pos : Nat
  deriving DecidableEq, Repr

/-- obj.rs:39-42 `Location::offset`; `none` is the failed assertion -/
def Location.offset (l : Location) (o : Int) : Option Location :=
  if 0 ≤ (l.pos : Int) + o then some ⟨l.section_, ((l.pos : Int) + o).toNat⟩ else none

/-- obj.rs:69-86 `RelocType` -/
inductive RelocType
  | pcRel8 | pcRel32 | table32 | abs64
  deriving DecidableEq, Repr

/-- obj.rs:63-66 `RelocTarget` -/
inductive Target
  | symbol (name : String)
  | sect (s : Section)
  deriving DecidableEq, Repr

/-- obj.rs:55-60 `Reloc` -/
structure Reloc where
  location : Location
  target : Target
  addend : Int
  ty : RelocType
  deriving DecidableEq, Repr

/-- obj.rs:23-28 `Binding` -/
inductive Binding
  | loc (l : Location)
  | global (l : Option Location)
  deriving DecidableEq, Repr

/-- obj.rs:6-13 `Object`; a `Symbol` (obj.rs:17-20) is a pair.  The list of symbols is in the order of
the model's name map instead of ascending by name. -/
structure Object where
  text : List Nat
  data : List Nat
  rodata : List Nat
  bss : Nat
  symbols : List (String × Binding)
  relocs : List Reloc

/-- writer.rs:157-160 `Def` -/
structure Def where
  isGlobal : Bool
  location : Location
  deriving DecidableEq, Repr

/-- writer.rs:164-169 `Use`; a `Label` (writer.rs:151-153) is its index -/
structure Use where
  location : Location
  target : Nat
  addend : Int
  ty : RelocType
  deriving DecidableEq, Repr

/-- writer.rs:10-18 `Writer`.  Outside `produce` the cursors are at the end of their buffers: nothing
seeks.  The `BTreeMap` of names is an association list. -/
structure Writer where
  text : List Nat
  data : List Nat
  rodata : List Nat
  bss : Nat
  defs : List (Option Def)
  uses : List Use
  names : HMap String Nat

/-- writer.rs:22-32 `Writer::new` -/
def Writer.new : Writer := ⟨[], [], [], 0, [], [], []⟩

/-- writer.rs:35-39 `issue_label` -/
def issueLabel (w : Writer) : Nat × Writer :=
  (w.defs.length, { w with defs := w.defs ++ [none] })

/-- writer.rs:42-50 `get_label` -/
def getLabel (w : Writer) (name : String) : Nat × Writer :=
  match HMap.get w.names name with
  | some l => (l, w)
  | none =>
    let (l, w) := issueLabel w
    (l, { w with names := HMap.insert w.names name l })

/-- The buffer of a section; the `.bss` section has none. -/
def Writer.buf (w : Writer) : Section → List Nat
  | .text => w.text
  | .data => w.data
  | .rodata => w.rodata
  | .bss => []

/-- The position `location()` of the section writers (writer.rs:229-232, 258-260, 285-287) -/
def Writer.pos (w : Writer) : Section → Nat
  | .text => w.text.length
  | .data => w.data.length
  | .rodata => w.rodata.length
  | .bss => w.bss

/-- writer.rs:53-55 `use` -/
def useAt (w : Writer) (loc : Location) (l : Nat) (addend : Int) (ty : RelocType) : Writer :=
  { w with uses := w.uses ++ [⟨loc, l, addend, ty⟩] }

/-- writer.rs:179-188 `define`; `none`: the label has a definition or is not of this writer -/
def define (w : Writer) (s : Section) (l : Nat) (isGlobal : Bool) : Option Writer :=
  match w.defs[l]? with
  | some none => some { w with defs := w.defs.set l (some ⟨isGlobal, ⟨s, w.pos s⟩⟩) }
  | _ => none

/-- writer.rs:191-197 `use_relative` -/
def useRelative (w : Writer) (s : Section) (off : Int) (l : Nat) (addend : Int) (ty : RelocType) :
    Option Writer := do
  let loc ← Location.offset ⟨s, w.pos s⟩ off
  some (useAt w loc l addend ty)

/-- writer.rs:214-222, 243-251 `write_all` on a section writer; `.bss` cannot be written -/
def write (w : Writer) (s : Section) (bytes : List Nat) : Option Writer :=
  match s with
  | .text => some { w with text := w.text ++ bytes }
  | .data => some { w with data := w.data ++ bytes }
  | .rodata => some { w with rodata := w.rodata ++ bytes }
  | .bss => none

/-- writer.rs:234-236, 262-267, 289-292 `allocate` -/
def allocate (w : Writer) (s : Section) (size : Nat) : Writer :=
  match s with
  | .text => { w with text := w.text ++ List.replicate size 0x90 }
  | .data => { w with data := w.data ++ List.replicate size 0 }
  | .rodata => { w with rodata := w.rodata ++ List.replicate size 0 }
  | .bss => { w with bss := w.bss + size }

/-- writer.rs:200-206 `align`; `none`: remainder by zero -/
def align (w : Writer) (s : Section) (a : Nat) : Option Writer :=
  if a = 0 then none
  else
    let current := w.pos s
    some (if current % a ≠ 0 then allocate w s (a - current % a) else w)

/-- The instructions with a label operand (writer.rs:309-491).  A condition is its code in the opcode:
the 30 mnemonics of writer.rs:397-426 are names of the 16 codes (inst.rs, `ja` … `jz`). -/
inductive LabelInst
  | call (l : Nat)
  | callTable (l : Nat)
  | jmp (l : Nat)
  | jmpTable (l : Nat)
  | jmpShort (l : Nat)
  | jcc (cc : Fin 16) (l : Nat)
  | jccShort (cc : Fin 16) (l : Nat)
  | storeGpr (l : Nat) (r : Gpr64)
  | storeXmm (l : Nat) (x : Xmm)
  | storeImm (l : Nat) (v : Int)
  | loadGpr (r : Gpr64) (l : Nat)
  | loadXmm (x : Xmm) (l : Nat)
  | loadGprTable (r : Gpr64) (l : Nat)
  | loadXmmTable (x : Xmm) (l : Nat)
  | lea (r : Gpr64) (l : Nat)
  deriving DecidableEq, Repr

/-- The label of an instruction. -/
def LabelInst.label : LabelInst → Nat
  | .call l | .callTable l | .jmp l | .jmpTable l | .jmpShort l | .jcc _ l | .jccShort _ l | .storeGpr l _
  | .storeXmm l _ | .storeImm l _ | .loadGpr _ l | .loadXmm _ l | .loadGprTable _ l | .loadXmmTable _ l
  | .lea _ l => l

/-- The bytes written before the use is recorded: `callq 0i32` (inst.rs:6155), `callq memory(Rip + 0)`
(6179), `jmpq 0i32` (9642), `jmpq memory(…)` (9666), `jmpq 0i8` (9632), `jcc 0i32` (for example 9400),
`jcc 0i8` (for example 9390), `movq` (11348, 11408, 11377, 11334, 11440), `leaq` (10187). -/
def LabelInst.bytes : LabelInst → Option (List Nat)
  | .call _ => some (0xE8 :: leBytes 4 0)
  | .callTable _ => encodeModRM [] false [0xFF] (.digit 2) (.mem (.ripDisp 0)) []
  | .jmp _ => some (0xE9 :: leBytes 4 0)
  | .jmpTable _ => encodeModRM [] false [0xFF] (.digit 4) (.mem (.ripDisp 0)) []
  | .jmpShort _ => some (0xEB :: leBytes 1 0)
  | .jcc cc _ => some (0x0F :: (0x80 + cc.val) :: leBytes 4 0)
  | .jccShort cc _ => some ((0x70 + cc.val) :: leBytes 1 0)
  | .storeGpr _ r => encodeModRM [] true [0x89] (.reg (.r64 r)) (.mem (.ripDisp 0)) []
  | .storeXmm _ x => encodeModRM [0x66] true [0x0F, 0x7E] (.reg (.xmm x)) (.mem (.ripDisp 0)) []
  | .storeImm _ v => encodeModRM [] true [0xC7] (.digit 0) (.mem (.ripDisp 0)) (leBytes 4 v)
  | .loadGpr r _ | .loadGprTable r _ => encodeModRM [] true [0x8B] (.reg (.r64 r)) (.mem (.ripDisp 0)) []
  | .loadXmm x _ | .loadXmmTable x _ =>
    encodeModRM [0x66] true [0x0F, 0x6E] (.reg (.xmm x)) (.mem (.ripDisp 0)) []
  | .lea r _ => encodeModRM [] true [0x8D] (.reg (.r64 r)) (.mem (.ripDisp 0)) []

/-- The arguments `offset_from_current`, `addend`, `ty` of `use_relative` (writer.rs:316, 328, 340, 352,
364, 378, 390, 437, 457, 469, 488) -/
def LabelInst.use : LabelInst → Int × Int × RelocType
  | .callTable _ | .jmpTable _ | .loadGprTable _ _ | .loadXmmTable _ _ => (-4, -4, .table32)
  | .jmpShort _ | .jccShort _ _ => (-1, -1, .pcRel8)
  | _ => (-4, -4, .pcRel32)

/-- writer.rs:309-491 `write_inst` of the instructions with a label -/
def inst (w : Writer) (i : LabelInst) : Option Writer := do
  let bytes ← i.bytes
  let w ← write w .text bytes
  useRelative w .text i.use.1 i.label i.use.2.1 i.use.2.2

/-- The operations on a writer.  The labels they return are known: `issue` returns the number of labels
so far, `get` as well, or the earlier label of the name. -/
inductive Op
  | issue
  | get (name : String)
  | define (s : Section) (l : Nat) (isGlobal : Bool)
  | write (s : Section) (bytes : List Nat)
  | allocate (s : Section) (size : Nat)
  | align (s : Section) (a : Nat)
  | use (loc : Location) (l : Nat) (addend : Int) (ty : RelocType)
  | useRelative (s : Section) (off : Int) (l : Nat) (addend : Int) (ty : RelocType)
  | inst (i : LabelInst)

/-- One operation. -/
def step (w : Writer) : Op → Option Writer
  | .issue => some (issueLabel w).2
  | .get name => some (getLabel w name).2
  | .define s l g => define w s l g
  | .write s bytes => write w s bytes
  | .allocate s n => some (allocate w s n)
  | .align s a => align w s a
  | .use loc l a ty => some (useAt w loc l a ty)
  | .useRelative s o l a ty => useRelative w s o l a ty
  | .inst i => inst w i

/-- A sequence of operations. -/
def run : Writer → List Op → Option Writer
  | w, [] => some w
  | w, op :: ops => do run (← step w op) ops

/-! ## `produce` -/

/-- Ways `produce` fails: an assertion, or the `io::Error` of writer.rs:129-132. -/
inductive Fail
  | panic
  | noDefinition (l : Nat)
  deriving DecidableEq, Repr

/-- `seek` and `write_all` on a `Cursor<Vec<u8>>`: overwrites, and extends when beyond the end. -/
def patch (buf : List Nat) (pos : Nat) (bytes : List Nat) : List Nat :=
  buf.take pos ++ List.replicate (pos - buf.length) 0 ++ bytes ++ buf.drop (pos + bytes.length)

/-- obj.rs:92-127 `resolve_statically`: `none` is the failed assertion, `some none` is `Ok(false)`. -/
def resolveStatically (ty : RelocType) (buf : List Nat) (defPos usePos : Nat) (addend : Int) :
    Option (Option (List Nat)) :=
  let value := (defPos : Int) + addend - (usePos : Int)
  match ty with
  | .pcRel8 => if -128 ≤ value ∧ value ≤ 127 then some (some (patch buf usePos (leBytes 1 value))) else none
  | .pcRel32 =>
    if -2147483648 ≤ value ∧ value ≤ 2147483647 then some (some (patch buf usePos (leBytes 4 value)))
    else none
  | .table32 => some none
  | .abs64 => some none

/-- writer.rs:120-124: `label_symbols` inverts the map of names. -/
def labelSymbol (names : HMap String Nat) (l : Nat) : Option String :=
  (names.find? (fun p => p.2 == l)).map (·.1)

/-- The sections of an object (`self.text`, `self.data`, `self.rodata` inside `produce`). -/
def Object.buf (o : Object) : Section → List Nat
  | .text => o.text
  | .data => o.data
  | .rodata => o.rodata
  | .bss => []

/-- Assignment to one of the buffers. -/
def Object.setBuf (o : Object) (s : Section) (b : List Nat) : Object :=
  match s with
  | .text => { o with text := b }
  | .data => { o with data := b }
  | .rodata => { o with rodata := b }
  | .bss => o

/-- writer.rs:99-113: the attempt to resolve a use within its section; `none` in the result means a
relocation is needed. -/
def tryStatic (d : Def) (o : Object) (u : Use) : Except Fail (Option Object) :=
  if d.location.section_ = u.location.section_ ∧ u.location.section_ ≠ .bss then
    match resolveStatically u.ty (o.buf u.location.section_) d.location.pos u.location.pos u.addend with
    | none => .error .panic
    | some (some b) => .ok (some (o.setBuf u.location.section_ b))
    | some none => .ok none
  else .ok none

/-- writer.rs:115-133: the relocation of a use. -/
def relocOf (names : HMap String Nat) (d : Option Def) (u : Use) : Except Fail Reloc :=
  match labelSymbol names u.target, d with
  | some name, _ => .ok ⟨u.location, .symbol name, u.addend, u.ty⟩
  | none, some d => .ok ⟨u.location, .sect d.location.section_, (d.location.pos : Int) + u.addend, u.ty⟩
  | none, none => .error (.noDefinition u.target)

/-- writer.rs:95-134: one use. -/
def produceUse (w : Writer) (o : Object) (u : Use) : Except Fail Object :=
  match w.defs[u.target]? with
  | none => .error .panic
  | some none =>
    match relocOf w.names none u with
    | .ok r => .ok { o with relocs := o.relocs ++ [r] }
    | .error e => .error e
  | some (some d) =>
    match tryStatic d o u with
    | .error e => .error e
    | .ok (some o') => .ok o'
    | .ok none =>
      match relocOf w.names (some d) u with
      | .ok r => .ok { o with relocs := o.relocs ++ [r] }
      | .error e => .error e

/-- writer.rs:95-134: the loop over the uses. -/
def produceUses (w : Writer) : Object → List Use → Except Fail Object
  | o, [] => .ok o
  | o, u :: us =>
    match produceUse w o u with
    | .ok o => produceUses w o us
    | .error e => .error e

/-- writer.rs:82-87: the binding of a named label; `none`: the label is not of this writer. -/
def bindingOf (w : Writer) (l : Nat) : Option Binding :=
  match w.defs[l]? with
  | none => none
  | some none => some (.global none)
  | some (some d) => some (if d.isGlobal then .global (some d.location) else .loc d.location)

/-- writer.rs:78-91: the symbols. -/
def symbolsOf (w : Writer) : List (String × Nat) → Option (List (String × Binding))
  | [] => some []
  | (name, l) :: rest => do
    let b ← bindingOf w l
    some ((name, b) :: (← symbolsOf w rest))

/-- writer.rs:74-144 `produce` -/
def produce (w : Writer) : Except Fail Object :=
  match symbolsOf w w.names with
  | none => .error .panic
  | some syms => produceUses w ⟨w.text, w.data, w.rodata, w.bss, syms, []⟩ w.uses

end Verif.Obj
