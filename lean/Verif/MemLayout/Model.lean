import Verif.Util.HMap

/-!
# Model of `llrl0/src/backend/native/mem_layout.rs`, with `chibi/codegen/reg_assign.rs` and `call_frame.rs`

Sizes and offsets are natural numbers: the code's `usize` does not overflow for types smaller than 2^63 bytes.  The sizes of the
`#[repr(C)]` structures used by `Layout::native` (native/data.rs) are those of x86-64.
-/
namespace Verif.MemLayout

/-- `Class`, mem_layout.rs:8-14. -/
inductive Class | void | integer | floatingPoint | memory
deriving DecidableEq, Repr

/-- `Class::merge`, mem_layout.rs:17-25. -/
def Class.merge : Class → Class → Class
  | .memory, _ => .memory
  | _, .memory => .memory
  | .integer, _ => .integer
  | _, .integer => .integer
  | .floatingPoint, _ => .floatingPoint
  | _, .floatingPoint => .floatingPoint
  | .void, _ => .void

/-- `Layout` and `CompositeLayout`, mem_layout.rs:28-35, 195-200: the composite is the pair of `elems` and `components`. -/
inductive Layout
  | mk (size align : Nat) (cls : Class) (composite : Option (List (Nat × Layout) × List (Nat × Layout)))

namespace Layout

def size : Layout → Nat | mk s _ _ _ => s
def align : Layout → Nat | mk _ a _ _ => a
def cls : Layout → Class | mk _ _ c _ => c
def composite : Layout → Option (List (Nat × Layout) × List (Nat × Layout)) | mk _ _ _ c => c

/-- Padding: `(align - (n % align)) % align` when `align != 0`, mem_layout.rs:39-41, 185-187. -/
def padTo (n align : Nat) : Nat := if align ≠ 0 then n + (align - n % align) % align else n

/-- `Layout::new`, mem_layout.rs:38-54. -/
def new (size align : Nat) (cls : Class) : Layout :=
  let size := padTo size align
  mk size align (if size = 0 then .void else if size > 16 then .memory else cls) none

/-- `Layout::unit` … `Layout::syntax`, mem_layout.rs:61-111. -/
def unit : Layout := new 0 0 .void
def integer (n : Nat) : Layout := new n n .integer
def fp (n : Nat) : Layout := new n n .floatingPoint
def memory (size align : Nat) : Layout := new size align .memory
def pointer : Layout := new 8 8 .integer
def clos : Layout := new 16 8 .integer
def string : Layout := new 16 8 .integer
def char : Layout := new 4 4 .integer
def array : Layout := new 16 8 .integer
def capturedUse : Layout := new 16 8 .integer
def syntax_ : Layout := new 8 8 .integer

/-- `Layout::iter_with_offset`, mem_layout.rs:180-192. -/
def iterWithOffset : Nat → List Layout → List (Nat × Layout)
  | _, [] => []
  | offset, l :: ls =>
    let offset := padTo offset l.align
    (offset, l) :: iterWithOffset (offset + l.size) ls

/-- The accumulators of `Layout::product`. -/
structure Acc where
  align : Nat
  cls : Class
  size : Nat
  elems : List (Nat × Layout)
  components : List (Nat × Layout)

/-- What one element adds to `components`, mem_layout.rs:124-128. -/
def componentsOf (o : Nat) (l : Layout) : List (Nat × Layout) :=
  match l.composite with
  | some c => c.2.map fun p => (o + p.1, p.2)
  | none => [(o, l)]

/-- The loop of `Layout::product`, mem_layout.rs:119-129. -/
def productStep (a : Acc) (ol : Nat × Layout) : Acc :=
  ⟨max ol.2.align a.align, ol.2.cls.merge a.cls, ol.1 + ol.2.size, a.elems ++ [ol], a.components ++ componentsOf ol.1 ol.2⟩

/-- `Layout::product`, mem_layout.rs:113-131. -/
def product (ls : List Layout) : Layout :=
  let a := (iterWithOffset 0 ls).foldl productStep ⟨0, .void, 0, [], []⟩
  match new a.size a.align a.cls with
  | mk s al c _ => mk s al c (some (a.elems, a.components))

/-- `Layout::sum`, mem_layout.rs:133-143. -/
def sum (ls : List Layout) : Layout :=
  let a := ls.foldl (fun (a : Nat × Class × Nat) l => (max l.align a.1, l.cls.merge a.2.1, max l.size a.2.2)) (0, .integer, 0)
  new a.2.2 a.1 a.2.1

/-- `Layout::num_eightbytes`, mem_layout.rs:145-148. -/
def numEightbytes (l : Layout) : Nat := (l.size + 7) / 8

/-- `Layout::size_in_stack`, mem_layout.rs:166-172. -/
def sizeInStack (l : Layout) (lastValue : Bool) : Nat :=
  if lastValue && l.cls ≠ .memory then 0 else l.numEightbytes * 8

/-- `Layout::in_stack`, mem_layout.rs:174-178. -/
def inStack : Layout → Layout
  | mk s a c k => mk (sizeInStack (mk s a c k) false) a c k

end Layout

/-- `Eightbyte`, mem_layout.rs:202-208. -/
structure Eightbyte where
  offset : Nat
  size : Nat
  cls : Class
deriving DecidableEq, Repr

/-- `Layout::eightbytes`, mem_layout.rs:150-164. -/
def Layout.eightbytes (l : Layout) : List Eightbyte :=
  (List.range l.numEightbytes).map fun index =>
    let offset := index * 8
    let cls := match l.composite with
      | some (_, cs) => (cs.filter fun p => decide (offset < p.2.size + p.1) && decide (p.1 < offset + 8)).foldl (fun c p => c.merge p.2.cls) .void
      | none => l.cls
    ⟨offset, min (l.size - offset) 8, cls⟩

/-! ### The resolver -/

/-- `Ct`, lowering/ir/ct.rs:31-48, without the forms erased by the normalizer. -/
inductive Ct
  | id (n : Nat)
  | ptr (t : Ct) | clos | s (bits : Nat) | u (bits : Nat) | f32 | f64 | string | char | array (t : Ct) | capturedUse | unit | env | syntax (t : Ct)
  | erased
deriving DecidableEq, Repr

/-- The definitions that matter: structs, unions, others. -/
inductive Def
  | struct (fields : List Ct)
  | union (tys : List Ct)
  | other

/-- `usize::next_power_of_two`: the least power of two that is not smaller (1 for 0). -/
def nextPowerOfTwo (n : Nat) : Nat := if n ≤ 1 then 1 else 2 ^ (Nat.log2 (n - 1) + 1)

/-- `LayoutResolver`, mem_layout.rs:210-214. -/
abbrev Layouts := Verif.HMap Nat (Option Layout)

/-- `LayoutResolver::get`, mem_layout.rs:267-288; `none` is a panic. -/
def Layouts.getCt (m : Layouts) : Ct → Option Layout
  | .id n => match Verif.HMap.get m n with
    | some (some l) => some l
    | _ => none
  | .erased => none
  | .ptr _ => some Layout.pointer
  | .clos => some Layout.clos
  | .s n => some (Layout.integer (nextPowerOfTwo ((n + 7) / 8)))
  | .u n => some (Layout.integer (nextPowerOfTwo ((n + 7) / 8)))
  | .f32 => some (Layout.fp 4)
  | .f64 => some (Layout.fp 8)
  | .string => some Layout.string
  | .char => some Layout.char
  | .array _ => some Layout.array
  | .capturedUse => some Layout.capturedUse
  | .unit => some Layout.unit
  | .env => some Layout.pointer
  | .syntax _ => some Layout.syntax_

abbrev Defs := Verif.HMap Nat Def

/-- How a resolver call ends without a layout: a panic, or (model only) the bound on the recursion depth is hit. -/
inductive Failure | panic | fuel
deriving DecidableEq, Repr

mutual
/-- `LayoutResolver::register_visit`, mem_layout.rs:232-265. -/
def registerVisit (defs : Defs) : Nat → Layouts → Ct → Except Failure (Layout × Layouts)
  | 0, _, _ => .error .fuel
  | fuel + 1, m, .id n =>
    match Verif.HMap.get m n with
    | some none => .error .panic
    | some (some l) => .ok (l, m)
    | none =>
      match Verif.HMap.get defs n with
      | some (.struct ts) =>
        match registerVisits defs fuel (Verif.HMap.insert m n none) ts with
        | .error e => .error e
        | .ok (ls, m) => .ok (Layout.product ls, Verif.HMap.insert m n (some (Layout.product ls)))
      | some (.union ts) =>
        match registerVisits defs fuel (Verif.HMap.insert m n none) ts with
        | .error e => .error e
        | .ok (ls, m) => .ok (Layout.sum ls, Verif.HMap.insert m n (some (Layout.sum ls)))
      | _ => .error .panic
  | _ + 1, m, t =>
    match m.getCt t with
    | some l => .ok (l, m)
    | none => .error .panic

/-- `.iter().map(|f| self.register_visit(f, defs)).collect()`, mem_layout.rs:245-249, 253-257. -/
def registerVisits (defs : Defs) : Nat → Layouts → List Ct → Except Failure (List Layout × Layouts)
  | _, m, [] => .ok ([], m)
  | fuel, m, t :: ts =>
    match registerVisit defs fuel m t with
    | .error e => .error e
    | .ok (l, m) =>
      match registerVisits defs fuel m ts with
      | .error e => .error e
      | .ok (ls, m) => .ok (l :: ls, m)
end

/-- `LayoutResolver::register`, mem_layout.rs:224-230: `order` is the order in which the hash map of definitions is iterated. -/
def register (defs : Defs) (fuel : Nat) : Layouts → List Nat → Except Failure Layouts
  | m, [] => .ok m
  | m, n :: order =>
    match Verif.HMap.get defs n with
    | some (.struct _) | some (.union _) =>
      match registerVisit defs fuel m (.id n) with
      | .error e => .error e
      | .ok (_, m) => register defs fuel m order
    | _ => register defs fuel m order

/-! ### Registers and call frames -/

/-- `AssignedReg`, reg_assign.rs:54-59; registers are numbered. -/
inductive AssignedReg | gpr (n : Nat) | xmm (n : Nat) | void
deriving DecidableEq, Repr

/-- `RegAssign`, reg_assign.rs:4-10. -/
structure RegAssign where
  offset : Nat
  size : Nat
  reg : AssignedReg
deriving DecidableEq, Repr

/-- The loop of `RegAssign::build`, reg_assign.rs:26-47. -/
def buildLoop : List Nat → List Nat → List Eightbyte → Option (List RegAssign × List Nat × List Nat)
  | gps, fps, [] => some ([], gps, fps)
  | gps, fps, e :: es =>
    match e.cls, gps, fps with
    | .void, gps, fps => (buildLoop gps fps es).map fun r => (⟨e.offset, e.size, .void⟩ :: r.1, r.2)
    | .integer, g :: gps, fps => (buildLoop gps fps es).map fun r => (⟨e.offset, e.size, .gpr g⟩ :: r.1, r.2)
    | .floatingPoint, gps, f :: fps => (buildLoop gps fps es).map fun r => (⟨e.offset, e.size, .xmm f⟩ :: r.1, r.2)
    | _, _, _ => none

/-- `RegAssign::build`, reg_assign.rs:21-51; gives the registers left too. -/
def build (l : Layout) (gps fps : List Nat) : Option (List RegAssign × List Nat × List Nat) :=
  if l.cls = .integer ∨ l.cls = .floatingPoint then buildLoop gps fps l.eightbytes else none

/-- `CallArg`, call_frame.rs:60-65; `CallRet`, 96-100. -/
inductive CallArg
  | reg (a : RegAssign) (b : Option RegAssign)
  | stack (n : Nat)
  | stackRev (n : Nat)
deriving DecidableEq, Repr

/-- `assigns.get(0).unwrap()`, call_frame.rs:89, 114. -/
def ofAssigns : List RegAssign → Option CallArg
  | [] => none
  | [a] => some (.reg a none)
  | a :: b :: _ => some (.reg a (some b))

/-- `CallArg::default_args`, call_frame.rs:68-73. -/
def defaultArgs (ls : List Layout) : List CallArg := ls.map fun l => .stack l.numEightbytes

/-- The loop of `CallArg::c_args`, call_frame.rs:87-92. -/
def cArgsLoop : List Nat → List Nat → List Layout → Option (List CallArg)
  | _, _, [] => some []
  | gps, fps, l :: ls =>
    match build l gps fps with
    | some (as, gps, fps) => do
      let a ← ofAssigns as
      let r ← cArgsLoop gps fps ls
      some (a :: r)
    | none => do
      let r ← cArgsLoop gps fps ls
      some (.stackRev l.numEightbytes :: r)

/-- `CallArg::c_args`, call_frame.rs:75-93: 0 is rdi, then rsi, rdx, rcx, r8, r9; xmm0 to xmm7. -/
def cArgs (ls : List Layout) (ret : Layout) : Option (List CallArg) :=
  cArgsLoop (if ret.cls = .memory then [1, 2, 3, 4, 5] else [0, 1, 2, 3, 4, 5]) [0, 1, 2, 3, 4, 5, 6, 7] ls

/-- `CallRet::c`, call_frame.rs:108-117: eightbytes of the return value on the stack; registers rax and rdx (0, 2), xmm0 and xmm1. -/
def cRet (l : Layout) : Option CallArg :=
  match build l [0, 2] [0, 1] with
  | some (as, _) => ofAssigns as
  | none => some (.stack l.numEightbytes)

/-- `CallFrame`, call_frame.rs:11-16. -/
structure CallFrame where
  stackArgs : Nat
  padding : Nat
  ret : Nat
deriving DecidableEq, Repr

/-- Eightbytes that an argument takes on the stack, call_frame.rs:24-27. -/
def CallArg.onStack : CallArg → Nat
  | .stack n => n
  | .stackRev n => n
  | _ => 0

/-- `CallFrame::new`, call_frame.rs:19-42. -/
def CallFrame.new (args : List CallArg) (ret : CallArg) (depth : Nat) : CallFrame :=
  let s := (args.map CallArg.onStack).foldl (· + ·) 0
  let r := ret.onStack
  ⟨s, (depth + r + s) % 2, r⟩

/-- `padding_before_stack_args`, `offset_to_ret_destination`, `remnants_after_call`, call_frame.rs:44-57, in eightbytes. -/
def CallFrame.before (f : CallFrame) : Nat := f.ret + f.padding
def CallFrame.retDestination (f : CallFrame) : Option Nat := if f.ret ≠ 0 then some (f.stackArgs + f.padding) else none
def CallFrame.remnants (f : CallFrame) : Nat := f.stackArgs + f.padding

end Verif.MemLayout
