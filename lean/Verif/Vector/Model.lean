import Verif.Vector.Spec

/-!
# Model of `std/internal/array-vector.llrl`, `std/access.llrl` and `std/memory.llrl`

Memory is a set of blocks of cells, one element per cell.  A pointer is a block and an offset in elements (the scaling by the element size is left out).  Every access
outside a block, every load of a cell that was never written and every `memcpy` between overlapping ranges is an error of its own, distinct from a failed assertion.
Numbers are `U64` and wrap.  Allocation fails above `maxLen` elements (the collector cannot provide that much memory).  Arrays whose elements have no size are left out.

The vector's `Ref` to its body is modelled by passing the body through.
-/
namespace Verif.Vector

inductive Err where
  | assert
  | bounds
  | uninit
  | overlap
  | oom
  | fuel
deriving DecidableEq

/-- The most elements an allocation can have. -/
@[irreducible] def maxLen : Nat := 2 ^ 60

/-- Memory: `none` is outside, `some none` is not initialised. -/
structure Mem (α : Type) where
  next : Nat
  cell : Nat → Int → Option (Option α)

/-- A pointer, memory.llrl:8-10; the null pointer has no block. -/
structure Ptr where
  blk : Option Nat
  off : Int
deriving DecidableEq

def M (α β : Type) := Mem α → Except Err (β × Mem α)

instance {α : Type} : Monad (M α) where
  pure b := fun m => .ok (b, m)
  bind x f := fun m =>
    match x m with
    | .error e => .error e
    | .ok (b, m') => f b m'

def fail {α β : Type} (e : Err) : M α β := fun _ => .error e

/-- `assert`, std/assert.llrl. -/
def assert {α : Type} (c : Bool) : M α Unit := if c then pure () else fail .assert

/-- `when`, std/control.llrl. -/
def when {α : Type} (c : Bool) (a : M α Unit) : M α Unit := if c then a else pure ()

/-! ## `U64` -/

@[irreducible] def add64 (a b : Nat) : Nat := (a + b) % 2 ^ 64
@[irreducible] def sub64 (a b : Nat) : Nat := (a + 2 ^ 64 - b) % 2 ^ 64
@[irreducible] def mul64 (a b : Nat) : Nat := (a * b) % 2 ^ 64

/-- `<index-to-offset>`, memory.llrl:28: the bits read as `I64`. -/
@[irreducible] def toOffset (i : Nat) : Int := if i < 2 ^ 63 then i else (i : Int) - 2 ^ 64

/-! ## Memory -/

variable {α : Type}

/-- The cell `i` elements after the pointer. -/
def rd (m : Mem α) (p : Ptr) (i : Int) : Option (Option α) :=
  match p.blk with
  | none => none
  | some b => m.cell b (p.off + i)

/-- `ptr/load`, memory.llrl:13. -/
def ptrLoad (p : Ptr) : M α α := fun m =>
  match rd m p 0 with
  | none => .error .bounds
  | some none => .error .uninit
  | some (some x) => .ok (x, m)

def Mem.put (m : Mem α) (p : Ptr) (x : α) : Mem α :=
  { m with cell := fun b o => if p.blk = some b ∧ o = p.off then some (some x) else m.cell b o }

/-- `ptr/store!`, memory.llrl:14. -/
def ptrStore (x : α) (p : Ptr) : M α Unit := fun m =>
  match rd m p 0 with
  | none => .error .bounds
  | some _ => .ok ((), m.put p x)

/-- `ptr/add`, memory.llrl:25-26. -/
def ptrAdd (i : Nat) (p : Ptr) : Ptr := ⟨p.blk, p.off + toOffset i⟩

/-- `ptr/load-at`, memory.llrl:30-31. -/
def ptrLoadAt (i : Nat) (p : Ptr) : M α α := ptrLoad (ptrAdd i p)

/-- `ptr/store-at!`, memory.llrl:33-34. -/
def ptrStoreAt (i : Nat) (x : α) (p : Ptr) : M α Unit := ptrStore x (ptrAdd i p)

/-- All cells of a range are inside. -/
def inside (m : Mem α) (p : Ptr) (n : Nat) : Bool := (List.range n).all fun i => (rd m p i).isSome

/-- Two ranges of `n` cells have none in common. -/
def apart (p q : Ptr) (n : Nat) : Bool := p.blk != q.blk || decide (p.off + n ≤ q.off) || decide (q.off + n ≤ p.off)

def Mem.blit (m : Mem α) (src : Ptr) (n : Nat) (dst : Ptr) : Mem α :=
  { m with cell := fun b o => if dst.blk = some b ∧ dst.off ≤ o ∧ o < dst.off + n then rd m src (o - dst.off) else m.cell b o }

/-- `ptr/move!`, memory.llrl:18, `memmove`. -/
def ptrMove (src : Ptr) (n : Nat) (dst : Ptr) : M α Unit := fun m =>
  if n = 0 then .ok ((), m)
  else if inside m src n && inside m dst n then .ok ((), m.blit src n dst)
  else .error .bounds

/-- `ptr/copy!`, memory.llrl:17, `memcpy`. -/
def ptrCopy (src : Ptr) (n : Nat) (dst : Ptr) : M α Unit := fun m =>
  if n = 0 then .ok ((), m)
  else if inside m src n && inside m dst n then
    if apart src dst n then .ok ((), m.blit src n dst) else .error .overlap
  else .error .bounds

/-! ## Arrays -/

/-- `Array`, array-vector.llrl:15. -/
structure Arr where
  ptr : Ptr
  len : Nat
deriving DecidableEq

/-- `array/unsafe-alloc-uninitialized`, array-vector.llrl:53. -/
def alloc (n : Nat) : M α Arr := fun m =>
  if n ≤ maxLen then
    .ok (⟨⟨some m.next, 0⟩, n⟩,
      ⟨m.next + 1, fun b o => if b = m.next then (if 0 ≤ o ∧ o < n then some none else none) else m.cell b o⟩)
  else .error .oom

/-- `array/empty`, array-vector.llrl:49-50. -/
def arrEmpty : Arr := ⟨⟨none, 0⟩, 0⟩

/-- `unsafe-get` and `unsafe-set!` on arrays, array-vector.llrl:455-456, 465-466. -/
def arrUnsafeGet (i : Nat) (t : Arr) : M α α := ptrLoadAt i t.ptr
def arrUnsafeSet (i : Nat) (x : α) (t : Arr) : M α Unit := ptrStoreAt i x t.ptr

/-- `load-at`, `load-at?` and `store-at!`, access.llrl:124-141 with array-vector.llrl:455-457. -/
def arrLoadAt (i : Nat) (t : Arr) : M α α := do
  assert (i < t.len)
  arrUnsafeGet i t

def arrLoadAt? (i : Nat) (t : Arr) : M α (Option α) := do
  if i < t.len then
    let x ← arrUnsafeGet i t
    return some x
  else return none

def arrStoreAt (i : Nat) (x : α) (t : Arr) : M α Unit := do
  assert (i < t.len)
  arrUnsafeSet i x t

/-- `array/ref`, array-vector.llrl:68-70. -/
def arrRef (i : Nat) (t : Arr) : M α Ptr := do
  assert (i ≤ t.len)
  return ptrAdd i t.ptr

/-- `array/subarray`, array-vector.llrl:72-74. -/
def arrSubarray (s e : Nat) (t : Arr) : M α Arr := do
  assert (s ≤ e && e ≤ t.len)
  return ⟨ptrAdd s t.ptr, sub64 e s⟩

/-- `array/take` and `array/skip`, array-vector.llrl:76-80. -/
def arrTake (n : Nat) (t : Arr) : M α Arr := arrSubarray 0 (min n t.len) t
def arrSkip (n : Nat) (t : Arr) : M α Arr := arrSubarray (min n t.len) t.len t

/-- `array/insert`, array-vector.llrl:104-114. -/
def arrInsert (i : Nat) (x : α) (t : Arr) : M α Arr := do
  assert (0 ≤ i && i ≤ t.len)
  let s ← alloc (add64 t.len 1)
  when (i ≠ 0) (ptrCopy t.ptr i s.ptr)
  when (i ≠ t.len) (ptrCopy (ptrAdd i t.ptr) (sub64 t.len i) (ptrAdd (add64 i 1) s.ptr))
  ptrStoreAt i x s.ptr
  return s

/-- `array/push` and `array/unshift`, array-vector.llrl:116-120. -/
def arrPush (x : α) (t : Arr) : M α Arr := arrInsert t.len x t
def arrUnshift (x : α) (t : Arr) : M α Arr := arrInsert 0 x t

/-- `shallow-copy`, array-vector.llrl:379-384. -/
def arrShallowCopy (t : Arr) : M α Arr := do
  let b ← alloc t.len
  ptrCopy t.ptr t.len b.ptr
  return b

/-- `array/update`, array-vector.llrl:122-126. -/
def arrUpdate (i : Nat) (x : α) (t : Arr) : M α Arr := do
  assert (0 ≤ i && i ≤ sub64 t.len 1)
  let s ← arrShallowCopy t
  arrUnsafeSet i x s
  return s

/-- `array/remove`, array-vector.llrl:128-142. -/
def arrRemove (i : Nat) (t : Arr) : M α Arr := do
  assert (t.len ≠ 0 && (0 ≤ i && i ≤ sub64 t.len 1))
  if t.len = 1 then return arrEmpty
  else
    let s ← alloc (sub64 t.len 1)
    when (i ≠ 0) (ptrCopy t.ptr i s.ptr)
    when (i ≠ sub64 t.len 1) (ptrCopy (ptrAdd (add64 i 1) t.ptr) (sub64 (sub64 t.len i) 1) (ptrAdd i s.ptr))
    return s

/-- `array/copy!`, array-vector.llrl:168-170. -/
def arrCopy (src dst : Arr) : M α Unit := do
  assert (src.len ≤ dst.len)
  ptrCopy src.ptr src.len dst.ptr

/-- `array/concat`, array-vector.llrl:144-150. -/
def arrConcat (a b : Arr) : M α Arr := do
  if a.len = 0 then return b
  else if b.len = 0 then return a
  else
    let s ← alloc (add64 a.len b.len)
    arrCopy a s
    let r ← arrSkip a.len s
    arrCopy b r
    return s

/-- The loop of `array/fill!`, array-vector.llrl:156-158. -/
def arrFillLoop (x : α) (t : Arr) : Nat → Nat → M α Unit
  | 0, _ => fail .fuel
  | n + 1, i => do
    if i < t.len then
      arrUnsafeSet i x t
      arrFillLoop x t n (add64 i 1)
    else return ()

/-- `array/fill!`, array-vector.llrl:152-158. -/
def arrFill (x : α) (t : Arr) : M α Unit := arrFillLoop x t (t.len + 1) 0

/-- `array/swap!`, array-vector.llrl:172-180. -/
def arrSwap (a b : Nat) (t : Arr) : M α Unit := do
  assert (a < t.len)
  assert (b < t.len)
  if a ≠ b then
    let ta ← arrUnsafeGet a t
    let tb ← arrUnsafeGet b t
    arrUnsafeSet a tb t
    arrUnsafeSet b ta t
  else return ()

/-- The loop of `array/reverse!`, array-vector.llrl:187-189. -/
def arrReverseLoop (t : Arr) (l r : Nat) : Nat → Nat → M α Unit
  | 0, _ => fail .fuel
  | n + 1, i => do
    if i < l then
      arrSwap i (sub64 r i) t
      arrReverseLoop t l r n (add64 i 1)
    else return ()

/-- `array/reverse!`, array-vector.llrl:182-189. -/
def arrReverse (t : Arr) : M α Unit := arrReverseLoop t (t.len / 2) (sub64 t.len 1) (t.len / 2 + 1) 0

/-! ## Vectors -/

/-- `VectorBody`, array-vector.llrl:205-206. -/
structure Vec where
  ptr : Ptr
  len : Nat
  cap : Nat
deriving DecidableEq

/-- `vector/from-array`, array-vector.llrl:224-228, and `vector/empty`, 221-222. -/
def vecFromArray (a : Arr) : Vec := ⟨a.ptr, a.len, a.len⟩
def vecEmpty : Vec := vecFromArray arrEmpty

/-- `vector/buffer`, array-vector.llrl:259-261. -/
def vecBuffer (v : Vec) : Arr := ⟨v.ptr, v.len⟩

/-- `vector/reserve-capacity!`, array-vector.llrl:291-297. -/
def vecReserveCapacity (required : Nat) (exact : Bool) (v : Vec) : M α Vec := do
  if v.cap < required then
    let newCap := if exact then required else max required (mul64 2 (max 2 v.cap))
    let a ← alloc newCap
    ptrCopy v.ptr v.len a.ptr
    return ⟨a.ptr, v.len, newCap⟩
  else return v

/-- `vector/reserve-free!`, array-vector.llrl:299-300. -/
def vecReserveFree (required : Nat) (exact : Bool) (v : Vec) : M α Vec := vecReserveCapacity (add64 v.len required) exact v

/-- `vector/append!`, array-vector.llrl:302-306. -/
def vecAppend (a : Arr) (v : Vec) : M α Vec := do
  let v ← vecReserveFree a.len false v
  ptrCopy a.ptr a.len (ptrAdd v.len v.ptr)
  return ⟨v.ptr, add64 v.len a.len, v.cap⟩

/-- `vector/push!`, array-vector.llrl:308-312. -/
def vecPush (x : α) (v : Vec) : M α Vec := do
  let v ← vecReserveFree 1 false v
  ptrStoreAt v.len x v.ptr
  return ⟨v.ptr, add64 v.len 1, v.cap⟩

/-- `vector/insert!`, array-vector.llrl:314-320. -/
def vecInsert (i : Nat) (x : α) (v : Vec) : M α Vec := do
  let v ← vecReserveFree 1 false v
  assert (i ≤ v.len)
  ptrMove (ptrAdd i v.ptr) (sub64 v.len i) (ptrAdd (add64 i 1) v.ptr)
  ptrStoreAt i x v.ptr
  return ⟨v.ptr, add64 v.len 1, v.cap⟩

/-- `vector/pop!`, array-vector.llrl:324-328. -/
def vecPop (v : Vec) : M α (Option α × Vec) := do
  if v.len ≠ 0 then
    let x ← ptrLoadAt (sub64 v.len 1) v.ptr
    return (some x, ⟨v.ptr, sub64 v.len 1, v.cap⟩)
  else return (none, v)

/-- `vector/swap-remove!`, array-vector.llrl:330-338. -/
def vecSwapRemove (i : Nat) (v : Vec) : M α (α × Vec) := do
  assert (i < v.len)
  let l := sub64 v.len 1
  let x ← ptrLoadAt i v.ptr
  if i ≠ l then
    let y ← ptrLoadAt l v.ptr
    ptrStoreAt i y v.ptr
  return (x, ⟨v.ptr, l, v.cap⟩)

/-- `vector/remove!`, array-vector.llrl:340-347. -/
def vecRemove (i : Nat) (v : Vec) : M α (α × Vec) := do
  assert (i < v.len)
  let l := sub64 v.len 1
  let x ← ptrLoadAt i v.ptr
  ptrMove (ptrAdd (add64 i 1) v.ptr) (sub64 l i) (ptrAdd i v.ptr)
  return (x, ⟨v.ptr, l, v.cap⟩)

/-- `vector/truncate!`, array-vector.llrl:349-352, and `vector/clear!`, 354-355. -/
def vecTruncate (n : Nat) (v : Vec) : Vec := if n < v.len then ⟨v.ptr, n, v.cap⟩ else v
def vecClear (v : Vec) : Vec := vecTruncate 0 v

/-- `vector/consume!`, array-vector.llrl:359-364. -/
def vecConsume (n : Nat) (v : Vec) : M α (Arr × Vec) := do
  if n = 0 then return (arrEmpty, v)
  else
    assert (n ≤ v.len)
    return (⟨v.ptr, n⟩, ⟨ptrAdd n v.ptr, sub64 v.len n, sub64 v.cap n⟩)

/-- `vector/consume-all!`, array-vector.llrl:366-369. -/
def vecConsumeAll (v : Vec) : Arr × Vec := (⟨v.ptr, v.len⟩, ⟨ptrAdd v.len v.ptr, 0, sub64 v.cap v.len⟩)

/-- `load-at` and so on for vectors, array-vector.llrl:459-461, 468-469. -/
def vecLoadAt (i : Nat) (v : Vec) : M α α := do
  assert (i < v.len)
  ptrLoadAt i v.ptr

def vecLoadAt? (i : Nat) (v : Vec) : M α (Option α) := do
  if i < v.len then
    let x ← ptrLoadAt i v.ptr
    return some x
  else return none

def vecStoreAt (i : Nat) (x : α) (v : Vec) : M α Unit := do
  assert (i < v.len)
  ptrStoreAt i x v.ptr

/-- `vector/swap!`, array-vector.llrl:281-284. -/
def vecSwap (a b : Nat) (v : Vec) : M α Unit := do
  assert (a < v.len)
  assert (b < v.len)
  arrSwap a b (vecBuffer v)

/-! ## Running a sequence of operations -/

/-- An array literal `(array x ...)`: `unsafe-set!` for each element, array-vector.llrl:17-37. -/
def arrInit (t : Arr) : Nat → List α → M α Unit
  | _, [] => return ()
  | i, x :: xs => do
    arrUnsafeSet i x t
    arrInit t (add64 i 1) xs

def arrLit (xs : List α) : M α Arr := do
  if xs.isEmpty then return arrEmpty
  else
    let t ← alloc xs.length
    arrInit t 0 xs
    return t

/-- Reading a whole array, the observation a caller can make. -/
def arrRead (t : Arr) : Nat → Nat → M α (List α)
  | 0, _ => return []
  | n + 1, i => do
    let x ← arrUnsafeGet i t
    let xs ← arrRead t n (i + 1)
    return x :: xs

/-- One operation. -/
def step (op : Op α) (v : Vec) : M α (Res α × Vec) := do
  match op with
  | .push x => return (.unit, ← vecPush x v)
  | .pop =>
    let r ← vecPop v
    return (.opt r.1, r.2)
  | .insert i x => return (.unit, ← vecInsert i x v)
  | .remove i =>
    let r ← vecRemove i v
    return (.val r.1, r.2)
  | .swapRemove i =>
    let r ← vecSwapRemove i v
    return (.val r.1, r.2)
  | .truncate n => return (.unit, vecTruncate n v)
  | .clear => return (.unit, vecClear v)
  | .append xs =>
    let a ← arrLit xs
    return (.unit, ← vecAppend a v)
  | .appendSelf => return (.unit, ← vecAppend (vecBuffer v) v)
  | .reserveCapacity n e => return (.unit, ← vecReserveCapacity n e v)
  | .reserveFree n e => return (.unit, ← vecReserveFree n e v)
  | .get i => return (.val (← vecLoadAt i v), v)
  | .get? i => return (.opt (← vecLoadAt? i v), v)
  | .set i x =>
    vecStoreAt i x v
    return (.unit, v)
  | .swap i j =>
    vecSwap i j v
    return (.unit, v)
  | .reverse =>
    arrReverse (vecBuffer v)
    return (.unit, v)
  | .fill x =>
    arrFill x (vecBuffer v)
    return (.unit, v)
  | .consume n =>
    let r ← vecConsume n v
    return (.arr (← arrRead r.1 r.1.len 0), r.2)
  | .consumeAll =>
    let r := vecConsumeAll v
    return (.arr (← arrRead r.1 r.1.len 0), r.2)

/-- A sequence of operations: the results up to the end or up to an error, which is the second component. -/
def run (v : Vec) (m : Mem α) : List (Op α) → List (Res α) × Except Err (Vec × Mem α)
  | [] => ([], .ok (v, m))
  | op :: ops =>
    match step op v m with
    | .error e => ([], .error e)
    | .ok ((r, v'), m') => ((r :: (run v' m' ops).1), (run v' m' ops).2)

end Verif.Vector
