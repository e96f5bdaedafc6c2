import Verif.Jit.Model
import Verif.Obj.Spec

/-! # What the JIT engine should do (independent of it) -/

namespace Verif.Jit.Spec

open Verif.Obj Verif.Obj.Spec

/-- `mmap(2)` with `MAP_32BIT`: a new mapping is page aligned, in the first two gigabytes (not at 0), and does
not overlap an existing one. -/
def OsOk (os : Os) : Prop :=
  ∀ hist pages p, os hist pages = some p →
    0 < p ∧ p % 4096 = 0 ∧ p + pages * 4096 ≤ 2147483648 ∧
      ∀ m ∈ hist, p + pages * 4096 ≤ m.ptr ∨ m.ptr + m.pages * 4096 ≤ p

/-- The `n` bytes of memory at `p`. -/
def readMem (mem : Nat → Nat) (p n : Nat) : List Nat := (List.range n).map (fun i => mem (p + i))

/-- The contents of the sections of an object in memory. -/
def image (mem : Nat → Nat) (o : Object) (base : Section → Nat) (s : Section) : List Nat :=
  readMem mem (base s) (o.buf s).length

/-- An object as `Writer` makes them: bytes are bytes, the fields of relocations are inside a section with
contents and do not overlap, symbols have different names. -/
structure ObjOk (o : Object) : Prop where
  bytes : ∀ s, ∀ b ∈ o.buf s, b < 256
  inside : ∀ r ∈ o.relocs, r.location.section_ ≠ .bss ∧
    r.location.pos + width r.ty ≤ (o.buf r.location.section_).length
  apart : o.relocs.Pairwise fun r q => r.location.section_ = q.location.section_ →
    r.location.pos + width r.ty ≤ q.location.pos ∨ q.location.pos + width q.ty ≤ r.location.pos
  names : (o.symbols.map (·.1)).Nodup

end Verif.Jit.Spec
