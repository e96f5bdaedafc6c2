/-!
# Readers, for C82 and C83

What a reader still has to give, and which readers keep to what the class `Read` says. Nothing here
mentions how anything is read to the end, or how integers are written.
-/

namespace Verif.Rw

/-- An instance of the class `Read`: the array read into before and after, and the state of the
reader; `none` is a failed assertion. std/rw.llrl 22-25. -/
structure Read (R E : Type) where
  readIntoBuf : List UInt8 → R → Option (Except E Nat × List UInt8 × R)

variable {R E : Type}

/-- `src r bs stop` says that the reader `r` has the bytes `bs` left, and then ends, or fails with
`stop`. A reader keeps to this if it gives some of the bytes that are left, at least one of them if
there is one and it is asked for one, and touches nothing else in the array; or fails. It fails
only if it is one of those that do. -/
def Proper (rd : Read R E) (src : R → List UInt8 → Option E → Prop) : Prop :=
  ∀ buf r bs stop, src r bs stop →
    (∃ n r', rd.readIntoBuf buf r = some (.ok n, bs.take n ++ buf.drop n, r') ∧
      n ≤ buf.length ∧ n ≤ bs.length ∧ (n = 0 → buf = [] ∨ bs = [] ∧ stop = none) ∧
      src r' (bs.drop n) stop) ∨
    (∃ e buf' r', stop = some e ∧ rd.readIntoBuf buf r = some (.error e, buf', r'))

/-- It also never gives fewer bytes than it is asked for while there are any, and fails only if
there are too few. -/
def Filling (rd : Read R E) (src : R → List UInt8 → Option E → Prop) : Prop :=
  Proper rd src ∧ ∀ buf r bs stop, src r bs stop →
    (∀ n buf' r', rd.readIntoBuf buf r = some (.ok n, buf', r') →
      n = min buf.length bs.length ∧ (n < buf.length → stop = none)) ∧
    (∀ e buf' r', rd.readIntoBuf buf r = some (.error e, buf', r') →
      bs.length < buf.length ∨ bs = [])

/-- The number that bytes stand for, the least significant byte first. -/
def number : List UInt8 → Nat
  | [] => 0
  | b :: bs => b.toNat + 256 * number bs

end Verif.Rw
