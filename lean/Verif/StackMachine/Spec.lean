import Verif.StackMachine.Model
import Verif.MemLayout.Lemmas
/-!
# What the generated code should do

Values are sequences of bytes, some of which may be undefined (padding).
-/
namespace Verif.StackMachine.Spec

open Verif.MemLayout Verif.StackMachine

/-- The bytes of a value; `none` is an undefined byte. -/
abbrev Val := Nat → Option Nat

/-- What is known of the memory. -/
abbrev AMem := Int → Option Nat

def regByte (s : St) : AssignedReg → Nat → Nat
  | .gpr r, i => s.gpr r i
  | .xmm x, i => s.xmm x i
  | .void, _ => 0

/-- The value lies on top of the stack. -/
def OnStack (l : Layout) (s : St) (v : Val) : Prop := ∀ i < l.size, ∀ b, v i = some b → s.mem (s.rsp + i) = b

/-- The value is the "last value": values of class memory lie on the stack, others in the registers assigned to their eightbytes (codegen.rs:8-10). -/
def Held (l : Layout) (s : St) (v : Val) : Prop :=
  (l.cls = .memory → OnStack l s v) ∧
  ∀ as g f, build l gps fps = some (as, g, f) → ∀ a ∈ as, ∀ i < a.size, ∀ b, v (a.offset + i) = some b → regByte s a.reg i = b

/-! ### Meaning of expressions -/

/-- Only the first `n` bytes are defined. -/
def trunc (v : Val) (n : Nat) : Val := fun i => if i < n then v i else none

def aread (A : AMem) (a : Int) (n : Nat) : Val := fun i => if i < n then A (a + i) else none

/-- Writing `n` bytes. -/
def awrite (A : AMem) (a : Int) (n : Nat) (v : Val) : AMem := fun x => if a ≤ x ∧ x < a + n then v (x - a).toNat else A x

/-- Putting an element of `n` bytes at offset `o` of a struct. -/
def place (v : Val) (o n : Nat) (w : Val) : Val := fun i => if o ≤ i ∧ i < o + n then w (i - o) else v i

/-- The number in the first `n` bytes from `i` on, if they are defined. -/
def number (v : Val) : Nat → Nat → Option Nat
  | 0, _ => some 0
  | n + 1, i => match v i, number v n (i + 1) with
    | some b, some r => some (b + 256 * r)
    | _, _ => none

/-- The type of an expression. -/
def ty : Ex → Layout
  | .var _ l => l
  | .letv _ _ body => ty body
  | .load l _ => l
  | .struct l _ => l
  | .elem i e => match (ty e).composite with
    | some (es, _) => match es[i]? with
      | some (_, l) => l
      | none => Layout.unit
    | none => Layout.unit
  | .reint l _ => l
  | .seq _ body => ty body

/-- Where element `i` of a struct type is. -/
def elemOffset (a : Layout) (i : Nat) : Nat := match a.composite with
  | some (es, _) => match es[i]? with
    | some (o, _) => o
    | none => 0
  | none => 0

mutual
/-- The value of an expression and the memory afterwards; a slot is as large as the value rounded up to eight bytes. -/
def den (rbp : Int) : Ex → AMem → Val × AMem
  | .var off l, A => (aread A (rbp + off) l.size, A)
  | .letv off e body, A =>
    den rbp body (awrite (den rbp e A).2 (rbp + off) ((ty e).numEightbytes * 8) (trunc (den rbp e A).1 (ty e).size))
  | .load l e, A => (match number (den rbp e A).1 8 0 with
      | some p => aread (den rbp e A).2 p l.size
      | none => fun _ => none, (den rbp e A).2)
  | .struct l es, A => denFields rbp (match l.composite with | some (es, _) => es.map (·.1) | none => []) es A (fun _ => none)
  | .elem i e, A => (trunc (fun k => (den rbp e A).1 (elemOffset (ty e) i + k)) (ty (.elem i e)).size, (den rbp e A).2)
  | .reint l e, A => (trunc (trunc (den rbp e A).1 (ty e).size) l.size, (den rbp e A).2)
  | .seq e body, A => den rbp body (den rbp e A).2
def denFields (rbp : Int) : List Nat → List Ex → AMem → Val → Val × AMem
  | o :: os, e :: es, A, v => denFields rbp os es (den rbp e A).2 (place v o (ty e).size (den rbp e A).1)
  | _, _, A, v => (v, A)
end

/-- The known part of the memory is right and lies above `B`. -/
def Agrees (B : Int) (A : AMem) (s : St) : Prop := ∀ a b, A a = some b → B ≤ a ∧ s.mem a = b

mutual
/-- Well-typed expressions whose slots lie above `B`.  Reading element 0 of a struct of the same number of eightbytes is only allowed if the struct
and the element are in the same registers. -/
def Ok (rbp B : Int) : Ex → Prop
  | .var _ l => Regular l
  | .letv off e body => B ≤ rbp + off ∧ Ok rbp B e ∧ Ok rbp B body
  | .load l e => Regular l ∧ ty e = Layout.pointer ∧ Ok rbp B e
  | .struct l es => (∃ ls, l = Layout.product ls ∧ es.map ty = ls ∧ ∀ l ∈ ls, Regular l) ∧ OkL rbp B es
  | .elem i e => (∃ es cs o l, (ty e).composite = some (es, cs) ∧ es[i]? = some (o, l) ∧ Regular l ∧
      (o = 0 → (ty e).numEightbytes = l.numEightbytes →
        ∀ as g f bs g' f', build (ty e) gps fps = some (as, g, f) → build l gps fps = some (bs, g', f') →
          as.map (·.reg) = bs.map (·.reg))) ∧ Ok rbp B e
  | .reint l e => Regular l ∧ Ok rbp B e
  | .seq e body => Ok rbp B e ∧ Ok rbp B body
def OkL (rbp B : Int) : List Ex → Prop
  | [] => True
  | e :: es => Ok rbp B e ∧ OkL rbp B es
end

end Verif.StackMachine.Spec
