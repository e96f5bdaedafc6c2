import Verif.MemLayout.Model

/-! # What a well-formed memory layout is -/
namespace Verif.MemLayout.Spec

/-- `a` is 0 (no data) or a power of two. -/
def Alignment (a : Nat) : Prop := a = 0 ∨ ∃ k, a = 2 ^ k

/-- The parts `es` (offset, layout) lie in a block of `size` bytes aligned to `align`: each part is at a multiple of its alignment — also
absolutely, the alignment of the block being a multiple of it —, parts do not overlap, and all lie within the block. -/
structure Placed (size align : Nat) (es : List (Nat × Layout)) : Prop where
  aligned : ∀ e ∈ es, e.2.align = 0 ∨ (e.2.align ∣ e.1 ∧ e.2.align ∣ align ∧ align ≠ 0)
  inside : ∀ e ∈ es, e.1 + e.2.size ≤ size
  disjoint : es.Pairwise fun a b => a.1 + a.2.size ≤ b.1

/-- `c` is a part of `l` at offset `o` that has no parts itself. -/
inductive Leaf : Layout → Nat → Layout → Prop
  | self {l} : l.composite = none → Leaf l 0 l
  | elem {l es cs o e p c} : l.composite = some (es, cs) → (o, e) ∈ es → Leaf e p c → Leaf l (o + p) c

/-- Well-formed layouts. -/
inductive Wf : Layout → Prop
  | mk {l : Layout} : Alignment l.align → (l.align = 0 → l.size = 0) → (l.align ∣ l.size) →
      (l.cls = .void ↔ l.size = 0) → (16 < l.size → l.cls = .memory) →
      (∀ es cs, l.composite = some (es, cs) →
        Placed l.size l.align es ∧ Placed l.size l.align cs ∧ ∀ o c, (o, c) ∈ cs ↔ Leaf l o c) →
      (∀ es cs, l.composite = some (es, cs) → ∀ e ∈ es, Wf e.2) →
      Wf l

/-- `y` is the least multiple of `a` that is not below `x` (`x` itself when there is no alignment). -/
def LeastMultiple (a x y : Nat) : Prop :=
  (a = 0 → y = x) ∧ (a ≠ 0 → x ≤ y ∧ a ∣ y ∧ ∀ z, x ≤ z → a ∣ z → y ≤ z)

/-- Fields placed as C places them: each at the first suitable offset after its predecessor. -/
inductive CPlaced : Nat → List (Nat × Layout) → Nat → Prop
  | nil {o} : CPlaced o [] o
  | cons {o p l es e} : LeastMultiple l.align o p → CPlaced (p + l.size) es e → CPlaced o ((p, l) :: es) e

/-- A layout is that of a C structure with the given fields. -/
structure CStruct (fields : List Layout) (l : Layout) (es : List (Nat × Layout)) : Prop where
  elems : es.map Prod.snd = fields
  placed : ∃ e, CPlaced 0 es e ∧ LeastMultiple l.align e l.size
  bound : ∀ f ∈ fields, f.align ≤ l.align
  least : l.align = 0 ∨ ∃ f ∈ fields, f.align = l.align

/-- The layout a type should have: known before (`base`), or that of its definition, structurally. -/
inductive HasLayout (base : Layouts) (defs : Defs) : Ct → Layout → Prop
  | prim {t l} : (∀ n, t ≠ .id n) → Layouts.getCt [] t = some l → HasLayout base defs t l
  | known {n l} : Verif.HMap.get base n = some (some l) → HasLayout base defs (.id n) l
  | struct {n ts ls} : Verif.HMap.get base n = none → Verif.HMap.get defs n = some (.struct ts) → ts.length = ls.length →
      (∀ p ∈ ts.zip ls, HasLayout base defs p.1 p.2) → HasLayout base defs (.id n) (Layout.product ls)
  | union {n ts ls} : Verif.HMap.get base n = none → Verif.HMap.get defs n = some (.union ts) → ts.length = ls.length →
      (∀ p ∈ ts.zip ls, HasLayout base defs p.1 p.2) → HasLayout base defs (.id n) (Layout.sum ls)

/-- `n` contains a value of type `m` directly. -/
def Contains (base : Layouts) (defs : Defs) (n m : Nat) : Prop :=
  Verif.HMap.get base n = none ∧ ∃ ts, (Verif.HMap.get defs n = some (.struct ts) ∨ Verif.HMap.get defs n = some (.union ts)) ∧ Ct.id m ∈ ts

/-- `m` is contained in `n` through one or more steps. -/
inductive ContainsTrans (base : Layouts) (defs : Defs) : Nat → Nat → Prop
  | one {n m} : Contains base defs n m → ContainsTrans base defs n m
  | step {n m k} : Contains base defs n m → ContainsTrans base defs m k → ContainsTrans base defs n k

end Verif.MemLayout.Spec
