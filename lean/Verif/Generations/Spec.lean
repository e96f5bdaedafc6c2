import Verif.Mono.Spec

/-!
# What the backend has to be given

Definitions are handed to the backend in portions, one for every expression that is compiled.
This file says when the portions given so far are right: no definition is given twice, none is
missing, none is superfluous.  It also says which programs have kinds that fit; the translator
makes only such programs (kinds are inferred and checked before, `Verif.KindInfer`).
-/

namespace Verif.Generations

open Verif.Mono

/-- The kinds of compile-time expressions: types, functions and constructors of the run time,
tables of class instances, and generic definitions. -/
inductive Kd where
  | type
  | value
  | table
  | fn (args : List Kd) (ret : Kd)

/-- Types and run-time values, the two kinds of expressions that may occur in finished code. -/
def Kd.Ground (k : Kd) : Prop := k = .type ∨ k = .value

mutual
/-- `HasKind K E t k`: the expression `t` has the kind `k`, where `K` gives the kinds of
identifiers and `E` the kinds of the entries of tables. -/
inductive HasKind (K E : Nat → Kd) : Ct → Kd → Prop
  | id {c} : HasKind K E (.id c) (K c)
  | inst {f as ks k} : HasKind K E f (.fn ks k) → HasKinds K E as ks → HasKind K E (.inst f as) k
  | get {t k} : HasKind K E t .table → HasKind K E (.get t k) (E k)
  | ptr {t} : HasKind K E t .type → HasKind K E (.ptr t) .type
  | clos {as ks t} : HasKinds K E as ks → (∀ k ∈ ks, k = .type) → HasKind K E t .type →
      HasKind K E (.clos as t) .type
  | array {t} : HasKind K E t .type → HasKind K E (.array t) .type
  | syntax {t} : HasKind K E t .type → HasKind K E (.syntax t) .type
  | prim {p} : HasKind K E (.prim p) .type

inductive HasKinds (K E : Nat → Kd) : List Ct → List Kd → Prop
  | nil : HasKinds K E [] []
  | cons {a as k ks} : HasKind K E a k → HasKinds K E as ks → HasKinds K E (a :: as) (k :: ks)
end

/-- The kind of a definition. -/
inductive DefKind (K E : Nat → Kd) : Def → Kd → Prop
  | alias {t k} : HasKind K E t k → DefKind K E (.alias t) k
  | table {m} : (∀ e ∈ m, HasKind K E e.2 (E e.1)) → DefKind K E (.table m) .table
  | generic {ps d k} : DefKind K E d k → DefKind K E (.generic ps d) (.fn (ps.map K) k)
  | data {cs} : (∀ l ∈ cs, ∀ t ∈ l, HasKind K E t .type) → DefKind K E (.data cs) .type
  | struct {ts} : (∀ t ∈ ts, HasKind K E t .type) → DefKind K E (.struct ts) .type
  | union {ts} : (∀ t ∈ ts, HasKind K E t .type) → DefKind K E (.union ts) .type
  | function {ts} : (∀ t ∈ ts, HasKind K E t .type ∨ HasKind K E t .value) →
      DefKind K E (.function ts) .value

/-- Every definition has the kind of its identifier. -/
def Kinded (Δ : Nat → Option Def) (K E : Nat → Kd) : Prop :=
  ∀ c d, Δ c = some d → DefKind K E d (K c)

/-- The identifier has a definition among `H`, or stands for something that has no definition
(for example a parameter of a function, or an external type). -/
def Known (Δ : Nat → Option Def) (keys : List ((Nat × List Ct) × Nat)) (H : List (Nat × Def))
    (c : Nat) : Prop :=
  (∃ d, (c, d) ∈ H) ∨ DefOf Δ (meaning keys c) = none

/-- The definitions `H` are what is needed for the compiled expressions `rs`. -/
structure Complete (Δ : Nat → Option Def) (keys : List ((Nat × List Ct) × Nat))
    (rs : List Ct) (H : List (Nat × Def)) : Prop where
  /-- No identifier is defined twice. -/
  once : (H.map (·.1)).Nodup
  /-- Nothing is defined under two identifiers. -/
  inj : ∀ a ∈ H, ∀ b ∈ H, meaning keys a.1 = meaning keys b.1 → a.1 = b.1
  /-- The definitions are evaluated ones of types and functions. -/
  right : ∀ a ∈ H, ∃ D, DefOf Δ (meaning keys a.1) = some D ∧ ¬ D.IsGeneric ∧
    (∀ x, D ≠ .alias x) ∧ (∀ m, D ≠ .table m) ∧
    DefEval Δ (fun _ => True) D (a.2.map (Ct.bind (meaning keys)))
  /-- What a definition mentions is defined. -/
  closed : ∀ a ∈ H, ∀ t ∈ a.2.terms, t.Normal (Known Δ keys H)
  /-- What the expressions mention is defined. -/
  results : ∀ t ∈ rs, t.Normal (Known Δ keys H)
  /-- Only what the expressions, or definitions needed for them, mention is defined. -/
  needed : ∀ P : Nat → Prop, (∀ t ∈ rs, t.All P) →
    (∀ a ∈ H, P a.1 → ∀ t ∈ a.2.terms, t.All P) → ∀ a ∈ H, P a.1

end Verif.Generations
