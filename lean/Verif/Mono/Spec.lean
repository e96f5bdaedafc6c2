import Mathlib.Data.List.Basic

/-!
# What compile-time expressions of the intermediate language mean

The intermediate language has a small language of compile-time expressions (`Ct`,
llrl0/src/lowering/ir/ct.rs:31-48): types, instances of generic definitions and entries of the
tables that class instances are translated to.  This file says what such an expression stands
for, given the definitions that the translator made.  Nothing here is shared with the model of
the normalizer: there are no new identifiers, no phases, and no state.

An expression is evaluated by unfolding aliases, looking up tables, and substituting arguments
for parameters.  What is left is a *value*: a type built from identifiers, and instances of
generic definitions that are neither aliases nor generic.
-/

namespace Verif.Mono

/-- The types without parts (llrl0/src/lowering/ir/ct.rs:37-46). -/
inductive Prim where
  | s (bits : Nat)
  | u (bits : Nat)
  | f32
  | f64
  | string
  | char
  | capturedUse
  | unit
  | env
deriving DecidableEq, Repr

/-- `Ct` (llrl0/src/lowering/ir/ct.rs:31-48). -/
inductive Ct where
  | id (c : Nat)
  | inst (f : Ct) (args : List Ct)
  | get (t : Ct) (k : Nat)
  | ptr (t : Ct)
  | clos (args : List Ct) (ret : Ct)
  | array (t : Ct)
  | syntax (t : Ct)
  | prim (p : Prim)

/-- `Def` (llrl0/src/lowering/ir/def.rs:6-14).  Of a function only the compile-time expressions
that occur in it are kept, in the order in which they are rewritten (environment, parameters,
result, body); the representation of data types and structs is left out. -/
inductive Def where
  | alias (t : Ct)
  | table (m : List (Nat × Ct))
  | generic (ps : List Nat) (d : Def)
  | data (cons : List (List Ct))
  | struct (fields : List Ct)
  | union (tys : List Ct)
  | function (cts : List Ct)

mutual
/-- `t` with every identifier replaced by what `f` says. -/
def Ct.bind (f : Nat → Ct) : Ct → Ct
  | .id c => f c
  | .inst t args => .inst (t.bind f) (Ct.binds f args)
  | .get t k => .get (t.bind f) k
  | .ptr t => .ptr (t.bind f)
  | .clos args ret => .clos (Ct.binds f args) (ret.bind f)
  | .array t => .array (t.bind f)
  | .syntax t => .syntax (t.bind f)
  | .prim p => .prim p

def Ct.binds (f : Nat → Ct) : List Ct → List Ct
  | [] => []
  | t :: ts => t.bind f :: Ct.binds f ts
end

mutual
/-- Every identifier of `t`, except for keys of tables, has the property. -/
def Ct.All (P : Nat → Prop) : Ct → Prop
  | .id c => P c
  | .inst t args => t.All P ∧ Ct.Alls P args
  | .get t _ => t.All P
  | .ptr t => t.All P
  | .clos args ret => Ct.Alls P args ∧ ret.All P
  | .array t => t.All P
  | .syntax t => t.All P
  | .prim _ => True

def Ct.Alls (P : Nat → Prop) : List Ct → Prop
  | [] => True
  | t :: ts => t.All P ∧ Ct.Alls P ts
end

/-- The compile-time expressions of a definition. -/
def Def.terms : Def → List Ct
  | .alias t => [t]
  | .table m => m.map (·.2)
  | .generic _ d => d.terms
  | .data cons => cons.flatten
  | .struct fields => fields
  | .union tys => tys
  | .function cts => cts

/-- A definition with each of its expressions changed. -/
def Def.map (f : Ct → Ct) : Def → Def
  | .alias t => .alias (f t)
  | .table m => .table (m.map fun e => (e.1, f e.2))
  | .generic ps d => .generic ps (d.map f)
  | .data cons => .data (cons.map (·.map f))
  | .struct fields => .struct (fields.map f)
  | .union tys => .union (tys.map f)
  | .function cts => .function (cts.map f)

def Def.IsGeneric : Def → Prop
  | .generic _ _ => True
  | _ => False

/-- The substitution of `vs` for the parameters `ps`. -/
def assign (ps : List Nat) (vs : List Ct) (p : Nat) : Ct :=
  ((ps.zip vs).lookup p).getD (.id p)

/-- What a reference - an identifier, or a generic definition with its arguments - is defined
as. -/
def DefOf (Δ : Nat → Option Def) : Ct → Option Def
  | .id c => Δ c
  | .inst (.id g) vs =>
    match Δ g with
    | some (.generic ps d) =>
      if ps.length = vs.length then some (d.map (Ct.bind (assign ps vs))) else none
    | _ => none
  | _ => none

mutual
/-- `Eval Δ U t v`: `t` evaluates to `v`, and all references that are unfolded or left over on
the way are in `U`. -/
inductive Eval (Δ : Nat → Option Def) (U : Ct → Prop) : Ct → Ct → Prop
  | idAlias {c x v} : U (.id c) → Δ c = some (.alias x) → Eval Δ U x v → Eval Δ U (.id c) v
  | idSelf {c} : U (.id c) → (∀ x, Δ c ≠ some (.alias x)) → Eval Δ U (.id c) (.id c)
  | instAlias {f g as vs x v} : Eval Δ U f (.id g) → Evals Δ U as vs → U (.inst (.id g) vs) →
      DefOf Δ (.inst (.id g) vs) = some (.alias x) → Eval Δ U x v → Eval Δ U (.inst f as) v
  | instSelf {f g as vs d} : Eval Δ U f (.id g) → Evals Δ U as vs → U (.inst (.id g) vs) →
      DefOf Δ (.inst (.id g) vs) = some d → (∀ x, d ≠ .alias x) →
      Eval Δ U (.inst f as) (.inst (.id g) vs)
  | get {t k r m x v} : Eval Δ U t r → DefOf Δ r = some (.table m) → m.lookup k = some x →
      Eval Δ U x v → Eval Δ U (.get t k) v
  | ptr {t v} : Eval Δ U t v → Eval Δ U (.ptr t) (.ptr v)
  | clos {as vs t v} : Evals Δ U as vs → Eval Δ U t v → Eval Δ U (.clos as t) (.clos vs v)
  | array {t v} : Eval Δ U t v → Eval Δ U (.array t) (.array v)
  | syntax {t v} : Eval Δ U t v → Eval Δ U (.syntax t) (.syntax v)
  | prim {p} : Eval Δ U (.prim p) (.prim p)

inductive Evals (Δ : Nat → Option Def) (U : Ct → Prop) : List Ct → List Ct → Prop
  | nil : Evals Δ U [] []
  | cons {a as v vs} : Eval Δ U a v → Evals Δ U as vs → Evals Δ U (a :: as) (v :: vs)
end

/-- Two definitions of the same form, the expressions of the first evaluating to those of the
second. -/
inductive DefEval (Δ : Nat → Option Def) (U : Ct → Prop) : Def → Def → Prop
  | alias {t v} : Eval Δ U t v → DefEval Δ U (.alias t) (.alias v)
  | table {m m'} : List.Forall₂ (fun a b : Nat × Ct => a.1 = b.1 ∧ Eval Δ U a.2 b.2) m m' →
      DefEval Δ U (.table m) (.table m')
  | data {cs cs'} : List.Forall₂ (Evals Δ U) cs cs' → DefEval Δ U (.data cs) (.data cs')
  | struct {as vs} : Evals Δ U as vs → DefEval Δ U (.struct as) (.struct vs)
  | union {as vs} : Evals Δ U as vs → DefEval Δ U (.union as) (.union vs)
  | function {as vs} : Evals Δ U as vs → DefEval Δ U (.function as) (.function vs)

/-- The definitions are in order: the identifiers below `n` are in use, the parameters `pm` of
generic definitions are identifiers without definition, a definition mentions no parameters but
its own, and generic definitions are not nested. -/
structure Tidy (Δ : Nat → Option Def) (pm : Nat → Prop) (n : Nat) : Prop where
  dom : ∀ c d, Δ c = some d → c < n
  param : ∀ p, pm p → p < n ∧ Δ p = none
  plain : ∀ c d, Δ c = some d → ¬ d.IsGeneric →
    ∀ t ∈ d.terms, t.All fun i => i < n ∧ ¬ pm i
  generic : ∀ c ps d, Δ c = some (.generic ps d) → ¬ d.IsGeneric ∧ ps.Nodup ∧
    (∀ p ∈ ps, pm p) ∧ ∀ t ∈ d.terms, t.All fun i => i < n ∧ (pm i → i ∈ ps)

mutual
/-- No instances and no table entries are left, and all identifiers have the property. -/
def Ct.Normal (P : Nat → Prop) : Ct → Prop
  | .id c => P c
  | .inst _ _ => False
  | .get _ _ => False
  | .ptr t => t.Normal P
  | .clos args ret => Ct.Normals P args ∧ ret.Normal P
  | .array t => t.Normal P
  | .syntax t => t.Normal P
  | .prim _ => True

def Ct.Normals (P : Nat → Prop) : List Ct → Prop
  | [] => True
  | t :: ts => t.Normal P ∧ Ct.Normals P ts
end

/-- What an identifier stands for, given which identifiers were made for which instances, the
latest first. -/
def meaning : List ((Nat × List Ct) × Nat) → Nat → Ct
  | [], c => .id c
  | ((g, as), c') :: ks, c =>
    if c = c' then .inst (.id g) (Ct.binds (meaning ks) as) else meaning ks c

/-- `defs` is a set of definitions without generics that is right for the definitions `Δ`, as
far as the identifiers in `F` go: different identifiers mean different things, an identifier is
defined if and only if what it means is, no identifier is an alias, and its definition is the
evaluated definition of what it means and mentions only identifiers in `F`.  (A generic
definition may be mentioned as an argument, when it stands for a type constructor.) -/
structure Monomorphic (Δ : Nat → Option Def) (keys : List ((Nat × List Ct) × Nat))
    (defs : Nat → Option Def) (F : Nat → Prop) : Prop where
  inj : ∀ c c', F c → F c' → meaning keys c = meaning keys c' → c = c'
  undef : ∀ c, F c → defs c = none → DefOf Δ (meaning keys c) = none
  defd : ∀ c d, F c → defs c = some d → ∃ D, DefOf Δ (meaning keys c) = some D ∧
    (∀ x, D ≠ .alias x) ∧
    (D.IsGeneric ∧ d = D ∨
      DefEval Δ (fun _ => True) D (d.map (Ct.bind (meaning keys))) ∧ ∀ t ∈ d.terms, t.Normal F)

/-- Everything that `U` contains is defined by expressions which evaluate inside `U`. -/
def Within (Δ : Nat → Option Def) (U : Ct → Prop) : Prop :=
  ∀ r d, U r → DefOf Δ r = some d → ¬ d.IsGeneric → ∀ t ∈ d.terms, ∃ v, Eval Δ U t v

end Verif.Mono
