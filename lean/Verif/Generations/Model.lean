import Verif.Mono.Model

/-!
# How definitions are handed to the backend

A model of `Context::populate` (llrl0/src/lowering/context.rs:48-89) and of the collector of the
definitions that are new (`GenerationCollector`, llrl0/src/lowering/context.rs:306-334), on top
of the model of the normalizer.

Simplifications.
* The translator has run for all that is populated, see `Verif.Mono.Model`; in the code it runs
  at the beginning of each `populate`.
* The expansions of data types, which are added to the definitions of a generation
  (llrl0/src/lowering/context.rs:69), and the rewriting that follows (71-74) are left out; they
  have models of their own (`Verif.DataExpander`, `Verif.Branch`, `Verif.Heap2Stack`).
* Recursion is bounded by fuel.
-/

namespace Verif.Generations

open Verif.Mono

/-- `Context` (llrl0/src/lowering/context.rs:10-18) with the generations of the definitions
(`ProcessingDef::generation`, 184-188). -/
structure Ctx where
  st : St
  gen : Nat → Option Nat
  next : Nat

/-- Traversing a list (llrl0/src/lowering/ir/traverser.rs:66-73). -/
def through (f : Ct → List Nat → Option (List Nat)) : List Ct → List Nat → Option (List Nat)
  | [], vs => some vs
  | t :: ts, vs =>
    match f t vs with
    | some vs => through f ts vs
    | none => none

/-- The collector on a compile-time expression: its parts
(llrl0/src/lowering/ir/traverser.rs:75-115), then `after_ct`
(llrl0/src/lowering/context.rs:323-333), which goes through a definition
(llrl0/src/lowering/ir/traverser.rs:117-165) that is in no generation yet and was not met
before. -/
def collect (defs : Nat → Option (Phase × Def)) (gen : Nat → Option Nat) :
    Nat → Ct → List Nat → Option (List Nat)
  | 0, _, _ => none
  | m + 1, .id c, vs =>
    match defs c with
    | some (_, d) =>
      if (gen c).isNone && !vs.contains c then through (collect defs gen m) d.terms (c :: vs)
      else some vs
    | none => some vs
  | m + 1, .inst f as, vs =>
    match collect defs gen m f vs with
    | some vs => through (collect defs gen m) as vs
    | none => none
  | m + 1, .get t _, vs => collect defs gen m t vs
  | m + 1, .ptr t, vs => collect defs gen m t vs
  | m + 1, .clos as t, vs =>
    match through (collect defs gen m) as vs with
    | some vs => collect defs gen m t vs
    | none => none
  | m + 1, .array t, vs => collect defs gen m t vs
  | m + 1, .syntax t, vs => collect defs gen m t vs
  | _ + 1, .prim _, vs => some vs

/-- The definitions with the given identifiers, in the order of `BTreeSet`. -/
def gather (s : St) (vs : List Nat) : List (Nat × Phase × Def) :=
  ((List.range s.next).filter (vs.contains ·)).filterMap fun c =>
    (s.defs c).map fun e => (c, e.1, e.2)

/-- `is_populated` (llrl0/src/lowering/context.rs:190-196) of a definition with a generation. -/
def isPopulated : Phase × Def → Bool
  | (.normalized, .data _) => false
  | (.normalized, _) => true
  | _ => false

/-- The result of `populate`: the compiled expressions; the definitions of the generation; those
among them that are given to the backend (`related_defs`); and the new context. -/
structure Portion where
  dest : List Ct
  made : List (Nat × Phase × Def)
  related : List (Nat × Def)
  ctx : Ctx

/-- `populate` (llrl0/src/lowering/context.rs:48-89). -/
def populate (n m : Nat) (ts : List Ct) (x : Ctx) : Option Portion :=
  match each (norm n) ts x.st with
  | .ok rs s =>
    match through (collect s.defs x.gen m) rs [] with
    | some vs =>
      let made := gather s vs
      some
        { dest := rs
          made := made
          related := (made.filter fun a => isPopulated a.2).map fun a => (a.1, a.2.2)
          ctx :=
            { st := s
              gen := fun c => if vs.contains c then some x.next else x.gen c
              next := x.next + 1 } }
    | none => none
  | _ => none

/-- The context with the translator's definitions, none of them in a generation
(llrl0/src/lowering/context.rs:22-32 and 103). -/
def begin (Δ : Nat → Option Def) (n : Nat) : Ctx :=
  { st := start Δ n, gen := fun _ => none, next := 0 }

/-- `Runs Δ n0 ts rs H B x`: beginning with the definitions `Δ`, the expressions `ts` have been
populated, in any number of calls; the results are `rs`, the definitions of all generations are
`H`, those given to the backend `B`, and the context is now `x`. -/
inductive Runs (Δ : Nat → Option Def) (n0 : Nat) :
    List Ct → List Ct → List (Nat × Phase × Def) → List (Nat × Def) → Ctx → Prop
  | nil : Runs Δ n0 [] [] [] [] (begin Δ n0)
  | step {ts rs H B x n m us p} : Runs Δ n0 ts rs H B x → populate n m us x = some p →
      Runs Δ n0 (ts ++ us) (rs ++ p.dest) (H ++ p.made) (B ++ p.related) p.ctx

end Verif.Generations
