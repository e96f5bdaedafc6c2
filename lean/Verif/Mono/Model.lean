import Verif.Mono.Spec

/-!
# The normalizer's evaluation of compile-time expressions

A model of how `lowering/normalizer.rs` rewrites compile-time expressions (`after_ct`) and of the
part of `lowering/context.rs` that it uses (`bind_ct`, `instantiate`, `get_processing_def`).

Simplifications.
* A function is the list of its compile-time expressions (see `Def`).  Local functions are taken
  to be lifted to definitions already, and transparent functions to be inlined already: these
  two steps of the normalizer have their own models (`Verif.Closure`, `Verif.Inline`).
* The keys of constructs in `ct_mapping` are left out: the translator has run, and its
  definitions are what the state starts with.
* The recursion of the code is unbounded; here it is bounded by fuel, and running out of fuel is
  a result of its own (`Res.more`).
* `HashMap<CtKey, CtId>` is an association list, `HashMap<CtId, _>` a function.
* Identifiers are natural numbers; the code has 32 bits for them.
-/

namespace Verif.Mono

/-- `Phase` (llrl0/src/lowering/context.rs:199-204). -/
inductive Phase where
  | generalized
  | instantiated
  | normalizing
  | normalized
deriving DecidableEq, Repr

/-- The fields of `Context` that matter here (llrl0/src/lowering/context.rs:10-18): `ct_id_gen`,
the `CtKey::Inst` entries of `ct_mapping`, and `defs` (without the generations). -/
structure St where
  next : Nat
  keys : List ((Nat × List Ct) × Nat)
  defs : Nat → Option (Phase × Def)

/-- How a computation ends: with a result, with a panic, or not within the fuel. -/
inductive Res (α : Type) where
  | ok (a : α) (s : St)
  | panic
  | more

/-- Computations on the context. -/
def M (α : Type) : Type := St → Res α

def M.pure {α} (a : α) : M α := fun s => .ok a s

def M.bind {α β} (m : M α) (f : α → M β) : M β := fun s =>
  match m s with
  | .ok a s' => f a s'
  | .panic => .panic
  | .more => .more

instance : Monad M where
  pure := M.pure
  bind := M.bind

mutual
/-- The derived `PartialEq` of `Ct` (llrl0/src/lowering/ir/ct.rs:30). -/
def Ct.same : Ct → Ct → Bool
  | .id a, .id b => a == b
  | .inst f as, .inst g bs => f.same g && Ct.sames as bs
  | .get a k, .get b l => a.same b && k == l
  | .ptr a, .ptr b => a.same b
  | .clos as a, .clos bs b => Ct.sames as bs && a.same b
  | .array a, .array b => a.same b
  | .syntax a, .syntax b => a.same b
  | .prim p, .prim q => p == q
  | _, _ => false

def Ct.sames : List Ct → List Ct → Bool
  | [], [] => true
  | a :: as, b :: bs => a.same b && Ct.sames as bs
  | _, _ => false
end

mutual
/-- `replace_ct` on a `Ct` (llrl0/src/lowering/ir/rewriter.rs:512-527 with 79-119): identifiers
in the map are replaced, after their parts. -/
def replaceCt (map : List (Nat × Ct)) : Ct → Ct
  | .id c => (map.lookup c).getD (.id c)
  | .inst f as => .inst (replaceCt map f) (replaceCts map as)
  | .get t k => .get (replaceCt map t) k
  | .ptr t => .ptr (replaceCt map t)
  | .clos as t => .clos (replaceCts map as) (replaceCt map t)
  | .array t => .array (replaceCt map t)
  | .syntax t => .syntax (replaceCt map t)
  | .prim p => .prim p

def replaceCts (map : List (Nat × Ct)) : List Ct → List Ct
  | [] => []
  | t :: ts => replaceCt map t :: replaceCts map ts
end

/-- `replace_ct` on a `Def` (llrl0/src/lowering/ir/rewriter.rs:512-527 with 121-169). -/
def replaceDef (map : List (Nat × Ct)) : Def → Def
  | .alias t => .alias (replaceCt map t)
  | .table m => .table (m.map fun e => (e.1, replaceCt map e.2))
  | .generic ps d => .generic ps (replaceDef map d)
  | .data cons => .data (cons.map (replaceCts map))
  | .struct fields => .struct (replaceCts map fields)
  | .union tys => .union (replaceCts map tys)
  | .function cts => .function (replaceCts map cts)

/-- The phase in which a definition starts (llrl0/src/lowering/context.rs:98-101 and 160-163). -/
def startPhase : Def → Phase
  | .generic _ _ => .generalized
  | _ => .instantiated

/-- `ct_mapping.entry(CtKey::Inst(g, args))` (llrl0/src/lowering/context.rs:92). -/
def findKey (g : Nat) (args : List Ct) : List ((Nat × List Ct) × Nat) → Option Nat
  | [] => none
  | ((h, bs), c) :: ks => if h == g && Ct.sames bs args then some c else findKey g args ks

/-- `instantiate` (llrl0/src/lowering/context.rs:112-131) with `bind_ct` (91-108): the identifier
of an instance that is there already, or a new one.  The parameters are collected into a map;
of parameters that occur twice the last counts. -/
def instantiate (g : Nat) (args : List Ct) : M Nat := fun s =>
  match findKey g args s.keys with
  | some c => .ok c s
  | none =>
    match s.defs g with
    | some (_, .generic ps d) =>
      if ps.length = args.length then
        let d' := replaceDef (ps.zip args).reverse d
        .ok s.next
          { next := s.next + 1
            keys := ((g, args), s.next) :: s.keys
            defs := Function.update s.defs s.next (some (startPhase d', d')) }
      else .panic
    | _ => .panic

/-- Rewriting a list (`Vec`, llrl0/src/lowering/ir/rewriter.rs:70-77). -/
def each (f : Ct → M Ct) : List Ct → M (List Ct)
  | [] => pure []
  | t :: ts => do
    let t ← f t
    let ts ← each f ts
    pure (t :: ts)

/-- Rewriting a list of lists. -/
def eachList (f : Ct → M Ct) : List (List Ct) → M (List (List Ct))
  | [] => pure []
  | t :: ts => do
    let t ← each f t
    let ts ← eachList f ts
    pure (t :: ts)

/-- Rewriting a table (llrl0/src/lowering/ir/rewriter.rs:135-142). -/
def eachEntry (f : Ct → M Ct) : List (Nat × Ct) → M (List (Nat × Ct))
  | [] => pure []
  | (k, t) :: ts => do
    let t ← f t
    let ts ← eachEntry f ts
    pure ((k, t) :: ts)

/-- Rewriting a definition (llrl0/src/lowering/ir/rewriter.rs:121-169). -/
def rewriteDef (f : Ct → M Ct) : Def → M Def
  | .alias t => do pure (.alias (← f t))
  | .table m => do pure (.table (← eachEntry f m))
  | .generic ps d => do pure (.generic ps (← rewriteDef f d))
  | .data cons => do pure (.data (← eachList f cons))
  | .struct fields => do pure (.struct (← each f fields))
  | .union tys => do pure (.union (← each f tys))
  | .function cts => do pure (.function (← each f cts))

def setDef (c : Nat) (ph : Phase) (d : Def) : M Unit := fun s =>
  .ok () { s with defs := Function.update s.defs c (some (ph, d)) }

/-- `get_processing_def` (llrl0/src/lowering/context.rs:133-153): the definition of an identifier,
if it has one, and whether it is normalized; an instantiated definition is normalized first.
`f` is the normalizer on expressions. -/
def getDef (f : Ct → M Ct) (c : Nat) : M (Option (Bool × Def)) := fun s =>
  match s.defs c with
  | none => .ok none s
  | some (.generalized, d) => .ok (some (false, d)) s
  | some (.instantiated, d) =>
    (do
      setDef c .normalizing d
      let d' ← rewriteDef f d
      setDef c .normalized d'
      pure (some (true, d')) : M _) s
  | some (.normalizing, d) => .ok (some (false, d)) s
  | some (.normalized, d) => .ok (some (true, d)) s

def panicM {α} : M α := fun _ => .panic

/-- The normalizer on a compile-time expression: its parts
(llrl0/src/lowering/ir/rewriter.rs:79-119), then `after_ct`
(llrl0/src/lowering/normalizer.rs:46-87). -/
def norm : Nat → Ct → M Ct
  | 0, _ => fun _ => .more
  | n + 1, .id c => do
    match ← getDef (norm n) c with
    | some (done, .alias x) => if done then pure x else norm n x
    | _ => pure (.id c)
  | n + 1, .inst f args => do
    let f ← norm n f
    let args ← each (norm n) args
    match f with
    | .id g => do
      let c ← instantiate g args
      norm n (.id c)
    | _ => panicM
  | n + 1, .get t k => do
    let t ← norm n t
    match t with
    | .id c =>
      match ← getDef (norm n) c with
      | some (done, .table m) =>
        match m.lookup k with
        | some x => if done then pure x else norm n x
        | none => panicM
      | _ => panicM
    | _ => panicM
  | n + 1, .ptr t => do pure (.ptr (← norm n t))
  | n + 1, .clos args ret => do
    let args ← each (norm n) args
    let ret ← norm n ret
    pure (.clos args ret)
  | n + 1, .array t => do pure (.array (← norm n t))
  | n + 1, .syntax t => do pure (.syntax (← norm n t))
  | _ + 1, .prim p => pure (.prim p)

/-- The context that the translator leaves behind: its definitions, and no instances
(llrl0/src/lowering/context.rs:22-32 and 91-108). -/
def start (Δ : Nat → Option Def) (n : Nat) : St :=
  { next := n, keys := [], defs := fun c => (Δ c).map fun d => (startPhase d, d) }

end Verif.Mono
