import Verif.Preprocess.Model

/-!
# Specification: lexically scoped expansion

`ev env s` expands `s` in the environment `env`; environments are passed down, so bindings can never outlive their body.
Only the data types `Sexp` and `Err`, and the syntactic helpers of the model that do not touch variables
(`metavar`, `symbolText`, `forNames`, `forRows`, `cons`) are shared with the model.
-/
namespace Verif.Preprocess.Spec
open Verif.Preprocess

/-- Meaning of the preprocessor variables. -/
abbrev Env := String → Option Sexp

/-- `env` with one more variable; `_` is never bound. -/
def bind1 (env : Env) (name : String) (s : Sexp) : Env :=
  if name = "_" then env else fun n => if n = name then some s else env n

/-- `env` with more variables, in order. -/
def binds (env : Env) (bs : List (String × Sexp)) : Env := bs.foldl (fun env b => bind1 env b.1 b.2) env

abbrev R := Except Err

def one (place : String) (r : R (List Sexp)) : R Sexp := do
  match ← r with
  | [s] => pure s
  | _ => throw (.expansionDisallowed place)

/-- The body expanded once per environment, results appended. -/
def each (body : Env → R (List Sexp)) : List Env → R (List Sexp)
  | [] => pure []
  | env :: envs => do
    let ss ← body env
    let more ← each body envs
    pure (ss ++ more)

variable (features : List String)

mutual

def evSeq : Nat → Env → List Sexp → R (List Sexp)
  | 0, _, _ => throw .outOfFuel
  | _ + 1, _, [] => pure []
  | fuel + 1, env, s :: rest => do
    let a ← ev fuel env s
    let b ← evSeq fuel env rest
    pure (a ++ b)

def evBinds : Nat → Env → List Sexp → R (Option (List (String × Sexp)))
  | 0, _, _ => throw .outOfFuel
  | _ + 1, _, [] => pure (some [])
  | fuel + 1, env, .list [.symbol name, expr] :: rest =>
    if metavar name then do
      let e ← one "$let bind expression" (ev fuel env expr)
      let more ← evBinds fuel env rest
      pure (more.map ((name, e) :: ·))
    else pure none
  | _ + 1, _, _ :: _ => pure none

def ev : Nat → Env → Sexp → R (List Sexp)
  | 0, _, _ => throw .outOfFuel
  | _ + 1, env, .symbol sym =>
    if sym.toList.head? = some '$' then
      match env sym with
      | some s => pure [s]
      | none => throw (.undefinedMetaVariable sym)
    else pure [.symbol sym]
  | fuel + 1, env, .list (.symbol "$symbol" :: args) => do
    match symbolText (← evSeq fuel env args) with
    | none => throw (.directiveSyntax "$symbol")
    | some name => if name = "" then throw .emptySymbol else pure [.symbol name]
  | fuel + 1, env, .list (.symbol "$let" :: args) =>
    match args with
    | .list bs :: body => do
      match ← evBinds fuel env bs with
      | none => throw (.directiveSyntax "$let")
      | some bs => evSeq fuel (binds env bs) body
    | _ => throw (.directiveSyntax "$let")
  | fuel + 1, env, .list (.symbol "$let1" :: args) =>
    match args with
    | .symbol name :: expr :: body =>
      if metavar name then do
        let e ← one "$let1 expression" (ev fuel env expr)
        evSeq fuel (bind1 env name e) body
      else throw (.directiveSyntax "$let1")
    | _ => throw (.directiveSyntax "$let1")
  | fuel + 1, env, .list (.symbol "$for" :: args) =>
    match args with
    | .list names :: elems :: body => do
      match ← one "$for elements" (ev fuel env elems) with
      | .list rows =>
        match forNames names with
        | none => throw (.directiveSyntax "$for")
        | some names =>
          match forRows names.length rows with
          | none => throw (.directiveSyntax "$for")
          | some rows => each (fun env => evSeq fuel env body) (rows.map fun row => binds env (names.zip row))
      | _ => throw (.directiveSyntax "$for")
    | _ => throw (.directiveSyntax "$for")
  | fuel + 1, env, .list (.symbol "$for1" :: args) =>
    match args with
    | .symbol name :: elems :: body =>
      if metavar name then do
        match ← one "$for1 elements" (ev fuel env elems) with
        | .list elems => each (fun env => evSeq fuel env body) (elems.map fun e => bind1 env name e)
        | _ => throw (.directiveSyntax "$for1")
      else throw (.directiveSyntax "$for1")
    | _ => throw (.directiveSyntax "$for1")
  | fuel + 1, env, .list (.symbol "$when" :: args) =>
    match args with
    | cond :: body => do
      match ← one "$when condition" (ev fuel env cond) with
      | .bool b => if b then evSeq fuel env body else pure []
      | _ => throw (.directiveSyntax "$when")
    | _ => throw (.directiveSyntax "$when")
  | fuel + 1, env, .list (.symbol "$not" :: args) =>
    match args with
    | [cond] => do
      match ← one "$not condition" (ev fuel env cond) with
      | .bool b => pure [.bool (!b)]
      | _ => throw (.directiveSyntax "$not")
    | _ => throw (.directiveSyntax "$not")
  | fuel + 1, env, .list (.symbol "$feature" :: args) =>
    match args with
    | [name] => do
      match ← one "$feature string" (ev fuel env name) with
      | .string f => pure [.bool (features.contains f)]
      | _ => throw (.directiveSyntax "$feature")
    | _ => throw (.directiveSyntax "$feature")
  | fuel + 1, env, .list ss =>
    if ss.isEmpty then pure [.list ss] else do pure [.list (← evSeq fuel env ss)]
  | fuel + 1, env, .listLike h m t => do
    let ss ← evSeq fuel env (h :: m)
    let tail ← one "cdr of cons cell" (ev fuel env t)
    pure [ss.foldr cons tail]
  | _ + 1, _, s => pure [s]

end

/-- Names bound by the bind list of a `$let`. -/
def bindNames : List Sexp → List String
  | .list [.symbol name, _] :: rest => name :: bindNames rest
  | _ :: rest => bindNames rest
  | [] => []

/-- Symbols in a list. -/
def symbols : List Sexp → List String
  | .symbol name :: rest => name :: symbols rest
  | _ :: rest => symbols rest
  | [] => []

/-- If the list is a `$let` or `$for` directive, the names it binds are pairwise different (`_` apart). -/
def headOk : List Sexp → Bool
  | .symbol "$let" :: .list bs :: _ => ((bindNames bs).filter (· ≠ "_")).Nodup
  | .symbol "$for" :: .list names :: _ => ((symbols names).filter (· ≠ "_")).Nodup
  | _ => true

mutual
/-- No directive inside `s` binds a name twice. -/
def distinct : Sexp → Bool
  | .list ss => headOk ss && distinctAll ss
  | .listLike h m t => distinct h && distinctAll m && distinct t
  | _ => true
def distinctAll : List Sexp → Bool
  | [] => true
  | s :: ss => distinct s && distinctAll ss
end

end Verif.Preprocess.Spec
