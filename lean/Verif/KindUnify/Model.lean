import Verif.Unify.Sem
import Verif.KindUnify.Spec

/-!
# Model of `llrl0/src/unification/kind.rs`

`none` stands for a panic or for a call that did not return with the given fuel.
-/
namespace Verif.KindUnify
open Verif Verif.Unify

/-- `Kind`, kind.rs:9-17.  `func lo hi ret` is `Fun(Vars(lo, hi), Var(ret))` (unification.rs:65-66). -/
inductive Kind
  | var (v : Nat)
  | type
  | constraint
  | satisfaction
  | value
  | mac
  | func (lo hi : Nat) (ret : Nat)
deriving DecidableEq, Repr

/-- `Error`, unification.rs:131-138. -/
inductive Error
  | occursCheckFailed
  | mismatch
deriving DecidableEq, Repr

abbrev Pool := List Kind

/-- `Vars::iter`, unification.rs:88-90. -/
def vars (lo hi : Nat) : List Nat := List.range' lo (hi - lo)

instance : Cell Kind where
  asVar
    | .var v => some v
    | _ => none
  children
    | .func lo hi ret => vars lo hi ++ [ret]
    | _ => []
  children_var := by intro k v h; cases k <;> simp_all

/-- `Context::new`, kind.rs:26-37. -/
def new : Pool := [.type, .constraint, .satisfaction, .value, .mac] ++ List.replicate 16 .type

/-- `new_var` and `alloc_var`, kind.rs:39-43 and 72-74. -/
def newVar (p : Pool) : Kind × Pool := (.var p.length, p ++ [.var p.length])

/-- `alloc_bind`, kind.rs:45-59. -/
def allocBind (k : Kind) (p : Pool) : Nat × Pool :=
  match k with
  | .var v => (v, p)
  | .type => (0, p)
  | .constraint => (1, p)
  | .satisfaction => (2, p)
  | .value => (3, p)
  | .mac => (4, p)
  | k => (p.length, p ++ [k])

/-- `Vars::from_index_count`, unification.rs:69-75. -/
def fromIndexCount (len count : Nat) : Nat × Nat := if count = 0 then (0, 0) else (len, len + count)

/-- `alloc_binds`, kind.rs:61-71. -/
def allocBinds (ks : List Kind) (p : Pool) : (Nat × Nat) × Pool :=
  if ks.length ≤ 16 ∧ ks.all (· == .type) then (fromIndexCount 5 ks.length, p)
  else
    match ks with
    | [k] =>
      let (v, p) := allocBind k p
      (fromIndexCount v 1, p)
    | ks => (fromIndexCount p.length ks.length, p ++ ks)

/-- `KindBuilder::new_fun`, kind.rs:218-226. -/
def newFun (args : List Kind) (ret : Kind) (p : Pool) : Kind × Pool :=
  if args.isEmpty then (ret, p)
  else
    let (as, p) := allocBinds args p
    let (r, p) := allocBind ret p
    (.func as.1 as.2 r, p)

/-- `occurs_check`, kind.rs:127-135. -/
def occursCheck (n : Nat) (k : Kind) (v : Nat) (p : Pool) : Option (Except Unit Unit × Pool) :=
  dfs (fun k _ => if k = .var v then .error () else .ok ()) n k () p

/-- `for (a, b) in a_args.iter().zip(b_args.iter()) { self.unify(a, b)?; }`, kind.rs:95-97. -/
def forEach2 (f : Nat → Nat → Pool → Option (Except Error Unit × Pool)) : List (Nat × Nat) → Pool → Option (Except Error Unit × Pool)
  | [], p => some (.ok (), p)
  | (a, b) :: l, p =>
    match f a b p with
    | none => none
    | some (.error e, p) => some (.error e, p)
    | some (.ok (), p) => forEach2 f l p

/-- The case of an unknown, kind.rs:84-91. -/
def bindVar (n : Nat) (v : Nat) (k : Kind) (p : Pool) : Option (Except Error Unit × Pool) :=
  match occursCheck n k v p with
  | none => none
  | some (.error _, p) => some (.error .occursCheckFailed, p)
  | some (.ok _, p) => some (.ok (), p.set v k)

/-- `unify`, kind.rs:76-102. -/
def unify : Nat → Kind → Kind → Pool → Option (Except Error Unit × Pool)
  | 0, _, _, _ => none
  | n + 1, a, b, p =>
    match resolve n a p with
    | none => none
    | some (a, p) =>
      match resolve n b p with
      | none => none
      | some (b, p) =>
        if a = b then some (.ok (), p)
        else
          match a, b with
          | .var v, k => bindVar n v k p
          | k, .var v => bindVar n v k p
          | .func alo ahi ar, .func blo bhi br =>
            if ahi - alo ≠ bhi - blo then some (.error .mismatch, p)
            else
              match forEach2 (fun a b => unify n (.var a) (.var b)) ((vars alo ahi).zip (vars blo bhi)) p with
              | none => none
              | some (.error e, p) => some (.error e, p)
              | some (.ok (), p) => unify n (.var ar) (.var br) p
          | _, _ => some (.error .mismatch, p)

/-- `default_vars`, kind.rs:137-155. -/
def defaultVars (d : Kind) : Nat → Kind → Pool → Option (Except Error Unit × Pool)
  | 0, _, _ => none
  | n + 1, k, p =>
    match resolve n k p with
    | none => none
    | some (.var v, p) => unify n (.var v) d p
    | some (.func lo hi ret, p) =>
      match forEach (fun c _ => defaultVars d n (.var c)) (vars lo hi) () p with
      | none => none
      | some (.error e, p) => some (.error e, p)
      | some (.ok (), p) => defaultVars d n (.var ret) p
    | some (_, p) => some (.ok (), p)

mutual
/-- `import`, kind.rs:157-171; `none` is the panic on `Kind::Error`. -/
def importKind : AKind → Pool → Option (Kind × Pool)
  | .type, p => some (.type, p)
  | .constraint, p => some (.constraint, p)
  | .satisfaction, p => some (.satisfaction, p)
  | .value, p => some (.value, p)
  | .mac, p => some (.mac, p)
  | .func args ret, p =>
    match importKinds args p with
    | none => none
    | some (args, p) =>
      match importKind ret p with
      | none => none
      | some (ret, p) => some (newFun args ret p)
  | .error _, _ => none
def importKinds : List AKind → Pool → Option (List Kind × Pool)
  | [], p => some ([], p)
  | a :: as, p =>
    match importKind a p with
    | none => none
    | some (a, p) =>
      match importKinds as p with
      | none => none
      | some (as, p) => some (a :: as, p)
end

/-- `args.iter().map(|arg| self.export(arg)).collect()`. -/
def exportAll (f : Nat → Pool → Option (AKind × Pool)) : List Nat → Pool → Option (List AKind × Pool)
  | [], p => some ([], p)
  | c :: cs, p =>
    match f c p with
    | none => none
    | some (a, p) =>
      match exportAll f cs p with
      | none => none
      | some (as, p) => some (a :: as, p)

/-- `ast::Kind::fun`, ast/kind.rs:49-55. -/
def AKind.fun_ (args : List AKind) (ret : AKind) : AKind := if args.isEmpty then ret else .func args ret

/-- `export`, kind.rs:173-193, to `ast::Kind`. -/
def exportKind : Nat → Kind → Pool → Option (AKind × Pool)
  | 0, _, _ => none
  | n + 1, k, p =>
    match resolve n k p with
    | none => none
    | some (.var v, p) => some (.error v, p)
    | some (.type, p) => some (.type, p)
    | some (.constraint, p) => some (.constraint, p)
    | some (.satisfaction, p) => some (.satisfaction, p)
    | some (.value, p) => some (.value, p)
    | some (.mac, p) => some (.mac, p)
    | some (.func lo hi ret, p) =>
      match exportAll (fun c => exportKind n (.var c)) (vars lo hi) p with
      | none => none
      | some (as, p) =>
        match exportKind n (.var ret) p with
        | none => none
        | some (r, p) => some (AKind.fun_ as r, p)

/-! ## Histories

What a user of the context does: kinds are values (`Kind`) obtained from earlier calls. -/

inductive Op
  | newVar
  | con (k : Kind)
  | newFun (args : List Nat) (ret : Nat)
  | importKind (k : AKind)
  | unify (a b : Nat)
  | export (a : Nat)

inductive Out
  | kind
  | unified (r : Except Error Unit)
  | exported (k : AKind)

structure State where
  pool : Pool
  /-- the kinds returned so far -/
  handles : List Kind

def constant : Kind → Bool
  | .type => true
  | .constraint => true
  | .satisfaction => true
  | .value => true
  | .mac => true
  | _ => false

def step (n : Nat) (s : State) : Op → Option (Out × State)
  | .newVar =>
    let (k, p) := newVar s.pool
    some (.kind, ⟨p, s.handles ++ [k]⟩)
  | .con k => if constant k then some (.kind, ⟨s.pool, s.handles ++ [k]⟩) else none
  | .newFun args ret => do
    let as ← args.mapM (s.handles[·]?)
    let r ← s.handles[ret]?
    let (k, p) := newFun as r s.pool
    some (.kind, ⟨p, s.handles ++ [k]⟩)
  | .importKind k => do
    let (k, p) ← importKind k s.pool
    some (.kind, ⟨p, s.handles ++ [k]⟩)
  | .unify a b => do
    let a ← s.handles[a]?
    let b ← s.handles[b]?
    let (r, p) ← unify n a b s.pool
    some (.unified r, ⟨p, s.handles⟩)
  | .export a => do
    let a ← s.handles[a]?
    let (k, p) ← exportKind n a s.pool
    some (.exported k, ⟨p, s.handles⟩)

end Verif.KindUnify
