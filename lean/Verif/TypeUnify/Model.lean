import Verif.Unify.Sem
import Verif.TypeUnify.Spec

/-!
# Model of `llrl0/src/unification/types.rs`

`none` stands for a panic or for a call that did not return with the given fuel.  Interned kinds (`KindId`) are the type `Kd`; the
kind environment with its caches (types.rs:35-38, 108-118, 127-134) is the function `Env.con`/`Env.gen`: the code resolves the kind of a
constructor or parameter once and keeps it.
-/
namespace Verif.TypeUnify
open Verif Verif.Unify

variable {Kd : Type}

/-- `Type`, types.rs:16-22.  `app callee lo hi` is `App(Var(callee), Vars(lo, hi))`. -/
inductive Ty (Kd : Type)
  | var (v : Nat) (k : Kd) (lv : Nat)
  | con (c : Nat)
  | app (callee : Nat) (lo hi : Nat)
  | gen (g : Nat) (lv : Nat)
deriving DecidableEq

/-- `Error`, unification.rs:131-138. -/
inductive Error
  | occursCheckFailed
  | mismatch
deriving DecidableEq

abbrev Pool (Kd : Type) := List (Ty Kd)

/-- `Vars::iter`, unification.rs:88-90. -/
def vars (lo hi : Nat) : List Nat := List.range' lo (hi - lo)

instance : Cell (Ty Kd) where
  asVar
    | .var v _ _ => some v
    | _ => none
  children
    | .app callee lo hi => callee :: vars lo hi
    | _ => []
  children_var := by intro k v h; cases k <;> simp_all

variable (env : Env Kd)

/-- A `Var` where the code passes a `Var`: `resolve` only looks at the index (types.rs:421-441). -/
def ref (v : Nat) : Ty Kd := .var v env.type 0

/-- `new_var` and `alloc_var`, types.rs:55-59 and 82-85. -/
def newVar (k : Kd) (lv : Nat) (p : Pool Kd) : Ty Kd × Pool Kd := (.var p.length k lv, p ++ [.var p.length k lv])

/-- `alloc_bind`, types.rs:61-70. -/
def allocBind (t : Ty Kd) (p : Pool Kd) : Nat × Pool Kd :=
  match t with
  | .var v _ _ => (v, p)
  | t => (p.length, p ++ [t])

/-- `Vars::from_index_count`, unification.rs:69-75. -/
def fromIndexCount (len count : Nat) : Nat × Nat := if count = 0 then (0, 0) else (len, len + count)

/-- `alloc_binds`, types.rs:72-80. -/
def allocBinds (ts : List (Ty Kd)) (p : Pool Kd) : (Nat × Nat) × Pool Kd :=
  match ts with
  | [t] =>
    let (v, p) := allocBind t p
    (fromIndexCount v 1, p)
  | ts => (fromIndexCount p.length ts.length, p ++ ts)

/-- `TypeBuilder::new_app`, types.rs:398-406. -/
def newApp (callee : Ty Kd) (args : List (Ty Kd)) (p : Pool Kd) : Ty Kd × Pool Kd :=
  if args.isEmpty then (callee, p)
  else
    let (c, p) := allocBind callee p
    let (as, p) := allocBinds args p
    (.app c as.1 as.2, p)

/-- `get_kind_id`, types.rs:104-137; `none` is also the panic "Kind mismatch". -/
def getKind : Nat → Ty Kd → Pool Kd → Option (Kd × Pool Kd)
  | 0, _, _ => none
  | n + 1, t, p =>
    match resolve n t p with
    | none => none
    | some (.var _ k _, p) => some (k, p)
    | some (.con c, p) => some (env.con c, p)
    | some (.app callee _ _, p) =>
      match getKind n (ref env callee) p with
      | none => none
      | some (k, p) =>
        match env.ret k with
        | none => none
        | some k => some (k, p)
    | some (.gen g _, p) => some (env.gen g, p)

/-- The closure of `occurs_check`, types.rs:356-359. -/
def isVar (v : Nat) : Ty Kd → Bool
  | .var w _ _ => w == v
  | _ => false

/-- `occurs_check`, types.rs:351-359. -/
def occursCheck (n : Nat) (t : Ty Kd) (v : Nat) (p : Pool Kd) : Option (Except Unit Unit × Pool Kd) :=
  dfs (fun t _ => if isVar v t then .error () else .ok ()) n t () p

/-- The closure of `adjust_level`, types.rs:364-371. -/
def adjustOne (lv : Nat) (t : Ty Kd) (targets : List (Nat × Kd)) : Except Error (List (Nat × Kd)) :=
  match t with
  | .var w k l => if lv < l then .ok (targets ++ [(w, k)]) else .ok targets
  | .gen _ l => if lv < l then .error .mismatch else .ok targets
  | _ => .ok targets

/-- `adjust_level`, types.rs:361-376. -/
def adjustLevel (n : Nat) (t : Ty Kd) (lv : Nat) (p : Pool Kd) : Option (Except Error Unit × Pool Kd) :=
  match dfs (adjustOne lv) n t [] p with
  | none => none
  | some (.error e, p) => some (.error e, p)
  | some (.ok targets, p) => some (.ok (), targets.foldl (fun p wk => p.set wk.1 (.var wk.1 wk.2 lv)) p)

/-- The closure of `deny_adjust_required_level`, types.rs:380-384. -/
def denyOne (lv : Nat) (t : Ty Kd) (_ : Unit) : Except Error Unit :=
  match t with
  | .var _ _ l => if lv < l then .error .mismatch else .ok ()
  | .gen _ l => if lv < l then .error .mismatch else .ok ()
  | _ => .ok ()

/-- `deny_adjust_required_level`, types.rs:378-386. -/
def denyLevel (n : Nat) (t : Ty Kd) (lv : Nat) (p : Pool Kd) : Option (Except Error Unit × Pool Kd) := dfs (denyOne lv) n t () p

/-- `for (a, b) in a_args.iter().zip(b_args.iter()) { self.unify(a, b)?; }`, types.rs:162-165. -/
def forEach2 (f : Nat → Nat → Pool Kd → Option (Except Error Unit × Pool Kd)) : List (Nat × Nat) → Pool Kd → Option (Except Error Unit × Pool Kd)
  | [], p => some (.ok (), p)
  | (a, b) :: l, p =>
    match f a b p with
    | none => none
    | some (.error e, p) => some (.error e, p)
    | some (.ok (), p) => forEach2 f l p

variable [DecidableEq Kd]

/-- The case of an unknown, types.rs:147-157 (`adjust = adjust_level`) and types.rs:181-192 (`adjust = deny_adjust_required_level`).
The binding is made before the levels are checked. -/
def bindVar (adjust : Nat → Ty Kd → Nat → Pool Kd → Option (Except Error Unit × Pool Kd)) (n v : Nat) (k : Kd) (lv : Nat) (t : Ty Kd) (p : Pool Kd) :
    Option (Except Error Unit × Pool Kd) :=
  match occursCheck n t v p with
  | none => none
  | some (.error _, p) => some (.error .occursCheckFailed, p)
  | some (.ok _, p) =>
    match getKind env n t p with
    | none => none
    | some (k', p) => if k' ≠ k then some (.error .mismatch, p) else adjust n t lv (p.set v t)

/-- `unify`, types.rs:139-170. -/
def unify : Nat → Ty Kd → Ty Kd → Pool Kd → Option (Except Error Unit × Pool Kd)
  | 0, _, _, _ => none
  | n + 1, a, b, p =>
    match resolve n a p with
    | none => none
    | some (a, p) =>
      match resolve n b p with
      | none => none
      | some (b, p) =>
        if a = b then some (.ok (), p)
        else
          match a, b with
          | .var v k lv, t => bindVar env adjustLevel n v k lv t p
          | t, .var v k lv => bindVar env adjustLevel n v k lv t p
          | .app ac alo ahi, .app bc blo bhi =>
            if ahi - alo ≠ bhi - blo then some (.error .mismatch, p)
            else forEach2 (fun a b => unify n (ref env a) (ref env b)) ((ac, bc) :: (vars alo ahi).zip (vars blo bhi)) p
          | _, _ => some (.error .mismatch, p)

/-- `match_to_right`, types.rs:172-205. -/
def matchToRight : Nat → Ty Kd → Ty Kd → Pool Kd → Option (Except Error Unit × Pool Kd)
  | 0, _, _, _ => none
  | n + 1, a, b, p =>
    match resolve n a p with
    | none => none
    | some (a, p) =>
      match resolve n b p with
      | none => none
      | some (b, p) =>
        if a = b then some (.ok (), p)
        else
          match a, b with
          | .var v k lv, t => bindVar env denyLevel n v k lv t p
          | .app ac alo ahi, .app bc blo bhi =>
            if ahi - alo ≠ bhi - blo then some (.error .mismatch, p)
            else forEach2 (fun a b => matchToRight n (ref env a) (ref env b)) ((ac, bc) :: (vars alo ahi).zip (vars blo bhi)) p
          | _, _ => some (.error .mismatch, p)

omit [DecidableEq Kd]

/-- `args.iter().map(|arg| self.subst::<Var>(map, arg)).collect()` and the like. -/
def mapAll {α : Type} (f : Nat → Pool Kd → Option (α × Pool Kd)) : List Nat → Pool Kd → Option (List α × Pool Kd)
  | [], p => some ([], p)
  | c :: cs, p =>
    match f c p with
    | none => none
    | some (a, p) =>
      match mapAll f cs p with
      | none => none
      | some (as, p) => some (a :: as, p)

/-- `subst`, types.rs:207-228. -/
def subst (map : Nat → Option (Ty Kd)) : Nat → Ty Kd → Pool Kd → Option (Ty Kd × Pool Kd)
  | 0, _, _ => none
  | n + 1, t, p =>
    match resolve n t p with
    | none => none
    | some (.var v k lv, p) => some (.var v k lv, p)
    | some (.con c, p) => some (.con c, p)
    | some (.app callee lo hi, p) =>
      match subst map n (ref env callee) p with
      | none => none
      | some (callee, p) =>
        match mapAll (fun c => subst map n (ref env c)) (vars lo hi) p with
        | none => none
        | some (args, p) => some (newApp callee args p)
    | some (.gen g lv, p) =>
      match map g with
      | some t => some (t, p)
      | none => some (.gen g lv, p)

/-- `all(|(a, b)| rec(self, a, b))`, types.rs:243-246. -/
def all2 (f : Nat → Nat → Pool Kd → Option (Bool × Pool Kd)) : List (Nat × Nat) → Pool Kd → Option (Bool × Pool Kd)
  | [], p => some (true, p)
  | (a, b) :: l, p =>
    match f a b p with
    | none => none
    | some (false, p) => some (false, p)
    | some (true, p) => all2 f l p

/-- `equal` and `equal_on`, types.rs:229-258. -/
def equal : Nat → Ty Kd → Ty Kd → Pool Kd → Option (Bool × Pool Kd)
  | 0, _, _, _ => none
  | n + 1, a, b, p =>
    match resolve n a p with
    | none => none
    | some (a, p) =>
      match resolve n b p with
      | none => none
      | some (b, p) =>
        match a, b with
        | .var a _ _, .var b _ _ => some (a == b, p)
        | .con a, .con b => some (a == b, p)
        | .app ac alo ahi, .app bc blo bhi =>
          if ahi - alo = bhi - blo then all2 (fun a b => equal n (ref env a) (ref env b)) ((ac, bc) :: (vars alo ahi).zip (vars blo bhi)) p
          else some (false, p)
        | .gen a _, .gen b _ => some (a == b, p)
        | _, _ => some (false, p)

/-- The closure of `compute_deepest_level`, types.rs:296-303. -/
def deepestOne : Ty Kd → Nat → Nat
  | .var _ _ lv, level => max level lv
  | .gen _ lv, level => max level lv
  | _, level => level

/-- `compute_deepest_level`, types.rs:292-307. -/
def deepestLevel (n : Nat) (t : Ty Kd) (p : Pool Kd) : Option (Nat × Pool Kd) :=
  match dfs (ε := Empty) (fun t level => .ok (deepestOne t level)) n t 0 p with
  | none => none
  | some (.ok level, p) => some (level, p)

/-- The closure of `collect_vars`, types.rs:322-330. -/
def collectOne (minLevel : Nat) : Ty Kd → List Nat → List Nat
  | .var v _ lv, vs => if minLevel ≤ lv then vs ++ [v] else vs
  | _, vs => vs

/-- `get_vars` and `collect_vars`, types.rs:309-330; the result is a set. -/
def getVars (n : Nat) (t : Ty Kd) (minLevel : Nat) (p : Pool Kd) : Option (List Nat × Pool Kd) :=
  match dfs (ε := Empty) (fun t vs => .ok (collectOne minLevel t vs)) n t [] p with
  | none => none
  | some (.ok vs, p) => some (vs, p)

mutual
/-- `Import<ast::Type>::import`, types.rs:570-584; `none` is the panic on `Type::Error`. -/
def importType : SType → Pool Kd → Option (Ty Kd × Pool Kd)
  | .con c, p => some (.con c, p)
  | .app callee args, p =>
    match importType callee p with
    | none => none
    | some (callee, p) =>
      match importTypes args p with
      | none => none
      | some (args, p) => some (newApp callee args p)
  | .gen g, p => some (.gen g 0, p)
  | .error _, _ => none
def importTypes : List SType → Pool Kd → Option (List (Ty Kd) × Pool Kd)
  | [], p => some ([], p)
  | a :: as, p =>
    match importType a p with
    | none => none
    | some (a, p) =>
      match importTypes as p with
      | none => none
      | some (as, p) => some (a :: as, p)
end

/-- `ast::Type::app`, ast/types.rs:65-71. -/
def SType.app_ (callee : SType) (args : List SType) : SType := if args.isEmpty then callee else .app callee args

/-- `Export<Type>::export`, types.rs:588-619. -/
def exportType : Nat → Ty Kd → Pool Kd → Option (SType × Pool Kd)
  | 0, _, _ => none
  | n + 1, t, p =>
    match resolve n t p with
    | none => none
    | some (.var v _ _, p) => some (.error v, p)
    | some (.con c, p) => some (.con c, p)
    | some (.app callee lo hi, p) =>
      match exportType n (ref env callee) p with
      | none => none
      | some (callee, p) =>
        match mapAll (fun c => exportType n (ref env c)) (vars lo hi) p with
        | none => none
        | some (args, p) => some (SType.app_ callee args, p)
    | some (.gen g _, p) => some (.gen g, p)

end Verif.TypeUnify
