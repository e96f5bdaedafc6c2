import Verif.Infer.Model
import Verif.Instances.Spec

/-!
# Model of how constraints are satisfied

`llrl0/src/module/sema/type_inference.rs:133-256` and `506-536`, and what becomes of it in `llrl0/src/lowering/translator.rs` and
`normalizer.rs`.  As in `Verif.Infer` the pool of the unifier is replaced by the substitution it stands for and kinds are left out.  `none` is for
computations that have not ended with the given fuel; `(false, s)` and `(none, s)` are errors, with the state that they leave.  One set of
available instances is used everywhere (a module sees those of the modules it imports).  Left out: methods.
-/
namespace Verif.Instances

open Verif.Infer (Ty Tys St newVar newVars bottom single)

mutual
/-- Nothing in the type is of a deeper level: `deny_adjust_required_level`, unification/types.rs:378-384. -/
def noDeeper (lv : Nat → Nat) (l : Nat) : Ty → Bool
  | .con _ => true
  | .app f args => noDeeper lv l f && noDeepers lv l args
  | .gen _ l' => l' ≤ l
  | .unk v => lv v ≤ l
def noDeepers (lv : Nat → Nat) (l : Nat) : Tys → Bool
  | .nil => true
  | .cons t ts => noDeeper lv l t && noDeepers lv l ts
end

/-- An unknown type becomes known in `unify` (`two`), unification/types.rs:147-157, and in `match_to_right`, 180-191.  The cell is written before the
levels are looked at. -/
def bind (two : Bool) (v : Nat) (t : Ty) (s : St) : Bool × St :=
  if v ∈ t.unks then (false, s)
  else
    let σ := fun w => (s.σ w).subst (single v t)
    if two then
      if t.shallow (s.lv v) then (true, { s with σ := σ, lv := fun w => if w ∈ t.unks then min (s.lv w) (s.lv v) else s.lv w })
      else (false, { s with σ := σ })
    else (noDeeper s.lv (s.lv v) t, { s with σ := σ })

/-- One after the other, up to the first error. -/
def andThen (r : Option (Bool × St)) (f : St → Option (Bool × St)) : Option (Bool × St) :=
  match r with
  | some (true, s) => f s
  | r => r

/-- As many. -/
def Tys.len : Tys → Nat
  | .nil => 0
  | .cons _ ts => Tys.len ts + 1

mutual
/-- `unify` (`two`), unification/types.rs:139-170, and `match_to_right`, 172-205. -/
def uni (two : Bool) : Nat → Ty → Ty → St → Option (Bool × St)
  | 0, _, _, _ => none
  | k + 1, a, b, s =>
    match a.subst s.σ, b.subst s.σ with
    | .unk v, t => if t = .unk v then some (true, s) else some (bind two v t s)
    | t, .unk v => if two then some (bind two v t s) else some (false, s)
    | .con c, .con d => some (c == d, s)
    | .gen g l, .gen h m => some (g == h && l == m, s)
    | .app f as, .app h bs => if Tys.len as = Tys.len bs then andThen (uni two k f h s) (unis two k as bs) else some (false, s)
    | _, _ => some (false, s)
def unis (two : Bool) : Nat → Tys → Tys → St → Option (Bool × St)
  | 0, _, _, _ => none
  | k + 1, .cons a as, .cons b bs, s => andThen (uni two k a b s) (unis two k as bs)
  | _ + 1, _, _, s => some (true, s)
end

/-- `unify_types` and `match_types_to_right`, type_inference/unification.rs:96-125. -/
def uniList (two : Bool) (k : Nat) : List Ty → List Ty → St → Option (Bool × St)
  | a :: as, b :: bs, s => andThen (uni two k a b s) (uniList two k as bs)
  | _, _, s => some (true, s)

/-- Types as they are exported: levels are forgotten, unification/types.rs:588-602. -/
def Ty.flat (t : Ty) : Ty := t.inst fun g => some (.gen g 0)

/-- `equal`, unification/types.rs:229-258. -/
def equal (s : St) (a b : Ty) : Bool := Ty.flat (a.subst s.σ) = Ty.flat (b.subst s.σ)

/-- `has_equivalent_class_args`, type_inference/unification.rs:657-666. -/
def equals (s : St) : List Ty → List Ty → Bool
  | a :: as, b :: bs => equal s a b && equals s as bs
  | _, _ => true

/-- A premise: `PremiseClassConstraint`, type_inference/unification.rs:641-646. -/
structure Entry where
  id : Nat
  path : List Nat
  goal : Goal

def concat {α β : Type} (f : α → Option (List β)) : List α → Option (List β)
  | [] => some []
  | a :: as => do
    let xs ← f a
    let ys ← concat f as
    some (xs ++ ys)

/-- `install_premise_constraint`, type_inference.rs:143-163. -/
def install (W : World) : Nat → Nat → List Nat → Goal → Option (List Entry)
  | 0, _, _, _ => none
  | k + 1, id, path, g => do
    let c ← W.cls g.cls
    let es ← concat (fun s : Con => install W k id (path ++ [s.id]) (s.goal.inst (assoc c.gs g.args))) c.supers
    some (es ++ [⟨id, path, g⟩])

/-- `install_premise_constraints`, type_inference.rs:133-141. -/
def installs (W : World) (k : Nat) (P : List Con) : Option (List Entry) := concat (fun c : Con => install W k c.id [] c.goal) P

/-- Several constraints, up to the first error. -/
def allOf (f : Goal → St → Option (Option Sat × St)) : List Goal → St → Option (Option Sats × St)
  | [], s => some (some .nil, s)
  | g :: gs, s =>
    match f g s with
    | some (some x, s) =>
      match allOf f gs s with
      | some (some xs, s) => some (some (.cons x xs), s)
      | r => r
    | some (none, s) => some (none, s)
    | none => none

/-- The loop over the instances in `build_satisfaction`, type_inference.rs:186-211. -/
def tryInsts (k : Nat) (W : World) (f : Goal → St → Option (Option Sat × St)) : List Nat → Goal → St → Option (Option Sat × St)
  | [], _, s => some (none, s)
  | i :: is, g, s =>
    let I := W.inst i
    let (tys, s) := newVars I.gs.length bottom s
    match uniList false k (I.target.inst (assoc I.gs tys)).args g.args s with
    | some (true, s) =>
      match allOf f (I.ctx.map fun c => c.goal.inst (assoc I.gs tys)) s with
      | some (some ss, s) => some (some (.inst i tys ss), s)
      | some (none, s) => some (none, s)
      | none => none
    | some (false, s) => tryInsts k W f is g s
    | none => none

/-- `build_satisfaction`, type_inference.rs:165-218, where `d` more recursions are allowed (`ensure_overlap_checked` is done before). -/
def build (k : Nat) (W : World) (E : List Entry) : Nat → Goal → St → Option (Option Sat × St)
  | 0, _, s => some (none, s)
  | d + 1, g, s =>
    match E.find? fun e => e.goal.cls == g.cls && equals s e.goal.args g.args with
    | some e => some (some (.premise e.id e.path), s)
    | none => tryInsts k W (build k W E d) (W.avail g.cls) g s

/-- `SATISFACTION_RECURSION_LIMIT`, type_inference.rs:20: the counts 0 to 20. -/
def limit : Nat := 21

/-- `infer_instance_satisfaction`, type_inference.rs:506-536. -/
def superclasses (k : Nat) (W : World) (i : Nat) (s : St) : Option (Option Sats × St) := do
  let I := W.inst i
  let E ← installs W k I.ctx
  let c ← W.cls I.target.cls
  allOf (build k W E limit) (c.supers.map fun s => s.goal.inst (assoc c.gs I.target.args)) s

/-! ### Overlapping instances -/

/-- The targets of two instances, with types not known in place of their parameters, unify: type_inference.rs:238-253. -/
def overlap (k : Nat) (W : World) (i j : Nat) : Option Bool :=
  let I := W.inst i
  let J := W.inst j
  let (ts, s) := newVars I.gs.length 0 ⟨0, Ty.unk, fun _ => 0, 0⟩
  let (us, s) := newVars J.gs.length 0 s
  (uniList true k (I.target.inst (assoc I.gs ts)).args (J.target.inst (assoc J.gs us)).args s).map Prod.fst

/-- The pairs in the order of `ensure_overlap_checked`, type_inference.rs:227-231. -/
def pairs : List Nat → List (Nat × Nat)
  | [] => []
  | i :: is => is.map (fun j => (i, j)) ++ pairs is

/-- `ensure_overlap_checked`, type_inference.rs:220-256, in module `mid` for these instances; `md` is the module of an instance. -/
def overlapChecked (k : Nat) (W : World) (md : Nat → Nat) (mid : Nat) (is : List Nat) : Bool :=
  (pairs is).all fun p => (md p.1 == md p.2 && md p.1 != mid) || overlap k W p.1 p.2 == some false

/-! ### Dictionaries -/

def Sats.toList : Sats → List Sat
  | .nil => []
  | .cons s ss => s :: ss.toList

mutual
/-- A satisfaction becomes an instance: `translate`, translator.rs:718-749, and the normalizer, normalizer.rs:47-92.  `X` are the satisfactions of the
superclasses of instances, `θ` and `δ` what type parameters and constraints are. -/
def eval (W : World) (X : Nat → List Sat) : Nat → (Nat → Option Ty) → (Nat → Option Dict) → Sat → Option Dict
  | 0, _, _, _ => none
  | k + 1, _, δ, .premise id path => do
    let d ← δ id
    walk W X k d path
  | k + 1, θ, δ, .inst i tys ss => do
    let ds ← evals W X k θ δ ss
    some (.mk i (tys.map (Ty.inst θ)) ds)
def evals (W : World) (X : Nat → List Sat) : Nat → (Nat → Option Ty) → (Nat → Option Dict) → Sats → Option Dicts
  | 0, _, _, _ => none
  | _ + 1, _, _, .nil => some .nil
  | k + 1, θ, δ, .cons s ss => do
    let d ← eval W X k θ δ s
    let ds ← evals W X k θ δ ss
    some (.cons d ds)
/-- Superclass after superclass, translator.rs:723-725. -/
def walk (W : World) (X : Nat → List Sat) : Nat → Dict → List Nat → Option Dict
  | 0, _, _ => none
  | _ + 1, d, [] => some d
  | k + 1, d, id :: path => do
    let d ← get W X k d id
    walk W X k d path
/-- What the table of an instance has for a superclass, translator.rs:367-373, normalizer.rs:69-86. -/
def get (W : World) (X : Nat → List Sat) : Nat → Dict → Nat → Option Dict
  | 0, _, _ => none
  | k + 1, .mk i tys ds, id => do
    let c ← W.cls (W.inst i).target.cls
    let s ← assoc (c.supers.map Con.id) (X i) id
    eval W X k (assoc (W.inst i).gs tys) (assoc ((W.inst i).ctx.map Con.id) ds.toList) s
end

end Verif.Instances
