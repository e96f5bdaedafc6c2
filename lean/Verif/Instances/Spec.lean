import Verif.Infer.Spec

/-!
# Type classes, independently of how instances are found

Constraints, classes with superclasses, instances; what it means that a satisfaction proves a constraint, and what dictionaries are right for it.
-/
namespace Verif.Instances

open Verif.Infer (Ty Tys Written)

/-- A class applied to types: `ConstraintRep`, llrl0/src/ast/types.rs:404-406. -/
structure Goal where
  cls : Nat
  args : List Ty

/-- A constraint with its number. -/
structure Con where
  id : Nat
  goal : Goal

/-- A class `∀ gs` with its superclasses: `ClassCon`, llrl0/src/ast/decl.rs:218-226. -/
structure ClassCon where
  gs : List Nat
  supers : List Con

/-- An instance `∀ gs. ctx ⇒ target`: `InstanceCon`, llrl0/src/ast/decl.rs:347-353. -/
structure InstCon where
  gs : List Nat
  ctx : List Con
  target : Goal

/-- The classes and instances that there are, and which instances of a class are available. -/
structure World where
  cls : Nat → Option ClassCon
  inst : Nat → InstCon
  avail : Nat → List Nat

/-- The arguments in place of the parameters. -/
def assoc {α : Type} : List Nat → List α → Nat → Option α
  | g :: gs, t :: ts, h => if h = g then some t else assoc gs ts h
  | _, _, _ => none

def Goal.map (f : Ty → Ty) (g : Goal) : Goal := ⟨g.cls, g.args.map f⟩

/-- A constraint where type parameters are replaced. -/
def Goal.inst (m : Nat → Option Ty) (g : Goal) : Goal := g.map (Ty.inst m)

/-- A constraint where unknown types are replaced. -/
def Goal.subst (σ : Nat → Ty) (g : Goal) : Goal := g.map (Ty.subst σ)

def Con.map (f : Ty → Ty) (c : Con) : Con := ⟨c.id, c.goal.map f⟩

/-- The superclass at the end of a path. -/
inductive Sup (W : World) : Goal → List Nat → Goal → Prop
  | here (g : Goal) : Sup W g [] g
  | up {g d : Goal} {p : List Nat} {k : ClassCon} {c : Con} (hk : W.cls g.cls = some k) (hc : c ∈ k.supers) (h : Sup W (c.goal.inst (assoc k.gs g.args)) p d) :
      Sup W g (c.id :: p) d

mutual
/-- How a constraint is satisfied, llrl0/src/ast/types.rs:437-492: by a premise or a superclass of it, or by an instance for some types with what
satisfies its context. -/
inductive Sat
  | premise (id : Nat) (path : List Nat)
  | inst (i : Nat) (tys : List Ty) (ss : Sats)
inductive Sats
  | nil
  | cons (s : Sat) (ss : Sats)
end

mutual
def Sat.map (f : Ty → Ty) : Sat → Sat
  | .premise id path => .premise id path
  | .inst i tys ss => .inst i (tys.map f) (ss.map f)
def Sats.map (f : Ty → Ty) : Sats → Sats
  | .nil => .nil
  | .cons s ss => .cons (s.map f) (ss.map f)
end

mutual
/-- A satisfaction proves a constraint from the premises. -/
def Proves (W : World) (P : List Con) : Sat → Goal → Prop
  | .premise id path, g => ∃ c ∈ P, c.id = id ∧ Sup W c.goal path g
  | .inst i tys ss, g => i ∈ W.avail g.cls ∧ tys.length = (W.inst i).gs.length ∧ (W.inst i).target.inst (assoc (W.inst i).gs tys) = g ∧
      ProvesAll W P ss ((W.inst i).ctx.map fun c => c.goal.inst (assoc (W.inst i).gs tys))
def ProvesAll (W : World) (P : List Con) : Sats → List Goal → Prop
  | .nil, gs => gs = []
  | .cons s ss, gs => ∃ g gs', gs = g :: gs' ∧ Proves W P s g ∧ ProvesAll W P ss gs'
end

mutual
/-- The greatest number of instances applied to each other. -/
def Sat.depth : Sat → Nat
  | .premise _ _ => 1
  | .inst _ _ ss => ss.depth + 1
def Sats.depth : Sats → Nat
  | .nil => 0
  | .cons s ss => max s.depth ss.depth
end

mutual
/-- A dictionary: an instance for some types with the dictionaries for its context. -/
inductive Dict
  | mk (i : Nat) (tys : List Ty) (ds : Dicts)
inductive Dicts
  | nil
  | cons (d : Dict) (ds : Dicts)
end

def Dicts.toList : Dicts → List Dict
  | .nil => []
  | .cons d ds => d :: ds.toList

mutual
/-- The dictionary is one for this constraint. -/
def Right (W : World) : Dict → Goal → Prop
  | .mk i tys ds, g => i ∈ W.avail g.cls ∧ tys.length = (W.inst i).gs.length ∧ (W.inst i).target.inst (assoc (W.inst i).gs tys) = g ∧
      RightAll W ds ((W.inst i).ctx.map fun c => c.goal.inst (assoc (W.inst i).gs tys))
def RightAll (W : World) : Dicts → List Goal → Prop
  | .nil, gs => gs = []
  | .cons d ds, gs => ∃ g gs', gs = g :: gs' ∧ Right W d g ∧ RightAll W ds gs'
end

/-! ### What the compiler checks before -/

/-- Constraints of a class and an instance are about their own parameters. -/
def Goal.Closed (gs : List Nat) (g : Goal) : Prop := ∀ t ∈ g.args, Written (· ∈ gs) t

/-- Classes and instances are closed, constraints have as many types as their class has parameters, numbers of constraints and of parameters are
distinct. -/
structure World.OK (W : World) : Prop where
  sup : ∀ c k, W.cls c = some k → ∀ s ∈ k.supers, s.goal.Closed k.gs
  ids : ∀ c k, W.cls c = some k → (k.supers.map Con.id).Nodup
  target : ∀ i, (W.inst i).target.Closed (W.inst i).gs
  ctx : ∀ i, ∀ c ∈ (W.inst i).ctx, c.goal.Closed (W.inst i).gs
  ctxIds : ∀ i, ((W.inst i).ctx.map Con.id).Nodup
  params : ∀ i, (W.inst i).gs.Nodup
  avail : ∀ c, ∀ i ∈ W.avail c, (W.inst i).target.cls = c

/-- Goals have as many types as their class has parameters. -/
def Goal.Arity (ar : Nat → Nat) (g : Goal) : Prop := g.args.length = ar g.cls

structure World.Arity (W : World) (ar : Nat → Nat) : Prop where
  cls : ∀ c k, W.cls c = some k → k.gs.length = ar c ∧ ∀ s ∈ k.supers, s.goal.Arity ar
  inst : ∀ i, (W.inst i).target.Arity ar ∧ ∀ c ∈ (W.inst i).ctx, c.goal.Arity ar

mutual
/-- A type parameter is in a type. -/
def GenIn (g : Nat) : Ty → Prop
  | .con _ => False
  | .app f as => GenIn g f ∨ GenIns g as
  | .gen h _ => h = g
  | .unk _ => False
def GenIns (g : Nat) : Tys → Prop
  | .nil => False
  | .cons t ts => GenIn g t ∨ GenIns g ts
end

/-- The parameters of an instance are all in its target. -/
def World.Covered (W : World) : Prop := ∀ i, ∀ g ∈ (W.inst i).gs, ∃ t ∈ (W.inst i).target.args, GenIn g t

/-- No two available instances of a class are for the same constraint. -/
def World.Apart (W : World) : Prop := ∀ c, ∀ i ∈ W.avail c, ∀ j ∈ W.avail c, ∀ ts us,
  (W.inst i).target.inst (assoc (W.inst i).gs ts) = (W.inst j).target.inst (assoc (W.inst j).gs us) →
  ts.length = (W.inst i).gs.length → us.length = (W.inst j).gs.length → i = j

mutual
/-- How large a type is. -/
def size : Ty → Nat
  | .con _ => 1
  | .app f as => size f + sizes as + 1
  | .gen _ _ => 1
  | .unk _ => 1
def sizes : Tys → Nat
  | .nil => 0
  | .cons t ts => size t + sizes ts + 1
end

def Goal.size (g : Goal) : Nat := (g.args.map Instances.size).sum

/-- What instances require is smaller than what they are for, and superclasses are of nothing larger. -/
structure World.Smaller (W : World) : Prop where
  ctx : ∀ i tys, tys.length = (W.inst i).gs.length → ∀ c ∈ (W.inst i).ctx, (c.goal.inst (assoc (W.inst i).gs tys)).size < ((W.inst i).target.inst (assoc (W.inst i).gs tys)).size
  sup : ∀ (g : Goal) k, W.cls g.cls = some k → g.args.length = k.gs.length → ∀ s ∈ k.supers, (s.goal.inst (assoc k.gs g.args)).size ≤ g.size

/-- Nothing is unknown in a goal. -/
def Goal.Known (g : Goal) : Prop := ∀ t ∈ g.args, t.All (fun _ => False) fun _ _ => True

end Verif.Instances
