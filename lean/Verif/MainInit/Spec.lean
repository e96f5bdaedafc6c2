import Verif.MainInit.Model
namespace Verif.MainInit.Spec

open Verif.MainInit

variable {E : Type}

/-- The expressions a module evaluates itself. -/
def own : List (InitExpr E) → List E
  | [] => []
  | .eval e :: rest => e :: own rest
  | .ensure _ :: rest => own rest

/-- `m` needs `n`, directly or indirectly, or is `n`. -/
inductive Needs (inits : Nat → List (InitExpr E)) : Nat → Nat → Prop
  | refl (m) : Needs inits m m
  | step {m n k} : .ensure n ∈ inits m → Needs inits n k → Needs inits m k

/-- The modules added by requests, in order. -/
def added : List (Req E) → List Nat
  | [] => []
  | .add m _ _ :: rest => m :: added rest
  | .macro :: rest => added rest

/-- The requests a build sends: every module once and after the modules it needs, with its initialisation expressions. -/
structure Requests (inits : Nat → List (InitExpr E)) (reqs : List (Req E)) : Prop where
  once : (added reqs).Nodup
  given : ∀ m x entry, Req.add m x entry ∈ reqs → x = inits m
  order : ∀ pre m x entry post, reqs = pre ++ .add m x entry :: post → ∀ n, .ensure n ∈ inits m → n ∈ added pre

end Verif.MainInit.Spec
