import Verif.StackFrame.Model

/-!
# Which variables are live at the same time
-/
namespace Verif.StackFrame.Spec

/-- Some continuation has these parameters. -/
inductive HasCont : Conts → List Binder → Prop
  | head {ps body cs} : HasCont (.cons ps body cs) ps
  | tail {ps qs body cs} : HasCont cs ps → HasCont (.cons qs body cs) ps

mutual
/-- `Reach e X`: during the evaluation of `e` there is a moment when exactly the variables `X`, bound within `e`, hold a value that may still
be needed (or is about to be written).  A variable counts from the evaluation of its own initialiser on.  Continuation parameters count in
the body of the continuation, and also anywhere in the body of the `letCont`, because the arguments of a jump are stored into them one by
one while the next argument is still to be evaluated. -/
inductive Reach : Rt → List Binder → Prop
  | here {e} : Reach e []
  | node {es X} : ReachAny es X → Reach (.node es) X
  | alloc {n e X} : Reach e X → Reach (.alloc n e) X
  | letVar {vs body X} : ReachVars vs body X → Reach (.letVar vs body) X
  | letContBody {cs body X} : Reach body X → Reach (.letCont cs body) X
  | letContArgs {cs body X ps} : HasCont cs ps → Reach body X → Reach (.letCont cs body) (ps ++ X)
  | letCont {cs body X} : ReachConts cs X → Reach (.letCont cs body) X
inductive ReachAny : Rts → List Binder → Prop
  | head {e es X} : Reach e X → ReachAny (.cons e es) X
  | tail {e es X} : ReachAny es X → ReachAny (.cons e es) X
inductive ReachVars : Vars → Rt → List Binder → Prop
  | body {body X} : Reach body X → ReachVars .nil body X
  | init {v init vs body X} : Reach init X → ReachVars (.cons v init vs) body (v :: X)
  | next {v init vs body X} : ReachVars vs body X → ReachVars (.cons v init vs) body (v :: X)
inductive ReachConts : Conts → List Binder → Prop
  | head {ps body cs X} : Reach body X → ReachConts (.cons ps body cs) (ps ++ X)
  | tail {ps body cs X} : ReachConts cs X → ReachConts (.cons ps body cs) X
end

mutual
/-- All variables bound in an expression. -/
def binders : Rt → List Nat
  | .node es => bindersL es
  | .alloc _ e => binders e
  | .letVar vs body => bindersV vs ++ binders body
  | .letCont cs body => bindersC cs ++ binders body
def bindersL : Rts → List Nat
  | .nil => []
  | .cons e es => binders e ++ bindersL es
def bindersV : Vars → List Nat
  | .nil => []
  | .cons v init vs => v.1 :: (binders init ++ bindersV vs)
def bindersC : Conts → List Nat
  | .nil => []
  | .cons ps body cs => ps.map Prod.fst ++ (binders body ++ bindersC cs)
end

mutual
/-- The static stack allocations in an expression. -/
def sites : Rt → List Nat
  | .node es => sitesL es
  | .alloc n e => n :: sites e
  | .letVar vs body => sitesV vs ++ sites body
  | .letCont cs body => sitesC cs ++ sites body
def sitesL : Rts → List Nat
  | .nil => []
  | .cons e es => sites e ++ sitesL es
def sitesV : Vars → List Nat
  | .nil => []
  | .cons _ init vs => sites init ++ sitesV vs
def sitesC : Conts → List Nat
  | .nil => []
  | .cons _ body cs => sites body ++ sitesC cs
end

/-- Two ranges of bytes do not overlap: each is an offset from `rbp` with a number of eightbytes. -/
def Apart (a b : Int × Nat) : Prop := a.1 + 8 * (a.2 : Int) ≤ b.1 ∨ b.1 + 8 * (b.2 : Int) ≤ a.1

/-- Pairwise disjoint ranges. -/
def Disjoint (l : List (Int × Nat)) : Prop := l.Pairwise Apart

end Verif.StackFrame.Spec
