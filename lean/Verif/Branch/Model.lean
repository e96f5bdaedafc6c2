import Verif.Util.HMap
/-!
# Expansion of `match` into tests (llrl0/src/lowering/branch_expander.rs)

Simplifications: types (`Ct`) are numbers; the type of a sub-pattern of a struct or reinterpret pattern is attached to it
instead of computed from it.  `RtPat::Data` (erased before, a panic here) and `Const::SyntaxSexp` (a panic in patterns) are
left out.  The type of every clause's pattern is taken to be that of the target.  The expansion is written without closures: the success continuation of `expand_pat_part` is always "go on with
these parts of the clause", the failure continuation "go on with these clauses", so both are passed as data.  A panic is
`none`; the recursion is bounded by fuel (`none` when used up), and `expand_total` shows that enough fuel exists.
-/
namespace Verif.Branch

open Verif

/-- llrl0/src/lowering/ir/rt.rs:568-575 `Const`; floats are represented by a number standing for the `OrderedFloat`. -/
inductive Const where
  | integer (ty : Nat) (signed : Bool) (v : Nat)
  | fp (ty : Nat) (v : Nat)
  | string (s : String)
  | char (c : Char)
  | unit
  deriving DecidableEq, Repr

/-- ir/rt.rs:476-487 `RtPat`; `as` is a `Var` with an inner pattern. -/
inductive Pat where
  | var (id : Nat)
  | as (id : Nat) (p : Pat)
  | wild
  | deref (p : Pat)
  | nonNull (p : Pat)
  | null
  | struct (args : List (Nat × Pat))
  | reint (ty : Nat) (p : Pat)
  | syntax (p : Pat)
  | const (c : Const)

/-- branch_expander.rs:341-351 `PatPart`. -/
inductive Part where
  | root (ty : Nat)
  | bind (id : Nat) (p : Part)
  | deref (p : Part)
  | nonNull (p : Part)
  | null (p : Part)
  | elem (ty i : Nat) (p : Part)
  | reint (ty : Nat) (p : Part)
  | body (p : Part)
  | const (c : Const) (p : Part)
  deriving DecidableEq, Repr

/-- branch_expander.rs:386-398 `PatPart::parent`. -/
def Part.parent : Part → Part
  | .root ty => .root ty
  | .bind _ p | .deref p | .nonNull p | .null p | .elem _ _ p | .reint _ p | .body p | .const _ p => p

/-- branch_expander.rs:411-417 `PatPart::excludes`. -/
def Part.excludes : Part → Part → Bool
  | .nonNull a, .null b => a == b
  | .null a, .nonNull b => a == b
  | .const ca a, .const cb b => ca != cb && a == b
  | _, _ => false

/-- The test expressions of branch_expander.rs:426-462, without the variable tested. -/
inductive Test where
  | notNull
  | isNull
  | equals (c : Const)
  deriving DecidableEq, Repr

/-- branch_expander.rs:426-462 `PatPart::to_test_expr`. -/
def Part.test : Part → Option Test
  | .nonNull _ => some .notNull
  | .null _ => some .isNull
  | .const .unit _ => none
  | .const c _ => some (.equals c)
  | _ => none

/-- The access expressions of branch_expander.rs:464-487, without the variable accessed. -/
inductive Get where
  | load
  | elem (i : Nat)
  | reint (ty : Nat)
  | body
  deriving DecidableEq, Repr

/-- branch_expander.rs:464-487 `PatPart::to_get_expr`. -/
def Part.get : Part → Option Get
  | .deref _ => some .load
  | .nonNull _ => some .load
  | .elem _ i _ => some (.elem i)
  | .reint ty _ => some (.reint ty)
  | .body _ => some .body
  | _ => none

/-- branch_expander.rs:419-424 `PatPart::to_bind_expr`: whether the parent's variable is an argument. -/
def Part.isBind : Part → Bool
  | .bind _ _ => true
  | _ => false

/-- What `FlattenPat::collect` adds: the parts, the variables bound, and whether anything was added. -/
structure Flat where
  parts : List Part
  binds : List Nat
  added : Bool

def Flat.append (a b : Flat) : Flat := ⟨a.parts ++ b.parts, a.binds ++ b.binds, a.added || b.added⟩

mutual
/-- branch_expander.rs:278-326 `FlattenPat::collect`. -/
def collect : Pat → Part → Flat
  | .var id, parent => ⟨[.bind id parent], [id], true⟩
  | .as id p, parent => ⟨.bind id parent :: (collect p parent).parts, id :: (collect p parent).binds, true⟩
  | .wild, _ => ⟨[], [], false⟩
  | .deref p, parent => collect p (.deref parent)
  | .nonNull p, parent =>
    if (collect p (.nonNull parent)).added then
      ⟨(collect p (.nonNull parent)).parts, (collect p (.nonNull parent)).binds, true⟩
    else ⟨(collect p (.nonNull parent)).parts ++ [.nonNull parent], (collect p (.nonNull parent)).binds, true⟩
  | .null, parent => ⟨[.null parent], [], true⟩
  | .struct args, parent => collectArgs args 0 parent
  | .reint ty p, parent => collect p (.reint ty parent)
  | .syntax p, parent => collect p (.body parent)
  | .const c, parent => ⟨[.const c parent], [], true⟩
/-- branch_expander.rs:304-313: the fields of a struct pattern, from field `i` on. -/
def collectArgs : List (Nat × Pat) → Nat → Part → Flat
  | [], _, _ => ⟨[], [], false⟩
  | (ty, p) :: args, i, parent => (collect p (.elem ty i parent)).append (collectArgs args (i + 1) parent)
end

/-- branch_expander.rs:329-336 `FlattenPat::from`. -/
def flatten (ty : Nat) (p : Pat) : Flat := collect p (.root ty)

/-- branch_expander.rs:199-203 `MatchProgress`; `determined` maps to `some var` for `Ok(var)` and to `none` for `Err(())`. -/
structure Progress where
  determined : HMap Part (Option (Option Nat))
  range : HMap Part (List Part)
  args : List Nat

/-- branch_expander.rs:245-249 `MatchPartProgress`. -/
inductive Known where
  | notKnown
  | unsatisfied
  | satisfied (var : Option Nat)
  deriving DecidableEq, Repr

/-- branch_expander.rs:206-214 `MatchProgress::new`. -/
def Progress.new (root ty : Nat) : Progress := ⟨[(.root ty, some (some root))], [], []⟩

/-- branch_expander.rs:216-225 `MatchProgress::part`. -/
def Progress.part (g : Progress) (p : Part) : Known :=
  match HMap.get g.determined p with
  | some (some var) => .satisfied var
  | some none => .unsatisfied
  | none =>
    match HMap.get g.range p.parent with
    | some ps => if ps.any fun q => q.excludes p then .unsatisfied else .notKnown
    | none => .notKnown

/-- branch_expander.rs:227-233 `mark_as_passed`. -/
def Progress.passed (g : Progress) (p : Part) : Option Progress :=
  match HMap.get g.determined p with
  | some _ => none
  | none => some { g with
      range := HMap.insert g.range p.parent ((HMap.get g.range p.parent).getD [] ++ [p]),
      determined := HMap.insert g.determined p (some none) }

/-- branch_expander.rs:235-237 `mark_as_failed`. -/
def Progress.failed (g : Progress) (p : Part) : Option Progress :=
  match HMap.get g.determined p with
  | some _ => none
  | none => some { g with determined := HMap.insert g.determined p none }

/-- branch_expander.rs:239-241 `set_passed_var`. -/
def Progress.setVar (g : Progress) (p : Part) (v : Nat) : Option Progress :=
  match HMap.get g.determined p with
  | some (some none) => some { g with determined := HMap.insert g.determined p (some (some v)) }
  | _ => none

/-- branch_expander.rs:121-123, 134-136: pushing the argument of a variable binding. -/
def Progress.push (g : Progress) (p : Part) (x : Nat) : Progress :=
  if p.isBind then { g with args := g.args ++ [x] } else g

/-- The expressions built: `Rt::Never`, `Rt::cont_call`, `Rt::if_` on a test of a variable, `Rt::let_var` of one access. -/
inductive Tree where
  | never
  | call (id : Nat) (args : List Nat)
  | ite (t : Test) (x : Nat) (a b : Tree)
  | letv (y : Nat) (g : Get) (x : Nat) (body : Tree)
  deriving Repr

/-- A clause to expand: its parts and its continuation (branch_expander.rs:58). -/
abbrev Clause := List Part × Nat

mutual
/-- branch_expander.rs:73-90 `expand_matches`.  The second argument counts the variables allocated. -/
def expandMatches : Nat → Nat → Progress → List Clause → Option (Tree × Nat)
  | 0, _, _, _ => none
  | _ + 1, n, _, [] => some (.never, n)
  | f + 1, n, g, (parts, id) :: rest => expandParts f n g parts id rest
/-- branch_expander.rs:92-165 `expand_pat_parts` and `expand_pat_part`. -/
def expandParts : Nat → Nat → Progress → List Part → Nat → List Clause → Option (Tree × Nat)
  | 0, _, _, _, _, _ => none
  | _ + 1, n, g, [], id, _ => some (.call id g.args, n)
  | f + 1, n, g, part :: parts, id, rest =>
    match g.part part with
    | .satisfied _ => expandParts f n g parts id rest
    | .unsatisfied => expandMatches f n { g with args := [] } rest
    | .notKnown =>
      match g.part part.parent with
      | .satisfied (some x) =>
        match part.test with
        | some t =>
          match (g.push part x).passed part with
          | none => none
          | some gs =>
            match expandParts f n gs parts id rest with
            | none => none
            | some (a, n) =>
              match g.failed part with
              | none => none
              | some gf =>
                match expandMatches f n { gf with args := [] } rest with
                | none => none
                | some (b, n) => some (.ite t x a b, n)
        | none =>
          match (g.push part x).passed part with
          | none => none
          | some g => expandParts f n g parts id rest
      | .satisfied none =>
        match g.part part.parent.parent, part.parent.get with
        | .satisfied (some y), some get =>
          match g.setVar part.parent n with
          | none => none
          | some g =>
            match expandParts f (n + 1) g (part :: parts) id rest with
            | none => none
            | some (b, m) => some (.letv n get y b, m)
        | _, _ => none
      | .unsatisfied => expandMatches f n { g with args := [] } rest
      | .notKnown => expandParts f n g (part.parent :: part :: parts) id rest
end

/-- A continuation (`RtCont`): its name and parameters; the body is that of the clause. -/
structure Cont where
  id : Nat
  params : List Nat

/-- branch_expander.rs:53-59: one continuation per clause. -/
def conts (ty : Nat) : List Pat → Nat → List Cont
  | [], _ => []
  | p :: ps, n => ⟨n, (flatten ty p).binds⟩ :: conts ty ps (n + 1)

def clausesOf (ty : Nat) : List Pat → Nat → List Clause
  | [], _ => []
  | p :: ps, n => ((flatten ty p).parts, n) :: clausesOf ty ps (n + 1)

/-- What `expand` builds: continuations around a binding of the root variable around the tests. -/
structure Expanded where
  conts : List Cont
  root : Nat
  tree : Tree

/-- branch_expander.rs:47-71 `expand`, for a target that has a type. -/
def expand (fuel n ty : Nat) (clauses : List Pat) : Option Expanded :=
  let root := n + clauses.length
  match expandMatches fuel (root + 1) (Progress.new root ty) (clausesOf ty clauses n) with
  | none => none
  | some (t, _) => some ⟨conts ty clauses n, root, t⟩

end Verif.Branch
