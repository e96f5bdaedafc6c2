import Verif.Derive.Spec

/-!
# Model of `std/eq.llrl`, `std/ord.llrl`, `std/ordering.llrl` and the ordering of arrays

The derive macros generate `match` clauses; the model generates the same clauses as data and evaluates them, first match first.
Not modelled: the S-expressions the clauses are written in (names from `gensym` are positions here), and the instance signature.
-/
namespace Verif.Derive

variable {A β ι : Type}

/-- The expressions in the generated clauses; `cmp i` is `(compare l_i r_i)` for the names bound by the two patterns. -/
inductive Code where
  | const (o : Ordering)
  | cmp (i : Nat)
  /-- `(match a [ordering:equal b] [(let r) r])`, ordering.llrl:43-46 -/
  | orElse (a b : Code)

/-- `s/foldr`, s.llrl:91-99: folds the non-empty list `a :: b` from the right. -/
def foldr1 {X : Type} (f : X → X → X) (a : X) : List X → X
  | [] => a
  | b :: c => f a (foldr1 f b c)

/-- `ordering/or`, ordering.llrl:34-41. -/
def orderingOr : List Code → Code
  | [] => .const .eq
  | a :: bs => foldr1 .orElse a bs

/-- A pattern for one side: `_`, or a constructor with all fields bound to names or all fields `_`. -/
inductive CPat where
  | any
  | con (name : String) (fields : Option Nat)

/-- `[(: l r) body]` -/
structure Clause where
  l : CPat
  r : CPat
  body : Code

/-- `comparison-clause`, ord.llrl:132-141. -/
def comparisonClause (c : ConDecl β ι) : Clause :=
  match c.fields with
  | some fields => ⟨.con c.name (some fields.length), .con c.name (some fields.length), orderingOr ((List.range fields.length).map .cmp)⟩
  | none => ⟨.con c.name none, .con c.name none, .const .eq⟩

/-- `comparison-clause-default`, ord.llrl:143-151. -/
def comparisonClauseDefault (c : ConDecl β ι) : List Clause :=
  [⟨.con c.name (c.fields.map List.length), .any, .const .lt⟩, ⟨.any, .con c.name (c.fields.map List.length), .const .gt⟩]

/-- `comparison-clauses`, ord.llrl:121-130. -/
def comparisonClauses : List (ConDecl β ι) → List Clause
  | [c] => [comparisonClause c]
  | c :: cs => comparisonClause c :: (comparisonClauseDefault c ++ comparisonClauses cs)
  | [] => [⟨.any, .any, .const .eq⟩]

/-- Does a value match the pattern?  (A constructor pattern of the wrong number of fields is rejected when the program is checked.) -/
def matchPat : CPat → Val A → Option (List (Val A))
  | .any, _ => some []
  | .con name fields, .con n fs => if n = name ∧ fs.length = fields.getD 0 then some fs else none
  | .con _ _, .base _ => none

/-- Evaluation of a clause body with the fields bound by the patterns; `none`: stuck. -/
def evalCode (cmp : Nat → Val A → Val A → Option Ordering) (ls rs : List (Val A)) : Code → Option Ordering
  | .const o => some o
  | .cmp i =>
    match ls[i]?, rs[i]? with
    | some l, some r => cmp i l r
    | _, _ => none
  | .orElse a b =>
    match evalCode cmp ls rs a with
    | some .eq => evalCode cmp ls rs b
    | r => r

/-- `match`: the first clause whose patterns match; `none` when no clause matches. -/
def evalMatch (cmp : String → Nat → Val A → Val A → Option Ordering) (u v : Val A) : List Clause → Option Ordering
  | [] => none
  | c :: cs =>
    match matchPat c.l u, matchPat c.r v with
    | some ls, some rs => evalCode (match c.l with | .con n _ => cmp n | .any => fun _ _ _ => none) ls rs c.body
    | _, _ => evalMatch cmp u v cs

/-- The instance method `compare` at a type: the base instance, or the function generated by `derive/Ord`, ord.llrl:108-119, whose `(compare l_i r_i)` is the
method of the instance for the type of field `i`.  Fuel bounds the recursion. -/
def compareAt (D : Decls β ι) (cmp : β → A → A → Ordering) : Nat → FTy β ι → Val A → Val A → Option Ordering
  | 0, _, _, _ => none
  | _ + 1, .base b, .base x, .base y => some (cmp b x y)
  | n + 1, .data k, u, v =>
    evalMatch (fun name i l r =>
      match (conTypes (D k) name)[i]? with
      | some t => compareAt D cmp n t l r
      | none => none) u v (comparisonClauses (D k))
  | _ + 1, .base _, _, _ => none

/-! ## `derive/Eq`, eq.llrl:40-68 -/

/-- `and` of `(eq? l_i r_i)`, bool.llrl:16-22 and eq.llrl:58-67; `&&` is the builtin `and`. -/
def evalAnd (f : Nat → Option Bool) : List Nat → Option Bool
  | [] => some true
  | i :: is => foldr1 (fun a b => match a with | some true => b | r => r) (f i) (is.map f)

/-- The clauses `equality-clause`, tried in order, then `[_ #f]`; with one constructor there is no `[_ #f]`. -/
def evalEqClauses (eq : String → Nat → Val A → Val A → Option Bool) (u v : Val A) (last : Option Bool) : List (ConDecl β ι) → Option Bool
  | [] => last
  | c :: cs =>
    match matchPat (.con c.name (c.fields.map List.length)) u, matchPat (.con c.name (c.fields.map List.length)) v with
    | some ls, some rs =>
      match c.fields with
      | some fields =>
        evalAnd (fun i => match ls[i]?, rs[i]? with | some l, some r => eq c.name i l r | _, _ => none) (List.range fields.length)
      | none => some true
    | _, _ => evalEqClauses eq u v last cs

/-- The instance method `eq?` at a type. -/
def eqAt (D : Decls β ι) (eq : β → A → A → Bool) : Nat → FTy β ι → Val A → Val A → Option Bool
  | 0, _, _, _ => none
  | _ + 1, .base b, .base x, .base y => some (eq b x y)
  | n + 1, .data k, u, v =>
    evalEqClauses (fun name i l r =>
      match (conTypes (D k) name)[i]? with
      | some t => eqAt D eq n t l r
      | none => none) u v (if (D k).length = 1 then none else some false) (D k)
  | _ + 1, .base _, _, _ => none

/-! ## The class `Ord` and its operators, ord.llrl:13-82 -/

/-- The methods of an instance; ord.llrl:13-29. -/
structure Inst (X : Type) where
  eq? : X → X → Bool
  compare : X → X → Ordering
  lt? : X → X → Bool
  le? : X → X → Bool
  gt? : X → X → Bool
  ge? : X → X → Bool

/-- An instance that defines `compare` only: the other methods have the default bodies, ord.llrl:20-28. -/
def Inst.ofCompare {X : Type} (eq : X → X → Bool) (cmp : X → X → Ordering) : Inst X where
  eq? := eq
  compare := cmp
  lt? a b := cmp a b == .lt
  le? a b := !(cmp a b == .gt)
  gt? a b := cmp a b == .gt
  ge? a b := !(cmp a b == .lt)

/-- An instance that defines the four tests (`Bool`, `Ordering`, integers, floats, `Ptr`): `compare` has the default body, ord.llrl:14-19. -/
def Inst.ofTests {X : Type} (eq lt le gt ge : X → X → Bool) : Inst X where
  eq? := eq
  compare a b := if eq a b then .eq else if le a b then .lt else .gt
  lt? := lt
  le? := le
  gt? := gt
  ge? := ge

/-- `min2`, ord.llrl:75-76. -/
def min2 {X : Type} (I : Inst X) (a b : X) : X := if I.le? a b then a else b
/-- `max2`, ord.llrl:78-79. -/
def max2 {X : Type} (I : Inst X) (a b : X) : X := if I.ge? a b then a else b
/-- `(min expr exprs ...)`, ord.llrl:61-66: `s/foldl`. -/
def minMacro {X : Type} (I : Inst X) (a : X) (bs : List X) : X := bs.foldl (min2 I) a
/-- `(max expr exprs ...)`, ord.llrl:68-73. -/
def maxMacro {X : Type} (I : Inst X) (a : X) (bs : List X) : X := bs.foldl (max2 I) a

/-- `compare-chain`, ord.llrl:50-59. -/
def compareChain {X : Type} (pred : X → X → Bool) (a : X) : List X → Bool
  | [b] => pred a b
  | b :: bs => pred a b && compareChain pred b bs
  | [] => true

/-- `compare-chain-entry`, ord.llrl:35-48. -/
def compareChainEntry {X : Type} (pred : X → X → Bool) : List X → Bool
  | [] => true
  | [_] => true
  | [a, b] => pred a b
  | a :: bs => compareChain pred a bs

/-- `Ord.Array`, internal/array-vector.llrl:438-449: the loop over the common length, then the lengths. -/
def arrayLoop {X : Type} (cmp : X → X → Ordering) (a b : List X) (l : Nat) : Nat → Nat → Option Ordering
  | 0, _ => none
  | n + 1, i =>
    if i < l then
      match a[i]?, b[i]? with
      | some x, some y =>
        match cmp x y with
        | .eq => arrayLoop cmp a b l n (i + 1)
        | o => some o
      | _, _ => none
    else some (compare a.length b.length)

/-- `Ord.Array` and `Ord.Vector`; fuel as large as the loop needs. -/
def arrayCompare {X : Type} (cmp : X → X → Ordering) (a b : List X) : Option Ordering :=
  arrayLoop cmp a b (min a.length b.length) (min a.length b.length + 1) 0

/-- `Ord.Option`, option.llrl:105-111. -/
def optionCompare {X : Type} (cmp : X → X → Ordering) : Option X → Option X → Ordering
  | some a, some b => cmp a b
  | some _, none => .gt
  | none, some _ => .lt
  | none, none => .eq

/-- `Ord.Result`, result.llrl:121-127. -/
def resultCompare {T E : Type} (cmpT : T → T → Ordering) (cmpE : E → E → Ordering) : Except E T → Except E T → Ordering
  | .ok a, .ok b => cmpT a b
  | .ok _, .error _ => .gt
  | .error _, .ok _ => .lt
  | .error a, .error b => cmpE a b

/-- `llrt_string_cmp`, rt.c:269-277, on bytes; `memcmp` gives the difference of the first differing bytes. -/
def memcmp : List UInt8 → List UInt8 → Nat → Int
  | x :: a, y :: b, n + 1 => if x = y then memcmp a b n else (x.toNat : Int) - y.toNat
  | _, _, _ => 0
def stringCmp (a b : List UInt8) : Int :=
  let len := if a.length < b.length then a.length else b.length
  let cmp := memcmp a b len
  if 0 < len ∧ cmp ≠ 0 then (if cmp < 0 then -1 else 1)
  else if a.length ≠ b.length then (if a.length < b.length then -1 else 1)
  else 0
/-- `ordering/from-order-value`, ordering.llrl:27-32; `none` is the failed assertion. -/
def fromOrderValue (x : Int) : Option Ordering := if x = -1 then some .lt else if x = 0 then some .eq else if x = 1 then some .gt else none
/-- `Ord.String`, internal/string-text.llrl:386-387. -/
def stringCompare (a b : List UInt8) : Option Ordering := fromOrderValue (stringCmp a b)

end Verif.Derive
