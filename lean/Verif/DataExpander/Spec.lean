import Verif.DataExpander.Model
/-!
# What a program with data types means, without any representation
-/
namespace Verif.DataExpander

/-- A value: a constant, or a constructor of a data type with the values of its fields. -/
inductive SV where
  | prim (k : Nat)
  | con (id i : Nat) (fields : List SV)

mutual
/-- The bindings of a pattern that accepts a value; a data pattern accepts the values of its constructor with accepted fields. -/
def matchS : SPat → SV → Option (List (Nat × SV))
  | .var x, v => some [(x, v)]
  | .as x p, v => (matchS p v).map fun s => (x, v) :: s
  | .wild, _ => some []
  | .prim k, .prim k' => if k = k' then some [] else none
  | .prim _, .con _ _ _ => none
  | .data id i ps, .con id' i' vs => if id = id' ∧ i = i' then matchSs ps vs else none
  | .data _ _ _, .prim _ => none
/-- Patterns for the fields. -/
def matchSs : List SPat → List SV → Option (List (Nat × SV))
  | [], [] => some []
  | p :: ps, v :: vs =>
    match matchS p v with
    | none => none
    | some s => (matchSs ps vs).map fun s' => s ++ s'
  | _, _ => none
end

mutual
/-- The value of an expression; `none` when a variable is unbound or no clause matches. -/
def evalS : SExp → List (Nat × SV) → Option SV
  | .var x, s => lookup x s
  | .prim k, _ => some (.prim k)
  | .con id i args, s => (evalSs args s).map (.con id i)
  | .case e cs, s =>
    match evalS e s with
    | none => none
    | some v => evalSc cs v s
/-- The values of the arguments. -/
def evalSs : SExps → List (Nat × SV) → Option (List SV)
  | .nil, _ => some []
  | .cons e es, s =>
    match evalS e s with
    | none => none
    | some v => (evalSs es s).map fun vs => v :: vs
/-- The first clause that accepts the value. -/
def evalSc : SClauses → SV → List (Nat × SV) → Option SV
  | .nil, _, _ => none
  | .cons p e cs, v, s =>
    match matchS p v with
    | none => evalSc cs v s
    | some b => evalS e (b ++ s)
end

/-! ## Typed programs -/

/-- The values of type `t` are not those of a data type of `D`. -/
def NotData (D : List (Nat × Data)) (t : Ct) : Prop := ∀ k d, (k, d) ∈ D → t ≠ .id k

mutual
/-- A pattern for values of a type, and the types of the variables it binds. -/
inductive PTy (D : List (Nat × Data)) : SPat → Ct → List (Nat × Ct) → Prop
  | var {x t} : PTy D (.var x) t [(x, t)]
  | as {x p t G} : PTy D p t G → PTy D (.as x p) t ((x, t) :: G)
  | wild {t} : PTy D .wild t []
  | prim {k t} : NotData D t → PTy D (.prim k) t []
  | data {id i d fs ps G} : (id, d) ∈ D → d.cons[i]? = some fs → PTys D ps fs G → PTy D (.data id i ps) (.id id) G
/-- Patterns for the fields of a constructor. -/
inductive PTys (D : List (Nat × Data)) : List SPat → List Ct → List (Nat × Ct) → Prop
  | nil : PTys D [] [] []
  | cons {p ps t ts G G'} : PTy D p t G → PTys D ps ts G' → PTys D (p :: ps) (t :: ts) (G ++ G')
end

mutual
/-- An expression of a type. -/
inductive ETy (D : List (Nat × Data)) : List (Nat × Ct) → SExp → Ct → Prop
  | var {G x t} : lookup x G = some t → ETy D G (.var x) t
  | prim {G k t} : NotData D t → ETy D G (.prim k) t
  | con {G id i d fs es} : (id, d) ∈ D → d.cons[i]? = some fs → ETys D G es fs → ETy D G (.con id i es) (.id id)
  | case {G e cs t t'} : ETy D G e t → CTy D G cs t t' → ETy D G (.case e cs) t'
/-- Expressions for the fields of a constructor. -/
inductive ETys (D : List (Nat × Data)) : List (Nat × Ct) → SExps → List Ct → Prop
  | nil {G} : ETys D G .nil []
  | cons {G e es t ts} : ETy D G e t → ETys D G es ts → ETys D G (.cons e es) (t :: ts)
/-- Clauses that take values of a type to values of another. -/
inductive CTy (D : List (Nat × Data)) : List (Nat × Ct) → SClauses → Ct → Ct → Prop
  | nil {G t t'} : CTy D G .nil t t'
  | cons {G p e cs t t' G'} : PTy D p t G' → ETy D (G' ++ G) e t' → CTy D G cs t t' → CTy D G (.cons p e cs) t t'
end

/-! ## The states of the compiler -/

/-- The expansions computed after some generations of data types (context.rs:47-88 `populate`): `D` are the data types so far.  A
new generation defines other ids than the previous ones and the definitions added for them, ids that were allocated before (`ct_id_gen`), and that no earlier
expansion mentions (earlier definitions were collected with everything they mention, context.rs:301-337). -/
inductive Gens : HMap Nat Expansion → Env → List (Nat × Data) → Prop
  | start {next} : Gens [] ⟨next, []⟩ []
  | step {m e D data m' e' next} : Gens m e D → (data.map Prod.fst).Nodup → (∀ p ∈ data, p.1 < e.next) →
      (∀ p ∈ data, ∀ q ∈ D, p.1 ≠ q.1) → (∀ p ∈ data, ∀ q ∈ e.defs, p.1 ≠ q.1) → (∀ p ∈ data, ∀ k x, m.get k = some x → p.1 ∉ x.toCt.ids) →
      compute data m e = some (m', e') → e'.next ≤ next → Gens m' { e' with next := next } (D ++ data)

/-! ## The types of the values at run time -/

mutual
/-- `w` is a value of type `t` when the data types are replaced by their expansions `m` and the ids stand for the definitions
`defs`.  Uninitialized memory has any type. -/
inductive LTy (m : HMap Nat Expansion) (defs : List (Nat × Def)) (D : List (Nat × Data)) (h : List LV) : LV → Ct → Prop
  | junk {t} : LTy m defs D h .junk t
  | unit : LTy m defs D h .unit .unit
  | int {b v} : v < 2 ^ b → LTy m defs D h (.int b v) (.u b)
  | prim {k t} : NotData D t → LTy m defs D h (.prim k) t
  | ptr {a v t} : h[a]? = some v → LTy m defs D h v t → LTy m defs D h (.ptr a) (.ptr t)
  | struct {id fs vs} : (id, .struct fs) ∈ defs → LTys m defs D h vs fs → LTy m defs D h (.struct id vs) (.id id)
  | union {id cs v c} : (id, .union cs) ∈ defs → c ∈ cs → LTy m defs D h v c → LTy m defs D h (.union id v) (.id id)
  | data {k x w} : m.get k = some x → LTy m defs D h w x.toCt → LTy m defs D h w (.id k)
/-- Field by field. -/
inductive LTys (m : HMap Nat Expansion) (defs : List (Nat × Def)) (D : List (Nat × Data)) (h : List LV) : List LV → List Ct → Prop
  | nil : LTys m defs D h [] []
  | cons {v t vs ts} : LTy m defs D h v t → LTys m defs D h vs ts → LTys m defs D h (v :: vs) (t :: ts)
end

end Verif.DataExpander
