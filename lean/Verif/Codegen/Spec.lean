import Verif.Codegen.Model

/-!
# What a lowered expression means

Values are lists of eightbytes.  Sub-expressions are evaluated from left to right, the arguments of a call before its callee; this is the order of
the LLVM backend (backend/llvm/codegen.rs: `eval_all` of the arguments, then the callee).  The flag `rtl` stands for the other order of the
arguments of C functions.  Memory is allocated before the value to be put there is computed.  Loads and stores are defined at non-negative
addresses; where the stack is, nothing is.  An expression has no meaning (`none`) when fuel runs out, when sizes do not fit, when a function or
continuation is not there, or when control reaches `never`.
-/
namespace Verif.Codegen.Spec
open Verif.Codegen

/-- Memory, where the next allocation is, and the calls of C functions so far. -/
structure S where
  heap : Int → Int
  brk : Int
  out : List (Nat × List Int)

/-- How an evaluation ends: with a value, with a `return`, with a jump to a continuation. -/
inductive Res
  | val (v : List Int)
  | ret (v : List Int)
  | jump (k : Nat) (vs : List (List Int))

/-- The surroundings of a program: what C functions answer, the value of (the pointer to) a function, the functions, the order. -/
structure Env where
  ext : List (Nat × List Int) → Nat → List Int → Int × Int
  addr : Nat → Int
  fns : List Fun
  rtl : Bool

/-- Write consecutive eightbytes. -/
def write (h : Int → Int) (p : Int) : List Int → Int → Int
  | [] => h
  | x :: xs => write (upd h p x) (p + 8) xs

/-- Read consecutive eightbytes. -/
def read (h : Int → Int) (p : Int) : Nat → List Int
  | 0 => []
  | n + 1 => h p :: read h (p + 8) n

/-- The values of variables; `[]` for those out of scope. -/
abbrev Vals := Nat → List Int

/-- Bind a variable. -/
def bind (ρ : Vals) (x : Nat) (v : List Int) : Vals := fun y => if y = x then v else ρ y

/-- Bind variables; sizes and number have to agree. -/
def bindAll : Vals → List Binder → List (List Int) → Option Vals
  | ρ, [], [] => some ρ
  | ρ, b :: bs, v :: vs => if v.length = b.2 then bindAll (bind ρ b.1 v) bs vs else none
  | _, _, _ => none

/-- The elements of an environment in memory. -/
def readAll (h : Int → Int) : Int → List Binder → List (List Int)
  | _, [] => []
  | p, b :: bs => read h p b.2 :: readAll h (p + 8 * (b.2 : Int)) bs

/-- The variables of a function at its start. -/
def entry (f : Fun) (env : Int) (args : List (List Int)) (s : S) : Option Vals :=
  match f.env with
  | none => bindAll (fun _ => []) f.params args
  | some (id, elems) =>
    if 0 ≤ env then do
      let ρ ← bindAll (bind (fun _ => []) id [env]) elems (readAll s.heap env elems)
      bindAll ρ f.params args
    else none

/-- The continuation with that name: its parameters and body. -/
def findCont : Conts → Nat → Option (List Binder × Rt)
  | .nil, _ => none
  | .cons k ps b cs, k' => if k' = k then some (ps, b) else findCont cs k'

/-- The continuations that may be jumped to. -/
abbrev Scope := List Nat

/-- The names of continuations. -/
def contIds : Conts → List Nat
  | .nil => []
  | .cons k _ _ cs => k :: contIds cs

mutual
/-- The meaning of an expression. -/
def eval (E : Env) : Nat → Scope → Vals → Rt → S → Option (Res × S)
  | 0, _, _, _, _ => none
  | _ + 1, _, ρ, .var x n, s => if (ρ x).length = n then some (.val (ρ x), s) else none
  | _ + 1, _, _, .sfun c, s => some (.val [E.addr c, 0], s)
  | k + 1, K, ρ, .clos c e, s => do
    let (r, s) ← eval E k K ρ e s
    match r with
    | .val [p] => some (.val [E.addr c, p], s)
    | .val _ => none
    | r => some (r, s)
  | _ + 1, _, _, .const i, s => some (.val [i], s)
  | _ + 1, _, _, .unit, s => some (.val [], s)
  | k + 1, K, ρ, .call c _ ret args, s => do
    let (r, s) ← evals E k K ρ args s
    match r with
    | .error r => some (r, s)
    | .ok vs =>
      let (r, s) ← eval E k K ρ c s
      match r with
      | .val [a, env] =>
        let f ← E.fns.find? fun f => E.addr f.id = a
        if f.ret = ret then
          let (v, s) ← apply E k f env vs s
          some (.val v, s)
        else none
      | .val _ => none
      | r => some (r, s)
  | k + 1, K, ρ, .ccall sym ret args, s => do
    let (r, s) ← (if E.rtl then evalsR E k K ρ args s else evals E k K ρ args s)
    match r with
    | .error r => some (r, s)
    | .ok vs =>
      let v := E.ext s.out sym vs.flatten
      some (.val ([v.1, v.2].take ret), { s with out := s.out ++ [(sym, vs.flatten)] })
  | k + 1, K, ρ, .jump c _ args, s =>
    if c ∈ K then do
      let (r, s) ← evals E k K ρ args s
      match r with
      | .error r => some (r, s)
      | .ok vs => some (.jump c vs, s)
    else none
  | k + 1, K, ρ, .bin op a b, s => do
    let (r, s) ← eval E k K ρ a s
    match r with
    | .val v =>
      let (r, s) ← eval E k K ρ b s
      match r with
      | .val w => match v, w with
        | [x], [y] => some (.val [op.run x y], s)
        | _, _ => none
      | r => some (r, s)
    | r => some (r, s)
  | k + 1, K, ρ, .load n p, s => do
    let (r, s) ← eval E k K ρ p s
    match r with
    | .val [p] => if 0 ≤ p then some (.val (read s.heap p n), s) else none
    | .val _ => none
    | r => some (r, s)
  | k + 1, K, ρ, .store v p, s => do
    let (r, s) ← eval E k K ρ v s
    match r with
    | .val v =>
      let (r, s) ← eval E k K ρ p s
      match r with
      | .val [p] => if 0 ≤ p then some (.val [], { s with heap := write s.heap p v }) else none
      | .val _ => none
      | r => some (r, s)
    | r => some (r, s)
  | k + 1, K, ρ, .elem o n a, s => do
    let (r, s) ← eval E k K ρ a s
    match r with
    | .val v => if o + n ≤ v.length then some (.val ((v.drop o).take n), s) else none
    | r => some (r, s)
  | k + 1, K, ρ, .alloc e, s =>
    match tyOf e with
    | none => eval E k K ρ e s
    | some n => do
      let p := s.brk
      let (r, s) ← eval E k K ρ e { s with brk := p + 8 * (n : Int) }
      match r with
      | .val v => some (.val [p], { s with heap := write s.heap p v })
      | r => some (r, s)
  | k + 1, K, ρ, .mkEnv es, s =>
    match tysOf es with
    | none => do
      let (r, s) ← evals E k K ρ es s
      match r with
      | .ok _ => none
      | .error r => some (r, s)
    | some ns => do
      let p := s.brk
      let (r, s) ← evalEnv E k K ρ es p { s with brk := p + 8 * (sum ns : Int) }
      match r with
      | none => some (.val [p], s)
      | some r => some (r, s)
  | k + 1, K, ρ, .mkStruct _ es, s => do
    let (r, s) ← evals E k K ρ es s
    match r with
    | .ok vs => some (.val vs.flatten, s)
    | .error r => some (r, s)
  | k + 1, K, ρ, .seq es e, s => do
    let (r, s) ← evals E k K ρ es s
    match r with
    | .ok _ => eval E k K ρ e s
    | .error r => some (r, s)
  | k + 1, K, ρ, .ite c t e, s => do
    let (r, s) ← eval E k K ρ c s
    match r with
    | .val [b] => if b = 0 then eval E k K ρ e s else eval E k K ρ t s
    | .val _ => none
    | r => some (r, s)
  | k + 1, K, ρ, .loop c b, s => do
    let (r, s) ← eval E k K ρ c s
    match r with
    | .val [x] =>
      if x = 0 then some (.val [], s)
      else
        let (r, s) ← eval E k K ρ b s
        match r with
        | .val _ => eval E k K ρ (.loop c b) s
        | r => some (r, s)
    | .val _ => none
    | r => some (r, s)
  | k + 1, K, ρ, .ret e, s => do
    let (r, s) ← eval E k K ρ e s
    match r with
    | .val v => some (.ret v, s)
    | r => some (r, s)
  | _ + 1, _, _, .never, _ => none
  | k + 1, K, ρ, .letVar vs body, s => do
    let (r, s) ← evalVars E k K ρ vs s
    match r with
    | .ok ρ => eval E k K ρ body s
    | .error r => some (r, s)
  | k + 1, K, ρ, .letCont cs body, s =>
    if (contIds cs).Nodup ∧ ∀ c ∈ contIds cs, c ∉ K then do
      let (r, s) ← eval E k (contIds cs ++ K) ρ body s
      match r with
      | .jump c vs =>
        match findCont cs c with
        | some (ps, b) => do
          let ρ ← bindAll ρ ps vs
          eval E k K ρ b s
        | none => some (.jump c vs, s)
      | r => some (r, s)
    else none
/-- Several expressions from left to right; a `return` or jump ends it. -/
def evals (E : Env) : Nat → Scope → Vals → Rts → S → Option (Except Res (List (List Int)) × S)
  | 0, _, _, _, _ => none
  | _ + 1, _, _, .nil, s => some (.ok [], s)
  | k + 1, K, ρ, .cons e es, s => do
    let (r, s) ← eval E k K ρ e s
    match r with
    | .val v =>
      let (r, s) ← evals E k K ρ es s
      match r with
      | .ok vs => some (.ok (v :: vs), s)
      | .error r => some (.error r, s)
    | r => some (.error r, s)
/-- Several expressions from right to left. -/
def evalsR (E : Env) : Nat → Scope → Vals → Rts → S → Option (Except Res (List (List Int)) × S)
  | 0, _, _, _, _ => none
  | _ + 1, _, _, .nil, s => some (.ok [], s)
  | k + 1, K, ρ, .cons e es, s => do
    let (r, s) ← evalsR E k K ρ es s
    match r with
    | .ok vs =>
      let (r, s) ← eval E k K ρ e s
      match r with
      | .val v => some (.ok (v :: vs), s)
      | r => some (.error r, s)
    | .error r => some (.error r, s)
/-- The elements of an environment, each put in its place. -/
def evalEnv (E : Env) : Nat → Scope → Vals → Rts → Int → S → Option (Option Res × S)
  | 0, _, _, _, _, _ => none
  | _ + 1, _, _, .nil, _, s => some (none, s)
  | k + 1, K, ρ, .cons e es, p, s => do
    let (r, s) ← eval E k K ρ e s
    match r with
    | .val v => evalEnv E k K ρ es (p + 8 * (v.length : Int)) { s with heap := write s.heap p v }
    | r => some (some r, s)
/-- Variables, each in the scope of the ones before it. -/
def evalVars (E : Env) : Nat → Scope → Vals → Vars → S → Option (Except Res Vals × S)
  | 0, _, _, _, _ => none
  | _ + 1, _, ρ, .nil, s => some (.ok ρ, s)
  | k + 1, K, ρ, .cons x e vs, s => do
    let (r, s) ← eval E k K ρ e s
    match r with
    | .val v => if v.length = x.2 then evalVars E k K (bind ρ x.1 v) vs s else none
    | r => some (.error r, s)
/-- The application of a function. -/
def apply (E : Env) : Nat → Fun → Int → List (List Int) → S → Option (List Int × S)
  | 0, _, _, _, _ => none
  | k + 1, f, env, args, s => do
    let ρ ← entry f env args s
    let (r, s) ← eval E k [] ρ f.body s
    match r with
    | .val v | .ret v => if v.length = f.ret then some (v, s) else none
    | .jump _ _ => none
end

/-! ### Programs the generator is right about -/

mutual
/-- Whether control can reach the end of an expression. -/
def falls : Rt → Bool
  | .var _ _ | .sfun _ | .const _ | .unit => true
  | .clos _ e => falls e
  | .call c _ _ args => fallsL args && falls c
  | .ccall _ _ args => fallsL args
  | .jump _ _ _ => false
  | .bin _ a b => falls a && falls b
  | .load _ p => falls p
  | .store v p => falls v && falls p
  | .elem _ _ a => falls a
  | .alloc e => falls e
  | .mkEnv es => fallsL es
  | .mkStruct _ es => fallsL es
  | .seq es e => fallsL es && falls e
  | .ite c t e => falls c && (falls t || falls e)
  | .loop c _ => falls c
  | .ret _ => false
  | .never => false
  | .letVar vs b => fallsV vs && falls b
  | .letCont cs b => falls b || fallsC cs
/-- All of them. -/
def fallsL : Rts → Bool
  | .nil => true
  | .cons e es => falls e && fallsL es
/-- All of them. -/
def fallsV : Vars → Bool
  | .nil => true
  | .cons _ e vs => falls e && fallsV vs
/-- Some of them. -/
def fallsC : Conts → Bool
  | .nil => false
  | .cons _ _ b cs => falls b || fallsC cs
end

mutual
/-- Every callee has a type, every argument of a C function has one, and control can reach the end of every body of a loop. -/
def Tame : Rt → Prop
  | .var _ _ | .sfun _ | .const _ | .unit | .never => True
  | .clos _ e => Tame e
  | .call c _ _ args => tyOf c ≠ none ∧ Tame c ∧ TameL args
  | .ccall _ _ args => tysOf args ≠ none ∧ TameL args
  | .jump _ _ args => TameL args
  | .bin _ a b => Tame a ∧ Tame b
  | .load _ p => Tame p
  | .store v p => Tame v ∧ Tame p
  | .elem _ _ a => Tame a
  | .alloc e => Tame e
  | .mkEnv es => TameL es
  | .mkStruct _ es => TameL es
  | .seq es e => TameL es ∧ Tame e
  | .ite c t e => Tame c ∧ Tame t ∧ Tame e
  | .loop c b => Tame c ∧ Tame b ∧ falls b = true
  | .ret e => Tame e
  | .letVar vs b => TameV vs ∧ Tame b
  | .letCont cs b => TameC cs ∧ Tame b
/-- All of them. -/
def TameL : Rts → Prop
  | .nil => True
  | .cons e es => Tame e ∧ TameL es
/-- All of them. -/
def TameV : Vars → Prop
  | .nil => True
  | .cons _ e vs => Tame e ∧ TameV vs
/-- All of them. -/
def TameC : Conts → Prop
  | .nil => True
  | .cons _ _ b cs => Tame b ∧ TameC cs
end

mutual
/-- No jump to a continuation. -/
def noJump : Rt → Bool
  | .var _ _ | .sfun _ | .const _ | .unit | .never => true
  | .clos _ e => noJump e
  | .call c _ _ args => noJump c && noJumpL args
  | .ccall _ _ args => noJumpL args
  | .jump _ _ _ => false
  | .bin _ a b => noJump a && noJump b
  | .load _ p => noJump p
  | .store v p => noJump v && noJump p
  | .elem _ _ a => noJump a
  | .alloc e => noJump e
  | .mkEnv es => noJumpL es
  | .mkStruct _ es => noJumpL es
  | .seq es e => noJumpL es && noJump e
  | .ite c t e => noJump c && noJump t && noJump e
  | .loop c b => noJump c && noJump b
  | .ret e => noJump e
  | .letVar vs b => noJumpV vs && noJump b
  | .letCont cs b => noJumpC cs && noJump b
/-- In none of them. -/
def noJumpL : Rts → Bool
  | .nil => true
  | .cons e es => noJump e && noJumpL es
/-- In none of them. -/
def noJumpV : Vars → Bool
  | .nil => true
  | .cons _ e vs => noJump e && noJumpV vs
/-- In none of them. -/
def noJumpC : Conts → Bool
  | .nil => true
  | .cons _ _ b cs => noJump b && noJumpC cs
end

mutual
/-- There is no jump in an argument of a jump. -/
def Flat : Rt → Prop
  | .var _ _ | .sfun _ | .const _ | .unit | .never => True
  | .clos _ e => Flat e
  | .call c _ _ args => Flat c ∧ FlatL args
  | .ccall _ _ args => FlatL args
  | .jump _ _ args => noJumpL args = true ∧ FlatL args
  | .bin _ a b => Flat a ∧ Flat b
  | .load _ p => Flat p
  | .store v p => Flat v ∧ Flat p
  | .elem _ _ a => Flat a
  | .alloc e => Flat e
  | .mkEnv es => FlatL es
  | .mkStruct _ es => FlatL es
  | .seq es e => FlatL es ∧ Flat e
  | .ite c t e => Flat c ∧ Flat t ∧ Flat e
  | .loop c b => Flat c ∧ Flat b
  | .ret e => Flat e
  | .letVar vs b => FlatV vs ∧ Flat b
  | .letCont cs b => FlatC cs ∧ Flat b
/-- All of them. -/
def FlatL : Rts → Prop
  | .nil => True
  | .cons e es => Flat e ∧ FlatL es
/-- All of them. -/
def FlatV : Vars → Prop
  | .nil => True
  | .cons _ e vs => Flat e ∧ FlatV vs
/-- All of them. -/
def FlatC : Conts → Prop
  | .nil => True
  | .cons _ _ b cs => Flat b ∧ FlatC cs
end

/-! ### The calling convention -/

/-- Memory, allocations and calls of the machine are those of the meaning. -/
structure Same (s : S) (m : M) : Prop where
  heap : ∀ a, 0 ≤ a → m.mem a = s.heap a
  brk : m.brk = s.brk
  out : m.out = s.out

/-- Eightbytes of the result in memory: those of a result of more than two. -/
def inMemory (f : Fun) : Nat := if f.ret ≤ 2 then 0 else f.ret

/-- The function has just been called: the stack is aligned but for the return address, the arguments are above it with the last one first, the
address of the environment is in `rsi`, the address `D` of the memory for a large result, further up the stack, in `rdi`. -/
structure Called (C : Code) (f : Fun) (env : Int) (args : List (List Int)) (D : Int) (m : M) : Prop where
  pc : m.pc = find C (.fn f.id)
  aligned : m.r .rsp % 16 = 8
  pushed : read m.mem (m.r .rsp + 8) args.reverse.flatten.length = args.reverse.flatten
  rsi : m.r .rsi = env
  rdi : inMemory f ≠ 0 → m.r .rdi = D
  above : m.r .rsp + 8 + 8 * (args.reverse.flatten.length : Int) ≤ D
  stack : D + 8 * (inMemory f : Int) ≤ 0

/-- The function has returned `v`: control is at the return address, which is off the stack, the frame pointer is as it was, the result is in
`rax` and `rdx` or at `D`, and everything else on the stack above the return address is as it was. -/
structure Returned (f : Fun) (v : List Int) (D : Int) (m m' : M) : Prop where
  pc : m'.pc = m.mem (m.r .rsp)
  rsp : m'.r .rsp = m.r .rsp + 8
  rbp : m'.r .rbp = m.r .rbp
  small : f.ret ≤ 2 → v = [m'.r .rax, m'.r .rdx].take f.ret
  large : 2 < f.ret → v = read m'.mem D f.ret
  kept : ∀ a, m.r .rsp + 8 ≤ a → a < 0 → a < D ∨ D + 8 * (inMemory f : Int) ≤ a → m'.mem a = m.mem a

/-- The surroundings of a program: C functions answer as the world does, functions are where their code is. -/
def env (w : World) (C : Code) (fs : List Fun) (rtl : Bool) : Env := ⟨w.ext, fun c => find C (.fn c), fs, rtl⟩

/-- Whenever a call of a function of the program means something, the code computes it. -/
def Correct (w : World) (C : Code) (fs : List Fun) (rtl : Bool) : Prop :=
  ∀ f ∈ fs, ∀ k e args s v s', apply (env w C fs rtl) k f e args s = some (v, s') → 0 ≤ s.brk → ∀ m D, Called C f e args D m → Same s m →
    ∃ n m', run w C n m = some m' ∧ Returned f v D m m' ∧ Same s' m'

end Verif.Codegen.Spec
