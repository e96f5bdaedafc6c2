import Verif.Heap2Stack.Model

/-
What it means to run an expression, said without the pass.

Memory is a partial map from addresses.  An `Alloc` in the heap gives an address that was never
given before.  An `Alloc` in the stack gives the one place that the frame of the running call has
for that `Alloc`, however often it runs, and the place is gone when the call returns.  The order
of evaluation is the one of /repo/llrl0/src/backend/chibi/codegen.rs:248-470, :844-851, :1086-1130.

What is simplified: the operations other than load, store, allocation and control (arithmetic,
pointer copies, arrays, C functions) are a parameter; the environment of a closure is a value; the
heap allocator is named by a counter that moves at every `Alloc`, so the addresses that it gives
do not depend on where an `Alloc` is placed.
-/

namespace Verif.Heap2Stack

/-- Addresses: one per heap allocation, one per frame and stack allocation, and those that the
other operations allocate. -/
inductive Addr
  | heap (n site : Nat)
  | stack (frame site : Nat)
  | obj (n : Nat)
deriving DecidableEq, Repr

/-- Values. -/
inductive V
  | word (n : Nat)
  | ptr (a : Addr)
  | pair (v w : V)
  | clos (f : Nat) (env : V)
deriving DecidableEq, Repr

/-- Memory. -/
abbrev Mem := Addr → Option V

/-- Memory, the number of allocations made and the number of calls made. -/
structure State where
  mem : Mem
  tick : Nat
  frames : Nat

/-- How an expression ends when it does not give a value. -/
inductive Exit
  | ret (v : V)
  | jump (k : Nat) (vs : List V)
  | panic (v : V)
deriving DecidableEq, Repr

/-- Why there is no outcome: still running, or an undefined step. -/
inductive Stop
  | fuel
  | stuck
deriving DecidableEq, Repr

/-- Outcomes. -/
abbrev Res (α : Type) := Except Stop (Except Exit α × State)

/-- Sequencing: exits are passed on. -/
def Res.bind {α β : Type} (r : Res α) (f : α → State → Res β) : Res β :=
  match r with
  | .error s => .error s
  | .ok (.error x, σ) => .ok (.error x, σ)
  | .ok (.ok a, σ) => f a σ

/-- Environments. -/
abbrev Env := Nat → Option V

/-- One more variable. -/
def Env.set (ρ : Env) (x : Nat) (v : V) : Env := fun y => if y = x then some v else ρ y

/-- Several more variables; the numbers must agree. -/
def Env.setAll (ρ : Env) : List Nat → List V → Option Env
  | [], [] => some ρ
  | x :: xs, v :: vs => Env.setAll (ρ.set x v) xs vs
  | _, _ => none

/-- The variables of a closure's environment. -/
def Env.setEnv (ρ : Env) : List Nat → V → Option Env
  | [], _ => some ρ
  | x :: xs, .pair v w => Env.setEnv (ρ.set x v) xs w
  | _ :: _, _ => none

/-- A cell of memory written. -/
def Mem.set (m : Mem) (a : Addr) (v : V) : Mem := fun b => if b = a then some v else m b

/-- The places of a frame given back. -/
def Mem.pop (m : Mem) (fr : Nat) : Mem := fun b =>
  match b with
  | .stack f _ => if f = fr then none else m b
  | _ => m b

/-- The other operations: from operands, memory and the counter to a value, memory and the
counter. -/
abbrev Prim := Nat → List V → Mem → Nat → Option (V × Mem × Nat)

/-- The continuation `k` of a group. -/
def Conts.find (k : Nat) : Conts → Option (List Nat × Rt)
  | .nil => none
  | .cons j ps b ks => if k = j then some (ps, b) else Conts.find k ks

/-- How a call ends: the frame is given back; leaving a function by a jump is undefined. -/
def leave (fr : Nat) : Res V → Res V
  | .error s => .error s
  | .ok (.ok v, σ) => .ok (.ok v, { σ with mem := σ.mem.pop fr })
  | .ok (.error (.ret v), σ) => .ok (.ok v, { σ with mem := σ.mem.pop fr })
  | .ok (.error (.panic v), σ) => .ok (.error (.panic v), σ)
  | .ok (.error (.jump _ _), _) => .error .stuck

mutual
/-- Running an expression in a frame. -/
def eval (prog : List Fn) (prim : Prim) : Nat → Nat → Env → Rt → State → Res V
  | 0, _, _, _, _ => .error .fuel
  | n + 1, fr, ρ, e, σ =>
    match e with
    | .var x =>
      match ρ x with
      | some v => .ok (.ok v, σ)
      | none => .error .stuck
    | .fn f => .ok (.ok (.clos f (.word 0)), σ)
    | .clos f e =>
      (eval prog prim n fr ρ e σ).bind fun v σ => .ok (.ok (.clos f v), σ)
    | .prim op as =>
      (evalList prog prim n fr ρ as σ).bind fun vs σ =>
        match prim op vs σ.mem σ.tick with
        | some (v, m, t) => .ok (.ok v, { σ with mem := m, tick := t })
        | none => .error .stuck
    | .call c as =>
      (evalList prog prim n fr ρ as σ).bind fun vs σ =>
        (eval prog prim n fr ρ c σ).bind fun f σ => apply prog prim n f vs σ
    | .contCall k as =>
      (evalList prog prim n fr ρ as σ).bind fun vs σ => .ok (.error (.jump k vs), σ)
    | .load p =>
      (eval prog prim n fr ρ p σ).bind fun v σ =>
        match v with
        | .ptr a =>
          match σ.mem a with
          | some w => .ok (.ok w, σ)
          | none => .error .stuck
        | _ => .error .stuck
    | .store v p =>
      (eval prog prim n fr ρ v σ).bind fun v σ =>
        (eval prog prim n fr ρ p σ).bind fun p σ =>
          match p with
          | .ptr a =>
            match σ.mem a with
            | some _ => .ok (.ok (.word 0), { σ with mem := σ.mem.set a v })
            | none => .error .stuck
          | _ => .error .stuck
    | .panic e =>
      (eval prog prim n fr ρ e σ).bind fun v σ => .ok (.error (.panic v), σ)
    | .alloc l s i =>
      (eval prog prim n fr ρ i σ).bind fun v σ =>
        let a := match l with
          | .heap => Addr.heap σ.tick s
          | .stackStatic => Addr.stack fr s
        .ok (.ok (.ptr a), { σ with mem := σ.mem.set a v, tick := σ.tick + 1 })
    | .seq ss e =>
      (evalList prog prim n fr ρ ss σ).bind fun _ σ => eval prog prim n fr ρ e σ
    | .ite c t e =>
      (eval prog prim n fr ρ c σ).bind fun v σ =>
        match v with
        | .word 0 => eval prog prim n fr ρ e σ
        | .word _ => eval prog prim n fr ρ t σ
        | _ => .error .stuck
    | .while c b =>
      (eval prog prim n fr ρ c σ).bind fun v σ =>
        match v with
        | .word 0 => .ok (.ok (.word 0), σ)
        | .word _ =>
          (eval prog prim n fr ρ b σ).bind fun _ σ => eval prog prim n fr ρ (.while c b) σ
        | _ => .error .stuck
    | .ret e =>
      (eval prog prim n fr ρ e σ).bind fun v σ => .ok (.error (.ret v), σ)
    | .never => .error .stuck
    | .letVar .nil b => eval prog prim n fr ρ b σ
    | .letVar (.cons x i vs) b =>
      (eval prog prim n fr ρ i σ).bind fun v σ =>
        eval prog prim n fr (ρ.set x v) (.letVar vs b) σ
    | .letCont ks b => handle prog prim n fr ρ ks (eval prog prim n fr ρ b σ)

/-- Running operands from left to right. -/
def evalList (prog : List Fn) (prim : Prim) : Nat → Nat → Env → Rts → State → Res (List V)
  | 0, _, _, _, _ => .error .fuel
  | n + 1, fr, ρ, es, σ =>
    match es with
    | .nil => .ok (.ok [], σ)
    | .cons e es =>
      (eval prog prim n fr ρ e σ).bind fun v σ =>
        (evalList prog prim n fr ρ es σ).bind fun vs σ => .ok (.ok (v :: vs), σ)

/-- Calling a closure: a frame of its own for the call. -/
def apply (prog : List Fn) (prim : Prim) : Nat → V → List V → State → Res V
  | 0, _, _, _ => .error .fuel
  | n + 1, f, vs, σ =>
    match f with
    | .clos f env =>
      match prog[f]? with
      | some fn =>
        match (Env.setEnv (fun _ => none) fn.env env).bind fun ρ => ρ.setAll fn.params vs with
        | some ρ =>
          leave σ.frames
            (eval prog prim n σ.frames ρ fn.body { σ with frames := σ.frames + 1 })
        | none => .error .stuck
      | none => .error .stuck
    | _ => .error .stuck

/-- Running the continuations that are jumped to. -/
def handle (prog : List Fn) (prim : Prim) : Nat → Nat → Env → Conts → Res V → Res V
  | 0, _, _, _, _ => .error .fuel
  | n + 1, fr, ρ, ks, r =>
    match r with
    | .ok (.error (.jump k vs), σ) =>
      match ks.find k with
      | some (ps, b) =>
        match ρ.setAll ps vs with
        | some ρ' => handle prog prim n fr ρ ks (eval prog prim n fr ρ' b σ)
        | none => .error .stuck
      | none => .ok (.error (.jump k vs), σ)
    | r => r
end

/-- A value that mentions none of the hidden addresses. -/
def V.clean (hid : Addr → Bool) : V → Prop
  | .word _ => True
  | .ptr a => hid a = false
  | .pair v w => v.clean hid ∧ w.clean hid
  | .clos _ v => v.clean hid

/-- The addresses of a set of allocations. -/
def hidden (sites : List Nat) : Addr → Bool
  | .heap _ s => s ∈ sites
  | .stack _ s => s ∈ sites
  | .obj _ => false

/-- Two memories agree on what is not hidden, and nothing there mentions what is hidden. -/
def Agree (hid : Addr → Bool) (m m' : Mem) : Prop :=
  ∀ a, hid a = false → m a = m' a ∧ ∀ v, m a = some v → v.clean hid

/-- The other operations only reach what they are given: with operands that mention no hidden
address, and memory that mentions none outside the hidden cells, they neither read nor write the
hidden cells, and what they give mentions none. -/
def Prim.Local (prim : Prim) : Prop :=
  ∀ (sites : List Nat) (op : Nat) (vs : List V) (m m' : Mem) (t : Nat) (v : V) (m₁ : Mem)
    (t₁ : Nat),
    Agree (hidden sites) m m' → (∀ v ∈ vs, v.clean (hidden sites)) →
    prim op vs m t = some (v, m₁, t₁) →
    t ≤ t₁ ∧ v.clean (hidden sites) ∧ (∀ a, hidden sites a = true → m₁ a = m a) ∧
    ∃ m₁', prim op vs m' t = some (v, m₁', t₁) ∧ Agree (hidden sites) m₁ m₁' ∧
      ∀ a, hidden sites a = true → m₁' a = m' a

mutual
/-- The variables that occur other than right under a load or as the target of a store: these
are the occurrences that use the address as a value. -/
def escs : Rt → List Nat
  | .var x => [x]
  | .fn _ => []
  | .clos _ e => escs e
  | .prim _ as => escsList as
  | .call c as => escs c ++ escsList as
  | .contCall _ as => escsList as
  | .load (.var _) => []
  | .load p => escs p
  | .store v (.var _) => escs v
  | .store v p => escs v ++ escs p
  | .panic e => escs e
  | .alloc _ _ i => escs i
  | .seq ss e => escsList ss ++ escs e
  | .ite c t e => escs c ++ escs t ++ escs e
  | .while c b => escs c ++ escs b
  | .ret e => escs e
  | .never => []
  | .letVar vs b => escsVars vs ++ escs b
  | .letCont ks b => escsConts ks ++ escs b

/-- The same for operands. -/
def escsList : Rts → List Nat
  | .nil => []
  | .cons e es => escs e ++ escsList es

/-- The same for initial values. -/
def escsVars : Vars → List Nat
  | .nil => []
  | .cons _ i vs => escs i ++ escsVars vs

/-- The same for continuations. -/
def escsConts : Conts → List Nat
  | .nil => []
  | .cons _ _ b ks => escs b ++ escsConts ks
end

mutual
/-- The variables that `let` binds in an expression. -/
def binders : Rt → List Nat
  | .var _ | .fn _ | .never => []
  | .clos _ e | .load e | .panic e | .alloc _ _ e | .ret e => binders e
  | .prim _ as | .contCall _ as => bindersList as
  | .call c as => binders c ++ bindersList as
  | .store v p => binders v ++ binders p
  | .seq ss e => bindersList ss ++ binders e
  | .ite c t e => binders c ++ binders t ++ binders e
  | .while c b => binders c ++ binders b
  | .letVar vs b => bindersVars vs ++ binders b
  | .letCont ks b => bindersConts ks ++ binders b

/-- The same for operands. -/
def bindersList : Rts → List Nat
  | .nil => []
  | .cons e es => binders e ++ bindersList es

/-- The same for initial values, with the variables themselves. -/
def bindersVars : Vars → List Nat
  | .nil => []
  | .cons x i vs => x :: (binders i ++ bindersVars vs)

/-- The same for continuations. -/
def bindersConts : Conts → List Nat
  | .nil => []
  | .cons _ _ b ks => binders b ++ bindersConts ks
end

mutual
/-- The allocations of an expression. -/
def sites : Rt → List Nat
  | .var _ | .fn _ | .never => []
  | .clos _ e | .load e | .panic e | .ret e => sites e
  | .alloc _ s e => s :: sites e
  | .prim _ as | .contCall _ as => sitesList as
  | .call c as => sites c ++ sitesList as
  | .store v p => sites v ++ sites p
  | .seq ss e => sitesList ss ++ sites e
  | .ite c t e => sites c ++ sites t ++ sites e
  | .while c b => sites c ++ sites b
  | .letVar vs b => sitesVars vs ++ sites b
  | .letCont ks b => sitesConts ks ++ sites b

/-- The same for operands. -/
def sitesList : Rts → List Nat
  | .nil => []
  | .cons e es => sites e ++ sitesList es

/-- The same for initial values. -/
def sitesVars : Vars → List Nat
  | .nil => []
  | .cons _ i vs => sites i ++ sitesVars vs

/-- The same for continuations. -/
def sitesConts : Conts → List Nat
  | .nil => []
  | .cons _ _ b ks => sites b ++ sitesConts ks
end

/-- What the earlier passes give: in each function no variable is bound twice, and all
allocations of the program have their own number. -/
def WellNamed (prog : List Fn) : Prop :=
  (∀ f ∈ prog, (binders f.body).Nodup) ∧ (prog.flatMap fun f => sites f.body).Nodup

mutual
/-- One expression is the other with some allocations moved to the stack, each of which is the
initial value of a variable that, in the `let` that binds it, is only loaded from and stored to. -/
inductive Moves : Rt → Rt → Prop
  | var (x) : Moves (.var x) (.var x)
  | fn (f) : Moves (.fn f) (.fn f)
  | clos (f) {e e'} : Moves e e' → Moves (.clos f e) (.clos f e')
  | prim (op) {as as'} : MovesList as as' → Moves (.prim op as) (.prim op as')
  | call {c c' as as'} : Moves c c' → MovesList as as' → Moves (.call c as) (.call c' as')
  | contCall (k) {as as'} : MovesList as as' → Moves (.contCall k as) (.contCall k as')
  | load {p p'} : Moves p p' → Moves (.load p) (.load p')
  | store {v v' p p'} : Moves v v' → Moves p p' → Moves (.store v p) (.store v' p')
  | panic {e e'} : Moves e e' → Moves (.panic e) (.panic e')
  | alloc (l s) {i i'} : Moves i i' → Moves (.alloc l s i) (.alloc l s i')
  | seq {ss ss' e e'} : MovesList ss ss' → Moves e e' → Moves (.seq ss e) (.seq ss' e')
  | ite {c c' t t' e e'} : Moves c c' → Moves t t' → Moves e e' →
      Moves (.ite c t e) (.ite c' t' e')
  | while {c c' b b'} : Moves c c' → Moves b b' → Moves (.while c b) (.while c' b')
  | ret {e e'} : Moves e e' → Moves (.ret e) (.ret e')
  | never : Moves .never .never
  | letVar {vs vs' b b'} : MovesVars (escsVars vs ++ escs b) vs vs' → Moves b b' →
      Moves (.letVar vs b) (.letVar vs' b')
  | letCont {ks ks' b b'} : MovesConts ks ks' → Moves b b' →
      Moves (.letCont ks b) (.letCont ks' b')

/-- The same for operands. -/
inductive MovesList : Rts → Rts → Prop
  | nil : MovesList .nil .nil
  | cons {e e' es es'} : Moves e e' → MovesList es es' → MovesList (.cons e es) (.cons e' es')

/-- The same for the variables of a `let`, given the variables whose address it uses. -/
inductive MovesVars : List Nat → Vars → Vars → Prop
  | nil (E) : MovesVars E .nil .nil
  | keep {E} (x) {i i' vs vs'} : Moves i i' → MovesVars E vs vs' →
      MovesVars E (.cons x i vs) (.cons x i' vs')
  | move {E} (x l s) {i i' vs vs'} : x ∉ E → Moves i i' → MovesVars E vs vs' →
      MovesVars E (.cons x (.alloc l s i) vs) (.cons x (.alloc .stackStatic s i') vs')

/-- The same for continuations. -/
inductive MovesConts : Conts → Conts → Prop
  | nil : MovesConts .nil .nil
  | cons (k ps) {b b' ks ks'} : Moves b b' → MovesConts ks ks' →
      MovesConts (.cons k ps b ks) (.cons k ps b' ks')
end

/-- One outcome of a run stands for the other: both still run, or they give the same value or
exit, with the same memory outside the cells of the allocations that were moved.  Nothing is said
when the original run is undefined. -/
def SameOutcome (hid : Addr → Bool) : Res V → Res V → Prop
  | .error .stuck, _ => True
  | .error .fuel, r => r = .error .fuel
  | .ok (o, σ), r => ∃ σ', r = .ok (o, σ') ∧ ∀ a, hid a = false → σ.mem a = σ'.mem a

end Verif.Heap2Stack
