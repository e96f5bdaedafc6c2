/-!
# What quasi-quotations and `s/match` mean, for C76 and C77

S-expressions as the macros of llrl see them, templates, and what it means to fill a
template and to fit one. Nothing here mentions how the macros expand.
-/

namespace Verif.Macro

/-- The data constructors of `Sexp`. -/
inductive Kind where
  | integer | fpnumber | bool | symbol | string | char | cons | nil | use
  deriving DecidableEq, Repr

/-- The constructs that the macros refer to with `\name`: the constructor `syntax`, the
constructors `sexp:k`, the macros `s:k` and `s:list`, `ok`, `err`, `some`, `none`, `try!`,
`try?`, `qq-append`, and anything else. -/
inductive Construct where
  | syntax | sexp (k : Kind) | s (k : Kind) | sList
  | ok | err | some | none | tryBang | tryOpt | qqAppend | other (name : String)
  deriving DecidableEq, Repr

/-- Texts, of symbols and of strings: the ones that the macros mention, the message of
`qq-append`, those that `gensym` makes, and all others. -/
inductive Text where
  | quote | unquote | unquoteSplicing | letS | matchS | returnS | wildcard | xS | eS
  | beginS | ifS | unit | elseS | whenS | whenMatch | whenMatch1 | whileS
  | spliceError | gen (n : Nat) | other (text : String)
  deriving DecidableEq, Repr

/-- S-expressions. Floating-point numbers are represented by their bits. -/
inductive Sexp where
  | integer (signed : Bool) (value : Nat)
  | fpnumber (bits : Nat)
  | bool (b : Bool)
  | sym (x : Text)
  | str (s : Text)
  | char (c : Nat)
  | cons (car cdr : Sexp)
  | nil
  | use (c : Construct)
  deriving DecidableEq, Repr

namespace Sexp

/-- The list of some S-expressions, with a tail. -/
def listTo : List Sexp → Sexp → Sexp
  | [], t => t
  | a :: as, t => .cons a (listTo as t)

/-- The proper list of some S-expressions. -/
def list (as : List Sexp) : Sexp := listTo as .nil

end Sexp

/-- Templates: what is written in a quasi-quotation, or in a pattern of `s/match`. -/
inductive Tmpl where
  /-- something that stands for itself -/
  | atom (s : Sexp)
  /-- `,e` -/
  | hole (e : Sexp)
  /-- `,@e` in a list, and what follows -/
  | splice (e : Sexp) (rest : Tmpl)
  | pair (car cdr : Tmpl)
  deriving DecidableEq, Repr

/-- How a template is written: `,e` is `(unquote e)`, `,@e` is `(unquote-splicing e)`. -/
def Tmpl.written : Tmpl → Sexp
  | .atom s => s
  | .hole e => .list [.sym .unquote, e]
  | .splice e rest => .cons (.list [.sym .unquoteSplicing, e]) rest.written
  | .pair a d => .cons a.written d.written

/-- The template that is written so. -/
def read : Sexp → Tmpl
  | .cons (.sym .unquote) (.cons e .nil) => .hole e
  | .cons (.cons (.sym .unquoteSplicing) (.cons e .nil)) rest => .splice e (read rest)
  | .cons a d => .pair (read a) (read d)
  | s => .atom s

/-- Values of the language, as far as the macros have to do with them. -/
inductive Val where
  | sexp (s : Sexp)
  | bool (b : Bool) | u64 (n : Nat) | fp (bits : Nat) | str (s : Text) | char (c : Nat)
  | construct (c : Construct)
  | ok (v : Val) | err (v : Val) | some (v : Val) | none | unit
  | other (n : Nat)
  deriving DecidableEq, Repr

/-- What an expression comes to: a value, or a `return` from the function it is in. -/
inductive Out where
  | val (v : Val)
  | ret (v : Val)
  deriving DecidableEq, Repr

/-- What a quasi-quotation comes to, when `V e st o st'` says that the expression `e`, begun
in the state `st`, comes to `o` and leaves the state `st'`. Expressions are evaluated from
left to right, the first `return` ends it; the elements of what is spliced come before what
follows; if that is not a list, an error is returned, but at the very end of a list
anything may be spliced. -/
inductive Fills {σ : Type} (V : Sexp → σ → Out → σ → Prop) : Tmpl → σ → Out → σ → Prop
  | atom {s st} : Fills V (.atom s) st (.val (.sexp s)) st
  | hole {e st o st'} : V e st o st' → Fills V (.hole e) st o st'
  | pair {a d st s st' t st''} : Fills V a st (.val (.sexp s)) st' →
      Fills V d st' (.val (.sexp t)) st'' →
      Fills V (.pair a d) st (.val (.sexp (.cons s t))) st''
  | pairRetCar {a d st r st'} : Fills V a st (.ret r) st' → Fills V (.pair a d) st (.ret r) st'
  | pairRetCdr {a d st s st' r st''} : Fills V a st (.val (.sexp s)) st' →
      Fills V d st' (.ret r) st'' → Fills V (.pair a d) st (.ret r) st''
  | last {e st o st'} : V e st o st' → Fills V (.splice e (.atom .nil)) st o st'
  | splice {e rest st as st' t st''} : rest ≠ .atom .nil →
      V e st (.val (.sexp (.list as))) st' → Fills V rest st' (.val (.sexp t)) st'' →
      Fills V (.splice e rest) st (.val (.sexp (.listTo as t))) st''
  | spliceNotList {e rest st s st' t st''} : rest ≠ .atom .nil →
      V e st (.val (.sexp s)) st' → (∀ as, s ≠ .list as) →
      Fills V rest st' (.val (.sexp t)) st'' →
      Fills V (.splice e rest) st (.ret (.err (.str .spliceError))) st''
  | spliceRet {e rest st r st'} : rest ≠ .atom .nil → V e st (.ret r) st' →
      Fills V (.splice e rest) st (.ret r) st'
  | spliceRetRest {e rest st s st' r st''} : rest ≠ .atom .nil →
      V e st (.val (.sexp s)) st' → Fills V rest st' (.ret r) st'' →
      Fills V (.splice e rest) st (.ret r) st''

/-- Expressions, evaluated one after the other, come to these S-expressions. -/
inductive InOrder {σ : Type} (V : Sexp → σ → Out → σ → Prop) :
    List Sexp → σ → List Sexp → σ → Prop
  | nil {st} : InOrder V [] st [] st
  | cons {e es st v st' vs st''} : V e st (.val (.sexp v)) st' → InOrder V es st' vs st'' →
      InOrder V (e :: es) st (v :: vs) st''

/-- Values of variables. -/
abbrev Binds := List (Text × Val)

/-- When an S-expression fits a template, and what the variables in it are, when
`P p s b` says that the pattern `p` of the language matches `s` with `b`. `_` fits anything;
other things fit themselves; `,x` fits anything and `x` is that; `,@x` fits any elements of
a list, at the very end of it anything. -/
inductive Fits (P : Sexp → Sexp → Binds → Prop) : Tmpl → Sexp → Binds → Prop
  | wildcard {s} : Fits P (.atom (.sym .wildcard)) s []
  | atom {s} : s ≠ .sym .wildcard → (∀ c, s ≠ .use c) → Fits P (.atom s) s []
  | use {c s b} : P (.use c) s b → Fits P (.atom (.use c)) s b
  | var {x s} : Fits P (.hole (.sym x)) s [(x, .sexp s)]
  | pat {p s b} : (∀ x, p ≠ .sym x) → P p s b → Fits P (.hole p) s b
  | pair {a d s t b c} : Fits P a s b → Fits P d t c → Fits P (.pair a d) (.cons s t) (b ++ c)
  | lastVar {x s} : Fits P (.splice (.sym x) (.atom .nil)) s [(x, .sexp s)]
  | lastPat {p s b} : (∀ x, p ≠ .sym x) → P p s b → Fits P (.splice p (.atom .nil)) s b
  | spliceVar {x rest as t b} : rest ≠ .atom .nil → Fits P rest t b →
      Fits P (.splice (.sym x) rest) (.listTo as t) ((x, .sexp (.list as)) :: b)
  | splicePat {p rest as t b c} : rest ≠ .atom .nil → (∀ x, p ≠ .sym x) →
      P p (.list as) b → Fits P rest t c → Fits P (.splice p rest) (.listTo as t) (b ++ c)

/-- Something is spliced at the end of lists only. -/
def SplicesLast : Tmpl → Prop
  | .atom _ => True
  | .hole _ => True
  | .splice _ rest => rest = .atom .nil
  | .pair a d => SplicesLast a ∧ SplicesLast d

/-- The patterns of the language in a template. -/
def subpatterns : Tmpl → List Sexp
  | .atom (.use c) => [.use c]
  | .atom _ => []
  | .hole (.sym _) => []
  | .hole p => [p]
  | .splice (.sym _) rest => subpatterns rest
  | .splice p rest => p :: subpatterns rest
  | .pair a d => subpatterns a ++ subpatterns d

/-- The first of some clauses, patterns and bodies, that a value fits, and the variables. -/
inductive Chooses (P : Sexp → Sexp → Binds → Prop) (v : Sexp) :
    List (Sexp × Sexp) → Sexp → Binds → Prop
  | here {pat body b cs} : Fits P (read pat) v b → Chooses P v ((pat, body) :: cs) body b
  | there {pat body body' b cs} : (∀ b, ¬ Fits P (read pat) v b) → Chooses P v cs body' b →
      Chooses P v ((pat, body) :: cs) body' b

/-- A template with variables only: `,x`, `,@x` at the end of lists, and things that stand
for themselves, but `_`, which does not. -/
def Variables : Tmpl → Prop
  | .atom s => s ≠ .sym .wildcard ∧ ∀ c, s ≠ .use c
  | .hole e => ∃ x, e = .sym x
  | .splice e rest => (∃ x, e = .sym x) ∧ rest = .atom .nil
  | .pair a d => Variables a ∧ Variables d

/-- The variables of a template, from left to right. -/
def variables : Tmpl → List Text
  | .hole (.sym x) => [x]
  | .splice (.sym x) rest => x :: variables rest
  | .pair a d => variables a ++ variables d
  | _ => []

/-! ## The control macros, for C79 -/

/-- What the expressions of a body come to: the last one is its value, a `return` ends it,
an empty one is `unit`. -/
inductive Seq {σ : Type} (V : Sexp → σ → Out → σ → Prop) : List Sexp → σ → Out → σ → Prop
  | nil {st} : Seq V [] st (.val .unit) st
  | last {e st o st'} : V e st o st' → Seq V [e] st o st'
  | next {e es st v st' o st''} : es ≠ [] → V e st (.val v) st' → Seq V es st' o st'' →
      Seq V (e :: es) st o st''
  | ret {e es st r st'} : es ≠ [] → V e st (.ret r) st' → Seq V (e :: es) st (.ret r) st'

/-- The value of an expression in `some`. -/
def Out.inSome : Out → Out
  | .val v => .val (.some v)
  | .ret r => .ret r

/-- How some patterns with initial expressions end: all match, one does not, or a
`return`. -/
inductive Matched where
  | all (ρ : Binds)
  | failed
  | ret (r : Val)

/-- Matches patterns with what their expressions come to, one after the other; the variables
are known to those that follow. `P p v r` says how the pattern `p` matches `v`. -/
inductive Matching {σ : Type} (V : Binds → Sexp → σ → Out → σ → Prop)
    (P : Sexp → Val → Option Binds → Prop) :
    Binds → List (Sexp × List Sexp) → σ → Matched → σ → Prop
  | nil {ρ st} : Matching V P ρ [] st (.all ρ) st
  | next {ρ p init bs st v st' b m st''} : Seq (V ρ) init st (.val v) st' → P p v (some b) →
      Matching V P (b ++ ρ) bs st' m st'' → Matching V P ρ ((p, init) :: bs) st m st''
  | failed {ρ p init bs st v st'} : Seq (V ρ) init st (.val v) st' → P p v none →
      Matching V P ρ ((p, init) :: bs) st .failed st'
  | ret {ρ p init bs st r st'} : Seq (V ρ) init st (.ret r) st' →
      Matching V P ρ ((p, init) :: bs) st (.ret r) st'

/-- The clauses of `cond`. -/
inductive Clause where
  /-- `[else body …]` -/
  | otherwise (body : List Sexp)
  /-- `[when pred body …]` -/
  | whenTrue (pred : Sexp) (body : List Sexp)
  /-- `[pred body …]` -/
  | isTrue (pred : Sexp) (body : List Sexp)
  /-- `[when-match ([pat init …] …) body …]` -/
  | whenMatch (binds : List (Sexp × List Sexp)) (body : List Sexp)
  /-- `[when-match1 pat init body …]` -/
  | whenMatch1 (pat init : Sexp) (body : List Sexp)

/-- `([pat init …] …)` as it is written. -/
def writeBinds (bs : List (Sexp × List Sexp)) : Sexp :=
  .list (bs.map fun b => .cons b.1 (.list b.2))

/-- A clause as it is written. -/
def Clause.written : Clause → Sexp
  | .otherwise body => .cons (.sym .elseS) (.list body)
  | .whenTrue pred body => .cons (.sym .whenS) (.cons pred (.list body))
  | .isTrue pred body => .cons pred (.list body)
  | .whenMatch bs body => .cons (.sym .whenMatch) (.cons (writeBinds bs) (.list body))
  | .whenMatch1 p init body => .cons (.sym .whenMatch1) (.cons p (.cons init (.list body)))

/-- Clauses that say what they seem to say: `else` is the last one, and the condition of
`[pred body …]` is not one of the words that begin other clauses. -/
def WellWritten : List Clause → Prop
  | [] => True
  | .otherwise _ :: cs => cs = []
  | .isTrue pred _ :: cs =>
    pred ≠ .sym .elseS ∧ pred ≠ .sym .whenS ∧ pred ≠ .sym .whenMatch ∧
      pred ≠ .sym .whenMatch1 ∧ WellWritten cs
  | _ :: cs => WellWritten cs

/-- What `cond` comes to: the body of the first clause with a condition that is true or
with patterns that match, `unit` if there is none. Conditions are evaluated in order up to
that clause. -/
inductive CondRuns {σ : Type} (V : Binds → Sexp → σ → Out → σ → Prop)
    (P : Sexp → Val → Option Binds → Prop) (ρ : Binds) : List Clause → σ → Out → σ → Prop
  | nil {st} : CondRuns V P ρ [] st (.val .unit) st
  | otherwise {body st o st'} : Seq (V ρ) body st o st' →
      CondRuns V P ρ [.otherwise body] st o st'
  | whenTrue {c body cs st st' o st''} : V ρ c st (.val (.bool true)) st' →
      Seq (V ρ) body st' o st'' → CondRuns V P ρ (.whenTrue c body :: cs) st o st''
  | whenFalse {c body cs st st' o st''} : V ρ c st (.val (.bool false)) st' →
      CondRuns V P ρ cs st' o st'' → CondRuns V P ρ (.whenTrue c body :: cs) st o st''
  | whenRet {c body cs st r st'} : V ρ c st (.ret r) st' →
      CondRuns V P ρ (.whenTrue c body :: cs) st (.ret r) st'
  | isTrue {c body cs st st' o st''} : V ρ c st (.val (.bool true)) st' →
      Seq (V ρ) body st' o st'' → CondRuns V P ρ (.isTrue c body :: cs) st o st''
  | isFalse {c body cs st st' o st''} : V ρ c st (.val (.bool false)) st' →
      CondRuns V P ρ cs st' o st'' → CondRuns V P ρ (.isTrue c body :: cs) st o st''
  | isRet {c body cs st r st'} : V ρ c st (.ret r) st' →
      CondRuns V P ρ (.isTrue c body :: cs) st (.ret r) st'
  | allMatch {bs body cs st ρ' st' o st''} : Matching V P ρ bs st (.all ρ') st' →
      Seq (V ρ') body st' o st'' → CondRuns V P ρ (.whenMatch bs body :: cs) st o st''
  | matchFails {bs body cs st st' o st''} : Matching V P ρ bs st .failed st' →
      CondRuns V P ρ cs st' o st'' → CondRuns V P ρ (.whenMatch bs body :: cs) st o st''
  | matchRet {bs body cs st r st'} : Matching V P ρ bs st (.ret r) st' →
      CondRuns V P ρ (.whenMatch bs body :: cs) st (.ret r) st'
  | match1 {p e body cs st v st' b o st''} : V ρ e st (.val v) st' → P p v (some b) →
      Seq (V (b ++ ρ)) body st' o st'' → CondRuns V P ρ (.whenMatch1 p e body :: cs) st o st''
  | match1Fails {p e body cs st v st' o st''} : V ρ e st (.val v) st' → P p v none →
      CondRuns V P ρ cs st' o st'' → CondRuns V P ρ (.whenMatch1 p e body :: cs) st o st''
  | match1Ret {p e body cs st r st'} : V ρ e st (.ret r) st' →
      CondRuns V P ρ (.whenMatch1 p e body :: cs) st (.ret r) st'

/-- What `cond?` comes to: as `cond`, with the body in `some`, and `none` if no clause applies.
There is no `else`. -/
inductive CondOptRuns {σ : Type} (V : Binds → Sexp → σ → Out → σ → Prop)
    (P : Sexp → Val → Option Binds → Prop) (ρ : Binds) : List Clause → σ → Out → σ → Prop
  | nil {st} : CondOptRuns V P ρ [] st (.val .none) st
  | ofTrue {cl c body cs st st' o st''} : cl = .whenTrue c body ∨ cl = .isTrue c body →
      V ρ c st (.val (.bool true)) st' → Seq (V ρ) body st' o st'' →
      CondOptRuns V P ρ (cl :: cs) st o.inSome st''
  | ofFalse {cl c body cs st st' o st''} : cl = .whenTrue c body ∨ cl = .isTrue c body →
      V ρ c st (.val (.bool false)) st' → CondOptRuns V P ρ cs st' o st'' →
      CondOptRuns V P ρ (cl :: cs) st o st''
  | ofRet {cl c body cs st r st'} : cl = .whenTrue c body ∨ cl = .isTrue c body →
      V ρ c st (.ret r) st' → CondOptRuns V P ρ (cl :: cs) st (.ret r) st'
  | allMatch {bs body cs st ρ' st' o st''} : Matching V P ρ bs st (.all ρ') st' →
      Seq (V ρ') body st' o st'' → CondOptRuns V P ρ (.whenMatch bs body :: cs) st o.inSome st''
  | matchFails {bs body cs st st' o st''} : Matching V P ρ bs st .failed st' →
      CondOptRuns V P ρ cs st' o st'' → CondOptRuns V P ρ (.whenMatch bs body :: cs) st o st''
  | matchRet {bs body cs st r st'} : Matching V P ρ bs st (.ret r) st' →
      CondOptRuns V P ρ (.whenMatch bs body :: cs) st (.ret r) st'
  | match1 {p e body cs st v st' b o st''} : V ρ e st (.val v) st' → P p v (some b) →
      Seq (V (b ++ ρ)) body st' o st'' →
      CondOptRuns V P ρ (.whenMatch1 p e body :: cs) st o.inSome st''
  | match1Fails {p e body cs st v st' o st''} : V ρ e st (.val v) st' → P p v none →
      CondOptRuns V P ρ cs st' o st'' → CondOptRuns V P ρ (.whenMatch1 p e body :: cs) st o st''
  | match1Ret {p e body cs st r st'} : V ρ e st (.ret r) st' →
      CondOptRuns V P ρ (.whenMatch1 p e body :: cs) st (.ret r) st'

/-- What `let*` comes to: the variables get their values in order, each one is known to those that
follow. -/
inductive LetStar {σ : Type} (V : Binds → Sexp → σ → Out → σ → Prop) :
    Binds → List (Text × List Sexp) → List Sexp → σ → Out → σ → Prop
  | nil {ρ body st o st'} : Seq (V ρ) body st o st' → LetStar V ρ [] body st o st'
  | next {ρ x init bs body st v st' o st''} : Seq (V ρ) init st (.val v) st' →
      LetStar V ((x, v) :: ρ) bs body st' o st'' → LetStar V ρ ((x, init) :: bs) body st o st''
  | ret {ρ x init bs body st r st'} : Seq (V ρ) init st (.ret r) st' →
      LetStar V ρ ((x, init) :: bs) body st (.ret r) st'

/-- What `while-match` comes to: the body again and again, as long as the patterns match. -/
inductive WhileMatch {σ : Type} (V : Binds → Sexp → σ → Out → σ → Prop)
    (P : Sexp → Val → Option Binds → Prop) (ρ : Binds) (bs : List (Sexp × List Sexp))
    (body : List Sexp) : σ → Out → σ → Prop
  | done {st st'} : Matching V P ρ bs st .failed st' → WhileMatch V P ρ bs body st (.val .unit) st'
  | again {st ρ' st' v st'' o stE} : Matching V P ρ bs st (.all ρ') st' →
      Seq (V ρ') body st' (.val v) st'' → WhileMatch V P ρ bs body st'' o stE →
      WhileMatch V P ρ bs body st o stE
  | bodyRet {st ρ' st' r st''} : Matching V P ρ bs st (.all ρ') st' →
      Seq (V ρ') body st' (.ret r) st'' → WhileMatch V P ρ bs body st (.ret r) st''
  | ret {st r st'} : Matching V P ρ bs st (.ret r) st' → WhileMatch V P ρ bs body st (.ret r) st'

/-- The forms of `|>`: a function, or a call that lacks its last argument. -/
inductive ThreadForm where
  | function (f : Sexp)
  | call (f : Sexp) (args : List Sexp)
  | callIt

/-- The expression that a form makes of the one before. -/
def ThreadForm.apply (target : Sexp) : ThreadForm → Sexp
  | .function f => .list [f, target]
  | .call f args => .list (f :: args ++ [target])
  | .callIt => .list [target]

/-- A form as it is written. -/
def ThreadForm.written : ThreadForm → Sexp
  | .function f => f
  | .call f args => .list (f :: args)
  | .callIt => .nil

/-- Functions are not written as calls. -/
def ThreadForm.Ok : ThreadForm → Prop
  | .function f => f ≠ .nil ∧ ∀ a d, f ≠ .cons a d
  | _ => True

end Verif.Macro
