import Verif.Macro.Spec

/-!
# The macros that the standard library is written with

Models std/boot/0-s.llrl (`s:k`, `s:list`), 1-try.llrl (`try!`, `try?`), 2-s-match.llrl and
3-quasiquote.llrl, function by function, and as much of the language as their expansions are
written in.

Simplifications: `(Syntax A)` and `A` are the same (locations are left out); the symbols `quote`,
`match`, `let`, `return` mean the syntax of the language wherever they stand first, as in
llrl0/src/syntax/expr.rs 30-43; `(expand-clauses …)!` and the like are matches on `Except`.
Macros are run by name in the evaluator; in the compiler they are run beforehand, when the
expression is analyzed, and have no effects.
-/

namespace Verif.Macro

open Sexp

/-- How many fields a constructor of `Sexp` has. llrl0/src/ast/builtin.llrl 118-127. -/
def Kind.arity : Kind → Nat
  | .integer => 2
  | .cons => 2
  | .nil => 0
  | _ => 1

/-- `(syntax (sexp:k args …))`, or `(syntax sexp:nil)`. std/boot/0-s.llrl 9, 16, 23, 30, 37, 44, 51,
58, 65. -/
def sForm (k : Kind) (args : List Sexp) : Sexp :=
  match k with
  | .nil => list [.use .syntax, .use (.sexp .nil)]
  | k => list [.use .syntax, list (.use (.sexp k) :: args)]

/-- The macros `s:integer` to `s:use`. std/boot/0-s.llrl 6-67. -/
def sMacro (k : Kind) (s : Sexp) : Except String Sexp :=
  match k, s with
  | .integer, .cons _ (.cons a (.cons b .nil)) => .ok (sForm .integer [a, b])
  | .cons, .cons _ (.cons a (.cons b .nil)) => .ok (sForm .cons [a, b])
  | .nil, .cons _ .nil => .ok (sForm .nil [])
  | .fpnumber, .cons _ (.cons a .nil) => .ok (sForm .fpnumber [a])
  | .bool, .cons _ (.cons a .nil) => .ok (sForm .bool [a])
  | .symbol, .cons _ (.cons a .nil) => .ok (sForm .symbol [a])
  | .string, .cons _ (.cons a .nil) => .ok (sForm .string [a])
  | .char, .cons _ (.cons a .nil) => .ok (sForm .char [a])
  | .use, .cons _ (.cons a .nil) => .ok (sForm .use [a])
  | _, _ => .error "Expected (s:k …)"

/-- `expand-list`. std/boot/0-s.llrl 76-81. -/
def expandList : Sexp → Sexp
  | .cons car cdr => sForm .cons [car, expandList cdr]
  | _ => sForm .nil []

/-- The macro `s:list`. std/boot/0-s.llrl 69-74. -/
def sListMacro : Sexp → Except String Sexp
  | .cons _ s => .ok (expandList s)
  | _ => .error "Expected (s:list s ...)"

/-- The macro `try?`. std/boot/1-try.llrl 7-17. -/
def tryOptMacro : Sexp → Except String Sexp
  | .cons _ (.cons x .nil) =>
    .ok (list [.sym .matchS, x,
      list [list [.use .some, list [.sym .letS, .sym .xS]], .sym .xS],
      list [.use .none, list [.sym .returnS, .use .none]]])
  | _ => .error "Expected (try? expr)"

/-- The macro `try!`. std/boot/1-try.llrl 19-29. -/
def tryBangMacro : Sexp → Except String Sexp
  | .cons _ (.cons x .nil) =>
    .ok (list [.sym .matchS, x,
      list [list [.use .ok, list [.sym .letS, .sym .xS]], .sym .xS],
      list [list [.use .err, list [.sym .letS, .sym .eS]],
        list [.sym .returnS, list [.use .err, .sym .eS]]]])
  | _ => .error "Expected (try! expr)"

/-- `expand-pat`. std/boot/2-s-match.llrl 24-53. -/
def expandPat : Sexp → Sexp
  | .integer signed value => list [.use (.s .integer), .bool signed, .integer false value]
  | .fpnumber bits => list [.use (.s .fpnumber), .fpnumber bits]
  | .bool b => list [.use (.s .bool), .bool b]
  | .sym .wildcard => .sym .wildcard
  | .sym x => list [.use (.s .symbol), .str x]
  | .str s => list [.use (.s .string), .str s]
  | .char c => list [.use (.s .char), .char c]
  | .cons (.sym .unquote) (.cons (.sym x) .nil) => list [.sym .letS, .sym x]
  | .cons (.sym .unquote) (.cons pat .nil) => pat
  | .cons (.cons (.sym .unquoteSplicing) (.cons (.sym x) .nil)) .nil => list [.sym .letS, .sym x]
  | .cons (.cons (.sym .unquoteSplicing) (.cons pat .nil)) .nil => pat
  | .cons car cdr => list [.use (.s .cons), expandPat car, expandPat cdr]
  | .nil => list [.use (.s .nil)]
  | .use c => .use c

/-- `expand-clauses`. std/boot/2-s-match.llrl 15-22. -/
def expandClauses : Sexp → Except String Sexp
  | .cons (.cons pat body) clauses =>
    match expandClauses clauses with
    | .ok rest => .ok (.cons (.cons (expandPat pat) body) rest)
    | .error e => .error e
  | .nil => .ok .nil
  | _ => .error "Expected (s/match target [pat ...] ...)"

/-- The macro `s/match`. std/boot/2-s-match.llrl 8-13. -/
def sMatchMacro : Sexp → Except String Sexp
  | .cons _ (.cons target clauses) =>
    match expandClauses clauses with
    | .ok clauses => .ok (.cons (.sym .matchS) (.cons target clauses))
    | .error e => .error e
  | _ => .error "Expected (s/match target clause ...)"

/-- `qq-expand`. std/boot/3-quasiquote.llrl 17-28. -/
def qqExpand : Sexp → Sexp
  | .cons (.sym .unquote) (.cons s .nil) => s
  | .cons (.cons (.sym .unquoteSplicing) (.cons s .nil)) .nil => s
  | .cons (.cons (.sym .unquoteSplicing) (.cons s .nil)) rest =>
    list [.use .tryBang, list [.use .qqAppend, s, qqExpand rest]]
  | .cons car cdr => list [.use (.s .cons), qqExpand car, qqExpand cdr]
  | s => list [.sym .quote, s]

/-- The macro `quasiquote`. std/boot/3-quasiquote.llrl 8-13. -/
def quasiquoteMacro : Sexp → Except String Sexp
  | .cons _ (.cons s .nil) => .ok (qqExpand s)
  | _ => .error "Expected `expr"

/-- `qq-append`. std/boot/3-quasiquote.llrl 30-37. -/
def qqAppend (a b : Sexp) : Except Text Sexp :=
  match a with
  | .cons car cdr =>
    match qqAppend cdr b with
    | .ok s => .ok (.cons car s)
    | .error e => .error e
  | .nil => .ok b
  | _ => .error .spliceError

/-! ## The control macros, std/control.llrl -/

/-- `(begin body …)`. -/
def beginForm (body : Sexp) : Sexp := .cons (.sym .beginS) body

/-- `is?`. std/control.llrl 43-48. -/
def isMacro : Sexp → Except String Sexp
  | .cons _ (.cons pat (.cons target .nil)) =>
    .ok (list [.sym .matchS, target, list [pat, .bool true], list [.sym .wildcard, .bool false]])
  | _ => .error "Expected (is? pat target)"

/-- `expand-thread`. std/control.llrl 57-68. -/
def expandThread (target : Sexp) : Sexp → Except String Sexp
  | .cons (.cons callee args) forms =>
    match qqAppend args (.cons target .nil) with
    | .ok args => expandThread (.cons callee args) forms
    | .error _ => .error ",@ expects proper-list"
  | .cons .nil forms => expandThread (list [target]) forms
  | .cons callee forms => expandThread (list [callee, target]) forms
  | .nil => .ok target
  | _ => .error "Expected threading form"

/-- `|>`. std/control.llrl 50-55. -/
def threadMacro : Sexp → Except String Sexp
  | .cons _ (.cons target forms) => expandThread target forms
  | _ => .error "Expected (|> target form ...)"

/-- `,@body` and something more. std/boot/3-quasiquote.llrl 23-24. -/
def bodyThen (body : Sexp) (e : Sexp) : Except String Sexp :=
  match qqAppend body (.cons e .nil) with
  | .ok s => .ok s
  | .error _ => .error ",@ expects proper-list"

/-- `when`. std/control.llrl 116-121. -/
def whenMacro : Sexp → Except String Sexp
  | .cons _ (.cons c body) =>
    match bodyThen body (.sym .unit) with
    | .ok body => .ok (list [.sym .ifS, c, beginForm body, .sym .unit])
    | .error e => .error e
  | _ => .error "Expected (when cond body ...)"

/-- `when?`. std/control.llrl 123-128. -/
def whenOptMacro : Sexp → Except String Sexp
  | .cons _ (.cons c body) =>
    .ok (list [.sym .ifS, c, list [.use .some, beginForm body], .use .none])
  | _ => .error "Expected (when? cond body ...)"

/-- `expand-matches-body`. std/control.llrl 290-297. -/
def expandMatchesBody (thenE : Sexp) : Sexp → Except String Sexp
  | .nil => .ok (list [.use .some, thenE])
  | .cons (.cons pat init) binds =>
    match expandMatchesBody thenE binds with
    | .ok rest => .ok (list [.sym .matchS, beginForm init, list [pat, rest],
        list [.sym .wildcard, .use .none]])
    | .error e => .error e
  | _ => .error "Expected match binding: [pat init ...]"

/-- `expand-matches`; `gensym` may give any symbol. std/control.llrl 284-288. -/
def expandMatches (tmp : Nat) (binds thenE elseE : Sexp) : Except String Sexp :=
  match expandMatchesBody thenE binds with
  | .ok body => .ok (list [.sym .matchS, body,
      list [list [.use .some, list [.sym .letS, .sym (.gen tmp)]], .sym (.gen tmp)],
      list [.use .none, elseE]])
  | .error e => .error e

/-- `expand-cond`. std/control.llrl 144-159. -/
def expandCond (tmp : Nat) : Sexp → Except String Sexp
  | .nil => .ok (.sym .unit)
  | .cons (.cons (.sym .elseS) body) .nil => .ok (beginForm body)
  | .cons (.cons (.sym .whenS) (.cons pred body)) clauses =>
    match expandCond tmp clauses with
    | .ok rest => .ok (list [.sym .ifS, pred, beginForm body, rest])
    | .error e => .error e
  | .cons (.cons (.sym .whenMatch) (.cons binds body)) clauses =>
    match expandCond tmp clauses with
    | .ok rest => expandMatches tmp binds (beginForm body) rest
    | .error e => .error e
  | .cons (.cons (.sym .whenMatch1) (.cons pat (.cons init body))) clauses =>
    match expandCond tmp clauses with
    | .ok rest => .ok (list [.sym .matchS, init, .cons pat body, list [.sym .wildcard, rest]])
    | .error e => .error e
  | .cons (.cons pred body) clauses =>
    match expandCond tmp clauses with
    | .ok rest => .ok (list [.sym .ifS, pred, beginForm body, rest])
    | .error e => .error e
  | _ => .error "Expected cond clause: [pred-or-else body ...]"

/-- `cond`. std/control.llrl 130-135. -/
def condMacro (tmp : Nat) : Sexp → Except String Sexp
  | .cons _ clauses => expandCond tmp clauses
  | _ => .error "Expected (cond clause ...)"

/-- `expand-cond?`. std/control.llrl 161-174. -/
def expandCondOpt (tmp : Nat) : Sexp → Except String Sexp
  | .cons (.cons (.sym .whenS) (.cons pred body)) clauses =>
    match expandCondOpt tmp clauses with
    | .ok rest => .ok (list [.sym .ifS, pred, list [.use .some, beginForm body], rest])
    | .error e => .error e
  | .cons (.cons (.sym .whenMatch) (.cons binds body)) clauses =>
    match expandCondOpt tmp clauses with
    | .ok rest => expandMatches tmp binds (list [.use .some, beginForm body]) rest
    | .error e => .error e
  | .cons (.cons (.sym .whenMatch1) (.cons pat (.cons init body))) clauses =>
    match expandCondOpt tmp clauses with
    | .ok rest => .ok (list [.sym .matchS, init, list [pat, list [.use .some, beginForm body]],
        list [.sym .wildcard, rest]])
    | .error e => .error e
  | .cons (.cons pred body) clauses =>
    match expandCondOpt tmp clauses with
    | .ok rest => .ok (list [.sym .ifS, pred, list [.use .some, beginForm body], rest])
    | .error e => .error e
  | .nil => .ok (.use .none)
  | _ => .error "Expected cond? clause: [pred body ...]"

/-- `cond?`. std/control.llrl 137-142. -/
def condOptMacro (tmp : Nat) : Sexp → Except String Sexp
  | .cons _ clauses => expandCondOpt tmp clauses
  | _ => .error "Expected (cond? clause ...)"

/-- `expand-let*`. std/control.llrl 183-190. -/
def expandLetStar (body : Sexp) : Sexp → Except String Sexp
  | .nil => .ok body
  | .cons (.cons x init) binds =>
    match expandLetStar body binds with
    | .ok rest => .ok (list [.sym .letS, list [.cons x init], rest])
    | .error e => .error e
  | _ => .error "Expected let* binding: [var-or-fun init ...]"

/-- `let*`. std/control.llrl 176-181. -/
def letStarMacro : Sexp → Except String Sexp
  | .cons _ (.cons binds body) => expandLetStar (beginForm body) binds
  | _ => .error "Expected (let* (bind ...) body ...)"

/-- `expand-exhaustive-matches`. std/control.llrl 275-282. -/
def expandExhaustiveMatches (thenE : Sexp) : Sexp → Except String Sexp
  | .nil => .ok thenE
  | .cons (.cons pat init) binds =>
    match expandExhaustiveMatches thenE binds with
    | .ok rest => .ok (list [.sym .matchS, beginForm init, list [pat, rest]])
    | .error e => .error e
  | _ => .error "Expected match binding: [pat init ...]"

/-- `with`. std/control.llrl 247-252. -/
def withMacro : Sexp → Except String Sexp
  | .cons _ (.cons binds body) => expandExhaustiveMatches (beginForm body) binds
  | _ => .error "Expected (with (bind ...) body ...)"

/-- `with?`. std/control.llrl 261-266. -/
def withOptMacro (tmp : Nat) : Sexp → Except String Sexp
  | .cons _ (.cons binds body) =>
    expandMatches tmp binds (list [.use .some, beginForm body]) (.use .none)
  | _ => .error "Expected (with? (bind ...) body ...)"

/-- `if-match`. std/control.llrl 299-304. -/
def ifMatchMacro (tmp : Nat) : Sexp → Except String Sexp
  | .cons _ (.cons binds (.cons thenE (.cons elseE .nil))) => expandMatches tmp binds thenE elseE
  | _ => .error "Expected (if-match (bind ...) then else)"

/-- `if-match1`. std/control.llrl 306-311. -/
def ifMatch1Macro : Sexp → Except String Sexp
  | .cons _ (.cons pat (.cons init (.cons thenE (.cons elseE .nil)))) =>
    .ok (list [.sym .matchS, init, list [pat, thenE], list [.sym .wildcard, elseE]])
  | _ => .error "Expected (if-match1 pat init then else)"

/-- `while-match`. std/control.llrl 313-318. -/
def whileMatchMacro (tmp : Nat) : Sexp → Except String Sexp
  | .cons _ (.cons binds body) =>
    match bodyThen body (.bool true) with
    | .ok body =>
      match expandMatches tmp binds (beginForm body) (.bool false) with
      | .ok e => .ok (list [.sym .whileS, e])
      | .error e => .error e
    | .error e => .error e
  | _ => .error "Expected (while-match (bind ...) body ...)"

/-- `while-match1`. std/control.llrl 320-325. -/
def whileMatch1Macro : Sexp → Except String Sexp
  | .cons _ (.cons pat (.cons init body)) =>
    match bodyThen body (.bool true) with
    | .ok body => .ok (list [.sym .whileS, list [.sym .matchS, init, .cons pat body,
        list [.sym .wildcard, .bool false]]])
    | .error e => .error e
  | _ => .error "Expected (while-match1 pat init body ...)"

/-- `when-match`. std/control.llrl 327-332. -/
def whenMatchMacro (tmp : Nat) : Sexp → Except String Sexp
  | .cons _ (.cons binds body) =>
    match bodyThen body (.sym .unit) with
    | .ok body => expandMatches tmp binds (beginForm body) (.sym .unit)
    | .error e => .error e
  | _ => .error "Expected (when-match (bind ...) body ...)"

/-- `when-match1`. std/control.llrl 334-339. -/
def whenMatch1Macro : Sexp → Except String Sexp
  | .cons _ (.cons pat (.cons init body)) =>
    match bodyThen body (.sym .unit) with
    | .ok body => .ok (list [.sym .matchS, init, .cons pat body, list [.sym .wildcard]])
    | .error e => .error e
  | _ => .error "Expected (when-match1 pat init body ...)"

/-! ## Lists of S-expressions, std/s.llrl -/

/-- `force-proper-list`. std/s.llrl 12-19. -/
def forceProperListLoop {ε : Type} (result : Sexp) (error : ε) : Sexp → Except ε Sexp
  | .cons _ s => forceProperListLoop result error s
  | .nil => .ok result
  | _ => .error error

/-- `s/force-proper-list`. std/s.llrl 9-10. -/
def forceProperList {ε : Type} (error : ε) (s : Sexp) : Except ε Sexp :=
  forceProperListLoop s error s

/-- `s/reverse-unchecked`. std/s.llrl 24-29. -/
def reverseUnchecked (accum : Sexp) : Sexp → Sexp
  | .cons car cdr => reverseUnchecked (.cons car accum) cdr
  | _ => accum

/-- `s/reverse`. std/s.llrl 21-22. -/
def reverse (s : Sexp) : Except String Sexp :=
  match forceProperList "s/reverse expects proper-list" s with
  | .ok s => .ok (reverseUnchecked .nil s)
  | .error e => .error e

/-- `s/append-unchecked`. std/s.llrl 34-39. -/
def appendUnchecked (a b : Sexp) : Sexp :=
  match a with
  | .cons car cdr => .cons car (appendUnchecked cdr b)
  | _ => b

/-- `s/append`. std/s.llrl 31-32. -/
def append (a b : Sexp) : Except String Sexp :=
  match forceProperList "s/append expects proper-list" a with
  | .ok a => .ok (appendUnchecked a b)
  | .error e => .error e

/-- `s/traverse-unchecked`, for a function without effects. std/s.llrl 44-49. -/
def traverseUnchecked (f : Sexp → Except String Sexp) : Sexp → Except String Sexp
  | .cons car cdr =>
    match f car with
    | .ok a =>
      match traverseUnchecked f cdr with
      | .ok s => .ok (.cons a s)
      | .error e => .error e
    | .error e => .error e
  | _ => .ok .nil

/-- `s/traverse`. std/s.llrl 41-42. -/
def traverse (f : Sexp → Except String Sexp) (s : Sexp) : Except String Sexp :=
  match forceProperList "s/traverse expects proper-list" s with
  | .ok s => traverseUnchecked f s
  | .error e => .error e

/-- `s/for-each-unchecked`; the function changes a state. std/s.llrl 54-60. -/
def forEachUnchecked {τ : Type} (f : Sexp → τ → Except String Unit × τ) :
    Sexp → τ → Except String Unit × τ
  | .cons car cdr, st =>
    match f car st with
    | (.ok _, st) => forEachUnchecked f cdr st
    | (.error e, st) => (.error e, st)
  | _, st => (.ok (), st)

/-- `s/for-each`. std/s.llrl 51-52. -/
def forEach {τ : Type} (f : Sexp → τ → Except String Unit × τ) (s : Sexp) (st : τ) :
    Except String Unit × τ :=
  match forceProperList "s/for-each expects proper-list" s with
  | .ok s => forEachUnchecked f s st
  | .error e => (.error e, st)

/-- `s/map-unchecked`. std/s.llrl 65-70. -/
def mapUnchecked (f : Sexp → Sexp) : Sexp → Sexp
  | .cons car cdr => .cons (f car) (mapUnchecked f cdr)
  | _ => .nil

/-- `s/map`. std/s.llrl 62-63. -/
def map (f : Sexp → Sexp) (s : Sexp) : Except String Sexp :=
  match forceProperList "s/map expects proper-list" s with
  | .ok s => .ok (mapUnchecked f s)
  | .error e => .error e

/-- `s/zip`. std/s.llrl 72-79. -/
def zip (f : Sexp → Sexp → Sexp) : Sexp → Sexp → Except String Sexp
  | .cons car1 cdr1, .cons car2 cdr2 =>
    match zip f cdr1 cdr2 with
    | .ok s => .ok (.cons (f car1 car2) s)
    | .error e => .error e
  | .nil, .nil => .ok .nil
  | _, _ => .error "s/zip expects proper same-length lists"

/-- `s/foldl-unchecked`. std/s.llrl 84-89. -/
def foldlUnchecked (f : Sexp → Sexp → Sexp) (a : Sexp) : Sexp → Sexp
  | .cons b c => foldlUnchecked f (f a b) c
  | _ => a

/-- `s/foldl`. std/s.llrl 81-82. -/
def foldl (f : Sexp → Sexp → Sexp) (a b : Sexp) : Except String Sexp :=
  match forceProperList "s/foldl expects proper-list" b with
  | .ok b => .ok (foldlUnchecked f a b)
  | .error e => .error e

/-- `s/foldr-unchecked`. std/s.llrl 94-99. -/
def foldrUnchecked (f : Sexp → Sexp → Sexp) (a : Sexp) : Sexp → Sexp
  | .cons b c => f a (foldrUnchecked f b c)
  | _ => a

/-- `s/foldr`. std/s.llrl 91-92. -/
def foldr (f : Sexp → Sexp → Sexp) (a b : Sexp) : Except String Sexp :=
  match forceProperList "s/foldr expects proper-list" b with
  | .ok b => .ok (foldrUnchecked f a b)
  | .error e => .error e

/-- `s/length-unchecked`; `U64` wraps around. std/s.llrl 104-109. -/
def lengthUnchecked (acc : Nat) : Sexp → Nat
  | .cons _ s => lengthUnchecked ((acc + 1) % 2 ^ 64) s
  | _ => acc

/-- `s/length`. std/s.llrl 101-102. -/
def length (s : Sexp) : Except String Nat :=
  match forceProperList "s/length expects proper-list" s with
  | .ok s => .ok (lengthUnchecked 0 s)
  | .error e => .error e

/-- `go` in `s/unsnoc-unchecked`. std/s.llrl 118-121. -/
def unsnocGo (accum a : Sexp) : Sexp → Sexp × Sexp
  | .cons b c => unsnocGo (.cons a accum) b c
  | _ => (reverseUnchecked .nil accum, a)

/-- `s/unsnoc-unchecked`. std/s.llrl 116-126. -/
def unsnocUnchecked : Sexp → Option (Sexp × Sexp)
  | .cons car cdr => some (unsnocGo .nil car cdr)
  | _ => none

/-- `s/unsnoc`. std/s.llrl 113-114. -/
def unsnoc (s : Sexp) : Except String (Option (Sexp × Sexp)) :=
  match forceProperList "s/unsnoc expects proper-list" s with
  | .ok s => .ok (unsnocUnchecked s)
  | .error e => .error e

/-! ## The language -/

/-- The value that a function with this result returns. -/
def resultVal : Except Text Sexp → Val
  | .ok s => .ok (.sexp s)
  | .error e => .err (.str e)

/-- What the rest of the language does: expressions and patterns that are none of those that
the macros expand to. -/
structure Host (σ : Type) where
  eval : Binds → Sexp → σ → Option (Out × σ)
  pat : Sexp → Val → Option Binds

variable {σ : Type}

/-- Makes an S-expression of the fields. llrl0/src/ast/builtin.llrl 118-127. -/
def construct : Kind → List Val → Option Val
  | .integer, [.bool b, .u64 n] => some (.sexp (.integer b n))
  | .fpnumber, [.fp b] => some (.sexp (.fpnumber b))
  | .bool, [.bool b] => some (.sexp (.bool b))
  | .symbol, [.str s] => some (.sexp (.sym s))
  | .string, [.str s] => some (.sexp (.str s))
  | .char, [.char c] => some (.sexp (.char c))
  | .cons, [.sexp a, .sexp b] => some (.sexp (.cons a b))
  | .nil, [] => some (.sexp .nil)
  | .use, [.construct c] => some (.sexp (.use c))
  | _, _ => none

/-- The constructor of an S-expression and its fields. llrl0/src/ast/builtin.llrl 118-127. -/
def fields : Sexp → Kind × List Val
  | .integer b n => (.integer, [.bool b, .u64 n])
  | .fpnumber b => (.fpnumber, [.fp b])
  | .bool b => (.bool, [.bool b])
  | .sym x => (.symbol, [.str x])
  | .str s => (.string, [.str s])
  | .char c => (.char, [.char c])
  | .cons a b => (.cons, [.sexp a, .sexp b])
  | .nil => (.nil, [])
  | .use c => (.use, [.construct c])

/-- Matches the arguments of a constructor pattern with the fields. -/
def matchAll (pm : Sexp → Val → Option (Option Binds)) : Sexp → List Val → Option (Option Binds)
  | .nil, [] => some (some [])
  | .cons p ps, v :: vs =>
    match pm p v with
    | some (some b) =>
      match matchAll pm ps vs with
      | some (some c) => some (some (b ++ c))
      | r => r
    | r => r
  | _, _ => none

/-- Matches a pattern of the language with a value: `_`, `(let x)`, literals, `(syntax p)`,
`(sexp:k p …)`, `sexp:nil`, `(ok p)`, `(err p)`, `(some p)`, `none`, and the macros that expand to
patterns. `none` means that the fuel is used up, or that the pattern is wrong.
llrl0/src/syntax/pattern.rs 21-41 and 60-66. -/
def patMatch (h : Host σ) : Nat → Sexp → Val → Option (Option Binds)
  | 0, _, _ => none
  | n + 1, p, v =>
    match p with
    | .sym .wildcard => some (some [])
    | .cons (.sym .letS) (.cons (.sym x) .nil) => some (some [(x, v)])
    | .bool b => some (if v = .bool b then some [] else none)
    | .integer _ k => some (if v = .u64 k then some [] else none)
    | .fpnumber b => some (if v = .fp b then some [] else none)
    | .str s => some (if v = .str s then some [] else none)
    | .char c => some (if v = .char c then some [] else none)
    | .cons (.use .syntax) (.cons p .nil) => patMatch h n p v
    | .use (.sexp .nil) => some (if v = .sexp .nil then some [] else none)
    | .cons (.use (.sexp k)) ps =>
      match v with
      | .sexp s =>
        if (fields s).1 = k then matchAll (patMatch h n) ps (fields s).2 else some none
      | _ => none
    | .cons (.use (.s k)) args =>
      match sMacro k (.cons (.use (.s k)) args) with
      | .ok p => patMatch h n p v
      | .error _ => none
    | .cons (.use .sList) args =>
      match sListMacro (.cons (.use .sList) args) with
      | .ok p => patMatch h n p v
      | .error _ => none
    | .cons (.use .ok) (.cons p .nil) =>
      match v with
      | .ok v => patMatch h n p v
      | _ => some none
    | .cons (.use .err) (.cons p .nil) =>
      match v with
      | .err v => patMatch h n p v
      | _ => some none
    | .cons (.use .some) (.cons p .nil) =>
      match v with
      | .some v => patMatch h n p v
      | _ => some none
    | .use .none => some (if v = .none then some [] else none)
    | p => some (h.pat p v)

/-- The value of a variable. -/
def lookup (ρ : Binds) (x : Text) : Option Val :=
  match ρ with
  | [] => none
  | (y, v) :: ρ => if x = y then some v else lookup ρ x

/-- Goes on with the value of an expression, unless it has returned. -/
def andThen (r : Option (Out × σ)) (k : Val → σ → Option (Out × σ)) : Option (Out × σ) :=
  match r with
  | some (.val v, st) => k v st
  | r => r

/-- Evaluates the expressions of a body, the last one is its value.
llrl0/src/syntax/expr.rs 67-71 and 223-237. -/
def evalSeq (ev : Sexp → σ → Option (Out × σ)) : Sexp → σ → Option (Out × σ)
  | .nil, st => some (.val .unit, st)
  | .cons e .nil, st => ev e st
  | .cons e es, st => andThen (ev e st) fun _ st => evalSeq ev es st
  | _, _ => none

/-- Evaluates some expressions from left to right. -/
def evalArgs (ev : Sexp → σ → Option (Out × σ)) :
    Sexp → σ → (List Val → σ → Option (Out × σ)) → Option (Out × σ)
  | .nil, st, k => k [] st
  | .cons e es, st, k => andThen (ev e st) fun v st => evalArgs ev es st fun vs st => k (v :: vs) st
  | _, _, _ => none

/-- The clause that is chosen: the first one with a pattern that matches.
llrl0/src/syntax/expr.rs 204-242. -/
def select (pm : Sexp → Val → Option (Option Binds))
    (ev : Binds → Sexp → σ → Option (Out × σ)) (ρ : Binds) :
    Sexp → Val → σ → Option (Out × σ)
  | .cons (.cons p body) clauses, v, st =>
    match pm p v with
    | some (some b) => evalSeq (ev (b ++ ρ)) body st
    | some none => select pm ev ρ clauses v st
    | none => none
  | _, _, _ => none

/-- A value, if there is one. -/
def given (v : Option Val) (st : σ) : Option (Out × σ) :=
  match v with
  | some v => some (.val v, st)
  | none => none

/-- Evaluates an expression of the language: `quote`, `return`, `match`, `begin`, `if`, `while`,
`let` with one variable, variables, constructors, the macros above and the function `qq-append`. `none` means that the fuel is used up, or that
the expression is wrong. llrl0/src/syntax/expr.rs 30-58
and 251-260. -/
def eval (h : Host σ) : Nat → Binds → Sexp → σ → Option (Out × σ)
  | 0, _, _, _ => none
  | n + 1, ρ, e, st =>
    match e with
    | .sym .unit => some (.val .unit, st)
    | .bool b => some (.val (.bool b), st)
    | .sym x =>
      match lookup ρ x with
      | some v => some (.val v, st)
      | none => h.eval ρ e st
    | .cons (.sym .quote) (.cons s .nil) => some (.val (.sexp s), st)
    | .cons (.sym .returnS) (.cons e .nil) =>
      andThen (eval h n ρ e st) fun v st => some (.ret v, st)
    | .cons (.sym .matchS) (.cons e clauses) =>
      andThen (eval h n ρ e st) fun v st => select (patMatch h n) (eval h n) ρ clauses v st
    | .cons (.sym .beginS) body => evalSeq (eval h n ρ) body st
    | .cons (.sym .ifS) (.cons c (.cons t (.cons e .nil))) =>
      andThen (eval h n ρ c st) fun v st =>
        match v with
        | .bool true => eval h n ρ t st
        | .bool false => eval h n ρ e st
        | _ => none
    | .cons (.sym .letS) (.cons (.cons (.cons (.sym x) init) .nil) body) =>
      andThen (evalSeq (eval h n ρ) init st) fun v st => evalSeq (eval h n ((x, v) :: ρ)) body st
    | .cons (.sym .whileS) (.cons c body) =>
      andThen (eval h n ρ c st) fun v st =>
        match v with
        | .bool true => andThen (evalSeq (eval h n ρ) body st) fun _ st =>
          eval h n ρ (.cons (.sym .whileS) (.cons c body)) st
        | .bool false => some (.val .unit, st)
        | _ => none
    | .cons (.use .syntax) (.cons e .nil) => eval h n ρ e st
    | .use (.sexp .nil) => some (.val (.sexp .nil), st)
    | .cons (.use (.sexp k)) args =>
      evalArgs (eval h n ρ) args st fun vs st => given (construct k vs) st
    | .cons (.use (.s k)) args =>
      match sMacro k (.cons (.use (.s k)) args) with
      | .ok e => eval h n ρ e st
      | .error _ => none
    | .cons (.use .sList) args =>
      match sListMacro (.cons (.use .sList) args) with
      | .ok e => eval h n ρ e st
      | .error _ => none
    | .cons (.use .tryBang) args =>
      match tryBangMacro (.cons (.use .tryBang) args) with
      | .ok e => eval h n ρ e st
      | .error _ => none
    | .cons (.use .tryOpt) args =>
      match tryOptMacro (.cons (.use .tryOpt) args) with
      | .ok e => eval h n ρ e st
      | .error _ => none
    | .cons (.use .qqAppend) args =>
      evalArgs (eval h n ρ) args st fun vs st =>
        match vs with
        | [.sexp a, .sexp b] => some (.val (resultVal (qqAppend a b)), st)
        | _ => none
    | .cons (.use .ok) (.cons e .nil) =>
      andThen (eval h n ρ e st) fun v st => some (.val (.ok v), st)
    | .cons (.use .err) (.cons e .nil) =>
      andThen (eval h n ρ e st) fun v st => some (.val (.err v), st)
    | .cons (.use .some) (.cons e .nil) =>
      andThen (eval h n ρ e st) fun v st => some (.val (.some v), st)
    | .use .none => some (.val .none, st)
    | e => h.eval ρ e st

/-- An expression comes to this, with enough fuel. -/
def Evals (h : Host σ) (ρ : Binds) (e : Sexp) (st : σ) (o : Out) (st' : σ) : Prop :=
  ∃ n0, ∀ n, n0 ≤ n → eval h n ρ e st = some (o, st')

/-- A pattern matches so, with enough fuel. -/
def PatGives (h : Host σ) (p : Sexp) (v : Val) (r : Option Binds) : Prop :=
  ∃ n0, ∀ n, n0 ≤ n → patMatch h n p v = some r

end Verif.Macro
