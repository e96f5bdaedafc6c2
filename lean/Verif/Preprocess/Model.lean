import Verif.Util.HMap

/-!
# Model of `llrl0/src/preprocess.rs`

Source locations are left out (they only decorate errors).  Recursion runs on fuel; `Err.outOfFuel` is not an error of the code,
and `Props.lean` shows that it never occurs with fuel above the size of the input.
-/
namespace Verif.Preprocess

/-- `SexpRep`, llrl0/src/sexp.rs:175-185.  Floating-point numbers and native values are opaque to the preprocessor. -/
inductive Sexp where
  | integer (signed : Bool) (value : Nat)
  | fpNumber (bits : Nat)
  | symbol (s : String)
  | string (s : String)
  | char (c : Char)
  | list (ss : List Sexp)
  | listLike (head : Sexp) (mid : List Sexp) (tail : Sexp)
  | bool (b : Bool)
  | native (n : Nat)
deriving Repr

/-- llrl0/src/preprocess/error.rs, without locations. -/
inductive Err where
  | expansionDisallowed (place : String)
  | undefinedMetaVariable (name : String)
  | directiveSyntax (syntaxText : String)
  | emptySymbol
  | outOfFuel
deriving DecidableEq, Repr

/-- `State.vars`, llrl0/src/preprocess.rs:55. -/
abbrev Vars := HMap String Sexp

/-- Functions on `&mut State` returning `Result<_, Error>`: the state is kept when an error is returned. -/
abbrev M (α : Type) := Vars → Except Err α × Vars

def M.pure {α} (a : α) : M α := fun s => (.ok a, s)
def M.throw {α} (e : Err) : M α := fun s => (.error e, s)
/-- The `?` operator. -/
def M.bind {α β} (m : M α) (f : α → M β) : M β := fun s =>
  match m s with
  | (.ok a, s') => f a s'
  | (.error e, s') => (.error e, s')

/-- `SexpRep::cons`, llrl0/src/sexp.rs:227-240. -/
def cons (car cdr : Sexp) : Sexp :=
  match cdr with
  | .list l => .list (car :: l)
  | .listLike h m t => .listLike car (h :: m) t
  | _ => .listLike car [] cdr

/-- `metavar`, llrl0/src/preprocess.rs:376-378. -/
def metavar (sym : String) : Bool := sym.toList.head? = some '$' || sym = "_"

/-- `with_binds`, first part, llrl0/src/preprocess.rs:326-330: binds the names (except `_`) and collects what they were bound to. -/
def bindAll : List (String × Sexp) → Vars → List (String × Option Sexp) × Vars
  | [], vars => ([], vars)
  | (name, expr) :: rest, vars =>
    if name ≠ "_" then
      let prev := vars.get name
      let (more, vars') := bindAll rest (vars.insert name expr)
      ((name, prev) :: more, vars')
    else bindAll rest vars

/-- `with_binds`, last part, llrl0/src/preprocess.rs:334-340. -/
def restoreAll : List (String × Option Sexp) → Vars → Vars
  | [], vars => vars
  | (name, some prev) :: rest, vars => restoreAll rest (vars.insert name prev)
  | (name, none) :: rest, vars => restoreAll rest (vars.remove name)

/-- `with_binds`, llrl0/src/preprocess.rs:321-343. -/
def withBinds {α} (binds : List (String × Sexp)) (f : M α) : M α := fun vars =>
  let (prev, vars1) := bindAll binds vars
  let (result, vars2) := f vars1
  (result, restoreAll prev vars2)

/-- The names of `$symbol`'s parts, llrl0/src/preprocess.rs:136-146. -/
def symbolText : List Sexp → Option String
  | [] => some ""
  | .symbol s :: rest => (symbolText rest).map (s ++ ·)
  | .string s :: rest => (symbolText rest).map (s ++ ·)
  | .char c :: rest => (symbolText rest).map (String.singleton c ++ ·)
  | _ :: _ => none

/-- Names of a `$for`, llrl0/src/preprocess.rs:212-218. -/
def forNames : List Sexp → Option (List String)
  | [] => some []
  | .symbol s :: rest => if metavar s then (forNames rest).map (s :: ·) else none
  | _ :: _ => none

/-- Element rows of a `$for`, llrl0/src/preprocess.rs:219-225. -/
def forRows (n : Nat) : List Sexp → Option (List (List Sexp))
  | [] => some []
  | .list es :: rest => if es.length = n then (forRows n rest).map (es :: ·) else none
  | _ :: _ => none

variable (features : List String)

/-- The expansion results for each element, appended: the `for` loops at llrl0/src/preprocess.rs:231-238 and 257-264. -/
def forLoop (body : M (List Sexp)) : List (List (String × Sexp)) → M (List Sexp)
  | [] => .pure []
  | binds :: rest =>
    (withBinds binds body).bind fun ss =>
    (forLoop body rest).bind fun more => .pure (ss ++ more)

/-- `expand_one` given the expansion, llrl0/src/preprocess.rs:69-77. -/
def one (place : String) (m : M (List Sexp)) : M Sexp :=
  m.bind fun ss =>
  match ss with
  | [s] => .pure s
  | _ => .throw (.expansionDisallowed place)

mutual

/-- `expand_seq`, llrl0/src/preprocess.rs:59-67. -/
def expandSeq : Nat → List Sexp → M (List Sexp)
  | 0, _ => .throw .outOfFuel
  | _ + 1, [] => .pure []
  | fuel + 1, s :: rest =>
    (expand fuel s).bind fun a => (expandSeq fuel rest).bind fun b => .pure (a ++ b)

/-- The binds of `$let`, llrl0/src/preprocess.rs:162-174; `none` when a bind is malformed. -/
def expandBinds : Nat → List Sexp → M (Option (List (String × Sexp)))
  | 0, _ => .throw .outOfFuel
  | _ + 1, [] => .pure (some [])
  | fuel + 1, .list [.symbol name, expr] :: rest =>
    if metavar name then
      (one "$let bind expression" (expand fuel expr)).bind fun e =>
      (expandBinds fuel rest).bind fun more => .pure (more.map ((name, e) :: ·))
    else .pure none
  | _ + 1, _ :: _ => .pure none

/-- `expand`, llrl0/src/preprocess.rs:79-109, with `handle_directive` and the handlers, 111-319, inlined.
`Vec::remove(1)` and `skip(1)` are pattern matching on the list. -/
def expand : Nat → Sexp → M (List Sexp)
  | 0, _ => .throw .outOfFuel
  | _ + 1, .symbol sym =>
    if sym.toList.head? = some '$' then fun vars =>
      match vars.get sym with
      | some s => (.ok [s], vars)
      | none => (.error (.undefinedMetaVariable sym), vars)
    else .pure [.symbol sym]
  -- handle_symbol_directive, 129-152
  | fuel + 1, .list (.symbol "$symbol" :: args) =>
    (expandSeq fuel args).bind fun ss =>
    match symbolText ss with
    | none => .throw (.directiveSyntax "$symbol")
    | some name => if name = "" then .throw .emptySymbol else .pure [.symbol name]
  -- handle_let_directive, 154-181
  | fuel + 1, .list (.symbol "$let" :: args) =>
    match args with
    | .list binds :: body =>
      (expandBinds fuel binds).bind fun bs =>
      match bs with
      | none => .throw (.directiveSyntax "$let")
      | some bs => withBinds bs (expandSeq fuel body)
    | _ => .throw (.directiveSyntax "$let")
  -- handle_let1_directive, 183-201
  | fuel + 1, .list (.symbol "$let1" :: args) =>
    match args with
    | .symbol name :: expr :: body =>
      if metavar name then
        (one "$let1 expression" (expand fuel expr)).bind fun e =>
        withBinds [(name, e)] (expandSeq fuel body)
      else .throw (.directiveSyntax "$let1")
    | _ => .throw (.directiveSyntax "$let1")
  -- handle_for_directive, 203-240
  | fuel + 1, .list (.symbol "$for" :: args) =>
    match args with
    | .list names :: elems :: body =>
      (one "$for elements" (expand fuel elems)).bind fun elems =>
      match elems with
      | .list rows =>
        match forNames names with
        | none => .throw (.directiveSyntax "$for")
        | some names =>
          match forRows names.length rows with
          | none => .throw (.directiveSyntax "$for")
          | some rows => forLoop (expandSeq fuel body) (rows.map (names.zip ·))
      | _ => .throw (.directiveSyntax "$for")
    | _ => .throw (.directiveSyntax "$for")
  -- handle_for1_directive, 242-266
  | fuel + 1, .list (.symbol "$for1" :: args) =>
    match args with
    | .symbol name :: elems :: body =>
      if metavar name then
        (one "$for1 elements" (expand fuel elems)).bind fun elems =>
        match elems with
        | .list elems => forLoop (expandSeq fuel body) (elems.map fun e => [(name, e)])
        | _ => .throw (.directiveSyntax "$for1")
      else .throw (.directiveSyntax "$for1")
    | _ => .throw (.directiveSyntax "$for1")
  -- handle_when_directive, 268-286
  | fuel + 1, .list (.symbol "$when" :: args) =>
    match args with
    | cond :: body =>
      (one "$when condition" (expand fuel cond)).bind fun c =>
      match c with
      | .bool b => if b then expandSeq fuel body else .pure []
      | _ => .throw (.directiveSyntax "$when")
    | _ => .throw (.directiveSyntax "$when")
  -- handle_not_directive, 288-302
  | fuel + 1, .list (.symbol "$not" :: args) =>
    match args with
    | [cond] =>
      (one "$not condition" (expand fuel cond)).bind fun c =>
      match c with
      | .bool b => .pure [.bool (!b)]
      | _ => .throw (.directiveSyntax "$not")
    | _ => .throw (.directiveSyntax "$not")
  -- handle_feature_directive, 304-319
  | fuel + 1, .list (.symbol "$feature" :: args) =>
    match args with
    | [name] =>
      (one "$feature string" (expand fuel name)).bind fun c =>
      match c with
      | .string f => .pure [.bool (features.contains f)]
      | _ => .throw (.directiveSyntax "$feature")
    | _ => .throw (.directiveSyntax "$feature")
  | fuel + 1, .list ss =>
    if ss.isEmpty then .pure [.list ss]
    else (expandSeq fuel ss).bind fun ss' => .pure [.list ss']
  | fuel + 1, .listLike h m t =>
    (expandSeq fuel (h :: m)).bind fun ss =>
    (one "cdr of cons cell" (expand fuel t)).bind fun tail =>
    .pure [ss.reverse.foldl (fun a b => cons b a) tail]
  | _ + 1, s => .pure [s]

end

mutual
/-- Number of nodes, used only as fuel. -/
def size : Sexp → Nat
  | .list ss => 1 + sizeAll ss
  | .listLike h m t => 3 + size h + sizeAll m + size t
  | _ => 1
def sizeAll : List Sexp → Nat
  | [] => 0
  | s :: ss => 1 + size s + sizeAll ss
end

/-- `Preprocessor::run`, llrl0/src/preprocess.rs:36-44: starts without variables. -/
def run (ss : List Sexp) : Except Err (List Sexp) := (expandSeq features (sizeAll ss + 1) ss []).1

end Verif.Preprocess
