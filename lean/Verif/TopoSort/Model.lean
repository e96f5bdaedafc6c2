import Verif.Util.HMap

/-!
# Model of `llrl0/src/topological_sort.rs` (Tarjan's algorithm)

The vectors `indices`, `lowlinks`, `scc_indices` are functions from positions; the initial `-1` of `indices` and `scc_indices` is
`none` (the code only tests `< 0`).  The initial `-1` of `lowlinks` is 0 here: it is always written before it is read.
`isize` counters are natural numbers (no overflow below 2^63 items).  Panics and exhausted fuel are `none`.
-/
namespace Verif.TopoSort

/-- `State`, llrl0/src/topological_sort.rs:58-66, without `keys`; `stack` has its top first. -/
structure St where
  index : Nat → Option Nat
  low : Nat → Nat
  scc : Nat → Option Nat
  nextIndex : Nat
  nextScc : Nat
  stack : List Nat

def upd {α} (f : Nat → α) (i : Nat) (a : α) : Nat → α := fun j => if j = i then a else f j

/-- topological_sort.rs:24-32 and 35-41. -/
def St.init : St := ⟨fun _ => none, fun _ => 0, fun _ => none, 0, 0, []⟩

/-- The loop popping the stack down to `i`, topological_sort.rs:88-92; `stack.pop().unwrap()` panics on the empty stack. -/
def popTo (i c : Nat) : List Nat → (Nat → Option Nat) → Option (List Nat × (Nat → Option Nat))
  | [], _ => none
  | j :: rest, scc =>
    let scc := upd scc j (some c)
    if j ≠ i then popTo i c rest scc else some (rest, scc)

/-- The closure passed to `traverse_dependencies`, topological_sort.rs:76-84, run over the known dependencies in order. -/
def depLoop (visit : Nat → St → Option St) (i : Nat) : List Nat → St → Option St
  | [], s => some s
  | j :: js, s =>
    if (s.index j).isNone then
      match visit j s with
      | none => none
      | some s' => depLoop visit i js { s' with low := upd s'.low i (min (s'.low i) (s'.low j)) }
    else if (s.scc j).isNone then
      depLoop visit i js { s with low := upd s.low i (min (s.low i) ((s.index j).getD 0)) }
    else depLoop visit i js s

/-- `visit`, topological_sort.rs:69-95.  `deps i` lists the positions found in `keys` for the dependencies of item `i`. -/
def visit (deps : Nat → List Nat) : Nat → Nat → St → Option St
  | 0, _, _ => none
  | fuel + 1, i, s =>
    let s := { s with
      index := upd s.index i (some s.nextIndex), low := upd s.low i s.nextIndex,
      stack := i :: s.stack, nextIndex := s.nextIndex + 1 }
    match depLoop (visit deps fuel) i (deps i) s with
    | none => none
    | some s =>
      if s.index i = some (s.low i) then
        match popTo i s.nextScc s.stack s.scc with
        | none => none
        | some (stack, scc) => some { s with stack := stack, scc := scc, nextScc := s.nextScc + 1 }
      else some s

/-- The loop over all items, topological_sort.rs:42-47. -/
def mainLoop (deps : Nat → List Nat) (fuel : Nat) : List Nat → St → Option St
  | [], s => some s
  | i :: is, s =>
    if (s.index i).isNone then
      match visit deps fuel i s with
      | none => none
      | some s' => mainLoop deps fuel is s'
    else mainLoop deps fuel is s

variable {K V : Type} [DecidableEq K]

/-- `keys`, a `BTreeMap` filled in order, topological_sort.rs:34-36 (only lookups and the length are used). -/
def keysOf : List (K × V) → Nat → HMap K Nat → HMap K Nat
  | [], _, m => m
  | (k, _) :: rest, i, m => keysOf rest (i + 1) (m.insert k i)

/-- The dependencies of item `i` that are items: `keys.get(k)` for each dependency, topological_sort.rs:75-76. -/
def depsOf (deps : V → List K) (data : List (K × V)) (i : Nat) : List Nat :=
  match data[i]? with
  | some (_, v) => (deps v).filterMap (keysOf data 0 []).get
  | none => []

/-- Distribution into groups, topological_sort.rs:49-55: `result[scc as usize].push(value)` panics when the item has no group. -/
def groups (scc : Nat → Option Nat) (n : Nat) (values : List V) : Option (List (List V)) :=
  if (List.range values.length).all (fun i => match scc i with | some c => c < n | none => false) then
    some ((List.range n).map fun c => (values.zipIdx.filter (fun p => scc p.2 = some c)).map Prod.fst)
  else none

/-- `run`, topological_sort.rs:16-56. -/
def run (deps : V → List K) (data : List (K × V)) : Option (List (List V)) :=
  let size := (keysOf data 0 []).length
  match mainLoop (depsOf deps data) (size + 1) (List.range size) St.init with
  | none => none
  | some s => groups s.scc s.nextScc (data.map Prod.snd)

end Verif.TopoSort
