import Verif.Util.HMap

/-!
# Model of `std/hash-map.llrl` (Robin Hood hashing with backshift removal)

`U64` values are natural numbers below 2^64.  The three arrays `hashes`, `keys`, `values` are one function from indices to slots: a slot
is `none` when its hash lacks the existing flag (the code stores only flagged hashes, and 0), otherwise it has the flagged hash, the key
and the value.  The hash function is a parameter `hashOf : K → Nat`; `Eq K` is equality.  Access outside the allocated
arrays is the error `outOfBounds`, an endless loop is `loop`, a failed assertion `assertion`.
-/
namespace Verif.RobinHood

inductive Err | outOfBounds | loop | assertion
deriving DecidableEq, Repr

abbrev Slots (K V : Type) := Nat → Option (Nat × K × V)

/-- `HashMapBody`, std/hash-map.llrl:22-29, without the hasher. -/
structure Map (K V : Type) where
  len : Nat
  cap : Nat
  slots : Slots K V

/-- `next-power-of-two`, hash-map.llrl:228-238. -/
def nextPowerOfTwo (n : Nat) : Except Err Nat :=
  if n ≤ 2 ^ 62 then
    let n := (n + 2 ^ 64 - 1) % 2 ^ 64
    let n := n ||| n >>> 1
    let n := n ||| n >>> 2
    let n := n ||| n >>> 4
    let n := n ||| n >>> 8
    let n := n ||| n >>> 16
    let n := n ||| n >>> 32
    .ok ((n + 1) % 2 ^ 64)
  else .error .assertion

/-- `appropriate-minimal-capacity`, hash-map.llrl:225-226. -/
def appropriateMinimalCapacity (requiredLen : Nat) : Nat := ((requiredLen + 8) % 2 ^ 64 / 9 * 10) % 2 ^ 64

/-- `put-existing-flag`, hash-map.llrl:243-244. -/
def putExistingFlag (hash : Nat) : Nat := hash ||| 2 ^ 63

/-- `exists?`, hash-map.llrl:240-241: an array of zeroes (hash-map.llrl:51) has no existing slot. -/
def existsFlag (hash : Nat) : Bool := decide (hash &&& 2 ^ 63 ≠ 0)

/-- `hash-ideal-index`, hash-map.llrl:219-220. -/
def idealIndex (hash cap : Nat) : Nat := hash &&& ((cap + 2 ^ 64 - 1) % 2 ^ 64)

/-- `distance-from-ideal-index`, hash-map.llrl:222-223 (`%` by 0 does not occur: it is only used on existing slots). -/
def distance (i hash cap : Nat) : Nat := ((i + cap + 2 ^ 64 - idealIndex hash cap) % 2 ^ 64) % cap

/-- `hash-map/with-capacity`, hash-map.llrl:45-53. -/
def withCapacity {K V} (cap : Nat) : Except Err (Map K V) := do
  let cap ← nextPowerOfTwo cap
  .ok ⟨0, cap, fun _ => none⟩

variable {K V : Type} [DecidableEq K]

/-- The loop of `lookup?`, hash-map.llrl:142-152. -/
def lookupLoop (hash : Nat) (key : K) (m : Map K V) : Nat → Nat → Except Err (Option Nat)
  | 0, _ => .error .loop
  | fuel + 1, i =>
    if i < m.cap then
      match m.slots i with
      | none => .ok none
      | some (h, k, _) =>
        if hash = h ∧ key = k then .ok (some i)
        else if distance i hash m.cap > distance i h m.cap then .ok none
        else lookupLoop hash key m fuel ((i + 1) % m.cap)
    else .error .outOfBounds

/-- `lookup?`, hash-map.llrl:139-152. -/
def lookup (hash : Nat) (key : K) (m : Map K V) : Except Err (Option Nat) :=
  lookupLoop hash key m (m.cap + 1) (idealIndex hash m.cap)

def upd {α} (f : Nat → α) (i : Nat) (a : α) : Nat → α := fun j => if j = i then a else f j

/-- The loop of `insert!`, hash-map.llrl:160-183. -/
def insertLoop (len cap : Nat) : Nat → Slots K V → Nat → Bool → Nat → K → V → Except Err (Option V × Map K V)
  | 0, _, _, _, _, _, _ => .error .loop
  | fuel + 1, slots, i, stealed, hash, key, value =>
    if i < cap then
      match slots i with
      | some (h, k, v) =>
        if stealed = false ∧ hash = h ∧ key = k then .ok (some v, ⟨len, cap, upd slots i (some (h, k, value))⟩)
        else if distance i hash cap > distance i h cap then
          insertLoop len cap fuel (upd slots i (some (hash, key, value))) ((i + 1) % cap) true h k v
        else insertLoop len cap fuel slots ((i + 1) % cap) stealed hash key value
      | none => .ok (none, ⟨(len + 1) % 2 ^ 64, cap, upd slots i (some (hash, key, value))⟩)
    else .error .outOfBounds

/-- `insert!`, hash-map.llrl:154-183. -/
def insertHashed (hash : Nat) (key : K) (value : V) (m : Map K V) : Except Err (Option V × Map K V) :=
  insertLoop m.len m.cap (m.cap + 1) m.slots (idealIndex hash m.cap) false hash key value

/-- The copying loop of `hash-map/reserve-capacity!`, hash-map.llrl:74-78: `n` slots of the old table from `i` on. -/
def rehash (old : Slots K V) : Nat → Nat → Map K V → Except Err (Map K V)
  | 0, _, m => .ok m
  | n + 1, i, m =>
    match old i with
    | some (h, k, v) => do
      let (_, m) ← insertHashed h k v m
      rehash old n (i + 1) m
    | none => rehash old n (i + 1) m

/-- `hash-map/reserve-capacity!`, hash-map.llrl:62-78. -/
def reserveCapacity (required : Nat) (m : Map K V) : Except Err (Map K V) := do
  let required ← nextPowerOfTwo required
  if required ≤ m.cap then .ok m
  else rehash m.slots m.cap 0 ⟨0, required, fun _ => none⟩

variable (hashOf : K → Nat)

/-- `hash-map/get?`, hash-map.llrl:80-83. -/
def get (key : K) (m : Map K V) : Except Err (Option V) := do
  match ← lookup (putExistingFlag (hashOf key)) key m with
  | none => .ok none
  | some i => .ok ((m.slots i).map fun e => e.2.2)

/-- `hash-map/insert!`, hash-map.llrl:89-92. -/
def insert (key : K) (value : V) (m : Map K V) : Except Err (Option V × Map K V) := do
  let m ← reserveCapacity (appropriateMinimalCapacity ((m.len + 1) % 2 ^ 64)) m
  insertHashed (putExistingFlag (hashOf key)) key value m

/-- The `while` of `remove!`, hash-map.llrl:191-196: the last slot to be shifted. -/
def findEnd (cap : Nat) (slots : Slots K V) : Nat → Nat → Except Err Nat
  | 0, _ => .error .loop
  | fuel + 1, j =>
    let j1 := (j + 1) % cap
    match slots j1 with
    | some (h, _, _) => if distance j1 h cap ≠ 0 then findEnd cap slots fuel j1 else .ok j
    | none => .ok j

/-- `ptr/move!` of `n` slots from `src` to `dst` (overlapping allowed), std/memory.llrl:18. -/
def move {α} (src n dst : Nat) (f : Nat → α) : Nat → α :=
  fun x => if dst ≤ x ∧ x < dst + n then f (src + (x - dst)) else f x

/-- The shifting part of `remove!`, hash-map.llrl:197-214. -/
def backshift (cap i j : Nat) (slots : Slots K V) : Slots K V :=
  if j < i then
    let s := if i ≠ cap - 1 then move (i + 1) (cap - 1 - i) i slots else slots
    let s := upd s (cap - 1) (s 0)
    if j ≠ 0 then move 1 j 0 s else s
  else if i ≠ j then move (i + 1) (j - i) i slots else slots

/-- `remove!`, hash-map.llrl:185-217. -/
def removeHashed (hash : Nat) (key : K) (m : Map K V) : Except Err (Option V × Map K V) := do
  match ← lookup hash key m with
  | none => .ok (none, m)
  | some i =>
    let removed := (m.slots i).map fun e => e.2.2
    let j ← findEnd m.cap m.slots (m.cap + 1) i
    .ok (removed, ⟨m.len - 1, m.cap, upd (backshift m.cap i j m.slots) j none⟩)

/-- `hash-map/remove!`, hash-map.llrl:98-100. -/
def remove (key : K) (m : Map K V) : Except Err (Option V × Map K V) :=
  removeHashed (putExistingFlag (hashOf key)) key m

/-- `hash-map/clear!`, hash-map.llrl:102-109. -/
def clear (m : Map K V) : Map K V := ⟨0, m.cap, fun i => if i < m.cap then none else m.slots i⟩

/-- `hash-map/elems`, hash-map.llrl:119-129, run to its end. -/
def elems (m : Map K V) : List (K × V) := (List.range m.cap).filterMap fun i => (m.slots i).map fun e => e.2

/-- The `for` of `Eq.HashMap.eq?`, hash-map.llrl:292-293. -/
def eqLoop [DecidableEq V] (b : Map K V) : List (K × V) → Except Err Bool
  | [] => .ok true
  | (k, v) :: rest => do
    if some v ≠ (← get hashOf k b) then .ok false else eqLoop b rest

/-- `Eq.HashMap.eq?`, hash-map.llrl:289-294. -/
def eqMaps [DecidableEq V] (a b : Map K V) : Except Err Bool :=
  if a.len ≠ b.len then .ok false else eqLoop hashOf b (elems a)

/-- Operations of the public interface that change or observe one map, hash-map.llrl:55-109. -/
inductive Op (K V : Type)
  | get (k : K)
  | has (k : K)
  | insert (k : K) (v : V)
  | remove (k : K)
  | clear
  | length
  | reserve (n : Nat)

/-- Results of operations. -/
inductive Out (V : Type)
  | value (v : Option V)
  | bool (b : Bool)
  | nat (n : Nat)
  | unit
deriving DecidableEq

/-- One call, hash-map.llrl:55-109. -/
def step (m : Map K V) : Op K V → Except Err (Out V × Map K V)
  | .get k => do .ok (.value (← get hashOf k m), m)
  | .has k => do .ok (.bool (← lookup (putExistingFlag (hashOf k)) k m).isSome, m)
  | .insert k v => do let (r, m) ← insert hashOf k v m; .ok (.value r, m)
  | .remove k => do let (r, m) ← remove hashOf k m; .ok (.value r, m)
  | .clear => .ok (.unit, clear m)
  | .length => .ok (.nat m.len, m)
  | .reserve n => do .ok (.unit, ← reserveCapacity n m)

/-- A sequence of calls. -/
def run : List (Op K V) → Map K V → Except Err (List (Out V) × Map K V)
  | [], m => .ok ([], m)
  | op :: ops, m => do
    let (o, m) ← step hashOf m op
    let (os, m) ← run ops m
    .ok (o :: os, m)

end Verif.RobinHood
