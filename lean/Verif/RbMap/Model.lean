/-!
# Model of `std/persistent/ord-map.llrl` (red-black trees)

`Boxed` and `Unboxed` nodes are one type; `adjust` is the identity (ord-map.llrl:152-184).  The comparison is a parameter
`cmp : K → K → Ordering`, `compare` of the `Ord` instance.  `none` stands for a failed assertion.  Trees are immutable values in the
code as well, so versions are just values.
-/
namespace Verif.RbMap

/-- `Color`, ord-map.llrl:141-143. -/
inductive Color | red | black
deriving DecidableEq, Repr

/-- `Unboxed` / `Boxed`, ord-map.llrl:145-150. -/
inductive Tree (K V : Type)
  | leaf
  | node (c : Color) (k : K) (v : V) (l r : Tree K V)
deriving Repr

open Color Tree
variable {K V : Type}

/-- `blacken`, ord-map.llrl:186-192. -/
def blacken : Tree K V → Tree K V × Bool
  | node red k v l r => (node black k v l r, false)
  | t => (t, true)

/-- `balance-left`, ord-map.llrl:194-202. -/
def balanceLeft (k : K) (v : V) (l r : Tree K V) : Tree K V :=
  match l with
  | node red ky vy (node red kx vx a b) c => node red ky vy (node black kx vx a b) (node black k v c r)
  | node red kx vx a (node red ky vy b c) => node red ky vy (node black kx vx a b) (node black k v c r)
  | l => node black k v l r

/-- `balance-right`, ord-map.llrl:204-212. -/
def balanceRight (k : K) (v : V) (l r : Tree K V) : Tree K V :=
  match r with
  | node red kz vz (node red ky vy b c) d => node red ky vy (node black k v l b) (node black kz vz c d)
  | node red ky vy b (node red kz vz c d) => node red ky vy (node black k v l b) (node black kz vz c d)
  | r => node black k v l r

/-- `bubble-left`, ord-map.llrl:214-226. -/
def bubbleLeft (color : Color) (k : K) (v : V) (l r : Tree K V) (d : Bool) : Option (Tree K V × Bool) :=
  if d then
    match color, l with
    | red, node black kx vx a b => some (balanceLeft k v (node red kx vx a b) r, false)
    | black, node black kx vx a b => some (balanceLeft k v (node red kx vx a b) r, true)
    | black, node red kx vx a (node black ky vy b c) => some (node black kx vx a (balanceLeft k v (node red ky vy b c) r), false)
    | _, _ => none
  else some (node color k v l r, false)

/-- `bubble-right`, ord-map.llrl:228-240. -/
def bubbleRight (color : Color) (k : K) (v : V) (l r : Tree K V) (d : Bool) : Option (Tree K V × Bool) :=
  if d then
    match color, r with
    | red, node black ky vy b c => some (balanceRight k v l (node red ky vy b c), false)
    | black, node black ky vy b c => some (balanceRight k v l (node red ky vy b c), true)
    | black, node red kz vz (node black ky vy b c) d => some (node black kz vz (balanceRight k v l (node red ky vy b c)) d, false)
    | _, _ => none
  else some (node color k v l r, false)

/-- `get-min?`, ord-map.llrl:269-274. -/
def getMin : Tree K V → Option (K × V)
  | leaf => none
  | node _ k v leaf _ => some (k, v)
  | node _ _ _ l _ => getMin l

/-- `get-max?`, ord-map.llrl:276-281. -/
def getMax : Tree K V → Option (K × V)
  | leaf => none
  | node _ k v _ leaf => some (k, v)
  | node _ _ _ _ r => getMax r

/-- `remove-min`, ord-map.llrl:310-325. -/
def removeMin : Tree K V → Option (Tree K V × K × V × Bool)
  | node black k v leaf leaf => some (leaf, k, v, true)
  | node black k v leaf (node red kx vx l r) => some (node black kx vx l r, k, v, false)
  | node red k v leaf r => some (r, k, v, false)
  | node color kx vx l r => do
    let (l, k, v, d) ← removeMin l
    let (m, d) ← bubbleRight color kx vx l r d
    some (m, k, v, d)
  | leaf => none

/-- `remove-max`, ord-map.llrl:327-342. -/
def removeMax : Tree K V → Option (Tree K V × K × V × Bool)
  | node black k v leaf leaf => some (leaf, k, v, true)
  | node black k v (node red kx vx l r) leaf => some (node black kx vx l r, k, v, false)
  | node red k v l leaf => some (l, k, v, false)
  | node color kx vx l r => do
    let (r, k, v, d) ← removeMax r
    let (m, d) ← bubbleLeft color kx vx l r d
    some (m, k, v, d)
  | leaf => none

variable (cmp : K → K → Ordering)

/-- `insert`, ord-map.llrl:242-256. -/
def insertNode (k : K) (v : V) : Tree K V → Tree K V
  | leaf => node red k v leaf leaf
  | node black ky vy l r =>
    match cmp k ky with
    | .lt => balanceLeft ky vy (insertNode k v l) r
    | .gt => balanceRight ky vy l (insertNode k v r)
    | .eq => node black k v l r
  | node red ky vy l r =>
    match cmp k ky with
    | .lt => node red ky vy (insertNode k v l) r
    | .gt => node red ky vy l (insertNode k v r)
    | .eq => node red k v l r

/-- `lookup?`, ord-map.llrl:258-267. -/
def lookup (k : K) : Tree K V → Option V
  | leaf => none
  | node _ kx vx l r =>
    match cmp k kx with
    | .lt => lookup k l
    | .gt => lookup k r
    | .eq => some vx

/-- `remove`, ord-map.llrl:283-308; the inner `none` is the code's `none` (no such key). -/
def removeNode (k : K) : Tree K V → Option (Option (Tree K V × V × Bool))
  | leaf => some none
  | node color kx vx l r =>
    match cmp k kx with
    | .lt => do
      match ← removeNode k l with
      | none => some none
      | some (l, v, d) => do
        let (m, d) ← bubbleRight color kx vx l r d
        some (some (m, v, d))
    | .gt => do
      match ← removeNode k r with
      | none => some none
      | some (r, v, d) => do
        let (m, d) ← bubbleLeft color kx vx l r d
        some (some (m, v, d))
    | .eq => do
      let (m, d) ← (match r with
        | leaf => if color = black then some (blacken l) else some (l, false)
        | r => do
          let (r, ky, vy, d) ← removeMin r
          bubbleLeft color ky vy l r d)
      some (some (m, vx, d))

/-- `ord-map/insert`, ord-map.llrl:47-50. -/
def insert (k : K) (v : V) (m : Tree K V) : Tree K V := (blacken (insertNode cmp k v m)).1

/-- `ord-map/remove`, ord-map.llrl:56-63. -/
def remove (k : K) (m : Tree K V) : Option (Tree K V) := do
  match ← removeNode cmp k m with
  | some (n, _, _) => some (blacken n).1
  | none => some m

/-- `ord-map/remove-min`, ord-map.llrl:65-72. -/
def removeMinMap : Tree K V → Option (Tree K V)
  | leaf => some leaf
  | m => do
    let (n, _, _, _) ← removeMin m
    some (blacken n).1

/-- `ord-map/remove-max`, ord-map.llrl:74-81. -/
def removeMaxMap : Tree K V → Option (Tree K V)
  | leaf => some leaf
  | m => do
    let (n, _, _, _) ← removeMax m
    some (blacken n).1

/-- `cursor/push!`, ord-map.llrl:360-365; the top of the stack is the head of the list. -/
def push : Tree K V → List (K × V × Tree K V) → List (K × V × Tree K V)
  | leaf, stack => stack
  | node _ k v l r, stack => push l ((k, v, r) :: stack)

/-- `cursor/next!` until it gives `none`, ord-map.llrl:353-358 (at most `fuel` elements). -/
def drain : Nat → List (K × V × Tree K V) → List (K × V)
  | _, [] => []
  | 0, _ :: _ => []
  | fuel + 1, (k, v, r) :: stack => (k, v) :: drain fuel (push r stack)

/-- Number of entries, the bound on the number of `cursor/next!` calls that yield something. -/
def size : Tree K V → Nat
  | leaf => 0
  | node _ _ _ l r => size l + size r + 1

/-- `ord-map/elems`, ord-map.llrl:129-131 with `cursor/new` 347-351, run to its end. -/
def elems (m : Tree K V) : List (K × V) := drain (size m) (push m [])

/-- `ord-map/union*`, ord-map.llrl:86-94. -/
def unionWith (f : K → V → V → V) (a b : Tree K V) : Tree K V :=
  (elems b).foldl (fun a (k, bv) =>
    match lookup cmp k a with
    | none => insert cmp k bv a
    | some av => insert cmp k (f k av bv) a) a

/-- `ord-map/intersection*`, ord-map.llrl:99-104. -/
def intersectionWith (f : K → V → V → V) (a b : Tree K V) : Tree K V :=
  (elems a).foldl (fun m (k, av) =>
    match lookup cmp k b with
    | some bv => insert cmp k (f k av bv) m
    | none => m) leaf

/-- One round of `ord-map/difference*`, ord-map.llrl:112-118. -/
def differenceStep (f : K → V → V → Option V) (a : Tree K V) (e : K × V) : Option (Tree K V) :=
  match lookup cmp e.1 a with
  | none => some (insert cmp e.1 e.2 a)
  | some av =>
    match f e.1 av e.2 with
    | none => remove cmp e.1 a
    | some v => some (insert cmp e.1 v a)

/-- `ord-map/difference*`, ord-map.llrl:109-119. -/
def differenceWith (f : K → V → V → Option V) (a b : Tree K V) : Option (Tree K V) :=
  (elems b).foldlM (differenceStep cmp f) a

/-- `ord-map/union`, `ord-map/intersection`, `ord-map/difference`, ord-map.llrl:83-84, 96-97, 106-107. -/
def union (a b : Tree K V) : Tree K V := unionWith cmp (fun _ av _ => av) a b
def intersection (a b : Tree K V) : Tree K V := intersectionWith cmp (fun _ av _ => av) a b
def difference (a b : Tree K V) : Option (Tree K V) := differenceWith cmp (fun _ _ _ => none) a b

/-- `ord-map/collect`, ord-map.llrl:123-127. -/
def collect (l : List (K × V)) : Tree K V := l.foldl (fun m (k, v) => insert cmp k v m) leaf

/-- `Eq.OrdMap.eq?`, ord-map.llrl:403-409, on the iterated elements (`it/zip-either`). -/
def eqElems (eqE : K × V → K × V → Bool) : List (K × V) → List (K × V) → Bool
  | [], [] => true
  | a :: as, b :: bs => if !eqE a b then false else eqElems eqE as bs
  | _, _ => false

/-- `Ord.OrdMap.compare`, ord-map.llrl:411-423. -/
def compareElems (cmpE : K × V → K × V → Ordering) : List (K × V) → List (K × V) → Ordering
  | [], [] => .eq
  | a :: as, b :: bs => match cmpE a b with
    | .eq => compareElems cmpE as bs
    | o => o
  | _ :: _, [] => .gt
  | [], _ :: _ => .lt

end Verif.RbMap
