/-!
# Model of the mutable ordered map, a B-tree

`std/ord-map.llrl`.

A node owns its arrays and its children: no node is reached from two places, so a tree is a value and a function that changes a node gives the changed
one; where the code changes a child through the pointer in its parent, the changed child is put back at the same edge (`setEdge`).  An array of
keys, values or edges is a list of its capacity, with `none` for a slot that is not initialised.  `none` as a result stands for a failed assertion, an
access outside of an array, a load of a slot that is not initialised, a difference below zero (which wraps around in `U64`), or lack of fuel.
Lengths of nodes are natural numbers: they are at most 11.  The comparison of keys is a parameter.
-/
namespace Verif.BTree

variable {K V A : Type}

/-! ## Arrays -/

/-- `assert`: a failure ends the program. -/
def assert (b : Bool) : Option Unit := if b then some () else none

/-- A difference of `U64`. -/
def sub (a b : Nat) : Option Nat := if b ≤ a then some (a - b) else none

/-- `array/unsafe-alloc-uninitialized`, used at std/ord-map.llrl:147-159. -/
def alloc (n : Nat) : List (Option A) := List.replicate n none

/-- `ptr/load-at`. -/
def load (i : Nat) (a : List (Option A)) : Option A := a[i]?.join

/-- `ptr/store-at!`. -/
def store (i : Nat) (x : A) (a : List (Option A)) : Option (List (Option A)) :=
  if i < a.length then some (a.set i (some x)) else none

/-- `ptr/copy!` (std/memory.llrl:17) of `n` slots of `a` from `src` to the slots of `b` from `dst`. -/
def copy (a : List (Option A)) (src n : Nat) (b : List (Option A)) (dst : Nat) : Option (List (Option A)) :=
  if src + n ≤ a.length ∧ dst + n ≤ b.length then some (b.take dst ++ ((a.drop src).take n ++ b.drop (dst + n))) else none

/-- `ptr/move!` (std/memory.llrl:18) within an array. -/
def move (a : List (Option A)) (src n dst : Nat) : Option (List (Option A)) := copy a src n a dst

/-! ## Nodes -/

/-- `2B-1`, std/ord-map.llrl:131; `B` is 6, std/ord-map.llrl:128. -/
def maxElems : Nat := 11

/-- `2B`, std/ord-map.llrl:130. -/
def maxEdges : Nat := 12

/-- `B-1`, std/ord-map.llrl:129. -/
def minElems : Nat := 5

/-- `Node`, std/ord-map.llrl:133-138; `edges` is `none` for `NULL`. -/
inductive Node (K V : Type) where
  | mk (length : Nat) (keys : List (Option K)) (values : List (Option V)) (edges : Option (List (Option (Node K V))))

/-- `node/length`, std/ord-map.llrl:176-178. -/
def Node.length : Node K V → Nat
  | .mk l _ _ _ => l

def Node.keys : Node K V → List (Option K)
  | .mk _ k _ _ => k

def Node.values : Node K V → List (Option V)
  | .mk _ _ v _ => v

def Node.edges : Node K V → Option (List (Option (Node K V)))
  | .mk _ _ _ e => e

/-- `node/leaf?`, std/ord-map.llrl:207-209; `node/internal?`, std/ord-map.llrl:211-213, is its negation. -/
def Node.leaf (n : Node K V) : Bool := n.edges.isNone

/-- `node/new-leaf`, std/ord-map.llrl:147-152. -/
def newLeaf : Node K V := .mk 0 (alloc maxElems) (alloc maxElems) none

/-- `node/new-internal`, std/ord-map.llrl:154-159. -/
def newInternal : Node K V := .mk 0 (alloc maxElems) (alloc maxElems) (some (alloc maxEdges))

/-- `node/new-root`, std/ord-map.llrl:161-168. -/
def newRoot (key : K) (value : V) (left right : Node K V) : Option (Node K V) :=
  match (newInternal : Node K V) with
  | .mk _ keys values edges => do
    let keys ← store 0 key keys
    let values ← store 0 value values
    let edges ← store 0 left (← edges)
    let edges ← store 1 right edges
    pure (.mk 1 keys values (some edges))

/-- `node/simplify-root`, std/ord-map.llrl:170-174. -/
def simplifyRoot (root : Node K V) : Option (Node K V) :=
  match root with
  | .mk 0 _ _ (some edges) => load 0 edges
  | root => some root

/-- `node/full?`, std/ord-map.llrl:180-181. -/
def Node.full (n : Node K V) : Bool := maxElems == n.length

/-- `node/room?`, std/ord-map.llrl:183-184. -/
def Node.room (n : Node K V) : Bool := maxElems != n.length

/-- `node/value-at`, std/ord-map.llrl:186-189. -/
def valueAt (i : Nat) (n : Node K V) : Option V := do
  assert (i < n.length)
  load i n.values

/-- `node/replace-value-at!`, std/ord-map.llrl:191-194. -/
def replaceValueAt (i : Nat) (value : V) (n : Node K V) : Option (V × Node K V) := do
  assert (i < n.length)
  let old ← load i n.values
  let values ← store i value n.values
  pure (old, .mk n.length n.keys values n.edges)

/-- `node/elem-at`, std/ord-map.llrl:196-199. -/
def elemAt (i : Nat) (n : Node K V) : Option (K × V) := do
  assert (i < n.length)
  pure (← load i n.keys, ← load i n.values)

/-- `node/replace-elem-at!`, std/ord-map.llrl:201-205. -/
def replaceElemAt (i : Nat) (elem : K × V) (n : Node K V) : Option ((K × V) × Node K V) := do
  assert (i < n.length)
  let key ← load i n.keys
  let keys ← store i elem.1 n.keys
  let value ← load i n.values
  let values ← store i elem.2 n.values
  pure ((key, value), .mk n.length keys values n.edges)

/-- `node/edge-at`, std/ord-map.llrl:215-219. -/
def edgeAt (i : Nat) (n : Node K V) : Option (Node K V) := do
  assert (!n.leaf)
  assert (i ≤ n.length)
  load i (← n.edges)

/-- The child at an edge was changed through its pointer. -/
def setEdge (i : Nat) (child : Node K V) (n : Node K V) : Option (Node K V) := do
  let edges ← store i child (← n.edges)
  pure (.mk n.length n.keys n.values (some edges))

/-! ## Search -/

variable (cmp : K → K → Ordering)

/-- `SearchResult`, std/ord-map.llrl:238-240. -/
inductive Search where
  | found (i : Nat)
  | goDown (i : Nat)
deriving DecidableEq, Repr

/-- The loop of `node/search`, std/ord-map.llrl:226-236; `n` rounds are left. -/
def searchFrom (key : K) (keys : List (Option K)) : Nat → Nat → Option Search
  | 0, i => some (.goDown i)
  | n + 1, i => do
    match cmp key (← load i keys) with
    | .lt => pure (.goDown i)
    | .eq => pure (.found i)
    | .gt => searchFrom key keys n (i + 1)

/-- `node/search`, std/ord-map.llrl:226-236. -/
def search (key : K) (n : Node K V) : Option Search := searchFrom cmp key n.keys n.length 0

/-- `node/get?`, std/ord-map.llrl:242-249. -/
def get : Nat → K → Node K V → Option (Option V)
  | 0, _, _ => none
  | fuel + 1, key, n => do
    match ← search cmp key n with
    | .found i => (valueAt i n).map some
    | .goDown i => if n.leaf then pure none else get fuel key (← edgeAt i n)

/-- `node/get-min`, std/ord-map.llrl:251-254. -/
def getMin : Nat → Node K V → Option (K × V)
  | 0, _ => none
  | fuel + 1, n => do if n.leaf then elemAt 0 n else getMin fuel (← edgeAt 0 n)

/-- `node/get-max`, std/ord-map.llrl:256-259. -/
def getMax : Nat → Node K V → Option (K × V)
  | 0, _ => none
  | fuel + 1, n => do if n.leaf then elemAt (← sub n.length 1) n else getMax fuel (← edgeAt n.length n)

/-! ## Insertion -/

/-- `InsertionResult`, std/ord-map.llrl:274-277. -/
inductive Inserted (K V : Type) where
  | replace (v : V)
  | fit
  | split (k : K) (v : V) (right : Node K V)

/-- The edges after `node/room/insert-at!`, std/ord-map.llrl:303-307. -/
def insertEdge (i l : Nat) (right : Option (Node K V)) (edges : Option (List (Option (Node K V)))) : Option (Option (List (Option (Node K V)))) :=
  match right with
  | none => some edges
  | some right => do
    let edges ← move (← edges) (i + 1) l (i + 2)
    (store (i + 1) right edges).map some

/-- `node/room/insert-at!`, std/ord-map.llrl:291-307. -/
def roomInsertAt (i : Nat) (key : K) (value : V) (right : Option (Node K V)) (n : Node K V) : Option (Node K V) := do
  assert (n.leaf == right.isNone)
  assert n.room
  let l ← sub n.length i
  let keys ← move n.keys i l (i + 1)
  let values ← move n.values i l (i + 1)
  let keys ← store i key keys
  let values ← store i value values
  let edges ← insertEdge i l right n.edges
  pure (.mk (n.length + 1) keys values edges)

/-- `node/full/split!`, std/ord-map.llrl:312-322: the element in the middle, the new node on its right, and the node. -/
def split (n : Node K V) : Option ((K × V) × Node K V × Node K V) := do
  assert n.full
  let right : Node K V := if n.leaf then newLeaf else newInternal
  let keys ← copy n.keys (minElems + 1) minElems right.keys 0
  let values ← copy n.values (minElems + 1) minElems right.values 0
  let edges ← if n.leaf then pure right.edges else (copy (← n.edges) (minElems + 1) (minElems + 1) (← right.edges) 0).map some
  let key ← load minElems n.keys
  let value ← load minElems n.values
  pure ((key, value), .mk minElems keys values edges, .mk minElems n.keys n.values n.edges)

/-- `node/insert-at!`, std/ord-map.llrl:279-289. -/
def insertAt (i : Nat) (key : K) (value : V) (right : Option (Node K V)) (n : Node K V) : Option (Inserted K V × Node K V) := do
  assert (n.leaf == right.isNone)
  if n.room then do
    let n ← roomInsertAt i key value right n
    pure (.fit, n)
  else do
    let ((mk, mv), r, n) ← split n
    if i ≤ n.length then do
      let n ← roomInsertAt i key value right n
      pure (.split mk mv r, n)
    else do
      let r ← roomInsertAt (← sub (← sub i n.length) 1) key value right r
      pure (.split mk mv r, n)

/-- `node/insert!`, std/ord-map.llrl:261-272. -/
def insert : Nat → K → V → Node K V → Option (Inserted K V × Node K V)
  | 0, _, _, _ => none
  | fuel + 1, key, value, n => do
    match ← search cmp key n with
    | .found i => do
      let (v, n) ← replaceValueAt i value n
      pure (.replace v, n)
    | .goDown i =>
      if n.leaf then insertAt i key value none n
      else do
        let (r, child) ← insert fuel key value (← edgeAt i n)
        let n ← setEdge i child n
        match r with
        | .split key value right => insertAt i key value (some right) n
        | r => pure (r, n)

/-! ## Removal -/

/-- `node/leaf/remove-at!`, std/ord-map.llrl:360-370. -/
def leafRemoveAt (i : Nat) (n : Node K V) : Option ((K × V) × Node K V) := do
  assert n.leaf
  let l ← sub (← sub n.length i) 1
  let key ← load i n.keys
  let value ← load i n.values
  let keys ← move n.keys (i + 1) l i
  let values ← move n.values (i + 1) l i
  pure ((key, value), .mk (n.length - 1) keys values n.edges)

/-- The last edge of a node, or nothing for a leaf, std/ord-map.llrl:407. -/
def lastEdge (n : Node K V) : Option (Option (Node K V)) :=
  match n.edges with
  | some e => (load n.length e).map some
  | none => some none

/-- The edges with another one put before them, std/ord-map.llrl:416-419. -/
def unshiftEdge (edge : Option (Node K V)) (r : Node K V) : Option (Option (List (Option (Node K V)))) :=
  match edge with
  | some edge => do
    let e ← move (← r.edges) 0 (r.length + 1) 1
    (store 0 edge e).map some
  | none => some r.edges

/-- `node/steal-from-left!`, std/ord-map.llrl:395-421. -/
def stealFromLeft (i : Nat) (n : Node K V) : Option (Node K V) := do
  assert (i != 0)
  let l ← edgeAt (i - 1) n
  let r ← edgeAt i n
  assert (minElems < l.length && r.length < minElems)
  let pKey ← load (i - 1) n.keys
  let pValue ← load (i - 1) n.values
  let lKey ← load (l.length - 1) l.keys
  let lValue ← load (l.length - 1) l.values
  let edge ← lastEdge l
  let pKeys ← store (i - 1) lKey n.keys
  let pValues ← store (i - 1) lValue n.values
  let rKeys ← move r.keys 0 r.length 1
  let rValues ← move r.values 0 r.length 1
  let rKeys ← store 0 pKey rKeys
  let rValues ← store 0 pValue rValues
  let rEdges ← unshiftEdge edge r
  let n : Node K V := .mk n.length pKeys pValues n.edges
  let n ← setEdge (i - 1) (.mk (l.length - 1) l.keys l.values l.edges) n
  setEdge i (.mk (r.length + 1) rKeys rValues rEdges) n

/-- The first edge of a node, or nothing for a leaf, std/ord-map.llrl:435. -/
def firstEdge (n : Node K V) : Option (Option (Node K V)) :=
  match n.edges with
  | some e => (load 0 e).map some
  | none => some none

/-- The edges of the left node with the edge put behind them, and those of the right node without the first, std/ord-map.llrl:444-447. -/
def shiftEdge (edge : Option (Node K V)) (l r : Node K V) :
    Option (Option (List (Option (Node K V))) × Option (List (Option (Node K V)))) :=
  match edge with
  | some edge => do
    let le ← store (l.length + 1) edge (← l.edges)
    let re ← move (← r.edges) 1 r.length 0
    pure (some le, some re)
  | none => some (l.edges, r.edges)

/-- `node/steal-from-right!`, std/ord-map.llrl:423-449. -/
def stealFromRight (i : Nat) (n : Node K V) : Option (Node K V) := do
  assert (i != n.length)
  let l ← edgeAt i n
  let r ← edgeAt (i + 1) n
  assert (l.length < minElems && minElems < r.length)
  let pKey ← load i n.keys
  let pValue ← load i n.values
  let rKey ← load 0 r.keys
  let rValue ← load 0 r.values
  let edge ← firstEdge r
  let lKeys ← store l.length pKey l.keys
  let lValues ← store l.length pValue l.values
  let pKeys ← store i rKey n.keys
  let pValues ← store i rValue n.values
  let rKeys ← move r.keys 1 (r.length - 1) 0
  let rValues ← move r.values 1 (r.length - 1) 0
  let (lEdges, rEdges) ← shiftEdge edge l r
  let n : Node K V := .mk n.length pKeys pValues n.edges
  let n ← setEdge i (.mk (l.length + 1) lKeys lValues lEdges) n
  setEdge (i + 1) (.mk (r.length - 1) rKeys rValues rEdges) n

/-- The edges of the left node with those of the right one behind them, std/ord-map.llrl:472-474. -/
def appendEdges (l r : Node K V) : Option (Option (List (Option (Node K V)))) :=
  match l.edges with
  | some e => do
    let e ← copy (← r.edges) 0 (r.length + 1) e (l.length + 1)
    pure (some e)
  | none => some none

/-- `node/merge!`, std/ord-map.llrl:451-476. -/
def merge (i : Nat) (n : Node K V) : Option (Node K V) := do
  let l ← edgeAt i n
  let r ← edgeAt (i + 1) n
  assert (l.length + r.length + 1 ≤ maxElems)
  let key ← load i n.keys
  let value ← load i n.values
  let m ← sub (← sub n.length i) 1
  let pKeys ← move n.keys (i + 1) m i
  let pValues ← move n.values (i + 1) m i
  let pEdges ← move (← n.edges) (i + 2) m (i + 1)
  let lKeys ← store l.length key l.keys
  let lValues ← store l.length value l.values
  let lKeys ← copy r.keys 0 r.length lKeys (l.length + 1)
  let lValues ← copy r.values 0 r.length lValues (l.length + 1)
  let lEdges ← appendEdges l r
  let n : Node K V := .mk (n.length - 1) pKeys pValues (some pEdges)
  setEdge i (.mk (l.length + r.length + 1) lKeys lValues lEdges) n

/-- `node/check-underflow-left!`, std/ord-map.llrl:377-384. -/
def checkUnderflowLeft (i : Nat) (n : Node K V) : Option (Node K V) := do
  assert (i != 0)
  let target ← edgeAt i n
  let left ← edgeAt (i - 1) n
  if minElems ≤ target.length then pure n
  else if minElems < left.length then stealFromLeft i n
  else merge (i - 1) n

/-- `node/check-underflow-right!`, std/ord-map.llrl:386-393. -/
def checkUnderflowRight (i : Nat) (n : Node K V) : Option (Node K V) := do
  assert (i != n.length)
  let target ← edgeAt i n
  let right ← edgeAt (i + 1) n
  if minElems ≤ target.length then pure n
  else if minElems < right.length then stealFromRight i n
  else merge i n

/-- `node/check-underflow!`, std/ord-map.llrl:372-375. -/
def checkUnderflow (i : Nat) (n : Node K V) : Option (Node K V) :=
  if i = 0 then checkUnderflowRight i n else checkUnderflowLeft i n

/-- `node/remove-smallest-elem!`, std/ord-map.llrl:344-349. -/
def removeSmallest : Nat → Node K V → Option ((K × V) × Node K V)
  | 0, _ => none
  | fuel + 1, n => do
    if n.leaf then leafRemoveAt 0 n
    else do
      let (removed, child) ← removeSmallest fuel (← edgeAt 0 n)
      let n ← checkUnderflow 0 (← setEdge 0 child n)
      pure (removed, n)

/-- `node/remove-largest-elem!`, std/ord-map.llrl:352-357. -/
def removeLargest : Nat → Node K V → Option ((K × V) × Node K V)
  | 0, _ => none
  | fuel + 1, n => do
    if n.leaf then leafRemoveAt (← sub n.length 1) n
    else do
      let (removed, child) ← removeLargest fuel (← edgeAt n.length n)
      let n ← setEdge n.length child n
      let n ← checkUnderflow n.length n
      pure (removed, n)

/-- `node/remove!`, std/ord-map.llrl:325-341. -/
def remove : Nat → K → Node K V → Option (Option (K × V) × Node K V)
  | 0, _, _ => none
  | fuel + 1, key, n => do
    match ← search cmp key n with
    | .found i =>
      if n.leaf then do
        let (removed, n) ← leafRemoveAt i n
        pure (some removed, n)
      else do
        let (alternative, child) ← removeSmallest fuel (← edgeAt (i + 1) n)
        let n ← setEdge (i + 1) child n
        let (removed, n) ← replaceElemAt i alternative n
        let n ← checkUnderflow (i + 1) n
        pure (some removed, n)
    | .goDown i =>
      if n.leaf then pure (none, n)
      else do
        let (removed, child) ← remove fuel key (← edgeAt i n)
        let n ← setEdge i child n
        match removed with
        | none => pure (none, n)
        | some removed => do
          let n ← checkUnderflow i n
          pure (some removed, n)

/-! ## Maps -/

/-- `OrdMapBody`, std/ord-map.llrl:21-22; an `OrdMap`, std/ord-map.llrl:18-19, is a reference to it. -/
structure OrdMap (K V : Type) where
  length : BitVec 64
  root : Node K V

/-- `ord-map/empty`, std/ord-map.llrl:35-36, and `ord-map/clear!`, std/ord-map.llrl:103-105. -/
def OrdMap.empty : OrdMap K V := ⟨0#64, newLeaf⟩

/-- `ord-map/empty?`, std/ord-map.llrl:42-43. -/
def OrdMap.isEmpty (m : OrdMap K V) : Bool := 0#64 == m.length

/-- `ord-map/get?`, std/ord-map.llrl:45-47. -/
def OrdMap.get (fuel : Nat) (key : K) (m : OrdMap K V) : Option (Option V) := BTree.get cmp fuel key m.root

/-- `ord-map/get-min?`, std/ord-map.llrl:52-56. -/
def OrdMap.getMin (fuel : Nat) (m : OrdMap K V) : Option (Option (K × V)) :=
  if 0#64 = m.length then some none else (BTree.getMin fuel m.root).map some

/-- `ord-map/get-max?`, std/ord-map.llrl:58-62. -/
def OrdMap.getMax (fuel : Nat) (m : OrdMap K V) : Option (Option (K × V)) :=
  if 0#64 = m.length then some none else (BTree.getMax fuel m.root).map some

/-- `ord-map/insert!`, std/ord-map.llrl:64-74; `ord-map/insert-elem!`, std/ord-map.llrl:76-78, is the same for a pair. -/
def OrdMap.insert (fuel : Nat) (key : K) (value : V) (m : OrdMap K V) : Option (Option V × OrdMap K V) := do
  let (r, root) ← BTree.insert cmp fuel key value m.root
  match r with
  | .replace v => pure (some v, ⟨m.length, root⟩)
  | .fit => pure (none, ⟨m.length + 1, root⟩)
  | .split k v right => do
    let root ← newRoot k v root right
    pure (none, ⟨m.length + 1, root⟩)

/-- `ord-map/remove!`, std/ord-map.llrl:80-85. -/
def OrdMap.remove (fuel : Nat) (key : K) (m : OrdMap K V) : Option (Option V × OrdMap K V) := do
  match ← BTree.remove cmp fuel key m.root with
  | (none, root) => pure (none, ⟨m.length, root⟩)
  | (some (_, v), root) => do
    let root ← simplifyRoot root
    pure (some v, ⟨m.length - 1, root⟩)

/-- `ord-map/remove-min!`, std/ord-map.llrl:87-93. -/
def OrdMap.removeMin (fuel : Nat) (m : OrdMap K V) : Option (Option (K × V) × OrdMap K V) :=
  if 0#64 = m.length then some (none, m)
  else do
    let (elem, root) ← removeSmallest fuel m.root
    let root ← simplifyRoot root
    pure (some elem, ⟨m.length - 1, root⟩)

/-- `ord-map/remove-max!`, std/ord-map.llrl:95-101. -/
def OrdMap.removeMax (fuel : Nat) (m : OrdMap K V) : Option (Option (K × V) × OrdMap K V) :=
  if 0#64 = m.length then some (none, m)
  else do
    let (elem, root) ← removeLargest fuel m.root
    let root ← simplifyRoot root
    pure (some elem, ⟨m.length - 1, root⟩)

/-- `ord-map/collect`, std/ord-map.llrl:109-113, of what an iterator gives. -/
def OrdMap.collect (fuel : Nat) (es : List (K × V)) : Option (OrdMap K V) :=
  es.foldlM (fun m e => (m.insert cmp fuel e.1 e.2).map Prod.snd) .empty

/-! ## Cursors -/

/-- `Cursor`, std/ord-map.llrl:478-479: a stack, the top first. -/
abbrev Cursor (K V : Type) := List (Node K V × Nat)

/-- The loop of `cursor/push!`, std/ord-map.llrl:500-503. -/
def descend : Nat → Node K V → Nat → Cursor K V → Option (Cursor K V)
  | 0, _, _, _ => none
  | fuel + 1, n, i, stack =>
    if n.leaf then some stack
    else do
      let n ← edgeAt i n
      descend fuel n 0 ((n, 0) :: stack)

/-- `cursor/push!`, std/ord-map.llrl:495-503. -/
def push (fuel : Nat) (n : Node K V) (i : Nat) (stack : Cursor K V) : Option (Cursor K V) := descend fuel n i ((n, i) :: stack)

/-- `cursor/next!`, std/ord-map.llrl:486-493: the element and the stack left; `steps` bounds its own recursion and `fuel` that of `cursor/push!`. -/
def next (fuel : Nat) : Nat → Cursor K V → Option (Option (K × V) × Cursor K V)
  | 0, _ => none
  | _ + 1, [] => some (none, [])
  | steps + 1, (n, i) :: stack =>
    if i < n.length then do
      let stack ← push fuel n (i + 1) stack
      pure (some (← elemAt i n), stack)
    else next fuel steps stack

/-- What an iteration over `ord-map/elems`, std/ord-map.llrl:115-118, gives, if it is asked for `rounds` elements at most. -/
def drain (fuel steps : Nat) : Nat → Cursor K V → Option (List (K × V))
  | 0, _ => none
  | rounds + 1, c => do
    match ← next fuel steps c with
    | (some e, c) => (drain fuel steps rounds c).map (e :: ·)
    | (none, _) => pure []

/-- `ord-map/elems`, std/ord-map.llrl:115-118, with `cursor/new`, std/ord-map.llrl:481-484. -/
def OrdMap.elems (fuel steps rounds : Nat) (m : OrdMap K V) : Option (List (K × V)) := do
  drain fuel steps rounds (← push fuel m.root 0 [])

/-! ## Copies -/

/-- `ptr/copy-map!`, std/ord-map.llrl:539-543. -/
def copyMap (f : A → Option A) (src : List (Option A)) (dst : List (Option A)) : Nat → Option (List (Option A))
  | 0 => some dst
  | n + 1 => do
    let dst ← copyMap f src dst n
    store n (← f (← load n src)) dst

/-- `DeepCopy.Node`, std/ord-map.llrl:528-537, where `dk` and `dv` copy keys and values; `ShallowCopy.Node`, std/ord-map.llrl:517-526, copies
keys and values as they are. -/
def deepCopy (dk : K → K) (dv : V → V) : Nat → Node K V → Option (Node K V)
  | 0, _ => none
  | fuel + 1, n => do
    let new : Node K V := if n.leaf then newLeaf else newInternal
    let keys ← copyMap (fun k => some (dk k)) n.keys new.keys n.length
    let values ← copyMap (fun v => some (dv v)) n.values new.values n.length
    let edges ← match n.edges with
      | none => pure new.edges
      | some e => (copyMap (deepCopy dk dv fuel) e (← new.edges) (n.length + 1)).map some
    pure (.mk n.length keys values edges)

/-- `DeepCopy.OrdMap`, std/ord-map.llrl:512-515, and `ShallowCopy.OrdMap`, std/ord-map.llrl:507-510. -/
def OrdMap.deepCopy (dk : K → K) (dv : V → V) (fuel : Nat) (m : OrdMap K V) : Option (OrdMap K V) := do
  pure ⟨m.length, ← BTree.deepCopy dk dv fuel m.root⟩

/-! ## Comparisons of maps -/

/-- The loop of `Eq.OrdMap`, std/ord-map.llrl:558-560, over what the iterators give; `eqE` is the equality of the pairs. -/
def eqZip (eqE : K × V → K × V → Bool) : List (K × V) → List (K × V) → Bool
  | a :: as, b :: bs => if eqE a b then eqZip eqE as bs else false
  | _, _ => true

/-- `Eq.OrdMap`, std/ord-map.llrl:555-560. -/
def OrdMap.eqMap (eqE : K × V → K × V → Bool) (fuel steps rounds : Nat) (a b : OrdMap K V) : Option Bool := do
  if a.length ≠ b.length then pure false
  else pure (eqZip eqE (← a.elems fuel steps rounds) (← b.elems fuel steps rounds))

/-- The loop of `Ord.OrdMap`, std/ord-map.llrl:564-568. -/
def cmpZip (cmpE : K × V → K × V → Ordering) (rest : Ordering) : List (K × V) → List (K × V) → Ordering
  | a :: as, b :: bs => match cmpE a b with
    | .eq => cmpZip cmpE rest as bs
    | o => o
  | _, _ => rest

/-- `Ord.OrdMap`, std/ord-map.llrl:562-568. -/
def OrdMap.compare (cmpE : K × V → K × V → Ordering) (fuel steps rounds : Nat) (a b : OrdMap K V) : Option Ordering := do
  pure (cmpZip cmpE (Ord.compare a.length.toNat b.length.toNat) (← a.elems fuel steps rounds) (← b.elems fuel steps rounds))

end Verif.BTree
