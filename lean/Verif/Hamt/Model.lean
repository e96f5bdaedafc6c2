/-!
# Model of the persistent hash map, a hash array mapped trie

`std/persistent/hash-map.llrl`.

`U64` hashes and `U32` bitmaps are bit vectors.  A pointer to buckets is the list of the values stored there: buckets are never written after they
are made, so sharing cannot be observed; a read outside of them is `none`, as is reading a tree as collision elements, or the other way
around, which the code does with casts of pointers.  Numbers of elements and positions are natural numbers: they are at most 32, except for
the number of collision elements, which is kept as the `U32` it is.  `none` also stands for lack of fuel.  The equality of keys and the hash of
a key by the hasher of the map (`hash`, std/hash.llrl:15-18, which resets the hasher first) are parameters.
-/
namespace Verif.Hamt

variable {K V A : Type}

/-- `popcount` of a `U32` (`<integer/popcount>`, std/bits.llrl:25): the number of bits set. -/
def popcount (b : BitVec 32) : Nat := ((List.range 32).filter b.getLsbD).length

/-! ## Bit indexes and buckets -/

/-- `bit-index`, std/persistent/hash-map.llrl:314-316. -/
def bitIndex (i : BitVec 32) : BitVec 32 := 1#32 <<< i

/-- `consume-hash`, std/persistent/hash-map.llrl:307-308. -/
def consumeHash (h : BitVec 64) : BitVec 32 × BitVec 64 := (bitIndex ((h &&& 31#64).setWidth 32), h >>> 5)

/-- `restore-hash`, std/persistent/hash-map.llrl:310-312. -/
def restoreHash (bit : BitVec 32) (h : BitVec 64) : BitVec 64 := (h <<< 5) ||| BitVec.ofNat 64 (popcount (bit - 1#32))

/-- `exists?`, std/persistent/hash-map.llrl:318-320. -/
def existsBit (bitmap bit : BitVec 32) : Bool := bitmap &&& bit != 0#32

/-- `add`, std/persistent/hash-map.llrl:322-324. -/
def addBit (bitmap bit : BitVec 32) : BitVec 32 := bitmap ||| bit

/-- `remove`, std/persistent/hash-map.llrl:326-328. -/
def removeBit (bitmap bit : BitVec 32) : BitVec 32 := bitmap &&& ~~~bit

/-- `bucket-index`, std/persistent/hash-map.llrl:330-332. -/
def bucketIndex (bitmap bit : BitVec 32) : Nat := popcount (bitmap &&& (bit - 1#32))

/-- `ptr/copy!` from the buckets, at a position, of a number of values. -/
def copy (l : List A) (start n : Nat) : Option (List A) :=
  if start + n ≤ l.length then some ((l.drop start).take n) else none

/-- `buckets-get`, std/persistent/hash-map.llrl:255-257. -/
def bucketsGet (bitmap bit : BitVec 32) (l : List A) : Option A := l[bucketIndex bitmap bit]?

/-- `buckets-add`, std/persistent/hash-map.llrl:263-274. -/
def bucketsAdd (bitmap bit : BitVec 32) (elem : A) (l : List A) : Option (BitVec 32 × List A) := do
  let i := bucketIndex bitmap bit
  let length := popcount bitmap
  let before ← copy l 0 i
  let after ← copy l i (length - i)
  pure (addBit bitmap bit, before ++ elem :: after)

/-- `buckets-update`, std/persistent/hash-map.llrl:276-284. -/
def bucketsUpdate (bitmap bit : BitVec 32) (elem : A) (l : List A) : Option (List A) := do
  let i := bucketIndex bitmap bit
  let new ← copy l 0 (popcount bitmap)
  if i < new.length then pure (new.set i elem) else none

/-- `buckets-remove`, std/persistent/hash-map.llrl:286-298. -/
def bucketsRemove (bitmap bit : BitVec 32) (l : List A) : Option (BitVec 32 × List A) := do
  let i := bucketIndex bitmap bit
  let length := popcount bitmap
  if length - 1 = 0 then pure (0#32, [])
  else do
    let before ← copy l 0 i
    let after ← copy l (i + 1) (length - 1 - i)
    pure (removeBit bitmap bit, before ++ after)

/-! ## Trees -/

/-- `Tree`, std/persistent/hash-map.llrl:93-95: `collision` is a `tree-as-collision`, of which the second and the fourth part are not used. -/
inductive Tree (K V : Type) where
  | node (emap cmap : BitVec 32) (elems : List (BitVec 64 × K × V)) (children : List (Tree K V))
  | collision (num : BitVec 32) (elems : List (K × V))

/-- `tree/empty`, std/persistent/hash-map.llrl:97-98. -/
def Tree.empty : Tree K V := .node 0#32 0#32 [] []

/-- `SearchResult`, std/persistent/hash-map.llrl:238-240. -/
inductive Found (K V : Type) where
  | elem (e : BitVec 64 × K × V)
  | child (t : Tree K V)

/-- `tree/search?`, std/persistent/hash-map.llrl:232-236. -/
def search (bit : BitVec 32) : Tree K V → Option (Option (Found K V))
  | .collision _ _ => none
  | .node emap cmap elems children =>
    if existsBit emap bit then (bucketsGet emap bit elems).map (fun e => some (.elem e))
    else if existsBit cmap bit then (bucketsGet cmap bit children).map (fun t => some (.child t))
    else some none

/-- `tree/as-collision-elems`, std/persistent/hash-map.llrl:247-249. -/
def asCollision : Tree K V → Option (List (K × V))
  | .collision num elems => copy elems 0 num.toNat
  | .node .. => none

/-- `tree/from-collision-elems`, std/persistent/hash-map.llrl:251-253: the number of elements is cut to a `U32`. -/
def fromCollision (elems : List (K × V)) : Tree K V := .collision (BitVec.ofNat 32 elems.length) elems

/-- `tree/collision-elems?`, std/persistent/hash-map.llrl:242-245. -/
def collisionElems (bit : BitVec 32) : Tree K V → Option (Option (List (K × V)))
  | .collision _ _ => none
  | .node _ cmap _ children =>
    if existsBit cmap bit then do
      let t ← bucketsGet cmap bit children
      (asCollision t).map some
    else some none

/-- `tree/new-child`, std/persistent/hash-map.llrl:100-107. -/
def newChild (hash : BitVec 64) (key : K) (value : V) (ces : Option (List (K × V))) : Tree K V :=
  let (bit, hash) := consumeHash hash
  match ces with
  | none => .node (addBit 0#32 bit) 0#32 [(hash, key, value)] []
  | some elems => .node (addBit 0#32 bit) (addBit 0#32 bit) [(hash, key, value)] [fromCollision elems]

variable (eq : K → K → Bool)

/-- The loops over the collision elements, std/persistent/hash-map.llrl:129-135, 186-197 and 224-227, up to the element with the key. -/
def scan (key : K) (ces : List (K × V)) (i : Nat) : Option (Nat × K × V) :=
  if h : i < ces.length then
    if eq ces[i].1 key then some (i, ces[i]) else scan key ces (i + 1)
  else none
termination_by ces.length - i

/-- `tree/insert`, std/persistent/hash-map.llrl:109-155.  `array/update` and `array/push` are `set` and `++`. -/
def insert : Nat → BitVec 64 → K → V → Tree K V → Option (Option V × Tree K V)
  | 0, _, _, _, _ => none
  | _ + 1, _, _, _, .collision _ _ => none
  | fuel + 1, hash, key, value, .node emap cmap elems children => do
    let tree := Tree.node emap cmap elems children
    let (bit, hash) := consumeHash hash
    match ← search bit tree with
    | some (.elem (eh, ek, ev)) =>
      if eh = hash then
        if eq ek key then do
          let elems ← bucketsUpdate emap bit (eh, ek, value) elems
          pure (some ev, .node emap cmap elems children)
        else
          match ← collisionElems bit tree with
          | none => do
            let (cmap, children) ← bucketsAdd cmap bit (fromCollision [(key, value)]) children
            pure (none, .node emap cmap elems children)
          | some ces =>
            match scan eq key ces 0 with
            | some (i, ek, ev) => do
              let children ← bucketsUpdate cmap bit (fromCollision (ces.set i (ek, value))) children
              pure (some ev, .node emap cmap elems children)
            | none => do
              let children ← bucketsUpdate cmap bit (fromCollision (ces ++ [(key, value)])) children
              pure (none, .node emap cmap elems children)
      else do
        let ces ← collisionElems bit tree
        let (_, child) ← insert fuel hash key value (newChild eh ek ev ces)
        let (emap, elems) ← bucketsRemove emap bit elems
        let (cmap, children) ← if ces.isNone then bucketsAdd cmap bit child children
          else (bucketsUpdate cmap bit child children).map (fun c => (cmap, c))
        pure (none, .node emap cmap elems children)
    | some (.child child) => do
      let (replaced, child) ← insert fuel hash key value child
      let children ← bucketsUpdate cmap bit child children
      pure (replaced, .node emap cmap elems children)
    | none => do
      let (emap, elems) ← bucketsAdd emap bit (hash, key, value) elems
      pure (none, .node emap cmap elems children)

/-- What is left of the collision elements after one was taken, std/persistent/hash-map.llrl:172-175 and 192-195: `children` and their bitmap. -/
def putCollision (cmap bit : BitVec 32) (ces : List (K × V)) (children : List (Tree K V)) : Option (BitVec 32 × List (Tree K V)) :=
  if ces.isEmpty then bucketsRemove cmap bit children
  else (bucketsUpdate cmap bit (fromCollision ces) children).map (fun c => (cmap, c))

/-- `merge?`, std/persistent/hash-map.llrl:180 and 211: one element and no child is left. -/
def merges (emap cmap : BitVec 32) : Bool := popcount emap == 1 && cmap &&& ~~~emap == 0#32

/-- `tree/remove`, std/persistent/hash-map.llrl:157-214.  `array/split-first` and `array/remove` are the head and tail, and `eraseIdx`. -/
def remove : Nat → BitVec 64 → K → Tree K V → Option (Option (V × Bool × Tree K V))
  | 0, _, _, _ => none
  | _ + 1, _, _, .collision _ _ => none
  | fuel + 1, hash, key, .node emap cmap elems children => do
    let tree := Tree.node emap cmap elems children
    let (bit, hash) := consumeHash hash
    match ← search bit tree with
    | none => pure none
    | some (.elem (eh, ek, ev)) =>
      if eh ≠ hash then pure none
      else if eq ek key then
        match ← collisionElems bit tree with
        | some [] => none
        | some ((nextK, nextV) :: ces) => do
          let elems ← bucketsUpdate emap bit (eh, nextK, nextV) elems
          let (cmap, children) ← putCollision cmap bit ces children
          pure (some (ev, false, .node emap cmap elems children))
        | none => do
          let (emap, elems) ← bucketsRemove emap bit elems
          pure (some (ev, merges emap cmap, .node emap cmap elems children))
      else
        match ← collisionElems bit tree with
        | none => pure none
        | some ces =>
          match scan eq key ces 0 with
          | some (i, _, ev) => do
            let (cmap, children) ← putCollision cmap bit (ces.eraseIdx i) children
            pure (some (ev, false, .node emap cmap elems children))
          | none => pure none
    | some (.child child) => do
      match ← remove fuel hash key child with
      | none => pure none
      | some (removed, merge, child) =>
        if merge then
          match child with
          | .collision _ _ => none
          | .node childEmap childCmap childElems childChildren => do
            let (ch, ck, cv) ← childElems[0]?
            let ch := restoreHash childEmap ch
            let (emap, elems) ← bucketsAdd emap bit (ch, ck, cv) elems
            let (cmap, children) ← if childCmap = 0#32 then bucketsRemove cmap bit children
              else do
                let c ← childChildren[0]?
                (bucketsUpdate cmap bit c children).map (fun c => (cmap, c))
            pure (some (removed, merges emap cmap, .node emap cmap elems children))
        else do
          let children ← bucketsUpdate cmap bit child children
          pure (some (removed, false, .node emap cmap elems children))

/-- `tree/get?`, std/persistent/hash-map.llrl:216-230. -/
def get : Nat → BitVec 64 → K → Tree K V → Option (Option V)
  | 0, _, _, _ => none
  | fuel + 1, hash, key, tree => do
    let (bit, hash) := consumeHash hash
    match ← search bit tree with
    | none => pure none
    | some (.elem (eh, ek, ev)) =>
      if eh ≠ hash then pure none
      else if eq ek key then pure (some ev)
      else
        match ← collisionElems bit tree with
        | none => pure none
        | some ces => pure ((scan eq key ces 0).map (fun r => r.2.2))
    | some (.child t) => get fuel hash key t

/-! ## Maps -/

/-- The levels of a tree: 64 bits, 5 at each level.  Used as the fuel of the recursions over a tree. -/
def levels : Nat := 13

/-- `HashMap`, std/persistent/hash-map.llrl:22-23, without the hasher. -/
structure HashMap (K V : Type) where
  length : BitVec 64
  tree : Tree K V

/-- `hash-map/empty`, std/persistent/hash-map.llrl:32-33. -/
def HashMap.empty : HashMap K V := ⟨0#64, .empty⟩

/-- `hash-map/empty?`, std/persistent/hash-map.llrl:39-40. -/
def HashMap.isEmpty (m : HashMap K V) : Bool := 0#64 == m.length

variable (hash : K → BitVec 64)

/-- `hash-map/get?`, std/persistent/hash-map.llrl:45-47. -/
def HashMap.get (key : K) (m : HashMap K V) : Option (Option V) := Hamt.get eq levels (hash key) key m.tree

/-- `hash-map/has?`, std/persistent/hash-map.llrl:42-43. -/
def HashMap.has (key : K) (m : HashMap K V) : Option Bool := (m.get eq hash key).map Option.isSome

/-- `hash-map/insert`, std/persistent/hash-map.llrl:49-53. -/
def HashMap.insert (key : K) (value : V) (m : HashMap K V) : Option (HashMap K V) := do
  let (replaced, tree) ← Hamt.insert eq levels (hash key) key value m.tree
  pure ⟨if replaced.isNone then m.length + 1 else m.length, tree⟩

/-- `hash-map/remove`, std/persistent/hash-map.llrl:59-63. -/
def HashMap.remove (key : K) (m : HashMap K V) : Option (HashMap K V) := do
  match ← Hamt.remove eq levels (hash key) key m.tree with
  | some (_, _, tree) => pure ⟨m.length - 1, tree⟩
  | none => pure m

/-- `hash-map/collect`, std/persistent/hash-map.llrl:67-71, of the elements given by an iterator; `hash-map/insert-elem`,
std/persistent/hash-map.llrl:55-57, is the same for one element. -/
def HashMap.collect (es : List (K × V)) : Option (HashMap K V) :=
  es.foldlM (fun m e => m.insert eq hash e.1 e.2) .empty

/-! ## Cursors -/

/-- `Cursor`, std/persistent/hash-map.llrl:334-335: a stack, the top first. -/
abbrev Cursor (K V : Type) := List (Tree K V × BitVec 32 × BitVec 64)

/-- The loop of `cursor/push!`, std/persistent/hash-map.llrl:366-369.  A shift by 32 or more would be undefined. -/
def descend : Nat → Tree K V → BitVec 32 → Cursor K V → Option (Cursor K V)
  | 0, _, _, _ => none
  | fuel + 1, tree, index, stack => do
    if 32 ≤ index.toNat then none
    else match ← search (bitIndex index) tree with
      | some (.child t) => descend fuel t 0#32 ((t, 0#32, 0#64) :: stack)
      | _ => pure stack

/-- `cursor/push!`, std/persistent/hash-map.llrl:360-369. -/
def push (tree : Tree K V) (index : BitVec 32) (stack : Cursor K V) : Option (Cursor K V) :=
  if 32 ≤ index.toNat then some stack else descend levels tree index ((tree, index, 0#64) :: stack)

/-- `cursor/new`, std/persistent/hash-map.llrl:337-340. -/
def Cursor.new (tree : Tree K V) : Option (Cursor K V) := push tree 0#32 []

/-- The element under the cursor, std/persistent/hash-map.llrl:346-352. -/
def current (tree : Tree K V) (i : BitVec 32) (j : BitVec 64) : Option (Option (K × V)) :=
  if 32 ≤ i.toNat then none
  else if j = 0#64 then do
    match ← search (bitIndex i) tree with
    | some (.elem (_, key, value)) => pure (some (key, value))
    | _ => pure none
  else do
    match ← collisionElems (bitIndex i) tree with
    | some ces => pure ces[(j - 1#64).toNat]?
    | none => pure none

/-- `cursor/next!`, std/persistent/hash-map.llrl:342-358: the element and the stack left. -/
def next : Nat → Cursor K V → Option (Option (K × V) × Cursor K V)
  | 0, _ => none
  | _ + 1, [] => some (none, [])
  | fuel + 1, (tree, i, j) :: stack => do
    match ← current tree i j with
    | some elem => pure (some elem, (tree, i, j + 1#64) :: stack)
    | none => next fuel (← push tree (i + 1#32) stack)

/-- What an iteration over `hash-map/elems`, std/persistent/hash-map.llrl:73-76, gives: `cursor/next!` is called until it gives nothing. -/
def drain (steps : Nat) : Nat → Cursor K V → Option (List (K × V))
  | 0, _ => none
  | fuel + 1, c => do
    match ← next steps c with
    | (some e, c) => (drain steps fuel c).map (e :: ·)
    | (none, _) => pure []

def HashMap.elems (steps fuel : Nat) (m : HashMap K V) : Option (List (K × V)) := do
  drain steps fuel (← Cursor.new m.tree)

/-- `Eq.HashMap`, std/persistent/hash-map.llrl:414-419; `es` are the elements of `a`, and `eqV` is the equality of values. -/
def eqElems (eqV : V → V → Bool) (b : HashMap K V) : List (K × V) → Option Bool
  | [] => some true
  | (k, v) :: es => do
    match ← b.get eq hash k with
    | some v' => if eqV v v' then eqElems eqV b es else pure false
    | none => pure false

def HashMap.eqMap (eqV : V → V → Bool) (steps fuel : Nat) (a b : HashMap K V) : Option Bool := do
  if a.length ≠ b.length then pure false
  else eqElems eq hash eqV b (← a.elems steps fuel)

end Verif.Hamt
