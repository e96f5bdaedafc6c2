import Verif.Hamt.Lemmas

/-!
# Deep copies of persistent hash maps

`std/persistent/hash-map.llrl`.  Arrays that are not initialised are lists of options; a bucket that is never written would be read as garbage.
The copies of keys and values are parameters.
-/
namespace Verif.Hamt

variable {K V A B : Type}

/-- `buckets-set!`, std/persistent/hash-map.llrl:259-261. -/
def bucketsSet (bitmap bit : BitVec 32) (x : A) (l : List (Option A)) : Option (List (Option A)) :=
  let i := bucketIndex bitmap bit
  if i < l.length then some (l.set i (some x)) else none

variable (dk : K → K) (dv : V → V)

/-- One round of the loop of `deep-copy`, std/persistent/hash-map.llrl:391-400; `rec` is the copy of a child. -/
def copyStep (rec : Tree K V → Option (Tree K V)) (emap cmap : BitVec 32) (elems : List (BitVec 64 × K × V)) (children : List (Tree K V))
    (acc : List (Option (BitVec 64 × K × V)) × List (Option (Tree K V))) (i : Nat) :
    Option (List (Option (BitVec 64 × K × V)) × List (Option (Tree K V))) := do
  let bit := bitIndex (BitVec.ofNat 32 i)
  let (newElems, newChildren) := acc
  match existsBit emap bit, existsBit cmap bit with
  | false, false => pure (newElems, newChildren)
  | true, false => do
    let (h, k, v) ← bucketsGet emap bit elems
    pure (← bucketsSet emap bit (h, dk k, dv v) newElems, newChildren)
  | false, true => do
    let c ← rec (← bucketsGet cmap bit children)
    pure (newElems, ← bucketsSet cmap bit c newChildren)
  | true, true => do
    let (h, k, v) ← bucketsGet emap bit elems
    let newElems ← bucketsSet emap bit (h, dk k, dv v) newElems
    let ces ← asCollision (← bucketsGet cmap bit children)
    pure (newElems, ← bucketsSet cmap bit (fromCollision (ces.map (fun c => (dk c.1, dv c.2)))) newChildren)

/-- `DeepCopy.Tree`, std/persistent/hash-map.llrl:381-402. -/
def deepCopy : Nat → Tree K V → Option (Tree K V)
  | 0, _ => none
  | _ + 1, .collision _ _ => none
  | fuel + 1, .node emap cmap elems children => do
    let (newElems, newChildren) ← (List.range 32).foldlM (copyStep dk dv (deepCopy fuel) emap cmap elems children)
      (List.replicate (popcount emap) none, List.replicate (popcount cmap) none)
    pure (.node emap cmap (← newElems.mapM id) (← newChildren.mapM id))

/-- `DeepCopy.HashMap`, std/persistent/hash-map.llrl:376-379. -/
def HashMap.deepCopy (m : HashMap K V) : Option (HashMap K V) := (Hamt.deepCopy dk dv levels m.tree).map (fun t => ⟨m.length, t⟩)

/-! ## What is copied -/

/-- Buckets copied up to an index. -/
def partly (b : BitVec 32) (g : A → B) (l : List A) (i : Nat) : List (Option B) :=
  (l.take (rank b.getLsbD i)).map (fun a => some (g a)) ++ List.replicate (l.length - rank b.getLsbD i) none

theorem partly_zero {b : BitVec 32} {l : List A} (g : A → B) (h : Fits b l) : partly b g l 0 = List.replicate (popcount b) none := by
  rw [partly, rank_zero, List.take_zero, Nat.sub_zero, popcount_eq, show l.length = rank b.getLsbD 32 from h]; rfl

theorem partly_skip {b : BitVec 32} {l : List A} (g : A → B) {i : Nat} (hb : b.getLsbD i = false) : partly b g l (i + 1) = partly b g l i := by
  rw [partly, partly, rank_succ, hb]; rfl

theorem partly_set {b : BitVec 32} {l : List A} (g : A → B) (h : Fits b l) {i : Nat} (hi : i < 32) {a : A} (ha : look b l i = some a) :
    bucketsSet b (bitOf i) (g a) (partly b g l i) = some (partly b g l (i + 1)) := by
  have hb := look_some ha
  have hlt : rank b.getLsbD i < l.length := by rw [show l.length = rank b.getLsbD 32 from h]; exact rank_lt _ hi hb
  have hget : l[rank b.getLsbD i] = a := by
    rw [look, if_pos hb] at ha
    rw [List.getElem?_eq_getElem hlt] at ha
    exact Option.some.inj ha
  rw [bucketsSet]
  simp only [bucketIndex_bitOf b hi]
  have hlen : (partly b g l i).length = l.length := by
    simp only [partly, List.length_append, List.length_map, List.length_take, List.length_replicate]; omega
  rw [if_pos (by rw [hlen]; exact hlt)]
  congr 1
  rw [partly, partly, rank_succ, if_pos hb]
  rw [List.set_append_right _ _ (by simp only [List.length_map, List.length_take]; omega)]
  rw [List.length_map, List.length_take, Nat.min_eq_left (Nat.le_of_lt hlt), Nat.sub_self]
  rw [show l.length - rank b.getLsbD i = (l.length - (rank b.getLsbD i + 1)) + 1 by omega, List.replicate_succ, List.set_cons_zero]
  rw [List.take_add_one, List.map_append, List.append_assoc, List.getElem?_eq_getElem hlt, hget]
  rfl

theorem partly_end {b : BitVec 32} {l : List A} (g : A → B) (h : Fits b l) : (partly b g l 32).mapM id = some (l.map g) := by
  have : l.length = rank b.getLsbD 32 := h
  rw [partly, ← this, List.take_length, Nat.sub_self, List.replicate_zero, List.append_nil]
  clear this h
  induction l with
  | nil => rfl
  | cons a l ih => rw [List.map_cons, List.mapM_cons, ih]; rfl

/-- A tree with each key and value copied. -/
def Tree.map : Nat → Tree K V → Tree K V
  | _, .collision num elems => .collision num (elems.map (fun c => (dk c.1, dv c.2)))
  | 0, .node emap cmap elems children => .node emap cmap elems children
  | n + 1, .node emap cmap elems children =>
    .node emap cmap (elems.map (fun e => (e.1, dk e.2.1, dv e.2.2))) (children.map (Tree.map n))

variable {eq : K → K → Bool}

theorem collTree_some {ces : List (K × V)} {t} (h : collTree ces = some t) : t = fromCollision ces := by
  cases ces with
  | nil => cases h
  | cons c cs => exact (Option.some.inj h).symm

theorem copyStep_spec {n emap cmap elems} {children : List (Tree K V)} (he : Fits emap elems) (hc : Fits cmap children) {x} {i : Nat} (hi : i < 32)
    (hs : Slot eq n (Rep eq n) (look emap elems i) (look cmap children i) x)
    (ih : ∀ {t : Tree K V} {es}, Rep eq n t es → deepCopy dk dv n t = some (t.map dk dv n)) :
    copyStep dk dv (deepCopy dk dv n) emap cmap elems children (partly emap (fun e => (e.1, dk e.2.1, dv e.2.2)) elems i, partly cmap (Tree.map dk dv n) children i) i =
      some (partly emap (fun e => (e.1, dk e.2.1, dv e.2.2)) elems (i + 1), partly cmap (Tree.map dk dv n) children (i + 1)) := by
  generalize hoe : look emap elems i = oe at hs
  generalize hoc : look cmap children i = oc at hs
  rw [copyStep]
  simp only [show bitIndex (BitVec.ofNat 32 i) = bitOf i from rfl, existsBit_bitOf _ hi]
  have hsetE := fun a (h : look emap elems i = some a) => partly_set (fun e : BitVec 64 × K × V => (e.1, dk e.2.1, dv e.2.2)) he hi h
  have hsetC := fun a (h : look cmap children i = some a) => partly_set (Tree.map dk dv n) hc hi h
  cases hs with
  | empty =>
    have h1 := (look_none he hi).1 hoe
    have h2 := (look_none hc hi).1 hoc
    rw [h1, h2, partly_skip _ h1, partly_skip _ h2]; rfl
  | child t es hr ht =>
    have h1 := (look_none he hi).1 hoe
    have h2 := look_some hoc
    rw [h1, h2, partly_skip _ h1]
    simp only [bucketsGet_eq hi hoc, Option.bind_eq_bind, Option.bind_some, ih hr, hsetC _ hoc, Option.pure_def]
  | group h k v ces hb hl hp =>
    have h1 := look_some hoe
    rw [h1]
    cases ces with
    | nil =>
      have h2 := (look_none hc hi).1 hoc
      rw [h2, partly_skip _ h2]
      simp only [bucketsGet_eq hi hoe, Option.bind_eq_bind, Option.bind_some, hsetE _ hoe, Option.pure_def]
    | cons c cs =>
      have h2 := look_some hoc
      rw [h2]
      have hm : fromCollision ((c :: cs).map fun c => (dk c.1, dv c.2)) = (fromCollision (c :: cs)).map dk dv n := by
        rw [fromCollision, fromCollision, List.length_map]
        cases n <;> rfl
      simp only [bucketsGet_eq hi hoe, bucketsGet_eq hi hoc, Option.bind_eq_bind, Option.bind_some, hsetE _ hoe, asCollision_from hl, hm,
        hsetC _ hoc, Option.pure_def]

theorem deepCopy_map {n} {t : Tree K V} {es} (hr : Rep eq n t es) : deepCopy dk dv n t = some (t.map dk dv n) := by
  induction n generalizing t es with
  | zero => exact absurd hr id
  | succ n ih =>
    cases t with
    | collision => exact absurd hr id
    | node emap cmap elems children =>
      obtain ⟨he, hc, f, hs, rfl⟩ := hr
      have hloop : ∀ i ≤ 32, (List.range i).foldlM (copyStep dk dv (deepCopy dk dv n) emap cmap elems children)
          (List.replicate (popcount emap) none, List.replicate (popcount cmap) none) =
          some (partly emap (fun e => (e.1, dk e.2.1, dv e.2.2)) elems i, partly cmap (Tree.map dk dv n) children i) := by
        intro i hi
        induction i with
        | zero => rw [partly_zero _ he, partly_zero _ hc]; rfl
        | succ i ihi =>
          rw [List.range_succ, List.foldlM_append, ihi (by omega)]
          simp only [Option.bind_eq_bind, Option.bind_some, List.foldlM_cons, List.foldlM_nil]
          rw [copyStep_spec dk dv he hc (by omega) (hs i (by omega)) ih]
          rfl
      rw [deepCopy, hloop 32 (Nat.le_refl _)]
      simp only [Option.bind_eq_bind, Option.bind_some, partly_end _ he, partly_end _ hc, Option.pure_def, Tree.map]

theorem map_id : ∀ n (t : Tree K V), t.map id id n = t
  | n, .collision num elems => by cases n <;> simp [Tree.map]
  | 0, .node .. => rfl
  | n + 1, .node emap cmap elems children => by
    rw [Tree.map, show (Tree.map id id n : Tree K V → Tree K V) = id from funext (map_id n), List.map_id]
    congr 1
    exact List.map_id' _

end Verif.Hamt
