import Verif.RbMap.Lemmas
import Verif.RbMap.Spec

/-! # Properties of the persistent ordered map (C29, C30, C31, C32) -/
namespace Verif.RbMap
open Color Tree SortedAssoc Spec
open Std (TransCmp LawfulEqCmp)

variable {K V : Type} {cmp : K → K → Ordering} [TransCmp cmp]

/-- The invariant of maps: sorted, red-black, root not red. -/
structure Inv (cmp : K → K → Ordering) (m : Tree K V) : Prop where
  sorted : Sorted cmp (toList m)
  rb : ∃ n, RB m n
  root : isRed m = false

theorem toList_insert (k : K) (v : V) {m : Tree K V} (h : Inv cmp m) : toList (insert cmp k v m) = ins cmp k v (toList m) := by
  rw [insert, toList_blacken, toList_insertNode k v m h.sorted]

theorem Inv.insert {m : Tree K V} (h : Inv cmp m) (k : K) (v : V) : Inv cmp (insert cmp k v m) := by
  obtain ⟨n, hn⟩ := h.rb
  obtain ⟨m', h1, h2⟩ := RB_blacken_almost (RB_insertNode (cmp := cmp) k v m hn).1
  refine ⟨?_, ⟨m', h1⟩, h2⟩
  rw [toList_insert k v h]; exact ins_sorted h.sorted k v

theorem Inv.remove {m : Tree K V} (h : Inv cmp m) (k : K) :
    ∃ m', remove cmp k m = some m' ∧ Inv cmp m' ∧ toList m' = del cmp k (toList m) := by
  obtain ⟨n, hn⟩ := h.rb
  obtain ⟨h1, h2⟩ := toList_removeNode k m h.sorted
  unfold RbMap.remove
  rcases removeNode_good (cmp := cmp) k m hn with e | ⟨t', v, d, e, g⟩
  · refine ⟨m, by rw [e]; rfl, h, ?_⟩
    rw [del_eq_self]
    intro x hx hc
    have := h1 e
    rw [show look cmp k (toList m) = look cmp x.1 (toList m) from ?_, look_of_mem h.sorted (v := x.2) hx] at this
    · cases this
    · have hm := look_of_mem h.sorted (k := x.1) (v := x.2) hx
      obtain ⟨l1, l2, e2⟩ := List.append_of_mem hx
      rw [hm]
      have hs := h.sorted
      rw [e2] at hs ⊢
      rw [look_pivot hs, hc]
  · obtain ⟨h3, h4⟩ := h2 _ _ _ e
    obtain ⟨n', g1, g2⟩ := g.blacken
    refine ⟨(blacken t').1, by rw [e]; rfl, ⟨?_, ⟨n', g1⟩, g2⟩, by rw [toList_blacken, h3]⟩
    rw [toList_blacken, h3]; exact del_sorted h.sorted k

omit [TransCmp cmp] in
theorem Inv.removeMin {m : Tree K V} (h : Inv cmp m) :
    ∃ m', removeMinMap m = some m' ∧ Inv cmp m' ∧ toList m' = (toList m).tail := by
  obtain ⟨n, hn⟩ := h.rb
  cases m with
  | leaf => exact ⟨leaf, rfl, h, rfl⟩
  | node c k v l r =>
    obtain ⟨t', k', v', d, e, g⟩ := removeMin_good _ hn (by simp)
    obtain ⟨n', g1, g2⟩ := g.blacken
    have hl := toList_removeMin _ e
    have hs := h.sorted
    rw [hl] at hs
    refine ⟨(blacken t').1, by simp [removeMinMap, e], ⟨?_, ⟨n', g1⟩, g2⟩, by rw [toList_blacken, hl]; rfl⟩
    rw [toList_blacken]
    exact (List.pairwise_cons.1 hs).2

omit [TransCmp cmp] in
theorem Inv.removeMax {m : Tree K V} (h : Inv cmp m) :
    ∃ m', removeMaxMap m = some m' ∧ Inv cmp m' ∧ toList m' = (toList m).dropLast := by
  obtain ⟨n, hn⟩ := h.rb
  cases m with
  | leaf => exact ⟨leaf, rfl, h, rfl⟩
  | node c k v l r =>
    obtain ⟨t', k', v', d, e, g⟩ := removeMax_good _ hn (by simp)
    obtain ⟨n', g1, g2⟩ := g.blacken
    have hl := toList_removeMax _ e
    have hs := h.sorted
    rw [hl] at hs
    refine ⟨(blacken t').1, by simp [removeMaxMap, e], ⟨?_, ⟨n', g1⟩, g2⟩, by rw [toList_blacken, hl]; simp⟩
    rw [toList_blacken]
    exact (Sorted.append_iff.1 hs).1

theorem built_inv {m : Tree K V} (h : Built cmp m) : Inv cmp m := by
  induction h with
  | empty => exact ⟨Sorted.nil, ⟨0, rfl⟩, rfl⟩
  | insert k v _ ih => exact ih.insert k v
  | remove k _ e ih =>
    obtain ⟨m', h1, h2, -⟩ := ih.remove k
    rw [e] at h1; cases h1; exact h2
  | removeMin _ e ih =>
    obtain ⟨m', h1, h2, -⟩ := ih.removeMin
    rw [e] at h1; cases h1; exact h2
  | removeMax _ e ih =>
    obtain ⟨m', h1, h2, -⟩ := ih.removeMax
    rw [e] at h1; cases h1; exact h2

/-- What a map binds, as `ord-map/get?` tells. -/
def denote (cmp : K → K → Ordering) (m : Tree K V) : FMap K V := fun k => lookup cmp k m

/-! ### C29 -/

/-- C29, insertion: afterwards the key has the new value, all others what they had. -/
theorem lookup_insert {m : Tree K V} (h : Built cmp m) (k : K) (v : V) :
    denote cmp (insert cmp k v m) = FMap.insert cmp k v (denote cmp m) := by
  have hi := built_inv h
  funext x
  unfold denote FMap.insert
  rw [lookup_eq x _ (hi.insert k v).sorted, toList_insert k v hi, look_ins hi.sorted]
  simp only [lookup_eq x _ hi.sorted]

/-- C29, removal: it never fails; afterwards the key is unbound, all others have what they had. -/
theorem lookup_remove {m : Tree K V} (h : Built cmp m) (k : K) :
    ∃ m', remove cmp k m = some m' ∧ denote cmp m' = FMap.remove cmp k (denote cmp m) := by
  have hi := built_inv h
  obtain ⟨m', h1, h2, h3⟩ := hi.remove k
  refine ⟨m', h1, ?_⟩
  funext x
  unfold denote FMap.remove
  rw [lookup_eq x _ h2.sorted, h3, look_del]
  simp only [lookup_eq x _ hi.sorted]

omit [TransCmp cmp] in
theorem lookup_empty (k : K) : lookup cmp k (leaf : Tree K V) = none := rfl

/-- Maps built by insertions and removals only, with the list of these operations, newest first. -/
inductive History (cmp : K → K → Ordering) : List (Op K V) → Tree K V → Prop
  | empty : History cmp [] leaf
  | insert {ops m} (k v) : History cmp ops m → History cmp (.insert k v :: ops) (insert cmp k v m)
  | remove {ops m m'} (k) : History cmp ops m → remove cmp k m = some m' → History cmp (.remove k :: ops) m'

omit [TransCmp cmp] in
theorem History.built {ops} {m : Tree K V} (h : History cmp ops m) : Built cmp m := by
  induction h with
  | empty => exact .empty
  | insert k v _ ih => exact .insert k v ih
  | remove k _ e ih => exact .remove k ih e

/-- The operations on key `k` (keys comparing equal to it). -/
def touches (cmp : K → K → Ordering) (k : K) : Op K V → Bool
  | .insert k' _ => cmp k k' == .eq
  | .remove k' => cmp k k' == .eq
  | _ => false

/-- C29.  After any sequence of insertions and removals, looking up a key gives the value of the last operation on this key if that
was an insertion, and nothing if it was a removal or if there was none. -/
theorem lookup_history {ops : List (Op K V)} {m : Tree K V} (h : History cmp ops m) (k : K) :
    lookup cmp k m = match ops.find? (touches cmp k) with
      | some (.insert _ v) => some v
      | _ => none := by
  induction h with
  | empty => rfl
  | @insert ops m k' v hm ih =>
    have := congrFun (lookup_insert hm.built k' v) k
    unfold denote FMap.insert at this
    simp only at this
    rw [this, ih, List.find?_cons]
    by_cases hc : cmp k k' = .eq
    · simp [touches, hc]
    · rw [if_neg hc, show touches cmp k (Op.insert k' v) = false by simp [touches, hc]]
  | @remove ops m m' k' hm e ih =>
    obtain ⟨m'', h1, h2⟩ := lookup_remove hm.built k'
    rw [e] at h1; cases h1
    have := congrFun h2 k
    unfold denote FMap.remove at this
    simp only at this
    rw [this, ih, List.find?_cons]
    by_cases hc : cmp k k' = .eq
    · simp [touches, hc]
    · rw [if_neg hc, show touches cmp k (Op.remove k' : Op K V) = false by simp [touches, hc]]

/-! ### C30 -/

/-- Removals never fail an assertion. -/
theorem removals_succeed {m : Tree K V} (h : Built cmp m) (k : K) :
    (∃ m', remove cmp k m = some m') ∧ (∃ m', removeMinMap m = some m') ∧ ∃ m', removeMaxMap m = some m' := by
  have hi := built_inv h
  obtain ⟨m1, h1, -⟩ := hi.remove k
  obtain ⟨m2, h2, -⟩ := hi.removeMin
  obtain ⟨m3, h3, -⟩ := hi.removeMax
  exact ⟨⟨m1, h1⟩, ⟨m2, h2⟩, m3, h3⟩

theorem RB.noRedRed {t : Tree K V} : ∀ {n}, RB t n → NoRedRed t := by
  induction t with
  | leaf => intro _ _; trivial
  | node c k v l r ihl ihr =>
    intro n h
    cases c with
    | black => obtain ⟨m, rfl, h1, h2⟩ := h; exact ⟨ihl h1, ihr h2, fun h => by cases h⟩
    | red =>
      obtain ⟨h1, h2, h3, h4⟩ := h
      refine ⟨ihl h1, ihr h2, fun _ => ⟨?_, ?_⟩⟩
      · rintro k v a b rfl; cases h3
      · rintro k v a b rfl; cases h4

theorem RB.blackPaths {t : Tree K V} : ∀ {n}, RB t n → ∀ p ∈ blackPaths t, p = n := by
  induction t with
  | leaf => intro n h p hp; cases h; simpa [Spec.blackPaths] using hp
  | node c k v l r ihl ihr =>
    intro n h p hp
    simp only [Spec.blackPaths, List.mem_map, List.mem_append] at hp
    obtain ⟨q, hq, rfl⟩ := hp
    cases c with
    | black =>
      obtain ⟨m, rfl, h1, h2⟩ := h
      rcases hq with hq | hq
      · rw [ihl h1 q hq]; rfl
      · rw [ihr h2 q hq]; rfl
    | red =>
      rcases hq with hq | hq
      · rw [ihl h.1 q hq]; rfl
      · rw [ihr h.2.1 q hq]; rfl

theorem RB.depth_le {t : Tree K V} : ∀ {n}, RB t n → depth t ≤ 2 * n + (if isRed t then 1 else 0) := by
  induction t with
  | leaf => intro n h; simp [depth]
  | node c k v l r ihl ihr =>
    intro n h
    cases c with
    | black =>
      obtain ⟨m, rfl, h1, h2⟩ := h
      have := ihl h1; have := ihr h2
      simp only [depth, isRed]
      have hx : (if isRed l = true then 1 else 0) ≤ 1 := by split <;> omega
      have hy : (if isRed r = true then 1 else 0) ≤ 1 := by split <;> omega
      simp only [Bool.false_eq_true, if_false]
      omega
    | red =>
      obtain ⟨h1, h2, h3, h4⟩ := h
      have := ihl h1; have := ihr h2
      rw [h3] at *; rw [h4] at *
      simp only [depth, isRed, if_true] at *
      simp at *; omega

theorem RB.size_ge {t : Tree K V} : ∀ {n}, RB t n → 2 ^ n ≤ size t + 1 := by
  induction t with
  | leaf => intro n h; cases h; simp
  | node c k v l r ihl ihr =>
    intro n h
    cases c with
    | black =>
      obtain ⟨m, rfl, h1, h2⟩ := h
      have := ihl h1; have := ihr h2
      rw [Nat.pow_succ, size]; omega
    | red =>
      have := ihl h.1
      rw [size]; omega

/-- C30.  In every map that can be built no red node has a red child, every path from the root passes the same number of black nodes,
and the depth is at most 2 log2 (number of entries + 1). -/
theorem balanced {m : Tree K V} (h : Built cmp m) :
    NoRedRed m ∧ (∃ n, ∀ p ∈ blackPaths m, p = n) ∧ depth m ≤ 2 * Nat.log2 (size m + 1) := by
  obtain ⟨-, ⟨n, hn⟩, hroot⟩ := built_inv h
  refine ⟨hn.noRedRed, ⟨n, hn.blackPaths⟩, ?_⟩
  have h1 := hn.depth_le
  rw [hroot] at h1
  simp only [Bool.false_eq_true, if_false, Nat.add_zero] at h1
  have h2 := (Nat.le_log2 (n := size m + 1) (k := n) (by omega)).2 hn.size_ge
  omega

/-! ### C32 -/

/-- C32.  Iterating over a map gives its entries in strictly ascending key order, each once: a binding is listed exactly when looking up
its key finds it (and the key is the one stored). -/
theorem elems_sorted_complete {m : Tree K V} (h : Built cmp m) :
    (elems m).Pairwise (fun a b => cmp a.1 b.1 = .lt) ∧
    (∀ k v, (k, v) ∈ elems m → lookup cmp k m = some v) ∧
    (∀ k v, lookup cmp k m = some v → ∃ k', cmp k k' = .eq ∧ (k', v) ∈ elems m) ∧ (elems m).length = size m := by
  have hi := built_inv h
  rw [elems_eq]
  refine ⟨hi.sorted, fun k v hm => ?_, fun k v hl => ?_, length_toList m⟩
  · rw [lookup_eq k _ hi.sorted]; exact look_of_mem hi.sorted hm
  · rw [lookup_eq k _ hi.sorted] at hl
    obtain ⟨⟨k', v'⟩, h1, h2, h3⟩ := look_some hl
    exact ⟨k', h2, by simp only at h3; rw [← h3]; exact h1⟩

omit [TransCmp cmp] in
/-- The least and the greatest entry. -/
theorem getMin_eq (m : Tree K V) : getMin m = (elems m).head? := by
  rw [elems_eq]
  fun_induction getMin m with
  | case1 => rfl
  | case2 => simp [toList]
  | case3 c k v l r hne ih =>
    rw [ih, toList]
    cases l with
    | leaf => exact (hne rfl).elim
    | node c2 k2 v2 l2 r2 => simp [toList]

omit [TransCmp cmp] in
theorem getMax_eq (m : Tree K V) : getMax m = (elems m).getLast? := by
  rw [elems_eq]
  fun_induction getMax m with
  | case1 => rfl
  | case2 => simp [toList]
  | case3 c k v l r hne ih =>
    rw [ih, toList]
    cases r with
    | leaf => exact (hne rfl).elim
    | node c2 k2 v2 l2 r2 =>
      simp [toList, List.getLast?_append, List.getLast?_cons]

theorem elems_removeMin {m : Tree K V} (h : Built cmp m) : ∃ m', removeMinMap m = some m' ∧ elems m' = (elems m).tail := by
  obtain ⟨m', h1, -, h3⟩ := (built_inv h).removeMin
  exact ⟨m', h1, by rw [elems_eq, elems_eq, h3]⟩

theorem elems_removeMax {m : Tree K V} (h : Built cmp m) : ∃ m', removeMaxMap m = some m' ∧ elems m' = (elems m).dropLast := by
  obtain ⟨m', h1, -, h3⟩ := (built_inv h).removeMax
  exact ⟨m', h1, by rw [elems_eq, elems_eq, h3]⟩

/-- Two maps with the same bindings iterate alike, so `eq?` (with lawful equality on the elements) is equality of finite maps. -/
theorem eq_iff_same_bindings [LawfulEqCmp cmp] [BEq (K × V)] [LawfulBEq (K × V)] {a b : Tree K V} (ha : Built cmp a) (hb : Built cmp b) :
    eqElems (fun x y => x == y) (elems a) (elems b) = true ↔ denote cmp a = denote cmp b := by
  have hlist : ∀ l r : List (K × V), eqElems (fun x y => x == y) l r = true ↔ l = r := by
    intro l
    induction l with
    | nil => intro r; cases r <;> simp [eqElems]
    | cons x l ih =>
      intro r
      cases r with
      | nil => simp [eqElems]
      | cons y r =>
        rw [eqElems]
        by_cases h : x = y
        · subst h; simp [ih]
        · simp [h]
  rw [hlist, elems_eq, elems_eq]
  have ia := built_inv ha
  have ib := built_inv hb
  constructor
  · intro h
    funext k
    unfold denote
    rw [lookup_eq k _ ia.sorted, lookup_eq k _ ib.sorted, h]
  · intro h
    apply ext_of_look ia.sorted ib.sorted
    intro k
    rw [← lookup_eq k _ ia.sorted, ← lookup_eq k _ ib.sorted]
    exact congrFun h k

omit [TransCmp cmp] in
/-- `compare` of maps is the lexicographic order of their sorted entries: less exactly when at the first difference the left one has run
out or has a smaller entry. -/
theorem compare_lt_iff (cmpE : K × V → K × V → Ordering) [LawfulEqCmp cmpE] (a b : List (K × V)) :
    compareElems cmpE a b = .lt ↔ ∃ p, (∃ y ys, a = p ∧ b = p ++ y :: ys) ∨
      ∃ x xs y ys, a = p ++ x :: xs ∧ b = p ++ y :: ys ∧ cmpE x y = .lt := by
  induction a generalizing b with
  | nil =>
    cases b with
    | nil => simp [compareElems]
    | cons y ys => simp only [compareElems, true_iff]; exact ⟨[], .inl ⟨y, ys, rfl, rfl⟩⟩
  | cons x xs ih =>
    cases b with
    | nil =>
      simp only [compareElems]
      refine ⟨fun h => (by cases h), ?_⟩
      rintro ⟨p, ⟨y, ys, -, h⟩ | ⟨_, _, y, ys, -, h, -⟩⟩ <;> simp at h
    | cons y ys =>
      rw [compareElems]
      cases hc : cmpE x y with
      | lt => simp only [true_iff]; exact ⟨[], .inr ⟨x, xs, y, ys, rfl, rfl, hc⟩⟩
      | gt =>
        refine ⟨fun h => (by cases h), ?_⟩
        rintro ⟨p, ⟨y', ys', h1, h2⟩ | ⟨x', xs', y', ys', h1, h2, h3⟩⟩
        · subst h1
          simp only [List.cons_append, List.cons.injEq] at h2
          rw [h2.1, Std.ReflCmp.compare_self (cmp := cmpE)] at hc; cases hc
        · cases p with
          | nil =>
            simp only [List.nil_append, List.cons.injEq] at h1 h2
            rw [h1.1, h2.1, h3] at hc; cases hc
          | cons z p =>
            simp only [List.cons_append, List.cons.injEq] at h1 h2
            rw [h1.1, h2.1, Std.ReflCmp.compare_self (cmp := cmpE)] at hc; cases hc
      | eq =>
        cases LawfulEqCmp.eq_of_compare hc
        simp only
        rw [ih]
        constructor
        · rintro ⟨p, ⟨y', ys', h1, h2⟩ | ⟨x', xs', y', ys', h1, h2, h3⟩⟩
          · exact ⟨x :: p, .inl ⟨y', ys', by simp [h1], by simp [h2]⟩⟩
          · exact ⟨x :: p, .inr ⟨x', xs', y', ys', by simp [h1], by simp [h2], h3⟩⟩
        · rintro ⟨p, ⟨y', ys', h1, h2⟩ | ⟨x', xs', y', ys', h1, h2, h3⟩⟩
          · subst h1
            simp only [List.cons_append, List.cons.injEq, true_and] at h2
            exact ⟨xs, .inl ⟨y', ys', rfl, h2⟩⟩
          · cases p with
            | nil =>
              simp only [List.nil_append, List.cons.injEq] at h1 h2
              rw [← h1.1, ← h2.1, hc] at h3; cases h3
            | cons z p =>
              simp only [List.cons_append, List.cons.injEq] at h1 h2
              exact ⟨p, .inr ⟨x', xs', y', ys', h1.2, h2.2, h3⟩⟩

omit [TransCmp cmp] in
theorem compare_eq_iff (cmpE : K × V → K × V → Ordering) [LawfulEqCmp cmpE] (a b : List (K × V)) :
    compareElems cmpE a b = .eq ↔ a = b := by
  induction a generalizing b with
  | nil => cases b <;> simp [compareElems]
  | cons x xs ih =>
    cases b with
    | nil => simp [compareElems]
    | cons y ys =>
      rw [compareElems]
      cases hc : cmpE x y with
      | eq => cases LawfulEqCmp.eq_of_compare hc; simp [ih]
      | lt => simp only [reduceCtorEq, false_iff]; rintro h; cases h; rw [Std.ReflCmp.compare_self (cmp := cmpE)] at hc; cases hc
      | gt => simp only [reduceCtorEq, false_iff]; rintro h; cases h; rw [Std.ReflCmp.compare_self (cmp := cmpE)] at hc; cases hc

/-! ### C31 -/

omit [TransCmp cmp] in
theorem built_foldl {α} (step : Tree K V → α → Tree K V) (hstep : ∀ m x, Built cmp m → Built cmp (step m x)) (l : List α) :
    ∀ m, Built cmp m → Built cmp (l.foldl step m) := by
  induction l with
  | nil => exact fun m h => h
  | cons x l ih => exact fun m h => ih _ (hstep m x h)

/-- C31, union: a key has the value of the first map combined with that of the second, if in both, else the one it has. -/
theorem unionWith_spec (f : K → V → V → V) (hf : ∀ k k' a b, cmp k k' = .eq → f k a b = f k' a b) {a b : Tree K V}
    (ha : Built cmp a) (hb : Built cmp b) :
    Built cmp (unionWith cmp f a b) ∧ ∀ k, lookup cmp k (unionWith cmp f a b) = match lookup cmp k a, lookup cmp k b with
      | some x, some y => some (f k x y)
      | some x, none => some x
      | none, y => y := by
  have ib := built_inv hb
  have key : ∀ (l : List (K × V)) (m : Tree K V), Built cmp m → Sorted cmp l →
      let m' := l.foldl (fun a (e : K × V) => match lookup cmp e.1 a with
        | none => insert cmp e.1 e.2 a
        | some av => insert cmp e.1 (f e.1 av e.2) a) m
      Built cmp m' ∧ ∀ k, lookup cmp k m' = match lookup cmp k m, look cmp k l with
        | some x, some y => some (f k x y)
        | some x, none => some x
        | none, y => y := by
    intro l
    induction l with
    | nil =>
      intro m hm _
      refine ⟨hm, fun k => ?_⟩
      simp only [List.foldl_nil, look]
      cases lookup cmp k m <;> rfl
    | cons e l ih =>
      intro m hm hs
      obtain ⟨ke, ve⟩ := e
      unfold Sorted at hs
      rw [List.pairwise_cons] at hs
      simp only [List.foldl_cons]
      have him := built_inv hm
      have hcong : ∀ k, cmp k ke = .eq → lookup cmp k m = lookup cmp ke m := by
        intro k hk
        rw [lookup_eq k _ him.sorted, lookup_eq ke _ him.sorted]
        generalize toList m = L
        induction L with
        | nil => rfl
        | cons y L ihL => obtain ⟨ky, vy⟩ := y; rw [look, look, ihL, TransCmp.congr_left hk]
      obtain ⟨w, hw⟩ : ∃ w, (match lookup cmp ke m with
          | none => insert cmp ke ve m
          | some av => insert cmp ke (f ke av ve) m) = insert cmp ke w m ∧
          w = match lookup cmp ke m with | none => ve | some av => f ke av ve := by
        cases lookup cmp ke m <;> exact ⟨_, rfl, rfl⟩
      rw [hw.1]
      obtain ⟨h1, h2⟩ := ih (insert cmp ke w m) (.insert ke w hm) hs.2
      refine ⟨h1, fun k => ?_⟩
      rw [h2 k]
      have hl := congrFun (lookup_insert hm ke w) k
      unfold denote FMap.insert at hl
      rw [hl, look]
      by_cases hc : cmp k ke = .eq
      · have hn : look cmp k l = none := look_eq_none fun e he => by rw [lt_of_eq_lt hc (hs.1 e he)]; simp
        rw [if_pos hc, if_pos hc, hn, hcong k hc, hw.2]
        cases lookup cmp ke m with
        | none => rfl
        | some x => simp only [hf k ke x ve hc]
      · rw [if_neg hc, if_neg hc]
  have := key (elems b) a ha (by rw [elems_eq]; exact ib.sorted)
  refine ⟨this.1, fun k => ?_⟩
  rw [lookup_eq k b ib.sorted, ← elems_eq b]
  exact this.2 k

/-- C31, union: a key is in the union exactly when it is in either map, with the first map's value if it is there. -/
theorem union_spec {a b : Tree K V} (ha : Built cmp a) (hb : Built cmp b) (k : K) :
    lookup cmp k (union cmp a b) = (lookup cmp k a).or (lookup cmp k b) := by
  unfold union
  rw [(unionWith_spec _ (fun _ _ _ _ _ => rfl) ha hb).2 k]
  cases lookup cmp k a <;> cases lookup cmp k b <;> rfl

/-- C31, intersection. -/
theorem intersectionWith_spec (f : K → V → V → V) (hf : ∀ k k' a b, cmp k k' = .eq → f k a b = f k' a b) {a b : Tree K V}
    (ha : Built cmp a) (hb : Built cmp b) :
    Built cmp (intersectionWith cmp f a b) ∧ ∀ k, lookup cmp k (intersectionWith cmp f a b) =
      match lookup cmp k a, lookup cmp k b with
      | some x, some y => some (f k x y)
      | _, _ => none := by
  have ia := built_inv ha
  have ib := built_inv hb
  have hcong : ∀ k k', cmp k k' = .eq → lookup cmp k b = lookup cmp k' b := by
    intro k k' hk
    rw [lookup_eq k _ ib.sorted, lookup_eq k' _ ib.sorted]
    generalize toList b = L
    induction L with
    | nil => rfl
    | cons y L ihL => obtain ⟨ky, vy⟩ := y; rw [look, look, ihL, TransCmp.congr_left hk]
  have key : ∀ (l : List (K × V)) (m : Tree K V), Built cmp m → Sorted cmp l → (∀ e ∈ l, lookup cmp e.1 m = none) →
      let m' := l.foldl (fun m (e : K × V) => match lookup cmp e.1 b with
        | some bv => insert cmp e.1 (f e.1 e.2 bv) m
        | none => m) m
      Built cmp m' ∧ ∀ k, lookup cmp k m' = match lookup cmp k m with
        | some x => some x
        | none => match look cmp k l, lookup cmp k b with
          | some x, some y => some (f k x y)
          | _, _ => none := by
    intro l
    induction l with
    | nil =>
      intro m hm _ _
      refine ⟨hm, fun k => ?_⟩
      simp only [List.foldl_nil, look]
      cases lookup cmp k m <;> rfl
    | cons e l ih =>
      intro m hm hs hn
      obtain ⟨ke, ve⟩ := e
      unfold Sorted at hs
      rw [List.pairwise_cons] at hs
      simp only [List.foldl_cons]
      have him := built_inv hm
      have hcongm : ∀ k, cmp k ke = .eq → lookup cmp k m = lookup cmp ke m := by
        intro k hk
        rw [lookup_eq k _ him.sorted, lookup_eq ke _ him.sorted]
        generalize toList m = L
        induction L with
        | nil => rfl
        | cons y L ihL => obtain ⟨ky, vy⟩ := y; rw [look, look, ihL, TransCmp.congr_left hk]
      have hke := hn (ke, ve) (by simp)
      cases hbk : lookup cmp ke b with
      | none =>
        obtain ⟨h1, h2⟩ := ih m hm hs.2 fun e he => hn e (by simp [he])
        refine ⟨h1, fun k => ?_⟩
        simp only
        rw [h2 k, look]
        by_cases hc : cmp k ke = .eq
        · rw [if_pos hc, hcongm k hc, hcong k ke hc, hbk]
          simp only at hke
          rw [hke]
          cases look cmp k l <;> rfl
        · rw [if_neg hc]
      | some bv =>
        have hl := lookup_insert hm ke (f ke ve bv)
        obtain ⟨h1, h2⟩ := ih (insert cmp ke (f ke ve bv) m) (.insert _ _ hm) hs.2 fun e he => by
          have := congrFun hl e.1
          unfold denote FMap.insert at this
          rw [this, if_neg]
          · exact hn e (by simp [he])
          rw [Std.OrientedCmp.gt_of_lt (hs.1 e he)]; simp
        refine ⟨h1, fun k => ?_⟩
        simp only
        rw [h2 k, look]
        have hlk := congrFun hl k
        unfold denote FMap.insert at hlk
        rw [hlk]
        by_cases hc : cmp k ke = .eq
        · rw [if_pos hc, if_pos hc, hcongm k hc, hcong k ke hc, hbk]
          simp only at hke
          rw [hke]
          simp only [hf k ke ve bv hc]
        · rw [if_neg hc, if_neg hc]
  have := key (elems a) leaf .empty (by rw [elems_eq]; exact ia.sorted) (fun _ _ => rfl)
  refine ⟨this.1, fun k => ?_⟩
  have h2 := this.2 k
  rw [lookup_eq k a ia.sorted, ← elems_eq a]
  exact h2

theorem intersection_spec {a b : Tree K V} (ha : Built cmp a) (hb : Built cmp b) (k : K) :
    lookup cmp k (intersection cmp a b) = if (lookup cmp k b).isSome then lookup cmp k a else none := by
  unfold intersection
  rw [(intersectionWith_spec _ (fun _ _ _ _ _ => rfl) ha hb).2 k]
  cases lookup cmp k a <;> cases lookup cmp k b <;> rfl

/-- What `ord-map/difference` computes: the keys in exactly one of the maps. -/
theorem difference_spec {a b : Tree K V} (ha : Built cmp a) (hb : Built cmp b) :
    ∃ m, difference cmp a b = some m ∧ Built cmp m ∧ ∀ k, lookup cmp k m = match lookup cmp k a, lookup cmp k b with
      | some x, none => some x
      | some _, some _ => none
      | none, y => y := by
  have ib := built_inv hb
  have key : ∀ (l : List (K × V)) (m : Tree K V), Built cmp m → Sorted cmp l →
      ∃ m', l.foldlM (differenceStep cmp fun _ _ _ => none) m = some m' ∧ Built cmp m' ∧
        ∀ k, lookup cmp k m' = match lookup cmp k m, look cmp k l with
        | some x, none => some x
        | some _, some _ => none
        | none, y => y := by
    intro l
    induction l with
    | nil =>
      intro m hm _
      refine ⟨m, rfl, hm, fun k => ?_⟩
      simp only [look]
      cases lookup cmp k m <;> rfl
    | cons e l ih =>
      intro m hm hs
      obtain ⟨ke, ve⟩ := e
      unfold Sorted at hs
      rw [List.pairwise_cons] at hs
      have him := built_inv hm
      have hcong : ∀ k, cmp k ke = .eq → lookup cmp k m = lookup cmp ke m := by
        intro k hk
        rw [lookup_eq k _ him.sorted, lookup_eq ke _ him.sorted]
        generalize toList m = L
        induction L with
        | nil => rfl
        | cons y L ihL => obtain ⟨ky, vy⟩ := y; rw [look, look, ihL, TransCmp.congr_left hk]
      obtain ⟨m1, h1, hb1, hl1⟩ : ∃ m1, differenceStep cmp (fun _ _ _ => none) m (ke, ve) = some m1 ∧ Built cmp m1 ∧
          ∀ k, lookup cmp k m1 = if cmp k ke = .eq then (match lookup cmp ke m with | none => some ve | some _ => none) else lookup cmp k m := by
        unfold differenceStep
        cases hk : lookup cmp ke m with
        | none =>
          refine ⟨_, rfl, .insert ke ve hm, fun k => ?_⟩
          have := congrFun (lookup_insert hm ke ve) k
          exact this
        | some av =>
          obtain ⟨m1, h1, h2⟩ := lookup_remove hm ke
          exact ⟨m1, h1, .remove ke hm h1, fun k => congrFun h2 k⟩
      obtain ⟨m2, h2, hb2, hl2⟩ := ih m1 hb1 hs.2
      refine ⟨m2, by rw [List.foldlM_cons, h1]; exact h2, hb2, fun k => ?_⟩
      rw [hl2 k, hl1 k, look]
      by_cases hc : cmp k ke = .eq
      · have hn : look cmp k l = none := look_eq_none fun e he => by rw [lt_of_eq_lt hc (hs.1 e he)]; simp
        rw [if_pos hc, if_pos hc, hn, hcong k hc]
        cases lookup cmp ke m <;> rfl
      · rw [if_neg hc, if_neg hc]
  obtain ⟨m, h1, h2, h3⟩ := key (elems b) a ha (by rw [elems_eq]; exact ib.sorted)
  refine ⟨m, h1, h2, fun k => ?_⟩
  rw [lookup_eq k b ib.sorted, ← elems_eq b]
  exact h3 k

/-- C31 holds for the difference when every key of the second map is in the first. -/
theorem difference_subset_partial {a b : Tree K V} (ha : Built cmp a) (hb : Built cmp b)
    (hsub : ∀ k, (lookup cmp k b).isSome → (lookup cmp k a).isSome) :
    ∃ m, difference cmp a b = some m ∧ ∀ k, lookup cmp k m = if (lookup cmp k b).isSome then none else lookup cmp k a := by
  obtain ⟨m, h1, -, h2⟩ := difference_spec ha hb
  refine ⟨m, h1, fun k => ?_⟩
  rw [h2 k]
  have := hsub k
  revert this
  cases lookup cmp k a <;> cases lookup cmp k b <;> simp

/-- C31 fails for the difference: a key that is only in the second map ends up in the result. -/
theorem difference_wrong : ∃ a b m : Tree Nat Nat, Built compare a ∧ Built compare b ∧ difference compare a b = some m ∧
    lookup compare 1 a = none ∧ lookup compare 1 m = some 10 :=
  ⟨leaf, insert compare 1 10 leaf, insert compare 1 10 leaf, .empty, .insert 1 10 .empty, rfl, rfl, rfl⟩

/-- Collecting a list of bindings: the last binding of a key counts. -/
theorem collect_spec (l : List (K × V)) (k : K) :
    Built cmp (collect cmp l) ∧ lookup cmp k (collect cmp l) = (l.reverse.find? fun e => cmp k e.1 == .eq).map Prod.snd := by
  have key : ∀ (l : List (K × V)) (m : Tree K V), Built cmp m →
      Built cmp (l.foldl (fun m (e : K × V) => insert cmp e.1 e.2 m) m) ∧
      lookup cmp k (l.foldl (fun m (e : K × V) => insert cmp e.1 e.2 m) m) =
        ((l.reverse.find? fun e => cmp k e.1 == .eq).map Prod.snd).or (lookup cmp k m) := by
    intro l
    induction l with
    | nil => intro m hm; exact ⟨hm, by simp⟩
    | cons e l ih =>
      intro m hm
      obtain ⟨h1, h2⟩ := ih (insert cmp e.1 e.2 m) (.insert e.1 e.2 hm)
      refine ⟨h1, ?_⟩
      simp only [List.foldl_cons, List.reverse_cons, List.find?_append]
      rw [h2]
      have := congrFun (lookup_insert hm e.1 e.2) k
      unfold denote FMap.insert at this
      rw [this]
      cases hf : l.reverse.find? fun e => cmp k e.1 == .eq with
      | some x => simp
      | none =>
        by_cases hc : cmp k e.1 = .eq
        · simp [hc]
        · simp [hc]
  have := key l leaf .empty
  refine ⟨this.1, this.2.trans ?_⟩
  simp [lookup]

/-! ### The hypotheses can be met -/

def sample : Tree Nat Nat := (List.range 20).foldl (fun m k => insert compare (k * 7 % 20) k m) leaf

example : Built (compare : Nat → Nat → Ordering) sample :=
  built_foldl _ (fun m k h => .insert _ _ h) _ _ .empty

example : lookup compare 14 sample = some 2 ∧ size sample = 20 := by decide +kernel
example : ((remove compare 14 sample).map fun m => lookup compare 14 m) = some none := by decide +kernel
example : History (compare : Nat → Nat → Ordering) [.remove 1, .insert 1 5] leaf :=
  .remove 1 (.insert 1 5 .empty) rfl
example : ∃ m, remove compare 14 sample = some m ∧ Built (compare : Nat → Nat → Ordering) m := by
  obtain ⟨m', h1, -⟩ := (built_inv (cmp := (compare : Nat → Nat → Ordering)) (m := sample)
    (built_foldl _ (fun m k h => .insert _ _ h) _ _ .empty)).remove 14
  exact ⟨m', h1, .remove 14 (built_foldl _ (fun m k h => .insert _ _ h) _ _ .empty) h1⟩

end Verif.RbMap
