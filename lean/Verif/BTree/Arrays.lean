import Verif.BTree.Model

/-! # Arrays that hold a list, and nodes that hold elements and children -/
namespace Verif.BTree

variable {K V A : Type}

/-- The array has the capacity, and its first slots hold the list. -/
def Holds (cap : Nat) (a : List (Option A)) (xs : List A) : Prop := a.length = cap ∧ ∃ rest, a = xs.map some ++ rest

theorem holds_alloc (cap : Nat) : Holds cap (alloc cap : List (Option A)) [] := ⟨List.length_replicate, _, rfl⟩

theorem Holds.le {cap} {a : List (Option A)} {xs} (h : Holds cap a xs) : xs.length ≤ cap := by
  obtain ⟨h1, rest, rfl⟩ := h
  rw [← h1]; simp

theorem Holds.prefix {cap} {a : List (Option A)} {xs ys} (h : Holds cap a (xs ++ ys)) : Holds cap a xs := by
  obtain ⟨h1, rest, rfl⟩ := h
  exact ⟨h1, ys.map some ++ rest, by simp⟩

theorem load_holds {cap} {a : List (Option A)} {xs : List A} {x : A} {ys : List A} (h : Holds cap a (xs ++ x :: ys)) {i : Nat} (hi : i = xs.length) :
    load i a = some x := by
  obtain ⟨h1, rest, rfl⟩ := h
  subst hi
  rw [load, List.map_append, List.append_assoc, List.getElem?_append_right (by simp)]
  simp

theorem store_holds {cap} {a : List (Option A)} {xs : List A} {x : A} {ys : List A} (h : Holds cap a (xs ++ x :: ys)) {i : Nat} (hi : i = xs.length) (y : A) :
    ∃ a', store i y a = some a' ∧ Holds cap a' (xs ++ y :: ys) := by
  obtain ⟨h1, rest, rfl⟩ := h
  subst hi
  refine ⟨_, by rw [store, if_pos (by simp)], by rw [List.length_set]; exact h1, rest, ?_⟩
  rw [List.map_append, List.append_assoc, List.set_append_right _ _ (by simp)]
  simp

theorem store_end {cap} {a : List (Option A)} {xs : List A} (h : Holds cap a xs) (hc : xs.length < cap) {i : Nat} (hi : i = xs.length) (y : A) :
    ∃ a', store i y a = some a' ∧ Holds cap a' (xs ++ [y]) := by
  obtain ⟨h1, rest, rfl⟩ := h
  subst hi
  cases rest with
  | nil => simp at h1; omega
  | cons r rest =>
    refine ⟨_, by rw [store, if_pos (by simp)], by rw [List.length_set]; exact h1, rest, ?_⟩
    rw [List.set_append_right _ _ (by simp)]
    simp

theorem copy_eq {a1 a2 a3 b1 b2 b3 : List (Option A)} (hn : b2.length = a2.length) :
    copy (a1 ++ (a2 ++ a3)) a1.length a2.length (b1 ++ (b2 ++ b3)) b1.length = some (b1 ++ (a2 ++ b3)) := by
  rw [copy, if_pos (by simp; omega)]
  simp only [List.take_left', List.drop_left', Option.some.injEq]
  rw [← hn, ← List.append_assoc b1 b2 b3, ← List.length_append, List.drop_left]

theorem copy_eq' {a b a1 a2 a3 b1 b2 b3 : List (Option A)} {src n dst : Nat} (ha : a = a1 ++ (a2 ++ a3)) (hb : b = b1 ++ (b2 ++ b3))
    (hs : src = a1.length) (hn : n = a2.length) (hd : dst = b1.length) (h2 : b2.length = a2.length) :
    copy a src n b dst = some (b1 ++ (a2 ++ b3)) := by
  subst ha hb hs hn hd; exact copy_eq h2

/-- A list of some length is split at any smaller one. -/
theorem split_at (l : List A) (n : Nat) (h : n ≤ l.length) : ∃ l1 l2, l = l1 ++ l2 ∧ l1.length = n :=
  ⟨l.take n, l.drop n, (List.take_append_drop n l).symm, List.length_take_of_le h⟩

/-- Make room for one element. -/
theorem move_insert {cap} {a : List (Option A)} {xs ys : List A} (h : Holds cap a (xs ++ ys)) (hc : xs.length + ys.length < cap)
    {i l j : Nat} (hi : i = xs.length) (hl : l = ys.length) (hj : j = i + 1) (y : A) :
    ∃ a', move a i l j = some a' ∧ ∃ a'', store i y a' = some a'' ∧ Holds cap a'' (xs ++ y :: ys) := by
  obtain ⟨h1, rest, rfl⟩ := h
  subst hi hl hj
  obtain ⟨q, rest', hq, hql⟩ := split_at (ys.map some ++ rest) 1 (by simp at h1; simp; omega)
  obtain ⟨z, rest'', hz, hzl⟩ := split_at rest' ys.length (by
    have := congrArg List.length hq
    simp at this h1; omega)
  have h2 : copy ((xs ++ ys).map some ++ rest) xs.length ys.length ((xs ++ ys).map some ++ rest) (xs.length + 1) =
      some ((xs.map some ++ q) ++ (ys.map some ++ rest'')) := by
    refine copy_eq' (a1 := xs.map some) (a2 := ys.map some) (a3 := rest) (b1 := xs.map some ++ q) (b2 := z) (b3 := rest'') (by simp) ?_
      (by simp) (by simp) (by simp [hql]) (by simp [hzl])
    rw [List.map_append, List.append_assoc, hq, hz]; simp
  refine ⟨_, h2, ?_⟩
  match q, hql with
  | [q], _ =>
    refine ⟨_, by rw [store, if_pos (by simp)], ?_, rest'', ?_⟩
    · rw [List.length_set]
      have := congrArg List.length hq
      have hz' := congrArg List.length hz
      simp at this hz' h1 ⊢
      omega
    · rw [List.append_assoc, List.set_append_right _ _ (by simp)]
      simp

/-- Close a gap. -/
theorem move_remove {cap} {a : List (Option A)} {xs : List A} {x : A} {ys : List A} (h : Holds cap a (xs ++ x :: ys))
    {i l j : Nat} (hi : i = xs.length + 1) (hl : l = ys.length) (hj : j = xs.length) :
    ∃ a', move a i l j = some a' ∧ Holds cap a' (xs ++ ys) := by
  obtain ⟨h1, rest, rfl⟩ := h
  subst hi hl hj
  obtain ⟨q, rest', hq, hql⟩ := split_at ((x :: ys).map some ++ rest) ys.length (by simp; omega)
  have h2 : copy ((xs ++ x :: ys).map some ++ rest) (xs.length + 1) ys.length ((xs ++ x :: ys).map some ++ rest) xs.length =
      some (xs.map some ++ (ys.map some ++ rest')) := by
    refine copy_eq' (a1 := xs.map some ++ [some x]) (a2 := ys.map some) (a3 := rest) (b1 := xs.map some) (b2 := q) (b3 := rest') (by simp) ?_
      (by simp) (by simp) (by simp) (by simp [hql])
    rw [List.map_append, List.append_assoc, hq]
  refine ⟨_, h2, ?_, rest', by simp⟩
  have := congrArg List.length hq
  simp at this h1 ⊢
  omega

/-- Copy the end of a list to a new array. -/
theorem copy_new {cap} {a b : List (Option A)} {xs ys : List A} (h : Holds cap a (xs ++ ys)) (hb : b.length = cap)
    {i l : Nat} (hi : i = xs.length) (hl : l = ys.length) :
    ∃ a', copy a i l b 0 = some a' ∧ Holds cap a' ys := by
  have hle := h.le
  obtain ⟨h1, rest, rfl⟩ := h
  subst hi hl
  obtain ⟨q, rest', hq, hql⟩ := split_at b ys.length (by rw [hb]; simp at hle; omega)
  refine ⟨_, copy_eq' (a1 := xs.map some) (a2 := ys.map some) (a3 := rest) (b1 := []) (b2 := q) (b3 := rest') (by simp) hq
    (by simp) (by simp) rfl (by simp [hql]), ?_, rest', rfl⟩
  have := congrArg List.length hq
  simp at this ⊢
  omega

/-- Copy a list behind another one. -/
theorem copy_append {cap} {a b : List (Option A)} {xs ys : List A} (ha : Holds cap a xs) (hb : Holds cap b ys) (hc : ys.length + xs.length ≤ cap)
    {l j : Nat} (hl : l = xs.length) (hj : j = ys.length) :
    ∃ a', copy a 0 l b j = some a' ∧ Holds cap a' (ys ++ xs) := by
  obtain ⟨h1, rest, rfl⟩ := ha
  obtain ⟨h2, rest2, rfl⟩ := hb
  subst hl hj
  obtain ⟨q, rest', rfl, hql⟩ := split_at rest2 xs.length (by simp at h2; omega)
  refine ⟨_, copy_eq' (a1 := []) (a2 := xs.map some) (a3 := rest) (b1 := ys.map some) (b2 := q) (b3 := rest') (by simp) rfl
    rfl (by simp) (by simp) (by simp [hql]), ?_, rest', by simp⟩
  simp at h2 ⊢
  omega

/-! ## Nodes -/

/-- What the edges hold: nothing in a leaf; one child more than elements otherwise. -/
def HoldsEdges (n : Nat) : Option (List (Option (Node K V))) → Option (List (Node K V)) → Prop
  | none, none => True
  | some a, some cs => Holds maxEdges a cs ∧ cs.length = n + 1
  | _, _ => False

/-- The node holds the elements, and the children unless it is a leaf. -/
structure Shape (n : Node K V) (el : List (K × V)) (cs : Option (List (Node K V))) : Prop where
  length : n.length = el.length
  keys : Holds maxElems n.keys (el.map Prod.fst)
  values : Holds maxElems n.values (el.map Prod.snd)
  edges : HoldsEdges el.length n.edges cs

theorem Shape.le {n : Node K V} {el cs} (h : Shape n el cs) : el.length ≤ 11 := by
  have := h.keys.le
  simpa [maxElems] using this

theorem Shape.leaf {n : Node K V} {el cs} (h : Shape n el cs) : n.leaf = cs.isNone := by
  have := h.edges
  rw [Node.leaf]
  match he : n.edges, cs with
  | none, none => rfl
  | some _, some _ => rfl
  | none, some _ => rw [he] at this; exact this.elim
  | some _, none => rw [he] at this; exact this.elim

theorem Shape.children {n : Node K V} {el cs} (h : Shape n el (some cs)) :
    ∃ a, n.edges = some a ∧ Holds maxEdges a cs ∧ cs.length = el.length + 1 := by
  have := h.edges
  match he : n.edges with
  | some a => rw [he] at this; exact ⟨a, rfl, this⟩
  | none => rw [he] at this; exact this.elim

theorem Shape.no_edges {n : Node K V} {el} (h : Shape n el none) : n.edges = none := by
  have := h.leaf
  rw [Node.leaf] at this
  exact Option.isNone_iff_eq_none.1 this

theorem shape_newLeaf : Shape (newLeaf : Node K V) [] none := ⟨rfl, holds_alloc _, holds_alloc _, trivial⟩

theorem edgeAt_eq {n : Node K V} {el c1 c c2} (h : Shape n el (some (c1 ++ c :: c2))) {i : Nat} (hi : i = c1.length) : edgeAt i n = some c := by
  obtain ⟨a, h1, h2, h3⟩ := h.children
  have hl : n.leaf = false := h.leaf
  rw [List.length_append, List.length_cons] at h3
  rw [edgeAt, hl]
  simp only [assert, h1, h.length, Bool.not_false, if_true, Option.bind_eq_bind, Option.bind_some, load_holds h2 hi]
  rw [if_pos (by simp; omega)]
  rfl

theorem setEdge_eq {n : Node K V} {el c1 c c2} (h : Shape n el (some (c1 ++ c :: c2))) {i : Nat} (hi : i = c1.length) (c' : Node K V) :
    ∃ n', setEdge i c' n = some n' ∧ Shape n' el (some (c1 ++ c' :: c2)) := by
  obtain ⟨a, h1, h2, h3⟩ := h.children
  obtain ⟨a', h4, h5⟩ := store_holds h2 hi c'
  refine ⟨.mk n.length n.keys n.values (some a'), by rw [setEdge, h1]; simp only [Option.bind_eq_bind, Option.bind_some, h4]; rfl, h.length, h.keys,
    h.values, h5, ?_⟩
  simpa using h3

theorem map_split (f : A → K) (e1 e2 : List A) (e : A) : (e1 ++ e :: e2).map f = e1.map f ++ f e :: e2.map f := by simp

theorem valueAt_eq {n : Node K V} {e1 e e2 cs} (h : Shape n (e1 ++ e :: e2) cs) {i : Nat} (hi : i = e1.length) : valueAt i n = some e.2 := by
  have hv := h.values
  rw [map_split] at hv
  rw [valueAt, h.length, assert, if_pos (by simp; omega)]
  exact load_holds hv (by simpa using hi)

theorem elemAt_eq {n : Node K V} {e1 e e2 cs} (h : Shape n (e1 ++ e :: e2) cs) {i : Nat} (hi : i = e1.length) : elemAt i n = some e := by
  have hv := h.values
  have hk := h.keys
  rw [map_split] at hv hk
  rw [elemAt, h.length, assert, if_pos (by simp; omega)]
  simp only [Option.bind_eq_bind, Option.bind_some, load_holds hk (show i = (e1.map Prod.fst).length by simpa using hi),
    load_holds hv (show i = (e1.map Prod.snd).length by simpa using hi)]
  rfl

theorem replaceValueAt_eq {n : Node K V} {e1 e e2 cs} (h : Shape n (e1 ++ e :: e2) cs) {i : Nat} (hi : i = e1.length) (v : V) :
    ∃ n', replaceValueAt i v n = some (e.2, n') ∧ Shape n' (e1 ++ (e.1, v) :: e2) cs := by
  have hv := h.values
  have hk := h.keys
  have he := h.edges
  rw [map_split] at hv hk
  obtain ⟨a, h1, h2⟩ := store_holds hv (show i = (e1.map Prod.snd).length by simpa using hi) v
  refine ⟨.mk n.length n.keys a n.edges, ?_, h.length.trans (by simp), ?_, ?_, ?_⟩
  · rw [replaceValueAt, assert, if_pos (by rw [h.length]; simp; omega)]
    simp only [Option.bind_eq_bind, Option.bind_some, load_holds hv (show i = (e1.map Prod.snd).length by simpa using hi), h1]
    rfl
  · rw [map_split]; exact hk
  · rw [map_split]; exact h2
  · show HoldsEdges _ n.edges cs
    simpa using he

theorem replaceElemAt_eq {n : Node K V} {e1 e e2 cs} (h : Shape n (e1 ++ e :: e2) cs) {i : Nat} (hi : i = e1.length) (x : K × V) :
    ∃ n', replaceElemAt i x n = some (e, n') ∧ Shape n' (e1 ++ x :: e2) cs := by
  have hv := h.values
  have hk := h.keys
  have he := h.edges
  rw [map_split] at hv hk
  obtain ⟨a, h1, h2⟩ := store_holds hv (show i = (e1.map Prod.snd).length by simpa using hi) x.2
  obtain ⟨b, h3, h4⟩ := store_holds hk (show i = (e1.map Prod.fst).length by simpa using hi) x.1
  refine ⟨.mk n.length b a n.edges, ?_, h.length.trans (by simp), ?_, ?_, ?_⟩
  · rw [replaceElemAt, assert, if_pos (by rw [h.length]; simp; omega)]
    simp only [Option.bind_eq_bind, Option.bind_some, load_holds hv (show i = (e1.map Prod.snd).length by simpa using hi),
      load_holds hk (show i = (e1.map Prod.fst).length by simpa using hi), h1, h3]
    rfl
  · rw [map_split]; exact h4
  · rw [map_split]; exact h2
  · show HoldsEdges _ n.edges cs
    simpa using he

/-- Insertion into a leaf with room. -/
theorem roomInsertAt_leaf {n : Node K V} {e1 e2} (h : Shape n (e1 ++ e2) none) (hr : (e1 ++ e2).length < 11) {i : Nat} (hi : i = e1.length) (k : K) (v : V) :
    ∃ n', roomInsertAt i k v none n = some n' ∧ Shape n' (e1 ++ (k, v) :: e2) none := by
  have hv := h.values
  have hk := h.keys
  rw [List.map_append] at hv hk
  have hlen : e1.length + e2.length < 11 := by simpa using hr
  obtain ⟨a, h1, a', h2, h3⟩ := move_insert hk (by simpa [maxElems] using hlen) (show i = (e1.map Prod.fst).length by simpa using hi)
    (show e2.length = (e2.map Prod.fst).length by simp) (rfl : i + 1 = i + 1) k
  obtain ⟨b, h4, b', h5, h6⟩ := move_insert hv (by simpa [maxElems] using hlen) (show i = (e1.map Prod.snd).length by simpa using hi)
    (show e2.length = (e2.map Prod.snd).length by simp) (rfl : i + 1 = i + 1) v
  refine ⟨.mk (n.length + 1) a' b' none, ?_, ?_, ?_, ?_, trivial⟩
  · rw [roomInsertAt]
    simp only [assert, h.leaf, Option.isNone_none, beq_self_eq_true, if_true, Node.room, h.length, Option.bind_eq_bind, Option.bind_some, sub]
    rw [if_pos (by simp [maxElems]; omega), if_pos (by simp; omega)]
    simp only [Option.bind_some, show (e1 ++ e2).length - i = e2.length by simp; omega, h1, h2, h4, h5, insertEdge, h.no_edges]
    rfl
  · show n.length + 1 = _
    rw [h.length]; simp; omega
  · rw [map_split]; exact h3
  · rw [map_split]; exact h6

/-- Insertion into an internal node with room. -/
theorem roomInsertAt_inner {n : Node K V} {e1 e2 c1 c2} (h : Shape n (e1 ++ e2) (some (c1 ++ c2))) (hr : (e1 ++ e2).length < 11)
    {i : Nat} (hi : i = e1.length) (hc : c1.length = i + 1) (k : K) (v : V) (r : Node K V) :
    ∃ n', roomInsertAt i k v (some r) n = some n' ∧ Shape n' (e1 ++ (k, v) :: e2) (some (c1 ++ r :: c2)) := by
  have hv := h.values
  have hk := h.keys
  rw [List.map_append] at hv hk
  obtain ⟨ed, he1, he2, he3⟩ := h.children
  have hlen : e1.length + e2.length < 11 := by simpa using hr
  have hc2 : c2.length = e2.length := by simp at he3; omega
  obtain ⟨a, h1, a', h2, h3⟩ := move_insert hk (by simpa [maxElems] using hlen) (show i = (e1.map Prod.fst).length by simpa using hi)
    (show e2.length = (e2.map Prod.fst).length by simp) (rfl : i + 1 = i + 1) k
  obtain ⟨b, h4, b', h5, h6⟩ := move_insert hv (by simpa [maxElems] using hlen) (show i = (e1.map Prod.snd).length by simpa using hi)
    (show e2.length = (e2.map Prod.snd).length by simp) (rfl : i + 1 = i + 1) v
  obtain ⟨d, h7, d', h8, h9⟩ := move_insert he2 (by simp [maxEdges]; omega) (show i + 1 = c1.length by omega)
    (show e2.length = c2.length by omega) (rfl : i + 2 = i + 1 + 1) r
  refine ⟨.mk (n.length + 1) a' b' (some d'), ?_, ?_, ?_, ?_, h9, ?_⟩
  · rw [roomInsertAt]
    simp only [assert, h.leaf, Option.isNone_some, beq_self_eq_true, if_true, Node.room, h.length, Option.bind_eq_bind, Option.bind_some, sub]
    rw [if_pos (by simp [maxElems]; omega), if_pos (by simp; omega)]
    simp only [Option.bind_some, show (e1 ++ e2).length - i = e2.length by simp; omega, h1, h2, h4, h5, insertEdge, he1, h7, h8,
      Option.bind_eq_bind, Option.map_some]
    rfl
  · show n.length + 1 = _
    rw [h.length]; simp; omega
  · rw [map_split]; exact h3
  · rw [map_split]; exact h6
  · simp at he3 ⊢; omega

theorem split_leaf {n : Node K V} {e1 m e2} (h : Shape n (e1 ++ m :: e2) none) (h1 : e1.length = 5) (h2 : e2.length = 5) :
    ∃ r n', split n = some (m, r, n') ∧ Shape r e2 none ∧ Shape n' e1 none := by
  have hv := h.values
  have hk := h.keys
  rw [map_split] at hv hk
  have hv' := hv; have hk' := hk
  rw [List.append_cons] at hv' hk'
  obtain ⟨a, g1, g2⟩ := copy_new hk' (b := alloc maxElems) (by simp [alloc]) (show minElems + 1 = _ by simp [minElems, h1]) (show minElems = _ by simp [minElems, h2])
  obtain ⟨b, g3, g4⟩ := copy_new hv' (b := alloc maxElems) (by simp [alloc]) (show minElems + 1 = _ by simp [minElems, h1]) (show minElems = _ by simp [minElems, h2])
  refine ⟨.mk minElems a b none, .mk minElems n.keys n.values n.edges, ?_, ⟨?_, g2, g4, trivial⟩, ⟨?_, hk.prefix, hv.prefix, ?_⟩⟩
  · rw [split]
    simp only [assert, Node.full, h.length, h.leaf, Option.isNone_none, if_true, Option.bind_eq_bind]
    rw [if_pos (by simp [maxElems, h1, h2])]
    have e1 : (newLeaf : Node K V).keys = alloc maxElems := rfl
    have e2 : (newLeaf : Node K V).values = alloc maxElems := rfl
    simp only [e1, e2, g1, g3, Option.bind_some, load_holds hk (show minElems = _ by simp [minElems, h1]), load_holds hv (show minElems = _ by simp [minElems, h1])]
    rfl
  · exact h2.symm
  · exact h1.symm
  · show HoldsEdges _ n.edges none
    rw [h.no_edges]; trivial

theorem split_inner {n : Node K V} {e1 m e2 c1 c2} (h : Shape n (e1 ++ m :: e2) (some (c1 ++ c2))) (h1 : e1.length = 5) (h2 : e2.length = 5)
    (h3 : c1.length = 6) :
    ∃ r n', split n = some (m, r, n') ∧ Shape r e2 (some c2) ∧ Shape n' e1 (some c1) := by
  have hv := h.values
  have hk := h.keys
  rw [map_split] at hv hk
  have hv' := hv; have hk' := hk
  rw [List.append_cons] at hv' hk'
  obtain ⟨ed, he1, he2, he3⟩ := h.children
  have h4 : c2.length = 6 := by simp at he3; omega
  obtain ⟨a, g1, g2⟩ := copy_new hk' (b := alloc maxElems) (by simp [alloc]) (show minElems + 1 = _ by simp [minElems, h1]) (show minElems = _ by simp [minElems, h2])
  obtain ⟨b, g3, g4⟩ := copy_new hv' (b := alloc maxElems) (by simp [alloc]) (show minElems + 1 = _ by simp [minElems, h1]) (show minElems = _ by simp [minElems, h2])
  obtain ⟨d, g5, g6⟩ := copy_new he2 (b := alloc maxEdges) (by simp [alloc]) (show minElems + 1 = _ by simp [minElems, h3]) (show minElems + 1 = _ by simp [minElems, h4])
  refine ⟨.mk minElems a b (some d), .mk minElems n.keys n.values n.edges, ?_, ⟨?_, g2, g4, g6, by omega⟩, ⟨?_, hk.prefix, hv.prefix, ?_⟩⟩
  · rw [split]
    simp only [assert, Node.full, h.length, h.leaf, Option.isNone_some, Bool.false_eq_true, if_false, Option.bind_eq_bind]
    rw [if_pos (by simp [maxElems, h1, h2])]
    simp only [Option.bind_some, he1]
    have e1 : (newInternal : Node K V).keys = alloc maxElems := rfl
    have e2 : (newInternal : Node K V).values = alloc maxElems := rfl
    have e3 : (newInternal : Node K V).edges = some (alloc maxEdges) := rfl
    simp only [e1, e2, e3, g1, g3, g5, Option.bind_some, Option.map_some, load_holds hk (show minElems = _ by simp [minElems, h1]),
      load_holds hv (show minElems = _ by simp [minElems, h1])]
    rfl
  · exact h2.symm
  · exact h1.symm
  · show HoldsEdges _ n.edges (some c1)
    rw [he1]; exact ⟨he2.prefix, by omega⟩

theorem newRoot_eq (k : K) (v : V) (l r : Node K V) : ∃ n, newRoot k v l r = some n ∧ Shape n [(k, v)] (some [l, r]) :=
  ⟨_, rfl, rfl, ⟨rfl, _, rfl⟩, ⟨rfl, _, rfl⟩, ⟨rfl, _, rfl⟩, rfl⟩

theorem leafRemoveAt_eq {n : Node K V} {e1 e e2} (h : Shape n (e1 ++ e :: e2) none) {i : Nat} (hi : i = e1.length) :
    ∃ n', leafRemoveAt i n = some (e, n') ∧ Shape n' (e1 ++ e2) none := by
  have hv := h.values
  have hk := h.keys
  rw [map_split] at hv hk
  obtain ⟨a, h1, h2⟩ := move_remove hk (show i + 1 = _ by simp [hi]) (show e2.length = _ by simp) (show i = _ by simp [hi])
  obtain ⟨b, h3, h4⟩ := move_remove hv (show i + 1 = _ by simp [hi]) (show e2.length = _ by simp) (show i = _ by simp [hi])
  refine ⟨.mk (n.length - 1) a b n.edges, ?_, ?_, ?_, ?_, ?_⟩
  · rw [leafRemoveAt]
    simp only [assert, h.leaf, Option.isNone_none, if_true, Option.bind_eq_bind, Option.bind_some, sub]
    rw [if_pos (by rw [h.length]; simp; omega), Option.bind_some, if_pos (by rw [h.length]; simp; omega)]
    simp only [Option.bind_some, show n.length - i - 1 = e2.length by rw [h.length]; simp; omega, h1, h3,
      load_holds hk (show i = _ by simp [hi]), load_holds hv (show i = _ by simp [hi])]
    rfl
  · show n.length - 1 = _
    rw [h.length]; simp
  · rw [List.map_append]; exact h2
  · rw [List.map_append]; exact h4
  · show HoldsEdges _ n.edges none
    rw [h.no_edges]; trivial

end Verif.BTree
