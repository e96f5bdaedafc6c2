import Verif.BTree.Rep

/-! # Search and insertion -/
namespace Verif.BTree
open Std (TransCmp OrientedCmp)

variable {K V : Type}

section
variable (cmp : K → K → Ordering)

/-- The keys come in order, each of them once. -/
def Sorted (es : List (K × V)) : Prop := es.Pairwise (fun a b => cmp a.1 b.1 = .lt)

/-- All of them are smaller than the key. -/
def Below (k : K) (es : List (K × V)) : Prop := ∀ e ∈ es, cmp k e.1 = .gt

/-- All of them are greater than the key. -/
def Above (k : K) (es : List (K × V)) : Prop := ∀ e ∈ es, cmp k e.1 = .lt

theorem searchFrom_eq (key : K) {cap : Nat} {keys : List (Option K)} (e1 e2 : List (K × V)) (hk : Holds cap keys ((e1 ++ e2).map Prod.fst)) (hb : Below cmp key e1) :
    ∃ s, searchFrom cmp key keys e2.length e1.length = some s ∧
      ((∃ g1 e g2, s = .found g1.length ∧ e1 ++ e2 = g1 ++ e :: g2 ∧ Below cmp key g1 ∧ cmp key e.1 = .eq) ∨
        ∃ g1 g2, s = .goDown g1.length ∧ e1 ++ e2 = g1 ++ g2 ∧ Below cmp key g1 ∧ ∀ e t, g2 = e :: t → cmp key e.1 = .lt) := by
  induction e2 generalizing e1 with
  | nil => exact ⟨_, rfl, .inr ⟨e1, [], rfl, rfl, hb, by simp⟩⟩
  | cons e e2 ih =>
    have hl : load e1.length keys = some e.1 := by
      rw [List.map_append, List.map_cons] at hk
      exact load_holds hk (by simp)
    rw [List.length_cons, searchFrom]
    simp only [hl, Option.bind_eq_bind, Option.bind_some]
    rcases hc : cmp key e.1 with _ | _ | _
    · exact ⟨_, rfl, .inr ⟨e1, e :: e2, rfl, rfl, hb, fun a t ht => by injection ht with h1 _; rw [← h1]; exact hc⟩⟩
    · exact ⟨_, rfl, .inl ⟨e1, e, e2, rfl, rfl, hb, hc⟩⟩
    · have := ih (e1 ++ [e]) (by simpa using hk) (by
        intro x hx
        rcases List.mem_append.1 hx with hx | hx
        · exact hb x hx
        · rw [List.mem_singleton.1 hx]; exact hc)
      simpa using this

variable [TransCmp cmp]

omit [TransCmp cmp] in
theorem Sorted.parts {a b : List (K × V)} (h : Sorted cmp (a ++ b)) : Sorted cmp a ∧ Sorted cmp b ∧ ∀ x ∈ a, ∀ y ∈ b, cmp x.1 y.1 = .lt := by
  have := List.pairwise_append.1 h
  exact this

theorem below_left {key : K} {e1 : List (K × V)} {p1 : List (Node K V × List (K × V))} (hs : Sorted cmp (left e1 p1)) (hb : Below cmp key e1) :
    Below cmp key (left e1 p1) := by
  induction e1 generalizing p1 with
  | nil => intro x hx; simp [left] at hx
  | cons e e1 ih =>
    cases p1 with
    | nil => intro x hx; simp [left] at hx
    | cons p p1 =>
      intro x hx
      rw [left] at hs hx
      have he := hb e (by simp)
      rcases List.mem_append.1 hx with hx | hx
      · have := (Sorted.parts cmp hs).2.2 x hx e (by simp)
        rw [OrientedCmp.gt_iff_lt] at he ⊢
        exact TransCmp.lt_trans this he
      · rcases List.mem_cons.1 hx with rfl | hx
        · exact he
        · exact ih (List.pairwise_cons.1 (Sorted.parts cmp hs).2.1).2 (fun y hy => hb y (by simp [hy])) x hx

theorem above_of_sorted {key : K} {es : List (K × V)} (hs : Sorted cmp es) (hh : ∀ e t, es = e :: t → cmp key e.1 = .lt) : Above cmp key es := by
  intro x hx
  cases es with
  | nil => cases hx
  | cons e t =>
    have he := hh e t rfl
    rcases List.mem_cons.1 hx with rfl | hx
    · exact he
    · exact TransCmp.lt_trans he ((List.pairwise_cons.1 hs).1 x hx)

/-- In a leaf, the key is found at its place, or its place is. -/
theorem search_leaf (key : K) {n : Node K V} {es} (h : Shape n es none) (hs : Sorted cmp es) :
    (∃ e1 e e2, search cmp key n = some (.found e1.length) ∧ es = e1 ++ e :: e2 ∧ cmp key e.1 = .eq) ∨
      ∃ e1 e2, search cmp key n = some (.goDown e1.length) ∧ es = e1 ++ e2 ∧ Below cmp key e1 ∧ Above cmp key e2 := by
  obtain ⟨s, h1, h2⟩ := searchFrom_eq cmp key [] es (by simpa using h.keys) (by intro x hx; cases hx)
  rw [search, h.length]
  rw [List.length_nil] at h1
  rcases h2 with ⟨g1, e, g2, rfl, he, -, hc⟩ | ⟨g1, g2, rfl, he, hb, ha⟩
  · exact .inl ⟨g1, e, g2, h1, by simpa using he, hc⟩
  · rw [List.nil_append] at he; subst he
    exact .inr ⟨g1, g2, h1, rfl, hb, above_of_sorted cmp (Sorted.parts cmp hs).2.1 ha⟩

/-- In a node with children, the key is found at its place, or the child where it must be is. -/
theorem search_inner (key : K) {n : Node K V} {el} {ps : List (Node K V × List (K × V))} (h : Shape n el (some (ps.map Prod.fst))) (hs : Sorted cmp (join el ps)) :
    (∃ e1 e e2 p1 p q p2, search cmp key n = some (.found e1.length) ∧ el = e1 ++ e :: e2 ∧ ps = p1 ++ p :: q :: p2 ∧ p1.length = e1.length ∧
        cmp key e.1 = .eq) ∨
      ∃ e1 e2 p1 p p2, search cmp key n = some (.goDown e1.length) ∧ el = e1 ++ e2 ∧ ps = p1 ++ p :: p2 ∧ p1.length = e1.length ∧
        Below cmp key (left e1 p1) ∧ Above cmp key (right e2 p2) := by
  obtain ⟨s, h1, h2⟩ := searchFrom_eq cmp key [] el (by simpa using h.keys) (by intro x hx; cases hx)
  have hlen := children_length h
  rw [search, h.length]
  rw [List.length_nil] at h1
  rcases h2 with ⟨g1, e, g2, rfl, he, -, hc⟩ | ⟨g1, g2, rfl, he, hb, ha⟩
  · rw [List.nil_append] at he; subst he
    have hlt : g1.length + 1 < ps.length := by rw [hlen]; simp
    refine .inl ⟨g1, e, g2, ps.take g1.length, ps[g1.length], ps[g1.length + 1], ps.drop (g1.length + 2), h1, rfl, by simp, by simp; omega, hc⟩
  · rw [List.nil_append] at he; subst he
    have hlt : g1.length < ps.length := by rw [hlen]; simp; omega
    have hp : ps = ps.take g1.length ++ ps[g1.length] :: ps.drop (g1.length + 1) := by simp
    have hp1 : (ps.take g1.length).length = g1.length := by simp; omega
    refine .inr ⟨g1, g2, ps.take g1.length, ps[g1.length], ps.drop (g1.length + 1), h1, rfl, hp, hp1, ?_, ?_⟩
    · rw [hp, join_split _ _ _ _ _ hp1] at hs
      exact below_left cmp (Sorted.parts cmp hs).1 hb
    · rw [hp, join_split _ _ _ _ _ hp1] at hs
      refine above_of_sorted cmp (Sorted.parts cmp (Sorted.parts cmp hs).2.1).2.1 fun e t he => ?_
      cases g2 with
      | nil => simp [right] at he
      | cons x g2 =>
        cases hd : ps.drop (g1.length + 1) with
        | nil => rw [hd] at he; simp [right] at he
        | cons y p2 =>
          rw [hd, right] at he
          injection he with he _
          rw [← he]; exact ha x g2 rfl

/-! ## Get -/

/-- What the search for a key in a list must give. -/
def Got (key : K) (es : List (K × V)) (r : Option V) : Prop :=
  (r = none ∧ ∀ e ∈ es, cmp key e.1 ≠ .eq) ∨ ∃ e ∈ es, cmp key e.1 = .eq ∧ r = some e.2

theorem mem_join_elem {el} {ps : List (Node K V × List (K × V))} (hlen : ps.length = el.length + 1) {e} (he : e ∈ el) : e ∈ join el ps := by
  rw [List.mem_iff_append] at he
  obtain ⟨e1, e2, rfl⟩ := he
  have hlt : e1.length + 1 ≤ ps.length := by rw [hlen]; simp
  rw [← List.take_append_drop (e1.length + 1) ps, join_append _ _ _ _ _ (by simp; omega) (by
    intro h
    have := congrArg List.length h
    simp at this
    simp at hlen; omega)]
  simp

omit [TransCmp cmp] in
theorem ne_of_below {key : K} {es : List (K × V)} (h : Below cmp key es) : ∀ e ∈ es, cmp key e.1 ≠ .eq := fun e he => by rw [h e he]; decide

omit [TransCmp cmp] in
theorem ne_of_above {key : K} {es : List (K × V)} (h : Above cmp key es) : ∀ e ∈ es, cmp key e.1 ≠ .eq := fun e he => by rw [h e he]; decide

theorem get_spec (key : K) {h : Nat} {n : Node K V} {es} (hr : Rep h n es) (hs : Sorted cmp es) {fuel : Nat} (hf : h < fuel) :
    ∃ r, get cmp fuel key n = some r ∧ Got cmp key es r := by
  induction h generalizing n es fuel with
  | zero =>
    obtain ⟨fuel, rfl⟩ := Nat.exists_eq_add_of_lt hf
    rw [Nat.zero_add, get]
    rcases search_leaf cmp key hr hs with ⟨e1, e, e2, h1, rfl, hc⟩ | ⟨e1, e2, h1, rfl, hb, ha⟩
    · simp only [h1, Option.bind_eq_bind, Option.bind_some, valueAt_eq (show Shape n (e1 ++ e :: e2) none from hr) rfl, Option.map_some]
      exact ⟨_, rfl, .inr ⟨e, by simp, hc, rfl⟩⟩
    · simp only [h1, Option.bind_eq_bind, Option.bind_some, hr.leaf]
      refine ⟨none, rfl, .inl ⟨rfl, fun e he => ?_⟩⟩
      rcases List.mem_append.1 he with he | he
      · exact ne_of_below cmp hb e he
      · exact ne_of_above cmp ha e he
  | succ h ih =>
    obtain ⟨fuel, rfl⟩ := Nat.exists_eq_add_of_lt (Nat.lt_of_le_of_lt (Nat.zero_le _) hf)
    rw [Nat.zero_add, get]
    have hleaf := hr.leaf
    obtain ⟨el, ps, hsh, hc, rfl⟩ := hr
    rcases search_inner cmp key hsh hs with ⟨e1, e, e2, p1, p, q, p2, h1, rfl, rfl, hl, hk⟩ | ⟨e1, e2, p1, p, p2, h1, rfl, rfl, hl, hb, ha⟩
    · simp only [h1, Option.bind_eq_bind, Option.bind_some, valueAt_eq hsh rfl, Option.map_some]
      exact ⟨_, rfl, .inr ⟨e, mem_join_elem (children_length hsh) (by simp), hk, rfl⟩⟩
    · rw [List.map_append, List.map_cons] at hsh
      simp only [h1, Option.bind_eq_bind, Option.bind_some, hleaf, edgeAt_eq hsh (i := e1.length) (by simp [hl])]
      rw [join_split _ _ _ _ _ hl] at hs ⊢
      obtain ⟨r, g1, g2⟩ := ih (hc p (by simp)).1 (Sorted.parts cmp (Sorted.parts cmp hs).2.1).1 (fuel := fuel) (by omega)
      refine ⟨r, g1, ?_⟩
      rcases g2 with ⟨rfl, g2⟩ | ⟨e, g2, g3, g4⟩
      · refine .inl ⟨rfl, fun e he => ?_⟩
        simp only [List.mem_append] at he
        rcases he with he | he | he
        · exact ne_of_below cmp hb e he
        · exact g2 e he
        · exact ne_of_above cmp ha e he
      · exact .inr ⟨e, by simp [g2], g3, g4⟩

omit [TransCmp cmp]

theorem getMin_spec {h : Nat} {n : Node K V} {es} (hr : Rep h n es) (hne : 1 ≤ n.length) {fuel : Nat} (hf : h < fuel) :
    ∃ e t, getMin fuel n = some e ∧ es = e :: t := by
  induction h generalizing n es fuel with
  | zero =>
    obtain ⟨fuel, rfl⟩ := Nat.exists_eq_add_of_lt hf
    rw [Nat.zero_add, getMin, hr.leaf]
    have hl := Shape.length hr
    cases es with
    | nil => simp at hl; omega
    | cons e t => exact ⟨e, t, elemAt_eq (e1 := []) hr rfl, rfl⟩
  | succ h ih =>
    obtain ⟨fuel, rfl⟩ := Nat.exists_eq_add_of_lt (Nat.lt_of_le_of_lt (Nat.zero_le _) hf)
    rw [Nat.zero_add, getMin, hr.leaf]
    obtain ⟨el, ps, hsh, hc, rfl⟩ := hr
    have hlen := children_length hsh
    match ps, hlen with
    | p :: ps, hlen =>
      have hp := hc p (by simp)
      obtain ⟨e, t, g1, g2⟩ := ih hp.1 (by omega) (fuel := fuel) (by omega)
      refine ⟨e, t ++ right el ps, ?_, by simp [join, g2]⟩
      have := edgeAt_eq (c1 := []) (c := p.1) (c2 := ps.map Prod.fst) hsh (i := 0) rfl
      simp only [Option.bind_eq_bind, this, Option.bind_some]
      exact g1

theorem getMax_spec {h : Nat} {n : Node K V} {es} (hr : Rep h n es) (hne : 1 ≤ n.length) {fuel : Nat} (hf : h < fuel) :
    ∃ e t, getMax fuel n = some e ∧ es = t ++ [e] := by
  induction h generalizing n es fuel with
  | zero =>
    obtain ⟨fuel, rfl⟩ := Nat.exists_eq_add_of_lt hf
    rw [Nat.zero_add, getMax, hr.leaf]
    have hl := Shape.length hr
    rcases List.eq_nil_or_concat es with rfl | ⟨t, e, rfl⟩
    · simp at hl; omega
    · rw [List.concat_eq_append] at hr hl ⊢
      refine ⟨e, t, ?_, rfl⟩
      have hsub : sub n.length 1 = some t.length := by
        rw [hl, sub, if_pos (by simp)]; simp
      simp only [Option.bind_eq_bind, hsub, Option.bind_some]
      exact elemAt_eq (e1 := t) (e2 := []) hr rfl
  | succ h ih =>
    obtain ⟨fuel, rfl⟩ := Nat.exists_eq_add_of_lt (Nat.lt_of_le_of_lt (Nat.zero_le _) hf)
    rw [Nat.zero_add, getMax, hr.leaf]
    obtain ⟨el, ps, hsh, hc, rfl⟩ := hr
    have hlen := children_length hsh
    rcases List.eq_nil_or_concat ps with rfl | ⟨ps, p, rfl⟩
    · simp at hlen
    · rw [List.concat_eq_append] at *
      have hp := hc p (by simp)
      obtain ⟨e, t, g1, g2⟩ := ih hp.1 (by omega) (fuel := fuel) (by omega)
      have hl : ps.length = el.length := by simpa using hlen
      have hj := join_split el [] ps p [] hl
      rw [List.append_nil] at hj
      refine ⟨e, left el ps ++ t, ?_, by rw [hj]; simp [right, g2]⟩
      have := edgeAt_eq (c1 := ps.map Prod.fst) (c := p.1) (c2 := []) (by simpa using hsh) (i := n.length) (by rw [hsh.length]; simp [hl])
      simp only [Option.bind_eq_bind, this, Option.bind_some]
      exact g1

/-! ## Insertion -/

/-- The element fits in a leaf, or the leaf is split around an element. -/
theorem insertAt_leaf {n : Node K V} {e1 e2} (h : Shape n (e1 ++ e2) none) {i : Nat} (hi : i = e1.length) (k : K) (v : V) :
    (∃ n', insertAt i k v none n = some (.fit, n') ∧ Shape n' (e1 ++ (k, v) :: e2) none) ∨
      ∃ m r n' l1 l2, insertAt i k v none n = some (.split m.1 m.2 r, n') ∧ e1 ++ (k, v) :: e2 = l1 ++ m :: l2 ∧ Shape n' l1 none ∧ Shape r l2 none ∧
        5 ≤ l1.length ∧ 5 ≤ l2.length := by
  have hle := h.le
  have hl := h.length
  rw [insertAt]
  by_cases hlt : (e1 ++ e2).length < 11
  · obtain ⟨n', g1, g2⟩ := roomInsertAt_leaf h hlt hi k v
    refine .inl ⟨n', ?_, g2⟩
    have hroom : n.room = true := by rw [Node.room, hl]; simp only [maxElems, bne_iff_ne]; omega
    simp only [assert, h.leaf, hroom, g1, Option.bind_eq_bind]
    rfl
  · have h11 : (e1 ++ e2).length = 11 := by omega
    have hroom : n.room = false := by rw [Node.room, hl, h11]; rfl
    have h12 : e1.length + e2.length = 11 := by simpa using h11
    by_cases h5 : i ≤ 5
    · obtain ⟨t, m, g2, rfl, ht⟩ : ∃ t m g2, e2 = t ++ m :: g2 ∧ e1.length + t.length = 5 :=
        ⟨e2.take (5 - e1.length), e2[5 - e1.length], e2.drop (5 - e1.length + 1), by simp, by simp; omega⟩
      have h' : Shape n ((e1 ++ t) ++ m :: g2) none := by simpa using h
      have hg2 : g2.length = 5 := by simp at h12; omega
      obtain ⟨r, n1, f1, f2, f3⟩ := split_leaf h' (by simpa using ht) hg2
      obtain ⟨n', f4, f5⟩ := roomInsertAt_leaf f3 (by simp; omega) hi k v
      refine .inr ⟨m, r, n', e1 ++ (k, v) :: t, g2, ?_, by simp, f5, f2, by simp; omega, by omega⟩
      simp only [assert, h.leaf, hroom, f1, Option.bind_eq_bind, Option.bind_some, f4]
      rw [if_pos (by rfl), Option.bind_some, if_neg (by decide), if_pos (by rw [f3.length]; simp; omega)]
      rfl
    · obtain ⟨g1, m, t, rfl, ht⟩ : ∃ g1 m t, e1 = g1 ++ m :: t ∧ g1.length = 5 :=
        ⟨e1.take 5, e1[5], e1.drop (5 + 1), by simp, by simp; omega⟩
      have h' : Shape n (g1 ++ m :: (t ++ e2)) none := by simpa using h
      simp only [List.length_append, List.length_cons] at h12
      obtain ⟨r, n', f1, f2, f3⟩ := split_leaf h' ht (by simp; omega)
      obtain ⟨r', f4, f5⟩ := roomInsertAt_leaf f2 (by simp; omega) (i := t.length) rfl k v
      refine .inr ⟨m, r', n', g1, t ++ (k, v) :: e2, ?_, by simp, f3, f5, by omega, by simp; omega⟩
      have hn' : n'.length = 5 := by rw [f3.length, ht]
      have hi' : i = t.length + 6 := by simp at hi; omega
      simp only [assert, h.leaf, hroom, f1, Option.bind_eq_bind, Option.bind_some]
      rw [if_pos (by rfl), Option.bind_some, if_neg (by decide), if_neg (by rw [hn']; exact h5), hn', hi']
      simp only [sub, show 5 ≤ t.length + 6 by omega, show t.length + 6 - 5 = t.length + 1 by omega, Nat.le_add_left, ↓reduceIte, Option.bind_some,
        Nat.add_sub_cancel, f4]
      rfl

/-- The element fits in a node with children, or the node is split around an element. -/
theorem insertAt_inner {n : Node K V} {e1 e2 c1 c2} (h : Shape n (e1 ++ e2) (some (c1 ++ c2))) {i : Nat} (hi : i = e1.length) (hc : c1.length = i + 1)
    (k : K) (v : V) (q : Node K V) :
    (∃ n', insertAt i k v (some q) n = some (.fit, n') ∧ Shape n' (e1 ++ (k, v) :: e2) (some (c1 ++ q :: c2))) ∨
      ∃ m r n' l1 l2 d1 d2, insertAt i k v (some q) n = some (.split m.1 m.2 r, n') ∧ e1 ++ (k, v) :: e2 = l1 ++ m :: l2 ∧ c1 ++ q :: c2 = d1 ++ d2 ∧
        d1.length = l1.length + 1 ∧ Shape n' l1 (some d1) ∧ Shape r l2 (some d2) ∧ 5 ≤ l1.length ∧ 5 ≤ l2.length := by
  have hle := h.le
  have hl := h.length
  obtain ⟨-, -, -, hcl⟩ := h.children
  rw [insertAt]
  by_cases hlt : (e1 ++ e2).length < 11
  · obtain ⟨n', g1, g2⟩ := roomInsertAt_inner h hlt hi hc k v q
    refine .inl ⟨n', ?_, g2⟩
    have hroom : n.room = true := by rw [Node.room, hl]; simp only [maxElems, bne_iff_ne]; omega
    simp only [assert, h.leaf, hroom, g1, Option.bind_eq_bind]
    rfl
  · have h11 : (e1 ++ e2).length = 11 := by omega
    have hroom : n.room = false := by rw [Node.room, hl, h11]; rfl
    have h12 : e1.length + e2.length = 11 := by simpa using h11
    rw [h11] at hcl
    by_cases h5 : i ≤ 5
    · obtain ⟨t, m, g2, rfl, ht⟩ : ∃ t m g2, e2 = t ++ m :: g2 ∧ e1.length + t.length = 5 :=
        ⟨e2.take (5 - e1.length), e2[5 - e1.length], e2.drop (5 - e1.length + 1), by simp, by simp; omega⟩
      have hcl' : c1.length + c2.length = 12 := by simpa using hcl
      obtain ⟨t', d2, rfl, ht'⟩ : ∃ t' d2, c2 = t' ++ d2 ∧ c1.length + t'.length = 6 :=
        ⟨c2.take (6 - c1.length), c2.drop (6 - c1.length), by simp, by simp; omega⟩
      have h' : Shape n ((e1 ++ t) ++ m :: g2) (some ((c1 ++ t') ++ d2)) := by simpa using h
      have hg2 : g2.length = 5 := by simp at h12; omega
      obtain ⟨r, n1, f1, f2, f3⟩ := split_inner h' (by simpa using ht) hg2 (by simpa using ht')
      obtain ⟨n', f4, f5⟩ := roomInsertAt_inner f3 (by simp; omega) hi hc k v q
      refine .inr ⟨m, r, n', e1 ++ (k, v) :: t, g2, c1 ++ q :: t', d2, ?_, by simp, by simp, by simp; omega, f5, f2, by simp; omega, by omega⟩
      simp only [assert, h.leaf, hroom, f1, Option.bind_eq_bind, Option.bind_some, f4]
      rw [if_pos (by rfl), Option.bind_some, if_neg (by decide), if_pos (by rw [f3.length]; simp; omega)]
      rfl
    · obtain ⟨g1, m, t, rfl, ht⟩ : ∃ g1 m t, e1 = g1 ++ m :: t ∧ g1.length = 5 :=
        ⟨e1.take 5, e1[5], e1.drop (5 + 1), by simp, by simp; omega⟩
      obtain ⟨d1, t', rfl, ht'⟩ : ∃ d1 t', c1 = d1 ++ t' ∧ d1.length = 6 :=
        ⟨c1.take 6, c1.drop 6, by simp, by simp; omega⟩
      have h' : Shape n (g1 ++ m :: (t ++ e2)) (some (d1 ++ (t' ++ c2))) := by simpa using h
      simp only [List.length_append, List.length_cons] at h12 hi hc
      obtain ⟨r, n', f1, f2, f3⟩ := split_inner h' ht (by simp; omega) ht'
      obtain ⟨r', f4, f5⟩ := roomInsertAt_inner f2 (by simp; omega) (i := t.length) rfl (by omega) k v q
      refine .inr ⟨m, r', n', g1, t ++ (k, v) :: e2, d1, t' ++ q :: c2, ?_, by simp, by simp, by omega, f3, f5, by omega, by simp; omega⟩
      have hn' : n'.length = 5 := by rw [f3.length, ht]
      have hi' : i = t.length + 6 := by omega
      simp only [assert, h.leaf, hroom, f1, Option.bind_eq_bind, Option.bind_some]
      rw [if_pos (by rfl), Option.bind_some, if_neg (by decide), if_neg (by rw [hn']; exact h5), hn', hi']
      simp only [sub, show 5 ≤ t.length + 6 by omega, show t.length + 6 - 5 = t.length + 1 by omega, Nat.le_add_left, ↓reduceIte, Option.bind_some,
        Nat.add_sub_cancel, f4]
      rfl

/-- What an insertion must give. -/
inductive InsertOk (k : K) (v : V) (h : Nat) (n : Node K V) (es : List (K × V)) : Inserted K V → Node K V → Prop
  | replace (a b k' w n') (he : es = a ++ (k', w) :: b) (hc : cmp k k' = .eq) (hr : Rep h n' (a ++ (k', v) :: b)) (hl : n'.length = n.length) :
    InsertOk k v h n es (.replace w) n'
  | fit (a b n') (he : es = a ++ b) (ha : Below cmp k a) (hb : Above cmp k b) (hr : Rep h n' (a ++ (k, v) :: b)) (hl : n.length ≤ n'.length) :
    InsertOk k v h n es .fit n'
  | split (a b m l1 l2 r n') (he : es = a ++ b) (ha : Below cmp k a) (hb : Above cmp k b) (hm : a ++ (k, v) :: b = l1 ++ m :: l2)
    (h1 : Rep h n' l1) (h2 : Rep h r l2) (g1 : 5 ≤ n'.length) (g2 : 5 ≤ r.length) : InsertOk k v h n es (.split m.1 m.2 r) n'

theorem replace_child {P : Node K V × List (K × V) → Prop} {p1 p p2 x} (hc : ∀ q ∈ p1 ++ p :: p2, P q) (hx : P x) : ∀ q ∈ p1 ++ x :: p2, P q := by
  intro q hq
  simp only [List.mem_append, List.mem_cons] at hq
  rcases hq with hq | rfl | hq
  · exact hc q (by simp [hq])
  · exact hx
  · exact hc q (by simp [hq])

variable [TransCmp cmp]

theorem insert_spec (k : K) (v : V) {h : Nat} {n : Node K V} {es} (hr : Rep h n es) (hs : Sorted cmp es) {fuel : Nat} (hf : h < fuel) :
    ∃ r n', insert cmp fuel k v n = some (r, n') ∧ InsertOk cmp k v h n es r n' := by
  induction h generalizing n es fuel with
  | zero =>
    obtain ⟨fuel, rfl⟩ := Nat.exists_eq_add_of_lt hf
    rw [Nat.zero_add, insert]
    rcases search_leaf cmp k hr hs with ⟨e1, e, e2, h1, rfl, hc⟩ | ⟨e1, e2, h1, rfl, hb, ha⟩
    · obtain ⟨n', g1, g2⟩ := replaceValueAt_eq (show Shape n (e1 ++ e :: e2) none from hr) rfl v
      simp only [h1, Option.bind_eq_bind, Option.bind_some, g1]
      refine ⟨_, _, rfl, .replace e1 e2 e.1 e.2 n' rfl hc g2 ?_⟩
      rw [g2.length, Shape.length hr]; simp
    · simp only [h1, Option.bind_eq_bind, Option.bind_some, hr.leaf]
      rcases insertAt_leaf (show Shape n (e1 ++ e2) none from hr) rfl k v with ⟨n', g1, g2⟩ | ⟨m, r, n', l1, l2, g1, g2, g3, g4, g5, g6⟩
      · exact ⟨_, _, g1, .fit e1 e2 n' rfl hb ha g2 (by rw [g2.length, Shape.length hr]; simp)⟩
      · exact ⟨_, _, g1, .split e1 e2 m l1 l2 r n' rfl hb ha g2 g3 g4 (by rw [g3.length]; exact g5) (by rw [g4.length]; exact g6)⟩
  | succ h ih =>
    obtain ⟨fuel, rfl⟩ := Nat.exists_eq_add_of_lt (Nat.lt_of_le_of_lt (Nat.zero_le _) hf)
    rw [Nat.zero_add, insert]
    have hleaf := hr.leaf
    obtain ⟨el, ps, hsh, hc, rfl⟩ := hr
    rcases search_inner cmp k hsh hs with ⟨e1, e, e2, p1, p, q, p2, h1, rfl, rfl, hl, hk⟩ | ⟨e1, e2, p1, p, p2, h1, rfl, rfl, hl, hb, ha⟩
    · obtain ⟨n', g1, g2⟩ := replaceValueAt_eq hsh rfl v
      simp only [h1, Option.bind_eq_bind, Option.bind_some, g1]
      have hj : ∀ x : K × V, join (e1 ++ x :: e2) (p1 ++ p :: q :: p2) = (left e1 p1 ++ p.2) ++ x :: (q.2 ++ right e2 p2) := by
        intro x
        rw [join_split _ _ _ _ _ hl, right]; simp
      refine ⟨_, _, rfl, .replace (left e1 p1 ++ p.2) (q.2 ++ right e2 p2) e.1 e.2 n' (hj _) hk ⟨_, _, g2, hc, (hj _).symm⟩ ?_⟩
      rw [g2.length, hsh.length]; simp
    · rw [List.map_append, List.map_cons] at hsh
      have hp := hc p (by simp)
      have hj := join_split e1 e2 p1 p p2 hl
      rw [hj] at hs
      simp only [h1, Option.bind_eq_bind, Option.bind_some, hleaf, edgeAt_eq hsh (i := e1.length) (by simp [hl])]
      obtain ⟨r, child, g1, g2⟩ := ih hp.1 (Sorted.parts cmp (Sorted.parts cmp hs).2.1).1 (fuel := fuel) (by omega)
      obtain ⟨n1, f1, f2⟩ := setEdge_eq hsh (i := e1.length) (by simp [hl]) child
      have hbel : ∀ {a}, Below cmp k a → Below cmp k (left e1 p1 ++ a) := fun h x hx => by
        rcases List.mem_append.1 hx with hx | hx
        · exact hb x hx
        · exact h x hx
      have habo : ∀ {a}, Above cmp k a → Above cmp k (a ++ right e2 p2) := fun h x hx => by
        rcases List.mem_append.1 hx with hx | hx
        · exact h x hx
        · exact ha x hx
      simp only [g1, Option.bind_some, f1]
      cases g2 with
      | replace a b k' w n' he hkc hrr hll =>
        refine ⟨_, _, rfl, .replace (left e1 p1 ++ a) (b ++ right e2 p2) k' w n1 (by rw [hj, he]; simp) hkc
          ⟨_, p1 ++ (child, a ++ (k', v) :: b) :: p2, by simpa using f2, replace_child hc ⟨hrr, by show 5 ≤ child.length; omega⟩, ?_⟩ (by rw [f2.length, hsh.length])⟩
        rw [join_split _ _ _ _ _ hl]; simp
      | fit a b n' he hba hab hrr hll =>
        refine ⟨_, _, rfl, .fit (left e1 p1 ++ a) (b ++ right e2 p2) n1 (by rw [hj, he]; simp) (hbel hba) (habo hab)
          ⟨_, p1 ++ (child, a ++ (k, v) :: b) :: p2, by simpa using f2, replace_child hc ⟨hrr, by show 5 ≤ child.length; omega⟩, ?_⟩ (by rw [f2.length, hsh.length]; exact Nat.le_refl _)⟩
        rw [join_split _ _ _ _ _ hl]; simp
      | split a b m l1 l2 r n' he hba hab hm hr1 hr2 hl1 hl2 =>
        have f2' : Shape n1 (e1 ++ e2) (some ((p1.map Prod.fst ++ [child]) ++ p2.map Prod.fst)) := by simpa using f2
        have hall : ∀ y ∈ p1 ++ (child, l1) :: (r, l2) :: p2, Rep h y.1 y.2 ∧ 5 ≤ y.1.length := by
          intro y hy
          simp only [List.mem_append, List.mem_cons] at hy
          rcases hy with hy | rfl | rfl | hy
          · exact hc y (by simp [hy])
          · exact ⟨hr1, hl1⟩
          · exact ⟨hr2, hl2⟩
          · exact hc y (by simp [hy])
        have hjj : join (e1 ++ m :: e2) (p1 ++ (child, l1) :: (r, l2) :: p2) = (left e1 p1 ++ a) ++ (k, v) :: (b ++ right e2 p2) := by
          rw [join_split _ _ _ _ _ hl]
          have := congrArg (· ++ right e2 p2) hm
          simp only [List.append_assoc, List.cons_append] at this
          rw [List.append_assoc, this]; rfl
        rcases insertAt_inner f2' (i := e1.length) rfl (by simp [hl]) m.1 m.2 r with ⟨n2, t1, t2⟩ | ⟨m', r', n2, g1, g2, d1, d2, t1, t2, t3, t4, t5, t6, t7, t8⟩
        · refine ⟨_, _, t1, .fit (left e1 p1 ++ a) (b ++ right e2 p2) n2 (by rw [hj, he]; simp) (hbel hba) (habo hab)
            ⟨_, p1 ++ (child, l1) :: (r, l2) :: p2, by simpa using t2, hall, hjj.symm⟩ (by rw [t2.length, hsh.length]; simp)⟩
        · have t3' : (p1 ++ (child, l1) :: (r, l2) :: p2).map Prod.fst = d1 ++ d2 := by rw [← t3]; simp
          obtain ⟨q1, q2, hq, rfl, rfl⟩ := List.map_eq_append_iff.1 t3'
          have hd2 : q2 ≠ [] := by
            rintro rfl
            obtain ⟨-, -, -, hh⟩ := t6.children
            simp at hh
          rw [hq] at hall hjj
          rw [t2, join_append _ _ _ _ _ (by simpa using t4) hd2] at hjj
          exact ⟨_, _, t1, .split (left e1 p1 ++ a) (b ++ right e2 p2) m' (join g1 q1) (join g2 q2) r' n2 (by rw [hj, he]; simp) (hbel hba) (habo hab) hjj.symm
            ⟨_, q1, t5, fun y hy => hall y (by simp [hy]), rfl⟩ ⟨_, q2, t6, fun y hy => hall y (by simp [hy]), rfl⟩
            (by rw [t5.length]; exact t7) (by rw [t6.length]; exact t8)⟩

end

end Verif.BTree
