import Verif.BTree.Insert

/-! # Removal -/
namespace Verif.BTree
open Std (TransCmp OrientedCmp)

variable {K V : Type}

theorem others {P : Node K V × List (K × V) → Prop} {p1 p p2} (hc : ∀ q ∈ p1 ++ p :: p2, P q) : ∀ q ∈ p1 ++ p2, P q := by
  intro q hq
  simp only [List.mem_append] at hq
  rcases hq with hq | hq
  · exact hc q (by simp [hq])
  · exact hc q (by simp [hq])

theorem removeSmallest_spec {h : Nat} {n : Node K V} {es} (hr : Rep h n es) (hne : 1 ≤ n.length) {fuel : Nat} (hf : h < fuel) :
    ∃ e t n', removeSmallest fuel n = some (e, n') ∧ es = e :: t ∧ Rep h n' t ∧ n.length ≤ n'.length + 1 := by
  induction h generalizing n es fuel with
  | zero =>
    obtain ⟨fuel, rfl⟩ := Nat.exists_eq_add_of_lt hf
    rw [Nat.zero_add, removeSmallest, hr.leaf]
    have hl := Shape.length hr
    cases es with
    | nil => simp at hl; omega
    | cons e t =>
      obtain ⟨n', g1, g2⟩ := leafRemoveAt_eq (e1 := []) hr (i := 0) rfl
      exact ⟨e, t, n', g1, rfl, g2, by rw [hl, g2.length]; simp⟩
  | succ h ih =>
    obtain ⟨fuel, rfl⟩ := Nat.exists_eq_add_of_lt (Nat.lt_of_le_of_lt (Nat.zero_le _) hf)
    rw [Nat.zero_add, removeSmallest, hr.leaf]
    obtain ⟨el, ps, hsh, hc, rfl⟩ := hr
    have hlen := children_length hsh
    have hl := hsh.length
    match ps, hlen with
    | p :: ps, hlen =>
      have hp := hc p (by simp)
      obtain ⟨e, t, child, g1, g2, g3, g4⟩ := ih hp.1 (by omega) (fuel := fuel) (by omega)
      have g5 := edgeAt_eq (c1 := []) (c := p.1) (c2 := ps.map Prod.fst) hsh (i := 0) rfl
      obtain ⟨n1, f1, f2⟩ := setEdge_eq (c1 := []) (c := p.1) (c2 := ps.map Prod.fst) hsh (i := 0) rfl child
      have f2' : Shape n1 el (some (([] ++ (child, t) :: ps).map Prod.fst)) := by simpa using f2
      obtain ⟨n', k1, k2, k3⟩ := checkUnderflow_spec (h := h) f2' (others (p1 := []) (by simpa using hc)) g3 (show 4 ≤ child.length by omega) (by omega) (i := 0) rfl
      refine ⟨e, t ++ right el ps, n', ?_, by simp [join, g2], by simpa [join] using k2, by omega⟩
      simp only [Option.bind_eq_bind, g5, Option.bind_some, g1, f1, k1]
      rfl

theorem removeLargest_spec {h : Nat} {n : Node K V} {es} (hr : Rep h n es) (hne : 1 ≤ n.length) {fuel : Nat} (hf : h < fuel) :
    ∃ e t n', removeLargest fuel n = some (e, n') ∧ es = t ++ [e] ∧ Rep h n' t ∧ n.length ≤ n'.length + 1 := by
  induction h generalizing n es fuel with
  | zero =>
    obtain ⟨fuel, rfl⟩ := Nat.exists_eq_add_of_lt hf
    rw [Nat.zero_add, removeLargest, hr.leaf]
    have hl := Shape.length hr
    rcases List.eq_nil_or_concat es with rfl | ⟨t, e, rfl⟩
    · simp at hl; omega
    · rw [List.concat_eq_append] at hr hl ⊢
      have hsub : sub n.length 1 = some t.length := by
        rw [hl, sub, if_pos (by simp)]; simp
      obtain ⟨n', g1, g2⟩ := leafRemoveAt_eq (e1 := t) (e2 := []) hr (i := t.length) rfl
      rw [List.append_nil] at g2
      refine ⟨e, t, n', ?_, rfl, g2, by rw [hl, g2.length]; simp⟩
      simp only [Option.bind_eq_bind, hsub, Option.bind_some]
      exact g1
  | succ h ih =>
    obtain ⟨fuel, rfl⟩ := Nat.exists_eq_add_of_lt (Nat.lt_of_le_of_lt (Nat.zero_le _) hf)
    rw [Nat.zero_add, removeLargest, hr.leaf]
    obtain ⟨el, ps, hsh, hc, rfl⟩ := hr
    have hlen := children_length hsh
    have hn := hsh.length
    rcases List.eq_nil_or_concat ps with rfl | ⟨ps, p, rfl⟩
    · simp at hlen
    · rw [List.concat_eq_append] at *
      have hp := hc p (by simp)
      obtain ⟨e, t, child, g1, g2, g3, g4⟩ := ih hp.1 (by omega) (fuel := fuel) (by omega)
      have hl : ps.length = el.length := by simpa using hlen
      have hsh' : Shape n el (some (ps.map Prod.fst ++ p.1 :: [])) := by simpa using hsh
      have g5 := edgeAt_eq hsh' (i := n.length) (by rw [hn]; simp [hl])
      obtain ⟨n1, f1, f2⟩ := setEdge_eq hsh' (i := n.length) (by rw [hn]; simp [hl]) child
      have f2' : Shape n1 el (some ((ps ++ (child, t) :: []).map Prod.fst)) := by simpa using f2
      have hn1 : n1.length = n.length := by rw [f2.length, hn]
      obtain ⟨n', k1, k2, k3⟩ := checkUnderflow_spec (h := h) f2' (others hc) g3 (show 4 ≤ child.length by omega) (by omega) (i := n.length) (by rw [hn, hl])
      have hj : ∀ q : Node K V × List (K × V), join el (ps ++ [q]) = left el ps ++ q.2 := by
        intro q
        have := join_split el [] ps q [] hl
        rw [List.append_nil] at this
        simpa [right] using this
      rw [hj] at k2
      refine ⟨e, left el ps ++ t, n', ?_, by rw [hj, g2]; simp, k2, by omega⟩
      simp only [Option.bind_eq_bind, g5, Option.bind_some, g1, f1, hn1, k1]
      rfl

variable (cmp : K → K → Ordering)

/-- What a removal must give. -/
inductive RemoveOk (k : K) (h : Nat) (n : Node K V) (es : List (K × V)) : Option (K × V) → Node K V → Prop
  | absent (n') (hk : ∀ e ∈ es, cmp k e.1 ≠ .eq) (hr : Rep h n' es) (hl : n'.length = n.length) : RemoveOk k h n es none n'
  | removed (a e b n') (he : es = a ++ e :: b) (hk : cmp k e.1 = .eq) (hr : Rep h n' (a ++ b)) (hl : n.length ≤ n'.length + 1) : RemoveOk k h n es (some e) n'

variable [TransCmp cmp]

theorem remove_spec (k : K) {h : Nat} {n : Node K V} {es} (hr : Rep h n es) (hs : Sorted cmp es) (hne : h = 0 ∨ 1 ≤ n.length) {fuel : Nat} (hf : h < fuel) :
    ∃ r n', remove cmp fuel k n = some (r, n') ∧ RemoveOk cmp k h n es r n' := by
  induction h generalizing n es fuel with
  | zero =>
    obtain ⟨fuel, rfl⟩ := Nat.exists_eq_add_of_lt hf
    rw [Nat.zero_add, remove]
    rcases search_leaf cmp k hr hs with ⟨e1, e, e2, h1, rfl, hc⟩ | ⟨e1, e2, h1, rfl, hb, ha⟩
    · obtain ⟨n', g1, g2⟩ := leafRemoveAt_eq (show Shape n (e1 ++ e :: e2) none from hr) rfl
      simp only [h1, Option.bind_eq_bind, Option.bind_some, g1, hr.leaf]
      refine ⟨_, _, rfl, .removed e1 e e2 n' rfl hc g2 ?_⟩
      rw [g2.length, Shape.length hr]; simp; omega
    · simp only [h1, Option.bind_eq_bind, Option.bind_some, hr.leaf]
      refine ⟨_, _, rfl, .absent n (fun e he => ?_) hr rfl⟩
      rcases List.mem_append.1 he with he | he
      · exact ne_of_below cmp hb e he
      · exact ne_of_above cmp ha e he
  | succ h ih =>
    obtain ⟨fuel, rfl⟩ := Nat.exists_eq_add_of_lt (Nat.lt_of_le_of_lt (Nat.zero_le _) hf)
    rw [Nat.zero_add, remove]
    have hleaf := hr.leaf
    obtain ⟨el, ps, hsh, hc, rfl⟩ := hr
    have hn := hsh.length
    have hne : 1 ≤ n.length := by rcases hne with hne | hne; cases hne; exact hne
    rcases search_inner cmp k hsh hs with ⟨e1, e, e2, p1, p, q, p2, h1, rfl, rfl, hl, hk⟩ | ⟨e1, e2, p1, p, p2, h1, rfl, rfl, hl, hb, ha⟩
    · have hq := hc q (by simp)
      have hsh' : Shape n (e1 ++ e :: e2) (some ((p1.map Prod.fst ++ [p.1]) ++ q.1 :: p2.map Prod.fst)) := by simpa using hsh
      obtain ⟨x, t, child, g1, g2, g3, g4⟩ := removeSmallest_spec hq.1 (by omega) (fuel := fuel) (by omega)
      have g5 := edgeAt_eq hsh' (i := e1.length + 1) (by simp [hl])
      obtain ⟨n1, f1, f2⟩ := setEdge_eq hsh' (i := e1.length + 1) (by simp [hl]) child
      obtain ⟨n2, f3, f4⟩ := replaceElemAt_eq f2 (i := e1.length) rfl x
      have f4' : Shape n2 (e1 ++ x :: e2) (some (((p1 ++ [p]) ++ (child, t) :: p2).map Prod.fst)) := by simpa using f4
      obtain ⟨n', k1, k2, k3⟩ := checkUnderflow_spec (h := h) f4' (others (p := q) (by simpa using hc)) g3 (show 4 ≤ child.length by omega) (by simp; omega)
        (i := e1.length + 1) (by simp [hl])
      simp only [h1, Option.bind_eq_bind, Option.bind_some, hleaf, g1, g5, f1, f3, k1]
      have hj : join (e1 ++ e :: e2) (p1 ++ p :: q :: p2) = (left e1 p1 ++ p.2) ++ e :: (q.2 ++ right e2 p2) := by
        rw [join_split _ _ _ _ _ hl, right]; simp
      refine ⟨_, _, rfl, .removed (left e1 p1 ++ p.2) e (q.2 ++ right e2 p2) n' hj hk ?_ (by rw [hn]; simpa using k3)⟩
      rw [show p1 ++ [p] ++ (child, t) :: p2 = p1 ++ p :: (child, t) :: p2 by simp, join_split _ _ _ _ _ hl, right] at k2
      rw [g2]; simpa using k2
    · rw [List.map_append, List.map_cons] at hsh
      have hp := hc p (by simp)
      have hj := join_split e1 e2 p1 p p2 hl
      rw [hj] at hs
      simp only [h1, Option.bind_eq_bind, Option.bind_some, hleaf, edgeAt_eq hsh (i := e1.length) (by simp [hl])]
      obtain ⟨r, child, g1, g2⟩ := ih hp.1 (Sorted.parts cmp (Sorted.parts cmp hs).2.1).1 (.inr (by omega)) (fuel := fuel) (by omega)
      obtain ⟨n1, f1, f2⟩ := setEdge_eq hsh (i := e1.length) (by simp [hl]) child
      simp only [g1, Option.bind_some, f1]
      cases g2 with
      | absent _ hk hrr hll =>
        refine ⟨_, _, rfl, .absent n1 (fun x hx => ?_) ⟨_, p1 ++ (child, p.2) :: p2, by simpa using f2, replace_child hc ⟨hrr, by show 5 ≤ child.length; omega⟩, ?_⟩
          (by rw [f2.length, hn])⟩
        · rw [hj] at hx
          simp only [List.mem_append] at hx
          rcases hx with hx | hx | hx
          · exact ne_of_below cmp hb x hx
          · exact hk x hx
          · exact ne_of_above cmp ha x hx
        · rw [hj, join_split _ _ _ _ _ hl]
      | removed a e b _ he hk hrr hll =>
        have f2' : Shape n1 (e1 ++ e2) (some ((p1 ++ (child, a ++ b) :: p2).map Prod.fst)) := by simpa using f2
        obtain ⟨n', k1, k2, k3⟩ := checkUnderflow_spec (h := h) f2' (others hc) hrr (show 4 ≤ child.length by omega) (by omega) (i := e1.length) hl.symm
        simp only [k1, Option.bind_some]
        refine ⟨_, _, rfl, .removed (left e1 p1 ++ a) e (b ++ right e2 p2) n' (by rw [hj, he]; simp) hk ?_ (by rw [hn]; exact k3)⟩
        rw [join_split _ _ _ _ _ hl] at k2
        simpa using k2

/-! ## The root -/

/-- A root: one with children has an element. -/
structure Root (h : Nat) (n : Node K V) (es : List (K × V)) : Prop where
  rep : Rep h n es
  some_elem : h = 0 ∨ 1 ≤ n.length

omit [TransCmp cmp] in
theorem simplifyRoot_spec {h : Nat} {n : Node K V} {es} (hr : Rep h n es) : ∃ n' h', simplifyRoot n = some n' ∧ Root h' n' es ∧ h' ≤ h := by
  have hleaf := hr.leaf
  cases h with
  | zero =>
    refine ⟨n, 0, ?_, ⟨hr, .inl rfl⟩, Nat.le_refl _⟩
    have he := Shape.no_edges hr
    cases n with
    | mk l a b e => subst he; cases l <;> rfl
  | succ h =>
    by_cases hn : n.length = 0
    · obtain ⟨el, ps, hsh, hc, rfl⟩ := hr
      have hlen := children_length hsh
      have hel : el = [] := List.length_eq_zero_iff.1 (by rw [← hsh.length, hn])
      subst hel
      match ps, hlen with
      | [p], _ =>
        have hp := hc p (by simp)
        refine ⟨p.1, h, ?_, ⟨by simpa [join, right] using hp.1, .inr (by omega)⟩, by omega⟩
        obtain ⟨a, g1, g2, -⟩ := hsh.children
        have g3 := load_holds (xs := []) g2 (i := 0) rfl
        cases n with
        | mk l k v e =>
          have hl : l = 0 := hn
          have he : e = some a := g1
          subst hl he
          exact g3
    · refine ⟨n, h + 1, ?_, ⟨hr, .inr (by omega)⟩, Nat.le_refl _⟩
      cases n with
      | mk l a b e =>
        cases l with
        | zero => exact absurd rfl hn
        | succ l => rfl

omit [TransCmp cmp] in
theorem Root.nonempty {h} {n : Node K V} {es} (hr : Root h n es) : es ≠ [] ↔ 1 ≤ n.length := by
  constructor
  · intro hne
    rcases hr.some_elem with h0 | h1
    · subst h0
      rw [Shape.length hr.rep]
      exact List.length_pos_iff.2 hne
    · exact h1
  · intro h1 he
    obtain ⟨e, t, -, h2⟩ := getMin_spec hr.rep h1 (Nat.lt_succ_self h)
    rw [he] at h2; cases h2

/-! ## The height -/

omit [TransCmp cmp] in
/-- A node below the root, at the height `h`, holds at least `6^(h + 1) - 1` elements. -/
theorem rep_size {h} {n : Node K V} {es} (hr : Rep h n es) : (n.length + 1) * 6 ^ h ≤ es.length + 1 := by
  induction h generalizing n es with
  | zero => rw [Shape.length hr]; simp
  | succ h ih =>
    obtain ⟨el, ps, hsh, hc, rfl⟩ := hr
    rw [hsh.length]
    have hlen := children_length hsh
    clear hsh
    have hmain : ∀ (el : List (K × V)) (ps : List (Node K V × List (K × V))), ps.length = el.length → (∀ p ∈ ps, Rep h p.1 p.2 ∧ 5 ≤ p.1.length) →
        el.length * 6 ^ (h + 1) ≤ (right el ps).length := by
      intro el
      induction el with
      | nil => intro ps _ _; simp
      | cons e el ihe =>
        intro ps hl hc
        match ps, hl with
        | p :: ps, hl =>
          have h1 := ihe ps (by simpa using hl) (fun q hq => hc q (by simp [hq]))
          have hp := hc p (by simp)
          have h2 := ih hp.1
          have h3 : 6 * 6 ^ h ≤ (p.1.length + 1) * 6 ^ h := Nat.mul_le_mul_right _ (by omega)
          rw [right, List.length_cons, List.length_cons, List.length_append, Nat.succ_mul]
          rw [Nat.pow_succ] at *
          omega
    match ps, hlen with
    | p :: ps, hlen =>
      have h1 := hmain el ps (by simpa using hlen) (fun q hq => hc q (by simp [hq]))
      have hp := hc p (by simp)
      have h2 := ih hp.1
      have h3 : 6 * 6 ^ h ≤ (p.1.length + 1) * 6 ^ h := Nat.mul_le_mul_right _ (by omega)
      rw [join, List.length_append, Nat.succ_mul]
      rw [Nat.pow_succ] at *
      omega

end Verif.BTree
