import Verif.BTree.Steal

/-! # Trees that hold a list of elements, in order -/
namespace Verif.BTree

variable {K V : Type}

/-- Elements each with what is in the child on its right. -/
def right : List (K × V) → List (Node K V × List (K × V)) → List (K × V)
  | e :: el, p :: ps => e :: (p.2 ++ right el ps)
  | _, _ => []

/-- Elements each with what is in the child on its left. -/
def left : List (K × V) → List (Node K V × List (K × V)) → List (K × V)
  | e :: el, p :: ps => p.2 ++ e :: left el ps
  | _, _ => []

/-- What is in the children, with the elements between them. -/
def join (el : List (K × V)) : List (Node K V × List (K × V)) → List (K × V)
  | [] => []
  | p :: ps => p.2 ++ right el ps

theorem right_cons (e : K × V) (el) {ps : List (Node K V × List (K × V))} (h : ps ≠ []) : right (e :: el) ps = e :: join el ps := by
  cases ps with
  | nil => exact absurd rfl h
  | cons p ps => rfl

theorem join_split (e1 e2 : List (K × V)) (p1 : List (Node K V × List (K × V))) (p p2) (h : p1.length = e1.length) :
    join (e1 ++ e2) (p1 ++ p :: p2) = left e1 p1 ++ (p.2 ++ right e2 p2) := by
  induction e1 generalizing p1 with
  | nil =>
    have : p1 = [] := List.length_eq_zero_iff.1 h
    subst this; rfl
  | cons e e1 ih =>
    cases p1 with
    | nil => simp at h
    | cons q p1 =>
      rw [List.cons_append, List.cons_append, join, right_cons _ _ (by simp), ih p1 (by simpa using h), left]
      simp

theorem join_append (e1 : List (K × V)) (m e2) (p1 p2 : List (Node K V × List (K × V))) (h : p1.length = e1.length + 1) (h2 : p2 ≠ []) :
    join (e1 ++ m :: e2) (p1 ++ p2) = join e1 p1 ++ m :: join e2 p2 := by
  induction e1 generalizing p1 with
  | nil =>
    match p1, h with
    | [p], _ =>
      rw [List.nil_append, List.singleton_append, join, right_cons _ _ h2]
      simp [join, right]
  | cons e e1 ih =>
    cases p1 with
    | nil => simp at h
    | cons q p1 =>
      have hp1 : p1 ≠ [] := by rintro rfl; simp at h
      rw [List.cons_append, List.cons_append, join, right_cons _ _ (by simp [hp1]), ih p1 (by simpa using h), join, right_cons _ _ hp1]
      simp

theorem left_mem {e1 : List (K × V)} {p1 : List (Node K V × List (K × V))} (h : p1.length = e1.length) {x} (hx : x ∈ e1) : x ∈ left e1 p1 := by
  induction e1 generalizing p1 with
  | nil => cases hx
  | cons e e1 ih =>
    cases p1 with
    | nil => simp at h
    | cons q p1 =>
      rw [left]
      rcases List.mem_cons.1 hx with rfl | hx
      · simp
      · simp [ih (by simpa using h) hx]

theorem left_append (e1 : List (K × V)) (e) (p1 : List (Node K V × List (K × V))) (p) (h : p1.length = e1.length) :
    left (e1 ++ [e]) (p1 ++ [p]) = left e1 p1 ++ (p.2 ++ [e]) := by
  induction e1 generalizing p1 with
  | nil =>
    have : p1 = [] := List.length_eq_zero_iff.1 h
    subst this; rfl
  | cons x e1 ih =>
    cases p1 with
    | nil => simp at h
    | cons q p1 =>
      rw [List.cons_append, List.cons_append, left, ih p1 (by simpa using h), left]
      simp

/-- `Rep h n es`: the node, at the height `h`, holds `es` in order; each child has at least 5 elements. -/
def Rep : Nat → Node K V → List (K × V) → Prop
  | 0, n, es => Shape n es none
  | h + 1, n, es => ∃ el, ∃ ps : List (Node K V × List (K × V)), Shape n el (some (ps.map Prod.fst)) ∧ (∀ p ∈ ps, Rep h p.1 p.2 ∧ 5 ≤ p.1.length) ∧
      es = join el ps

theorem Rep.leaf {h} {n : Node K V} {es} (hr : Rep h n es) : n.leaf = (h == 0) := by
  cases h with
  | zero => rw [Shape.leaf hr]; rfl
  | succ h =>
    obtain ⟨el, ps, hs, -, -⟩ := hr
    rw [hs.leaf]; rfl

theorem Rep.max {h} {n : Node K V} {es} (hr : Rep h n es) : n.length ≤ 11 := by
  cases h with
  | zero => rw [Shape.length hr]; exact Shape.le hr
  | succ h =>
    obtain ⟨el, ps, hs, -, -⟩ := hr
    rw [hs.length]; exact hs.le

theorem children_length {n : Node K V} {el} {ps : List (Node K V × List (K × V))} (h : Shape n el (some (ps.map Prod.fst))) :
    ps.length = el.length + 1 := by
  obtain ⟨a, -, -, h3⟩ := h.children
  simpa using h3

/-! ## Siblings -/

theorem rep_moveLeft {h} {l r : Node K V} {lf rf} (hl : Rep h l lf) (hr : Rep h r rf) (hne : 1 ≤ r.length) :
    ∃ le x re lcs rcs lcs' rcs', Shape l le lcs ∧ Shape r (x :: re) rcs ∧ MoveLeft lcs rcs lcs' rcs' ∧
      ∀ m l' r', Shape l' (le ++ [m]) lcs' → Shape r' re rcs' → ∃ lf' rf', Rep h l' lf' ∧ Rep h r' rf' ∧ lf ++ m :: rf = lf' ++ x :: rf' := by
  cases h with
  | zero =>
    cases rf with
    | nil => have := Shape.length hr; simp at this; omega
    | cons x re =>
      exact ⟨lf, x, re, none, none, none, none, hl, hr, .leaf, fun m l' r' h1 h2 => ⟨_, _, h1, h2, by simp⟩⟩
  | succ h =>
    obtain ⟨el, ps, hs, hc, rfl⟩ := hl
    obtain ⟨el', ps', hs', hc', rfl⟩ := hr
    have hlen := children_length hs
    have hlen' := children_length hs'
    cases el' with
    | nil => have := hs'.length; simp at this; omega
    | cons x re =>
      match ps', hlen' with
      | p :: q :: ps', hlen' =>
        refine ⟨el, x, re, _, _, _, _, hs, hs', .inner _ _ _, fun m l' r' h1 h2 => ?_⟩
        refine ⟨join (el ++ [m]) (ps ++ [p]), join re (q :: ps'), ⟨_, ps ++ [p], by simpa using h1, ?_, rfl⟩, ⟨_, q :: ps', by simpa using h2, ?_, rfl⟩, ?_⟩
        · intro y hy
          rcases List.mem_append.1 hy with hy | hy
          · exact hc y hy
          · exact hc' y (by rw [List.mem_singleton.1 hy]; exact List.mem_cons_self)
        · exact fun y hy => hc' y (List.mem_cons_of_mem _ hy)
        · rw [join_append _ _ _ _ _ hlen (by simp), join, right_cons _ _ (by simp)]
          simp [join, right]

theorem rep_moveRight {h} {l r : Node K V} {lf rf} (hl : Rep h l lf) (hr : Rep h r rf) (hne : 1 ≤ l.length) :
    ∃ le x re lcs rcs lcs' rcs', Shape l (le ++ [x]) lcs ∧ Shape r re rcs ∧ MoveRight lcs rcs lcs' rcs' ∧
      ∀ m l' r', Shape l' le lcs' → Shape r' (m :: re) rcs' → ∃ lf' rf', Rep h l' lf' ∧ Rep h r' rf' ∧ lf ++ m :: rf = lf' ++ x :: rf' := by
  cases h with
  | zero =>
    rcases List.eq_nil_or_concat lf with rfl | ⟨le, x, rfl⟩
    · have := Shape.length hl; simp at this; omega
    · refine ⟨le, x, rf, none, none, none, none, by rw [List.concat_eq_append] at hl; exact hl, hr, .leaf, fun m l' r' h1 h2 => ⟨_, _, h1, h2, by simp⟩⟩
  | succ h =>
    obtain ⟨el, ps, hs, hc, rfl⟩ := hl
    obtain ⟨el', ps', hs', hc', rfl⟩ := hr
    have hlen := children_length hs
    have hlen' := children_length hs'
    rcases List.eq_nil_or_concat el with rfl | ⟨le, x, rfl⟩
    · have := hs.length; simp at this; omega
    · rcases List.eq_nil_or_concat ps with rfl | ⟨ps, p, rfl⟩
      · simp at hlen
      · rw [List.concat_eq_append] at *
        rw [List.concat_eq_append, List.map_append] at hs
        have hps : ps.length = le.length + 1 := by simpa using hlen
        refine ⟨le, x, el', _, _, _, _, hs, hs', .inner _ _ _, fun m l' r' h1 h2 => ?_⟩
        refine ⟨join le ps, join (m :: el') (p :: ps'), ⟨_, ps, h1, ?_, rfl⟩, ⟨_, p :: ps', by simpa using h2, ?_, rfl⟩, ?_⟩
        · exact fun y hy => hc y (by simp [hy])
        · intro y hy
          rcases List.mem_cons.1 hy with rfl | hy
          · exact hc y (by simp)
          · exact hc' y hy
        · have hp' : ps' ≠ [] := by rintro rfl; simp at hlen'
          rw [List.concat_eq_append, join_append _ _ _ _ _ hps (by simp)]
          rw [show join (m :: el') (p :: ps') = p.2 ++ right (m :: el') ps' from rfl, right_cons _ _ hp']
          simp [join, right]

theorem rep_merge {h} {l r : Node K V} {lf rf} (hl : Rep h l lf) (hr : Rep h r rf) :
    ∃ le re lcs rcs cs, Shape l le lcs ∧ Shape r re rcs ∧ Merged lcs rcs cs ∧ ∀ m l', Shape l' (le ++ m :: re) cs → Rep h l' (lf ++ m :: rf) := by
  cases h with
  | zero => exact ⟨lf, rf, none, none, none, hl, hr, .leaf, fun m l' h => h⟩
  | succ h =>
    obtain ⟨el, ps, hs, hc, rfl⟩ := hl
    obtain ⟨el', ps', hs', hc', rfl⟩ := hr
    have hlen := children_length hs
    have hlen' := children_length hs'
    refine ⟨el, el', _, _, _, hs, hs', .inner _ _, fun m l' h1 => ⟨_, ps ++ ps', by simpa using h1, ?_, ?_⟩⟩
    · intro y hy
      rcases List.mem_append.1 hy with hy | hy
      · exact hc y hy
      · exact hc' y hy
    · rw [join_append _ _ _ _ _ hlen (by rintro rfl; simp at hlen')]

/-! ## Underflow -/

theorem Rep.length_shape {h} {n : Node K V} {es} (hr : Rep h n es) {el cs} (hs : Shape n el cs) : n.length = el.length := hs.length

/-- One child may have one element too few; after the check each has enough, and the node has lost one element at most. -/
theorem checkUnderflow_spec {h} {n : Node K V} {el p1 p p2} (hs : Shape n el (some ((p1 ++ p :: p2).map Prod.fst)))
    (hc : ∀ q ∈ p1 ++ p2, Rep h q.1 q.2 ∧ 5 ≤ q.1.length) (hp : Rep h p.1 p.2) (hpl : 4 ≤ p.1.length) (h1 : 1 ≤ el.length) {i : Nat} (hi : i = p1.length) :
    ∃ n', checkUnderflow i n = some n' ∧ Rep (h + 1) n' (join el (p1 ++ p :: p2)) ∧ el.length ≤ n'.length + 1 := by
  have hlen := children_length hs
  by_cases h5 : 5 ≤ p.1.length
  · -- nothing to do
    have hrep : Rep (h + 1) n (join el (p1 ++ p :: p2)) := by
      refine ⟨el, _, hs, ?_, rfl⟩
      intro q hq
      by_cases hqp : q = p
      · subst hqp; exact ⟨hp, h5⟩
      · refine hc q ?_
        simp only [List.mem_append, List.mem_cons] at hq ⊢
        rcases hq with hq | hq | hq
        · exact .inl hq
        · exact absurd hq hqp
        · exact .inr hq
    refine ⟨n, ?_, hrep, by rw [hs.length]; omega⟩
    rw [checkUnderflow]
    cases p1 with
    | nil =>
      subst hi
      match p2, hlen with
      | [], hlen => simp only [List.nil_append, List.length_cons, List.length_nil] at hlen; omega
      | q :: p2, hlen =>
        rw [if_pos (by rfl), checkUnderflowRight]
        have hs' := hs
        simp only [List.nil_append, List.map_cons] at hs hs'
        have e1 := edgeAt_eq (c1 := []) hs (i := 0) rfl
        have e2 := edgeAt_eq (c1 := [p.1]) hs' (i := 0 + 1) rfl
        simp only [List.length_nil, assert, e1, e2, Option.bind_eq_bind, Option.bind_some]
        rw [if_pos (by rw [hs.length]; exact bne_iff_ne.2 (Nat.ne_of_lt h1)), Option.bind_some, if_pos (c := minElems ≤ p.1.length) h5]; rfl
    | cons q0 p1 =>
      rw [if_neg (by simp [hi]), checkUnderflowLeft]
      rcases List.eq_nil_or_concat (q0 :: p1) with hnil | ⟨p1', q, hq⟩
      · cases hnil
      · rw [hq, List.concat_eq_append] at hs hi
        have hs' := hs
        rw [List.map_append, List.map_cons] at hs
        simp only [List.map_append, List.map_cons, List.map_nil, List.append_assoc, List.singleton_append] at hs'
        have e1 := edgeAt_eq hs (i := i) (by simpa using hi)
        have e2 := edgeAt_eq hs' (i := i - 1) (by simp [hi])
        simp only [assert, e1, e2, Option.bind_eq_bind, Option.bind_some]
        rw [if_pos (by simp [hi]), Option.bind_some, if_pos (c := minElems ≤ p.1.length) h5]; rfl
  · cases p1 with
    | nil =>
      subst hi
      match p2, el, hlen, h1 with
      | [], el, hlen, h1 => simp only [List.nil_append, List.length_cons, List.length_nil] at hlen; omega
      | q :: p2, m :: el, hlen, h1 =>
        have hq := hc q (by simp)
        rw [checkUnderflow, if_pos (by rfl), checkUnderflowRight]
        have hs0 := hs
        simp only [List.nil_append, List.map_cons] at hs
        have e1 := edgeAt_eq (c1 := []) hs (i := 0) rfl
        have e2 := edgeAt_eq (c1 := [p.1]) hs (i := 0 + 1) rfl
        simp only [List.length_nil, assert, e1, e2, Option.bind_eq_bind, Option.bind_some]
        rw [if_pos (by rw [hs.length]; simp), Option.bind_some, if_neg (c := minElems ≤ p.1.length) h5]
        by_cases h6 : 5 < q.1.length
        · rw [if_pos (c := minElems < q.1.length) h6]
          obtain ⟨le, x, re, lcs, rcs, lcs', rcs', g1, g2, g3, g4⟩ := rep_moveLeft hp hq.1 (by omega)
          have gl1 := g1.length
          have gl2 := g2.length
          simp only [List.length_cons] at gl2
          obtain ⟨n', l', r', f1, f2, f3, f4⟩ := stealFromRight_eq (e1 := []) (c1 := []) hs rfl g1 g2 (by omega) (by omega) g3 (i := 0) rfl
          obtain ⟨lf', rf', k1, k2, k3⟩ := g4 m l' r' f3 f4
          refine ⟨n', f1, ⟨x :: el, (l', lf') :: (r', rf') :: p2, by simpa using f2, ?_, ?_⟩, by rw [f2.length]; simp⟩
          · intro y hy
            simp only [List.mem_cons] at hy
            rcases hy with rfl | rfl | hy
            · exact ⟨k1, by show 5 ≤ l'.length; rw [f3.length]; simp; omega⟩
            · exact ⟨k2, by show 5 ≤ r'.length; rw [f4.length]; omega⟩
            · exact hc y (by simp [hy])
          · show p.2 ++ m :: (q.2 ++ right el p2) = lf' ++ x :: (rf' ++ right el p2)
            have := congrArg (· ++ right el p2) k3
            simpa using this
        · rw [if_neg (c := minElems < q.1.length) h6]
          obtain ⟨le, re, lcs, rcs, cs, g1, g2, g3, g4⟩ := rep_merge hp hq.1
          have gl1 := g1.length
          have gl2 := g2.length
          obtain ⟨n', l', f1, f2, f3⟩ := merge_eq (e1 := []) (c1 := []) hs rfl g1 g2 (by omega) g3 (i := 0) rfl
          refine ⟨n', f1, ⟨el, (l', p.2 ++ m :: q.2) :: p2, by simpa using f2, ?_, ?_⟩, by rw [f2.length]; simp⟩
          · intro y hy
            simp only [List.mem_cons] at hy
            rcases hy with rfl | hy
            · exact ⟨g4 m l' f3, by show 5 ≤ l'.length; rw [f3.length]; simp; have := hq.2; omega⟩
            · exact hc y (by simp [hy])
          · simp [join, right]
    | cons q0 p1 =>
      rw [checkUnderflow, if_neg (by simp [hi]), checkUnderflowLeft]
      rcases List.eq_nil_or_concat (q0 :: p1) with hnil | ⟨p1', q, hq'⟩
      · cases hnil
      · rw [hq', List.concat_eq_append] at hs hi hlen hc
        rw [hq', List.concat_eq_append]
        have hq := hc q (by simp)
        have hs0 := hs
        rw [List.map_append, List.map_cons] at hs
        have hi' : i = p1'.length + 1 := by simpa using hi
        obtain ⟨e1, m, e2, rfl, he1⟩ : ∃ e1 m e2, el = e1 ++ m :: e2 ∧ e1.length = p1'.length := by
          have hlt : p1'.length < el.length := by simp at hlen; omega
          exact ⟨el.take p1'.length, el[p1'.length], el.drop (p1'.length + 1), by simp, by simp; omega⟩
        simp only [List.map_append, List.map_cons, List.map_nil, List.append_assoc, List.singleton_append] at hs0
        have g1 := edgeAt_eq hs (i := i) (by simpa using hi)
        have g2 := edgeAt_eq hs0 (i := i - 1) (by simp [hi])
        simp only [assert, g1, g2, Option.bind_eq_bind, Option.bind_some]
        rw [if_pos (by simp [hi]), Option.bind_some, if_neg (c := minElems ≤ p.1.length) h5]
        have hjoin : join (e1 ++ m :: e2) (p1' ++ [q] ++ p :: p2) = left e1 p1' ++ (q.2 ++ m :: (p.2 ++ right e2 p2)) := by
          rw [List.append_assoc, List.singleton_append, join_split _ _ _ _ _ he1.symm]; rfl
        rw [hjoin]
        by_cases h6 : 5 < q.1.length
        · rw [if_pos (c := minElems < q.1.length) h6]
          obtain ⟨le, x, re, lcs, rcs, lcs', rcs', g1, g2, g3, g4⟩ := rep_moveRight hq.1 hp (by omega)
          have gl1 := g1.length
          have gl2 := g2.length
          simp only [List.length_append, List.length_cons, List.length_nil] at gl1
          obtain ⟨n', l', r', f1, f2, f3, f4⟩ := stealFromLeft_eq hs0 (by simp [he1]) g1 g2 (by omega) (by omega) g3 (i := i) (by omega)
          obtain ⟨lf', rf', k1, k2, k3⟩ := g4 m l' r' f3 f4
          refine ⟨n', f1, ⟨e1 ++ x :: e2, p1' ++ (l', lf') :: (r', rf') :: p2, by simpa using f2, ?_, ?_⟩, by rw [f2.length]; simp⟩
          · intro y hy
            simp only [List.mem_append, List.mem_cons] at hy
            rcases hy with hy | rfl | rfl | hy
            · exact hc y (by simp [hy])
            · exact ⟨k1, by show 5 ≤ l'.length; rw [f3.length]; omega⟩
            · exact ⟨k2, by show 5 ≤ r'.length; rw [f4.length]; simp; omega⟩
            · exact hc y (by simp [hy])
          · rw [join_split _ _ _ _ _ he1.symm]
            show left e1 p1' ++ (q.2 ++ m :: (p.2 ++ right e2 p2)) = left e1 p1' ++ (lf' ++ x :: (rf' ++ right e2 p2))
            have := congrArg (· ++ right e2 p2) k3
            simpa using this
        · rw [if_neg (c := minElems < q.1.length) h6]
          obtain ⟨le, re, lcs, rcs, cs, g1, g2, g3, g4⟩ := rep_merge hq.1 hp
          have gl1 := g1.length
          have gl2 := g2.length
          obtain ⟨n', l', f1, f2, f3⟩ := merge_eq hs0 (by simp [he1]) g1 g2 (by omega) g3 (i := i - 1) (by omega)
          refine ⟨n', f1, ⟨e1 ++ e2, p1' ++ (l', q.2 ++ m :: p.2) :: p2, by simpa using f2, ?_, ?_⟩, by rw [f2.length]; simp; omega⟩
          · intro y hy
            simp only [List.mem_append, List.mem_cons] at hy
            rcases hy with hy | rfl | hy
            · exact hc y (by simp [hy])
            · exact ⟨g4 m l' f3, by show 5 ≤ l'.length; rw [f3.length]; simp; have := hq.2; omega⟩
            · exact hc y (by simp [hy])
          · rw [join_split _ _ _ _ _ he1.symm]
            simp

end Verif.BTree
