import Verif.BTree.Remove

/-! # Cursors, copies and comparisons -/
namespace Verif.BTree

variable {K V : Type}

/-- `Frames H lo c rest`: the cursor still has to give `rest`; its nodes are at the heights from `lo` to `H`, the lower ones first. -/
inductive Frames (H : Nat) : Nat → Cursor K V → List (K × V) → Prop
  | nil (lo) (h : lo ≤ H + 1) : Frames H lo [] []
  | leaf (n i e1 e2 c rest) (h : Shape n (e1 ++ e2) none) (hi : i = e1.length) (hc : Frames H 1 c rest) : Frames H 0 ((n, i) :: c) (e2 ++ rest)
  | inner (h n i e1 e2) (p1 : List (Node K V × List (K × V))) (p p2 c rest) (hs : Shape n (e1 ++ e2) (some ((p1 ++ p :: p2).map Prod.fst))) (hi : i = e1.length)
    (hl : p1.length = e1.length) (hr : ∀ q ∈ p2, Rep h q.1 q.2) (hc : Frames H (h + 2) c rest) :
    Frames H (h + 1) ((n, i) :: c) (right e2 p2 ++ rest)

theorem Frames.depth {H lo} {c : Cursor K V} {rest} (h : Frames H lo c rest) : c.length + lo ≤ H + 1 := by
  induction h with
  | nil lo h => simpa using h
  | leaf n i e1 e2 c rest _ _ _ ih => simp; omega
  | inner h n i e1 e2 p1 p p2 c rest _ _ _ _ _ ih => simp; omega

theorem push_spec {H h} {n : Node K V} {es} (hr : Rep h n es) {c rest} (hc : Frames H (h + 1) c rest) {fuel : Nat} (hf : h < fuel) :
    ∃ lo c', push fuel n 0 c = some c' ∧ Frames H lo c' (es ++ rest) := by
  induction h generalizing n es c rest fuel with
  | zero =>
    obtain ⟨fuel, rfl⟩ := Nat.exists_eq_add_of_lt hf
    rw [Nat.zero_add, push, descend, hr.leaf]
    exact ⟨0, _, rfl, .leaf n 0 [] es c rest hr rfl hc⟩
  | succ h ih =>
    obtain ⟨fuel, rfl⟩ := Nat.exists_eq_add_of_lt (Nat.lt_of_le_of_lt (Nat.zero_le _) hf)
    rw [Nat.zero_add, push, descend, hr.leaf]
    obtain ⟨el, ps, hsh, hcs, rfl⟩ := hr
    have hlen := children_length hsh
    match ps, hlen with
    | p :: ps, hlen =>
      have hp := hcs p (by simp)
      have g5 := edgeAt_eq (c1 := []) (c := p.1) (c2 := ps.map Prod.fst) hsh (i := 0) rfl
      obtain ⟨lo, c', f1, f2⟩ := ih hp.1 (c := (n, 0) :: c) (rest := right el ps ++ rest)
        (.inner h n 0 [] el [] p ps c rest hsh rfl rfl (fun q hq => (hcs q (by simp [hq])).1) hc) (fuel := fuel) (by omega)
      refine ⟨lo, c', ?_, by simpa [join] using f2⟩
      simp only [g5, Option.bind_eq_bind, Option.bind_some]
      exact f1

theorem next_spec {H lo} {c : Cursor K V} {rest} (hc : Frames H lo c rest) {fuel steps : Nat} (hf : H < fuel) (hst : c.length < steps) :
    (rest = [] ∧ ∃ c', next fuel steps c = some (none, c')) ∨
      ∃ e t c' lo', rest = e :: t ∧ next fuel steps c = some (some e, c') ∧ Frames H lo' c' t := by
  induction hc generalizing steps with
  | nil lo h =>
    obtain ⟨steps, rfl⟩ := Nat.exists_eq_add_of_lt hst
    exact .inl ⟨rfl, _, rfl⟩
  | leaf n i e1 e2 c rest h hi hc ih =>
    obtain ⟨steps, rfl⟩ := Nat.exists_eq_add_of_lt (Nat.lt_of_le_of_lt (Nat.zero_le _) hst)
    have hn := h.length
    rw [Nat.zero_add, next]
    cases e2 with
    | nil =>
      rw [if_neg (by rw [hn, hi]; simp)]
      exact ih (by simp at hst; omega)
    | cons e e2 =>
      rw [if_pos (by rw [hn, hi]; simp)]
      refine .inr ⟨e, e2 ++ rest, (n, i + 1) :: c, 0, rfl, ?_, .leaf n (i + 1) (e1 ++ [e]) e2 c rest (by simpa using h) (by simp [hi]) hc⟩
      obtain ⟨fuel, rfl⟩ := Nat.exists_eq_add_of_lt (Nat.lt_of_le_of_lt (Nat.zero_le _) hf)
      simp only [push, Nat.zero_add, descend, h.leaf, elemAt_eq h hi]
      rfl
  | inner h n i e1 e2 p1 p p2 c rest hs hi hl hr hc ih =>
    obtain ⟨steps, rfl⟩ := Nat.exists_eq_add_of_lt (Nat.lt_of_le_of_lt (Nat.zero_le _) hst)
    have hn := hs.length
    have hlen := children_length hs
    rw [Nat.zero_add, next]
    cases e2 with
    | nil =>
      rw [if_neg (by rw [hn, hi]; simp)]
      simp only [right, List.nil_append]
      exact ih (by simp at hst; omega)
    | cons e e2 =>
      rw [if_pos (by rw [hn, hi]; simp)]
      match p2, hlen with
      | [], hlen => simp at hlen; omega
      | q :: p2, hlen =>
        have hd := hc.depth
        obtain ⟨fuel, rfl⟩ := Nat.exists_eq_add_of_lt (Nat.lt_of_le_of_lt (Nat.zero_le _) hf)
        have hs' : Shape n (e1 ++ e :: e2) (some ((p1.map Prod.fst ++ [p.1]) ++ q.1 :: p2.map Prod.fst)) := by simpa using hs
        have g5 := edgeAt_eq hs' (i := i + 1) (by simp [hi, hl])
        obtain ⟨lo, c', f1, f2⟩ := push_spec (hr q (by simp)) (c := (n, i + 1) :: c) (rest := right e2 p2 ++ rest)
          (.inner h n (i + 1) (e1 ++ [e]) e2 (p1 ++ [p]) q p2 c rest (by simpa using hs) (by simp [hi]) (by simp [hl]) (fun x hx => hr x (by simp [hx])) hc)
          (fuel := fuel) (by omega)
        refine .inr ⟨e, q.2 ++ right e2 p2 ++ rest, c', lo, by simp [right], ?_, by simpa using f2⟩
        have hpush : push (0 + fuel + 1) n (i + 1) c = some c' := by
          rw [push, Nat.zero_add, descend, hs.leaf]
          simp only [g5, Option.bind_eq_bind, Option.bind_some]
          exact f1
        simp only [hpush, Option.bind_eq_bind, Option.bind_some, elemAt_eq hs hi]
        rfl

theorem drain_spec {H lo} {c : Cursor K V} {rest} (hc : Frames H lo c rest) {fuel steps rounds : Nat} (hf : H < fuel) (hst : H + 1 < steps)
    (hr : rest.length < rounds) : drain fuel steps rounds c = some rest := by
  induction rounds generalizing c rest lo with
  | zero => omega
  | succ rounds ih =>
    have hd := hc.depth
    rw [drain]
    rcases next_spec hc hf (steps := steps) (by omega) with ⟨rfl, c', h1⟩ | ⟨e, t, c', lo', rfl, h1, h2⟩
    · simp only [h1, Option.bind_eq_bind, Option.bind_some]; rfl
    · simp only [h1, Option.bind_eq_bind, Option.bind_some, ih h2 (by simpa using hr), Option.map_some]

/-- The iteration over a tree gives its elements in order. -/
theorem elems_spec {h} {m : OrdMap K V} {es} (hr : Rep h m.root es) {fuel steps rounds : Nat} (hf : h < fuel) (hst : h + 1 < steps)
    (hro : es.length < rounds) : m.elems fuel steps rounds = some es := by
  obtain ⟨lo, c, h1, h2⟩ := push_spec hr (H := h) (.nil _ (Nat.le_refl _)) hf
  rw [OrdMap.elems]
  simp only [h1, Option.bind_eq_bind, Option.bind_some]
  rw [List.append_nil] at h2
  exact drain_spec h2 hf hst hro

/-! ## Copies -/

theorem copyMap_eq {A : Type} {f : A → Option A} {cap : Nat} {src : List (Option A)} (qs : List (A × A)) (zs : List A)
    (h : Holds cap src (qs.map Prod.fst ++ zs)) (hf : ∀ q ∈ qs, f q.1 = some q.2) :
    ∃ a, copyMap f src (alloc cap) qs.length = some a ∧ Holds cap a (qs.map Prod.snd) := by
  have hrev : ∀ rs : List (A × A), ∀ zs, Holds cap src (rs.reverse.map Prod.fst ++ zs) → (∀ q ∈ rs, f q.1 = some q.2) →
      ∃ a, copyMap f src (alloc cap) rs.length = some a ∧ Holds cap a (rs.reverse.map Prod.snd) := by
    intro rs
    induction rs with
    | nil => intro zs _ _; exact ⟨_, rfl, holds_alloc cap⟩
    | cons q rs ih =>
      intro zs h hf
      have h' : Holds cap src (rs.reverse.map Prod.fst ++ q.1 :: zs) := by simpa using h
      obtain ⟨a, h1, h2⟩ := ih _ h' (fun x hx => hf x (by simp [hx]))
      have hcap := h'.le
      simp only [List.length_append, List.length_map, List.length_reverse, List.length_cons] at hcap
      obtain ⟨a', h3, h4⟩ := store_end h2 (by simp; omega) (i := rs.length) (by simp) q.2
      refine ⟨a', ?_, by simpa using h4⟩
      rw [List.length_cons, copyMap]
      simp only [h1, load_holds h' (i := rs.length) (by simp), hf q (by simp), Option.bind_eq_bind, Option.bind_some]
      exact h3
  have := hrev qs.reverse zs (by simpa using h) (by simpa using hf)
  simpa using this

theorem join_map (f : K × V → K × V) (g : Node K V × List (K × V) → Node K V) (el : List (K × V)) (ps : List (Node K V × List (K × V))) :
    join (el.map f) (ps.map fun p => (g p, p.2.map f)) = (join el ps).map f := by
  have hr : ∀ (el : List (K × V)) (ps : List (Node K V × List (K × V))), right (el.map f) (ps.map fun p => (g p, p.2.map f)) = (right el ps).map f := by
    intro el
    induction el with
    | nil => intro ps; cases ps <;> rfl
    | cons e el ih =>
      intro ps
      cases ps with
      | nil => rfl
      | cons p ps => simp [right, ih]
  cases ps with
  | nil => rfl
  | cons p ps => simp [join, hr]

/-- A copy holds the copied elements in the same order, and has the same shape. -/
theorem deepCopy_spec (dk : K → K) (dv : V → V) {h} {n : Node K V} {es} (hr : Rep h n es) {fuel : Nat} (hf : h < fuel) :
    ∃ n', deepCopy dk dv fuel n = some n' ∧ Rep h n' (es.map fun e => (dk e.1, dv e.2)) ∧ n'.length = n.length := by
  have hkeys : ∀ {n : Node K V} {el cs}, Shape n el cs → ∃ a, copyMap (fun k => some (dk k)) n.keys (alloc maxElems) n.length = some a ∧
      Holds maxElems a ((el.map fun e => (dk e.1, dv e.2)).map Prod.fst) := by
    intro n el cs hs
    obtain ⟨a, h1, h2⟩ := copyMap_eq (f := fun k => some (dk k)) (cap := maxElems) (src := n.keys) (el.map fun e => (e.1, dk e.1)) [] (by simpa [Function.comp_def] using hs.keys)
      (by
        intro q hq
        obtain ⟨e, -, rfl⟩ := List.mem_map.1 hq
        rfl)
    exact ⟨a, by rw [hs.length]; simpa using h1, by simpa [Function.comp_def] using h2⟩
  have hvals : ∀ {n : Node K V} {el cs}, Shape n el cs → ∃ a, copyMap (fun v => some (dv v)) n.values (alloc maxElems) n.length = some a ∧
      Holds maxElems a ((el.map fun e => (dk e.1, dv e.2)).map Prod.snd) := by
    intro n el cs hs
    obtain ⟨a, h1, h2⟩ := copyMap_eq (f := fun v => some (dv v)) (cap := maxElems) (src := n.values) (el.map fun e => (e.2, dv e.2)) [] (by simpa [Function.comp_def] using hs.values)
      (by
        intro q hq
        obtain ⟨e, -, rfl⟩ := List.mem_map.1 hq
        rfl)
    exact ⟨a, by rw [hs.length]; simpa using h1, by simpa [Function.comp_def] using h2⟩
  induction h generalizing n es fuel with
  | zero =>
    obtain ⟨fuel, rfl⟩ := Nat.exists_eq_add_of_lt hf
    obtain ⟨a, h1, h2⟩ := hkeys hr
    obtain ⟨b, h3, h4⟩ := hvals hr
    rw [Nat.zero_add, deepCopy, hr.leaf]
    refine ⟨.mk n.length a b none, ?_, ⟨(Shape.length hr).trans (List.length_map _).symm, h2, h4, trivial⟩, rfl⟩
    have he := Shape.no_edges hr
    rw [show (if (0 == 0) = true then newLeaf else newInternal : Node K V) = newLeaf from rfl]
    simp only [show (newLeaf : Node K V).keys = alloc maxElems from rfl, show (newLeaf : Node K V).values = alloc maxElems from rfl,
      show (newLeaf : Node K V).edges = none from rfl, h1, h3, he, Option.bind_eq_bind, Option.bind_some]
    rfl
  | succ h ih =>
    obtain ⟨fuel, rfl⟩ := Nat.exists_eq_add_of_lt (Nat.lt_of_le_of_lt (Nat.zero_le _) hf)
    rw [Nat.zero_add, deepCopy, hr.leaf]
    obtain ⟨el, ps, hsh, hc, rfl⟩ := hr
    obtain ⟨a, h1, h2⟩ := hkeys hsh
    obtain ⟨b, h3, h4⟩ := hvals hsh
    obtain ⟨ed, g1, g2, g3⟩ := hsh.children
    have hg : ∃ g : Node K V × List (K × V) → Node K V, ∀ p ∈ ps, deepCopy dk dv fuel p.1 = some (g p) ∧ Rep h (g p) (p.2.map fun e => (dk e.1, dv e.2)) ∧
        (g p).length = p.1.length := by
      refine ⟨fun p => (deepCopy dk dv fuel p.1).getD p.1, fun p hp => ?_⟩
      obtain ⟨n', k1, k2, k3⟩ := ih (hc p hp).1 (fuel := fuel) (by omega)
      have hg : (deepCopy dk dv fuel p.1).getD p.1 = n' := by rw [k1]; rfl
      show deepCopy dk dv fuel p.1 = some ((deepCopy dk dv fuel p.1).getD p.1) ∧ Rep h ((deepCopy dk dv fuel p.1).getD p.1) _ ∧
        ((deepCopy dk dv fuel p.1).getD p.1).length = _
      rw [hg]
      exact ⟨k1, k2, k3⟩
    obtain ⟨g, hg⟩ := hg
    obtain ⟨ed', k1, k2⟩ := copyMap_eq (f := deepCopy dk dv fuel) (cap := maxEdges) (src := ed) (ps.map fun p => (p.1, g p)) []
      (by simpa [Function.comp_def] using g2) (by
        intro q hq
        obtain ⟨p, hp, rfl⟩ := List.mem_map.1 hq
        exact (hg p hp).1)
    refine ⟨.mk n.length a b (some ed'), ?_, ⟨_, ps.map fun p => (g p, p.2.map fun e => (dk e.1, dv e.2)), ⟨by rw [List.length_map]; exact hsh.length, h2, h4, ?_⟩, ?_, ?_⟩, rfl⟩
    · rw [show (if (h + 1 == 0) = true then newLeaf else newInternal : Node K V) = newInternal from rfl]
      have hl : n.length + 1 = ps.length := by rw [hsh.length]; simpa using g3.symm
      rw [List.length_map, ← hl] at k1
      simp only [show (newInternal : Node K V).keys = alloc maxElems from rfl, show (newInternal : Node K V).values = alloc maxElems from rfl,
        show (newInternal : Node K V).edges = some (alloc maxEdges) from rfl, h1, h3, g1, Option.bind_eq_bind, Option.bind_some, k1]
      rfl
    · show HoldsEdges _ (some ed') _
      refine ⟨by simpa [Function.comp_def] using k2, by simpa using g3⟩
    · intro q hq
      obtain ⟨p, hp, rfl⟩ := List.mem_map.1 hq
      exact ⟨(hg p hp).2.1, by show 5 ≤ (g p).length; rw [(hg p hp).2.2]; exact (hc p hp).2⟩
    · exact (join_map _ g _ _).symm

end Verif.BTree
