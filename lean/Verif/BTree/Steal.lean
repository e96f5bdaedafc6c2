import Verif.BTree.Arrays

/-! # Stealing an element from a sibling, and merging siblings -/
namespace Verif.BTree

variable {K V : Type}

/-- How the children of siblings change when the right one takes the last of the left one: both are leaves, or both internal. -/
inductive MoveRight : Option (List (Node K V)) → Option (List (Node K V)) → Option (List (Node K V)) → Option (List (Node K V)) → Prop
  | leaf : MoveRight none none none none
  | inner (lc : List (Node K V)) (y : Node K V) (rc : List (Node K V)) : MoveRight (some (lc ++ [y])) (some rc) (some lc) (some (y :: rc))

/-- The left one takes the first child of the right one. -/
inductive MoveLeft : Option (List (Node K V)) → Option (List (Node K V)) → Option (List (Node K V)) → Option (List (Node K V)) → Prop
  | leaf : MoveLeft none none none none
  | inner (lc : List (Node K V)) (y : Node K V) (rc : List (Node K V)) : MoveLeft (some lc) (some (y :: rc)) (some (lc ++ [y])) (some rc)

/-- The children of both. -/
inductive Merged : Option (List (Node K V)) → Option (List (Node K V)) → Option (List (Node K V)) → Prop
  | leaf : Merged none none none
  | inner (lc rc : List (Node K V)) : Merged (some lc) (some rc) (some (lc ++ rc))

theorem moveRight_edges {l r : Node K V} {le x re lcs rcs lcs' rcs'} (hl : Shape l (le ++ [x]) lcs) (hr : Shape r re rcs) (hlt : re.length < 5)
    (hm : MoveRight lcs rcs lcs' rcs') :
    ∃ edge redges, lastEdge l = some edge ∧ unshiftEdge edge r = some redges ∧ HoldsEdges le.length l.edges lcs' ∧
      HoldsEdges (re.length + 1) redges rcs' := by
  cases hm with
  | leaf =>
    refine ⟨none, r.edges, ?_, rfl, ?_, ?_⟩
    · rw [lastEdge, hl.no_edges]
    · rw [hl.no_edges]; trivial
    · rw [hr.no_edges]; trivial
  | inner lc y rc =>
    obtain ⟨a, h1, h2, h3⟩ := hl.children
    obtain ⟨b, h4, h5, h6⟩ := hr.children
    have hlc : lc.length = le.length + 1 := by simpa using h3
    obtain ⟨b', g1, b'', g2, g3⟩ := move_insert (xs := []) (i := 0) (j := 1) h5 (by simp [maxEdges]; omega) rfl (show r.length + 1 = _ by rw [hr.length, h6]) rfl y
    refine ⟨some y, some b'', ?_, ?_, ?_, ?_⟩
    · rw [lastEdge, h1]
      simp only [load_holds h2 (show l.length = lc.length by rw [hl.length, hlc]; simp), Option.map_some]
    · rw [unshiftEdge, h4]
      simp only [Option.bind_eq_bind, Option.bind_some, g1, g2, Option.map_some]
    · rw [h1]; exact ⟨h2.prefix, hlc⟩
    · exact ⟨g3, by simp [h6]⟩

theorem stealFromLeft_eq {n l r : Node K V} {e1 m e2 c1 c2 le x re lcs rcs lcs' rcs'} (hn : Shape n (e1 ++ m :: e2) (some (c1 ++ l :: r :: c2)))
    (hc : c1.length = e1.length) (hl : Shape l (le ++ [x]) lcs) (hr : Shape r re rcs) (hgt : 5 ≤ le.length) (hlt : re.length < 5)
    (hm : MoveRight lcs rcs lcs' rcs') {i : Nat} (hi : i = e1.length + 1) :
    ∃ n' l' r', stealFromLeft i n = some n' ∧ Shape n' (e1 ++ x :: e2) (some (c1 ++ l' :: r' :: c2)) ∧ Shape l' le lcs' ∧ Shape r' (m :: re) rcs' := by
  obtain ⟨edge, redges, g1, g2, g3, g4⟩ := moveRight_edges hl hr hlt hm
  have hk := hn.keys
  have hv := hn.values
  rw [map_split] at hk hv
  have hlk := hl.keys
  have hlv := hl.values
  rw [map_split] at hlk hlv
  have hl1 : l.length - 1 = le.length := by rw [hl.length]; simp
  obtain ⟨pk, p1, p2⟩ := store_holds hk (show i - 1 = _ by simp [hi]) x.1
  obtain ⟨pv, p3, p4⟩ := store_holds hv (show i - 1 = _ by simp [hi]) x.2
  obtain ⟨rk, q1, rk', q2, q3⟩ := move_insert (xs := []) (i := 0) (j := 1) hr.keys (by simp [maxElems]; omega) rfl (show r.length = _ by rw [hr.length]; simp) rfl m.1
  obtain ⟨rv, q4, rv', q5, q6⟩ := move_insert (xs := []) (i := 0) (j := 1) hr.values (by simp [maxElems]; omega) rfl (show r.length = _ by rw [hr.length]; simp) rfl m.2
  have hn1 : Shape (Node.mk n.length pk pv n.edges) (e1 ++ x :: e2) (some (c1 ++ l :: r :: c2)) := by
    refine ⟨?_, ?_, ?_, ?_⟩
    · show n.length = _
      rw [hn.length]; simp
    · rw [map_split]; exact p2
    · rw [map_split]; exact p4
    · show HoldsEdges _ n.edges _
      have := hn.edges
      simpa using this
  obtain ⟨n2, s1, s2⟩ := setEdge_eq hn1 (show i - 1 = c1.length by omega) (.mk (l.length - 1) l.keys l.values l.edges)
  rw [List.append_cons c1] at s2
  obtain ⟨n3, s3, s4⟩ := setEdge_eq s2 (show i = _ by simp; omega) (.mk (r.length + 1) rk' rv' redges)
  refine ⟨n3, .mk (l.length - 1) l.keys l.values l.edges, .mk (r.length + 1) rk' rv' redges, ?_, by simpa using s4, ⟨hl1, hlk.prefix, hlv.prefix, g3⟩, ⟨?_, q3, q6, g4⟩⟩
  · rw [stealFromLeft]
    have hn' := hn
    rw [List.append_cons c1] at hn'
    simp only [assert, edgeAt_eq hn (show i - 1 = _ by omega), edgeAt_eq hn' (show i = _ by simp; omega), Option.bind_eq_bind, Option.bind_some,
      load_holds hk (show i - 1 = _ by simp [hi]), load_holds hv (show i - 1 = _ by simp [hi]), load_holds hlk (show l.length - 1 = _ by simp [hl1]),
      load_holds hlv (show l.length - 1 = _ by simp [hl1]), g1, g2, p1, p3, q1, q2, q4, q5, s1, s3]
    rw [if_pos (by simp [hi]), Option.bind_some, if_pos (by
      have h1 := hl.length
      have h2 := hr.length
      simp only [List.length_append, List.length_cons, List.length_nil] at h1 h2
      rw [Bool.and_eq_true, decide_eq_true_eq, decide_eq_true_eq, minElems]
      omega)]
    rfl
  · show r.length + 1 = _
    rw [hr.length]; simp

theorem moveLeft_edges {l r : Node K V} {le x re lcs rcs lcs' rcs'} (hl : Shape l le lcs) (hr : Shape r (x :: re) rcs) (hlt : le.length < 5)
    (hm : MoveLeft lcs rcs lcs' rcs') :
    ∃ edge ledges redges, firstEdge r = some edge ∧ shiftEdge edge l r = some (ledges, redges) ∧ HoldsEdges (le.length + 1) ledges lcs' ∧
      HoldsEdges re.length redges rcs' := by
  cases hm with
  | leaf =>
    refine ⟨none, l.edges, r.edges, ?_, rfl, ?_, ?_⟩
    · rw [firstEdge, hr.no_edges]
    · rw [hl.no_edges]; trivial
    · rw [hr.no_edges]; trivial
  | inner lc y rc =>
    obtain ⟨a, h1, h2, h3⟩ := hl.children
    obtain ⟨b, h4, h5, h6⟩ := hr.children
    have hrc : rc.length = re.length + 1 := by simpa using h6
    obtain ⟨a', g1, g2⟩ := store_end h2 (by simp [maxEdges]; omega) (show l.length + 1 = _ by rw [hl.length, h3]) y
    obtain ⟨b', g3, g4⟩ := move_remove (xs := []) (i := 1) (j := 0) h5 rfl (show r.length = _ by rw [hr.length, hrc]; simp) rfl
    refine ⟨some y, some a', some b', ?_, ?_, ⟨g2, by simp [h3]⟩, ⟨g4, hrc⟩⟩
    · rw [firstEdge, h4]
      simp only [load_holds (i := 0) (xs := []) h5 rfl, Option.map_some]
    · rw [shiftEdge, h1, h4]
      have g3' : move b 1 r.length 0 = some b' := g3
      simp only [Option.bind_eq_bind, Option.bind_some, g1, g3']
      rfl

theorem stealFromRight_eq {n l r : Node K V} {e1 m e2 c1 c2 le x re lcs rcs lcs' rcs'} (hn : Shape n (e1 ++ m :: e2) (some (c1 ++ l :: r :: c2)))
    (hc : c1.length = e1.length) (hl : Shape l le lcs) (hr : Shape r (x :: re) rcs) (hgt : 5 ≤ re.length) (hlt : le.length < 5)
    (hm : MoveLeft lcs rcs lcs' rcs') {i : Nat} (hi : i = e1.length) :
    ∃ n' l' r', stealFromRight i n = some n' ∧ Shape n' (e1 ++ x :: e2) (some (c1 ++ l' :: r' :: c2)) ∧ Shape l' (le ++ [m]) lcs' ∧ Shape r' re rcs' := by
  obtain ⟨edge, ledges, redges, g1, g2, g3, g4⟩ := moveLeft_edges hl hr hlt hm
  have hk := hn.keys
  have hv := hn.values
  rw [map_split] at hk hv
  have hrk := hr.keys
  have hrv := hr.values
  rw [List.map_cons] at hrk hrv
  obtain ⟨pk, p1, p2⟩ := store_holds hk (show i = _ by simp [hi]) x.1
  obtain ⟨pv, p3, p4⟩ := store_holds hv (show i = _ by simp [hi]) x.2
  obtain ⟨lk, q1, q2⟩ := store_end hl.keys (by simp [maxElems]; omega) (show l.length = _ by rw [hl.length]; simp) m.1
  obtain ⟨lv, q3, q4⟩ := store_end hl.values (by simp [maxElems]; omega) (show l.length = _ by rw [hl.length]; simp) m.2
  have hr1 : r.length - 1 = re.length := by rw [hr.length]; simp
  obtain ⟨rk, r1, r2⟩ := move_remove (xs := []) (i := 1) (j := 0) hrk rfl (show r.length - 1 = _ by simp [hr1]) rfl
  obtain ⟨rv, r3, r4⟩ := move_remove (xs := []) (i := 1) (j := 0) hrv rfl (show r.length - 1 = _ by simp [hr1]) rfl
  have r1' : move r.keys 1 (r.length - 1) 0 = some rk := r1
  have r3' : move r.values 1 (r.length - 1) 0 = some rv := r3
  have hn1 : Shape (Node.mk n.length pk pv n.edges) (e1 ++ x :: e2) (some (c1 ++ l :: r :: c2)) := by
    refine ⟨?_, ?_, ?_, ?_⟩
    · show n.length = _
      rw [hn.length]; simp
    · rw [map_split]; exact p2
    · rw [map_split]; exact p4
    · show HoldsEdges _ n.edges _
      have := hn.edges
      simpa using this
  obtain ⟨n2, s1, s2⟩ := setEdge_eq hn1 (show i = c1.length by omega) (.mk (l.length + 1) lk lv ledges)
  rw [List.append_cons c1] at s2
  obtain ⟨n3, s3, s4⟩ := setEdge_eq s2 (show i + 1 = _ by simp; omega) (.mk (r.length - 1) rk rv redges)
  refine ⟨n3, .mk (l.length + 1) lk lv ledges, .mk (r.length - 1) rk rv redges, ?_, by simpa using s4, ⟨?_, ?_, ?_, ?_⟩, ⟨hr1, r2, r4, g4⟩⟩
  · rw [stealFromRight]
    have hn' := hn
    rw [List.append_cons c1] at hn'
    simp only [assert, edgeAt_eq hn (show i = _ by omega), edgeAt_eq hn' (show i + 1 = _ by simp; omega), Option.bind_eq_bind, Option.bind_some,
      load_holds hk (show i = _ by simp [hi]), load_holds hv (show i = _ by simp [hi]), load_holds (i := 0) (xs := []) hrk rfl,
      load_holds (i := 0) (xs := []) hrv rfl, g1, g2, p1, p3, q1, q3, r1', r3', s1, s3]
    rw [if_pos (by rw [hn.length]; simp [hi]), Option.bind_some, if_pos (by
      have h1 := hl.length
      have h2 := hr.length
      simp only [List.length_append, List.length_cons, List.length_nil] at h1 h2
      rw [Bool.and_eq_true, decide_eq_true_eq, decide_eq_true_eq, minElems]
      omega)]
    rfl
  · show l.length + 1 = _
    rw [hl.length]; simp
  · rw [List.map_append]; exact q2
  · rw [List.map_append]; exact q4
  · show HoldsEdges _ ledges _
    simpa using g3

theorem merged_edges {l r : Node K V} {le re lcs rcs cs} (hl : Shape l le lcs) (hr : Shape r re rcs) (hle : le.length + re.length + 1 ≤ 11)
    (hm : Merged lcs rcs cs) : ∃ edges, appendEdges l r = some edges ∧ HoldsEdges (le.length + re.length + 1) edges cs := by
  cases hm with
  | leaf => exact ⟨none, by rw [appendEdges, hl.no_edges], trivial⟩
  | inner lc rc =>
    obtain ⟨a, h1, h2, h3⟩ := hl.children
    obtain ⟨b, h4, h5, h6⟩ := hr.children
    obtain ⟨d, g1, g2⟩ := copy_append h5 h2 (by simp [maxEdges]; omega) (show r.length + 1 = _ by rw [hr.length, h6])
      (show l.length + 1 = _ by rw [hl.length, h3])
    refine ⟨some d, ?_, g2, by simp; omega⟩
    rw [appendEdges, h1, h4]
    simp only [Option.bind_eq_bind, Option.bind_some, g1]
    rfl

theorem merge_eq {n l r : Node K V} {e1 m e2 c1 c2 le re lcs rcs cs} (hn : Shape n (e1 ++ m :: e2) (some (c1 ++ l :: r :: c2)))
    (hc : c1.length = e1.length) (hl : Shape l le lcs) (hr : Shape r re rcs) (hle : le.length + re.length + 1 ≤ 11)
    (hm : Merged lcs rcs cs) {i : Nat} (hi : i = e1.length) :
    ∃ n' l', merge i n = some n' ∧ Shape n' (e1 ++ e2) (some (c1 ++ l' :: c2)) ∧ Shape l' (le ++ m :: re) cs := by
  obtain ⟨edges, g1, g2⟩ := merged_edges hl hr hle hm
  have hk := hn.keys
  have hv := hn.values
  rw [map_split] at hk hv
  obtain ⟨ed, d1, d2, d3⟩ := hn.children
  have hn' := hn
  rw [List.append_cons c1] at hn' d2
  have hc2 : c2.length = e2.length := by simp at d3; omega
  have hm1 : n.length - i - 1 = e2.length := by rw [hn.length]; simp; omega
  obtain ⟨pk, p1, p2⟩ := move_remove hk (show i + 1 = _ by simp [hi]) (show n.length - i - 1 = _ by simp [hm1]) (show i = _ by simp [hi])
  obtain ⟨pv, p3, p4⟩ := move_remove hv (show i + 1 = _ by simp [hi]) (show n.length - i - 1 = _ by simp [hm1]) (show i = _ by simp [hi])
  obtain ⟨pe, p5, p6⟩ := move_remove d2 (show i + 2 = _ by simp; omega) (show n.length - i - 1 = _ by omega) (show i + 1 = _ by simp; omega)
  obtain ⟨lk, q1, q2⟩ := store_end hl.keys (by simp [maxElems]; omega) (show l.length = _ by rw [hl.length]; simp) m.1
  obtain ⟨lv, q3, q4⟩ := store_end hl.values (by simp [maxElems]; omega) (show l.length = _ by rw [hl.length]; simp) m.2
  obtain ⟨lk', q5, q6⟩ := copy_append hr.keys q2 (by simp [maxElems]; omega) (show r.length = _ by rw [hr.length]; simp)
    (show l.length + 1 = _ by rw [hl.length]; simp)
  obtain ⟨lv', q7, q8⟩ := copy_append hr.values q4 (by simp [maxElems]; omega) (show r.length = _ by rw [hr.length]; simp)
    (show l.length + 1 = _ by rw [hl.length]; simp)
  have hn1 : Shape (Node.mk (n.length - 1) pk pv (some pe)) (e1 ++ e2) (some (c1 ++ l :: c2)) := by
    refine ⟨?_, ?_, ?_, ?_, ?_⟩
    · show n.length - 1 = _
      rw [hn.length]; simp
    · rw [List.map_append]; exact p2
    · rw [List.map_append]; exact p4
    · simpa using p6
    · simp; omega
  obtain ⟨n2, s1, s2⟩ := setEdge_eq hn1 (show i = c1.length by omega) (.mk (l.length + r.length + 1) lk' lv' edges)
  refine ⟨n2, .mk (l.length + r.length + 1) lk' lv' edges, ?_, s2, ?_, ?_, ?_, ?_⟩
  · rw [merge]
    simp only [assert, edgeAt_eq hn (show i = _ by omega), edgeAt_eq hn' (show i + 1 = _ by simp; omega), Option.bind_eq_bind, Option.bind_some,
      load_holds hk (show i = _ by simp [hi]), load_holds hv (show i = _ by simp [hi]), sub]
    rw [if_pos (by rw [hl.length, hr.length]; simp [maxElems]; omega), if_pos (by rw [hn.length]; simp; omega)]
    simp only [Option.bind_some]
    rw [if_pos (by rw [hn.length]; simp; omega)]
    simp only [Option.bind_some, p1, p3, d1, p5, q1, q3, q5, q7, g1, s1]
  · show l.length + r.length + 1 = _
    rw [hl.length, hr.length]; simp; omega
  · rw [map_split]
    show Holds _ lk' _
    simpa using q6
  · rw [map_split]
    show Holds _ lv' _
    simpa using q8
  · show HoldsEdges _ edges _
    rw [show (le ++ m :: re).length = le.length + re.length + 1 by simp; omega]
    exact g2

end Verif.BTree
