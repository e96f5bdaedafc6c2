import Verif.Vector.Arrays

/-!
# Theorems about arrays and vectors (C39, C40)
-/
namespace Verif.Vector

variable {α : Type}

/-! ## C39: arrays -/

/-- C39: reading with `(get t[i])` and `(get? t[i])` gives the element exactly when the index is in range, and otherwise fails the assertion or gives `none`. -/
theorem array_get {m : Mem α} {t : Arr} {xs : List α} (h : ArrHolds m t xs) (i : Nat) :
    arrLoadAt i t m = (match xs[i]? with | some x => .ok (x, m) | none => .error .assert) ∧ arrLoadAt? i t m = .ok (xs[i]?, m) := by
  have hmax := maxLen_eq
  obtain ⟨h1, h2, h3⟩ := h
  unfold arrLoadAt arrLoadAt? arrUnsafeGet
  by_cases hi : i < t.len
  · have hx : xs[i]? = some xs[i] := List.getElem?_eq_getElem (by omega)
    rw [bind_ok (assert_pos hi m), if_pos hi, bind_ok (load_at (by omega) (h3 i _ hx)), load_at (by omega) (h3 i _ hx), hx]
    exact ⟨rfl, rfl⟩
  · have hx : xs[i]? = none := List.getElem?_eq_none (by omega)
    rw [bind_error (assert_neg hi m), if_neg hi, hx]
    exact ⟨rfl, rfl⟩

/-- C39: writing with `(set! t[i] x)` changes that element exactly when the index is in range, and otherwise fails the assertion. -/
theorem array_set {m : Mem α} (hm : WF m) {t : Arr} {xs : List α} (h : ArrHolds m t xs) (i : Nat) (x : α) :
    if i < xs.length then ∃ m', arrStoreAt i x t m = .ok ((), m') ∧ ArrHolds m' t (xs.set i x) ∧
        ∀ b o, ¬ (t.ptr.blk = some b ∧ o = t.ptr.off + i) → m'.cell b o = m.cell b o
      else arrStoreAt i x t m = .error .assert := by
  obtain ⟨h1, h2, h3⟩ := h
  have vh : VecHolds m ⟨t.ptr, t.len, t.len⟩ xs := ⟨h1, Nat.le_refl _, h2, h1 ▸ holds_room h3, h3⟩
  unfold arrStoreAt arrUnsafeSet
  by_cases hi : i < t.len
  · rw [if_pos (by omega), bind_ok (assert_pos hi m)]
    obtain ⟨e, g, _⟩ := put_holds hm vh hi x
    exact ⟨_, e, ⟨g.1, h2, g.2.2.2.2⟩, fun b o h => cell_put m t.ptr i x h⟩
  · rw [if_neg (by omega), bind_error (assert_neg hi m)]

/-- C39: `array/insert` succeeds exactly for indices up to the length, gives the list with the element inserted and leaves all existing memory unchanged. -/
theorem array_insert {m : Mem α} (hm : WF m) {t : Arr} {xs : List α} (h : ArrHolds m t xs) (hs : xs.length < maxLen) (i : Nat) (x : α) :
    if i ≤ xs.length then ∃ s m', arrInsert i x t m = .ok (s, m') ∧ ArrHolds m' s (xs.insertIdx i x) ∧ Old m m' else arrInsert i x t m = .error .assert := by
  split
  · exact arrInsert_ok hm h i x (by assumption) hs
  · exact arrInsert_assert h i x (by assumption)

/-- C39: `array/remove` succeeds exactly for indices below the length, gives the list without the element and leaves all existing memory unchanged. -/
theorem array_remove {m : Mem α} (hm : WF m) {t : Arr} {xs : List α} (h : ArrHolds m t xs) (i : Nat) :
    if i < xs.length then ∃ s m', arrRemove i t m = .ok (s, m') ∧ ArrHolds m' s (xs.eraseIdx i) ∧ Old m m' else arrRemove i t m = .error .assert := by
  split
  · exact arrRemove_ok hm h i (by assumption)
  · exact arrRemove_assert h i (by assumption)

/-- C39: `array/update` on arrays that are not empty succeeds exactly for indices below the length.  See `array_update_empty_partial` for empty arrays. -/
theorem array_update_partial {m : Mem α} (hm : WF m) {t : Arr} {xs : List α} (h : ArrHolds m t xs) (hne : xs ≠ []) (i : Nat) (x : α) :
    if i < xs.length then ∃ s m', arrUpdate i x t m = .ok (s, m') ∧ ArrHolds m' s (xs.set i x) ∧ Old m m' else arrUpdate i x t m = .error .assert := by
  split
  · exact arrUpdate_ok hm h i x (by assumption)
  · exact arrUpdate_assert h i x hne (by assumption)

/-- C39, refutation: `array/update` of an empty array does not fail its assertion for any index; it writes outside the array. -/
theorem array_update_empty_partial (x : α) (m : Mem α) (i : Nat) (hi : i < 2 ^ 64) : arrUpdate i x arrEmpty m = .error .bounds := by
  have h0 : sub64 0 1 = 2 ^ 64 - 1 := by unfold sub64; decide
  unfold arrUpdate arrShallowCopy
  rw [show arrEmpty.len = 0 from rfl, h0, show (decide (0 ≤ i) && decide (i ≤ 2 ^ 64 - 1)) = decide (0 ≤ i ∧ i ≤ 2 ^ 64 - 1) by simp, bind_ok (assert_pos (by omega) m)]
  have e : (do let b ← alloc 0; ptrCopy arrEmpty.ptr 0 b.ptr; pure b : M α Arr) m = .ok (⟨m.fresh, 0⟩, m.grow 0) := by
    rw [bind_ok (alloc_ok (by omega)), bind_ok (show ptrCopy arrEmpty.ptr 0 m.fresh (m.grow 0) = .ok ((), m.grow 0) by unfold ptrCopy; simp), pure_apply]
  rw [bind_ok e, bind_error]
  have : rd (m.grow 0) (ptrAdd i m.fresh) 0 = none := by
    unfold rd ptrAdd Mem.fresh Mem.grow
    simp only [if_true]
    rw [if_neg (by omega)]
  unfold arrUnsafeSet ptrStoreAt ptrStore
  rw [this]

/-- C39: `array/ref` below the length gives a reference to the element; above the length it fails the assertion.  See `array_ref_end_partial` for the length itself. -/
theorem array_ref_partial {m : Mem α} {t : Arr} {xs : List α} (h : ArrHolds m t xs) (i : Nat) (hi : i ≠ xs.length) :
    match xs[i]? with
    | some x => ∃ p, arrRef i t m = .ok (p, m) ∧ ptrLoad p m = .ok (x, m)
    | none => arrRef i t m = .error .assert := by
  have hmax := maxLen_eq
  obtain ⟨h1, h2, h3⟩ := h
  unfold arrRef
  by_cases hlt : i < xs.length
  · have hx : xs[i]? = some xs[i] := List.getElem?_eq_getElem hlt
    rw [hx, bind_ok (assert_pos (by omega) m)]
    exact ⟨_, rfl, load_at (by omega) (h3 i _ hx)⟩
  · rw [List.getElem?_eq_none (by omega), bind_error (assert_neg (by omega) m)]

/-- C39, refutation: `array/ref` at the length of an array does not fail its assertion; reading the reference is an access outside the memory of the array. -/
theorem array_ref_end_partial (x y : α) (m : Mem α) :
    ∃ t m1, arrLit [x, y] m = .ok (t, m1) ∧ t.len = 2 ∧ ∃ p, arrRef 2 t m1 = .ok (p, m1) ∧ ptrLoad p m1 = .error .bounds := by
  have hmax := maxLen_eq
  have h1 : alloc 2 m = .ok (⟨m.fresh, 2⟩, m.grow 2) := alloc_ok (by omega)
  have hr := grow_room m 2
  have hr1 : rd ((m.grow 2).put (m.fresh.at 0) x) m.fresh 1 ≠ none := by
    have := rd_put (m := m.grow 2) (p := m.fresh) (i := 0) x (hr 0 (by omega)) 1
    rw [this]; simp; exact hr 1 (by omega)
  refine ⟨⟨m.fresh, 2⟩, ((m.grow 2).put (m.fresh.at 0) x).put (m.fresh.at 1) y, ?_, rfl, m.fresh.at 2, ?_, ?_⟩
  · unfold arrLit
    rw [if_neg (by simp), show [x, y].length = 2 from rfl, bind_ok h1]
    unfold arrInit arrInit arrInit arrUnsafeSet
    have hin : (do ptrStoreAt 0 x m.fresh; (do ptrStoreAt (add64 0 1) y m.fresh; pure ()) : M α Unit) (m.grow 2)
        = .ok ((), ((m.grow 2).put (m.fresh.at 0) x).put (m.fresh.at 1) y) := by
      rw [bind_ok (store_at (by omega) x (hr 0 (by omega))), add64_small (show 0 + 1 ≤ 2 ^ 62 by decide), bind_ok (store_at (i := 1) (by decide) y hr1), pure_apply]
    rw [bind_ok hin, pure_apply]
  · unfold arrRef
    rw [bind_ok (assert_pos (Nat.le_refl 2) _), ptrAdd_small (by omega), pure_apply]
  · have : rd (((m.grow 2).put (m.fresh.at 0) x).put (m.fresh.at 1) y) (m.fresh.at 2) 0 = none := by
      rw [rd_at, rd_put y hr1, if_neg (by decide), rd_put x (hr 0 (by omega)), if_neg (by decide)]
      unfold rd Mem.fresh Mem.grow; simp
    unfold ptrLoad; rw [this]

/-- C39: `array/subarray` succeeds exactly when the bounds are in order and in range, and gives that part of the array. -/
theorem array_subarray {m : Mem α} {t : Arr} {xs : List α} (h : ArrHolds m t xs) (s e : Nat) :
    if s ≤ e ∧ e ≤ xs.length then ∃ r, arrSubarray s e t m = .ok (r, m) ∧ ArrHolds m r ((xs.drop s).take (e - s)) else arrSubarray s e t m = .error .assert :=
  arrSubarray_ok h s e

/-- C39: `array/take` and `array/skip` never fail. -/
theorem array_take_skip {m : Mem α} {t : Arr} {xs : List α} (h : ArrHolds m t xs) (n : Nat) :
    (∃ r, arrTake n t m = .ok (r, m) ∧ ArrHolds m r (xs.take n)) ∧ (∃ r, arrSkip n t m = .ok (r, m) ∧ ArrHolds m r (xs.drop n)) := by
  have h1 := h.1
  constructor
  · have := arrSubarray_ok h 0 (min n t.len)
    rw [if_pos (by omega)] at this
    obtain ⟨r, e, g⟩ := this
    refine ⟨r, e, ?_⟩
    rw [List.drop_zero, Nat.sub_zero, h1] at g
    rw [show xs.take n = xs.take (min n xs.length) by rw [List.take_eq_take_min]]
    exact g
  · have := arrSubarray_ok h (min n t.len) t.len
    rw [if_pos (by omega)] at this
    obtain ⟨r, e, g⟩ := this
    refine ⟨r, e, ?_⟩
    rw [List.take_of_length_le (by simp; omega), h1] at g
    by_cases hn : n ≤ xs.length
    · rwa [Nat.min_eq_left hn] at g
    · rw [Nat.min_eq_right (by omega), List.drop_of_length_le (Nat.le_refl _)] at g
      rw [List.drop_of_length_le (by omega)]; exact g

/-- `array/concat` is concatenation. -/
theorem array_concat {m : Mem α} (hm : WF m) {a b : Arr} {xs ys : List α} (ha : ArrHolds m a xs) (hb : ArrHolds m b ys) (hs : xs.length + ys.length ≤ maxLen) :
    ∃ s m', arrConcat a b m = .ok (s, m') ∧ ArrHolds m' s (xs ++ ys) ∧ Old m m' := arrConcat_ok hm ha hb hs

/-! ## C40: vectors -/

/-- How many elements an operation asks room for. -/
def Op.extra (v : Vec) : Op α → Nat
  | .push _ => 1
  | .insert _ _ => 1
  | .append xs => xs.length
  | .appendSelf => v.len
  | .reserveCapacity n _ => n
  | .reserveFree n _ => n
  | _ => 0

/-- C40, one operation: on a vector that holds a list, an operation gives the result and the list the operation has on lists, or fails its assertion exactly when that
operation is not defined, or runs out of memory because it asks for more than can be allocated.  It never touches memory outside the vector's buffer. -/
theorem step_list {m : Mem α} (hm : WF m) {v : Vec} {xs : List α} (h : VecHolds m v xs) (op : Op α) :
    (step op v m = .error .oom ∧ maxLen < 4 + 2 * v.cap + v.len + op.extra v) ∨
    match op.onList xs with
    | none => step op v m = .error .assert
    | some (r, ys) => ∃ v' m', step op v m = .ok ((r, v'), m') ∧ VecHolds m' v' ys ∧ Frame m v m' v' := by
  have hmax := maxLen_eq
  have h1 := h.1
  have h2 := h.2.1
  have h3 := h.2.2.1
  cases op with
  | push x =>
    rcases push_ok hm h x with ⟨e, hb⟩ | ⟨v', m', e, g, f⟩
    · left; exact ⟨bind_error e, hb⟩
    · right; exact ⟨v', m', bind_ok e, g, f⟩
  | pop =>
    obtain ⟨v', e, g, f⟩ := pop_ok hm h
    right; exact ⟨v', m, bind_ok e, g, f⟩
  | insert i x =>
    rcases insert_ok hm h i x with ⟨e, hb⟩ | hok
    · left; exact ⟨bind_error e, hb⟩
    · right
      simp only [Op.onList]
      by_cases hi : i ≤ xs.length
      · rw [if_pos hi] at hok ⊢
        obtain ⟨v', m', e, g, f⟩ := hok
        exact ⟨v', m', bind_ok e, g, f⟩
      · rw [if_neg hi] at hok ⊢
        exact bind_error hok
  | remove i =>
    right
    simp only [Op.onList]
    cases hx : xs[i]? with
    | none =>
      have hi := List.getElem?_eq_none_iff.1 hx
      exact bind_error (bind_error (assert_neg (show ¬ i < v.len by omega) m))
    | some x =>
      obtain ⟨v', m', e, g, f⟩ := remove_ok hm h i hx
      exact ⟨v', m', bind_ok e, g, f⟩
  | swapRemove i =>
    right
    simp only [Op.onList]
    cases hx : xs[i]? with
    | none =>
      have hi := List.getElem?_eq_none_iff.1 hx
      exact bind_error (bind_error (assert_neg (show ¬ i < v.len by omega) m))
    | some x =>
      have hi := (List.getElem?_eq_some_iff.1 hx).1
      cases hl : xs.getLast? with
      | none => rw [List.getLast?_eq_none_iff] at hl; subst hl; simp at hi
      | some l =>
        obtain ⟨v', m', e, g, f⟩ := swapRemove_ok hm h i hx hl
        exact ⟨v', m', bind_ok e, g, f⟩
  | truncate n =>
    right
    obtain ⟨g, f⟩ := truncate_ok hm h n
    exact ⟨_, m, rfl, g, f⟩
  | clear =>
    right
    obtain ⟨g, f⟩ := truncate_ok hm h 0
    exact ⟨_, m, rfl, g, f⟩
  | append ys =>
    rcases lit_ok hm ys with ⟨e, hb⟩ | ⟨a, m1, e, ga, w1, hn, ho, hf⟩
    · left; exact ⟨bind_error e, by simp only [Op.extra]; omega⟩
    · have hv : VecHolds m1 v xs := by
        refine ⟨h1, h2, h3, fun i hi => ?_, fun i x hx => ?_⟩
        · have := h.2.2.2.1 i hi
          obtain ⟨b, hb⟩ := rd_isSome this
          unfold rd at this ⊢; simp only [hb] at this ⊢
          rw [ho b _ this]; exact this
        · have := h.2.2.2.2 i x hx
          have hne : rd m v.ptr i ≠ none := by rw [this]; simp
          obtain ⟨b, hb⟩ := rd_isSome hne
          unfold rd at this hne ⊢; simp only [hb] at this hne ⊢
          rw [ho b _ hne]; exact this
      have hd : ∀ i : Nat, i < ys.length → ¬ (a.ptr.blk = v.ptr.blk ∧ v.ptr.off + v.len ≤ a.ptr.off + i ∧ a.ptr.off + i < v.ptr.off + v.cap) := by
        rintro i hi ⟨hb, ho1, ho2⟩
        have := h.2.2.2.1 (a.ptr.off + i - v.ptr.off).toNat (by omega)
        obtain ⟨b, hb'⟩ := rd_isSome this
        unfold rd at this; simp only [hb'] at this
        have hlt := lt_next hm this
        have := hf b (by rw [hb, hb'])
        omega
      rcases append_ok w1 hv ga hd with ⟨e2, hb⟩ | ⟨v', m', e2, g, f⟩
      · left; exact ⟨(bind_ok e).trans (bind_error e2), hb⟩
      · right
        refine ⟨v', m', (bind_ok e).trans (bind_ok e2), g, f.wf, Nat.le_trans hn f.next, fun b o hc hi => ?_, fun b o hi => ?_⟩
        · rw [f.keep b o (by rw [ho b o hc]; exact hc) hi, ho b o hc]
        · rcases f.own b o hi with hh | hh
          · exact .inl hh
          · right; omega
  | appendSelf =>
    have ga : ArrHolds m (vecBuffer v) xs := ⟨h1, by simp only [vecBuffer]; omega, h.2.2.2.2⟩
    rcases append_ok hm h ga (by rintro i hi ⟨_, ho1, _⟩; simp only [vecBuffer] at ho1; omega) with ⟨e2, hb⟩ | ⟨v', m', e2, g, f⟩
    · left; exact ⟨bind_error e2, by simp only [Op.extra]; omega⟩
    · right; exact ⟨v', m', bind_ok e2, g, f⟩
  | reserveCapacity n ex =>
    rcases reserve_ok hm h n ex with ⟨e, hb⟩ | ⟨v', m', e, g, f, _⟩
    · left; exact ⟨bind_error e, by simp only [Op.extra]; omega⟩
    · right; exact ⟨v', m', bind_ok e, g, f⟩
  | reserveFree n ex =>
    rcases reserveFree_ok hm h n ex with ⟨e, hb⟩ | ⟨v', m', e, g, f, _⟩
    · left; exact ⟨bind_error e, hb⟩
    · right; exact ⟨v', m', bind_ok e, g, f⟩
  | get i =>
    right
    simp only [Op.onList]
    cases hx : xs[i]? with
    | none =>
      have hi := List.getElem?_eq_none_iff.1 hx
      exact bind_error (bind_error (assert_neg (show ¬ i < v.len by omega) m))
    | some x =>
      have hi := (List.getElem?_eq_some_iff.1 hx).1
      exact ⟨v, m, bind_ok ((bind_ok (assert_pos (show i < v.len by omega) m)).trans (load_at (by omega) (h.2.2.2.2 i x hx))), h, Frame.refl hm v⟩
  | get? i =>
    right
    simp only [Op.onList]
    refine ⟨v, m, bind_ok (b := xs[i]?) (m' := m) ?_, h, Frame.refl hm v⟩
    unfold vecLoadAt?
    by_cases hi : i < v.len
    · have hx : xs[i]? = some xs[i] := List.getElem?_eq_getElem (by omega)
      rw [if_pos hi, bind_ok (load_at (by omega) (h.2.2.2.2 i _ hx)), hx, pure_apply]
    · rw [if_neg hi, List.getElem?_eq_none (by omega), pure_apply]
  | set i x =>
    right
    simp only [Op.onList]
    by_cases hi : i < v.len
    · rw [if_pos (by omega)]
      obtain ⟨e, g, f⟩ := put_holds hm h hi x
      exact ⟨v, _, bind_ok ((bind_ok (assert_pos hi m)).trans e), g, f⟩
    · rw [if_neg (by omega)]
      exact bind_error (bind_error (assert_neg hi m))
  | swap i j =>
    right
    simp only [Op.onList]
    cases hx : xs[i]? with
    | none =>
      have hi := List.getElem?_eq_none_iff.1 hx
      exact bind_error (bind_error (assert_neg (show ¬ i < v.len by omega) m))
    | some x =>
      have hi := (List.getElem?_eq_some_iff.1 hx).1
      cases hy : xs[j]? with
      | none =>
        have hj := List.getElem?_eq_none_iff.1 hy
        exact bind_error ((bind_ok (assert_pos (show i < v.len by omega) m)).trans (bind_error (assert_neg (show ¬ j < v.len by omega) m)))
      | some y =>
        have hj := (List.getElem?_eq_some_iff.1 hy).1
        obtain ⟨m', e, g, f⟩ := swap_ok hm h i j hx hy
        exact ⟨v, m', bind_ok ((bind_ok (assert_pos (show i < v.len by omega) m)).trans ((bind_ok (assert_pos (show j < v.len by omega) m)).trans e)), g, f⟩
  | reverse =>
    obtain ⟨m', e, g, f⟩ := reverse_ok hm h
    right; exact ⟨v, m', bind_ok e, g, f⟩
  | fill x =>
    obtain ⟨m', e, g, f⟩ := fill_ok hm h x
    right; exact ⟨v, m', bind_ok e, g, f⟩
  | consume n =>
    right
    simp only [Op.onList]
    by_cases hn : n ≤ xs.length
    · rw [if_pos hn]
      obtain ⟨a, v', e, ga, g, f⟩ := consume_ok hm h n hn
      have hr := read_ok (t := a) ga.2.2 (by rw [← ga.1]; exact ga.2.1) a.len 0 (by rw [ga.1]; omega)
      exact ⟨v', m, (bind_ok e).trans (bind_ok hr), g, f⟩
    · rw [if_neg hn]
      refine bind_error ?_
      unfold vecConsume
      rw [if_neg (by omega)]
      exact bind_error (assert_neg (show ¬ n ≤ v.len by omega) m)
  | consumeAll =>
    right
    obtain ⟨ga, g, f⟩ := consumeAll_ok hm h
    have hr := read_ok (t := (vecConsumeAll v).1) ga.2.2 (by rw [← ga.1]; exact ga.2.1) (vecConsumeAll v).1.len 0 (by rw [ga.1]; omega)
    exact ⟨_, m, bind_ok hr, g, f⟩

/-- C40: any sequence of operations on a vector gives the results the operations have on a list, up to the point where memory is exhausted, and ends with a vector that
holds the final list, or fails an assertion exactly where the list operation is not defined; it never touches memory outside the vector's buffer. -/
theorem run_list (ops : List (Op α)) : ∀ {m : Mem α} {v : Vec} {xs : List α}, WF m → VecHolds m v xs →
    (∃ rest, (onLists xs ops).1 = (run v m ops).1 ++ rest ∧ (run v m ops).2 = .error .oom) ∨
    ((run v m ops).1 = (onLists xs ops).1 ∧
      match (onLists xs ops).2 with
      | none => (run v m ops).2 = .error .assert
      | some ys => ∃ v' m', (run v m ops).2 = .ok (v', m') ∧ VecHolds m' v' ys ∧ Frame m v m' v') := by
  induction ops with
  | nil => intro m v xs hm h; right; exact ⟨rfl, v, m, rfl, h, Frame.refl hm v⟩
  | cons op ops ih =>
    intro m v xs hm h
    rcases step_list hm h op with ⟨e, _⟩ | hs
    · left
      refine ⟨(onLists xs (op :: ops)).1, ?_, ?_⟩ <;> simp [run, e]
    · cases ho : op.onList xs with
      | none =>
        rw [ho] at hs
        right
        simp only [onLists, ho, run]
        rw [hs]
        exact ⟨rfl, rfl⟩
      | some p =>
        obtain ⟨r, ys⟩ := p
        rw [ho] at hs
        obtain ⟨v', m', e, g, f⟩ := hs
        rcases ih f.wf g with ⟨rest, e1, e2⟩ | ⟨e1, e2⟩
        · left
          refine ⟨rest, ?_, ?_⟩
          · simp only [onLists, ho, run]; rw [e]; simp only [e1, List.cons_append]
          · simp only [run]; rw [e]; exact e2
        · right
          refine ⟨?_, ?_⟩
          · simp only [onLists, ho, run]; rw [e]; simp only [e1]
          · simp only [onLists, ho, run]; rw [e]; simp only
            cases hz : (onLists ys ops).2 with
            | none => rw [hz] at e2; exact e2
            | some zs =>
              rw [hz] at e2
              obtain ⟨v'', m'', e3, g3, f3⟩ := e2
              exact ⟨v'', m'', e3, g3, f.trans hm f3⟩

/-- C40: the length never exceeds the capacity, and the capacity is backed by memory. -/
theorem length_le_capacity (ops : List (Op α)) {m : Mem α} {v : Vec} {xs : List α} (hm : WF m) (h : VecHolds m v xs) {v' : Vec} {m' : Mem α}
    (e : (run v m ops).2 = .ok (v', m')) : v'.len ≤ v'.cap ∧ Room m' v'.ptr v'.cap := by
  rcases run_list ops hm h with ⟨_, _, e'⟩ | ⟨_, e'⟩
  · rw [e'] at e; simp at e
  · split at e'
    · rw [e'] at e; simp at e
    · obtain ⟨v'', m'', e2, g, _⟩ := e'
      rw [e2] at e; simp at e
      obtain ⟨rfl, rfl⟩ := e
      exact ⟨g.2.1, g.2.2.2.1⟩

/-- C40: an array that is not part of the vector's buffer, such as one returned by `vector/consume!`, keeps its elements whatever is done to the vector afterwards. -/
theorem others_keep (ops : List (Op α)) {m : Mem α} {v : Vec} {xs : List α} (hm : WF m) (h : VecHolds m v xs) {a : Arr} {zs : List α} (ha : ArrHolds m a zs)
    (hd : ∀ i : Nat, i < zs.length → ∀ b, a.ptr.blk = some b → ¬ InBuf v b (a.ptr.off + i)) {v' : Vec} {m' : Mem α} (e : (run v m ops).2 = .ok (v', m')) :
    ArrHolds m' a zs := by
  rcases run_list ops hm h with ⟨_, _, e'⟩ | ⟨_, e'⟩
  · rw [e'] at e; simp at e
  · split at e'
    · rw [e'] at e; simp at e
    · obtain ⟨v'', m'', e2, g, f⟩ := e'
      rw [e2] at e; simp at e
      obtain ⟨rfl, rfl⟩ := e
      refine ⟨ha.1, ha.2.1, fun i x hx => ?_⟩
      have hi := (List.getElem?_eq_some_iff.1 hx).1
      rw [f.rd (holds_room ha.2.2 i hi) (hd i hi)]
      exact ha.2.2 i x hx

/-- The arrays `vector/consume!` returns are not part of the remaining buffer. -/
theorem consume_apart {m : Mem α} {v : Vec} {xs : List α} (h : VecHolds m v xs) (n : Nat) (hn : n ≤ xs.length) (h0 : n ≠ 0) {a : Arr} {v' : Vec}
    (e : vecConsume n v m = .ok ((a, v'), m)) : ∀ i : Nat, i < n → ∀ b, a.ptr.blk = some b → ¬ InBuf v' b (a.ptr.off + i) := by
  have hmax := maxLen_eq
  have h1 := h.1
  have h2 := h.2.1
  have h3 := h.2.2.1
  unfold vecConsume at e
  rw [if_neg h0, bind_ok (assert_pos (show n ≤ v.len by omega) m), pure_apply, ptrAdd_small (by omega)] at e
  simp at e
  obtain ⟨rfl, rfl⟩ := e
  rintro i hi b _ ⟨_, ho, _⟩
  simp only at ho
  omega

/-- A new vector holds the empty list. -/
theorem empty_holds (m : Mem α) : VecHolds m vecEmpty [] :=
  ⟨rfl, Nat.le_refl _, Nat.zero_le _, by intro i hi; simp [vecEmpty, vecFromArray, arrEmpty] at hi, by intro i x hx; simp at hx⟩

/-- `vector/from-array` of an array holds the array's list. -/
theorem from_array_holds {m : Mem α} {t : Arr} {xs : List α} (h : ArrHolds m t xs) : VecHolds m (vecFromArray t) xs :=
  ⟨h.1, Nat.le_refl _, h.2.1, by have := holds_room h.2.2; rw [← h.1] at this; exact this, h.2.2⟩

/-- Memory before anything is allocated. -/
def Mem.init (α : Type) : Mem α := ⟨0, fun _ _ => none⟩

theorem init_wf : WF (Mem.init α) := fun _ _ _ => rfl

/-! ## Non-vacuity -/

def demo : List (Op Nat) :=
  [.push 1, .push 2, .push 3, .insert 1 9, .append [7, 8], .appendSelf, .reverse, .swapRemove 0, .remove 2, .swap 0 3, .set 1 5, .get 1, .get? 100, .consume 2, .pop,
    .reserveFree 100 true, .truncate 3, .fill 4, .push 6, .consumeAll, .pop, .insert 0 1, .clear, .get 0]

example : (run vecEmpty (Mem.init Nat) demo).1 = (onLists [] demo).1 ∧ (onLists [] demo).1.length = 23 ∧ (onLists [] demo).2 = none := by decide +kernel

example : (onLists ([] : List Nat) demo).1.drop 11 =
    [.val 5, .opt none, .arr [9, 5], .opt (some 9), .unit, .unit, .unit, .unit, .arr [4, 4, 4, 6], .opt none, .unit, .unit] := by decide

end Verif.Vector
