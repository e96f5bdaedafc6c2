import Verif.Vector.Ops

namespace Verif.Vector

variable {α : Type}

/-- Everything allocated before is unchanged. -/
def Old (m m' : Mem α) : Prop := WF m' ∧ ∀ b o, m.cell b o ≠ none → m'.cell b o = m.cell b o

theorem Old.holds {m m' : Mem α} (h : Old m m') {t : Arr} {xs : List α} (ht : ArrHolds m t xs) : ArrHolds m' t xs := by
  refine ⟨ht.1, ht.2.1, fun i x hx => ?_⟩
  have := ht.2.2 i x hx
  obtain ⟨b, hb⟩ := rd_isSome (m := m) (p := t.ptr) (i := i) (by rw [this]; simp)
  unfold rd at this ⊢; simp only [hb] at this ⊢
  rw [h.2 b _ (by rw [this]; simp)]; exact this

theorem fresh_old {m m' : Mem α} (hm : WF m) {n k : Nat} {v' : Vec} (f : Frame (m.grow n) ⟨m.fresh, k, n⟩ m' v') : Old m m' := by
  refine ⟨f.wf, fun b o hc => ?_⟩
  have hb := lt_next hm hc
  rw [f.keep b o (by rw [grow_cell _ _ (by omega)]; exact hc) (by rintro ⟨h, _⟩; simp [Mem.fresh] at h; omega), grow_cell _ _ (by omega)]

/-- Reading a part of an array in grown memory. -/
theorem part {m : Mem α} (hm : WF m) {p : Ptr} {xs : List α} (h : Holds m p xs) (n : Nat) {j : Int} (h0 : 0 ≤ j) (h1 : j < xs.length) :
    rd (m.grow n) p j = (xs[j.toNat]?).map some ∧ rd (m.grow n) p j ≠ none := by
  have hlt : j.toNat < xs.length := by omega
  have := h j.toNat _ (List.getElem?_eq_getElem hlt)
  rw [show (j.toNat : Int) = j by omega] at this
  rw [grow_rd hm n (by rw [this]; simp), this, List.getElem?_eq_getElem hlt]
  simp

/-- Two copies into a fresh block. -/
theorem two_copies {m : Mem α} (hm : WF m) {p q : Ptr} {xs ys : List α} (hp : Holds m p xs) (hq : Holds m q ys) {n a s c d : Nat}
    (ha : a ≤ xs.length) (hs : s + c ≤ ys.length) (han : a ≤ d) (hd : d + c ≤ n) :
    let m1 := (m.grow n).blit p a (m.fresh.at 0)
    let m2 := m1.blit (q.at s) c (m.fresh.at d)
    ptrCopy p a (m.fresh.at 0) (m.grow n) = .ok ((), m1) ∧ ptrCopy (q.at s) c (m.fresh.at d) m1 = .ok ((), m2) ∧
      Frame (m.grow n) ⟨m.fresh, n, n⟩ m2 ⟨m.fresh, n, n⟩ ∧ Room m2 m.fresh n ∧
      (∀ j : Nat, j < a → rd m2 m.fresh j = (xs[j]?).map some) ∧ (∀ j : Nat, j < c → rd m2 m.fresh (d + j : Nat) = (ys[s + j]?).map some) := by
  intro m1 m2
  have hroom := grow_room m n
  have hsrc1 : ∀ i : Nat, i < a → rd (m.grow n) p i ≠ none := fun i hi => (part hm hp n (by omega) (by omega)).2
  have hdst1 : ∀ i : Nat, i < a → rd (m.grow n) (m.fresh.at 0) i ≠ none := fun i hi => by rw [at_zero]; exact hroom i (by omega)
  have e1 : ptrCopy p a (m.fresh.at 0) (m.grow n) = .ok ((), m1) :=
    copy_ok hsrc1 hdst1 fun h0 => apart_fresh hm (holds_room hp 0 (by omega)) _ _
  have hrd1 : ∀ j : Int, rd m1 m.fresh j = if ((0 : Nat) : Int) ≤ j ∧ j < (0 : Nat) + a then rd (m.grow n) p (j - (0 : Nat)) else rd (m.grow n) m.fresh j :=
    fun j => rd_blit hdst1 j
  have f1 : Frame (m.grow n) ⟨m.fresh, n, n⟩ m1 ⟨m.fresh, n, n⟩ := frame_blit (v := ⟨m.fresh, n, n⟩) (grow_wf hm n) hroom (by simp only; omega) p _ fun _ _ h => h
  have hroom1 : Room m1 m.fresh n := by
    intro j hj
    rw [hrd1]; split
    · have := hsrc1 j (by omega)
      simpa using this
    · exact hroom j hj
  have hq1 : ∀ i : Int, 0 ≤ i → i < ys.length → rd m1 q i = (ys[i.toNat]?).map some ∧ rd m1 q i ≠ none := by
    intro i h0 h1
    have hpart := part hm hq n h0 h1
    have hne := holds_room hq i.toNat (by omega)
    rw [f1.rd hpart.2]
    · exact hpart
    · intro b hb hin
      obtain ⟨h, _⟩ := hin
      unfold rd at hne; simp only [hb] at hne
      have := lt_next hm hne
      simp [Mem.fresh] at h; omega
  have hsrc2 : ∀ i : Nat, i < c → rd m1 (q.at s) i ≠ none := fun i hi => by rw [rd_at]; exact (hq1 _ (by omega) (by omega)).2
  have hdst2 : ∀ i : Nat, i < c → rd m1 (m.fresh.at d) i ≠ none := fun i hi => by rw [rd_at]; have := hroom1 (d + i) (by omega); simpa using this
  have e2 : ptrCopy (q.at s) c (m.fresh.at d) m1 = .ok ((), m2) := by
    refine copy_ok hsrc2 hdst2 fun h0 => ?_
    have := holds_room hq (s + 0) (by omega)
    exact apart_fresh hm (p := q.at s) (i := 0) (by rw [rd_at]; simpa using this) _ _
  have f2 : Frame m1 ⟨m.fresh, n, n⟩ m2 ⟨m.fresh, n, n⟩ := frame_blit (v := ⟨m.fresh, n, n⟩) f1.wf hroom1 hd _ _ fun _ _ h => h
  have hrd2 : ∀ j : Int, rd m2 m.fresh j = if (d : Int) ≤ j ∧ j < d + c then rd m1 (q.at s) (j - d) else rd m1 m.fresh j := fun j => rd_blit hdst2 j
  refine ⟨e1, e2, f1.trans (grow_wf hm n) f2, ?_, ?_, ?_⟩
  · intro j hj
    rw [hrd2]; split
    · have := hsrc2 (j - d) (by omega)
      rwa [show ((j - d : Nat) : Int) = (j : Int) - d by omega] at this
    · exact hroom1 j hj
  · intro j hj
    rw [hrd2, if_neg (by omega), hrd1, if_pos (by omega)]
    have := (part hm hp n (j := j) (by omega) (by omega)).1
    simpa using this
  · intro j hj
    rw [hrd2, if_pos (by omega), rd_at]
    have := (hq1 (s + j : Nat) (by omega) (by omega)).1
    rw [show (s : Int) + (((d + j : Nat) : Int) - d) = ((s + j : Nat) : Int) by omega, this, Int.toNat_natCast]

theorem blit0 (m : Mem α) (src dst : Ptr) {n : Nat} (h : n = 0) : m.blit src n dst = m := by subst h; exact blit_zero m src dst

theorem when_copy {m : Mem α} {src dst : Ptr} {n : Nat} {p : Prop} [Decidable p] (h : ptrCopy src n dst m = .ok ((), m.blit src n dst)) (hp : ¬ p → n = 0) :
    when (decide p) (ptrCopy src n dst) m = .ok ((), m.blit src n dst) := by
  unfold when
  by_cases hc : p
  · simp only [hc, decide_true, if_true]; exact h
  · simp only [hc, decide_false, Bool.false_eq_true, if_false]
    rw [hp hc, blit_zero]; rfl

theorem arrInsert_ok {m : Mem α} (hm : WF m) {t : Arr} {xs : List α} (h : ArrHolds m t xs) (i : Nat) (x : α) (hi : i ≤ xs.length) (hs : xs.length < maxLen) :
    ∃ s m', arrInsert i x t m = .ok (s, m') ∧ ArrHolds m' s (xs.insertIdx i x) ∧ Old m m' := by
  have hmax := maxLen_eq
  obtain ⟨h1, h2, h3⟩ := h
  obtain ⟨e1, e2, f, hr, g1, g2⟩ := two_copies hm h3 h3 (n := t.len + 1) (a := i) (s := i) (c := t.len - i) (d := i + 1) (by omega) (by omega) (by omega) (by omega)
  have hri := hr i (by omega)
  have key : arrInsert i x t m = .ok (⟨m.fresh, t.len + 1⟩,
      (((m.grow (t.len + 1)).blit t.ptr i (m.fresh.at 0)).blit (t.ptr.at i) (t.len - i) (m.fresh.at (i + 1))).put (m.fresh.at i) x) := by
    have h1' : 0 ≤ i ∧ i ≤ t.len := by omega
    rw [at_zero] at e1 e2 hri ⊢
    unfold arrInsert
    rw [show (decide (0 ≤ i) && decide (i ≤ t.len)) = decide (0 ≤ i ∧ i ≤ t.len) by simp, bind_ok (assert_pos h1' m), add64_small (show t.len + 1 ≤ 2 ^ 62 by omega),
      bind_ok (alloc_ok (show t.len + 1 ≤ maxLen by omega)), bind_ok (when_copy e1 (by omega)), sub64_small (show t.len ≤ 2 ^ 62 by omega) (show i ≤ t.len by omega),
      add64_small (show i + 1 ≤ 2 ^ 62 by omega), ptrAdd_small (show i ≤ 2 ^ 62 by omega), ptrAdd_small (show i + 1 ≤ 2 ^ 62 by omega), bind_ok (when_copy e2 (by omega)),
      bind_ok (store_at (show i ≤ 2 ^ 62 by omega) x hri), pure_apply]
  have f2 := f.trans (grow_wf hm _) (frame_put (v := ⟨m.fresh, t.len + 1, t.len + 1⟩) f.wf hr (i := i) (by simp only; omega) x ⟨m.fresh, t.len + 1, t.len + 1⟩ fun _ _ h => h)
  refine ⟨_, _, key, ⟨by rw [List.length_insertIdx_of_le_length hi]; simp only; omega, by simp only; omega, ?_⟩, fresh_old hm f2⟩
  intro j y hy
  rw [rd_put x hri]
  rw [List.getElem?_insertIdx] at hy
  by_cases hj1 : j < i
  · rw [if_pos hj1] at hy
    rw [if_neg (by omega), g1 j hj1, hy]; rfl
  · rw [if_neg hj1] at hy
    by_cases hj2 : j = i
    · subst hj2
      rw [if_pos rfl, if_pos (by omega)] at hy
      simp at hy; subst hy; simp
    · rw [if_neg hj2] at hy
      have hj' := (List.getElem?_eq_some_iff.1 hy).1
      have := g2 (j - (i + 1)) (by omega)
      rw [show i + 1 + (j - (i + 1)) = j by omega, show i + (j - (i + 1)) = j - 1 by omega, hy] at this
      rw [if_neg (by omega), this]; rfl

theorem arrInsert_assert {m : Mem α} {t : Arr} {xs : List α} (h : ArrHolds m t xs) (i : Nat) (x : α) (hi : ¬ i ≤ xs.length) :
    arrInsert i x t m = .error .assert := by
  have h1 : ¬ (0 ≤ i ∧ i ≤ t.len) := by rw [h.1]; omega
  unfold arrInsert
  rw [show (decide (0 ≤ i) && decide (i ≤ t.len)) = decide (0 ≤ i ∧ i ≤ t.len) by simp, bind_error (assert_neg h1 m)]

theorem arrRemove_ok {m : Mem α} (hm : WF m) {t : Arr} {xs : List α} (h : ArrHolds m t xs) (i : Nat) (hi : i < xs.length) :
    ∃ s m', arrRemove i t m = .ok (s, m') ∧ ArrHolds m' s (xs.eraseIdx i) ∧ Old m m' := by
  have hmax := maxLen_eq
  obtain ⟨h1, h2, h3⟩ := h
  by_cases hone : t.len = 1
  · have hi0 : i = 0 := by omega
    subst hi0
    obtain ⟨y, rfl⟩ : ∃ y, xs = [y] := List.length_eq_one_iff.1 (by omega)
    refine ⟨arrEmpty, m, ?_, ⟨rfl, by simp [arrEmpty], by intro i x hx; simp at hx⟩, hm, fun _ _ _ => rfl⟩
    unfold arrRemove
    rw [sub64_small (show t.len ≤ 2 ^ 62 by omega) (show 1 ≤ t.len by omega),
      show (decide (t.len ≠ 0) && (decide (0 ≤ 0) && decide (0 ≤ t.len - 1))) = decide (t.len ≠ 0) by simp, bind_ok (assert_pos (show t.len ≠ 0 by omega) m), if_pos hone,
      pure_apply]
  obtain ⟨e1, e2, f, hr, g1, g2⟩ := two_copies hm h3 h3 (n := t.len - 1) (a := i) (s := i + 1) (c := t.len - 1 - i) (d := i) (by omega) (by omega) (by omega) (by omega)
  have key : arrRemove i t m = .ok (⟨m.fresh, t.len - 1⟩,
      (((m.grow (t.len - 1)).blit t.ptr i (m.fresh.at 0)).blit (t.ptr.at (i + 1)) (t.len - 1 - i) (m.fresh.at i))) := by
    have h1' : t.len ≠ 0 ∧ 0 ≤ i ∧ i ≤ t.len - 1 := by omega
    rw [at_zero] at e1 e2 ⊢
    unfold arrRemove
    rw [sub64_small (show t.len ≤ 2 ^ 62 by omega) (show 1 ≤ t.len by omega),
      show (decide (t.len ≠ 0) && (decide (0 ≤ i) && decide (i ≤ t.len - 1))) = decide (t.len ≠ 0 ∧ 0 ≤ i ∧ i ≤ t.len - 1) by simp, bind_ok (assert_pos h1' m),
      if_neg hone, bind_ok (alloc_ok (show t.len - 1 ≤ maxLen by omega)), bind_ok (when_copy e1 (by omega)), sub64_small (show t.len ≤ 2 ^ 62 by omega) (show i ≤ t.len by omega),
      sub64_small (show t.len - i ≤ 2 ^ 62 by omega) (show 1 ≤ t.len - i by omega), add64_small (show i + 1 ≤ 2 ^ 62 by omega),
      ptrAdd_small (show i ≤ 2 ^ 62 by omega), ptrAdd_small (show i + 1 ≤ 2 ^ 62 by omega), show t.len - i - 1 = t.len - 1 - i by omega, bind_ok (when_copy e2 (by omega)), pure_apply]
  refine ⟨_, _, key, ⟨by rw [List.length_eraseIdx_of_lt hi]; simp only; omega, by simp only; omega, ?_⟩, fresh_old hm f⟩
  intro j y hy
  rw [List.getElem?_eraseIdx] at hy
  by_cases hj1 : j < i
  · rw [if_pos hj1] at hy
    simp only
    rw [g1 j hj1, hy]; rfl
  · rw [if_neg hj1] at hy
    have hj' := (List.getElem?_eq_some_iff.1 hy).1
    have := g2 (j - i) (by omega)
    rw [show i + (j - i) = j by omega, show i + 1 + (j - i) = j + 1 by omega, hy] at this
    rw [this]; rfl

theorem arrRemove_assert {m : Mem α} {t : Arr} {xs : List α} (h : ArrHolds m t xs) (i : Nat) (hi : ¬ i < xs.length) : arrRemove i t m = .error .assert := by
  have hmax := maxLen_eq
  have h1 := h.1
  have h2 := h.2.1
  unfold arrRemove
  rw [show (decide (t.len ≠ 0) && (decide (0 ≤ i) && decide (i ≤ sub64 t.len 1))) = decide (t.len ≠ 0 ∧ 0 ≤ i ∧ i ≤ sub64 t.len 1) by simp]
  by_cases h0 : t.len = 0
  · rw [bind_error (assert_neg (by rintro ⟨h, _⟩; exact h h0) m)]
  · rw [sub64_small (show t.len ≤ 2 ^ 62 by omega) (show 1 ≤ t.len by omega), bind_error (assert_neg (by omega) m)]

theorem arrShallowCopy_ok {m : Mem α} (hm : WF m) {t : Arr} {xs : List α} (h : ArrHolds m t xs) :
    ∃ s m', arrShallowCopy t m = .ok (s, m') ∧ ArrHolds m' s xs ∧ Old m m' ∧ VecHolds m' ⟨s.ptr, s.len, s.len⟩ xs ∧
      Frame (m.grow t.len) ⟨m.fresh, t.len, t.len⟩ m' ⟨m.fresh, t.len, t.len⟩ ∧ s = ⟨m.fresh, t.len⟩ := by
  obtain ⟨h1, h2, h3⟩ := h
  obtain ⟨e1, e2, f, hr, g1, g2⟩ := two_copies hm h3 h3 (n := t.len) (a := t.len) (s := 0) (c := 0) (d := t.len) (by omega) (by omega) (by omega) (by omega)
  rw [blit_zero] at f hr g1
  have hh : Holds ((m.grow t.len).blit t.ptr t.len (m.fresh.at 0)) m.fresh xs := by
    intro j y hy
    have hj := (List.getElem?_eq_some_iff.1 hy).1
    rw [g1 j (by omega), hy]; rfl
  refine ⟨⟨m.fresh, t.len⟩, _, ?_, ⟨h1, h2, hh⟩, fresh_old hm f, ⟨h1, Nat.le_refl _, h2, hr, hh⟩, f, rfl⟩
  unfold arrShallowCopy
  simp only [bind_apply, alloc_ok h2]
  rw [at_zero] at e1 ⊢
  simp only [e1, pure_apply]

theorem arrUpdate_ok {m : Mem α} (hm : WF m) {t : Arr} {xs : List α} (h : ArrHolds m t xs) (i : Nat) (x : α) (hi : i < xs.length) :
    ∃ s m', arrUpdate i x t m = .ok (s, m') ∧ ArrHolds m' s (xs.set i x) ∧ Old m m' := by
  have hmax := maxLen_eq
  have h1 := h.1
  have h2 := h.2.1
  obtain ⟨s, m', e, g, o, vh, f, rfl⟩ := arrShallowCopy_ok hm h
  obtain ⟨e1, g1, f1⟩ := put_holds o.1 vh (i := i) (by simp only; omega) x
  refine ⟨⟨m.fresh, t.len⟩, _, ?_, ⟨g1.1, h2, g1.2.2.2.2⟩, fresh_old hm (f.trans (grow_wf hm _) f1)⟩
  unfold arrUpdate arrUnsafeSet
  rw [sub64_small (show t.len ≤ 2 ^ 62 by omega) (show 1 ≤ t.len by omega), show (decide (0 ≤ i) && decide (i ≤ t.len - 1)) = decide (0 ≤ i ∧ i ≤ t.len - 1) by simp,
    bind_ok (assert_pos (by omega) m), bind_ok e, bind_ok e1, pure_apply]

theorem arrUpdate_assert {m : Mem α} {t : Arr} {xs : List α} (h : ArrHolds m t xs) (i : Nat) (x : α) (hne : xs ≠ []) (hi : ¬ i < xs.length) :
    arrUpdate i x t m = .error .assert := by
  have hmax := maxLen_eq
  have h1 := h.1
  have h2 := h.2.1
  have : xs.length ≠ 0 := by simpa using hne
  unfold arrUpdate
  rw [sub64_small (show t.len ≤ 2 ^ 62 by omega) (show 1 ≤ t.len by omega), show (decide (0 ≤ i) && decide (i ≤ t.len - 1)) = decide (0 ≤ i ∧ i ≤ t.len - 1) by simp,
    bind_error (assert_neg (by omega) m)]

theorem arrSubarray_ok {m : Mem α} {t : Arr} {xs : List α} (h : ArrHolds m t xs) (s e : Nat) :
    (if s ≤ e ∧ e ≤ xs.length then ∃ r, arrSubarray s e t m = .ok (r, m) ∧ ArrHolds m r ((xs.drop s).take (e - s)) else arrSubarray s e t m = .error .assert) := by
  have hmax := maxLen_eq
  obtain ⟨h1, h2, h3⟩ := h
  unfold arrSubarray
  by_cases hc : s ≤ e ∧ e ≤ xs.length
  · rw [if_pos hc]
    simp only [bind_apply, hc.1, show e ≤ t.len by omega, decide_true, Bool.and_self, assert_true, pure_apply]
    rw [ptrAdd_small (by omega), sub64_small (by omega) (by omega)]
    refine ⟨_, rfl, by simp; omega, by simp only; omega, fun j y hy => ?_⟩
    rw [List.getElem?_take] at hy
    split at hy
    · rw [List.getElem?_drop] at hy
      rw [rd_at]
      have := h3 _ y hy
      simpa using this
    · simp at hy
  · rw [if_neg hc]
    have : (decide (s ≤ e) && decide (e ≤ t.len)) = false := by
      rw [← Bool.not_eq_true]; simp; rw [h1]; intro h; omega
    simp only [bind_apply, this, assert_false]

theorem arrConcat_ok {m : Mem α} (hm : WF m) {a b : Arr} {xs ys : List α} (ha : ArrHolds m a xs) (hb : ArrHolds m b ys) (hs : xs.length + ys.length ≤ maxLen) :
    ∃ s m', arrConcat a b m = .ok (s, m') ∧ ArrHolds m' s (xs ++ ys) ∧ Old m m' := by
  have hmax := maxLen_eq
  have ha1 := ha.1
  have hb1 := hb.1
  unfold arrConcat
  by_cases h0 : a.len = 0
  · have : xs = [] := List.eq_nil_of_length_eq_zero (by omega)
    subst this
    rw [if_pos h0]
    exact ⟨b, m, rfl, hb, hm, fun _ _ _ => rfl⟩
  · rw [if_neg h0]
    by_cases h0' : b.len = 0
    · have : ys = [] := List.eq_nil_of_length_eq_zero (by omega)
      subst this
      rw [if_pos h0', List.append_nil]
      exact ⟨a, m, rfl, ha, hm, fun _ _ _ => rfl⟩
    · rw [if_neg h0']
      obtain ⟨e1, e2, f, hr, g1, g2⟩ := two_copies hm ha.2.2 hb.2.2 (n := a.len + b.len) (a := a.len) (s := 0) (c := b.len) (d := a.len) (by omega) (by omega) (by omega) (by omega)
      rw [at_zero b.ptr] at e2 f hr g1 g2
      rw [at_zero] at e1 e2 f hr g1 g2
      refine ⟨⟨m.fresh, a.len + b.len⟩, _, ?_, ⟨by simp; omega, by simp only; omega, ?_⟩, fresh_old hm f⟩
      · simp only [bind_apply, add64_small (show a.len + b.len ≤ 2 ^ 62 by omega), alloc_ok (show a.len + b.len ≤ maxLen by omega)]
        simp only [arrCopy, bind_apply, Nat.le_add_right, decide_true, assert_true, e1, arrSkip, arrSubarray, Nat.min_eq_left (show a.len ≤ a.len + b.len by omega),
          Nat.le_refl, Bool.and_self, pure_apply]
        rw [ptrAdd_small (by omega), sub64_small (by omega) (by omega), Nat.add_sub_cancel_left]
        simp only [Nat.le_refl, decide_true, assert_true, e2]
      · intro j y hy
        by_cases hj : j < xs.length
        · rw [List.getElem?_append_left hj] at hy
          simp only
          rw [g1 j (by omega), hy]; rfl
        · rw [List.getElem?_append_right (by omega)] at hy
          have hj' := (List.getElem?_eq_some_iff.1 hy).1
          have := g2 (j - a.len) (by omega)
          rw [show a.len + (j - a.len) = j by omega, Nat.zero_add, show j - a.len = j - xs.length by omega, hy] at this
          rw [this]; rfl

end Verif.Vector
