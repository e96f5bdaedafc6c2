import Verif.Vector.Lemmas

namespace Verif.Vector

variable {α : Type}

/-! ## Changing the elements in place -/

theorem put_holds {m : Mem α} {v : Vec} {xs : List α} (hm : WF m) (h : VecHolds m v xs) {i : Nat} (hi : i < v.len) (x : α) :
    ptrStoreAt i x v.ptr m = .ok ((), m.put (v.ptr.at i) x) ∧ VecHolds (m.put (v.ptr.at i) x) v (xs.set i x) ∧ Frame m v (m.put (v.ptr.at i) x) v := by
  obtain ⟨h1, h2, h3, h4, h5⟩ := h
  have hc : i < v.cap := by omega
  have hmax := maxLen_eq
  refine ⟨store_at (by omega) x (h4 i hc), ⟨by simpa using h1, h2, h3, ?_, ?_⟩, frame_put hm h4 hc x v fun _ _ h => h⟩
  · intro j hj
    rw [rd_put x (h4 i hc)]; split
    · simp
    · exact h4 j hj
  · intro j y hy
    rw [rd_put x (h4 i hc)]
    rw [List.getElem?_set] at hy
    by_cases hij : i = j
    · subst hij; simp at hy; simp [hy.2]
    · simp only [hij, if_false] at hy
      rw [if_neg (by omega)]; exact h5 j y hy

theorem swap_ok {m : Mem α} {v : Vec} {xs : List α} (hm : WF m) (h : VecHolds m v xs) (i j : Nat) {x y : α} (hx : xs[i]? = some x) (hy : xs[j]? = some y) :
    ∃ m', arrSwap i j (vecBuffer v) m = .ok ((), m') ∧ VecHolds m' v ((xs.set i y).set j x) ∧ Frame m v m' v := by
  have hi := (List.getElem?_eq_some_iff.1 hx).1
  have hj := (List.getElem?_eq_some_iff.1 hy).1
  have hl := h.1
  have hmax := maxLen_eq
  have := h.2.1
  have := h.2.2.1
  simp only [arrSwap, vecBuffer, show i < v.len by omega, show j < v.len by omega, decide_true, bind_apply, assert_true]
  by_cases hij : i = j
  · subst hij
    rw [hx] at hy; simp at hy; subst hy
    refine ⟨m, by simp [pure_apply], ?_, Frame.refl hm v⟩
    rw [List.set_set]
    have : xs.set i x = xs := by
      have hx' := (List.getElem?_eq_some_iff.1 hx).2
      rw [← hx', List.set_getElem_self]
    rw [this]; exact h
  · simp only [ne_eq, hij, not_false_eq_true, if_true, arrUnsafeGet, arrUnsafeSet, bind_apply]
    rw [load_at (by omega) (h.2.2.2.2 i x hx)]; simp only
    rw [load_at (by omega) (h.2.2.2.2 j y hy)]; simp only
    obtain ⟨e1, g1, f1⟩ := put_holds hm h (show i < v.len by omega) y
    rw [e1]; simp only
    obtain ⟨e2, g2, f2⟩ := put_holds f1.wf g1 (show j < v.len by omega) x
    exact ⟨_, e2, g2, f1.trans hm f2⟩

theorem fill_ok {m : Mem α} {v : Vec} {xs : List α} (hm : WF m) (h : VecHolds m v xs) (x : α) :
    ∃ m', arrFill x (vecBuffer v) m = .ok ((), m') ∧ VecHolds m' v (List.replicate xs.length x) ∧ Frame m v m' v := by
  have hl := h.1
  have hmax := maxLen_eq
  have := h.2.1
  have := h.2.2.1
  have loop : ∀ (n i : Nat) (m : Mem α) (ys : List α), WF m → VecHolds m v ys → i ≤ ys.length → ys.length - i < n → (∀ j, j < i → ys[j]? = some x) →
      ∃ m', arrFillLoop x (vecBuffer v) n i m = .ok ((), m') ∧ VecHolds m' v (List.replicate ys.length x) ∧ Frame m v m' v := by
    intro n
    induction n with
    | zero => intro i m ys _ _ _ hn; omega
    | succ n ih =>
      intro i m ys hm h hi hn hys
      have hl := h.1
      unfold arrFillLoop
      by_cases hlt : i < v.len
      · rw [if_pos (show i < (vecBuffer v).len from hlt)]
        simp only [bind_apply, arrUnsafeSet]
        obtain ⟨e1, g1, f1⟩ := put_holds hm h hlt x
        rw [show (vecBuffer v).ptr = v.ptr from rfl, e1, add64_small (by omega)]; simp only
        obtain ⟨m', e2, g2, f2⟩ := ih (i + 1) _ _ f1.wf g1 (by simp; omega) (by simp; omega) (by
          intro j hj
          rw [List.getElem?_set]
          by_cases hij : i = j
          · simp [hij]; omega
          · simp only [hij, if_false]; exact hys j (by omega))
        simp at g2
        exact ⟨m', e2, g2, f1.trans hm f2⟩
      · rw [if_neg (show ¬ i < (vecBuffer v).len from hlt)]
        have : ys = List.replicate ys.length x := by
          apply List.ext_getElem?
          intro j
          rw [List.getElem?_replicate]
          split
          · exact hys j (by omega)
          · exact List.getElem?_eq_none (by omega)
        exact ⟨m, rfl, this ▸ h, Frame.refl hm v⟩
  have := loop ((vecBuffer v).len + 1) 0 m xs hm h (by omega) (by simp [vecBuffer]; omega) (by intro j hj; omega)
  exact this

theorem getElem?_reverse' (xs : List α) (j : Nat) (h : j < xs.length) : xs.reverse[j]? = xs[xs.length - 1 - j]? := by
  rw [List.getElem?_reverse h]

theorem reverse_ok {m : Mem α} {v : Vec} {xs : List α} (hm : WF m) (h : VecHolds m v xs) :
    ∃ m', arrReverse (vecBuffer v) m = .ok ((), m') ∧ VecHolds m' v xs.reverse ∧ Frame m v m' v := by
  have hl := h.1
  have hmax := maxLen_eq
  have := h.2.1
  have := h.2.2.1
  have loop : ∀ (n i : Nat) (m : Mem α) (ys : List α), WF m → VecHolds m v ys → i ≤ v.len / 2 → v.len / 2 - i < n →
      (∀ j, j < v.len → ys[j]? = if j < i ∨ v.len - i ≤ j then xs[v.len - 1 - j]? else xs[j]?) →
      ∃ m', arrReverseLoop (vecBuffer v) (v.len / 2) (sub64 v.len 1) n i m = .ok ((), m') ∧ VecHolds m' v xs.reverse ∧ Frame m v m' v := by
    intro n
    induction n with
    | zero => intro i m ys _ _ _ hn; omega
    | succ n ih =>
      intro i m ys hm h hi hn hys
      have hly := h.1
      unfold arrReverseLoop
      by_cases hlt : i < v.len / 2
      · rw [sub64_small (show v.len ≤ 2 ^ 62 by omega) (show 1 ≤ v.len by omega)] at ih ⊢
        simp only [hlt, if_true, bind_apply]
        rw [sub64_small (show v.len - 1 ≤ 2 ^ 62 by omega) (show i ≤ v.len - 1 by omega), add64_small (by omega)]
        obtain ⟨m1, e1, g1, f1⟩ := swap_ok hm h i (v.len - 1 - i) (x := ys[i]) (y := ys[v.len - 1 - i]) (List.getElem?_eq_getElem (by omega))
          (List.getElem?_eq_getElem (by omega))
        rw [e1]; simp only
        obtain ⟨m', e2, g2, f2⟩ := ih (i + 1) _ _ f1.wf g1 (by omega) (by omega) (by
          intro j hj
          have hyi := hys i (by omega)
          have hyk := hys (v.len - 1 - i) (by omega)
          rw [if_neg (by omega), List.getElem?_eq_getElem (by omega)] at hyi hyk
          rw [List.getElem?_set, List.getElem?_set]
          simp only [List.length_set]
          by_cases h1 : v.len - 1 - i = j
          · subst h1
            rw [if_pos rfl, if_pos (by omega), if_pos (by omega), hyi]
            congr 1; omega
          · rw [if_neg h1]
            by_cases h2 : i = j
            · subst h2
              rw [if_pos rfl, if_pos (by omega), if_pos (by omega), hyk]
            · rw [if_neg h2, hys j hj]
              by_cases h3 : j < i ∨ v.len - i ≤ j
              · rw [if_pos h3, if_pos (by omega)]
              · rw [if_neg h3, if_neg (by omega)])
        exact ⟨m', e2, g2, f1.trans hm f2⟩
      · simp only [hlt, if_false, pure_apply]
        have : ys = xs.reverse := by
          apply List.ext_getElem?
          intro j
          by_cases hj : j < v.len
          · rw [getElem?_reverse' _ _ (by omega), hys j hj]
            by_cases h3 : j < i ∨ v.len - i ≤ j
            · rw [if_pos h3, hl]
            · rw [if_neg h3]; congr 1; omega
          · rw [List.getElem?_eq_none (by omega), List.getElem?_eq_none (by simp; omega)]
        exact ⟨m, rfl, this ▸ h, Frame.refl hm v⟩
  exact loop (v.len / 2 + 1) 0 m xs hm h (by omega) (by omega) (by intro j hj; rw [if_neg (by omega)])

/-! ## Growing -/

theorem mul64_small {a b : Nat} (h : a * b ≤ 2 ^ 62) : mul64 a b = a * b := by unfold mul64; omega

theorem reserve_ok {m : Mem α} {v : Vec} {xs : List α} (hm : WF m) (h : VecHolds m v xs) (req : Nat) (ex : Bool) :
    (vecReserveCapacity req ex v m = .error .oom ∧ maxLen < 4 + 2 * v.cap + req) ∨
    ∃ v' m', vecReserveCapacity req ex v m = .ok (v', m') ∧ VecHolds m' v' xs ∧ Frame m v m' v' ∧ req ≤ v'.cap := by
  have hmax := maxLen_eq
  obtain ⟨h1, h2, h3, h4, h5⟩ := h
  unfold vecReserveCapacity
  by_cases hlt : v.cap < req
  · simp only [hlt, if_true, bind_apply]
    generalize hn : (if ex = true then req else max req (mul64 2 (max 2 v.cap))) = newCap
    have hle : req ≤ newCap := by rw [← hn]; split <;> omega
    have hbound : newCap ≤ 4 + 2 * v.cap + req := by
      rw [← hn]; split
      · omega
      · rw [mul64_small (by omega)]; omega
    by_cases hcap : newCap ≤ maxLen
    · right
      rw [alloc_ok hcap]; simp only
      have hroom : Room m v.ptr v.len := by rw [h1]; exact holds_room h5
      have hsrc : ∀ i : Nat, i < v.len → rd (m.grow newCap) v.ptr i ≠ none := fun i hi => by rw [grow_rd hm _ (hroom i hi)]; exact hroom i hi
      have hdst : ∀ i : Nat, i < v.len → rd (m.grow newCap) m.fresh i ≠ none := fun i hi => grow_room m newCap i (by omega)
      rw [copy_ok hsrc hdst fun h0 => apart_fresh0 hm (hroom 0 (by omega)) _]
      simp only [pure_apply]
      refine ⟨_, _, rfl, ⟨h1, by simp only; omega, hcap, ?_, ?_⟩, ?_, hle⟩
      · intro i hi
        have := rd_blit (m := m.grow newCap) (src := v.ptr) (p := m.fresh) (k := 0) (n := v.len) (by rw [at_zero]; exact hdst) i
        rw [at_zero] at this
        rw [this]
        simp only at hi
        split
        · simp only [Int.natCast_zero, Int.sub_zero]; exact hsrc i (by omega)
        · exact grow_room m newCap i hi
      · intro i x hx
        have hi := (List.getElem?_eq_some_iff.1 hx).1
        have := rd_blit (m := m.grow newCap) (src := v.ptr) (p := m.fresh) (k := 0) (n := v.len) (by rw [at_zero]; exact hdst) i
        rw [at_zero] at this
        rw [this, if_pos (by omega)]
        simp only [Int.natCast_zero, Int.sub_zero]
        rw [grow_rd hm _ (hroom i (by omega))]; exact h5 i x hx
      · refine ⟨?_, by simp [Mem.blit, Mem.grow], ?_, ?_⟩
        · have := frame_blit (v := ⟨m.fresh, v.len, newCap⟩) (grow_wf hm newCap) (grow_room m newCap) (k := 0) (n := v.len) (by simp only; omega) v.ptr ⟨m.fresh, v.len, newCap⟩ fun _ _ h => h
          rw [at_zero] at this; exact this.wf
        · intro b o hc _
          have hb := lt_next hm hc
          have := cell_blit (m.grow newCap) v.ptr m.fresh 0 v.len (b := b) (o := o) (by rintro ⟨h, _⟩; simp [Mem.fresh] at h; omega)
          rw [at_zero] at this
          rw [this, grow_cell _ _ (by omega)]
        · rintro b o ⟨h, _⟩
          simp [Mem.fresh] at h; right; omega
    · left
      rw [alloc_oom hcap]; exact ⟨rfl, by omega⟩
  · right
    simp only [hlt, if_false, pure_apply]
    exact ⟨v, m, rfl, ⟨h1, h2, h3, h4, h5⟩, Frame.refl hm v, by omega⟩

theorem reserveFree_ok {m : Mem α} {v : Vec} {xs : List α} (hm : WF m) (h : VecHolds m v xs) (n : Nat) (ex : Bool) :
    (vecReserveFree n ex v m = .error .oom ∧ maxLen < 4 + 2 * v.cap + v.len + n) ∨
    ∃ v' m', vecReserveFree n ex v m = .ok (v', m') ∧ VecHolds m' v' xs ∧ Frame m v m' v' ∧ (n ≤ maxLen → v'.len + n ≤ v'.cap) := by
  have hmax := maxLen_eq
  have h1 := h.1
  have h2 := h.2.1
  have h3 := h.2.2.1
  unfold vecReserveFree
  rcases reserve_ok hm h (add64 v.len n) ex with ⟨e, hb⟩ | ⟨v', m', e, g, f, hc⟩
  · left
    refine ⟨e, ?_⟩
    have : add64 v.len n ≤ v.len + n := by unfold add64; exact Nat.mod_le _ _
    omega
  · right
    refine ⟨v', m', e, g, f, fun hn => ?_⟩
    rw [add64_small (by omega)] at hc
    have := g.1
    omega

theorem push_ok {m : Mem α} {v : Vec} {xs : List α} (hm : WF m) (h : VecHolds m v xs) (x : α) :
    (vecPush x v m = .error .oom ∧ maxLen < 4 + 2 * v.cap + v.len + 1) ∨
    ∃ v' m', vecPush x v m = .ok (v', m') ∧ VecHolds m' v' (xs ++ [x]) ∧ Frame m v m' v' := by
  have hmax := maxLen_eq
  simp only [vecPush, bind_apply]
  rcases reserveFree_ok hm h 1 false with ⟨e, hb⟩ | ⟨v1, m1, e, ⟨g1, g2, g3, g4, g5⟩, f, hc⟩
  · left; rw [e]; exact ⟨rfl, hb⟩
  · right
    rw [e]
    have hc := hc (by omega)
    have hroom := g4 v1.len (by omega)
    simp only [store_at (by omega : v1.len ≤ 2 ^ 62) x hroom, pure_apply]
    rw [add64_small (by omega)]
    refine ⟨_, _, rfl, ⟨by simp; omega, by simp only; omega, g3, ?_, ?_⟩, f.trans hm (frame_put f.wf g4 (by omega) x _ fun _ _ h => h)⟩
    · intro j hj
      rw [rd_put x hroom]; split
      · simp
      · exact g4 j hj
    · intro j y hy
      rw [rd_put x hroom]
      by_cases hj : j < xs.length
      · rw [List.getElem?_append_left hj] at hy
        rw [if_neg (by omega)]; exact g5 j y hy
      · have hj' := (List.getElem?_eq_some_iff.1 hy).1
        simp at hj'
        have : j = xs.length := by omega
        subst this
        simp at hy; subst hy
        rw [if_pos (by omega)]

/-- Appending an array whose cells are not in the free part of the vector's buffer. -/
theorem append_ok {m : Mem α} {v : Vec} {xs ys : List α} {a : Arr} (hm : WF m) (h : VecHolds m v xs) (ha : ArrHolds m a ys)
    (hd : ∀ i : Nat, i < ys.length → ¬ (a.ptr.blk = v.ptr.blk ∧ v.ptr.off + v.len ≤ a.ptr.off + i ∧ a.ptr.off + i < v.ptr.off + v.cap)) :
    (vecAppend a v m = .error .oom ∧ maxLen < 4 + 2 * v.cap + v.len + ys.length) ∨
    ∃ v' m', vecAppend a v m = .ok (v', m') ∧ VecHolds m' v' (xs ++ ys) ∧ Frame m v m' v' := by
  have hmax := maxLen_eq
  obtain ⟨ha1, ha2, ha3⟩ := ha
  simp only [vecAppend, bind_apply]
  -- the state after reserving, with the array still apart from the free part
  have key : (vecReserveFree a.len false v m = .error .oom ∧ maxLen < 4 + 2 * v.cap + v.len + a.len) ∨
      ∃ v1 m1, vecReserveFree a.len false v m = .ok (v1, m1) ∧ VecHolds m1 v1 xs ∧ Frame m v m1 v1 ∧ v1.len + a.len ≤ v1.cap ∧ Holds m1 a.ptr ys ∧
        (a.len ≠ 0 → apart a.ptr (v1.ptr.at v1.len) a.len = true) := by
    rcases reserveFree_ok hm h a.len false with ⟨e, hb⟩ | ⟨v1, m1, e, g, f, hc⟩
    · left; exact ⟨e, hb⟩
    · right
      have hc := hc ha2
      refine ⟨v1, m1, e, g, f, hc, ?_⟩
      -- either nothing happened or the buffer is new and memory only grew
      unfold vecReserveFree vecReserveCapacity at e
      by_cases hlt : v.cap < add64 v.len a.len
      · simp only [hlt, if_true, bind_apply] at e
        generalize (if false = true then _ else _) = newCap at e
        by_cases hcap : newCap ≤ maxLen
        · rw [alloc_ok hcap] at e; simp only at e
          have hroom : Room m v.ptr v.len := by rw [h.1]; exact holds_room h.2.2.2.2
          have hcopy : ptrCopy v.ptr v.len m.fresh (m.grow newCap) = .ok ((), (m.grow newCap).blit v.ptr v.len m.fresh) ∨ ∃ er, ptrCopy v.ptr v.len m.fresh (m.grow newCap) = .error er := by
            unfold ptrCopy
            by_cases h0 : v.len = 0
            · left; rw [h0, blit_zero]; simp
            · simp only [h0, if_false]
              split
              · split
                · left; rfl
                · right; exact ⟨_, rfl⟩
              · right; exact ⟨_, rfl⟩
          rcases hcopy with hcopy | ⟨er, hcopy⟩
          · rw [hcopy] at e; simp only [pure_apply] at e
            simp at e
            obtain ⟨rfl, rfl⟩ := e
            constructor
            · intro i y hy
              have hi := (List.getElem?_eq_some_iff.1 hy).1
              have hne := holds_room ha3 i hi
              obtain ⟨b, hb⟩ := rd_isSome hne
              have hc' := hne
              unfold rd at hc'; simp only [hb] at hc'
              have hlt' := lt_next hm hc'
              have := ha3 i y hy
              unfold rd at this ⊢; simp only [hb] at this ⊢
              have hcb := cell_blit (m.grow newCap) v.ptr m.fresh 0 v.len (b := b) (o := a.ptr.off + i) (by rintro ⟨h, _⟩; simp [Mem.fresh] at h; omega)
              rw [at_zero] at hcb
              rw [hcb, grow_cell _ _ (by omega)]; exact this
            · intro h0
              exact apart_fresh hm (holds_room ha3 0 (by omega)) _ _
          · rw [hcopy] at e; simp at e
        · rw [alloc_oom hcap] at e; simp at e
      · simp only [hlt, if_false, pure_apply] at e
        simp at e
        obtain ⟨rfl, rfl⟩ := e
        refine ⟨ha3, fun h0 => ?_⟩
        simp only [apart, Bool.or_eq_true, decide_eq_true_eq]
        by_cases hblk : a.ptr.blk = v.ptr.blk
        · have h1 := hd 0 (by omega)
          have h2 := hd (ys.length - 1) (by omega)
          rcases Int.lt_or_le a.ptr.off (v.ptr.off + v.len) with hlo | hhi
          · -- the array starts before the free part and so ends before it
            left; right
            have hall : ∀ k : Nat, k < ys.length → a.ptr.off + k < v.ptr.off + v.len := by
              intro k
              induction k with
              | zero => intro _; omega
              | succ k ih =>
                intro hk
                have := ih (by omega)
                have := hd (k + 1) hk
                rw [hblk] at this
                have : ¬ (v.ptr.off + v.len ≤ a.ptr.off + (k + 1 : Nat) ∧ a.ptr.off + (k + 1 : Nat) < v.ptr.off + v.cap) := fun hh => this ⟨rfl, hh⟩
                omega
            have := hall (ys.length - 1) (by omega)
            omega
          · right
            have : ¬ (v.ptr.off + v.len ≤ a.ptr.off + (0 : Nat) ∧ a.ptr.off + (0 : Nat) < v.ptr.off + v.cap) := fun hh => h1 ⟨hblk, hh⟩
            omega
        · left; left; simpa [Ptr.at] using hblk
  rcases key with ⟨e, hb⟩ | ⟨v1, m1, e, ⟨g1, g2, g3, g4, g5⟩, f, hc, hold, hap⟩
  · left; rw [e]; exact ⟨rfl, by omega⟩
  · right
    rw [e]
    have hdst : ∀ i : Nat, i < a.len → rd m1 (v1.ptr.at v1.len) i ≠ none := fun i hi => by
      rw [rd_at]; have := g4 (v1.len + i) (by omega); simpa using this
    have hsrc : ∀ i : Nat, i < a.len → rd m1 a.ptr i ≠ none := fun i hi => holds_room hold i (by omega)
    simp only [ptrAdd_small (by omega : v1.len ≤ 2 ^ 62), copy_ok hsrc hdst hap, pure_apply]
    rw [add64_small (by omega)]
    refine ⟨_, _, rfl, ⟨by simp; omega, hc, g3, ?_, ?_⟩, f.trans hm (frame_blit f.wf g4 hc a.ptr _ fun _ _ h => h)⟩
    · intro j hj
      rw [rd_blit hdst]; split
      · have := hsrc ((j : Int) - v1.len).toNat (by omega)
        rw [show (((j : Int) - v1.len).toNat : Int) = (j : Int) - v1.len by omega] at this
        exact this
      · exact g4 j hj
    · intro j y hy
      rw [rd_blit hdst]
      by_cases hj : j < xs.length
      · rw [List.getElem?_append_left hj] at hy
        rw [if_neg (by omega)]; exact g5 j y hy
      · rw [List.getElem?_append_right (by omega)] at hy
        have hj' := (List.getElem?_eq_some_iff.1 hy).1
        rw [if_pos (by omega)]
        have := hold _ y hy
        rw [show ((j - xs.length : Nat) : Int) = (j : Int) - v1.len by omega] at this
        exact this

theorem insert_ok {m : Mem α} {v : Vec} {xs : List α} (hm : WF m) (h : VecHolds m v xs) (i : Nat) (x : α) :
    (vecInsert i x v m = .error .oom ∧ maxLen < 4 + 2 * v.cap + v.len + 1) ∨
    (if i ≤ xs.length then ∃ v' m', vecInsert i x v m = .ok (v', m') ∧ VecHolds m' v' (xs.insertIdx i x) ∧ Frame m v m' v'
      else vecInsert i x v m = .error .assert) := by
  have hmax := maxLen_eq
  unfold vecInsert
  rcases reserveFree_ok hm h 1 false with ⟨e, hb⟩ | ⟨v1, m1, e, ⟨g1, g2, g3, g4, g5⟩, f, hc⟩
  · left; rw [bind_error e]; exact ⟨rfl, hb⟩
  · right
    rw [bind_ok e]
    have hc := hc (by omega)
    by_cases hi : i ≤ xs.length
    · rw [if_pos hi]
      rw [bind_ok (assert_pos (show i ≤ v1.len by omega) m1)]
      rw [sub64_small (show v1.len ≤ 2 ^ 62 by omega) (show i ≤ v1.len by omega), add64_small (show i + 1 ≤ 2 ^ 62 by omega), ptrAdd_small (show i ≤ 2 ^ 62 by omega), ptrAdd_small (show i + 1 ≤ 2 ^ 62 by omega), add64_small (show v1.len + 1 ≤ 2 ^ 62 by omega)]
      have hsrc : ∀ k : Nat, k < v1.len - i → rd m1 (v1.ptr.at i) k ≠ none := fun k hk => by
        rw [rd_at]; have := g4 (i + k) (by omega); simpa using this
      have hdst : ∀ k : Nat, k < v1.len - i → rd m1 (v1.ptr.at (i + 1)) k ≠ none := fun k hk => by
        rw [rd_at]; have := g4 (i + 1 + k) (by omega); simpa using this
      rw [bind_ok (move_ok hsrc hdst)]
      have f2 := frame_blit f.wf g4 (k := i + 1) (n := v1.len - i) (by omega) (v1.ptr.at i) v1 fun _ _ h => h
      have hroom2 : Room (m1.blit (v1.ptr.at i) (v1.len - i) (v1.ptr.at (i + 1))) v1.ptr v1.cap := by
        intro j hj
        rw [rd_blit hdst]; split
        · have := hsrc ((j : Int) - (i + 1 : Nat)).toNat (by omega)
          rw [show (((j : Int) - (i + 1 : Nat)).toNat : Int) = (j : Int) - (i + 1 : Nat) by omega] at this
          exact this
        · exact g4 j hj
      rw [bind_ok (store_at (by omega : i ≤ 2 ^ 62) x (hroom2 i (by omega))), pure_apply]
      refine ⟨_, _, rfl, ⟨by rw [List.length_insertIdx_of_le_length hi]; simp; omega, by simp only; omega, g3, ?_, ?_⟩,
        f.trans hm (f2.trans f.wf (frame_put f2.wf hroom2 (by omega) x _ fun _ _ h => h))⟩
      · intro j hj
        rw [rd_put x (hroom2 i (by omega))]; split
        · simp
        · exact hroom2 j hj
      · intro j y hy
        rw [rd_put x (hroom2 i (by omega)), rd_blit hdst]
        rw [List.getElem?_insertIdx] at hy
        by_cases h1 : j < i
        · rw [if_pos h1] at hy
          rw [if_neg (by omega), if_neg (by omega)]; exact g5 j y hy
        · rw [if_neg h1] at hy
          by_cases h2 : j = i
          · subst h2
            rw [if_pos rfl, if_pos (by omega)] at hy
            simp at hy; subst hy; simp
          · rw [if_neg h2] at hy
            have hj' := (List.getElem?_eq_some_iff.1 hy).1
            rw [if_neg (by omega), if_pos (by omega), rd_at]
            have := g5 (j - 1) y hy
            rw [show ((j - 1 : Nat) : Int) = (i : Int) + ((j : Int) - (i + 1 : Nat)) by omega] at this
            exact this
    · rw [if_neg hi]
      rw [bind_error (assert_neg (show ¬ i ≤ v1.len by omega) m1)]

/-! ## Shrinking -/

theorem shrink {m : Mem α} {v : Vec} {xs : List α} (hm : WF m) (h : VecHolds m v xs) {n : Nat} (hn : n ≤ v.len) :
    VecHolds m ⟨v.ptr, n, v.cap⟩ (xs.take n) ∧ Frame m v m ⟨v.ptr, n, v.cap⟩ := by
  obtain ⟨h1, h2, h3, h4, h5⟩ := h
  refine ⟨⟨by simp; omega, by simp only; omega, h3, h4, fun i x hx => ?_⟩, hm, Nat.le_refl _, fun _ _ _ _ => rfl, fun _ _ h => .inl h⟩
  rw [List.getElem?_take] at hx
  split at hx
  · exact h5 i x hx
  · simp at hx

theorem pop_ok {m : Mem α} {v : Vec} {xs : List α} (hm : WF m) (h : VecHolds m v xs) :
    ∃ v', vecPop v m = .ok ((xs.getLast?, v'), m) ∧ VecHolds m v' xs.dropLast ∧ Frame m v m v' := by
  have hmax := maxLen_eq
  have h1 := h.1
  have h2 := h.2.1
  have h3 := h.2.2.1
  simp only [vecPop]
  by_cases h0 : v.len = 0
  · have : xs = [] := by cases xs with | nil => rfl | cons a l => simp at h1; omega
    subst this
    simp only [h0, ne_eq, not_true_eq_false, if_false, pure_apply]
    exact ⟨v, rfl, h, Frame.refl hm v⟩
  · simp only [h0, ne_eq, not_false_eq_true, if_true, bind_apply, pure_apply]
    rw [sub64_small (by omega) (by omega)]
    have hlast : xs.getLast? = some xs[xs.length - 1] := by
      rw [List.getLast?_eq_getElem?, List.getElem?_eq_getElem (by omega)]
    rw [load_at (by omega) (x := xs[xs.length - 1]) (h.2.2.2.2 (v.len - 1) _ (by rw [h1, List.getElem?_eq_getElem (by omega)]))]
    have := shrink hm h (n := v.len - 1) (by omega)
    rw [h1, ← List.dropLast_eq_take] at this
    exact ⟨_, by rw [hlast], by rw [h1]; exact this.1, by rw [h1]; exact this.2⟩

theorem truncate_ok {m : Mem α} {v : Vec} {xs : List α} (hm : WF m) (h : VecHolds m v xs) (n : Nat) :
    VecHolds m (vecTruncate n v) (xs.take n) ∧ Frame m v m (vecTruncate n v) := by
  unfold vecTruncate
  have h1 := h.1
  split
  · exact shrink hm h (by omega)
  · rw [List.take_of_length_le (by omega)]; exact ⟨h, Frame.refl hm v⟩

theorem remove_ok {m : Mem α} {v : Vec} {xs : List α} (hm : WF m) (h : VecHolds m v xs) (i : Nat) {x : α} (hx : xs[i]? = some x) :
    ∃ v' m', vecRemove i v m = .ok ((x, v'), m') ∧ VecHolds m' v' (xs.eraseIdx i) ∧ Frame m v m' v' := by
  have hmax := maxLen_eq
  have hi := (List.getElem?_eq_some_iff.1 hx).1
  obtain ⟨h1, h2, h3, h4, h5⟩ := h
  unfold vecRemove
  rw [bind_ok (assert_pos (show i < v.len by omega) m), bind_ok (load_at (by omega : i ≤ 2 ^ 62) (h5 i x hx))]
  rw [sub64_small (show v.len ≤ 2 ^ 62 by omega) (show 1 ≤ v.len by omega), sub64_small (show v.len - 1 ≤ 2 ^ 62 by omega) (show i ≤ v.len - 1 by omega), add64_small (show i + 1 ≤ 2 ^ 62 by omega), ptrAdd_small (show i + 1 ≤ 2 ^ 62 by omega), ptrAdd_small (show i ≤ 2 ^ 62 by omega)]
  have hsrc : ∀ k : Nat, k < v.len - 1 - i → rd m (v.ptr.at (i + 1)) k ≠ none := fun k hk => by
    rw [rd_at]; have := h4 (i + 1 + k) (by omega); simpa using this
  have hdst : ∀ k : Nat, k < v.len - 1 - i → rd m (v.ptr.at i) k ≠ none := fun k hk => by
    rw [rd_at]; have := h4 (i + k) (by omega); simpa using this
  rw [bind_ok (move_ok hsrc hdst), pure_apply]
  refine ⟨_, _, rfl, ⟨by rw [List.length_eraseIdx_of_lt hi]; simp only; omega, by simp only; omega, h3, ?_, ?_⟩, frame_blit hm h4 (by omega) _ _ fun _ _ h => h⟩
  · intro j hj
    rw [rd_blit hdst]; split
    · have := hsrc ((j : Int) - (i : Nat)).toNat (by omega)
      rw [show (((j : Int) - (i : Nat)).toNat : Int) = (j : Int) - (i : Nat) by omega] at this
      exact this
    · exact h4 j hj
  · intro j y hy
    rw [rd_blit hdst]
    rw [List.getElem?_eraseIdx] at hy
    by_cases hj : j < i
    · rw [if_pos hj] at hy
      rw [if_neg (by omega)]; exact h5 j y hy
    · rw [if_neg hj] at hy
      have hj' := (List.getElem?_eq_some_iff.1 hy).1
      rw [if_pos (by omega), rd_at]
      have := h5 (j + 1) y hy
      rw [show ((j + 1 : Nat) : Int) = ((i + 1 : Nat) : Int) + ((j : Int) - (i : Nat)) by omega] at this
      exact this

theorem swapRemove_ok {m : Mem α} {v : Vec} {xs : List α} (hm : WF m) (h : VecHolds m v xs) (i : Nat) {x l : α} (hx : xs[i]? = some x) (hl : xs.getLast? = some l) :
    ∃ v' m', vecSwapRemove i v m = .ok ((x, v'), m') ∧ VecHolds m' v' (xs.set i l).dropLast ∧ Frame m v m' v' := by
  have hmax := maxLen_eq
  have hi := (List.getElem?_eq_some_iff.1 hx).1
  have h1 := h.1
  have h2 := h.2.1
  have h3 := h.2.2.1
  have hlast : xs[v.len - 1]? = some l := by rw [List.getLast?_eq_getElem?] at hl; rw [h1]; exact hl
  simp only [vecSwapRemove, bind_apply, show i < v.len by omega, decide_true, assert_true, load_at (by omega : i ≤ 2 ^ 62) (h.2.2.2.2 i x hx), pure_apply]
  rw [sub64_small (by omega) (by omega)]
  by_cases hil : i = v.len - 1
  · have : xs.set i l = xs := by
      rw [← hil, hx] at hlast; simp at hlast; subst hlast
      have hx' := (List.getElem?_eq_some_iff.1 hx).2
      rw [← hx', List.set_getElem_self]
    simp only [hil, ne_eq, not_true_eq_false, if_false]
    have hs := shrink hm h (n := v.len - 1) (by omega)
    rw [← hil, this, List.dropLast_eq_take, ← h1, hil]
    exact ⟨_, _, rfl, hs.1, hs.2⟩
  · simp only [ne_eq, hil, not_false_eq_true, if_true, bind_apply, load_at (by omega : v.len - 1 ≤ 2 ^ 62) (h.2.2.2.2 _ l hlast)]
    obtain ⟨e1, g1, f1⟩ := put_holds hm h (show i < v.len by omega) l
    simp only [e1]
    have hs := shrink f1.wf g1 (n := v.len - 1) (by omega)
    rw [List.dropLast_eq_take, List.length_set, ← h1]
    exact ⟨_, _, rfl, hs.1, f1.trans hm hs.2⟩

/-! ## Consuming -/

theorem drop_ok {m : Mem α} {v : Vec} {xs : List α} (hm : WF m) (h : VecHolds m v xs) {n : Nat} (hn : n ≤ v.len) :
    VecHolds m ⟨v.ptr.at n, v.len - n, v.cap - n⟩ (xs.drop n) ∧ Frame m v m ⟨v.ptr.at n, v.len - n, v.cap - n⟩ := by
  obtain ⟨h1, h2, h3, h4, h5⟩ := h
  refine ⟨⟨by simp; omega, by simp only; omega, by simp only; omega, fun i hi => ?_, fun i x hx => ?_⟩, hm, Nat.le_refl _, fun _ _ _ _ => rfl, fun b o h => .inl ?_⟩
  · simp only at hi ⊢
    rw [rd_at]; have := h4 (n + i) (by omega); simpa using this
  · simp only
    rw [rd_at]
    rw [List.getElem?_drop] at hx
    have := h5 (n + i) x hx
    simpa using this
  · obtain ⟨a1, a2, a3⟩ := h
    simp only [Ptr.at] at a1 a2 a3
    exact ⟨a1, by omega, by omega⟩

theorem read_ok {m : Mem α} {t : Arr} {xs : List α} (h : Holds m t.ptr xs) (hs : xs.length ≤ maxLen) :
    ∀ (n i : Nat), i + n = xs.length → arrRead t n i m = .ok (xs.drop i, m) := by
  have hmax := maxLen_eq
  intro n
  induction n with
  | zero => intro i hi; simp [arrRead, pure_apply, List.drop_of_length_le (by omega : xs.length ≤ i)]
  | succ n ih =>
    intro i hi
    simp only [arrRead, arrUnsafeGet, bind_apply, pure_apply]
    rw [load_at (by omega) (h.get (by omega : i < xs.length)), List.drop_eq_getElem_cons (by omega)]
    simp only [ih (i + 1) (by omega)]

theorem consume_ok {m : Mem α} {v : Vec} {xs : List α} (hm : WF m) (h : VecHolds m v xs) (n : Nat) (hn : n ≤ xs.length) :
    ∃ a v', vecConsume n v m = .ok ((a, v'), m) ∧ ArrHolds m a (xs.take n) ∧ VecHolds m v' (xs.drop n) ∧ Frame m v m v' := by
  have hmax := maxLen_eq
  have h1 := h.1
  have h2 := h.2.1
  have h3 := h.2.2.1
  simp only [vecConsume]
  by_cases h0 : n = 0
  · subst h0
    simp only [if_true, pure_apply]
    exact ⟨_, _, rfl, ⟨rfl, by simp [arrEmpty], by intro i x hx; simp at hx⟩, h, Frame.refl hm v⟩
  · simp only [h0, if_false, bind_apply, show n ≤ v.len by omega, decide_true, assert_true, pure_apply]
    rw [sub64_small (by omega) (by omega), sub64_small (by omega) (by omega), ptrAdd_small (by omega)]
    obtain ⟨g, f⟩ := drop_ok hm h (n := n) (by omega)
    refine ⟨_, _, rfl, ⟨by simp; omega, by simp only; omega, fun i x hx => ?_⟩, g, f⟩
    rw [List.getElem?_take] at hx
    split at hx
    · exact h.2.2.2.2 i x hx
    · simp at hx

theorem consumeAll_ok {m : Mem α} {v : Vec} {xs : List α} (hm : WF m) (h : VecHolds m v xs) :
    ArrHolds m (vecConsumeAll v).1 xs ∧ VecHolds m (vecConsumeAll v).2 [] ∧ Frame m v m (vecConsumeAll v).2 := by
  have hmax := maxLen_eq
  have h1 := h.1
  have h2 := h.2.1
  have h3 := h.2.2.1
  simp only [vecConsumeAll]
  rw [sub64_small (by omega) (by omega), ptrAdd_small (by omega)]
  obtain ⟨g, f⟩ := drop_ok hm h (n := v.len) (by omega)
  rw [Nat.sub_self] at g f
  rw [show xs.drop v.len = [] by simp [h1]] at g
  exact ⟨⟨h1, by simp only; omega, h.2.2.2.2⟩, g, f⟩

/-! ## Array literals -/

theorem init_ok (xs : List α) : ∀ (ys : List α) (i : Nat) (m : Mem α) (t : Arr), WF m → t.len = i + ys.length → t.len ≤ maxLen → Room m t.ptr t.len →
    i + ys.length = xs.length → xs.drop i = ys → Holds m t.ptr (xs.take i) →
    ∃ m', arrInit t i ys m = .ok ((), m') ∧ Holds m' t.ptr xs ∧ Frame m ⟨t.ptr, t.len, t.len⟩ m' ⟨t.ptr, t.len, t.len⟩ := by
  have hmax := maxLen_eq
  intro ys
  induction ys with
  | nil =>
    intro i m t hm hl hs hr hlen hdrop hh
    rw [List.take_of_length_le (by simp at hlen; omega)] at hh
    exact ⟨m, rfl, hh, Frame.refl hm _⟩
  | cons y ys ih =>
    intro i m t hm hl hs hr hlen hdrop hh
    simp at hl hlen
    simp only [arrInit, bind_apply, arrUnsafeSet]
    have hri := hr i (by omega)
    rw [store_at (by omega) y hri, add64_small (by omega)]
    simp only
    have f1 := frame_put (v := ⟨t.ptr, t.len, t.len⟩) hm hr (i := i) (by simp only; omega) y ⟨t.ptr, t.len, t.len⟩ fun _ _ h => h
    have hdrop' : xs.drop (i + 1) = ys := by rw [← List.drop_drop, hdrop]; rfl
    have hyi : xs[i]? = some y := by
      have := congrArg (·[0]?) hdrop
      simpa using this
    obtain ⟨m', e, g, f2⟩ := ih (i + 1) _ t f1.wf (by omega) hs (by
      intro j hj; rw [rd_put y hri]; split
      · simp
      · exact hr j hj) (by omega) hdrop' (by
      intro j z hz
      rw [rd_put y hri]
      rw [List.getElem?_take] at hz
      by_cases hj : j = i
      · subst hj
        rw [if_pos (by omega), hyi] at hz
        simp at hz; subst hz; simp
      · rw [if_neg (by omega)]
        split at hz
        · exact hh j z (by rw [List.getElem?_take, if_pos (by omega)]; exact hz)
        · simp at hz)
    exact ⟨m', e, g, f1.trans hm f2⟩

/-- A literal array is fresh: everything allocated before is unchanged. -/
theorem lit_ok {m : Mem α} (hm : WF m) (xs : List α) :
    (arrLit xs m = .error .oom ∧ maxLen < xs.length) ∨
    ∃ a m', arrLit xs m = .ok (a, m') ∧ ArrHolds m' a xs ∧ WF m' ∧ m.next ≤ m'.next ∧ (∀ b o, m.cell b o ≠ none → m'.cell b o = m.cell b o) ∧
      (∀ b, a.ptr.blk = some b → m.next ≤ b) := by
  unfold arrLit
  cases xs with
  | nil =>
    right
    exact ⟨arrEmpty, m, rfl, ⟨rfl, by simp [arrEmpty], by intro i x hx; simp at hx⟩, hm, Nat.le_refl _, fun _ _ _ => rfl, by intro b hb; simp [arrEmpty] at hb⟩
  | cons x xs =>
    simp only [List.isEmpty_cons, Bool.false_eq_true, if_false, bind_apply]
    by_cases hcap : (x :: xs).length ≤ maxLen
    · right
      rw [alloc_ok hcap]; simp only
      obtain ⟨m', e, g, f⟩ := init_ok (x :: xs) (x :: xs) 0 (m.grow (x :: xs).length) ⟨m.fresh, (x :: xs).length⟩ (grow_wf hm _) (by simp) hcap (grow_room _ _) (by simp) rfl
        (by intro i z hz; simp at hz)
      rw [e]; simp only [pure_apply]
      refine ⟨_, _, rfl, ⟨rfl, hcap, g⟩, f.wf, ?_, ?_, ?_⟩
      · have := f.next; simp [Mem.grow] at this; omega
      · intro b o hc
        have hb := lt_next hm hc
        rw [f.keep b o (by rw [grow_cell _ _ (by omega)]; exact hc) (by rintro ⟨h, _⟩; simp [Mem.fresh] at h; omega), grow_cell _ _ (by omega)]
      · intro b hb; simp [Mem.fresh] at hb; omega
    · left; rw [alloc_oom hcap]; exact ⟨rfl, by omega⟩

end Verif.Vector
