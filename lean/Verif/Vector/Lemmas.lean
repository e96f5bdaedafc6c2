import Verif.Vector.Model

namespace Verif.Vector

variable {α : Type}

/-! ## The monad -/

theorem bind_apply {β γ : Type} (x : M α β) (f : β → M α γ) (m : Mem α) :
    (x >>= f) m = match x m with | .error e => .error e | .ok (b, m') => f b m' := rfl

theorem bind_ok {β γ : Type} {x : M α β} {f : β → M α γ} {m m' : Mem α} {b : β} (h : x m = .ok (b, m')) : (x >>= f) m = f b m' := by
  rw [bind_apply, h]

theorem bind_error {β γ : Type} {x : M α β} {f : β → M α γ} {m : Mem α} {e : Err} (h : x m = .error e) : (x >>= f) m = .error e := by
  rw [bind_apply, h]

theorem pure_apply {β : Type} (b : β) (m : Mem α) : (pure b : M α β) m = .ok (b, m) := rfl

theorem assert_true (m : Mem α) : assert true m = .ok ((), m) := rfl
theorem assert_pos {p : Prop} [Decidable p] (h : p) (m : Mem α) : assert (decide p) m = .ok ((), m) := by rw [decide_eq_true h]; rfl
theorem assert_neg {p : Prop} [Decidable p] (h : ¬ p) (m : Mem α) : assert (decide p) m = .error .assert := by rw [decide_eq_false h]; rfl
theorem assert_false (m : Mem α) : assert false m = .error .assert := rfl

/-! ## Numbers -/

theorem maxLen_eq : maxLen = 2 ^ 60 := by unfold maxLen; rfl

theorem toOffset_small {i : Nat} (h : i ≤ 2 ^ 62) : toOffset i = i := by unfold toOffset; rw [if_pos (by omega)]
theorem add64_small {a b : Nat} (h : a + b ≤ 2 ^ 62) : add64 a b = a + b := by unfold add64; omega
theorem sub64_small {a b : Nat} (h : a ≤ 2 ^ 62) (hb : b ≤ a) : sub64 a b = a - b := by unfold sub64; omega

/-! ## Cells -/

/-- The pointer `i` elements further. -/
abbrev Ptr.at (p : Ptr) (i : Nat) : Ptr := ⟨p.blk, p.off + i⟩

theorem ptrAdd_small {i : Nat} (h : i ≤ 2 ^ 62) (p : Ptr) : ptrAdd i p = p.at i := by simp [ptrAdd, Ptr.at, toOffset_small h]

theorem rd_at (m : Mem α) (p : Ptr) (i : Nat) (j : Int) : rd m (p.at i) j = rd m p (i + j) := by
  unfold rd Ptr.at
  cases p.blk
  · rfl
  · simp only; congr 1; omega

theorem rd_isSome {m : Mem α} {p : Ptr} {i : Int} (h : rd m p i ≠ none) : ∃ b, p.blk = some b := by
  unfold rd at h
  cases hb : p.blk
  · simp [hb] at h
  · exact ⟨_, rfl⟩

theorem load_at {i : Nat} (h : i ≤ 2 ^ 62) {m : Mem α} {p : Ptr} {x : α} (hx : rd m p i = some (some x)) : ptrLoadAt i p m = .ok (x, m) := by
  unfold ptrLoadAt ptrLoad
  rw [ptrAdd_small h, rd_at]
  simp [hx]

theorem store_at {i : Nat} (h : i ≤ 2 ^ 62) {m : Mem α} {p : Ptr} (x : α) (hx : rd m p i ≠ none) : ptrStoreAt i x p m = .ok ((), m.put (p.at i) x) := by
  unfold ptrStoreAt ptrStore
  rw [ptrAdd_small h, rd_at]
  simp only [Int.add_zero]
  cases hc : rd m p i with
  | none => exact absurd hc hx
  | some c => rfl

theorem rd_put {m : Mem α} {p : Ptr} {i : Nat} (x : α) (hx : rd m p i ≠ none) (j : Int) :
    rd (m.put (p.at i) x) p j = if j = i then some (some x) else rd m p j := by
  obtain ⟨b, hb⟩ := rd_isSome hx
  unfold rd Mem.put Ptr.at
  simp only [hb, true_and]
  by_cases hj : j = i
  · simp [hj]
  · simp only [hj, if_false]
    rw [if_neg (by omega)]

theorem cell_put (m : Mem α) (p : Ptr) (i : Nat) (x : α) {b : Nat} {o : Int} (h : ¬ (p.blk = some b ∧ o = p.off + i)) : (m.put (p.at i) x).cell b o = m.cell b o := by
  unfold Mem.put Ptr.at; simp only; rw [if_neg h]

theorem inside_iff {m : Mem α} {p : Ptr} {n : Nat} : inside m p n = true ↔ ∀ i : Nat, i < n → rd m p i ≠ none := by
  simp [inside, Option.isSome_iff_ne_none]

theorem blit_zero (m : Mem α) (src dst : Ptr) : m.blit src 0 dst = m := by
  unfold Mem.blit
  cases m with
  | mk next cell =>
    simp only [Mem.mk.injEq, true_and]
    funext b o
    rw [if_neg (by omega)]

theorem move_ok {m : Mem α} {src dst : Ptr} {n : Nat} (hs : ∀ i : Nat, i < n → rd m src i ≠ none) (hd : ∀ i : Nat, i < n → rd m dst i ≠ none) :
    ptrMove src n dst m = .ok ((), m.blit src n dst) := by
  unfold ptrMove
  by_cases h : n = 0
  · subst h; simp [blit_zero]
  · simp [h, inside_iff.2 hs, inside_iff.2 hd]

theorem copy_ok {m : Mem α} {src dst : Ptr} {n : Nat} (hs : ∀ i : Nat, i < n → rd m src i ≠ none) (hd : ∀ i : Nat, i < n → rd m dst i ≠ none)
    (ha : n ≠ 0 → apart src dst n = true) : ptrCopy src n dst m = .ok ((), m.blit src n dst) := by
  unfold ptrCopy
  by_cases h : n = 0
  · subst h; simp [blit_zero]
  · simp [h, inside_iff.2 hs, inside_iff.2 hd, ha h]

theorem rd_blit {m : Mem α} {src p : Ptr} {k n : Nat} (hd : ∀ i : Nat, i < n → rd m (p.at k) i ≠ none) (j : Int) :
    rd (m.blit src n (p.at k)) p j = if k ≤ j ∧ j < k + n then rd m src (j - k) else rd m p j := by
  by_cases h : (k : Int) ≤ j ∧ j < k + n
  · obtain ⟨b, hb⟩ := rd_isSome (hd (j - k).toNat (by omega))
    simp only at hb
    rw [if_pos h]
    conv => lhs; unfold rd Mem.blit Ptr.at
    simp only [hb, true_and]
    rw [if_pos (by omega)]
    congr 1; omega
  · rw [if_neg h]
    unfold rd Mem.blit Ptr.at
    cases hb : p.blk with
    | none => rfl
    | some b => simp only [true_and]; rw [if_neg (by omega)]

theorem cell_blit (m : Mem α) (src p : Ptr) (k n : Nat) {b : Nat} {o : Int} (h : ¬ (p.blk = some b ∧ p.off + k ≤ o ∧ o < p.off + k + n)) :
    (m.blit src n (p.at k)).cell b o = m.cell b o := by
  unfold Mem.blit Ptr.at; simp only; rw [if_neg h]

/-! ## Invariants -/

/-- Blocks not yet allocated have no cells. -/
def WF (m : Mem α) : Prop := ∀ b o, m.next ≤ b → m.cell b o = none

/-- The cells from the pointer on hold the list. -/
def Holds (m : Mem α) (p : Ptr) (xs : List α) : Prop := ∀ (i : Nat) x, xs[i]? = some x → rd m p i = some (some x)

/-- The cells from the pointer on exist. -/
def Room (m : Mem α) (p : Ptr) (n : Nat) : Prop := ∀ i : Nat, i < n → rd m p i ≠ none

/-- The array holds the list. -/
def ArrHolds (m : Mem α) (t : Arr) (xs : List α) : Prop := t.len = xs.length ∧ t.len ≤ maxLen ∧ Holds m t.ptr xs

/-- The vector holds the list. -/
def VecHolds (m : Mem α) (v : Vec) (xs : List α) : Prop :=
  v.len = xs.length ∧ v.len ≤ v.cap ∧ v.cap ≤ maxLen ∧ Room m v.ptr v.cap ∧ Holds m v.ptr xs

/-- A cell of the vector's buffer. -/
def InBuf (v : Vec) (b : Nat) (o : Int) : Prop := v.ptr.blk = some b ∧ v.ptr.off ≤ o ∧ o < v.ptr.off + v.cap

/-- From one state to a later one: memory outside the vector's buffer is unchanged, and the buffer is part of the old one or new. -/
structure Frame (m : Mem α) (v : Vec) (m' : Mem α) (v' : Vec) : Prop where
  wf : WF m'
  next : m.next ≤ m'.next
  keep : ∀ b o, m.cell b o ≠ none → ¬ InBuf v b o → m'.cell b o = m.cell b o
  own : ∀ b o, InBuf v' b o → InBuf v b o ∨ m.next ≤ b

theorem lt_next {m : Mem α} (h : WF m) {b : Nat} {o : Int} (hc : m.cell b o ≠ none) : b < m.next := by
  rcases Nat.lt_or_ge b m.next with h' | h'
  · exact h'
  · exact absurd (h b o h') hc

theorem Frame.refl {m : Mem α} (h : WF m) (v : Vec) : Frame m v m v := ⟨h, Nat.le_refl _, fun _ _ _ _ => rfl, fun _ _ h => .inl h⟩

theorem Frame.trans {m m' m'' : Mem α} {v v' v'' : Vec} (hm : WF m) (h1 : Frame m v m' v') (h2 : Frame m' v' m'' v'') : Frame m v m'' v'' where
  wf := h2.wf
  next := Nat.le_trans h1.next h2.next
  keep := fun b o hc hi => by
    have e := h1.keep b o hc hi
    rw [← e]
    refine h2.keep b o (by rw [e]; exact hc) fun hi' => ?_
    rcases h1.own b o hi' with h | h
    · exact hi h
    · have := lt_next hm hc; omega
  own := fun b o hi => by
    rcases h2.own b o hi with h | h
    · exact h1.own b o h
    · right; have := h1.next; omega

theorem holds_room {m : Mem α} {p : Ptr} {xs : List α} (h : Holds m p xs) : Room m p xs.length := by
  intro i hi
  rw [h i xs[i] (List.getElem?_eq_getElem hi)]; simp

theorem Holds.get {m : Mem α} {p : Ptr} {xs : List α} (h : Holds m p xs) {i : Nat} (hi : i < xs.length) : rd m p i = some (some xs[i]) :=
  h i _ (List.getElem?_eq_getElem hi)

/-- A store into the buffer. -/
theorem frame_put {m : Mem α} {v : Vec} (hm : WF m) (hr : Room m v.ptr v.cap) {i : Nat} (hi : i < v.cap) (x : α) (v' : Vec)
    (hv : ∀ b o, InBuf v' b o → InBuf v b o) : Frame m v (m.put (v.ptr.at i) x) v' where
  wf := fun b o hb => by
    by_cases h : v.ptr.blk = some b ∧ o = v.ptr.off + i
    · obtain ⟨h1, rfl⟩ := h
      have := hr i hi
      unfold rd at this; simp only [h1] at this
      exact absurd (hm b _ hb) this
    · rw [cell_put _ _ _ _ h]; exact hm b o hb
  next := Nat.le_refl _
  keep := fun b o _ hi' => cell_put _ _ _ _ (by rintro ⟨h1, rfl⟩; exact hi' ⟨h1, by omega, by omega⟩)
  own := fun b o h => .inl (hv b o h)

/-- A copy into the buffer. -/
theorem frame_blit {m : Mem α} {v : Vec} (hm : WF m) (hr : Room m v.ptr v.cap) {k n : Nat} (hk : k + n ≤ v.cap) (src : Ptr) (v' : Vec)
    (hv : ∀ b o, InBuf v' b o → InBuf v b o) : Frame m v (m.blit src n (v.ptr.at k)) v' where
  wf := fun b o hb => by
    by_cases h : v.ptr.blk = some b ∧ v.ptr.off + k ≤ o ∧ o < v.ptr.off + k + n
    · obtain ⟨h1, h2, h3⟩ := h
      have := hr (o - v.ptr.off).toNat (by omega)
      unfold rd at this; simp only [h1] at this
      rw [show v.ptr.off + ((o - v.ptr.off).toNat : Int) = o by omega] at this
      exact absurd (hm b _ hb) this
    · rw [cell_blit _ _ _ _ _ h]; exact hm b o hb
  next := Nat.le_refl _
  keep := fun b o _ hi' => cell_blit _ _ _ _ _ (by rintro ⟨h1, h2, h3⟩; exact hi' ⟨h1, by omega, by omega⟩)
  own := fun b o h => .inl (hv b o h)

/-- Reading through a pointer whose cells lie outside the buffer. -/
theorem Frame.rd {m m' : Mem α} {v v' : Vec} (h : Frame m v m' v') {p : Ptr} {i : Int} (hc : rd m p i ≠ none)
    (ho : ∀ b, p.blk = some b → ¬ InBuf v b (p.off + i)) : rd m' p i = rd m p i := by
  obtain ⟨b, hb⟩ := rd_isSome hc
  unfold Verif.Vector.rd at hc ⊢
  simp only [hb] at hc ⊢
  exact h.keep b _ hc (ho b hb)

/-! ## Allocation -/

/-- Memory after an allocation. -/
def Mem.grow (m : Mem α) (n : Nat) : Mem α :=
  ⟨m.next + 1, fun b o => if b = m.next then (if 0 ≤ o ∧ o < n then some none else none) else m.cell b o⟩

def Mem.fresh (m : Mem α) : Ptr := ⟨some m.next, 0⟩

theorem alloc_ok {m : Mem α} {n : Nat} (h : n ≤ maxLen) : alloc n m = .ok (⟨m.fresh, n⟩, m.grow n) := by
  unfold alloc; rw [if_pos h]; rfl

theorem alloc_oom {m : Mem α} {n : Nat} (h : ¬ n ≤ maxLen) : alloc n m = .error .oom := by
  unfold alloc; rw [if_neg h]

theorem grow_wf {m : Mem α} (h : WF m) (n : Nat) : WF (m.grow n) := by
  intro b o hb
  have hb' : m.next + 1 ≤ b := hb
  unfold Mem.grow; simp only
  rw [if_neg (by omega)]; exact h b o (by omega)

theorem grow_cell {m : Mem α} (n : Nat) {b : Nat} (o : Int) (h : b ≠ m.next) : (m.grow n).cell b o = m.cell b o := by
  unfold Mem.grow; simp only; rw [if_neg h]

theorem grow_rd {m : Mem α} (hm : WF m) (n : Nat) {p : Ptr} {i : Int} (h : rd m p i ≠ none) : rd (m.grow n) p i = rd m p i := by
  obtain ⟨b, hb⟩ := rd_isSome h
  unfold rd at h ⊢; simp only [hb] at h ⊢
  exact grow_cell n _ (by have := lt_next hm h; omega)

theorem grow_room (m : Mem α) (n : Nat) : Room (m.grow n) m.fresh n := by
  intro i hi
  unfold rd Mem.fresh Mem.grow; simp only [if_true]
  rw [if_pos (by omega)]; simp

theorem apart_fresh {m : Mem α} (hm : WF m) {p : Ptr} {i : Int} (h : rd m p i ≠ none) (k n : Nat) : apart p (m.fresh.at k) n = true := by
  obtain ⟨b, hb⟩ := rd_isSome h
  unfold rd at h; simp only [hb] at h
  have := lt_next hm h
  simp [apart, Mem.fresh, hb]; left; left; omega

theorem apart_fresh0 {m : Mem α} (hm : WF m) {p : Ptr} {i : Int} (h : rd m p i ≠ none) (n : Nat) : apart p m.fresh n = true := by
  obtain ⟨b, hb⟩ := rd_isSome h
  unfold rd at h; simp only [hb] at h
  have := lt_next hm h
  simp [apart, Mem.fresh, hb]; left; left; omega

theorem at_zero (p : Ptr) : p.at 0 = p := by cases p; simp [Ptr.at]

end Verif.Vector
