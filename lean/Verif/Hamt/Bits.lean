import Verif.Hamt.Model

/-! # Bitmaps and buckets as partial functions of an index below 32 -/
namespace Verif.Hamt

variable {A : Type}

/-- The number of indexes below `i` that satisfy `f`. -/
def rank (f : Nat → Bool) (i : Nat) : Nat := ((List.range i).filter f).length

@[simp] theorem rank_zero (f : Nat → Bool) : rank f 0 = 0 := rfl

theorem rank_succ (f : Nat → Bool) (i : Nat) : rank f (i + 1) = rank f i + (if f i then 1 else 0) := by
  simp only [rank, List.range_succ, List.filter_append, List.length_append]
  by_cases h : f i <;> simp [h]

theorem rank_mono (f : Nat → Bool) {i j : Nat} (h : i ≤ j) : rank f i ≤ rank f j := by
  induction h with
  | refl => exact Nat.le_refl _
  | step _ ih => rw [rank_succ]; omega

theorem rank_lt (f : Nat → Bool) {i j : Nat} (h : i < j) (hi : f i = true) : rank f i < rank f j := by
  have := rank_mono f (Nat.succ_le_of_lt h)
  rw [rank_succ, if_pos hi] at this
  omega

theorem rank_congr {f g : Nat → Bool} (i : Nat) (h : ∀ j < i, f j = g j) : rank f i = rank g i := by
  induction i with
  | zero => rfl
  | succ i ih => rw [rank_succ, rank_succ, ih (fun j hj => h j (by omega)), h i (by omega)]

theorem rank_set {f g : Nat → Bool} {i : Nat} (hf : f i = false) (hg : g i = true) (h : ∀ j, j ≠ i → g j = f j) (j : Nat) :
    rank g j = rank f j + (if i < j then 1 else 0) := by
  induction j with
  | zero => rfl
  | succ j ih =>
    rw [rank_succ, rank_succ, ih]
    by_cases hj : j = i
    · subst hj; simp [hf, hg]
    · rw [h j hj]
      by_cases h1 : i < j
      · have : i < j + 1 := by omega
        simp [h1, this]; omega
      · have : ¬ i < j + 1 := by omega
        simp [h1, this]

theorem rank_inj {f : Nat → Bool} {i j : Nat} (hi : f i = true) (hj : f j = true) (h : rank f i = rank f j) : i = j := by
  rcases Nat.lt_trichotomy i j with h' | h' | h'
  · have := rank_lt f h' hi; omega
  · exact h'
  · have := rank_lt f h' hj; omega

theorem rank_zero_iff (f : Nat → Bool) (n : Nat) : rank f n = 0 ↔ ∀ i < n, f i = false := by
  constructor
  · intro h i hi
    cases hf : f i with
    | false => rfl
    | true => have := rank_lt f hi hf; omega
  · intro h
    induction n with
    | zero => rfl
    | succ n ih => rw [rank_succ, ih (fun i hi => h i (by omega)), h n (by omega)]; rfl

theorem rank_one_iff (f : Nat → Bool) (n : Nat) : rank f n = 1 ↔ ∃ i < n, f i = true ∧ ∀ j < n, f j = true → j = i := by
  constructor
  · intro h
    have : ∃ i < n, f i = true := by
      apply Classical.byContradiction
      intro hc
      have := (rank_zero_iff f n).2 (fun i hi => by
        cases hf : f i with
        | false => rfl
        | true => exact absurd ⟨i, hi, hf⟩ hc)
      omega
    obtain ⟨i, hi, hf⟩ := this
    refine ⟨i, hi, hf, fun j hj hfj => rank_inj hfj hf ?_⟩
    have := rank_lt f hi hf
    have := rank_lt f hj hfj
    omega
  · rintro ⟨i, hi, hf, hu⟩
    have h0 : rank (fun j => f j && j != i) n = 0 := by
      rw [rank_zero_iff]
      intro j hj
      cases hfj : f j with
      | false => rfl
      | true => simp [hu j hj hfj]
    have := rank_set (f := fun j => f j && j != i) (g := f) (i := i) (by simp) hf (fun j hj => by simp [hj]) n
    rw [this, h0, if_pos hi]

/-! ## Bits -/

/-- The index of the bit used at a level of the tree. -/
abbrev bitOf (i : Nat) : BitVec 32 := bitIndex (BitVec.ofNat 32 i)

theorem bitOf_getLsbD : ∀ i < 32, ∀ j < 32, (bitOf i).getLsbD j = decide (j = i) := by decide
theorem bitOf_sub_getLsbD : ∀ i < 32, ∀ j < 32, (bitOf i - 1#32).getLsbD j = decide (j < i) := by decide
theorem popcount_bitOf_sub : ∀ i < 32, popcount (bitOf i - 1#32) = i := by decide

theorem popcount_eq (b : BitVec 32) : popcount b = rank b.getLsbD 32 := rfl

theorem existsBit_bitOf (b : BitVec 32) {i : Nat} (hi : i < 32) : existsBit b (bitOf i) = b.getLsbD i := by
  cases h : b.getLsbD i with
  | true =>
    have : b &&& bitOf i ≠ 0#32 := by
      intro hc
      have := congrArg (fun x => x.getLsbD i) hc
      simp [bitOf_getLsbD i hi i hi, h] at this
    simpa [existsBit] using this
  | false =>
    have : b &&& bitOf i = 0#32 := by
      apply BitVec.eq_of_getLsbD_eq
      intro j hj
      rw [BitVec.getLsbD_and, bitOf_getLsbD i hi j hj]
      by_cases hij : j = i
      · subst hij; simp [h]
      · simp [hij]
    simp [existsBit, this]

theorem addBit_getLsbD (b : BitVec 32) {i j : Nat} (hi : i < 32) (hj : j < 32) :
    (addBit b (bitOf i)).getLsbD j = (b.getLsbD j || decide (j = i)) := by
  rw [addBit, BitVec.getLsbD_or, bitOf_getLsbD i hi j hj]

theorem removeBit_getLsbD (b : BitVec 32) {i j : Nat} (hi : i < 32) (hj : j < 32) :
    (removeBit b (bitOf i)).getLsbD j = (b.getLsbD j && !decide (j = i)) := by
  rw [removeBit, BitVec.getLsbD_and, BitVec.getLsbD_not, bitOf_getLsbD i hi j hj]
  simp [hj]

theorem rank_and_lt (f : Nat → Bool) (i n : Nat) (h : i ≤ n) : rank (fun j => f j && decide (j < i)) n = rank f i := by
  induction n with
  | zero => have : i = 0 := by omega
            subst this; rfl
  | succ n ih =>
    by_cases h' : i = n + 1
    · subst h'
      exact rank_congr _ (fun j hj => by simp [hj])
    · rw [rank_succ, ih (by omega)]
      have : ¬ n < i := by omega
      simp [this]

theorem bucketIndex_bitOf (b : BitVec 32) {i : Nat} (hi : i < 32) : bucketIndex b (bitOf i) = rank b.getLsbD i := by
  rw [bucketIndex, popcount_eq, ← rank_and_lt b.getLsbD i 32 (by omega)]
  exact rank_congr _ (fun j hj => by rw [BitVec.getLsbD_and, bitOf_sub_getLsbD i hi j hj])

theorem getLsbD_ge (b : BitVec 32) {j : Nat} (h : 32 ≤ j) : b.getLsbD j = false := BitVec.getLsbD_of_ge b j h

theorem addBit_eq (b : BitVec 32) {i : Nat} (hi : i < 32) (j : Nat) (hj : j ≠ i) : (addBit b (bitOf i)).getLsbD j = b.getLsbD j := by
  by_cases h : j < 32
  · rw [addBit_getLsbD b hi h]; simp [hj]
  · rw [getLsbD_ge _ (by omega), getLsbD_ge _ (by omega)]

theorem addBit_self (b : BitVec 32) {i : Nat} (hi : i < 32) : (addBit b (bitOf i)).getLsbD i = true := by
  rw [addBit_getLsbD b hi hi]; simp

theorem removeBit_eq (b : BitVec 32) {i : Nat} (hi : i < 32) (j : Nat) (hj : j ≠ i) : (removeBit b (bitOf i)).getLsbD j = b.getLsbD j := by
  by_cases h : j < 32
  · rw [removeBit_getLsbD b hi h]; simp [hj]
  · rw [getLsbD_ge _ (by omega), getLsbD_ge _ (by omega)]

theorem removeBit_self (b : BitVec 32) {i : Nat} (hi : i < 32) : (removeBit b (bitOf i)).getLsbD i = false := by
  rw [removeBit_getLsbD b hi hi]; simp

/-! ## Buckets -/

/-- What is in the buckets at an index. -/
def look (b : BitVec 32) (l : List A) (i : Nat) : Option A := if b.getLsbD i then l[rank b.getLsbD i]? else none

/-- The buckets are as many as the bits. -/
def Fits (b : BitVec 32) (l : List A) : Prop := l.length = rank b.getLsbD 32

theorem look_isSome {b : BitVec 32} {l : List A} (h : Fits b l) {i : Nat} (hi : i < 32) : (look b l i).isSome = b.getLsbD i := by
  rw [look]
  cases hb : b.getLsbD i with
  | false => rfl
  | true =>
    have := rank_lt b.getLsbD hi hb
    rw [← h] at this
    simp [this]

theorem look_none {b : BitVec 32} {l : List A} (h : Fits b l) {i : Nat} (hi : i < 32) : look b l i = none ↔ b.getLsbD i = false := by
  rw [← look_isSome h hi]; cases look b l i <;> simp

theorem look_some {b : BitVec 32} {l : List A} {i : Nat} {a : A} (h : look b l i = some a) : b.getLsbD i = true := by
  rw [look] at h
  split at h
  · assumption
  · cases h

theorem bucketsGet_eq {b : BitVec 32} {l : List A} {i : Nat} (hi : i < 32) {a : A} (h : look b l i = some a) :
    bucketsGet b (bitOf i) l = some a := by
  rw [bucketsGet, bucketIndex_bitOf b hi]
  rw [look, if_pos (look_some h)] at h
  exact h

theorem bucketsAdd_eq {b : BitVec 32} {l : List A} (h : Fits b l) {i : Nat} (hi : i < 32) (hn : look b l i = none) (x : A) :
    ∃ b' l', bucketsAdd b (bitOf i) x l = some (b', l') ∧ Fits b' l' ∧ look b' l' i = some x ∧ (∀ j, j ≠ i → look b' l' j = look b l j) ∧
      b' = addBit b (bitOf i) := by
  have hb := (look_none h hi).1 hn
  have hr : rank b.getLsbD i ≤ l.length := by rw [h]; exact rank_mono _ (by omega)
  have hlen : l.length - rank b.getLsbD i + rank b.getLsbD i = l.length := by omega
  have hs : bucketsAdd b (bitOf i) x l = some (addBit b (bitOf i), l.take (rank b.getLsbD i) ++ x :: l.drop (rank b.getLsbD i)) := by
    rw [bucketsAdd]
    simp only [bucketIndex_bitOf b hi, copy, popcount_eq]
    rw [← h, if_pos (by omega), if_pos (by omega)]
    simp only [List.drop_zero, Option.pure_def, Option.bind_eq_bind, Option.bind_some]
    rw [List.take_of_length_le (l := List.drop _ l) (by simp)]
  have hk := rank_set hb (addBit_self b hi) (addBit_eq b hi)
  refine ⟨_, _, hs, ?_, ?_, ?_, rfl⟩
  · simp only [Fits, List.length_append, List.length_take, List.length_cons, List.length_drop]
    rw [hk, if_pos hi, ← h]; omega
  · rw [look, if_pos (addBit_self b hi), hk, if_neg (by omega)]
    simp only [Nat.add_zero]
    rw [List.getElem?_append_right (by simp; omega)]
    simp [Nat.min_eq_left hr]
  · intro j hj
    rw [look, look, addBit_eq b hi j hj]
    split
    · rename_i hbj
      rw [hk]
      by_cases h' : i < j
      · have := rank_mono b.getLsbD (Nat.le_of_lt h')
        rw [if_pos h', List.getElem?_append_right (by simp; omega)]
        simp only [List.length_take, Nat.min_eq_left hr]
        rw [show rank b.getLsbD j + 1 - rank b.getLsbD i = rank b.getLsbD j - rank b.getLsbD i + 1 by omega, List.getElem?_cons_succ,
          List.getElem?_drop]
        congr 1; omega
      · have h'' : j < i := by omega
        have := rank_lt b.getLsbD h'' hbj
        rw [if_neg h', Nat.add_zero, List.getElem?_append_left (by simp; omega), List.getElem?_take_of_lt this]
    · rfl

theorem bucketsUpdate_eq {b : BitVec 32} {l : List A} (h : Fits b l) {i : Nat} (hi : i < 32) {y : A} (hn : look b l i = some y) (x : A) :
    ∃ l', bucketsUpdate b (bitOf i) x l = some l' ∧ Fits b l' ∧ look b l' i = some x ∧ ∀ j, j ≠ i → look b l' j = look b l j := by
  have hb := look_some hn
  have hr : rank b.getLsbD i < l.length := by rw [h]; exact rank_lt _ hi hb
  have hs : bucketsUpdate b (bitOf i) x l = some (l.set (rank b.getLsbD i) x) := by
    rw [bucketsUpdate]
    have hp : popcount b = l.length := h.symm
    simp only [bucketIndex_bitOf b hi, copy, hp]
    rw [if_pos (by omega)]
    simp [hr]
  refine ⟨_, hs, ?_, ?_, ?_⟩
  · simpa [Fits] using h
  · rw [look, if_pos hb]; simp [hr]
  · intro j hj
    rw [look, look]
    split
    · rename_i hbj
      rw [List.getElem?_set_ne]
      exact fun hc => hj (rank_inj hbj hb hc.symm)
    · rfl

theorem bucketsRemove_eq {b : BitVec 32} {l : List A} (h : Fits b l) {i : Nat} (hi : i < 32) {y : A} (hn : look b l i = some y) :
    ∃ b' l', bucketsRemove b (bitOf i) l = some (b', l') ∧ Fits b' l' ∧ look b' l' i = none ∧ (∀ j, j < 32 → j ≠ i → look b' l' j = look b l j) := by
  have hb := look_some hn
  have hr : rank b.getLsbD i < l.length := by rw [h]; exact rank_lt _ hi hb
  by_cases h1 : l.length - 1 = 0
  · have hl : rank b.getLsbD 32 = 1 := by rw [← h]; omega
    refine ⟨0#32, [], ?_, ?_, ?_, ?_⟩
    · rw [bucketsRemove]
      simp [popcount_eq, hl]
    · simp only [Fits, List.length_nil]
      symm; rw [rank_zero_iff]; simp
    · simp [look]
    · intro j hj hne
      obtain ⟨k, hk, hbk, hu⟩ := (rank_one_iff _ _).1 hl
      have : b.getLsbD j = false := by
        cases hbj : b.getLsbD j with
        | false => rfl
        | true => exact absurd ((hu j hj hbj).trans (hu i hi hb).symm) hne
      simp [look, this]
  · have hk := rank_set (removeBit_self b hi) hb (fun j hj => (removeBit_eq b hi j hj).symm)
    have hs : bucketsRemove b (bitOf i) l = some (removeBit b (bitOf i), l.take (rank b.getLsbD i) ++ l.drop (rank b.getLsbD i + 1)) := by
      rw [bucketsRemove]
      simp only [bucketIndex_bitOf b hi, copy, popcount_eq]
      rw [← h, if_neg h1, if_pos (by omega), if_pos (by omega)]
      simp only [List.drop_zero, Option.pure_def, Option.bind_eq_bind, Option.bind_some]
      rw [List.take_of_length_le (l := List.drop _ l) (by simp; omega)]
    refine ⟨_, _, hs, ?_, ?_, ?_⟩
    · simp only [Fits, List.length_append, List.length_take, List.length_drop]
      have := hk 32
      rw [if_pos hi, ← h] at this; omega
    · rw [look, removeBit_self b hi]; rfl
    · intro j _ hj
      rw [look, look, removeBit_eq b hi j hj]
      split
      · rename_i hbj
        have hkj := hk j
        have hki := hk i
        rw [if_neg (by omega)] at hki
        by_cases h' : i < j
        · have := rank_lt b.getLsbD h' hb
          rw [if_pos h'] at hkj
          rw [List.getElem?_append_right (by simp; omega)]
          simp only [List.length_take, Nat.min_eq_left (Nat.le_of_lt hr), List.getElem?_drop]
          congr 1; omega
        · have h'' : j < i := by omega
          have := rank_lt b.getLsbD h'' hbj
          rw [if_neg h'] at hkj
          rw [List.getElem?_append_left (by simp; omega), List.getElem?_take_of_lt (by omega)]
          congr 1; omega
      · rfl

/-- Buckets holding one value. -/
theorem fits_one {b : BitVec 32} {l : List A} (h : Fits b l) (h1 : popcount b = 1) :
    ∃ i < 32, ∃ x, l = [x] ∧ b = bitOf i ∧ look b l i = some x := by
  rw [popcount_eq] at h1
  obtain ⟨i, hi, hb, hu⟩ := (rank_one_iff _ _).1 h1
  have hl : l.length = 1 := h.trans h1
  obtain ⟨x, rfl⟩ := List.length_eq_one_iff.1 hl
  have hz : rank b.getLsbD i = 0 := by have := rank_lt _ hi hb; omega
  refine ⟨i, hi, x, rfl, ?_, by simp [look, hb, hz]⟩
  apply BitVec.eq_of_getLsbD_eq
  intro j hj
  rw [bitOf_getLsbD i hi j hj]
  cases hbj : b.getLsbD j with
  | true => simp [hu j hj hbj]
  | false =>
    have : j ≠ i := by rintro rfl; rw [hb] at hbj; cases hbj
    simp [this]

theorem look_zero (l : List A) (i : Nat) : look 0#32 l i = none := by simp [look]

theorem fits_zero : Fits 0#32 ([] : List A) := by
  simp only [Fits, List.length_nil]; symm; rw [rank_zero_iff]; simp

theorem look_bitOf {i : Nat} (hi : i < 32) (x : A) (j : Nat) (hj : j < 32) : look (bitOf i) [x] j = if j = i then some x else none := by
  rw [look, bitOf_getLsbD i hi j hj]
  by_cases h : j = i
  · subst h
    have : rank (bitOf j).getLsbD j = 0 := by
      rw [rank_zero_iff]
      intro k hk
      rw [bitOf_getLsbD j hi k (by omega)]
      simp; omega
    simp [this]
  · simp [h]

theorem fits_bitOf {i : Nat} (hi : i < 32) (x : A) : Fits (bitOf i) [x] := by
  simp only [Fits, List.length_cons, List.length_nil]
  symm
  rw [rank_one_iff]
  exact ⟨i, hi, by rw [bitOf_getLsbD i hi i hi]; simp, fun j hj h => by rw [bitOf_getLsbD i hi j hj] at h; simpa using h⟩

theorem addBit_zero (b : BitVec 32) : addBit 0#32 b = b := by simp [addBit]

/-! ## Hashes -/

theorem consumeHash_eq (h : BitVec 64) : ∃ h', consumeHash h = (bitOf (h.toNat % 32), h') ∧ h'.toNat = h.toNat / 32 := by
  refine ⟨h >>> 5, ?_, ?_⟩
  · have : (h &&& 31#64).setWidth 32 = BitVec.ofNat 32 (h.toNat % 32) := by
      apply BitVec.eq_of_toNat_eq
      simp only [BitVec.toNat_setWidth, BitVec.toNat_and, BitVec.toNat_ofNat]
      rw [show (31 % 2 ^ 64 : Nat) = 2 ^ 5 - 1 by decide, Nat.and_two_pow_sub_one_eq_mod]
    rw [consumeHash, this]
  · rw [BitVec.toNat_ushiftRight, Nat.shiftRight_eq_div_pow]

theorem restoreHash_toNat {i : Nat} (hi : i < 32) (h : BitVec 64) (hh : h.toNat * 32 + i < 2 ^ 64) :
    (restoreHash (bitOf i) h).toNat = h.toNat * 32 + i := by
  rw [restoreHash, popcount_bitOf_sub i hi, BitVec.toNat_or, BitVec.toNat_shiftLeft, BitVec.toNat_ofNat, Nat.shiftLeft_eq]
  rw [Nat.mod_eq_of_lt (a := h.toNat * 2 ^ 5) (by omega), Nat.mod_eq_of_lt (a := i) (by omega)]
  rw [Nat.mul_comm h.toNat, ← Nat.two_pow_add_eq_or_of_lt (by omega)]

end Verif.Hamt
