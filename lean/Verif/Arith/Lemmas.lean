import Verif.Arith.Model

/-!
# Lemmas for C61
-/
namespace Verif.Arith

theorem Sz.le (s : Sz) : s.bits ≤ 64 := by cases s <;> decide
theorem Sz.pos (s : Sz) : 0 < s.bits := by cases s <;> decide

theorem rd_wr {n m : Nat} (hm : m ≤ 64) (h : n ≤ m) (r : BitVec 64) (v : BitVec m) : rd n (wr m r v) = v.setWidth n := by
  apply BitVec.eq_of_getLsbD_eq
  intro i hi
  unfold rd wr
  split
  · simp [BitVec.getLsbD_setWidth, hi]; omega
  · simp [BitVec.getLsbD_setWidth, hi]
    have : i < m := by omega
    have : i < 64 := by omega
    simp [*]

theorem rd_wr_same {n : Nat} (h : n ≤ 64) (r : BitVec 64) (v : BitVec n) : rd n (wr n r v) = v := by
  rw [rd_wr h (Nat.le_refl n), BitVec.setWidth_eq]

theorem wr_q (r v : BitVec 64) : wr 64 r v = v := by
  have h := rd_wr_same (Nat.le_refl 64) r v
  rwa [rd, BitVec.setWidth_eq] at h

theorem rd_q (r : BitVec 64) : rd 64 r = r := BitVec.setWidth_eq r

/-- The second byte after a write of two. -/
theorem rd_second (r : BitVec 64) (v : BitVec 16) : rd 8 (wr 16 r v >>> 8) = (v >>> 8).setWidth 8 := by
  apply BitVec.eq_of_getLsbD_eq
  intro i hi
  have h16 : 8 + i < 16 := by omega
  have h64 : 8 + i < 64 := by omega
  simp [rd, wr, BitVec.getLsbD_setWidth, hi, h16]
  omega

/-! ## Adding, multiplying -/

section
variable {n : Nat}

theorem ofInt_toNat (a : BitVec n) : BitVec.ofInt n (a.toNat : Int) = a := by
  rw [BitVec.ofInt_natCast, BitVec.ofNat_toNat, BitVec.setWidth_eq]

theorem add_s (a b : BitVec n) : a + b = BitVec.ofInt n (a.toInt + b.toInt) := by
  rw [BitVec.ofInt_add, BitVec.ofInt_toInt, BitVec.ofInt_toInt]

theorem add_u (a b : BitVec n) : a + b = BitVec.ofInt n ((a.toNat : Int) + b.toNat) := by
  rw [BitVec.ofInt_add, ofInt_toNat, ofInt_toNat]

theorem ofInt_sub (x y : Int) : BitVec.ofInt n (x - y) = BitVec.ofInt n x - BitVec.ofInt n y := by
  apply BitVec.eq_of_toInt_eq
  simp [BitVec.toInt_sub, BitVec.toInt_ofInt]

theorem sub_s (a b : BitVec n) : a - b = BitVec.ofInt n (a.toInt - b.toInt) := by
  rw [ofInt_sub, BitVec.ofInt_toInt, BitVec.ofInt_toInt]

theorem sub_u (a b : BitVec n) : a - b = BitVec.ofInt n ((a.toNat : Int) - b.toNat) := by
  rw [ofInt_sub, ofInt_toNat, ofInt_toNat]

theorem mul_su (a b : BitVec n) : BitVec.ofInt n (a.toInt * b.toInt) = BitVec.ofInt n ((a.toNat : Int) * b.toNat) := by
  rw [BitVec.ofInt_mul, BitVec.ofInt_mul, BitVec.ofInt_toInt, BitVec.ofInt_toInt, ofInt_toNat, ofInt_toNat]

/-! ## Comparing -/

theorem zf_eq (a b : BitVec n) : (a - b == 0#n) = decide (a = b) := by
  rw [Bool.eq_iff_iff, beq_iff_eq, decide_eq_true_iff]
  constructor
  · intro h
    apply BitVec.eq_of_toNat_eq
    have := congrArg BitVec.toNat h
    rw [BitVec.toNat_sub] at this
    have ha := a.isLt
    have hb := b.isLt
    simp only [BitVec.toNat_ofNat, Nat.zero_mod] at this
    rcases Nat.lt_or_ge a.toNat b.toNat with h' | h'
    · rw [Nat.mod_eq_of_lt (by omega)] at this; omega
    · rw [show 2 ^ n - b.toNat + a.toNat = (a.toNat - b.toNat) + 2 ^ n from by omega, Nat.add_mod_right, Nat.mod_eq_of_lt (by omega)] at this
      omega
  · rintro rfl; exact BitVec.sub_self a

theorem toInt_bounds (hn : 0 < n) (a : BitVec n) : -2 ^ (n - 1) ≤ a.toInt ∧ a.toInt < 2 ^ (n - 1) := by
  obtain ⟨m, rfl⟩ : ∃ m, n = m + 1 := ⟨n - 1, by omega⟩
  have h := a.isLt
  rw [Nat.add_sub_cancel, BitVec.toInt_eq_toNat_cond]
  have e : (2 : Nat) ^ (m + 1) = 2 * 2 ^ m := by rw [Nat.pow_succ, Nat.mul_comm]
  have e' : ((2 : Int) ^ m) = ((2 ^ m : Nat) : Int) := by simp
  rw [e'] at *
  split <;> omega

theorem msb_neg (a : BitVec n) : a.msb = decide (a.toInt < 0) := by
  rw [BitVec.msb_eq_toInt]

/-- The sign and overflow flags give the signed order. -/
theorem sf_of (hn : 0 < n) (a b : BitVec n) : ((subFlags a b).sf != (subFlags a b).of) = decide (a.toInt < b.toInt) := by
  have ha := toInt_bounds hn a
  have hb := toInt_bounds hn b
  have hd : (a - b).toInt = a.toInt - b.toInt ∨ (a - b).toInt = a.toInt - b.toInt + 2 * 2 ^ (n - 1) ∨
      (a - b).toInt = a.toInt - b.toInt - 2 * 2 ^ (n - 1) := by
    have h2 : (2 : Int) * 2 ^ (n - 1) = 2 ^ n := by
      obtain ⟨m, rfl⟩ : ∃ m, n = m + 1 := ⟨n - 1, by omega⟩
      rw [Nat.add_sub_cancel, Int.pow_succ, Int.mul_comm]
    rw [BitVec.toInt_sub, Int.bmod]
    have hm : ((2 ^ n : Nat) : Int) = 2 * 2 ^ (n - 1) := by rw [h2]; simp
    rw [hm]
    generalize (2 : Int) ^ (n - 1) = M at *
    have hd1 : -(2 * M) < a.toInt - b.toInt ∧ a.toInt - b.toInt < 2 * M := by constructor <;> omega
    generalize a.toInt - b.toInt = d at *
    have hM : 0 ≤ M := by omega
    rcases Int.lt_or_le d 0 with h | h
    · rw [← Int.add_emod_right, Int.emod_eq_of_lt (by omega) (by omega)]
      split <;> omega
    · rw [Int.emod_eq_of_lt (by omega) (by omega)]
      split <;> omega
  have hr := toInt_bounds hn (a - b)
  simp only [subFlags, msb_neg]
  generalize (a - b).toInt = d at *
  generalize a.toInt = x at *
  generalize b.toInt = y at *
  generalize (2 : Int) ^ (n - 1) = M at *
  by_cases h1 : x < 0 <;> by_cases h2 : y < 0 <;> by_cases h3 : d < 0 <;> by_cases h4 : x < y <;> simp [h1, h2, h3, h4] <;> omega

/-! ## Dividing -/

theorem udivide_zero (a b : BitVec n) : udivide 0#n a b =
    if b.toNat = 0 then none else some (BitVec.ofNat n (a.toNat / b.toNat), BitVec.ofNat n (a.toNat % b.toNat)) := by
  have : a.toNat / b.toNat < 2 ^ n := Nat.lt_of_le_of_lt (Nat.div_le_self ..) a.isLt
  simp only [udivide, BitVec.toNat_ofNat, Nat.zero_mod, Nat.zero_mul, Nat.zero_add]
  by_cases h : b.toNat = 0
  · simp [h]
  · rw [if_neg (by omega), if_neg h]

/-- The sign, spread over a word. -/
def signs (a : BitVec n) : BitVec n := if a.msb then BitVec.allOnes n else 0#n

theorem signs_value (hn : 0 < n) (a : BitVec n) : (signs a).toInt * 2 ^ n + a.toNat = a.toInt := by
  have h := BitVec.toInt_eq_msb_cond a
  unfold signs
  split at h <;> rename_i hm
  · rw [if_pos hm, BitVec.toInt_allOnes, if_pos hn, h]
    simp; omega
  · rw [if_neg hm, h]
    simp

theorem tdiv_bounds {x y M : Int} (hx : -M ≤ x ∧ x < M) (hy : y ≠ 0) : -M ≤ x.tdiv y ∧ x.tdiv y ≤ M := by
  have h : (x.tdiv y).natAbs ≤ x.natAbs := by
    rw [Int.natAbs_tdiv]
    exact Nat.div_le_self ..
  omega

theorem sdivide_signs (hn : 0 < n) (a b : BitVec n) : sdivide (signs a) a b =
    if b.toInt = 0 ∨ a.toInt.tdiv b.toInt = 2 ^ (n - 1) then none
    else some (BitVec.ofInt n (a.toInt.tdiv b.toInt), BitVec.ofInt n (a.toInt.tmod b.toInt)) := by
  simp only [sdivide, signs_value hn]
  by_cases h : b.toInt = 0
  · simp [h]
  · have := tdiv_bounds (toInt_bounds hn a) h
    by_cases h' : a.toInt.tdiv b.toInt = 2 ^ (n - 1)
    · rw [if_pos (Or.inr (Or.inr (by omega))), if_pos (Or.inr h')]
    · rw [if_neg (by omega), if_neg (by omega)]

/-! ## Shifting -/

theorem shl_spec (a : BitVec n) (c : Nat) : a <<< c = BitVec.ofNat n (a.toNat * 2 ^ c) := by
  apply BitVec.eq_of_toNat_eq
  simp [Nat.shiftLeft_eq]

theorem shr_spec (a : BitVec n) (c : Nat) : a >>> c = BitVec.ofNat n (a.toNat / 2 ^ c) := by
  apply BitVec.eq_of_toNat_eq
  have : a.toNat / 2 ^ c < 2 ^ n := Nat.lt_of_le_of_lt (Nat.div_le_self ..) a.isLt
  simp [Nat.shiftRight_eq_div_pow, Nat.mod_eq_of_lt this]

theorem sar_spec (a : BitVec n) (c : Nat) : a.sshiftRight c = BitVec.ofInt n (a.toInt / 2 ^ c) := by
  rw [BitVec.sshiftRight, Int.shiftRight_eq_div_pow]
  simp

/-- A count below the width is not reduced, and is its low byte. -/
theorem count_eq (s : Sz) (r : BitVec 64) (h : (rd s.bits r).toNat < s.bits) : count s (rd 8 r) = (rd s.bits r).toNat := by
  have h8 : (rd 8 r).toNat = r.toNat % 256 := by simp [rd, BitVec.toNat_setWidth]
  have hs : (rd s.bits r).toNat = r.toNat % 2 ^ s.bits := by simp [rd, BitVec.toNat_setWidth]
  rw [hs] at h
  rw [count, h8, hs]
  cases s <;> simp [Sz.bits] at * <;> omega

end

/-! ## The second operand -/

theorem high_b (st : St) (v : BitVec 16) : high .b { st with rax := wr 16 st.rax v } = (v >>> 8).setWidth 8 := by
  simp only [high, if_true]
  exact rd_second _ _

theorem high_of {s : Sz} (h : s ≠ .b) (st : St) : high s st = rd s.bits st.rdx := if_neg h

theorem pair_low (hi lo : BitVec 8) : ((hi.setWidth 16 <<< 8) ||| lo.setWidth 16).setWidth 8 = lo := by
  apply BitVec.eq_of_getLsbD_eq
  intro i h
  have h16 : i < 16 := by omega
  simp [BitVec.getLsbD_setWidth, h, h16]

theorem pair_high (hi lo : BitVec 8) : (((hi.setWidth 16 <<< 8) ||| lo.setWidth 16) >>> 8).setWidth 8 = hi := by
  apply BitVec.eq_of_getLsbD_eq
  intro i h
  have h16 : 8 + i < 16 := by omega
  have h8 : ¬ 8 + i < 8 := by omega
  simp [BitVec.getLsbD_setWidth, h, h16, h8]

theorem putPair_rax (s : Sz) (st : St) (hi lo : BitVec s.bits) : rd s.bits (putPair s st hi lo).rax = lo := by
  cases s with
  | b =>
    change BitVec 8 at hi lo
    simp only [putPair, if_true]
    change rd 8 _ = lo
    rw [rd_wr (by decide) (by decide)]
    exact pair_low hi lo
  | _ => simp only [putPair, reduceCtorEq, if_false]; exact rd_wr_same (by decide) _ _

theorem putPair_stack (s : Sz) (st : St) (hi lo : BitVec s.bits) : (putPair s st hi lo).stack = st.stack := by
  cases s <;> simp [putPair]

/-- The high half after the moves for a remainder. -/
theorem putPair_high (s : Sz) (st : St) (hi lo : BitVec s.bits) :
    ∃ st', exec (remMove s) (putPair s st hi lo) = some st' ∧ rd s.bits st'.rax = hi ∧
      st'.stack = st.stack := by
  cases s with
  | b =>
    change BitVec 8 at hi lo
    refine ⟨_, rfl, ?_, rfl⟩
    change rd 8 _ = hi
    rw [rd_wr_same (by decide)]
    simp only [putPair, if_true]
    rw [rd_second]
    exact pair_high hi lo
  | _ =>
    refine ⟨_, rfl, ?_, rfl⟩
    simp only [St.set, St.get]
    rw [rd_wr_same (by decide)]
    exact rd_wr_same (by decide) st.rdx _

end Verif.Arith
