import Verif.RobinHood.Model

/-! # `next-power-of-two` and the required capacity -/
namespace Verif.RobinHood

/-- Or-ing a number whose bits look `s` bits up with itself shifted by `s` makes them look `2 s` bits up. -/
theorem smear_step (n m s : Nat) (h : ∀ i, m.testBit i = true ↔ ∃ j, j < s ∧ n.testBit (i + j) = true) (i : Nat) :
    (m ||| m >>> s).testBit i = true ↔ ∃ j, j < 2 * s ∧ n.testBit (i + j) = true := by
  simp only [Nat.testBit_or, Nat.testBit_shiftRight, Bool.or_eq_true, h]
  constructor
  · rintro (⟨j, hj, hb⟩ | ⟨j, hj, hb⟩)
    · exact ⟨j, by omega, hb⟩
    · exact ⟨s + j, by omega, by rw [← hb]; congr 1; omega⟩
  · rintro ⟨j, hj, hb⟩
    by_cases hs : j < s
    · exact .inl ⟨j, hs, hb⟩
    · exact .inr ⟨j - s, by omega, by rw [← hb]; congr 1; omega⟩

theorem smear_eq (n : Nat) (hn : n < 2 ^ 64) :
    let a := n ||| n >>> 1
    let b := a ||| a >>> 2
    let c := b ||| b >>> 4
    let d := c ||| c >>> 8
    let e := d ||| d >>> 16
    e ||| e >>> 32 = if n = 0 then 0 else 2 ^ (n.log2 + 1) - 1 := by
  intro a b c d e
  have h1 := smear_step n n 1 (by intro i; constructor
                                  · exact fun h => ⟨0, by omega, h⟩
                                  · rintro ⟨j, hj, h⟩; rwa [show j = 0 by omega] at h)
  have h2 := smear_step n a 2 h1
  have h3 := smear_step n b 4 h2
  have h4 := smear_step n c 8 h3
  have h5 := smear_step n d 16 h4
  have h6 := smear_step n e 32 h5
  apply Nat.eq_of_testBit_eq
  intro i
  rw [Bool.eq_iff_iff, h6]
  by_cases h0 : n = 0
  · subst h0; simp
  · rw [if_neg h0, Nat.testBit_two_pow_sub_one, decide_eq_true_iff]
    constructor
    · rintro ⟨j, -, hb⟩
      have := Nat.ge_two_pow_of_testBit hb
      have h' : n < 2 ^ (n.log2 + 1) := Nat.lt_log2_self
      have : 2 ^ (i + j) < 2 ^ (n.log2 + 1) := by omega
      have := (Nat.pow_lt_pow_iff_right (a := 2) (by omega)).1 this
      omega
    · intro hi
      have hl : n.log2 < 64 := (Nat.log2_lt h0).2 hn
      refine ⟨n.log2 - i, by omega, ?_⟩
      rw [show i + (n.log2 - i) = n.log2 by omega]
      exact Nat.testBit_log2 h0

theorem nextPowerOfTwo_spec {n : Nat} (h1 : 1 ≤ n) (h2 : n ≤ 2 ^ 62) :
    ∃ k, nextPowerOfTwo n = .ok (2 ^ k) ∧ k ≤ 62 ∧ n ≤ 2 ^ k ∧ 2 ^ k < 2 * n := by
  unfold nextPowerOfTwo
  rw [if_pos h2]
  have hm : (n + 2 ^ 64 - 1) % 2 ^ 64 = n - 1 := by omega
  have := smear_eq (n - 1) (by omega)
  simp only [hm] at this ⊢
  rw [this]
  by_cases h0 : n - 1 = 0
  · exact ⟨0, by simp [h0], by omega, by omega, by omega⟩
  · rw [if_neg h0]
    have hl : 2 ^ (n - 1).log2 ≤ n - 1 := Nat.log2_self_le h0
    have hu : n - 1 < 2 ^ ((n - 1).log2 + 1) := Nat.lt_log2_self
    have hk : (n - 1).log2 < 62 := (Nat.log2_lt h0).2 (by omega)
    have hp : 0 < 2 ^ ((n - 1).log2 + 1) := Nat.pos_of_ne_zero (by simp)
    have hle : 2 ^ ((n - 1).log2 + 1) ≤ 2 ^ 62 := Nat.pow_le_pow_right (by omega) (by omega)
    refine ⟨(n - 1).log2 + 1, ?_, by omega, by omega, ?_⟩
    · rw [Nat.sub_add_cancel hp, Nat.mod_eq_of_lt (by omega)]
    · rw [Nat.pow_succ]; omega

theorem nextPowerOfTwo_zero : nextPowerOfTwo 0 = .ok 0 := rfl

theorem nextPowerOfTwo_large {n : Nat} (h : 2 ^ 62 < n) : nextPowerOfTwo n = .error .assertion := by
  unfold nextPowerOfTwo; rw [if_neg (by omega)]

theorem amc_spec {n : Nat} (h1 : 1 ≤ n) (h2 : n ≤ 2 ^ 61) :
    n < appropriateMinimalCapacity n ∧ appropriateMinimalCapacity n ≤ 2 ^ 62 := by
  unfold appropriateMinimalCapacity
  rw [Nat.mod_eq_of_lt (a := n + 8) (by omega), Nat.mod_eq_of_lt (by omega)]
  omega

theorem idealIndex_pow (hash k : Nat) (hk : k ≤ 62) : idealIndex hash (2 ^ k) = hash % 2 ^ k := by
  unfold idealIndex
  have hp : 0 < 2 ^ k := Nat.pos_of_ne_zero (by simp)
  have hle : 2 ^ k ≤ 2 ^ 62 := Nat.pow_le_pow_right (by omega) hk
  rw [show (2 ^ k + 2 ^ 64 - 1) % 2 ^ 64 = 2 ^ k - 1 by omega, Nat.and_two_pow_sub_one_eq_mod]

end Verif.RobinHood
