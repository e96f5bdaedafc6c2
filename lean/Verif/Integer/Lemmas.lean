import Verif.Integer.Model

namespace Verif.Integer

theorem charToDigit_eq (c : UInt8) : (∀ d, digitValue c = some d → charToDigit c = d) ∧ (digitValue c = none → charToDigit c = -1) := by
  simp only [digitValue, charToDigit]
  by_cases h1 : 48 ≤ c.toNat ∧ c.toNat ≤ 57
  · simp only [h1, and_self, if_true]; constructor
    · intro d h; simp at h; omega
    · intro h; simp at h
  · simp only [h1, if_false]
    by_cases h2 : 97 ≤ c.toNat ∧ c.toNat ≤ 122
    · simp only [h2, and_self, if_true]; constructor
      · intro d h; simp at h; omega
      · intro h; simp at h
    · simp only [h2, if_false]
      by_cases h3 : 65 ≤ c.toNat ∧ c.toNat ≤ 90
      · simp only [h3, and_self, if_true]; constructor
        · intro d h; simp at h; omega
        · intro h; simp at h
      · simp only [h3, if_false]; exact ⟨by intro d h; simp at h, by simp⟩

theorem digitValue_digitToChar : ∀ d, d < 36 → digitValue (digitToChar d) = some d := by decide

theorem digitToChar_ne : ∀ d, d < 36 → digitToChar d ≠ 45 := by decide

/-! ## Printing -/

theorem printLoopU_spec {radix : Nat} (h2 : 2 ≤ radix) (h36 : radix ≤ 36) : ∀ (k n v len : Nat) (acc : List UInt8), v < radix ^ k → len + k ≤ 64 → k < n →
    ∃ ds : List UInt8, printLoopU radix n v len acc = .ok (len + ds.length, ds ++ acc) ∧ ds.length ≤ k ∧ (v ≠ 0 → ds ≠ []) ∧
      ∀ rest a, denoteFrom radix a (ds ++ rest) = denoteFrom radix (a * radix ^ ds.length + v) rest := by
  intro k
  induction k with
  | zero =>
    intro n v len acc hv _ hn
    obtain ⟨n, rfl⟩ : ∃ m, n = m + 1 := ⟨n - 1, by omega⟩
    have : v = 0 := by simpa using hv
    subst this
    exact ⟨[], by simp [printLoopU], by simp, by simp, by simp⟩
  | succ k ih =>
    intro n v len acc hv hl hn
    obtain ⟨n, rfl⟩ : ∃ m, n = m + 1 := ⟨n - 1, by omega⟩
    by_cases h0 : v = 0
    · subst h0
      exact ⟨[], by simp [printLoopU], by simp, by simp, by simp⟩
    · have hq : v / radix < radix ^ k := by
        rw [Nat.div_lt_iff_lt_mul (by omega), ← Nat.pow_succ]; exact hv
      have hm : v % radix < radix := Nat.mod_lt _ (by omega)
      obtain ⟨ds, e1, e2, _, e4⟩ := ih n (v / radix) (len + 1) (digitToChar (v % radix) :: acc) hq (by omega) (by omega)
      refine ⟨ds ++ [digitToChar (v % radix)], ?_, by simp; omega, by simp, fun rest a => ?_⟩
      · rw [printLoopU, if_pos h0, if_neg (by omega), if_pos (by omega), e1]
        simp; omega
      · rw [List.append_assoc, e4]
        simp only [List.singleton_append, denoteFrom, digitValue_digitToChar _ (by omega : v % radix < 36), hm, if_true, List.length_append, List.length_singleton,
          Nat.pow_succ]
        congr 1
        have := Nat.div_add_mod v radix
        rw [Nat.add_mul, Nat.mul_assoc, Nat.mul_comm (v / radix) radix]; omega

theorem printLoopI_eq {radix : Nat} (sign : Int) : ∀ (n : Nat) (v : Int) (len : Nat) (acc : List UInt8), (v ≠ 0 → sign = if v < 0 then -1 else 1) →
    printLoopI radix sign n v len acc = printLoopU radix n v.natAbs len acc := by
  intro n
  induction n with
  | zero => intros; rfl
  | succ n ih =>
    intro v len acc hs
    simp only [printLoopI, printLoopU]
    by_cases h0 : v = 0
    · simp [h0]
    · have hna : v.natAbs ≠ 0 := by omega
      simp only [ne_eq, h0, hna, not_false_eq_true, if_true]
      by_cases hr : radix = 0
      · simp [hr]
      · simp only [hr, if_false]
        by_cases hl : len ≤ 63
        · simp only [hl, if_true]
          have hs' := hs h0
          have hd : (v.tdiv radix).natAbs = v.natAbs / radix := by rw [Int.natAbs_tdiv]; rfl
          have hm : (v.tmod radix * sign).toNat = v.natAbs % radix := by
            rcases Int.lt_or_gt_of_ne h0 with hlt | hgt
            · rw [hs', if_pos hlt]
              obtain ⟨m, rfl⟩ : ∃ m : Nat, v = -(m : Int) := ⟨v.natAbs, by omega⟩
              simp only [Int.neg_tmod, Int.natAbs_neg, Int.natAbs_natCast]
              rw [← Int.ofNat_tmod]; omega
            · rw [hs', if_neg (by omega)]
              obtain ⟨m, rfl⟩ : ∃ m : Nat, v = (m : Int) := ⟨v.natAbs, by omega⟩
              rw [← Int.ofNat_tmod, Int.mul_one, Int.toNat_natCast, Int.natAbs_natCast]
          rw [ih, hd, hm]
          intro hne
          rw [hs']
          rcases Int.lt_or_gt_of_ne h0 with hlt | hgt
          · have : v.tdiv radix ≤ 0 := by
              have hh : 0 ≤ (-v).tdiv radix := Int.tdiv_nonneg (by omega) (Int.natCast_nonneg _)
              rw [Int.neg_tdiv] at hh; omega
            rw [if_pos hlt, if_pos (by omega)]
          · have : 0 ≤ v.tdiv radix := Int.tdiv_nonneg (by omega) (Int.natCast_nonneg _)
            rw [if_neg (by omega), if_neg (by omega)]
        · simp [hl]

/-! ## Reading -/

theorem readLoopU_spec (radix : Nat) : ∀ (s : List UInt8) (a : Nat), a < 2 ^ 64 →
    readLoopU radix a s = .ok ((denoteFrom radix a s).filter (· < 2 ^ 64)) := by
  have grow : ∀ (s : List UInt8) (a n : Nat), 1 ≤ radix → denoteFrom radix a s = some n → a ≤ n := by
    intro s
    induction s with
    | nil => intro a n _ h; simp [denoteFrom] at h; omega
    | cons c s ih =>
      intro a n hr h
      simp only [denoteFrom] at h
      split at h
      · split at h
        · have := ih _ _ hr h
          have : a * 1 ≤ a * radix := Nat.mul_le_mul_left _ hr
          omega
        · simp at h
      · simp at h
  intro s
  induction s with
  | nil => intro a ha; simp [readLoopU, denoteFrom, Option.filter]; omega
  | cons c s ih =>
    intro a ha
    simp only [readLoopU, denoteFrom]
    cases hd : digitValue c with
    | none =>
      rw [(charToDigit_eq c).2 hd]; simp
    | some d =>
      rw [(charToDigit_eq c).1 d hd]
      by_cases hlt : d < radix
      · have h1 : ¬ ((d : Int) < 0 ∨ (radix : Int) ≤ d) := by omega
        simp only [h1, if_false, hlt, if_true, Int.toNat_natCast, show ¬ radix = 0 by omega]
        by_cases hc : (2 ^ 64 - 1 - d) / radix < a
        · simp only [hc, if_true]
          have hov : 2 ^ 64 - 1 - d < a * radix := (Nat.div_lt_iff_lt_mul (by omega)).1 hc
          cases hn : denoteFrom radix (a * radix + d) s with
          | none => rfl
          | some n =>
            have := grow s _ n (by omega) hn
            have : ¬ n < 2 ^ 64 := by omega
            simp [Option.filter, this]
        · simp only [hc, if_false]
          have hle : a * radix ≤ 2 ^ 64 - 1 - d := by
            have := Nat.not_lt.1 hc
            exact (Nat.le_div_iff_mul_le (by omega)).1 this
          by_cases hd64 : d < 2 ^ 64
          · have hlt64 : a * radix + d < 2 ^ 64 := by omega
            rw [Nat.mod_eq_of_lt hlt64]
            exact ih _ hlt64
          · exfalso
            have : d < 256 := by
              unfold digitValue at hd; have := c.toNat_lt; simp only at hd
              repeat' split at hd
              all_goals simp at hd
              all_goals omega
            omega
      · have h1 : ((d : Int) < 0 ∨ (radix : Int) ≤ d) := by omega
        simp [h1, hlt]

theorem digit_small {c : UInt8} {d : Nat} (h : digitValue c = some d) : d < 36 := by
  unfold digitValue at h; have := c.toNat_lt; simp only at h
  repeat' split at h
  all_goals simp at h
  all_goals omega

theorem grow (radix : Nat) (hr : 1 ≤ radix) : ∀ (s : List UInt8) (a n : Nat), denoteFrom radix a s = some n → a ≤ n := by
  intro s
  induction s with
  | nil => intro a n h; simp [denoteFrom] at h; omega
  | cons c s ih =>
    intro a n h
    simp only [denoteFrom] at h
    split at h
    · split at h
      · have := ih _ _ h
        have : a * 1 ≤ a * radix := Nat.mul_le_mul_left _ hr
        omega
      · simp at h
    · simp at h

theorem readLoopI_pos (radix : Nat) : ∀ (s : List UInt8) (a : Nat), a < 2 ^ 63 →
    readLoopI radix 1 a s = .ok (((denoteFrom radix a s).filter (· < 2 ^ 63)).map (fun n : Nat => (n : Int))) := by
  intro s
  induction s with
  | nil => intro a ha; have : a < 9223372036854775808 := ha; simp [readLoopI, denoteFrom, Option.filter, this]
  | cons c s ih =>
    intro a ha
    simp only [readLoopI, denoteFrom]
    cases hd : digitValue c with
    | none => rw [(charToDigit_eq c).2 hd]; simp
    | some d =>
      rw [(charToDigit_eq c).1 d hd]
      have hd36 := digit_small hd
      by_cases hlt : d < radix
      · have h1 : ¬ ((d : Int) < 0 ∨ (radix : Int) ≤ d) := by omega
        have hr : (0 : Int) < radix := by omega
        simp only [h1, if_false, hlt, if_true, show ¬ (radix : Int) = 0 by omega, show ¬ (1 : Int) < 0 by omega]
        have htd : (2 ^ 63 - 1 - (d : Int)).tdiv radix = (((2 ^ 63 - 1 - d) / radix : Nat) : Int) := by
          have : (2 ^ 63 - 1 - (d : Int)) = ((2 ^ 63 - 1 - d : Nat) : Int) := by omega
          rw [this, ← Int.ofNat_tdiv]
        rw [htd]
        by_cases hc : (2 ^ 63 - 1 - d) / radix < a
        · have hc' : (((2 ^ 63 - 1 - d) / radix : Nat) : Int) < a := by exact_mod_cast hc
          simp only [hc', if_true]
          have hov : 2 ^ 63 - 1 - d < a * radix := (Nat.div_lt_iff_lt_mul (by omega)).1 hc
          cases hn : denoteFrom radix (a * radix + d) s with
          | none => rfl
          | some n =>
            have := grow radix (by omega) s _ n hn
            have : ¬ n < 2 ^ 63 := by omega
            simp [Option.filter, this]
        · have hc' : ¬ (((2 ^ 63 - 1 - d) / radix : Nat) : Int) < a := by exact_mod_cast hc
          simp only [hc', if_false]
          have hle : a * radix ≤ 2 ^ 63 - 1 - d := (Nat.le_div_iff_mul_le (by omega)).1 (Nat.not_lt.1 hc)
          have hlt63 : a * radix + d < 2 ^ 63 := by omega
          have hcast : (a : Int) * radix + d = ((a * radix + d : Nat) : Int) := by simp
          rw [hcast]
          have : (-2 ^ 63 ≤ ((a * radix + d : Nat) : Int) ∧ ((a * radix + d : Nat) : Int) < 2 ^ 63) := by omega
          simp only [this, and_self, if_true]
          exact ih _ hlt63
      · have h1 : ((d : Int) < 0 ∨ (radix : Int) ≤ d) := by omega
        simp [h1, hlt]

theorem readLoopI_neg (radix : Nat) : ∀ (s : List UInt8) (a : Nat), a ≤ 2 ^ 63 →
    readLoopI radix (-1) (-(a : Int)) s = .ok (((denoteFrom radix a s).filter (· ≤ 2 ^ 63)).map (fun n : Nat => -(n : Int))) := by
  intro s
  induction s with
  | nil => intro a ha; have : a ≤ 9223372036854775808 := ha; simp [readLoopI, denoteFrom, Option.filter, this]
  | cons c s ih =>
    intro a ha
    simp only [readLoopI, denoteFrom]
    cases hd : digitValue c with
    | none => rw [(charToDigit_eq c).2 hd]; simp
    | some d =>
      rw [(charToDigit_eq c).1 d hd]
      have hd36 := digit_small hd
      by_cases hlt : d < radix
      · have h1 : ¬ ((d : Int) < 0 ∨ (radix : Int) ≤ d) := by omega
        have hr : (0 : Int) < radix := by omega
        simp only [h1, if_false, hlt, if_true, show ¬ (radix : Int) = 0 by omega, show (-1 : Int) < 0 by omega]
        have htd : (-2 ^ 63 + (d : Int)).tdiv radix = -(((2 ^ 63 - d) / radix : Nat) : Int) := by
          have : (-2 ^ 63 + (d : Int)) = -((2 ^ 63 - d : Nat) : Int) := by omega
          rw [this, Int.neg_tdiv, ← Int.ofNat_tdiv]
        rw [htd]
        by_cases hc : (2 ^ 63 - d) / radix < a
        · have hc' : -(((2 ^ 63 - d) / radix : Nat) : Int) > -(a : Int) := by
            have : (((2 ^ 63 - d) / radix : Nat) : Int) < a := by exact_mod_cast hc
            omega
          simp only [hc', if_true]
          have hov : 2 ^ 63 - d < a * radix := (Nat.div_lt_iff_lt_mul (by omega)).1 hc
          cases hn : denoteFrom radix (a * radix + d) s with
          | none => rfl
          | some n =>
            have := grow radix (by omega) s _ n hn
            have : ¬ n ≤ 2 ^ 63 := by omega
            simp [Option.filter, this]
        · have hc' : ¬ -(((2 ^ 63 - d) / radix : Nat) : Int) > -(a : Int) := by
            have : ¬ (((2 ^ 63 - d) / radix : Nat) : Int) < a := by exact_mod_cast hc
            omega
          simp only [hc', if_false]
          have hle : a * radix ≤ 2 ^ 63 - d := (Nat.le_div_iff_mul_le (by omega)).1 (Nat.not_lt.1 hc)
          have hlt63 : a * radix + d ≤ 2 ^ 63 := by omega
          have hcast : -(a : Int) * radix - d = -((a * radix + d : Nat) : Int) := by
            rw [Int.natCast_add, Int.natCast_mul, Int.neg_mul]; omega
          rw [hcast]
          have : (-2 ^ 63 ≤ -((a * radix + d : Nat) : Int) ∧ -((a * radix + d : Nat) : Int) < 2 ^ 63) := by omega
          simp only [this, and_self, if_true]
          exact ih _ hlt63
      · have h1 : ((d : Int) < 0 ∨ (radix : Int) ≤ d) := by omega
        simp [h1, hlt]

end Verif.Integer
