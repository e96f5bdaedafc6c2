import Verif.Integer.Lemmas

/-!
# Theorems about integer text (C49)
-/
namespace Verif.Integer

theorem denoteFrom_minus (radix a : Nat) (s : List UInt8) : denoteFrom radix a (45 :: s) = none := by
  have : digitValue 45 = none := by decide
  simp [denoteFrom, this]

/-- What `llrt_string_to_i64` returns. -/
theorem stringToI64_spec (radix : Nat) (s : List UInt8) : ∃ r, stringToI64 radix s = .ok r ∧ ∀ v, r = some v ↔ Denotes ⟨true, 64⟩ radix s v := by
  have pos : ∀ s : List UInt8, s ≠ [] → (∀ c t, s ≠ 45 :: c :: t) → stringToI64 radix s = readLoopI radix 1 0 s := by
    intro s h1 h2
    unfold stringToI64
    split
    · exact absurd rfl (h2 _ _)
    · exact absurd rfl h1
    · rfl
  by_cases h1 : s = []
  · subst h1
    refine ⟨none, rfl, fun v => ⟨fun h => by simp at h, ?_⟩⟩
    rintro ⟨_, ⟨h, _⟩ | ⟨_, t, h, _⟩⟩
    · exact absurd rfl h
    · simp at h
  · by_cases h2 : ∃ c t, s = 45 :: c :: t
    · obtain ⟨c, t, rfl⟩ := h2
      refine ⟨_, readLoopI_neg radix (c :: t) 0 (by decide), fun v => ?_⟩
      simp only [Option.map_eq_some_iff, Option.filter_eq_some_iff, decide_eq_true_eq]
      constructor
      · rintro ⟨n, ⟨hn, hle⟩, rfl⟩
        exact ⟨by simp [IntTy.InRange]; omega, .inr ⟨rfl, _, rfl, by simp, n, hn, rfl⟩⟩
      · rintro ⟨hr, ⟨_, n, hn, _⟩ | ⟨_, t', ht, _, n, hn, rfl⟩⟩
        · rw [denoteFrom_minus] at hn; simp at hn
        · simp at ht; subst ht
          simp [IntTy.InRange] at hr
          exact ⟨n, ⟨hn, by omega⟩, rfl⟩
    · have h3 : ∀ c t, s ≠ 45 :: c :: t := fun c t h => h2 ⟨c, t, h⟩
      refine ⟨_, (pos s h1 h3).trans (readLoopI_pos radix s 0 (by decide)), fun v => ?_⟩
      simp only [Option.map_eq_some_iff, Option.filter_eq_some_iff, decide_eq_true_eq]
      constructor
      · rintro ⟨n, ⟨hn, hle⟩, rfl⟩
        exact ⟨by simp [IntTy.InRange]; omega, .inl ⟨h1, n, hn, rfl⟩⟩
      · rintro ⟨hr, ⟨_, n, hn, rfl⟩ | ⟨_, t', ht, hne, _⟩⟩
        · simp [IntTy.InRange] at hr
          exact ⟨n, ⟨hn, by omega⟩, rfl⟩
        · cases t' with
          | nil => exact absurd rfl hne
          | cons c t => exact absurd ht (h3 c t)

/-- What `llrt_string_to_u64` returns. -/
theorem stringToU64_spec (radix : Nat) (s : List UInt8) : ∃ r, stringToU64 radix s = .ok r ∧ ∀ v : Nat, r = some v ↔ Denotes ⟨false, 64⟩ radix s v := by
  by_cases h1 : s = []
  · subst h1
    refine ⟨none, rfl, fun v => ⟨fun h => by simp at h, ?_⟩⟩
    rintro ⟨_, ⟨h, _⟩ | ⟨h, _⟩⟩
    · exact absurd rfl h
    · simp at h
  · refine ⟨_, (if_neg (by simpa using h1)).trans (readLoopU_spec radix s 0 (by decide)), fun v => ?_⟩
    simp only [Option.filter_eq_some_iff, decide_eq_true_eq]
    constructor
    · rintro ⟨hn, hle⟩
      exact ⟨by simp [IntTy.InRange]; omega, .inl ⟨h1, v, hn, rfl⟩⟩
    · rintro ⟨hr, ⟨_, n, hn, hv⟩ | ⟨h, _⟩⟩
      · have : v = n := by exact_mod_cast hv
        subst this
        simp [IntTy.InRange] at hr
        exact ⟨hn, by omega⟩
      · simp at h

theorem inRange_iff (ty : IntTy) (v : Int) : ty.InRange v ↔ (ty.min ≤ v ∧ v ≤ ty.max) := by
  unfold IntTy.InRange IntTy.min IntTy.max
  cases ty.signed <;> simp <;> omega

theorem inRange_64 {ty : IntTy} (hv : ty.Valid) {v : Int} (h : ty.InRange v) : IntTy.InRange ⟨ty.signed, 64⟩ v := by
  obtain ⟨sg, bits⟩ := ty
  rcases hv with h' | h' | h' | h' <;> simp only at h' <;> subst h' <;> cases sg <;> simp [IntTy.InRange] at h ⊢ <;> omega

theorem conv_id {ty : IntTy} (hv : ty.Valid) {v : Int} (h : ty.InRange v) : ty.conv v = v := by
  obtain ⟨sg, bits⟩ := ty
  rcases hv with h' | h' | h' | h' <;> simp only at h' <;> subst h' <;> cases sg <;> simp [IntTy.InRange, IntTy.conv, Int.bmod] at h ⊢ <;> omega

/-- C49: reading is defined for every text and every radix, and accepts exactly the text that denotes a value of the type, giving that value. -/
theorem from_string_denotes (ty : IntTy) (hv : ty.Valid) (radix : Nat) (s : List UInt8) :
    ∃ r, fromString? ty radix s = .ok r ∧ ∀ v, r = some v ↔ Denotes ty radix s v := by
  have key : ∃ r64, (if ty.signed then stringToI64 radix s else (stringToU64 radix s).map (Option.map Int.ofNat)) = .ok r64 ∧
      ∀ v, r64 = some v ↔ Denotes ⟨ty.signed, 64⟩ radix s v := by
    cases hs : ty.signed with
    | true => simpa using stringToI64_spec radix s
    | false =>
      obtain ⟨r, e, h⟩ := stringToU64_spec radix s
      refine ⟨r.map Int.ofNat, by simp [e, Except.map], fun v => ?_⟩
      constructor
      · intro hr
        obtain ⟨n, hn, rfl⟩ := Option.map_eq_some_iff.1 hr
        exact (h n).1 hn
      · intro hd
        obtain ⟨n, rfl⟩ : ∃ n : Nat, v = n := by
          rcases hd.2 with ⟨_, n, _, e⟩ | ⟨h, _⟩
          · exact ⟨n, e⟩
          · simp at h
        rw [(h n).2 hd]; rfl
  obtain ⟨r64, e, h⟩ := key
  unfold fromString?
  rw [e]
  cases r64 with
  | none =>
    refine ⟨none, rfl, fun v => ⟨fun h => by simp at h, fun hd => ?_⟩⟩
    have := (h v).2 ⟨inRange_64 hv hd.1, hd.2⟩
    simp at this
  | some w =>
    have hw := (h w).1 rfl
    by_cases hr : ty.min ≤ w ∧ w ≤ ty.max
    · have hr' := (inRange_iff ty w).2 hr
      refine ⟨some (ty.conv w), by simp [hr], fun v => ?_⟩
      rw [conv_id hv hr']
      constructor
      · intro h'; simp at h'; subst h'; exact ⟨hr', hw.2⟩
      · intro hd; exact (h v).2 ⟨inRange_64 hv hd.1, hd.2⟩
    · refine ⟨none, by simp [hr], fun v => ⟨fun h => by simp at h, fun hd => ?_⟩⟩
      have := (h v).2 ⟨inRange_64 hv hd.1, hd.2⟩
      simp at this; subst this
      exact absurd ((inRange_iff ty _).1 hd.1) hr

theorem pow_ge {r : Nat} (h : 2 ≤ r) (k : Nat) : 2 ^ k ≤ r ^ k := Nat.pow_le_pow_left h k

/-- A digit sequence the loops leave in the buffer. -/
theorem printed {radix : Nat} (h2 : 2 ≤ radix) (h36 : radix ≤ 36) (k v : Nat) (hv : v < radix ^ k) (hk : k ≤ 64) (h0 : v ≠ 0) :
    ∃ ds : List UInt8, printLoopU radix 66 v 0 [] = .ok (ds.length, ds) ∧ ds.length ≤ k ∧ ds ≠ [] ∧ denoteFrom radix 0 ds = some v := by
  obtain ⟨ds, e1, e2, e3, e4⟩ := printLoopU_spec h2 h36 k 66 v 0 [] hv (by omega) (by omega)
  refine ⟨ds, by simpa using e1, e2, e3 h0, ?_⟩
  have := e4 [] 0
  simpa [denoteFrom] using this

theorem denote_zero {ty : IntTy} {radix : Nat} (h2 : 2 ≤ radix) (hr : ty.InRange 0) : Denotes ty radix [48] 0 := by
  refine ⟨hr, .inl ⟨by simp, 0, ?_, rfl⟩⟩
  have : digitValue 48 = some 0 := by decide
  simp only [denoteFrom, this]
  rw [if_pos (by omega)]; simp

/-- C49: printing a value of any integer type in any radix gives text that denotes the value, so reading it back gives the value again, **except** for the least
`I64` in radix 2 (see `to_string_overflows_partial`). -/
theorem to_string_denotes_partial (ty : IntTy) (hv : ty.Valid) (radix : Nat) (h2 : 2 ≤ radix) (h36 : radix ≤ 36) (v : Int) (hr : ty.InRange v)
    (hex : ¬ (radix = 2 ∧ v = -2 ^ 63)) :
    ∃ s, toString ty radix v = .ok s ∧ Denotes ty radix s v ∧ fromString? ty radix s = .ok (some v) := by
  have key : ∃ s, toString ty radix v = .ok s ∧ Denotes ty radix s v := by
    have hr64 := inRange_64 hv hr
    unfold toString
    rw [if_pos ⟨h2, h36⟩]
    cases hs : ty.signed with
    | false =>
      simp [hs, IntTy.InRange] at hr64
      simp only [u64ToString]
      by_cases h0 : v = 0
      · subst h0; exact ⟨[48], by simp, denote_zero h2 hr⟩
      · obtain ⟨ds, e1, _, e3, e4⟩ := printed h2 h36 64 v.toNat (by have := pow_ge h2 64; omega) (by omega) (by omega)
        refine ⟨ds, ?_, hr, .inl ⟨e3, _, e4, by omega⟩⟩
        rw [e1]; simp; omega
    | true =>
      simp [hs, IntTy.InRange] at hr64
      simp only [i64ToString]
      by_cases h0 : v = 0
      · subst h0; exact ⟨[48], by simp, denote_zero h2 hr⟩
      · simp only [if_true, h0, if_false]
        have hsig : v ≠ 0 → (if v < 0 then -1 else 1 : Int) = if v < 0 then -1 else 1 := fun _ => rfl
        rw [printLoopI_eq _ _ _ _ _ hsig]
        by_cases hneg : v < 0
        · obtain ⟨ds, e1, e2, e3, e4⟩ : ∃ ds : List UInt8, printLoopU radix 66 v.natAbs 0 [] = .ok (ds.length, ds) ∧ ds.length ≤ 63 ∧ ds ≠ [] ∧
              denoteFrom radix 0 ds = some v.natAbs := by
            by_cases h2' : radix = 2
            · subst h2'
              exact printed h2 h36 63 v.natAbs (by omega) (by omega) (by omega)
            · obtain ⟨ds, e1, e2, e3⟩ := printed h2 h36 41 v.natAbs
                (by have : 3 ^ 41 ≤ radix ^ 41 := Nat.pow_le_pow_left (by omega) 41
                    have : 2 ^ 63 < 3 ^ 41 := by decide
                    omega) (by omega) (by omega)
              exact ⟨ds, e1, by omega, e3⟩
          refine ⟨45 :: ds, ?_, hr, .inr ⟨hs, ds, rfl, e3, _, e4, by omega⟩⟩
          rw [e1]; simp [hneg, e2]
        · obtain ⟨ds, e1, _, e3, e4⟩ := printed h2 h36 63 v.natAbs (by have := pow_ge h2 63; omega) (by omega) (by omega)
          refine ⟨ds, ?_, hr, .inl ⟨e3, _, e4, by omega⟩⟩
          rw [e1]; simp [hneg]
  obtain ⟨s, e, hd⟩ := key
  obtain ⟨r, er, hrd⟩ := from_string_denotes ty hv radix s
  refine ⟨s, e, hd, ?_⟩
  rw [er, (hrd v).2 hd]

/-- C49, refutation: the least `I64` in radix 2 has 64 digits, and the sign is written one byte before the buffer. -/
theorem to_string_overflows_partial : toString ⟨true, 64⟩ 2 (-2 ^ 63) = .error .undefined := rfl

/-- C49: text denotes at most one value, so different values never print alike. -/
theorem denotes_unique {ty : IntTy} {radix : Nat} {s : List UInt8} {v w : Int} (h1 : Denotes ty radix s v) (h2 : Denotes ty radix s w) : v = w := by
  rcases h1.2 with ⟨_, n, hn, rfl⟩ | ⟨_, t, rfl, _, n, hn, rfl⟩
  · rcases h2.2 with ⟨_, m, hm, rfl⟩ | ⟨_, t, rfl, _⟩
    · rw [hn] at hm; simp at hm; omega
    · rw [denoteFrom_minus] at hn; simp at hn
  · rcases h2.2 with ⟨_, m, hm, rfl⟩ | ⟨_, t', ht, _, m, hm, rfl⟩
    · rw [denoteFrom_minus] at hm; simp at hm
    · simp at ht; subst ht
      rw [hn] at hm; simp at hm; omega

/-- A radix outside 2..36 fails the assertion. -/
theorem to_string_radix (ty : IntTy) (radix : Nat) (v : Int) (h : radix < 2 ∨ 36 < radix) : toString ty radix v = .error .assert := by
  unfold toString; rw [if_neg (by omega)]

/-! ## Non-vacuity -/

def str (s : String) : List UInt8 := s.toList.map fun c => UInt8.ofNat c.toNat

example : toString ⟨true, 64⟩ 10 (-9223372036854775808) = .ok (str "-9223372036854775808") := rfl
example : toString ⟨false, 64⟩ 36 18446744073709551615 = .ok (str "3w5e11264sgsf") := rfl
example : toString ⟨false, 64⟩ 2 18446744073709551615 = .ok (List.replicate 64 49) := rfl
example : fromString? ⟨true, 64⟩ 10 (str "-9223372036854775808") = .ok (some (-9223372036854775808)) := rfl
example : fromString? ⟨true, 64⟩ 10 (str "-9223372036854775809") = .ok none := rfl
example : fromString? ⟨true, 64⟩ 10 (str "9223372036854775808") = .ok none := rfl
example : fromString? ⟨true, 8⟩ 16 (str "-80") = .ok (some (-128)) := rfl
example : fromString? ⟨true, 8⟩ 16 (str "80") = .ok none := rfl
example : fromString? ⟨false, 64⟩ 36 (str "3W5E11264SGSF") = .ok (some 18446744073709551615) := rfl
example : fromString? ⟨false, 64⟩ 36 (str "3w5e11264sgsg") = .ok none := rfl
example : fromString? ⟨false, 32⟩ 10 (str "-1") = .ok none := rfl
example : fromString? ⟨true, 32⟩ 10 (str "-") = .ok none := rfl
example : fromString? ⟨true, 32⟩ 0 (str "0") = .ok none := rfl

end Verif.Integer
