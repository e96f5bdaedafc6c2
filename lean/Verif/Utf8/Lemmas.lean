import Verif.Utf8.Model
import Verif.Utf8.Spec

namespace Verif.Utf8
open Spec

theorem inputClass_table : ∀ i : Fin 256, inputClass i.1 =
    if i.1 < 128 then .latin else if i.1 < 192 then .progress else if i.1 < 224 then .h2
    else if i.1 < 240 then .h3 else if i.1 < 248 then .h4 else .invalid := by decide +kernel

theorem inputClass_eq (i : Nat) (h : i < 256) : inputClass i =
    if i < 128 then .latin else if i < 192 then .progress else if i < 224 then .h2
    else if i < 240 then .h3 else if i < 248 then .h4 else .invalid := inputClass_table ⟨i, h⟩

theorem and63 (x : Nat) : x &&& 63 = x % 64 := Nat.and_two_pow_sub_one_eq_mod x 6
theorem and31 (x : Nat) : x &&& 31 = x % 32 := Nat.and_two_pow_sub_one_eq_mod x 5
theorem and15 (x : Nat) : x &&& 15 = x % 16 := Nat.and_two_pow_sub_one_eq_mod x 4
theorem and7 (x : Nat) : x &&& 7 = x % 8 := Nat.and_two_pow_sub_one_eq_mod x 3

theorem or_add (a n b : Nat) (h : b < 2 ^ n) : (a * 2 ^ n) ||| b = a * 2 ^ n + b := by
  rw [← Nat.shiftLeft_eq, Nat.shiftLeft_add_eq_or_of_lt h]

theorem shl63 (x n : Nat) (h : n ≤ 18) : andShl x 63 n = x % 64 * 2 ^ n := by
  rw [andShl, and63, Nat.shiftLeft_eq, Nat.mod_eq_of_lt]
  have : x % 64 * 2 ^ n ≤ 63 * 2 ^ 18 := Nat.mul_le_mul (by omega) (Nat.pow_le_pow_right (by omega) h)
  omega

theorem value2 (a b : Nat) : andShl a 31 6 ||| andShl b 63 0 = a % 32 * 64 + b % 64 := by
  rw [shl63 b 0 (by omega), andShl, and31, Nat.shiftLeft_eq, Nat.mod_eq_of_lt (by omega), or_add _ 6 _ (by omega)]
  omega

theorem value3 (a b c : Nat) : andShl a 15 12 ||| (andShl b 63 6 ||| andShl c 63 0) = a % 16 * 4096 + b % 64 * 64 + c % 64 := by
  rw [shl63 b 6 (by omega), shl63 c 0 (by omega), andShl, and15, Nat.shiftLeft_eq, Nat.mod_eq_of_lt (by omega),
    or_add _ 6 _ (by omega), or_add _ 12 _ (by omega)]
  omega

theorem value4 (a b c d : Nat) : andShl a 7 18 ||| (andShl b 63 12 ||| (andShl c 63 6 ||| andShl d 63 0)) =
    a % 8 * 262144 + b % 64 * 4096 + c % 64 * 64 + d % 64 := by
  rw [shl63 b 12 (by omega), shl63 c 6 (by omega), shl63 d 0 (by omega), andShl, and7, Nat.shiftLeft_eq, Nat.mod_eq_of_lt (by omega),
    or_add _ 6 _ (by omega), or_add _ 12 _ (by omega), or_add _ 18 _ (by omega)]
  omega

theorem or_table128 : ∀ a : Fin 64, a.1 ||| 128 = a.1 + 128 := by decide +kernel
theorem or_table192 : ∀ a : Fin 32, a.1 ||| 192 = a.1 + 192 := by decide +kernel
theorem or_table224 : ∀ a : Fin 16, a.1 ||| 224 = a.1 + 224 := by decide +kernel
theorem or_table240 : ∀ a : Fin 8, a.1 ||| 240 = a.1 + 240 := by decide +kernel

theorem enc128 (x n : Nat) : shrAndOr x n 63 128 = 128 + x / 2 ^ n % 64 := by
  rw [shrAndOr, and63, Nat.shiftRight_eq_div_pow, or_table128 ⟨_, Nat.mod_lt _ (by omega)⟩]
  simp only
  omega
theorem enc192 (x n : Nat) : shrAndOr x n 31 192 = 192 + x / 2 ^ n % 32 := by
  rw [shrAndOr, and31, Nat.shiftRight_eq_div_pow, or_table192 ⟨_, Nat.mod_lt _ (by omega)⟩]
  simp only
  omega
theorem enc224 (x n : Nat) : shrAndOr x n 15 224 = 224 + x / 2 ^ n % 16 := by
  rw [shrAndOr, and15, Nat.shiftRight_eq_div_pow, or_table224 ⟨_, Nat.mod_lt _ (by omega)⟩]
  simp only
  omega
theorem enc240 (x n : Nat) : shrAndOr x n 7 240 = 240 + x / 2 ^ n % 8 := by
  rw [shrAndOr, and7, Nat.shiftRight_eq_div_pow, or_table240 ⟨_, Nat.mod_lt _ (by omega)⟩]
  simp only
  omega

/-- The scalars the code knows about. -/
def Known (x : Nat) : Prop := Scalar x ∧ x ≤ 111411

theorem decodeStep_none (n : Nat) (h : n < 256) : decodeStep none n =
    if n < 128 then .produce n else if n < 192 then .invalid else if n < 224 then .continue (.i2a n)
    else if n < 240 then .continue (.i3a n) else if n < 248 then .continue (.i4a n) else .invalid := by
  unfold decodeStep
  rw [inputClass_eq n h]
  by_cases h1 : n < 128
  · simp only [h1, if_true, decode]; rw [if_pos (by omega)]
  · by_cases h2 : n < 192
    · simp only [h1, h2, if_true, if_false]
    · by_cases h3 : n < 224
      · simp only [h1, h2, h3, if_true, if_false]
      · by_cases h4 : n < 240
        · simp only [h1, h2, h3, h4, if_true, if_false]
        · by_cases h5 : n < 248 <;> simp only [h1, h2, h3, h4, h5, if_true, if_false]

theorem step_progress (s : Incomplete) (n : Nat) (h : n < 256) : decodeStep (some s) n =
    if n < 128 then markInvalid (decode (.latin n)) else if n < 192 then
      match s with
      | .i2a a => decode (.c2 a n)
      | .i3a a => .continue (.i3b a n)
      | .i3b a b => decode (.c3 a b n)
      | .i4a a => .continue (.i4b a n)
      | .i4b a b => .continue (.i4c a b n)
      | .i4c a b c => decode (.c4 a b c n)
    else .invalid := by
  unfold decodeStep
  rw [inputClass_eq n h]
  by_cases h1 : n < 128
  · simp [h1]
  · by_cases h2 : n < 192
    · simp only [h1, h2, if_true, if_false]
      cases s <;> rfl
    · simp only [h1, h2, if_false]
      by_cases h3 : n < 224
      · simp [h3]
      · by_cases h4 : n < 240
        · simp [h3, h4]
        · by_cases h5 : n < 248 <;> simp [h3, h4, h5]

theorem utf8_lt (x : Nat) (h : Scalar x) : ∀ b ∈ utf8 x, b < 256 := by
  intro b hb
  unfold Scalar at h
  unfold utf8 at hb
  split at hb
  · simp at hb; omega
  · split at hb
    · simp at hb; rcases hb with rfl | rfl <;> omega
    · split at hb
      · simp at hb; rcases hb with rfl | rfl | rfl <;> omega
      · simp at hb; rcases hb with rfl | rfl | rfl | rfl <;> omega

/-- Three-way description of a run of `decode-step` over the encoding of a scalar. -/
inductive Fed : Option Incomplete → List Nat → Nat → Prop
  | last {s b x} : decodeStep s b = .produce x → Fed s [b] x
  | more {s b i bs x} : decodeStep s b = .continue i → Fed (some i) bs x → Fed s (b :: bs) x

theorem decode2 (a b : Nat) : decode (.c2 a b) = if 128 ≤ a % 32 * 64 + b % 64 ∧ a % 32 * 64 + b % 64 ≤ 2047
    then .produce (a % 32 * 64 + b % 64) else .invalid := by
  simp only [decode, value2]
theorem decode3 (a b c : Nat) : decode (.c3 a b c) =
    if (2048 ≤ a % 16 * 4096 + b % 64 * 64 + c % 64 ∧ a % 16 * 4096 + b % 64 * 64 + c % 64 ≤ 65535) ∧
      ¬ (55296 ≤ a % 16 * 4096 + b % 64 * 64 + c % 64 ∧ a % 16 * 4096 + b % 64 * 64 + c % 64 ≤ 57343)
    then .produce (a % 16 * 4096 + b % 64 * 64 + c % 64) else .invalid := by
  simp only [decode, value3]
theorem decode4 (a b c d : Nat) : decode (.c4 a b c d) =
    if 65536 ≤ a % 8 * 262144 + b % 64 * 4096 + c % 64 * 64 + d % 64 ∧ a % 8 * 262144 + b % 64 * 4096 + c % 64 * 64 + d % 64 ≤ 111411
    then .produce (a % 8 * 262144 + b % 64 * 4096 + c % 64 * 64 + d % 64) else .invalid := by
  simp only [decode, value4]

theorem step_lead {n : Nat} (h : n < 256) (h1 : 192 ≤ n) (h2 : n < 248) : decodeStep none n =
    .continue (if n < 224 then .i2a n else if n < 240 then .i3a n else .i4a n) := by
  rw [decodeStep_none n h, if_neg (by omega), if_neg (by omega)]
  by_cases h3 : n < 224
  · simp [h3]
  · by_cases h4 : n < 240 <;> simp [h3, h4, h2]

theorem step_cont (s : Incomplete) {n : Nat} (h1 : 128 ≤ n) (h2 : n < 192) : decodeStep (some s) n =
      match s with
      | .i2a a => decode (.c2 a n)
      | .i3a a => .continue (.i3b a n)
      | .i3b a b => decode (.c3 a b n)
      | .i4a a => .continue (.i4b a n)
      | .i4b a b => .continue (.i4c a b n)
      | .i4c a b c => decode (.c4 a b c n) := by
  rw [step_progress s n (by omega), if_neg (by omega), if_pos h2]

theorem fed_utf8 (x : Nat) (h : Known x) : Fed none (utf8 x) x := by
  obtain ⟨h, hk⟩ := h
  unfold Scalar at h
  unfold utf8
  split
  · exact .last (by rw [decodeStep_none x (by omega), if_pos (by omega)])
  · split
    · refine .more (i := .i2a _) (by rw [step_lead (by omega) (by omega) (by omega), if_pos (by omega)]) (.last ?_)
      rw [step_cont _ (by omega) (by omega)]
      simp only
      rw [decode2, if_pos (by omega)]; congr 1; omega
    · split
      · refine .more (i := .i3a _) (by rw [step_lead (by omega) (by omega) (by omega), if_neg (by omega), if_pos (by omega)])
          (.more (i := .i3b _ _) (by rw [step_cont _ (by omega) (by omega)]) (.last ?_))
        rw [step_cont _ (by omega) (by omega)]
        simp only
        rw [decode3, if_pos (by omega)]; congr 1; omega
      · refine .more (i := .i4a _) (by rw [step_lead (by omega) (by omega) (by omega), if_neg (by omega), if_neg (by omega)])
          (.more (i := .i4b _ _) (by rw [step_cont _ (by omega) (by omega)])
            (.more (i := .i4c _ _ _) (by rw [step_cont _ (by omega) (by omega)]) (.last ?_)))
        rw [step_cont _ (by omega) (by omega)]
        simp only
        rw [decode4, if_pos (by omega)]; congr 1; omega

theorem Fed.valid {s bs x} (h : Fed s bs x) (rest : List Nat) : validLoop s (bs ++ rest) = validLoop none rest := by
  induction h with
  | last e => simp [validLoop, e, isValid, isContinue]
  | more e _ ih => simp only [List.cons_append, validLoop, e, isValid, isContinue]; exact ih

theorem Fed.chars {s bs x} (h : Fed s bs x) (rest : List Nat) : charsLoop s (bs ++ rest) = (charsLoop none rest).map (x :: ·) := by
  induction h with
  | last e => simp [charsLoop, e]
  | more e _ ih => simp only [List.cons_append, charsLoop, e]; exact ih

theorem Fed.indices {start i index s bs x} (h : Fed s bs x) (rest : List Nat) :
    charIndicesLoop start i index s (bs ++ rest) =
      (charIndicesLoop start (i + bs.length) start none rest).map ((min i index, x) :: ·) := by
  induction h generalizing i index with
  | last e => simp [charIndicesLoop, e]
  | @more s b st bs x e _ ih =>
    simp only [List.cons_append, charIndicesLoop, e]
    rw [ih]
    have : min (i + 1) (min i index) = min i index := by omega
    rw [this, List.length_cons]
    congr 2
    omega

/-- What can follow in a valid sequence: the encoding of a known scalar. -/
theorem valid_head (b : Nat) (bs : List Nat) (hb : ∀ c ∈ b :: bs, c < 256) (h : validLoop none (b :: bs) = true) :
    ∃ x rest, Known x ∧ b :: bs = utf8 x ++ rest ∧ validLoop none rest = true := by
  have hb0 := hb b (by simp)
  simp only [validLoop] at h
  by_cases h1 : b < 128
  · rw [decodeStep_none b hb0, if_pos h1] at h
    refine ⟨b, bs, ⟨by unfold Scalar; omega, by omega⟩, by simp [utf8, h1], by simpa [isValid, isContinue] using h⟩
  by_cases h2n : ¬ (192 ≤ b ∧ b < 248)
  · rw [decodeStep_none b hb0, if_neg h1] at h
    have : (if b < 192 then Decode.invalid else if b < 224 then Decode.continue (.i2a b)
      else if b < 240 then Decode.continue (.i3a b) else if b < 248 then Decode.continue (.i4a b) else Decode.invalid) = .invalid := by
      by_cases h3 : b < 192
      · simp [h3]
      · rw [if_neg h3, if_neg (by omega), if_neg (by omega), if_neg (by omega)]
    rw [this] at h
    simp [isValid] at h
  have h2 := Classical.not_not.1 h2n
  rw [step_lead hb0 h2.1 h2.2] at h
  simp only [isValid, isContinue, Bool.not_true, Bool.false_eq_true, if_false] at h
  -- every continuation byte
  have next : ∀ (s : Incomplete) (cs : List Nat), (∀ c ∈ cs, c < 256) → validLoop (some s) cs = true →
      ∃ c cs', cs = c :: cs' ∧ 128 ≤ c ∧ c < 192 ∧ isValid (decodeStep (some s) c) = true ∧
        validLoop (isContinue (decodeStep (some s) c)) cs' = true := by
    intro s cs hcs hv
    cases cs with
    | nil => simp [validLoop] at hv
    | cons c cs' =>
      simp only [validLoop] at hv
      have hc := hcs c (by simp)
      cases hval : isValid (decodeStep (some s) c) with
      | false => simp [hval] at hv
      | true =>
        simp only [hval, Bool.not_true, Bool.false_eq_true, if_false] at hv
        refine ⟨c, cs', rfl, ?_, ?_, hval, hv⟩
        · apply Classical.byContradiction
          intro hlt
          rw [step_progress s c hc, if_pos (by omega), decode, if_pos (by omega)] at hval
          simp [markInvalid, isValid] at hval
        · apply Classical.byContradiction
          intro hge
          rw [step_progress s c hc, if_neg (by omega), if_neg (by omega)] at hval
          simp [isValid] at hval
  have hbs : ∀ c ∈ bs, c < 256 := fun c hc => hb c (by simp [hc])
  obtain ⟨c, cs, rfl, hc1, hc2, hv, hr⟩ := next _ bs hbs h
  rw [step_cont _ hc1 hc2] at hv hr
  by_cases h3 : b < 224
  · simp only [h3, if_true, decode2] at hv hr
    split at hr
    · next hx =>
      refine ⟨b % 32 * 64 + c % 64, cs, ⟨by unfold Scalar; omega, by omega⟩, ?_, by simpa [isContinue] using hr⟩
      rw [utf8, if_neg (by omega), if_pos (by omega)]
      simp only [List.cons_append, List.nil_append, List.cons.injEq, and_true]
      omega
    · next hx => simp [hx, isValid] at hv
  simp only [h3, if_false] at hv hr
  have hcs : ∀ d ∈ cs, d < 256 := fun d hd => hbs d (by simp [hd])
  by_cases h4 : b < 240
  · simp only [h4, if_true, isContinue] at hv hr
    obtain ⟨d, ds, rfl, hd1, hd2, hv2, hr2⟩ := next _ cs hcs hr
    rw [step_cont _ hd1 hd2] at hv2 hr2
    simp only [decode3] at hv2 hr2
    split at hr2
    · next hx =>
      refine ⟨b % 16 * 4096 + c % 64 * 64 + d % 64, ds, ⟨by unfold Scalar; omega, by omega⟩, ?_, by simpa [isContinue] using hr2⟩
      rw [utf8, if_neg (by omega), if_neg (by omega), if_pos (by omega)]
      simp only [List.cons_append, List.nil_append, List.cons.injEq, and_true]
      omega
    · next hx => rw [if_neg hx] at hv2; simp [isValid] at hv2
  · simp only [h4, if_false, isContinue] at hv hr
    obtain ⟨d, ds, rfl, hd1, hd2, hv2, hr2⟩ := next _ cs hcs hr
    rw [step_cont _ hd1 hd2] at hv2 hr2
    simp only [isContinue] at hv2 hr2
    obtain ⟨e, es, rfl, he1, he2, hv3, hr3⟩ := next _ ds (fun d hd => hcs d (by simp [hd])) hr2
    rw [step_cont _ he1 he2] at hv3 hr3
    simp only [decode4] at hv3 hr3
    split at hr3
    · next hx =>
      refine ⟨b % 8 * 262144 + c % 64 * 4096 + d % 64 * 64 + e % 64, es, ⟨by unfold Scalar; omega, by omega⟩, ?_,
        by simpa [isContinue] using hr3⟩
      rw [utf8, if_neg (by omega), if_neg (by omega), if_neg (by omega)]
      simp only [List.cons_append, List.nil_append, List.cons.injEq, and_true]
      omega
    · next hx => rw [if_neg hx] at hv3; simp [isValid] at hv3

end Verif.Utf8
