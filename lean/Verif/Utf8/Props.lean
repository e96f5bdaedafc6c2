import Verif.Utf8.Lemmas

/-!
# C37, C38: UTF-8

`Known x` is: `x` is a Unicode scalar value and at most 111411.  The code means 1114111 (0x10FFFF) but says 111411 (0x1B333) in
`encode`, `decode` and `char/from-unicode-scalar`; the full statements fail and are refuted below.
-/
namespace Verif.Utf8
open Spec

/-! ## C37 -/

theorem displayChar_known (x : Nat) (h : Known x) : displayChar x = some (utf8 x) := by
  obtain ⟨h, hk⟩ := h
  unfold Scalar at h
  unfold displayChar encode utf8
  by_cases h1 : x < 128
  · rw [if_pos (by omega), if_pos h1]; simp only; congr 2; omega
  · rw [if_neg (by omega), if_neg h1]
    by_cases h2 : x < 2048
    · rw [if_pos (by omega), if_pos h2]; simp only [enc128, enc192]; congr 2
      · omega
      · simp
    · rw [if_neg (by omega), if_neg h2]
      by_cases h3 : x < 65536
      · rw [if_pos (by omega), if_pos h3]; simp only [enc128, enc224]; congr 2
        · omega
        · simp
      · rw [if_neg (by omega), if_neg h3, if_pos (by omega)]; simp only [enc128, enc240]; congr 2
        · omega
        · simp

/-- **C37**, for the scalars up to 111411: the character is written as its UTF-8 encoding, which is decoded back, alone and as part
of a longer string, and has the announced length.  Missing: the scalars from 111412 to 1114111, refuted by `encode_refuses`. -/
theorem utf8_round_trip_partial (x : Nat) (h : Known x) :
    fromUnicodeScalar x = some x ∧ displayChar x = some (utf8 x) ∧ utf8Length x = some (utf8 x).length ∧
      chars (utf8 x) = some [x] ∧ ∀ rest, chars (utf8 x ++ rest) = (chars rest).map (x :: ·) := by
  refine ⟨?_, displayChar_known x h, ?_, ?_, fun rest => (fed_utf8 x h).chars rest⟩
  · obtain ⟨h, hk⟩ := h
    unfold Scalar at h
    rw [fromUnicodeScalar, if_pos (by omega)]
  · have hd := displayChar_known x h
    unfold displayChar at hd
    unfold utf8Length
    cases he : encode x with
    | none => simp [he] at hd
    | some c => cases c <;> simp [he] at hd <;> simp [← hd]
  · have := (fed_utf8 x h).chars []
    simpa [chars, charsLoop] using this

/-- C37 fails for every scalar above 111411: it can be neither made into a character nor encoded nor decoded. -/
theorem encode_refuses (x : Nat) (h : Scalar x) (hx : 111411 < x) :
    fromUnicodeScalar x = none ∧ displayChar x = none ∧ validSequence (utf8 x) = false := by
  have hsc := h
  unfold Scalar at h
  refine ⟨by rw [fromUnicodeScalar, if_neg (by omega)], ?_, ?_⟩
  · unfold displayChar encode
    rw [if_neg (by omega), if_neg (by omega), if_neg (by omega), if_neg (by omega)]
  · rw [utf8, if_neg (by omega), if_neg (by omega), if_neg (by omega)]
    have e1 := step_lead (n := 240 + x / 262144) (by omega) (by omega) (by omega)
    rw [if_neg (by omega), if_neg (by omega)] at e1
    have e2 := step_cont (.i4a (240 + x / 262144)) (n := 128 + x / 4096 % 64) (by omega) (by omega)
    have e3 := step_cont (.i4b (240 + x / 262144) (128 + x / 4096 % 64)) (n := 128 + x / 64 % 64) (by omega) (by omega)
    have e4 := step_cont (.i4c (240 + x / 262144) (128 + x / 4096 % 64) (128 + x / 64 % 64)) (n := 128 + x % 64) (by omega) (by omega)
    simp only [decode4] at e4
    rw [if_neg (by omega)] at e4
    simp [validSequence, validLoop, e1, e2, e3, e4, isValid, isContinue]

/-- An existing scalar that is refused. -/
theorem round_trip_fails : ∃ x, Scalar x ∧ displayChar x = none := ⟨0x1F600, by unfold Scalar; omega, by decide⟩

/-- Numbers become characters exactly when they are scalar values the library knows. -/
theorem from_unicode_scalar_iff (n m : Nat) : fromUnicodeScalar n = some m ↔ m = n ∧ Known n := by
  unfold fromUnicodeScalar
  show _ ↔ m = n ∧ (Scalar n ∧ n ≤ 111411)
  unfold Scalar
  split
  · simp only [Option.some.injEq]; omega
  · simp only [reduceCtorEq, false_iff]; omega

/-- Encoding is refused exactly outside the known scalars: surrogates and too large numbers are never encoded. -/
theorem encode_iff (x : Nat) : (displayChar x).isSome ↔ Known x := by
  constructor
  · intro h
    apply Classical.byContradiction
    intro hn
    have hn : ¬ (Scalar x ∧ x ≤ 111411) := hn
    unfold Scalar at hn
    unfold displayChar encode at h
    rw [if_neg (by omega), if_neg (by omega), if_neg (by omega), if_neg (by omega)] at h
    cases h
  · intro h; rw [displayChar_known x h]; rfl

/-! ## C38 -/

/-- **C38**, for the known scalars: a byte sequence is accepted exactly when it is the concatenation of encodings of known scalars.
Missing: the scalars above 111411 (`encode_refuses`). -/
theorem valid_iff_partial (bs : List Nat) (hb : ∀ b ∈ bs, b < 256) :
    validSequence bs = true ↔ ∃ xs, (∀ x ∈ xs, Known x) ∧ bs = utf8s xs := by
  constructor
  · intro h
    generalize hn : bs.length = n
    induction n using Nat.strongRecOn generalizing bs with
    | _ n ih =>
      cases bs with
      | nil => exact ⟨[], by simp, rfl⟩
      | cons b bs =>
        obtain ⟨x, rest, hx, he, hr⟩ := valid_head b bs hb h
        have hlen : 0 < (utf8 x).length := by
          unfold utf8; repeat' split
          all_goals simp
        obtain ⟨xs, h1, h2⟩ := ih rest.length (by
          have := congrArg List.length he
          rw [List.length_append] at this; omega) rest (by
            intro c hc; apply hb; rw [he]; simp [hc]) hr rfl
        refine ⟨x :: xs, ?_, by rw [he, h2]; rfl⟩
        intro y hy
        rcases List.mem_cons.1 hy with rfl | hy
        · exact hx
        · exact h1 y hy
  · rintro ⟨xs, h, rfl⟩
    induction xs with
    | nil => rfl
    | cons x xs ih =>
      have := (fed_utf8 x (h x (by simp))).valid (utf8s xs)
      simp only [validSequence, utf8s, List.flatMap_cons] at *
      rw [this]
      exact ih (fun y hy => h y (by simp [hy])) (fun b hb' => hb b (List.mem_append.2 (.inr hb')))

/-- Overlong encodings, surrogates, stray continuation bytes, truncated sequences and bytes above F4 are refused, as none of them is a
concatenation of encodings; some instances. -/
example : validSequence [0xC0, 0x80] = false ∧ validSequence [0xED, 0xA0, 0x80] = false ∧ validSequence [0x80] = false ∧
    validSequence [0xE3, 0x81] = false ∧ validSequence [0xF5, 0x80, 0x80, 0x80] = false := by decide

/-- **C38**: the characters of a string made of known scalars are these scalars in order, and they are where `char-indices` says. -/
theorem chars_utf8s (xs : List Nat) (h : ∀ x ∈ xs, Known x) : chars (utf8s xs) = some xs := by
  induction xs with
  | nil => rfl
  | cons x xs ih =>
    have := (fed_utf8 x (h x (by simp))).chars (utf8s xs)
    simp only [chars, utf8s, List.flatMap_cons] at *
    rw [this, ih (fun y hy => h y (by simp [hy]))]
    rfl

/-- The encoding of a sequence of known scalars determines the sequence. -/
theorem utf8s_injective (xs ys : List Nat) (hx : ∀ x ∈ xs, Known x) (hy : ∀ y ∈ ys, Known y) (h : utf8s xs = utf8s ys) : xs = ys := by
  have h1 := chars_utf8s xs hx
  rw [h, chars_utf8s ys hy] at h1
  exact (Option.some.inj h1).symm

/-- Byte offsets of the scalars, from `start`. -/
def offsets : Nat → List Nat → List (Nat × Nat)
  | _, [] => []
  | start, x :: xs => (start, x) :: offsets (start + (utf8 x).length) xs

theorem char_indices_utf8s (xs : List Nat) (h : ∀ x ∈ xs, Known x) (hl : (utf8s xs).length < 2 ^ 64) :
    charIndices (utf8s xs) = some (offsets 0 xs) := by
  have key : ∀ (xs : List Nat) (i : Nat), (∀ x ∈ xs, Known x) → i + (utf8s xs).length < 2 ^ 64 →
      charIndicesLoop (2 ^ 64 - 1) i (2 ^ 64 - 1) none (utf8s xs) = some (offsets i xs) := by
    intro xs
    induction xs with
    | nil => intro i _ _; rfl
    | cons x xs ih =>
      intro i h hl
      have := (fed_utf8 x (h x (by simp))).indices (start := 2 ^ 64 - 1) (i := i) (index := 2 ^ 64 - 1) (utf8s xs)
      simp only [utf8s, List.flatMap_cons, List.length_append] at *
      rw [this, ih (i + (utf8 x).length) (fun y hy => h y (by simp [hy])) (by omega)]
      have : min i (2 ^ 64 - 1) = i := by omega
      rw [this]; rfl
  exact key xs 0 h (by omega)

/-- `string/from-chars` writes the concatenation of the encodings. -/
theorem from_chars (xs : List Nat) (h : ∀ x ∈ xs, Known x) : fromChars xs = some (utf8s xs) := by
  induction xs with
  | nil => rfl
  | cons x xs ih =>
    simp [fromChars, displayChar_known x (h x (by simp)), ih (fun y hy => h y (by simp [hy])), utf8s]

theorem utf8_bytes (x : Nat) (h : Known x) : ∃ b bs, utf8 x = b :: bs ∧ (b < 128 ∨ (192 ≤ b ∧ b < 248)) ∧
    ∀ c ∈ bs, 128 ≤ c ∧ c < 192 := by
  obtain ⟨h, hk⟩ := h
  unfold Scalar at h
  unfold utf8
  split
  · exact ⟨x, [], rfl, .inl (by omega), by simp⟩
  · split
    · refine ⟨_, _, rfl, .inr (by omega), ?_⟩
      simp; omega
    · split
      · refine ⟨_, _, rfl, .inr (by omega), ?_⟩
        simp; omega
      · refine ⟨_, _, rfl, .inr (by omega), ?_⟩
        simp; omega

theorem lead_iff (b : Nat) (h : b < 256) : isValid (decodeStep none b) = true ↔ b < 128 ∨ (192 ≤ b ∧ b < 248) := by
  rw [decodeStep_none b h]
  by_cases h1 : b < 128
  · simp [h1, isValid]
  · by_cases h2 : b < 192
    · simp [h1, h2, isValid]; omega
    · by_cases h3 : b < 224
      · simp [h1, h2, h3, isValid]; omega
      · by_cases h4 : b < 240
        · simp [h1, h2, h3, h4, isValid]; omega
        · by_cases h5 : b < 248 <;> simp [h1, h2, h3, h4, h5, isValid]; omega

/-- **C38**: the character boundaries of a string are exactly the byte offsets between its scalars (and both ends). -/
theorem char_boundary_iff (xs : List Nat) (h : ∀ x ∈ xs, Known x) (i : Nat) :
    charBoundary i (utf8s xs) = true ↔ ∃ ys zs, xs = ys ++ zs ∧ i = (utf8s ys).length := by
  have key : ∀ (xs : List Nat) (i b : Nat), (∀ x ∈ xs, Known x) → (utf8s xs)[i]? = some b →
      (isValid (decodeStep none b) = true ↔ ∃ ys zs, xs = ys ++ zs ∧ i = (utf8s ys).length) := by
    intro xs
    induction xs with
    | nil => intro i b _ hb; simp [utf8s] at hb
    | cons x xs ih =>
      intro i b h hb
      obtain ⟨a, as, he, ha, has⟩ := utf8_bytes x (h x (by simp))
      have hsplit : utf8s (x :: xs) = utf8 x ++ utf8s xs := rfl
      rw [hsplit] at hb
      by_cases hi : i < (utf8 x).length
      · rw [List.getElem?_append_left hi, he] at hb
        cases i with
        | zero =>
          simp at hb
          subst hb
          rw [lead_iff a (by omega)]
          exact iff_of_true ha ⟨[], x :: xs, rfl, rfl⟩
        | succ i =>
          have hm := List.mem_of_getElem? (show as[i]? = some b by simpa using hb)
          have := has b hm
          rw [lead_iff b (by omega)]
          refine iff_of_false (by omega) ?_
          rintro ⟨ys, zs, e, e'⟩
          cases ys with
          | nil => simp [utf8s] at e'
          | cons y ys =>
            simp at e
            obtain ⟨rfl, -⟩ := e
            simp only [utf8s, List.flatMap_cons, List.length_append] at e'
            omega
      · rw [List.getElem?_append_right (by omega)] at hb
        rw [ih _ b (fun y hy => h y (by simp [hy])) hb]
        constructor
        · rintro ⟨ys, zs, rfl, e⟩
          refine ⟨x :: ys, zs, rfl, ?_⟩
          simp only [utf8s, List.flatMap_cons, List.length_append] at *
          omega
        · rintro ⟨ys, zs, e, e'⟩
          cases ys with
          | nil =>
            have : 0 < (utf8 x).length := by rw [he]; simp
            simp [utf8s] at e'; omega
          | cons y ys =>
            simp at e
            obtain ⟨rfl, rfl⟩ := e
            refine ⟨ys, zs, rfl, ?_⟩
            simp only [utf8s, List.flatMap_cons, List.length_append] at *
            omega
  unfold charBoundary
  by_cases hi : 0 < i ∧ i < (utf8s xs).length
  · rw [if_pos hi, List.getD_eq_getElem?_getD, List.getElem?_eq_getElem hi.2]
    exact key xs i _ h (List.getElem?_eq_getElem hi.2)
  · rw [if_neg hi]
    simp only [Bool.or_eq_true, decide_eq_true_eq]
    constructor
    · rintro (rfl | rfl)
      · exact ⟨[], xs, rfl, rfl⟩
      · exact ⟨xs, [], by simp, rfl⟩
    · rintro ⟨ys, zs, rfl, rfl⟩
      simp only [utf8s, List.flatMap_append, List.length_append] at *
      omega

/-- Substrings of a string are strings again: `substring` succeeds exactly on boundaries in order and then yields the encoding of a
contiguous part of the characters. -/
theorem substring_spec (xs : List Nat) (h : ∀ x ∈ xs, Known x) (i j : Nat) (r : List Nat) :
    substring i j (utf8s xs) = some r ↔
      ∃ as bs cs, xs = as ++ bs ++ cs ∧ i = (utf8s as).length ∧ j = (utf8s (as ++ bs)).length ∧ r = utf8s bs := by
  unfold substring
  constructor
  · intro hs
    split at hs
    · next hc =>
      obtain ⟨⟨hij, hj⟩, h1, h2⟩ := hc
      obtain ⟨ys, zs, e1, rfl⟩ := (char_boundary_iff xs h i).1 h1
      obtain ⟨us, vs, e2, rfl⟩ := (char_boundary_iff xs h j).1 h2
      have e := e1.symm.trans e2
      rcases List.append_eq_append_iff.1 e with ⟨bs, rfl, e3⟩ | ⟨bs, rfl, e3⟩
      · refine ⟨ys, bs, vs, e2, rfl, rfl, ?_⟩
        have := Option.some.inj hs
        rw [← this, e2]
        simp [utf8s, List.flatMap_append]
      · -- us shorter than ys: the part between is empty
        refine ⟨us, [], vs, by simpa using e2, ?_, by simp, ?_⟩
        · simp only [utf8s, List.flatMap_append, List.length_append] at hij ⊢; omega
        · have := Option.some.inj hs
          rw [← this]
          simp only [utf8s, List.flatMap_append, List.length_append] at hij ⊢
          simp
    · cases hs
  · rintro ⟨as, bs, cs, rfl, rfl, rfl, rfl⟩
    rw [if_pos]
    · simp [utf8s, List.flatMap_append]
    · refine ⟨⟨?_, ?_⟩, (char_boundary_iff _ h _).2 ⟨as, bs ++ cs, by simp, rfl⟩, (char_boundary_iff _ h _).2 ⟨as ++ bs, cs, rfl, rfl⟩⟩
      · simp [utf8s, List.flatMap_append]
      · simp [utf8s, List.flatMap_append]

/-! ## Reversing a string -/

/-- `string/reverse` is right on ASCII strings. -/
theorem reverse_ascii (xs : List Nat) (h : ∀ x ∈ xs, x < 128) : reverse (utf8s xs) = utf8s xs.reverse := by
  have e : ∀ xs : List Nat, (∀ x ∈ xs, x < 128) → utf8s xs = xs := by
    intro xs h
    induction xs with
    | nil => rfl
    | cons x xs ih =>
      simp only [utf8s, List.flatMap_cons] at *
      rw [ih (fun y hy => h y (by simp [hy])), utf8, if_pos (h x (by simp))]
      rfl
  rw [e xs h, e _ (by simpa using h), reverse]
  split
  · match xs with
    | [] => rfl
    | [_] => rfl
    | _ :: _ :: _ => simp at *
  · rfl

/-- On other strings it may return bytes that are not a string at all. -/
theorem reverse_breaks_utf8 : validSequence (utf8s [0xE9]) = true ∧ validSequence (reverse (utf8s [0xE9])) = false := by decide

-- Non-vacuity: a string with encodings of all four lengths
example : Known 0x24 ∧ Known 0xE9 ∧ Known 0x65E5 ∧ Known 0x10000 := by
  refine ⟨⟨?_, ?_⟩, ⟨?_, ?_⟩, ⟨?_, ?_⟩, ⟨?_, ?_⟩⟩ <;> first | (unfold Scalar; omega) | omega
example : utf8s [0x24, 0xE9, 0x65E5, 0x10000] = [0x24, 0xC3, 0xA9, 0xE6, 0x97, 0xA5, 0xF0, 0x90, 0x80, 0x80] := by decide
example : charIndices (utf8s [0x24, 0xE9, 0x65E5, 0x10000, 0x25]) = some [(0, 0x24), (1, 0xE9), (3, 0x65E5), (6, 0x10000), (10, 0x25)] := by
  decide

end Verif.Utf8
