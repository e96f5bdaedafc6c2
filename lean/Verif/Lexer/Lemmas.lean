import Verif.Lexer.Spec

namespace Verif.Lexer
open Spec

theorem byteLen_nil : byteLen [] = 0 := rfl
theorem byteLen_cons (c : Char) (cs) : byteLen (c :: cs) = c.utf8Size + byteLen cs := by
  simp [byteLen]
theorem byteLen_append (a b) : byteLen (a ++ b) = byteLen a + byteLen b := by
  simp [byteLen]
theorem byteLen_eq (s) : byteLen s = bytes s := by
  induction s with
  | nil => rfl
  | cons c cs ih => rw [byteLen_cons, bytes, ih]

theorem byteLen_pos {s} (h : s ≠ []) : 0 < byteLen s := by
  cases s with
  | nil => exact absurd rfl h
  | cons c cs => rw [byteLen_cons]; have := Char.utf8Size_pos c; omega

theorem splitBytes_append (a b : List Char) : splitBytes (byteLen a) (a ++ b) = some (a, b) := by
  induction a with
  | nil => cases b <;> simp [splitBytes, byteLen]
  | cons c cs ih =>
    have hp := Char.utf8Size_pos c
    have : byteLen (c :: cs) = (c.utf8Size + byteLen cs - 1) + 1 := by
      rw [byteLen_cons]; omega
    rw [this, List.cons_append, splitBytes]
    rw [if_pos (by omega)]
    have : c.utf8Size + byteLen cs - 1 + 1 - c.utf8Size = byteLen cs := by omega
    rw [this, ih]; rfl

theorem eat_append (con a b : List Char) (h : a ≠ []) :
    Eat.eat ⟨con, a ++ b⟩ (byteLen a) = some (true, ⟨con ++ a, b⟩) := by
  unfold Eat.eat
  have := byteLen_pos h
  rw [if_pos ⟨by omega, by simp [byteLen_append]⟩]
  simp [splitBytes_append]

theorem eat_zero (e : Eat) : e.eat 0 = some (false, e) := by simp [Eat.eat]

theorem eat_nil (con : List Char) (n : Nat) : Eat.eat ⟨con, []⟩ n = some (false, ⟨con, []⟩) := by
  unfold Eat.eat; rw [if_neg]; simp [byteLen]

theorem whileLen_eq (f : Char → Bool) (s) : whileLen f s = byteLen (s.takeWhile f) := by
  induction s with
  | nil => rfl
  | cons c cs ih =>
    simp only [whileLen, List.takeWhile_cons]
    split
    · rw [byteLen_cons, ih]
    · rfl

theorem eatWhile_eq (con cur : List Char) (f : Char → Bool) :
    Eat.eatWhile ⟨con, cur⟩ f =
      some (!(cur.takeWhile f).isEmpty, ⟨con ++ cur.takeWhile f, cur.dropWhile f⟩) := by
  unfold Eat.eatWhile
  simp only [whileLen_eq]
  by_cases h : cur.takeWhile f = []
  · rw [h]
    have : cur.dropWhile f = cur := by
      have := @List.takeWhile_append_dropWhile _ f cur
      rw [h] at this; simpa using this
    rw [this]; simp [byteLen, eat_zero]
  · have := eat_append con (cur.takeWhile f) (cur.dropWhile f) h
    rw [List.takeWhile_append_dropWhile] at this
    rw [this]; simp [h]

theorem eatExact_hit (con a b : List Char) (h : a ≠ []) :
    Eat.eatExact ⟨con, a ++ b⟩ a = some (true, ⟨con ++ a, b⟩) := by
  unfold Eat.eatExact
  rw [if_pos (by simp), eat_append _ _ _ h]

theorem eatExact_miss (con cur a : List Char) (h : ¬ a <+: cur) :
    Eat.eatExact ⟨con, cur⟩ a = some (false, ⟨con, cur⟩) := by
  unfold Eat.eatExact
  rw [if_neg]
  simpa using h

theorem eatIf_nil (con : List Char) (f) : Eat.eatIf ⟨con, []⟩ f = some (false, ⟨con, []⟩) := rfl

theorem eatIf_hit (con cs : List Char) (c : Char) (f : Char → Bool) (h : f c = true) :
    Eat.eatIf ⟨con, c :: cs⟩ f = some (true, ⟨con ++ [c], cs⟩) := by
  have := eat_append con [c] cs (by simp)
  simp [byteLen] at this
  simp [Eat.eatIf, h, this]

theorem eatIf_miss (con cs : List Char) (c : Char) (f : Char → Bool) (h : f c = false) :
    Eat.eatIf ⟨con, c :: cs⟩ f = some (false, ⟨con, c :: cs⟩) := by
  simp [Eat.eatIf, h]

/-! ### Locations -/

theorem splitLines_ne_nil (s) : splitLines s ≠ [] := by
  cases s with
  | nil => simp [splitLines]
  | cons c cs =>
    simp only [splitLines]; split
    · simp
    · split <;> simp

theorem splitLines_length (s) : (splitLines s).length = s.count '\n' + 1 := by
  induction s with
  | nil => rfl
  | cons c cs ih =>
    simp only [splitLines]
    split
    · next h => simp [h, ih]
    · next h =>
      have hne := splitLines_ne_nil cs
      cases hs : splitLines cs with
      | nil => exact absurd hs hne
      | cons l ls =>
        rw [hs] at ih
        simp [h] at *; omega

theorem takeWhile_full_iff (p : Char → Bool) (l : List Char) :
    (l.takeWhile p).length = l.length ↔ ∀ c ∈ l, p c = true := by
  induction l with
  | nil => simp
  | cons a as ih =>
    simp only [List.takeWhile_cons]
    split
    · next h => simp [h, ih]
    · next h => simp [h]

theorem lastLine_append (a b : List Char) :
    lastLine (a ++ b) = if '\n' ∈ b then lastLine b else lastLine a ++ b := by
  unfold lastLine
  rw [List.reverse_append, List.takeWhile_append]
  by_cases h : '\n' ∈ b
  · rw [if_neg, if_pos h]
    rw [takeWhile_full_iff]
    intro hall
    have := hall '\n' (by simpa using h)
    simp at this
  · rw [if_pos, if_neg h]
    · simp
    · rw [takeWhile_full_iff]
      intro c hc
      simp at hc
      simp only [ne_eq, decide_not, Bool.not_eq_eq_eq_not, Bool.not_true, decide_eq_false_iff_not]
      rintro rfl; exact h hc

theorem lastLine_self (s : List Char) (h : '\n' ∉ s) : lastLine s = s := by
  have := lastLine_append [] s
  rw [if_neg h] at this
  simpa [lastLine] using this

theorem splitLines_last (s : List Char) (last lines) (h : (splitLines s).reverse = last :: lines) :
    last = lastLine s := by
  induction s generalizing last lines with
  | nil => simp [splitLines] at h; rw [h.1]; rfl
  | cons c cs ih =>
    simp only [splitLines] at h
    cases hs : (splitLines cs).reverse with
    | nil => simp at hs; exact absurd hs (splitLines_ne_nil cs)
    | cons l ls =>
      have hl := ih _ _ hs
      split at h
      · next hc =>
        rw [List.reverse_cons, hs] at h
        simp at h
        rw [← h.1, hl, hc]
        have := lastLine_append ['\n'] cs
        simp only [List.singleton_append] at this
        rw [this]
        split
        · rfl
        · next h' => rw [lastLine_self _ h']; rfl
      · next hc =>
        have hs' : splitLines cs = (l :: ls).reverse := by rw [← hs]; simp
        have hlen := splitLines_length cs
        rw [hs'] at hlen
        rw [hs'] at h
        have := lastLine_append [c] cs
        simp only [List.singleton_append] at this
        rw [this]
        cases ls with
        | nil =>
          simp at h hlen
          have hn : '\n' ∉ cs := by
            rw [← List.count_pos_iff]; omega
          rw [if_neg hn]
          rw [← h.1, hl, lastLine_self _ hn, lastLine_self [c] (by simpa using Ne.symm hc)]
          rfl
        | cons m ms =>
          have hn : '\n' ∈ cs := by
            rw [← List.count_pos_iff]; simp at hlen; omega
          rw [if_pos hn]
          simp only [List.reverse_cons, List.append_assoc] at h
          cases hm : ms.reverse with
          | nil => simp [hm] at h; rw [← h.1, hl]
          | cons x xs => simp [hm] at h; rw [← h.1, hl]

theorem eat_locAfter (pre s : List Char) : (locAfter pre).eat s = locAfter (pre ++ s) := by
  unfold Location.eat
  cases hs : (splitLines s).reverse with
  | nil => simp at hs; exact absurd hs (splitLines_ne_nil s)
  | cons l ls =>
    have hl := splitLines_last _ _ _ hs
    have hlen := splitLines_length s
    have hlen2 := congrArg List.length hs
    simp at hlen2
    simp only
    have hb : byteLen (lastLine s) = bytes (lastLine s) := byteLen_eq _
    cases h0 : ls.length with
    | zero =>
      have hn : '\n' ∉ s := by rw [← List.count_pos_iff]; omega
      simp only
      unfold locAfter
      rw [lastLine_append, if_neg hn, ← byteLen_eq, ← byteLen_eq, ← byteLen_eq, ← byteLen_eq, byteLen_append,
        byteLen_append, hl, lastLine_self _ hn]
      simp [List.count_append]; omega
    | succ n =>
      simp only
      have hn : '\n' ∈ s := by rw [← List.count_pos_iff]; omega
      unfold locAfter
      rw [lastLine_append, if_pos hn, hl, ← byteLen_eq, ← byteLen_eq, ← byteLen_eq, byteLen_append]
      simp [List.count_append, byteLen_eq]; omega

end Verif.Lexer
