import Verif.SelfLexer.Next

/-!
# What the lexer of the self-hosted compiler has consumed, it knew
-/

namespace Verif.SelfLexer

open Verif.Lexer (Location Token TokenRep Lexer Eat byteLen splitLines splitBytes eat_append)

/-- A cursor on `input` that has consumed known characters only. -/
def C (input : List Char) (e : Eat) : Prop :=
  input = e.consumed ++ e.current ∧ ∀ c ∈ e.consumed, known c = true

variable {input : List Char} {e e' : Eat} {b : Bool}

theorem C.eat_text {con a r : List Char} (h : C input ⟨con, a ++ r⟩) (ha : ∀ c ∈ a, known c = true)
    (he : eat (byteLen a) ⟨con, a ++ r⟩ = some (b, e')) : C input e' := by
  rw [eat_eq] at he
  by_cases h0 : a = []
  · subst h0
    have h1 : byteLen [] = 0 := rfl
    rw [h1, Lexer.eat_zero] at he
    simp only [Option.some.injEq, Prod.mk.injEq] at he
    rw [← he.2]
    exact h
  · rw [eat_append con a r h0] at he
    simp only [Option.some.injEq, Prod.mk.injEq] at he
    rw [← he.2]
    refine ⟨by simpa using h.1, fun c hc => ?_⟩
    rcases List.mem_append.mp hc with hc | hc
    · exact h.2 c hc
    · exact ha c hc

theorem C.eatExact {s : List Char} (h : C input e) (hs : ∀ c ∈ s, known c = true)
    (he : eatExact s e = some (b, e')) : C input e' := by
  unfold SelfLexer.eatExact at he
  split at he
  · rename_i hp
    obtain ⟨con, cur⟩ := e
    obtain ⟨r, rfl⟩ := List.isPrefixOf_iff_prefix.mp hp
    exact h.eat_text hs he
  · simp only [Option.some.injEq, Prod.mk.injEq] at he
    rw [← he.2]
    exact h

theorem C.eatIf {f : Char → Bool} (h : C input e) (he : eatIf f e = some (b, e')) : C input e' := by
  obtain ⟨con, cur⟩ := e
  cases cur with
  | nil =>
    simp only [SelfLexer.eatIf, Option.some.injEq, Prod.mk.injEq] at he
    rw [← he.2]
    exact h
  | cons c cs =>
    simp only [SelfLexer.eatIf] at he
    split at he
    · rename_i hc
      split at he
      · have h1 : byteLen [c] = c.utf8Size := by simp [byteLen]
        rw [← h1] at he
        exact C.eat_text (a := [c]) (r := cs) h (by simpa using hc) he
      · simp only [Option.some.injEq, Prod.mk.injEq] at he
        rw [← he.2]
        exact h
    · simp at he

theorem takeLen_text (f : Char → Bool) (s : List Char) (n : Nat) (h : takeLen f s = some n) :
    ∃ a r, s = a ++ r ∧ n = byteLen a ∧ ∀ c ∈ a, known c = true := by
  induction s generalizing n with
  | nil =>
    simp only [takeLen, Option.some.injEq] at h
    exact ⟨[], [], rfl, by simp [← h, byteLen], by simp⟩
  | cons c cs ih =>
    simp only [takeLen] at h
    split at h
    · rename_i hc
      split at h
      · obtain ⟨m, h1, rfl⟩ := Option.map_eq_some_iff.mp h
        obtain ⟨a, r, rfl, rfl, h2⟩ := ih m h1
        refine ⟨c :: a, r, rfl, by simp [byteLen], ?_⟩
        intro x hx
        rcases List.mem_cons.mp hx with rfl | hx
        · exact hc
        · exact h2 x hx
      · simp only [Option.some.injEq] at h
        exact ⟨[], c :: cs, rfl, by simp [← h, byteLen], by simp⟩
    · simp at h

theorem C.eatWhile {f : Char → Bool} (h : C input e) (he : eatWhile f e = some (b, e')) : C input e' := by
  unfold SelfLexer.eatWhile at he
  split at he
  · simp at he
  · rename_i n hn
    obtain ⟨con, cur⟩ := e
    obtain ⟨a, r, h1, rfl, h2⟩ := takeLen_text _ _ _ hn
    simp only at h1
    subst h1
    exact h.eat_text h2 he

theorem C.eatLineComment (h : C input e) (he : eatLineComment e = some (b, e')) : C input e' := by
  unfold SelfLexer.eatLineComment at he
  simp only [Option.bind_eq_bind, Option.pure_def] at he
  obtain ⟨⟨b1, e1⟩, h1, he⟩ := Option.bind_eq_some_iff.mp he
  have c1 := h.eatExact (by decide) h1
  simp only at he
  split at he
  · obtain ⟨⟨b2, e2⟩, h2, he⟩ := Option.bind_eq_some_iff.mp he
    have c2 := c1.eatWhile h2
    obtain ⟨⟨b3, e3⟩, h3, he⟩ := Option.bind_eq_some_iff.mp he
    have c3 := c2.eatExact (by decide) h3
    simp only [Option.some.injEq, Prod.mk.injEq] at he
    rw [← he.2]
    exact c3
  · simp only [Option.some.injEq, Prod.mk.injEq] at he
    rw [← he.2]
    exact c1

theorem C.eatEscape {t : Option Bool} (h : C input e) (he : eatEscape e = some (t, e')) : C input e' := by
  unfold SelfLexer.eatEscape at he
  simp only [Option.bind_eq_bind, Option.pure_def] at he
  obtain ⟨⟨b1, e1⟩, h1, he⟩ := Option.bind_eq_some_iff.mp he
  have c1 := h.eatExact (by decide) h1
  simp only at he
  split at he
  · obtain ⟨⟨b2, e2⟩, h2, he⟩ := Option.bind_eq_some_iff.mp he
    have c2 := c1.eatIf h2
    simp only [Option.some.injEq, Prod.mk.injEq] at he
    rw [← he.2]
    exact c2
  · simp only [Option.some.injEq, Prod.mk.injEq] at he
    rw [← he.2]
    exact c1

theorem C.stringLoop {n : Nat} (h : C input e) (he : stringLoop n e = some (b, e')) : C input e' := by
  induction n generalizing e with
  | zero => simp [SelfLexer.stringLoop] at he
  | succ n ih =>
    unfold SelfLexer.stringLoop at he
    simp only [Option.bind_eq_bind, Option.pure_def] at he
    obtain ⟨⟨b1, e1⟩, h1, he⟩ := Option.bind_eq_some_iff.mp he
    have c1 := h.eatWhile h1
    obtain ⟨⟨t, e2⟩, h2, he⟩ := Option.bind_eq_some_iff.mp he
    have c2 := c1.eatEscape h2
    cases t with
    | some v =>
      cases v
      · simp only [Bool.false_eq_true, if_false, Option.some.injEq, Prod.mk.injEq] at he
        rw [← he.2]
        exact c2
      · exact ih c2 he
    | none =>
      simp only at he
      obtain ⟨⟨b3, e3⟩, h3, he⟩ := Option.bind_eq_some_iff.mp he
      have c3 := c2.eatExact (by decide) h3
      simp only at he
      split at he <;>
      · simp only [Option.some.injEq, Prod.mk.injEq] at he
        rw [← he.2]
        exact c3

theorem C.eatString {t : Option Bool} (h : C input e) (he : eatString e = some (t, e')) : C input e' := by
  unfold SelfLexer.eatString at he
  simp only [Option.bind_eq_bind, Option.pure_def] at he
  obtain ⟨⟨b1, e1⟩, h1, he⟩ := Option.bind_eq_some_iff.mp he
  have c1 := h.eatExact (by decide) h1
  simp only at he
  split at he
  · obtain ⟨⟨b2, e2⟩, h2, he⟩ := Option.bind_eq_some_iff.mp he
    have c2 := c1.stringLoop h2
    simp only [Option.some.injEq, Prod.mk.injEq] at he
    rw [← he.2]
    exact c2
  · simp only [Option.some.injEq, Prod.mk.injEq] at he
    rw [← he.2]
    exact c1

theorem C.eatChar {t : Option Bool} (h : C input e) (he : eatChar e = some (t, e')) : C input e' := by
  unfold SelfLexer.eatChar at he
  simp only [Option.bind_eq_bind, Option.pure_def] at he
  obtain ⟨⟨b1, e1⟩, h1, he⟩ := Option.bind_eq_some_iff.mp he
  have c1 := h.eatExact (by decide) h1
  simp only at he
  split at he
  · obtain ⟨⟨v, e2⟩, h2, he⟩ := Option.bind_eq_some_iff.mp he
    have c2 := c1.eatEscape h2
    cases v with
    | some v =>
      simp only [Option.some.injEq, Prod.mk.injEq] at he
      rw [← he.2]
      exact c2
    | none =>
      simp only at he
      obtain ⟨⟨b3, e3⟩, h3, he⟩ := Option.bind_eq_some_iff.mp he
      have c3 := c2.eatIf h3
      simp only at he
      split at he <;>
      · simp only [Option.some.injEq, Prod.mk.injEq] at he
        rw [← he.2]
        exact c3
  · simp only [Option.some.injEq, Prod.mk.injEq] at he
    rw [← he.2]
    exact c1

variable {F : Type} {f1 : List Char → Option F}

/-- What a call of `next!` leaves: known characters were consumed, or the end was reached. -/
def Left (input : List Char) : Option (Token F × Lexer) → Prop
  | none => ∀ c ∈ input, known c = true
  | some (_, l) => ∃ s, input = s ++ l.input ∧ ∀ c ∈ s, known c = true

theorem C.produce {l : Lexer} {f : List Char → Option (TokenRep F)} {r : Option (Token F × Lexer)}
    (h : C input e) (he : produce l e f = some r) : Left input r := by
  unfold SelfLexer.produce at he
  simp only at he
  split at he
  · simp at he
  · simp only [Option.some.injEq] at he
    rw [← he]
    exact ⟨_, h.1, h.2⟩

theorem C.nextPunct {l : Lexer} {ps : List (List Char × TokenRep F)} {r : Option (Token F × Lexer)}
    (h : C input e) (hp : ∀ p ∈ ps, ∀ c ∈ p.1, known c = true) (he : nextPunct l e ps = some r) :
    Left input r := by
  induction ps generalizing e with
  | nil =>
    simp only [SelfLexer.nextPunct, Option.bind_eq_bind] at he
    obtain ⟨⟨b1, e1⟩, h1, he⟩ := Option.bind_eq_some_iff.mp he
    have c1 := h.eatIf h1
    simp only at he
    split at he
    · exact c1.produce he
    · rename_i hb
      simp only [Option.some.injEq] at he
      rw [← he]
      obtain ⟨con, cur⟩ := e
      cases cur with
      | nil =>
        intro c hc
        have := h.1
        simp only [List.append_nil] at this
        exact h.2 c (by rw [this] at hc; exact hc)
      | cons c cs =>
        simp only [SelfLexer.eatIf] at h1
        split at h1
        · have h2 : byteLen [c] = c.utf8Size := by simp [byteLen]
          rw [if_pos trivial, ← h2, eat_eq] at h1
          have h3 := eat_append con [c] cs (by simp)
          simp only [List.singleton_append] at h3
          rw [h3] at h1
          simp only [Option.some.injEq, Prod.mk.injEq] at h1
          exact absurd h1.1.symm hb
        · simp at h1
  | cons p ps ih =>
    obtain ⟨text, rep⟩ := p
    simp only [SelfLexer.nextPunct, Option.bind_eq_bind] at he
    obtain ⟨⟨b1, e1⟩, h1, he⟩ := Option.bind_eq_some_iff.mp he
    have c1 := h.eatExact (hp (text, rep) (by simp)) h1
    simp only at he
    split at he
    · exact c1.produce he
    · exact ih c1 (fun p h => hp p (by simp [h])) he

theorem next_left {l : Lexer} {r : Option (Token F × Lexer)} (he : next f1 l = some r) :
    Left l.input r := by
  have c0 : C l.input (Eat.new l) := ⟨by simp [Eat.new], by simp [Eat.new]⟩
  unfold next at he
  simp only [Option.bind_eq_bind] at he
  obtain ⟨⟨b1, e1⟩, h1, he⟩ := Option.bind_eq_some_iff.mp he
  have c1 := C.eatWhile c0 h1
  simp only at he
  split at he
  · exact c1.produce he
  obtain ⟨⟨b2, e2⟩, h2, he⟩ := Option.bind_eq_some_iff.mp he
  have c2 := c1.eatLineComment h2
  simp only at he
  split at he
  · exact c2.produce he
  obtain ⟨⟨b3, e3⟩, h3, he⟩ := Option.bind_eq_some_iff.mp he
  have c3 := C.eatWhile c2 h3
  simp only at he
  split at he
  · exact c3.produce he
  obtain ⟨⟨t, e4⟩, h4, he⟩ := Option.bind_eq_some_iff.mp he
  have c4 := c3.eatString h4
  cases t with
  | some t => exact c4.produce he
  | none =>
    simp only at he
    obtain ⟨⟨t, e5⟩, h5, he⟩ := Option.bind_eq_some_iff.mp he
    have c5 := c4.eatChar h5
    cases t with
    | some t => exact c5.produce he
    | none => exact c5.nextPunct (by simp only [punctuation]; simp; decide) he

theorem collect_known {n : Nat} {l : Lexer} {ts : List (Token F)} (h : collect f1 n l = some ts) :
    ∀ c ∈ l.input, known c = true := by
  induction n generalizing l ts with
  | zero => simp [collect] at h
  | succ n ih =>
    unfold collect at h
    split at h
    · simp at h
    · rename_i h1
      exact next_left h1
    · rename_i t l' h1
      obtain ⟨ts', h2, _⟩ := Option.map_eq_some_iff.mp h
      obtain ⟨s, h3, h4⟩ := next_left h1
      intro c hc
      rw [h3] at hc
      rcases List.mem_append.mp hc with hc | hc
      · exact h4 c hc
      · exact ih h2 c hc

end Verif.SelfLexer
