import Verif.Integer.Props
import Verif.Lexer.Props
import Verif.SelfLexer.Model

/-!
# The functions of the two lexers agree, one by one
-/

namespace Verif.SelfLexer

open Verif.Lexer (Location Token TokenRep Lexer Eat byteLen splitLines splitBytes eatWhile_eq
  eatExact_hit eatExact_miss eatIf_hit eatIf_miss eatIf_nil eat_append eat_nil)
open Verif.Lexer.Spec (Digits UnsignedLit NegativeLit decimal)

/-- All characters left are known. -/
def K (e : Eat) : Prop := ∀ c ∈ e.current, known c = true

theorem splitBytes_eq (n : Nat) (s a b : List Char) (h : splitBytes n s = some (a, b)) :
    s = a ++ b := by
  induction s generalizing n a b with
  | nil =>
    cases n <;> simp [splitBytes] at h
    obtain ⟨rfl, rfl⟩ := h
    rfl
  | cons c cs ih =>
    cases n with
    | zero =>
      simp [splitBytes] at h
      obtain ⟨rfl, rfl⟩ := h
      rfl
    | succ n =>
      rw [splitBytes] at h
      split at h
      · obtain ⟨⟨x, y⟩, h1, h2⟩ := Option.map_eq_some_iff.mp h
        simp only [Prod.mk.injEq] at h2
        obtain ⟨rfl, rfl⟩ := h2
        rw [ih _ _ _ h1]
        rfl
      · simp at h

theorem eat_eq (len : Nat) (e : Eat) : eat len e = e.eat len := rfl

theorem eat_K {len : Nat} {e e' : Eat} {b : Bool} (h : e.eat len = some (b, e')) (hk : K e) : K e' := by
  unfold Lexer.Eat.eat at h
  split at h
  · split at h
    · simp at h
    · rename_i h1
      simp only [Option.some.injEq, Prod.mk.injEq] at h
      obtain ⟨rfl, rfl⟩ := h
      have := splitBytes_eq _ _ _ _ h1
      intro c hc
      exact hk c (by rw [this]; simp [hc])
  · simp only [Option.some.injEq, Prod.mk.injEq] at h
    obtain ⟨rfl, rfl⟩ := h
    exact hk

theorem eat_false {len : Nat} {e e' : Eat} (h : e.eat len = some (false, e')) : e' = e := by
  unfold Lexer.Eat.eat at h
  split at h
  · split at h <;> simp at h
  · simpa using h.symm

theorem eatExact_eq (s : List Char) (e : Eat) : eatExact s e = e.eatExact s := rfl

theorem eatExact_K {s : List Char} {e e' : Eat} {b : Bool} (h : e.eatExact s = some (b, e'))
    (hk : K e) : K e' := by
  unfold Lexer.Eat.eatExact at h
  split at h
  · exact eat_K h hk
  · simp only [Option.some.injEq, Prod.mk.injEq] at h
    obtain ⟨rfl, rfl⟩ := h
    exact hk

theorem eatExact_false {s : List Char} {e e' : Eat} (h : e.eatExact s = some (false, e')) : e' = e := by
  unfold Lexer.Eat.eatExact at h
  split at h
  · exact eat_false h
  · simpa using h.symm

theorem eatIf_eq (f : Char → Bool) (e : Eat) (hk : K e) : eatIf f e = e.eatIf f := by
  obtain ⟨con, cur⟩ := e
  cases cur with
  | nil => rfl
  | cons c cs => simp [eatIf, Lexer.Eat.eatIf, hk c (by simp), eat_eq]

theorem takeLen_eq (f : Char → Bool) (s : List Char) (hk : ∀ c ∈ s, known c = true) :
    takeLen f s = some (Lexer.whileLen f s) := by
  induction s with
  | nil => rfl
  | cons c cs ih =>
    simp only [takeLen, Lexer.whileLen, hk c (by simp), if_true]
    rw [ih fun x hx => hk x (by simp [hx])]
    split <;> rfl

theorem eatWhile_same (f g : Char → Bool) (hfg : ∀ c, f c = g c) (e : Eat) (hk : K e) :
    eatWhile f e = e.eatWhile g := by
  obtain rfl : f = g := funext hfg
  simp [eatWhile, takeLen_eq f _ hk, Lexer.Eat.eatWhile, eat_eq]

theorem eatWhile_K {f : Char → Bool} {e e' : Eat} {b : Bool} (h : e.eatWhile f = some (b, e'))
    (hk : K e) : K e' := eat_K h hk

theorem eatWhile_false {f : Char → Bool} {e e' : Eat} (h : e.eatWhile f = some (false, e')) : e' = e :=
  eat_false h

theorem eatWhitespaces_eq (e : Eat) (hk : K e) : eatWhitespaces e = e.eatWhitespaces := by
  apply eatWhile_same _ _ _ e hk
  intro c
  unfold Lexer.isSpace
  split <;> simp_all

theorem eatLineComment_eq (e : Eat) (hk : K e) : eatLineComment e = e.eatLineComment := by
  unfold eatLineComment Lexer.Eat.eatLineComment
  rw [eatExact_eq]
  rcases h : e.eatExact [';'] with _ | ⟨b, e1⟩
  · rfl
  · have hk1 := eatExact_K h hk
    simp only [Option.bind_eq_bind, Option.bind_some]
    rw [eatWhile_same _ (fun c => decide (c ≠ '\n')) _ e1 hk1]
    · rfl
    · intro c
      split <;> simp_all

theorem eatLineComment_false {e e' : Eat} (h : e.eatLineComment = some (false, e')) : e' = e := by
  unfold Lexer.Eat.eatLineComment at h
  rcases h1 : e.eatExact [';'] with _ | ⟨b, e1⟩
  · simp [h1] at h
  · simp only [h1, Option.bind_eq_bind, Option.bind_some] at h
    cases b
    · simp at h
      rw [← h]
      exact eatExact_false h1
    · simp only [if_true] at h
      rcases h2 : e1.eatWhile (fun c => decide (c ≠ '\n')) with _ | ⟨b2, e2⟩
      · simp only [h2] at h
        simp at h
      · simp only [h2, Option.bind_some] at h
        rcases h3 : e2.eatExact ['\n'] with _ | ⟨b3, e3⟩
        · simp [h3] at h
        · simp [h3] at h

theorem idChar_eq (c : Char) : idChar c = Lexer.isIdChar c := by
  have hle : ∀ a b : Char, (a ≤ b) ↔ a.toNat ≤ b.toNat := fun _ _ => Iff.rfl
  have heq : ∀ a b : Char, (a = b) ↔ a.toNat = b.toNat := by
    intro a b
    constructor
    · rintro rfl; rfl
    · exact fun h => Char.ext (UInt32.toNat_inj.mp h)
  rw [Bool.eq_iff_iff]
  simp only [idChar, Lexer.isIdChar, Bool.or_eq_true, Bool.and_eq_true, decide_eq_true_eq, beq_iff_eq,
    hle, heq]
  simp
  omega

theorem eatId_eq (e : Eat) (hk : K e) : eatId e = e.eatId := eatWhile_same _ _ idChar_eq e hk

theorem unescape_eq (c : Char) : unescape c = Str.unescapeChar c := by
  unfold unescape Str.unescapeChar
  rfl

theorem stringLoop_eq (fuel : Nat) (e : Eat) (hk : K e) : stringLoop fuel e = e.stringLoop fuel := by
  induction fuel generalizing e with
  | zero => rfl
  | succ fuel ih =>
    unfold stringLoop Lexer.Eat.stringLoop
    rw [eatWhile_same _ (fun c => !(c = '"' || c = '\\')) _ e hk]
    · obtain ⟨con, cur⟩ := e
      obtain ⟨a, b, ha, hb, hcur, hall, hhd⟩ :=
        Lexer.takeWhile_spec (fun c => !(c = '"' || c = '\\')) cur
      have hk' : ∀ c ∈ b, known c = true := fun c hc => hk c (by simp [hcur, hc])
      simp only [eatWhile_eq, ha, hb, Option.bind_eq_bind, Option.bind_some]
      cases b with
      | nil =>
        simp [eatEscape, eatExact_eq, eatExact_miss, eat_nil]
      | cons x xs =>
        have hx : x = '"' ∨ x = '\\' := by
          have := hhd x rfl
          by_cases h : x = '"'
          · exact .inl h
          · exact .inr (by simpa [h] using this)
        rcases hx with rfl | rfl
        · have := eatExact_hit (con ++ a) ['"'] xs (by simp)
          simp only [List.singleton_append] at this
          simp [eatEscape, eatExact_eq, eatExact_miss, this]
        · have h1 := eatExact_hit (con ++ a) ['\\'] xs (by simp)
          have h2 := eat_append (con ++ a) ['\\'] xs (by simp)
          simp only [byteLen, List.map_cons, List.map_nil, List.sum_cons, List.sum_nil, Nat.add_zero,
            List.singleton_append] at h1 h2
          have hk2 : K ⟨con ++ a ++ ['\\'], xs⟩ := fun c hc => hk' c (by simp at hc; simp [hc])
          simp only [eatEscape, eatExact_eq, h1, h2, Option.bind_eq_bind, Option.bind_some, if_true,
            eatExact_miss (con ++ a) ('\\' :: xs) ['"'] (by simp), Bool.false_eq_true, if_false]
          rw [eatIf_eq _ _ hk2]
          have hf : (fun c => (unescape c).isSome) = fun c => (Str.unescapeChar c).isSome :=
            funext fun c => by rw [unescape_eq]
          rw [hf]
          rcases h3 : Lexer.Eat.eatIf ⟨con ++ a ++ ['\\'], xs⟩ fun c => (Str.unescapeChar c).isSome with
            _ | ⟨b, e3⟩
          · rfl
          · simp only [Option.bind_some, Option.pure_def]
            cases b
            · rfl
            · simp only [if_true]
              apply ih
              unfold Lexer.Eat.eatIf at h3
              cases xs with
              | nil => simp at h3
              | cons y ys =>
                simp only at h3
                split at h3
                · exact eat_K h3 hk2
                · simp at h3
    · intro c
      split <;> simp_all

theorem eatString_eq (e : Eat) (hk : K e) : eatString e = e.eatString := by
  unfold eatString Lexer.Eat.eatString
  rw [eatExact_eq]
  rcases h : e.eatExact ['"'] with _ | ⟨b, e1⟩
  · rfl
  · simp only [Option.bind_eq_bind, Option.bind_some]
    rw [stringLoop_eq _ _ (eatExact_K h hk)]

theorem eatString_none {e e' : Eat} (h : e.eatString = some (none, e')) : e' = e := by
  unfold Lexer.Eat.eatString at h
  rcases h1 : e.eatExact ['"'] with _ | ⟨b, e1⟩
  · simp [h1] at h
  · simp only [h1, Option.bind_eq_bind, Option.bind_some] at h
    cases b
    · simp at h
      rw [← h]
      exact eatExact_false h1
    · simp only [if_true] at h
      rcases h2 : e1.stringLoop (e1.current.length + 1) with _ | ⟨t, e2⟩ <;> simp [h2] at h

theorem unescapeLoop_eq (s : List Char) : ∀ buf t,
    (unescapeLoop false buf s = some t ↔ ∃ u, t = buf ++ u ∧ Str.Denotes s u) ∧
    (unescapeLoop true buf s = some t ↔ ∃ u, t = buf ++ u ∧ Str.Denotes ('\\' :: s) u) := by
  induction s with
  | nil =>
    intro buf t
    constructor
    · simp only [unescapeLoop]
      constructor
      · intro h
        simp at h
        exact ⟨[], by simp [h], .nil⟩
      · rintro ⟨u, rfl, hu⟩
        cases hu
        simp
    · simp only [unescapeLoop, if_true]
      constructor
      · intro h; simp at h
      · rintro ⟨u, rfl, hu⟩
        cases hu with
        | plain _ _ _ h _ => exact absurd rfl h
  | cons c cs ih =>
    intro buf t
    constructor
    · simp only [unescapeLoop]
      by_cases hc : c = '\\'
      · subst hc
        simp only [if_true]
        exact (ih buf t).2
      · simp only [hc, if_false]
        rw [(ih (buf ++ [c]) t).1]
        constructor
        · rintro ⟨u, rfl, hu⟩
          exact ⟨c :: u, by simp, .plain _ _ _ hc hu⟩
        · rintro ⟨u, rfl, hu⟩
          cases hu with
          | plain _ _ s _ hu => exact ⟨s, by simp, hu⟩
          | escaped => exact absurd rfl hc
    · simp only [unescapeLoop]
      rw [unescape_eq]
      rcases h : Str.unescapeChar c with _ | d
      · simp only [reduceCtorEq, false_iff]
        rintro ⟨u, rfl, hu⟩
        cases hu with
        | plain _ _ _ h _ => exact absurd rfl h
        | escaped _ d _ s hd _ =>
          rw [← Str.unescapeChar_iff, h] at hd
          simp at hd
      · simp only
        rw [(ih (buf ++ [d]) t).1]
        constructor
        · rintro ⟨u, rfl, hu⟩
          exact ⟨d :: u, by simp, .escaped _ _ _ _ ((Str.unescapeChar_iff _ _).1 h) hu⟩
        · rintro ⟨u, rfl, hu⟩
          cases hu with
          | plain _ _ _ h _ => exact absurd rfl h
          | escaped _ d' _ s hd hu =>
            rw [← Str.unescapeChar_iff, h] at hd
            cases hd
            exact ⟨s, by simp, hu⟩

theorem unescapeString_eq (s : List Char) : unescapeString s = Str.unescape s := by
  apply Option.ext
  intro t
  rw [Str.unescape_exact]
  unfold unescapeString
  have := (unescapeLoop_eq s [] t).1
  simpa using this

/-! ## Numbers -/

theorem denote_digits (s : List Char) (hs : ∀ c ∈ s, c.toNat < 128) (a : Nat) :
    Integer.denoteFrom 10 a (ascii s) = Lexer.digits a s := by
  induction s generalizing a with
  | nil => rfl
  | cons c cs ih =>
    have hc : (UInt8.ofNat c.toNat).toNat = c.toNat := by
      have := hs c (by simp)
      simp
      omega
    have h0 : ('0' ≤ c ∧ c ≤ '9') ↔ 48 ≤ c.toNat ∧ c.toNat ≤ 57 := Iff.rfl
    simp only [ascii, List.map_cons, Integer.denoteFrom, Lexer.digits, Integer.digitValue, hc, h0]
    have ih' := ih (fun x hx => hs x (by simp [hx]))
    simp only [ascii] at ih'
    by_cases h1 : 48 ≤ c.toNat ∧ c.toNat ≤ 57
    · simp only [h1, and_self, if_true]
      rw [if_pos (by omega), ih']
      rfl
    · simp only [h1, if_false]
      split
      · rename_i d hd
        split at hd
        · simp at hd; rw [if_neg (by omega)]
        · split at hd
          · simp at hd; rw [if_neg (by omega)]
          · simp at hd
      · rfl

end Verif.SelfLexer
