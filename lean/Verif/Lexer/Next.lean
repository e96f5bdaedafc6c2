import Verif.Lexer.Lemmas

namespace Verif.Lexer
open Spec

theorem isSpace_iff (c) : isSpace c = true ↔ Space c := by
  simp [isSpace, Space, or_assoc]

theorem isIdChar_iff (c) : isIdChar c = true ↔ IdChar c := by
  simp only [isIdChar, IdChar, Bool.or_eq_true, Bool.and_eq_true, decide_eq_true_eq, List.mem_cons, List.not_mem_nil, or_false]
  grind

theorem unescapable_iff (c) : (Str.unescapeChar c).isSome = true ↔ c ∈ ['t', 'r', 'n', '"', '\\'] := by
  unfold Str.unescapeChar
  split <;> simp_all

theorem Spec.Inside.append {a b} (ha : Inside a) (hb : Inside b) : Inside (a ++ b) := by
  induction ha with
  | nil => exact hb
  | plain c s h1 h2 _ ih => exact .plain _ _ h1 h2 ih
  | escaped l s h _ ih => exact .escaped _ _ h ih

theorem Spec.Inside.of_plain {a : List Char} (h : ∀ c ∈ a, c ≠ '"' ∧ c ≠ '\\') : Inside a := by
  induction a with
  | nil => exact .nil
  | cons c cs ih => exact .plain _ _ (h c (by simp)).1 (h c (by simp)).2 (ih fun c hc => h c (by simp [hc]))

theorem Spec.Inside.denotes {a} (h : Inside a) : ∃ b, Str.Denotes a b := by
  induction h with
  | nil => exact ⟨[], .nil⟩
  | plain c s h1 h2 _ ih => obtain ⟨b, hb⟩ := ih; exact ⟨c :: b, .plain _ _ _ h2 hb⟩
  | escaped l s h _ ih =>
    obtain ⟨b, hb⟩ := ih
    have := (unescapable_iff l).2 h
    obtain ⟨c, hc⟩ := Option.isSome_iff_exists.1 this
    exact ⟨c :: b, .escaped _ _ _ _ ((Str.unescapeChar_iff _ _).1 hc) hb⟩

theorem takeWhile_spec (p : Char → Bool) (l : List Char) :
    ∃ a b, l.takeWhile p = a ∧ l.dropWhile p = b ∧ l = a ++ b ∧ (∀ c ∈ a, p c = true) ∧
      (∀ c, b.head? = some c → p c = false) := by
  refine ⟨_, _, rfl, rfl, (List.takeWhile_append_dropWhile).symm, Str.mem_takeWhile_fact p l, ?_⟩
  intro c hc
  cases hd : l.dropWhile p with
  | nil => simp [hd] at hc
  | cons x xs =>
    rw [hd] at hc; simp at hc; subst hc
    have := Str.dropWhile_cons_fact (fun c => !p c) l x xs (by simpa using hd)
    simpa using this

theorem stringLoop_spec (fuel : Nat) (con cur : List Char) (hf : cur.length < fuel) :
    ∃ t w rest, Eat.stringLoop fuel ⟨con, cur⟩ = some (t, ⟨con ++ w, rest⟩) ∧ cur = w ++ rest ∧
      ((t = true ∧ ∃ v, w = v ++ ['"'] ∧ Inside v) ∨
       (t = false ∧ Inside w ∧ rest = []) ∨
       (t = false ∧ ∃ v, w = v ++ ['\\'] ∧ Inside v ∧
          ∀ c, rest.head? = some c → c ∉ ['t', 'r', 'n', '"', '\\'])) := by
  induction fuel generalizing con cur with
  | zero => omega
  | succ fuel ih =>
    obtain ⟨a, b, ha, hb, hcur, hall, hhd⟩ := takeWhile_spec (fun c => !(c = '"' || c = '\\')) cur
    have hin : Inside a := Inside.of_plain (by intro c hc; simpa using hall c hc)
    unfold Eat.stringLoop
    simp only [eatWhile_eq, ha, hb, Option.bind_eq_bind, Option.bind_some]
    cases b with
    | nil =>
      rw [eatExact_miss _ _ _ (by simp)]
      simp only [Option.bind_some, Bool.false_eq_true, if_false, eat_nil]
      exact ⟨false, a, [], rfl, hcur, .inr (.inl ⟨rfl, hin, rfl⟩)⟩
    | cons x xs =>
      have hx : x = '"' ∨ x = '\\' := by
        have := hhd x rfl
        by_cases h : x = '"'
        · exact .inl h
        · exact .inr (by simpa [h] using this)
      rcases hx with rfl | rfl
      · have := eatExact_hit (con ++ a) ['"'] xs (by simp)
        simp only [List.singleton_append] at this
        rw [this]
        simp only [Option.bind_some, if_true]
        exact ⟨true, a ++ ['"'], xs, by simp, by simp [hcur], .inl ⟨rfl, a, rfl, hin⟩⟩
      · rw [eatExact_miss _ _ _ (by simp)]
        have := eat_append (con ++ a) ['\\'] xs (by simp)
        simp only [byteLen, List.map_cons, List.map_nil, List.sum_cons, List.sum_nil, Nat.add_zero, List.singleton_append] at this
        simp only [Option.bind_some, Bool.false_eq_true, if_false, this, if_true]
        cases xs with
        | nil =>
          simp only [eatIf_nil, Option.bind_some, Bool.false_eq_true, if_false]
          exact ⟨false, a ++ ['\\'], [], by simp, by simp [hcur], .inr (.inr ⟨rfl, a, rfl, hin, by simp⟩)⟩
        | cons y ys =>
          cases hy : (Str.unescapeChar y).isSome with
          | false =>
            rw [eatIf_miss _ _ _ _ hy]
            simp only [Option.bind_some, Bool.false_eq_true, if_false]
            refine ⟨false, a ++ ['\\'], y :: ys, by simp, by simp [hcur], .inr (.inr ⟨rfl, a, rfl, hin, ?_⟩)⟩
            intro c hc
            simp at hc; subst hc
            rw [← unescapable_iff, hy]; simp
          | true =>
            rw [eatIf_hit _ _ _ _ hy]
            simp only [Option.bind_some, if_true]
            have hlen : ys.length < fuel := by
              rw [hcur] at hf; simp at hf; omega
            obtain ⟨t, w, rest, h1, h2, h3⟩ := ih (con ++ a ++ ['\\'] ++ [y]) ys hlen
            have hin2 : Inside (a ++ ['\\', y]) :=
              hin.append (.escaped _ _ ((unescapable_iff y).1 hy) .nil)
            refine ⟨t, a ++ ['\\', y] ++ w, rest, by rw [h1]; simp, by simp [hcur, h2], ?_⟩
            rcases h3 with ⟨rfl, v, rfl, hv⟩ | ⟨rfl, hw, rfl⟩ | ⟨rfl, v, rfl, hv, hr⟩
            · exact .inl ⟨rfl, a ++ ['\\', y] ++ v, by simp, hin2.append hv⟩
            · exact .inr (.inl ⟨rfl, hin2.append hw, rfl⟩)
            · exact .inr (.inr ⟨rfl, a ++ ['\\', y] ++ v, by simp, hin2.append hv, hr⟩)

/-! ### Numbers -/

theorem digits_eq (acc : Nat) (s : List Char) (h : ∀ c ∈ s, '0' ≤ c ∧ c ≤ '9') :
    digits acc s = some (acc * 10 ^ s.length + decimal s) := by
  induction s generalizing acc with
  | nil => simp [digits, decimal]
  | cons c cs ih =>
    rw [digits, if_pos (h c (by simp)), ih _ (fun c hc => h c (by simp [hc]))]
    simp only [List.length_cons, Nat.pow_succ, decimal]
    congr 1
    rw [Nat.add_mul]
    have : acc * 10 * 10 ^ cs.length = acc * (10 ^ cs.length * 10) := by
      rw [Nat.mul_assoc, Nat.mul_comm 10]
    omega

theorem digits_some {acc : Nat} {s : List Char} {n} (h : digits acc s = some n) :
    (∀ c ∈ s, '0' ≤ c ∧ c ≤ '9') := by
  induction s generalizing acc with
  | nil => simp
  | cons c cs ih =>
    rw [digits] at h
    split at h
    · next hc => intro d hd; simp at hd; rcases hd with rfl | hd; exact hc; exact ih h d hd
    · simp at h

theorem digits_zero_some {s : List Char} {n} : digits 0 s = some n ↔
    (∀ c ∈ s, '0' ≤ c ∧ c ≤ '9') ∧ decimal s = n := by
  constructor
  · intro h
    have hd := digits_some h
    rw [digits_eq _ _ hd] at h
    exact ⟨hd, by simpa using h⟩
  · rintro ⟨h, rfl⟩; rw [digits_eq _ _ h]; simp

theorem stripPlus_digits (s : List Char) (h : ∀ c ∈ s, '0' ≤ c ∧ c ≤ '9') : stripPlus s = s := by
  cases s with
  | nil => rfl
  | cons c cs =>
    have hc := h c (by simp)
    unfold stripPlus
    split
    · next heq => simp at heq; rw [heq.1] at hc; exact absurd hc (by decide)
    · rfl

theorem stripPlus_cases (s : List Char) : s = stripPlus s ∨ s = '+' :: stripPlus s := by
  unfold stripPlus; split <;> simp

theorem strip_iff (s d : List Char) (h : ∀ c ∈ d, '0' ≤ c ∧ c ≤ '9') :
    (s = d ∨ s = '+' :: d) ↔ stripPlus s = d := by
  constructor
  · rintro (rfl | rfl)
    · exact stripPlus_digits _ h
    · rfl
  · rintro rfl; exact stripPlus_cases s

theorem parseU64_iff (s n) : parseU64 s = some n ↔ UnsignedLit s n := by
  unfold parseU64 UnsignedLit Digits
  constructor
  · intro h
    split at h
    · simp at h
    · next hne =>
      simp only [Option.bind_eq_some_iff] at h
      obtain ⟨m, hm, hlt⟩ := h
      split at hlt <;> simp at hlt
      subst hlt
      obtain ⟨h1, h2⟩ := digits_zero_some.1 hm
      exact ⟨_, stripPlus_cases s, ⟨by simpa using hne, h1⟩, h2, by assumption⟩
  · rintro ⟨d, hs, ⟨hne, hd⟩, rfl, hlt⟩
    rw [strip_iff _ _ hd] at hs
    rw [hs, if_neg (by simpa using hne), digits_zero_some.2 ⟨hd, rfl⟩]
    simp [hlt]

/-- Once `parse::<u64>` failed, `parse::<i64>` succeeds only on negative literals. -/
theorem parseI64_iff (s i) (h : parseU64 s = none) : parseI64 s = some i ↔ NegativeLit s i := by
  unfold parseI64 NegativeLit Digits
  constructor
  · intro hi
    split at hi
    · next r =>
      split at hi
      · simp at hi
      · next hne =>
        simp only [Option.bind_eq_some_iff] at hi
        obtain ⟨m, hm, hlt⟩ := hi
        split at hlt <;> simp at hlt
        subst hlt
        obtain ⟨h1, h2⟩ := digits_zero_some.1 hm
        refine ⟨r, rfl, ⟨by simpa using hne, h1⟩, by simp [h2], by omega⟩
    · exfalso
      split at hi
      · simp at hi
      · next hne =>
        simp only [Option.bind_eq_some_iff] at hi
        obtain ⟨m, hm, hlt⟩ := hi
        split at hlt <;> simp at hlt
        unfold parseU64 at h
        rw [if_neg hne, hm] at h
        simp at h; omega
  · rintro ⟨d, rfl, ⟨hne, hd⟩, rfl, hlt⟩
    simp only
    rw [if_neg (by simpa using hne), digits_zero_some.2 ⟨hd, rfl⟩]
    simp; omega

variable {F : Type} (parseF64 : List Char → Option F)

/-- What one call of `next` must produce. -/
def Good (l : Lexer) (r : Option (Option (Token F × Lexer))) : Prop :=
  ∃ s rest rep, l.input = s ++ rest ∧ s ≠ [] ∧ Tok parseF64 rep s rest ∧
    r = some (some (⟨⟨l.location, l.location.eat s⟩, rep⟩, ⟨rest, l.location.eat s⟩))

variable {parseF64}

theorem Good.mk {l : Lexer} {s rest rep} (f : List Char → Option (TokenRep F)) (h1 : l.input = s ++ rest)
    (h2 : s ≠ []) (h3 : Tok parseF64 rep s rest) (h4 : f s = some rep) :
    Good parseF64 l (produceWith l ⟨s, rest⟩ f) :=
  ⟨s, rest, rep, h1, h2, h3, by simp [produceWith, h4]⟩

theorem eatWhile_miss (con cur : List Char) (f : Char → Bool) (h : ∀ c, cur.head? = some c → f c = false) :
    Eat.eatWhile ⟨con, cur⟩ f = some (false, ⟨con, cur⟩) := by
  rw [eatWhile_eq]
  cases cur with
  | nil => simp
  | cons c cs => simp [h c rfl]

theorem Tok.idRep {s rest} (h : Run IdChar s rest) : Tok parseF64 (idRep parseF64 s) s rest := by
  unfold Lexer.idRep
  cases h1 : parseU64 s with
  | some n => exact .unsigned _ _ _ h ((parseU64_iff _ _).1 h1)
  | none =>
    have hu : ∀ n, ¬ UnsignedLit s n := fun n hn => by rw [← parseU64_iff, h1] at hn; simp at hn
    cases h2 : parseI64 s with
    | some i => exact .signed _ _ _ h ((parseI64_iff _ _ h1).1 h2)
    | none =>
      have hi : ∀ n, ¬ NegativeLit s n := fun n hn => by rw [← parseI64_iff _ _ h1, h2] at hn; simp at hn
      cases h3 : parseF64 s with
      | some f => exact .fp _ _ _ h hu hi h3
      | none =>
        simp only
        split
        · next h4 => subst h4; exact .dot _ h h3
        · split
          · next h4 => subst h4; exact .question _ h h3
          · split
            · next h4 => subst h4; exact .exclamation _ h h3
            · exact .symbol _ _ h hu hi h3 (by simp_all)

theorem comma_at_first (n : Nat) (h : ((fixed (F := F)).map Prod.fst)[n]? = some [',']) :
    [',', '@'] ∈ ((fixed (F := F)).map Prod.fst).take n := by
  simp only [fixed, List.map_cons, List.map_nil] at *
  by_cases hn : n < 15
  · revert h
    revert n
    intro n hn
    revert hn
    revert n
    decide
  · rw [List.getElem?_eq_none (by simpa using hn)] at h
    simp at h

theorem nextPunct_spec (l : Lexer) (c : Char) (cs : List Char) (hin : l.input = c :: cs)
    (h1 : ¬ Space c) (h2 : ¬ IdChar c) (h3 : c ∉ [';', '"']) (h4 : ¬ ['#', '\\'] <+: c :: cs)
    (done todo : List (List Char × TokenRep F)) (hp : fixed (F := F) = done ++ todo)
    (hdone : ∀ t ∈ done.map Prod.fst, ¬ t <+: c :: cs) :
    Good parseF64 l (nextPunct l ⟨[], c :: cs⟩ todo) := by
  induction todo generalizing done with
  | nil =>
    unfold nextPunct
    rw [eatIf_hit _ _ _ _ rfl]
    simp only [Option.bind_eq_bind, Option.bind_some, if_true]
    refine Good.mk _ (by simpa using hin) (by simp) (.unknown _ _ h1 h2 h3 ?_ h4) rfl
    rw [hp]; simpa using hdone
  | cons tr todo ih =>
    obtain ⟨t, r⟩ := tr
    have hmem : (t, r) ∈ fixed (F := F) := by rw [hp]; simp
    have hne : t ≠ [] := by
      simp only [fixed, List.mem_cons, Prod.mk.injEq, List.not_mem_nil, or_false] at hmem
      rintro rfl
      simp at hmem
    unfold nextPunct
    by_cases ht : t <+: c :: cs
    · obtain ⟨rest, hr⟩ := ht
      rw [← hr]
      rw [eatExact_hit _ _ _ hne]
      simp only [Option.bind_eq_bind, Option.bind_some, if_true, List.nil_append]
      refine Good.mk _ (by rw [hin, hr]) hne (.fixed _ _ _ hmem ?_) rfl
      rintro rfl
      -- `,@` was tried before `,`
      intro hat
      apply hdone [',', '@']
      · have hL := congrArg (List.map Prod.fst) hp
        rw [List.map_append, List.map_cons] at hL
        have hget := congrArg (fun l => l[(done.map Prod.fst).length]?) hL
        have htake := congrArg (fun l => l.take (done.map Prod.fst).length) hL
        simp only [List.take_left', List.getElem?_append_right, Nat.le_refl, Nat.sub_self, List.getElem?_cons_zero] at hget htake
        rw [← htake]
        exact comma_at_first _ hget
      · rw [← hr]
        cases rest with
        | nil => simp at hat
        | cons x xs => simp at hat; subst hat; simp
    · rw [eatExact_miss _ _ _ ht]
      simp only [Option.bind_eq_bind, Option.bind_some, Bool.false_eq_true, if_false]
      apply ih (done ++ [(t, r)])
      · simp [hp]
      · intro t' ht'
        simp only [List.map_append, List.map_cons, List.map_nil, List.mem_append, List.mem_singleton] at ht'
        rcases ht' with ht' | rfl
        · exact hdone _ ht'
        · exact ht

theorem next_spec (l : Lexer) (h : l.input ≠ []) : Good parseF64 l (l.next parseF64) := by
  obtain ⟨input, loc⟩ := l
  simp only at h
  cases input with
  | nil => exact absurd rfl h
  | cons c cs =>
  unfold Lexer.next
  simp only [Eat.new, Eat.isEof, List.isEmpty_cons, Bool.false_eq_true, if_false]
  -- whitespaces
  by_cases hsp : Space c
  · obtain ⟨a, b, ha, hb, hab, hall, hhd⟩ := takeWhile_spec isSpace (c :: cs)
    have hane : a ≠ [] := by rw [← ha]; simp [(isSpace_iff c).2 hsp]
    unfold Eat.eatWhitespaces
    rw [eatWhile_eq, ha, hb]
    simp only [Option.bind_eq_bind, Option.bind_some, List.nil_append]
    rw [if_pos (by simpa using hane)]
    refine Good.mk _ hab hane (.whitespaces _ _ ⟨hane, ?_, ?_⟩) rfl
    · intro c hc; rw [← isSpace_iff]; exact hall c hc
    · intro c hc; rw [← isSpace_iff, hhd c hc]; simp
  unfold Eat.eatWhitespaces
  rw [eatWhile_miss _ _ _ (by intro d hd; simp at hd; subst hd; rw [← isSpace_iff] at hsp; simpa using hsp)]
  simp only [Option.bind_eq_bind, Option.bind_some, Bool.false_eq_true, if_false]
  -- line comment
  unfold Eat.eatLineComment
  by_cases hsc : c = ';'
  · subst hsc
    obtain ⟨a, b, ha, hb, hab, hall, hhd⟩ := takeWhile_spec (fun c => c ≠ '\n') cs
    have he := eatExact_hit [] [';'] cs (by simp)
    simp only [List.singleton_append] at he
    rw [he]
    simp only [Option.bind_eq_bind, Option.bind_some, if_true, eatWhile_eq, ha, hb]
    have hanl : '\n' ∉ a := by
      intro hm; have := hall _ hm; simp at this
    cases b with
    | nil =>
      rw [eatExact_miss _ _ _ (by simp)]
      simp only [Option.bind_some, Option.pure_def, if_true]
      exact Good.mk _ (by simp [hab]) (by simp) (.commentEof _ hanl) rfl
    | cons x xs =>
      have hx : x = '\n' := by have := hhd x rfl; simpa using this
      subst hx
      have he := eatExact_hit ([] ++ [';'] ++ a) ['\n'] xs (by simp)
      simp only [List.singleton_append] at he
      rw [he]
      simp only [Option.bind_some, Option.pure_def, if_true]
      exact Good.mk _ (by simp [hab]) (by simp) (.commentLine _ _ hanl) rfl
  rw [eatExact_miss _ _ _ (by simpa using Ne.symm hsc)]
  simp only [Option.bind_eq_bind, Option.bind_some, Bool.false_eq_true, if_false, Option.pure_def]
  -- identifiers
  unfold Eat.eatId
  by_cases hid : IdChar c
  · obtain ⟨a, b, ha, hb, hab, hall, hhd⟩ := takeWhile_spec isIdChar (c :: cs)
    have hane : a ≠ [] := by rw [← ha]; simp [(isIdChar_iff c).2 hid]
    rw [eatWhile_eq, ha, hb]
    simp only [Option.bind_some, List.nil_append]
    rw [if_pos (by simpa using hane)]
    refine Good.mk _ hab hane (Tok.idRep ⟨hane, ?_, ?_⟩) rfl
    · intro c hc; rw [← isIdChar_iff]; exact hall c hc
    · intro c hc; rw [← isIdChar_iff, hhd c hc]; simp
  rw [eatWhile_miss _ _ _ (by intro d hd; simp at hd; subst hd; rw [← isIdChar_iff] at hid; simpa using hid)]
  simp only [Option.bind_some, Bool.false_eq_true, if_false]
  -- strings
  unfold Eat.eatString
  by_cases hq : c = '"'
  · subst hq
    have he := eatExact_hit [] ['"'] cs (by simp)
    simp only [List.singleton_append] at he
    rw [he]
    obtain ⟨t, w, rest, hl, hcs, hw⟩ := stringLoop_spec (cs.length + 1) ([] ++ ['"']) cs (by omega)
    simp only [Option.bind_eq_bind, Option.bind_some, if_true, hl, Option.pure_def]
    rcases hw with ⟨rfl, v, rfl, hv⟩ | ⟨rfl, hw, rfl⟩ | ⟨rfl, v, rfl, hv, hr⟩
    · obtain ⟨body, hb⟩ := hv.denotes
      refine Good.mk _ (by simp [hcs]) (by simp) (.string _ _ _ hv hb) ?_
      have hd : (((['"'] ++ v) ++ ['"']).drop 1).take (((['"'] ++ v) ++ ['"']).length - 1 - 1) = v := by simp
      simp [stringRep, (Str.unescape_exact _ _).2 hb]
    · exact Good.mk _ (by simp [hcs]) (by simp) (.stringEof _ hw) (by simp [stringRep])
    · exact Good.mk _ (by simp [hcs]) (by simp) (.stringBadEscape _ _ hv hr) (by simp [stringRep])
  rw [eatExact_miss _ _ _ (by simpa using Ne.symm hq)]
  simp only [Option.bind_eq_bind, Option.bind_some, Bool.false_eq_true, if_false, Option.pure_def]
  -- characters
  unfold Eat.eatChar
  by_cases hch : ['#', '\\'] <+: c :: cs
  · obtain ⟨r, hr⟩ := hch
    rw [← hr]
    rw [eatExact_hit _ _ _ (by simp)]
    simp only [Option.bind_eq_bind, Option.bind_some, if_true, Option.pure_def, List.nil_append]
    cases r with
    | nil =>
      simp only [eatIf_nil, Option.bind_some, Bool.false_eq_true, if_false, eat_nil]
      exact Good.mk _ (by simp) (by simp) .charEof (by simp [charRep])
    | cons x xs =>
      by_cases hx : x = '\\'
      · subst hx
        rw [eatIf_miss _ _ _ _ (by simp)]
        have he := eat_append ['#', '\\'] ['\\'] xs (by simp)
        simp only [byteLen, List.map_cons, List.map_nil, List.sum_cons, List.sum_nil, Nat.add_zero, List.singleton_append] at he
        simp only [Option.bind_some, Bool.false_eq_true, if_false, he, if_true]
        cases xs with
        | nil =>
          simp only [eatIf_nil, Option.bind_some]
          exact Good.mk _ (by simp) (by simp) (.charBadEscape _ (by simp)) (by simp [charRep])
        | cons y ys =>
          cases hy : (Str.unescapeChar y).isSome with
          | false =>
            rw [eatIf_miss _ _ _ _ hy]
            simp only [Option.bind_some]
            refine Good.mk _ (by simp) (by simp) (.charBadEscape _ ?_) (by simp [charRep])
            intro c hc
            simp at hc; subst hc
            rw [← unescapable_iff, hy]; simp
          | true =>
            rw [eatIf_hit _ _ _ _ hy]
            simp only [Option.bind_some]
            obtain ⟨e, hye⟩ := Option.isSome_iff_exists.1 hy
            have hd : Str.Denotes ['\\', y] [e] := .escaped _ _ _ _ ((Str.unescapeChar_iff _ _).1 hye) .nil
            refine Good.mk _ (by simp) (by simp) (.char _ _ _ hd) ?_
            simp [charRep, (Str.unescape_exact _ _).2 hd]
      · rw [eatIf_hit _ _ _ _ (by simpa using hx)]
        simp only [Option.bind_some, if_true]
        have hd : Str.Denotes [x] [x] := .plain _ _ _ hx .nil
        refine Good.mk _ (by simp) (by simp) (.char _ _ _ hd) ?_
        simp [charRep, (Str.unescape_exact _ _).2 hd]
  rw [eatExact_miss _ _ _ hch]
  simp only [Option.bind_eq_bind, Option.bind_some, Bool.false_eq_true, if_false, Option.pure_def]
  exact nextPunct_spec _ c cs rfl hsp hid (by simp [hsc, hq]) hch [] _ rfl (by simp)

end Verif.Lexer
