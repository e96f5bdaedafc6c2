import Verif.SelfLexer.Lemmas
import Verif.SelfLexer.Spec

/-!
# One call of `next!` in the two lexers
-/

namespace Verif.SelfLexer

open Verif.Lexer (Location Token TokenRep Lexer Eat byteLen splitLines splitBytes eatWhile_eq
  eatExact_hit eatExact_miss eatIf_hit eatIf_miss eatIf_nil eat_append eat_nil)
open Verif.Lexer.Spec (Digits UnsignedLit NegativeLit decimal)

theorem eatLines_eq (line ch : Nat) (ls : List (List Char)) :
    eatLines line ch ls = match ls.reverse with
      | [] => (line, ch)
      | last :: _ => (line + ls.length, byteLen last) := by
  induction ls generalizing line ch with
  | nil => rfl
  | cons l ls ih =>
    rw [eatLines, ih, List.reverse_cons]
    cases h : ls.reverse with
    | nil => simp at h; simp [h]
    | cons x xs => simp; omega

theorem eatLocation_eq (s : List Char) (loc : Location) : eatLocation s loc = loc.eat s := by
  unfold eatLocation Lexer.Location.eat
  cases h : splitLines s with
  | nil => exact absurd h (Lexer.splitLines_ne_nil s)
  | cons l ls =>
    simp only [eatLines_eq, List.reverse_cons]
    cases h2 : ls.reverse with
    | nil => simp
    | cons x xs =>
      have : ls.length = xs.length + 1 := by simpa using congrArg List.length h2
      simp [this]

variable {F : Type} {f0 f1 : List Char → Option F}

theorem produce_eq (l : Lexer) (e : Eat) (f g : List Char → Option (TokenRep F))
    (h : f e.consumed = g e.consumed) : produce l e f = Lexer.produceWith l e g := by
  simp only [produce, Lexer.produceWith, eatLocation_eq, h]
  rfl

theorem fromU (s : List Char) (hs : ∀ c ∈ s, c.toNat < 128) :
    ∃ r, Integer.fromString? ⟨false, 64⟩ 10 (ascii s) = .ok r ∧
      ∀ v : Int, r = some v ↔ Digits s ∧ v = decimal s ∧ decimal s < 2 ^ 64 := by
  obtain ⟨r, hr, h⟩ := Integer.from_string_denotes ⟨false, 64⟩ (by simp [Integer.IntTy.Valid]) 10 (ascii s)
  refine ⟨r, hr, fun v => ?_⟩
  rw [h v]
  simp only [Integer.Denotes, denote_digits s hs, Lexer.digits_zero_some]
  have hne : ascii s ≠ [] ↔ s ≠ [] := by simp [ascii]
  simp only [hne, Integer.IntTy.InRange, Digits]
  constructor
  · rintro ⟨hr, ⟨h1, n, ⟨h2, h3⟩, rfl⟩ | ⟨h, _⟩⟩
    · subst h3
      refine ⟨⟨h1, h2⟩, rfl, ?_⟩
      simp at hr
      omega
    · simp at h
  · rintro ⟨⟨h1, h2⟩, rfl, h3⟩
    refine ⟨?_, .inl ⟨h1, _, ⟨h2, rfl⟩, rfl⟩⟩
    simp
    omega

theorem fromI (s : List Char) (hs : ∀ c ∈ s, c.toNat < 128) :
    ∃ r, Integer.fromString? ⟨true, 64⟩ 10 (ascii s) = .ok r ∧
      ∀ v : Int, r = some v ↔ (Digits s ∧ v = decimal s ∧ decimal s < 2 ^ 63) ∨ NegativeLit s v := by
  obtain ⟨r, hr, h⟩ := Integer.from_string_denotes ⟨true, 64⟩ (by simp [Integer.IntTy.Valid]) 10 (ascii s)
  refine ⟨r, hr, fun v => ?_⟩
  rw [h v]
  simp only [Integer.Denotes, denote_digits s hs, Lexer.digits_zero_some]
  have hne : ascii s ≠ [] ↔ s ≠ [] := by simp [ascii]
  simp only [hne, Integer.IntTy.InRange, Digits, NegativeLit]
  constructor
  · rintro ⟨hr, ⟨h1, n, ⟨h2, h3⟩, rfl⟩ | ⟨_, t, h1, h2, n, h3, rfl⟩⟩
    · subst h3
      refine .inl ⟨⟨h1, h2⟩, rfl, ?_⟩
      simp at hr
      omega
    · right
      cases s with
      | nil => simp [ascii] at h1
      | cons c cs =>
        simp only [ascii, List.map_cons, List.cons.injEq] at h1
        obtain ⟨hc, rfl⟩ := h1
        have hc' : c.toNat = 45 := by
          have h1 := congrArg UInt8.toNat hc
          have h2 := hs c (by simp)
          simp at h1
          omega
        have : c = '-' := Char.ext (UInt32.toNat_inj.mp hc')
        subst this
        have h3' := (denote_digits cs (fun x hx => hs x (by simp [hx])) 0).symm.trans h3
        rw [Lexer.digits_zero_some] at h3'
        obtain ⟨h4, rfl⟩ := h3'
        refine ⟨cs, rfl, ⟨by simpa using h2, h4⟩, rfl, ?_⟩
        simp at hr
        omega
  · rintro (⟨⟨h1, h2⟩, rfl, h3⟩ | ⟨d, rfl, ⟨h1, h2⟩, rfl, h3⟩)
    · refine ⟨?_, .inl ⟨h1, _, ⟨h2, rfl⟩, rfl⟩⟩
      simp
      omega
    · refine ⟨?_, .inr ⟨trivial, ascii d, rfl, by simpa [ascii] using h1, decimal d, ?_, rfl⟩⟩
      · simp
        omega
      · rw [denote_digits d (fun x hx => hs x (by simp [hx])), Lexer.digits_zero_some]
        exact ⟨h2, rfl⟩

theorem idRep_near (s : List Char) (hs : ∀ c ∈ s, c.toNat < 128) :
    ∃ rep, idRep f1 s = some rep ∧ (rep = Lexer.idRep f0 s ∨ Spec.Excepted f0 f1 s) := by
  obtain ⟨r, hr, h⟩ := fromU s hs
  obtain ⟨r', hr', h'⟩ := fromI s hs
  unfold idRep
  rw [hr]
  cases r with
  | some v =>
    obtain ⟨h1, h2, h3⟩ := (h v).1 rfl
    refine ⟨_, rfl, .inl ?_⟩
    have : Lexer.parseU64 s = some (decimal s) := (Lexer.parseU64_iff s _).2 ⟨s, .inl rfl, h1, rfl, h3⟩
    simp [Lexer.idRep, this, h2]
  | none =>
    simp only [hr']
    cases h5 : Lexer.parseU64 s with
    | some n =>
      have h6 := (Lexer.parseU64_iff s n).1 h5
      have hodd : Spec.Excepted f0 f1 s := by
        obtain ⟨d, h7 | h7, h8, h9, h10⟩ := h6
        · subst h7
          have := (h (decimal s)).2 ⟨h8, rfl, by omega⟩
          simp at this
        · exact .inl ⟨d, n, h7, (Lexer.parseU64_iff s n).1 h5⟩
      cases r' with
      | some v => exact ⟨_, rfl, .inr hodd⟩
      | none =>
        simp only
        cases f1 s with
        | some f => exact ⟨_, rfl, .inr hodd⟩
        | none =>
          simp only
          split
          · exact ⟨_, rfl, .inr hodd⟩
          · split
            · exact ⟨_, rfl, .inr hodd⟩
            · split <;> exact ⟨_, rfl, .inr hodd⟩
    | none =>
      have hU : ∀ n, ¬ UnsignedLit s n := fun n hn => by
        rw [(Lexer.parseU64_iff s n).2 hn] at h5
        simp at h5
      cases r' with
      | some v =>
        refine ⟨_, rfl, .inl ?_⟩
        rcases (h' v).1 rfl with ⟨h1, h2, h3⟩ | h1
        · exact absurd ⟨s, .inl rfl, h1, rfl, by omega⟩ (hU (decimal s))
        · simp [Lexer.idRep, h5, (Lexer.parseI64_iff s v h5).2 h1]
      | none =>
        have h6 : Lexer.parseI64 s = none := by
          cases h7 : Lexer.parseI64 s with
          | none => rfl
          | some i =>
            have := (h' i).2 (.inr ((Lexer.parseI64_iff s i h5).1 h7))
            simp at this
        by_cases hf : f0 s = f1 s
        · simp only [Lexer.idRep, h5, h6, hf]
          cases f1 s with
          | some f => exact ⟨_, rfl, .inl rfl⟩
          | none =>
            simp only
            split
            · exact ⟨_, rfl, .inl rfl⟩
            · split
              · exact ⟨_, rfl, .inl rfl⟩
              · split <;> exact ⟨_, rfl, .inl rfl⟩
        · cases f1 s with
          | some f => exact ⟨_, rfl, .inr (.inr hf)⟩
          | none =>
            simp only
            split
            · exact ⟨_, rfl, .inr (.inr hf)⟩
            · split
              · exact ⟨_, rfl, .inr (.inr hf)⟩
              · split <;> exact ⟨_, rfl, .inr (.inr hf)⟩

theorem stringRep_eq (e e' : Eat) (he : e.consumed = []) (t : Bool) (h : e.eatString = some (some t, e')) :
    stringRep (F := F) t e'.consumed = Lexer.stringRep t e'.consumed := by
  cases t with
  | false => rfl
  | true =>
    suffices h2 : 2 ≤ byteLen e'.consumed by
      simp only [stringRep, Lexer.stringRep, if_true, h2, unescapeString_eq]
      rfl
    obtain ⟨con, cur⟩ := e
    simp only at he
    subst he
    unfold Lexer.Eat.eatString at h
    by_cases hp : ['"'] <+: cur
    · obtain ⟨cs, rfl⟩ := hp
      rw [eatExact_hit _ _ _ (by simp)] at h
      obtain ⟨t, w, rest, hl, hcs, hw⟩ := Lexer.stringLoop_spec (cs.length + 1) ([] ++ ['"']) cs (by omega)
      simp only [Option.bind_eq_bind, Option.bind_some, if_true, hl, Option.pure_def, Option.some.injEq,
        Prod.mk.injEq] at h
      obtain ⟨rfl, rfl⟩ := h
      rcases hw with ⟨_, v, rfl, hv⟩ | ⟨h, _⟩ | ⟨h, _⟩
      · have h1 : '"'.utf8Size = 1 := by decide
        simp [byteLen, h1]
        omega
      · simp at h
      · simp at h
    · rw [eatExact_miss _ _ _ hp] at h
      simp at h

theorem eatChar_rep (e : Eat) (he : e.consumed = []) (hk : K e) :
    ∃ t e', e.eatChar = some (t, e') ∧ eatChar e = some (t, e') ∧ (t = none → e' = e) ∧
      ∀ b, t = some b → charRep (F := F) b e'.consumed = Lexer.charRep b e'.consumed := by
  obtain ⟨con, cur⟩ := e
  simp only at he
  subst he
  unfold Lexer.Eat.eatChar eatChar
  by_cases hp : ['#', '\\'] <+: cur
  · obtain ⟨cs, rfl⟩ := hp
    have hk' : ∀ c ∈ cs, known c = true := fun c hc => hk c (by simp [hc])
    simp only [eatExact_eq]
    rw [eatExact_hit _ _ _ (by simp)]
    simp only [Option.bind_eq_bind, Option.bind_some, if_true, List.nil_append, Option.pure_def, eatEscape,
      eatExact_eq]
    cases cs with
    | nil =>
      refine ⟨some false, ⟨['#', '\\'], []⟩, rfl, rfl, by simp, ?_⟩
      rintro b ⟨⟩
      rfl
    | cons x xs =>
      by_cases hx : x = '\\'
      · subst hx
        rw [eatIf_miss _ _ _ _ (by simp)]
        have h1 := eatExact_hit ['#', '\\'] ['\\'] xs (by simp)
        have he := eat_append ['#', '\\'] ['\\'] xs (by simp)
        simp only [byteLen, List.map_cons, List.map_nil, List.sum_cons, List.sum_nil, Nat.add_zero,
          List.singleton_append] at he h1
        simp only [Option.bind_some, Bool.false_eq_true, if_false, he, if_true, h1]
        rw [eatIf_eq _ _ (fun c hc => hk' c (by simp at hc; simp [hc]))]
        have hf : (fun c => (unescape c).isSome) = fun c => (Str.unescapeChar c).isSome :=
          funext fun c => by rw [unescape_eq]
        rw [hf]
        cases xs with
        | nil =>
          refine ⟨some false, ⟨['#', '\\'] ++ ['\\'], []⟩, rfl, rfl, by simp, ?_⟩
          rintro b ⟨⟩
          rfl
        | cons y ys =>
          cases hy : Str.unescapeChar y with
          | none =>
            rw [eatIf_miss _ _ _ _ (by simp [hy])]
            refine ⟨some false, _, rfl, rfl, by simp, ?_⟩
            rintro b ⟨⟩
            rfl
          | some d =>
            rw [eatIf_hit _ _ _ _ (by simp [hy])]
            refine ⟨some true, _, rfl, rfl, by simp, ?_⟩
            rintro b ⟨⟩
            have hd : Str.unescape ['\\', y] = some [d] :=
              (Str.unescape_exact _ _).2 (.escaped _ _ _ _ ((Str.unescapeChar_iff _ _).1 hy) .nil)
            have h1 : '#'.utf8Size = 1 := by decide
            have h2 : '\\'.utf8Size = 1 := by decide
            have hb : 3 ≤ byteLen ['#', '\\', '\\', y] := by
              simp [byteLen, h1, h2]
              omega
            simp only [charRep, Lexer.charRep, if_true, List.cons_append, List.nil_append, hb,
              List.drop_succ_cons, List.drop_zero, hd, unescapeChar, unescape_eq, hy]
      · rw [eatIf_hit _ _ _ _ (by simp [hx])]
        rw [eatExact_miss _ _ _ (by simpa using Ne.symm hx)]
        simp only [Option.bind_some, Bool.false_eq_true, if_false, if_true]
        rw [eatIf_eq _ _ (fun c hc => hk' c hc), eatIf_hit _ _ _ _ (by simp [hx])]
        refine ⟨some true, _, rfl, rfl, by simp, ?_⟩
        rintro b ⟨⟩
        have hd : Str.unescape [x] = some [x] := (Str.unescape_exact _ _).2 (.plain _ _ _ hx .nil)
        have h1 : '#'.utf8Size = 1 := by decide
        have h2 : '\\'.utf8Size = 1 := by decide
        have hb : 3 ≤ byteLen ['#', '\\', x] := by
          have := Char.utf8Size_pos x
          simp [byteLen, h1, h2]
          omega
        simp only [charRep, Lexer.charRep, if_true, List.cons_append, List.nil_append, hb,
          List.drop_succ_cons, List.drop_zero, hd, unescapeChar, hx, if_false]
  · simp only [eatExact_eq]
    rw [eatExact_miss _ _ _ hp]
    exact ⟨none, _, rfl, rfl, fun _ => rfl, by simp⟩

theorem nextPunct_eq (l : Lexer) (e : Eat) (he : e.current ≠ []) (hk : K e)
    (ps : List (List Char × TokenRep F)) : nextPunct l e ps = Lexer.nextPunct l e ps := by
  induction ps with
  | nil =>
    obtain ⟨con, cur⟩ := e
    cases cur with
    | nil => simp at he
    | cons c cs =>
      simp only [nextPunct, Lexer.nextPunct]
      rw [eatIf_eq _ _ hk, eatIf_hit _ _ _ _ rfl]
      simp only [Option.bind_eq_bind, Option.bind_some, if_true]
      exact produce_eq _ _ _ _ rfl
  | cons p ps ih =>
    obtain ⟨text, rep⟩ := p
    simp only [nextPunct, Lexer.nextPunct, eatExact_eq]
    rcases h : e.eatExact text with _ | ⟨b, e1⟩
    · rfl
    · simp only [Option.bind_eq_bind, Option.bind_some]
      cases b
      · rw [eatExact_false h]
        simpa using ih
      · simp only [if_true]
        exact produce_eq _ _ _ _ rfl

theorem next_near (l : Lexer) (hne : l.input ≠ []) (hk : ∀ c ∈ l.input, known c = true) :
    next f1 l = l.next f0 ∨ ∃ s rest rep,
      l.next f0 = some (some (⟨⟨l.location, l.location.eat s⟩, Lexer.idRep f0 s⟩, ⟨rest, l.location.eat s⟩)) ∧
      next f1 l = some (some (⟨⟨l.location, l.location.eat s⟩, rep⟩, ⟨rest, l.location.eat s⟩)) ∧
      l.input = s ++ rest ∧ s ≠ [] ∧ Spec.Excepted f0 f1 s := by
  have hK : K (Eat.new l) := hk
  have hcon : (Eat.new l).consumed = [] := rfl
  have hcur : (Eat.new l).current = l.input := rfl
  have heof : (Eat.new l).isEof = false := by
    simp only [Lexer.Eat.isEof, hcur]
    cases h : l.input <;> simp_all
  unfold next Lexer.Lexer.next
  simp only [heof, Bool.false_eq_true, if_false]
  rw [eatWhitespaces_eq _ hK]
  rcases h : (Eat.new l).eatWhitespaces with _ | ⟨b, e1⟩
  · left
    simp only [Option.bind_eq_bind, Option.bind_none]
  simp only [Option.bind_eq_bind, Option.bind_some]
  cases b
  case true =>
    left
    simp only [if_true]
    exact produce_eq _ _ _ _ rfl
  rw [eatWhile_false h]
  simp only [Bool.false_eq_true, if_false]
  rw [eatLineComment_eq _ hK]
  rcases h : (Eat.new l).eatLineComment with _ | ⟨b, e1⟩
  · left
    simp only [Option.bind_none]
  simp only [Option.bind_some]
  cases b
  case true =>
    left
    simp only [if_true]
    exact produce_eq _ _ _ _ rfl
  rw [eatLineComment_false h]
  simp only [Bool.false_eq_true, if_false]
  rw [eatId_eq _ hK]
  rcases h : (Eat.new l).eatId with _ | ⟨b, e1⟩
  · left
    simp only [Option.bind_none]
  simp only [Option.bind_some]
  cases b
  case true =>
    simp only [if_true]
    obtain ⟨a, r, ha, hr, hcur', hall, hhd⟩ := Lexer.takeWhile_spec Lexer.isIdChar l.input
    have h' : (Eat.new l).eatId = some (!a.isEmpty, ⟨a, r⟩) := by
      have := eatWhile_eq [] l.input Lexer.isIdChar
      rw [ha, hr] at this
      simpa [Lexer.Eat.eatId, Eat.new] using this
    rw [h] at h'
    simp only [Option.some.injEq, Prod.mk.injEq] at h'
    obtain ⟨h1, rfl⟩ := h'
    have hane : a ≠ [] := by
      rintro rfl
      simp at h1
    have hasc : ∀ c ∈ a, c.toNat < 128 := by
      intro c hc
      have := hall c hc
      rw [← idChar_eq] at this
      simp [idChar] at this
      omega
    obtain ⟨rep, hrep, hr | hodd⟩ := idRep_near (f0 := f0) (f1 := f1) a hasc
    · left
      exact produce_eq _ _ _ _ (by simp [hrep, hr])
    · right
      exact ⟨a, r, rep, by simp [Lexer.produceWith], by simp [produce, hrep, eatLocation_eq], hcur', hane, hodd⟩
  rw [eatWhile_false h]
  simp only [Bool.false_eq_true, if_false]
  rw [eatString_eq _ hK]
  rcases h : (Eat.new l).eatString with _ | ⟨t, e1⟩
  · left
    simp only [Option.bind_none]
  simp only [Option.bind_some]
  cases t with
  | some t =>
    left
    simp only
    exact produce_eq _ _ _ _ (stringRep_eq _ _ hcon _ h)
  | none =>
    simp only
    rw [eatString_none h]
    obtain ⟨t, e', h1, h2, h3, h4⟩ := eatChar_rep (F := F) (Eat.new l) hcon hK
    rw [h1, h2]
    simp only [Option.bind_some]
    cases t with
    | some t =>
      left
      simp only
      exact produce_eq _ _ _ _ (h4 t rfl)
    | none =>
      simp only
      rw [h3 rfl]
      exact .inl (nextPunct_eq _ _ hne hK _)

end Verif.SelfLexer
