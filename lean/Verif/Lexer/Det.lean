import Verif.Lexer.Next

/-! The lexical grammar of `Spec.lean` is unambiguous. -/
namespace Verif.Lexer
open Spec

variable {F : Type} {parseF64 : List Char → Option F}

/-- Class of a nonempty text by its beginning. -/
def cls : List Char → Nat
  | [] => 9
  | c :: cs =>
    if isSpace c then 0 else if c = ';' then 1 else if isIdChar c then 2 else if c = '"' then 3
    else if ['#', '\\'].isPrefixOf (c :: cs) then 4 else 5

def repCls : TokenRep F → Nat
  | .whitespaces => 0
  | .lineComment => 1
  | .unsigned _ | .signed _ | .fpNumber _ | .dot | .question | .exclamation | .symbol _ => 2
  | .string _ | .unterminatedString => 3
  | .char _ | .unterminatedChar => 4
  | _ => 5

theorem cls_id {s rest} (h : Run IdChar s rest) : cls (s ++ rest) = 2 := by
  obtain ⟨h1, h2, _⟩ := h
  cases s with
  | nil => exact absurd rfl h1
  | cons c cs =>
    have hc := (isIdChar_iff c).2 (h2 c (by simp))
    have h1 : isSpace c = false := by
      cases hs : isSpace c with
      | false => rfl
      | true =>
        rw [isSpace_iff] at hs
        simp [Space] at hs
        rcases hs with rfl | rfl | rfl | rfl <;> simp [isIdChar] at hc
    have h2 : c ≠ ';' := by rintro rfl; simp [isIdChar] at hc
    simp [cls, h1, h2, hc]

theorem Spec.Tok.cls {rep s rest} (h : Tok parseF64 rep s rest) : cls (s ++ rest) = repCls rep := by
  cases h with
  | whitespaces _ _ h =>
    obtain ⟨h1, h2, _⟩ := h
    cases s with
    | nil => exact absurd rfl h1
    | cons c cs => simp [Lexer.cls, (isSpace_iff c).2 (h2 c (by simp)), repCls]
  | commentLine => simp [Lexer.cls, isSpace, repCls]
  | commentEof => simp [Lexer.cls, isSpace, repCls]
  | unsigned _ _ _ h => exact cls_id h
  | signed _ _ _ h => exact cls_id h
  | fp _ _ _ h => exact cls_id h
  | dot _ h => exact cls_id h
  | question _ h => exact cls_id h
  | exclamation _ h => exact cls_id h
  | symbol _ _ h => exact cls_id h
  | string => simp [Lexer.cls, isSpace, isIdChar, repCls]
  | stringEof => simp [Lexer.cls, isSpace, isIdChar, repCls]
  | stringBadEscape => simp [Lexer.cls, isSpace, isIdChar, repCls]
  | char => simp [Lexer.cls, isSpace, isIdChar, repCls]
  | charEof => simp [Lexer.cls, isSpace, isIdChar, repCls]
  | charBadEscape => simp [Lexer.cls, isSpace, isIdChar, repCls]
  | fixed _ _ _ h =>
    simp only [Spec.fixed, List.mem_cons, Prod.mk.injEq, List.not_mem_nil, or_false] at h
    rcases h with ⟨rfl, rfl⟩ | ⟨rfl, rfl⟩ | ⟨rfl, rfl⟩ | ⟨rfl, rfl⟩ | ⟨rfl, rfl⟩ | ⟨rfl, rfl⟩ | ⟨rfl, rfl⟩ | ⟨rfl, rfl⟩ |
      ⟨rfl, rfl⟩ | ⟨rfl, rfl⟩ | ⟨rfl, rfl⟩ | ⟨rfl, rfl⟩ | ⟨rfl, rfl⟩ | ⟨rfl, rfl⟩ | ⟨rfl, rfl⟩ <;>
      simp [Lexer.cls, isSpace, isIdChar, repCls]
  | unknown c _ h1 h2 h3 h4 h5 =>
    rw [← isSpace_iff] at h1
    rw [← isIdChar_iff] at h2
    simp at h3
    simp only [List.singleton_append, Lexer.cls, h1, h2, h3.1, h3.2, if_false, repCls]
    simp
    intro hc hp
    apply h5
    subst hc
    obtain ⟨r, hr⟩ := hp
    exact ⟨r, by simp [← hr]⟩

theorem run_det {P : Char → Prop} {s rest s' rest'} (h : Run P s rest) (h' : Run P s' rest')
    (he : s ++ rest = s' ++ rest') : s = s' ∧ rest = rest' := by
  have h2 := h.2.1
  have h3 := h.2.2
  have h2' := h'.2.1
  have h3' := h'.2.2
  clear h h'
  induction s generalizing s' with
  | nil =>
    cases s' with
    | nil => simpa using he
    | cons c cs => simp at he; exact absurd (h2' c (by simp)) (h3 c (by simp [he]))
  | cons c cs ih =>
    cases s' with
    | nil => simp at he; exact absurd (h2 c (by simp)) (h3' c (by simp [← he]))
    | cons d ds =>
      simp at he
      have := ih he.2 (fun c hc => h2 c (by simp [hc])) (fun c hc => h2' c (by simp [hc]))
      simp [he.1, this]

theorem idRep_unique {rep s rest} (h : Tok parseF64 rep s rest) (hr : repCls rep = 2) :
    Run IdChar s rest ∧ rep = idRep parseF64 s := by
  have none_u : ∀ {s}, (∀ n, ¬ UnsignedLit s n) → parseU64 s = none := by
    intro s h
    cases hp : parseU64 s with
    | none => rfl
    | some n => exact absurd ((parseU64_iff _ _).1 hp) (h n)
  have none_i : ∀ {s}, parseU64 s = none → (∀ n, ¬ NegativeLit s n) → parseI64 s = none := by
    intro s h0 h
    cases hp : parseI64 s with
    | none => rfl
    | some n => exact absurd ((parseI64_iff _ _ h0).1 hp) (h n)
  cases h with
  | unsigned _ _ _ h h1 => exact ⟨h, by simp [idRep, (parseU64_iff _ _).2 h1]⟩
  | signed _ _ _ h h1 =>
    have h0 : parseU64 s = none := by
      apply none_u
      rintro n ⟨d, hs, ⟨hne, hd⟩, _⟩
      obtain ⟨d', hs', _⟩ := h1
      subst hs'
      rcases hs with hs | hs
      · have := hd '-' (by simp [← hs]); exact absurd this (by decide)
      · simp at hs
    exact ⟨h, by simp [idRep, h0, (parseI64_iff _ _ h0).2 h1]⟩
  | fp _ _ _ h h1 h2 h3 =>
    have h0 := none_u h1
    exact ⟨h, by simp [idRep, h0, none_i h0 h2, h3]⟩
  | dot _ h h3 => exact ⟨h, by rw [idRep]; simp [h3, show parseU64 ['.'] = none by decide, show parseI64 ['.'] = none by decide]⟩
  | question _ h h3 => exact ⟨h, by rw [idRep]; simp [h3, show parseU64 ['?'] = none by decide, show parseI64 ['?'] = none by decide]⟩
  | exclamation _ h h3 => exact ⟨h, by rw [idRep]; simp [h3, show parseU64 ['!'] = none by decide, show parseI64 ['!'] = none by decide]⟩
  | symbol _ _ h h1 h2 h3 h4 =>
    have h0 := none_u h1
    simp at h4
    exact ⟨h, by simp [idRep, h0, none_i h0 h2, h3, h4]⟩
  | fixed _ _ _ h =>
    simp only [Spec.fixed, List.mem_cons, Prod.mk.injEq, List.not_mem_nil, or_false] at h
    rcases h with ⟨rfl, rfl⟩ | ⟨rfl, rfl⟩ | ⟨rfl, rfl⟩ | ⟨rfl, rfl⟩ | ⟨rfl, rfl⟩ | ⟨rfl, rfl⟩ | ⟨rfl, rfl⟩ | ⟨rfl, rfl⟩ |
      ⟨rfl, rfl⟩ | ⟨rfl, rfl⟩ | ⟨rfl, rfl⟩ | ⟨rfl, rfl⟩ | ⟨rfl, rfl⟩ | ⟨rfl, rfl⟩ | ⟨rfl, rfl⟩ <;> simp [repCls] at hr
  | _ => simp [repCls] at hr

/-- What can follow the inside of a string literal. -/
def Term (t : List Char) : Prop :=
  t = [] ∨ (∃ r, t = '"' :: r) ∨ (∃ r, t = '\\' :: r ∧ ∀ c, r.head? = some c → c ∉ ['t', 'r', 'n', '"', '\\'])

theorem inside_det {w w' t t'} (h : Inside w) (h' : Inside w') (ht : Term t) (ht' : Term t')
    (he : w ++ t = w' ++ t') : w = w' ∧ t = t' := by
  induction h generalizing w' with
  | nil =>
    cases h' with
    | nil => simpa using he
    | plain c s h1 h2 _ => simp at he; subst he; simp [Term, h1, h2] at ht
    | escaped l s h1 _ => simp at he; subst he; simp [Term] at ht; simp at h1; grind
  | plain c s h1 h2 _ ih =>
    cases h' with
    | nil => simp at he; subst he; simp [Term, h1, h2] at ht'
    | plain d s' h1' h2' h3 => simp at he; have := ih h3 he.2; simp [he.1, this]
    | escaped l s' h1 _ => simp at he; exact absurd he.1 h2
  | escaped l s h1 _ ih =>
    cases h' with
    | nil => simp at he; subst he; simp [Term] at ht'; simp at h1; grind
    | plain d s' h1' h2' h3 => simp at he; exact absurd he.1.symm h2'
    | escaped l' s' h1' h3 => simp at he; have := ih h3 he.2; simp [he.1, this]

theorem string_shape {rep s rest} (h : Tok parseF64 rep s rest) (hr : repCls rep = 3) :
    ∃ w t, Inside w ∧ Term t ∧ s ++ rest = '"' :: w ++ t ∧
      ((∃ r body, t = '"' :: r ∧ s = '"' :: w ++ ['"'] ∧ Str.Denotes w body ∧ rep = .string body) ∨
       (t = [] ∧ s = '"' :: w ∧ rep = .unterminatedString) ∨
       (∃ r, t = '\\' :: r ∧ s = '"' :: w ++ ['\\'] ∧ rep = .unterminatedString)) := by
  cases h with
  | string w body _ h1 h2 => exact ⟨w, '"' :: rest, h1, .inr (.inl ⟨_, rfl⟩), by simp, .inl ⟨_, _, rfl, rfl, h2, rfl⟩⟩
  | stringEof w h1 => exact ⟨w, [], h1, .inl rfl, by simp, .inr (.inl ⟨rfl, rfl, rfl⟩)⟩
  | stringBadEscape w _ h1 h2 => exact ⟨w, '\\' :: rest, h1, .inr (.inr ⟨_, rfl, h2⟩), by simp, .inr (.inr ⟨_, rfl, rfl, rfl⟩)⟩
  | fixed _ _ _ h =>
    simp only [Spec.fixed, List.mem_cons, Prod.mk.injEq, List.not_mem_nil, or_false] at h
    rcases h with ⟨rfl, rfl⟩ | ⟨rfl, rfl⟩ | ⟨rfl, rfl⟩ | ⟨rfl, rfl⟩ | ⟨rfl, rfl⟩ | ⟨rfl, rfl⟩ | ⟨rfl, rfl⟩ | ⟨rfl, rfl⟩ |
      ⟨rfl, rfl⟩ | ⟨rfl, rfl⟩ | ⟨rfl, rfl⟩ | ⟨rfl, rfl⟩ | ⟨rfl, rfl⟩ | ⟨rfl, rfl⟩ | ⟨rfl, rfl⟩ <;> simp [repCls] at hr
  | _ => simp [repCls] at hr

theorem comment_shape {rep s rest} (h : Tok parseF64 rep s rest) (hr : repCls rep = 1) :
    rep = .lineComment ∧ ∃ body, '\n' ∉ body ∧ (s = ';' :: body ++ ['\n'] ∨ (s = ';' :: body ∧ rest = [])) := by
  cases h with
  | commentLine body _ h => exact ⟨rfl, body, h, .inl rfl⟩
  | commentEof body h => exact ⟨rfl, body, h, .inr ⟨rfl, rfl⟩⟩
  | fixed _ _ _ h =>
    simp only [Spec.fixed, List.mem_cons, Prod.mk.injEq, List.not_mem_nil, or_false] at h
    rcases h with ⟨rfl, rfl⟩ | ⟨rfl, rfl⟩ | ⟨rfl, rfl⟩ | ⟨rfl, rfl⟩ | ⟨rfl, rfl⟩ | ⟨rfl, rfl⟩ | ⟨rfl, rfl⟩ | ⟨rfl, rfl⟩ |
      ⟨rfl, rfl⟩ | ⟨rfl, rfl⟩ | ⟨rfl, rfl⟩ | ⟨rfl, rfl⟩ | ⟨rfl, rfl⟩ | ⟨rfl, rfl⟩ | ⟨rfl, rfl⟩ <;> simp [repCls] at hr
  | _ => simp [repCls] at hr

theorem space_shape {rep s rest} (h : Tok parseF64 rep s rest) (hr : repCls rep = 0) :
    rep = .whitespaces ∧ Run Space s rest := by
  cases h with
  | whitespaces _ _ h => exact ⟨rfl, h⟩
  | fixed _ _ _ h =>
    simp only [Spec.fixed, List.mem_cons, Prod.mk.injEq, List.not_mem_nil, or_false] at h
    rcases h with ⟨rfl, rfl⟩ | ⟨rfl, rfl⟩ | ⟨rfl, rfl⟩ | ⟨rfl, rfl⟩ | ⟨rfl, rfl⟩ | ⟨rfl, rfl⟩ | ⟨rfl, rfl⟩ | ⟨rfl, rfl⟩ |
      ⟨rfl, rfl⟩ | ⟨rfl, rfl⟩ | ⟨rfl, rfl⟩ | ⟨rfl, rfl⟩ | ⟨rfl, rfl⟩ | ⟨rfl, rfl⟩ | ⟨rfl, rfl⟩ <;> simp [repCls] at hr
  | _ => simp [repCls] at hr

theorem denotes_one {w c} (h : Str.Denotes w [c]) :
    (w = [c] ∧ c ≠ '\\') ∨ ∃ l, w = ['\\', l] ∧ Str.unescapeChar l = some c := by
  cases h with
  | plain _ t _ h1 h2 => cases h2; exact .inl ⟨rfl, h1⟩
  | escaped l _ t _ h1 h2 => cases h2; exact .inr ⟨l, rfl, (Str.unescapeChar_iff _ _).2 h1⟩

theorem char_shape {rep s rest} (h : Tok parseF64 rep s rest) (hr : repCls rep = 4) :
    ∃ t, s ++ rest = '#' :: '\\' :: t ∧
    ((∃ c, t = c :: rest ∧ c ≠ '\\' ∧ s = ['#', '\\', c] ∧ rep = .char c) ∨
     (∃ l c, t = '\\' :: l :: rest ∧ Str.unescapeChar l = some c ∧ s = ['#', '\\', '\\', l] ∧ rep = .char c) ∨
     (t = [] ∧ s = ['#', '\\'] ∧ rep = .unterminatedChar) ∨
     (t = '\\' :: rest ∧ (∀ l, rest.head? = some l → Str.unescapeChar l = none) ∧ s = ['#', '\\', '\\'] ∧ rep = .unterminatedChar)) := by
  cases h with
  | char w c _ h =>
    rcases denotes_one h with ⟨rfl, h1⟩ | ⟨l, rfl, h1⟩
    · exact ⟨c :: rest, rfl, .inl ⟨c, rfl, h1, rfl, rfl⟩⟩
    · exact ⟨_, rfl, .inr (.inl ⟨l, c, rfl, h1, rfl, rfl⟩)⟩
  | charEof => exact ⟨[], rfl, .inr (.inr (.inl ⟨rfl, rfl, rfl⟩))⟩
  | charBadEscape _ h =>
    refine ⟨_, rfl, .inr (.inr (.inr ⟨rfl, ?_, rfl, rfl⟩))⟩
    intro l hl
    have := h l hl
    rw [← unescapable_iff] at this
    simpa using this
  | fixed _ _ _ h =>
    simp only [Spec.fixed, List.mem_cons, Prod.mk.injEq, List.not_mem_nil, or_false] at h
    rcases h with ⟨rfl, rfl⟩ | ⟨rfl, rfl⟩ | ⟨rfl, rfl⟩ | ⟨rfl, rfl⟩ | ⟨rfl, rfl⟩ | ⟨rfl, rfl⟩ | ⟨rfl, rfl⟩ | ⟨rfl, rfl⟩ |
      ⟨rfl, rfl⟩ | ⟨rfl, rfl⟩ | ⟨rfl, rfl⟩ | ⟨rfl, rfl⟩ | ⟨rfl, rfl⟩ | ⟨rfl, rfl⟩ | ⟨rfl, rfl⟩ <;> simp [repCls] at hr
  | _ => simp [repCls] at hr

theorem punct_shape {rep s rest} (h : Tok parseF64 rep s rest) (hr : repCls rep = 5) :
    ((s, rep) ∈ fixed (F := F) ∧ (s = [','] → rest.head? ≠ some '@')) ∨
    (∃ c, s = [c] ∧ rep = .unknownCharacter ∧ ∀ t ∈ (fixed (F := F)).map Prod.fst, ¬ t <+: c :: rest) := by
  cases h with
  | fixed _ _ _ h h2 => exact .inl ⟨h, h2⟩
  | unknown c _ h1 h2 h3 h4 h5 => exact .inr ⟨c, rfl, rfl, h4⟩
  | _ => simp [repCls] at hr

theorem fixed_det {s s' : List Char} {rep rep' : TokenRep F} {rest rest'} (h : (s, rep) ∈ fixed (F := F))
    (h' : (s', rep') ∈ fixed (F := F)) (hc : s = [','] → rest.head? ≠ some '@')
    (hc' : s' = [','] → rest'.head? ≠ some '@') (he : s ++ rest = s' ++ rest') : s = s' ∧ rep = rep' := by
  simp only [Spec.fixed, List.mem_cons, Prod.mk.injEq, List.not_mem_nil, or_false] at h h'
  rcases h with ⟨rfl, rfl⟩ | ⟨rfl, rfl⟩ | ⟨rfl, rfl⟩ | ⟨rfl, rfl⟩ | ⟨rfl, rfl⟩ | ⟨rfl, rfl⟩ | ⟨rfl, rfl⟩ | ⟨rfl, rfl⟩ |
      ⟨rfl, rfl⟩ | ⟨rfl, rfl⟩ | ⟨rfl, rfl⟩ | ⟨rfl, rfl⟩ | ⟨rfl, rfl⟩ | ⟨rfl, rfl⟩ | ⟨rfl, rfl⟩ <;>
  rcases h' with ⟨rfl, rfl⟩ | ⟨rfl, rfl⟩ | ⟨rfl, rfl⟩ | ⟨rfl, rfl⟩ | ⟨rfl, rfl⟩ | ⟨rfl, rfl⟩ | ⟨rfl, rfl⟩ | ⟨rfl, rfl⟩ |
      ⟨rfl, rfl⟩ | ⟨rfl, rfl⟩ | ⟨rfl, rfl⟩ | ⟨rfl, rfl⟩ | ⟨rfl, rfl⟩ | ⟨rfl, rfl⟩ | ⟨rfl, rfl⟩ <;>
  first | (simp_all; done) | (simp at he; subst he; simp at hc hc') | (simp at he; simp [he] at hc hc')

/-- The next token and its text are determined by the remaining text. -/
theorem Spec.Tok.det {rep s rest rep' s' rest'} (h : Tok parseF64 rep s rest) (h' : Tok parseF64 rep' s' rest')
    (he : s ++ rest = s' ++ rest') : rep = rep' ∧ s = s' ∧ rest = rest' := by
  have hk : repCls rep = repCls rep' := by rw [← h.cls, ← h'.cls, he]
  have fin : rep = rep' ∧ s = s' → rep = rep' ∧ s = s' ∧ rest = rest' := by
    rintro ⟨h1, rfl⟩; simpa [h1] using he
  have hle : repCls rep ≤ 5 := by cases rep <;> simp [repCls]
  match hc : repCls rep, hle with
  | 0, _ =>
    obtain ⟨h1, h2⟩ := space_shape h hc
    obtain ⟨h1', h2'⟩ := space_shape h' (by omega)
    exact fin ⟨by rw [h1, h1'], (run_det h2 h2' he).1⟩
  | 1, _ =>
    obtain ⟨h1, b, hb, h2⟩ := comment_shape h hc
    obtain ⟨h1', b', hb', h2'⟩ := comment_shape h' (by omega)
    refine fin ⟨by rw [h1, h1'], ?_⟩
    have key : ∀ (b b' r r' : List Char), '\n' ∉ b → '\n' ∉ b' → b ++ '\n' :: r = b' ++ '\n' :: r' → b = b' := by
      intro b
      induction b with
      | nil => intro b' r r' _ h2 h3; cases b' with
        | nil => rfl
        | cons x xs => simp at h3; simp [← h3.1] at h2
      | cons y ys ih => intro b' r r' h1 h2 h3; cases b' with
        | nil => simp at h3; simp [h3.1] at h1
        | cons x xs => simp at h3 h1 h2; rw [h3.1, ih xs r r' h1.2 h2.2 h3.2]
    rcases h2 with rfl | ⟨rfl, rfl⟩ <;> rcases h2' with rfl | ⟨rfl, rfl⟩
    · rw [key b b' rest rest' hb hb' (by simpa using he)]
    · simp at he; exact absurd (by rw [← he]; simp) hb'
    · simp at he; exact absurd (by rw [he]; simp) hb
    · simpa using he
  | 2, _ =>
    obtain ⟨h1, h2⟩ := idRep_unique h hc
    obtain ⟨h1', h2'⟩ := idRep_unique h' (by omega)
    have := (run_det h1 h1' he).1
    exact fin ⟨by rw [h2, h2', this], this⟩
  | 3, _ =>
    obtain ⟨w, t, h1, h2, h3, h4⟩ := string_shape h hc
    obtain ⟨w', t', h1', h2', h3', h4'⟩ := string_shape h' (by omega)
    have hwt := inside_det h1 h1' h2 h2' (by rw [h3, h3'] at he; simpa using he)
    obtain ⟨rfl, rfl⟩ := hwt
    apply fin
    rcases h4 with ⟨r, b, rfl, rfl, hd, rfl⟩ | ⟨rfl, rfl, rfl⟩ | ⟨r, rfl, rfl, rfl⟩ <;>
    rcases h4' with ⟨r', b', hr', rfl, hd', rfl⟩ | ⟨hr', rfl, rfl⟩ | ⟨r', hr', rfl, rfl⟩ <;> simp at hr' ⊢
    exact Str.denotes_functional _ _ _ hd hd'
  | 4, _ =>
    obtain ⟨t, h1, h2⟩ := char_shape h hc
    obtain ⟨t', h1', h2'⟩ := char_shape h' (by omega)
    rw [h1, h1'] at he
    simp at he
    subst he
    apply fin
    rcases h2 with ⟨c, rfl, h2, rfl, rfl⟩ | ⟨l, c, rfl, h2, rfl, rfl⟩ | ⟨rfl, rfl, rfl⟩ | ⟨rfl, h2, rfl, rfl⟩ <;>
    rcases h2' with ⟨c', h3', h2', rfl, rfl⟩ | ⟨l', c', h3', h2', rfl, rfl⟩ | ⟨h3', rfl, rfl⟩ | ⟨h3', h2', rfl, rfl⟩ <;>
    simp at h3' ⊢ <;> grind
  | 5, _ =>
    apply fin
    rcases punct_shape h hc with ⟨h1, h2⟩ | ⟨c, rfl, rfl, h2⟩ <;>
    rcases punct_shape h' (by omega) with ⟨h1', h2'⟩ | ⟨c', rfl, rfl, h2'⟩
    · have := fixed_det h1 h1' h2 h2' he; simp [this]
    · exact absurd ⟨rest, by simpa using he⟩ (h2' s (List.mem_map.2 ⟨_, h1, rfl⟩))
    · exact absurd ⟨rest', by simpa using he.symm⟩ (h2 s' (List.mem_map.2 ⟨_, h1', rfl⟩))
    · simp at he; simp [he.1]

theorem Spec.Tokenizes.det {pre text ts ts'} (h : Tokenizes parseF64 pre text ts)
    (h' : Tokenizes parseF64 pre text ts') : ts = ts' := by
  induction h generalizing ts' with
  | nil =>
    generalize hx : ([] : List Char) = x at h'
    cases h' with
    | nil => rfl
    | cons _ s rest rep ts hs => simp at hx; exact absurd hx.1 hs
  | cons pre s rest rep ts hs ht _ ih =>
    generalize hx : s ++ rest = x at h'
    cases h' with
    | nil => simp at hx; exact absurd hx.1 hs
    | cons _ s' rest' rep' ts' hs' ht' h' =>
      obtain ⟨rfl, rfl, rfl⟩ := ht.det ht' hx
      rw [ih h']

end Verif.Lexer
