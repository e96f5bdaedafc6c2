import Verif.Parser.Print
import Verif.Parser.Progress

/-! # C44, C45, C59: the parser ends, accepts exactly the grammar, and reads back what is printed -/
namespace Verif.Parser
open Verif.Lexer (TokenRep Token lex)

variable {F : Type}

/-! ## C45: termination -/

/-- C45, partial: for every sequence of tokens without the token `Eof` (the lexer never makes one, `parse_lexed`), parsing ends within the fuel
given, without panic; the outcome does not depend on the fuel; the tokens left are a suffix of those given; and a result comes only when every token
was read.  Missing: sequences with an `Eof` token, for which parsing does not end (`parse_eof_diverges`). -/
theorem parse_terminates_partial (ts : List (Tok F)) (hn : Tok.eof ∉ ts) :
    ∃ r errs left, left <:+ ts ∧ ((∃ ss, r = .ok ss) → left = []) ∧
      ∀ fuel, 3 * ts.length + 2 ≤ fuel → parse fuel ts = some (r, errs, left) := by
  obtain ⟨r, s', h, hs, hr⟩ := sexps_ends ts hn _ (Nat.le_refl _)
  exact ⟨r, s'.errs, s'.toks, hs, hr, fun fuel hf => parse_mono hf (by rw [parse, h]; rfl)⟩

/-- C45: what the lexer makes is always parsed to an end. -/
theorem parse_lexed (parseF64 : List Char → Option F) (text : List Char) (toks : List (Token F)) (_ : lex parseF64 text = some toks) :
    ∃ r errs left, left <:+ toks.map (fun t => Tok.lexed t.rep) ∧ ((∃ ss, r = .ok ss) → left = []) ∧
      ∀ fuel, 3 * toks.length + 2 ≤ fuel → parse fuel (toks.map (fun t => Tok.lexed t.rep)) = some (r, errs, left) := by
  have := parse_terminates_partial (toks.map (fun t => Tok.lexed t.rep)) (by simp)
  simpa using this

/-- C45, refuted for a sequence with an `Eof` token: parsing does not end, whatever the fuel. -/
theorem parse_eof_diverges (fuel : Nat) (ts : List (Tok F)) : parse fuel (.eof :: ts) = none := by
  rw [parse, sexps, bind_of (capture_eq _), clean_cons rfl, bind_eq, seq_eof]; rfl

theorem dropped_iff (t : Tok F) : Spec.Dropped t ↔ t.isAmbient = true ∨ followsSexp t = false := by
  cases t with
  | eof => simp [Spec.Dropped, Spec.Ambient, Tok.isAmbient, followsSexp, Tok.isError]
  | lexed r => cases r <;> simp [Spec.Dropped, Spec.Ambient, Tok.isAmbient, followsSexp, Tok.isError]

/-- C45: after an error exactly the tokens up to the first one that is not to be dropped are dropped, so that a closing bracket or the next
S-expression is never lost; the error is told once. -/
theorem recovery_stops {α} (p : P F α) (s s' : St F) (e : Err F) (h : p s = some (.error e, s')) :
    ∃ dropped left, s'.toks = dropped ++ left ∧ (∀ t ∈ dropped, Spec.Dropped t) ∧ (∀ t ∈ left.head?, ¬ Spec.Dropped t) ∧
      swallow p s = some (.ok none, ⟨left, s'.errs ++ [e]⟩) := by
  have key : ∀ ts : List (Tok F), ∃ dropped, ts = dropped ++ recover ts ∧ (∀ t ∈ dropped, Spec.Dropped t) ∧ ∀ t ∈ (recover ts).head?, ¬ Spec.Dropped t := by
    intro ts
    induction ts with
    | nil => exact ⟨[], by simp [recover]⟩
    | cons t ts ih =>
      obtain ⟨d, h1, h2, h3⟩ := ih
      rw [recover]
      split
      · rename_i ha
        exact ⟨t :: d, by rw [List.cons_append, ← h1], by simpa [dropped_iff, ha] using h2, h3⟩
      · rename_i ha
        split
        · rename_i hf
          refine ⟨[], rfl, by simp, ?_⟩
          intro u hu
          simp only [List.head?_cons, Option.mem_def, Option.some.injEq] at hu
          subst hu
          rw [dropped_iff]
          simp [ha, hf]
        · rename_i hf
          refine ⟨t :: d, by rw [List.cons_append, ← h1], ?_, h3⟩
          intro u hu
          rcases List.mem_cons.1 hu with rfl | hu
          · rw [dropped_iff]; simp [hf]
          · exact h2 u hu
  obtain ⟨d, h1, h2, h3⟩ := key s'.toks
  exact ⟨d, _, h1, h2, h3, by simp [swallow, h]⟩

set_option linter.unusedSimpArgs false in
/-- An unknown character: an error is told and what is after it is still read. -/
example : parse (F := Unit) 4 [.lexed .unknownCharacter, .lexed .whitespaces, .lexed .true] =
    some (.ok [.bool true], [⟨.lexed .unknownCharacter, "S-expression"⟩], []) := by
  simp [parse, sexps, bind_eq, capture_eq, pure_eq, seq_succ, sexp_succ, dispatch, post_succ, swallow, recover, clean, Tok.isAmbient, leadsSexp, eof,
    peek, followsSexp, Tok.isError]

set_option linter.unusedSimpArgs false in
/-- A bracket that closes nothing: parsing stops with an error and tokens are left. -/
example : parse (F := Unit) 2 [.lexed .rParen, .lexed .true] = some (.error ⟨.lexed .rParen, "eof"⟩, [], [.lexed .rParen, .lexed .true]) := by
  simp [parse, sexps, bind_eq, capture_eq, seq_succ, clean, Tok.isAmbient, leadsSexp, eof, peek, expected]

/-! ## C59: the language accepted -/

/-- C59: parsing gives a result and no error exactly when the tokens, apart from whitespace and comments, are derived in the grammar; then the
result is what they are derived for, and every token was read. -/
theorem parse_iff_grammar (ts us : List (Tok F)) (hs : Spec.Strip ts us) (ss : List (Sexp F)) :
    (∃ fuel left, parse fuel ts = some (.ok ss, [], left)) ↔ Spec.Ss us ss := by
  constructor
  · rintro ⟨fuel, left, h⟩; exact (sound_sexps hs h).1
  · intro h
    obtain ⟨f, hf⟩ := complete_sexps hs h
    exact ⟨f, [], hf f (Nat.le_refl _)⟩

/-- C59: the grammar is unambiguous. -/
theorem grammar_unambiguous (us : List (Tok F)) (ss ss' : List (Sexp F)) (ha : ∀ t ∈ us, ¬ Spec.Ambient t)
    (h : Spec.Ss us ss) (h' : Spec.Ss us ss') : ss = ss' := by
  have hs : Spec.Strip us us := by
    induction us with
    | nil => exact .nil
    | cons t us ih =>
      clear h h' ih
      rw [strip_iff]
      exact (List.filter_eq_self.2 (fun t ht => by
        have := ha t ht; rw [ambient_iff] at this; simpa using this)).symm
  obtain ⟨f, hf⟩ := complete_sexps hs h
  obtain ⟨f', hf'⟩ := complete_sexps hs h'
  have h1 := hf (f + f') (by omega)
  rw [hf' (f + f') (by omega)] at h1
  simp only [Option.some.injEq, Prod.mk.injEq, Except.ok.injEq] at h1
  exact h1.1.symm

/-- `aggregate_errors` gives the result exactly when there was a result and no error. -/
theorem aggregate_ok_iff {α} (r : Except (Err F) α) (errs : List (Err F)) (a : α) : aggregate r errs = .ok a ↔ r = .ok a ∧ errs = [] := by
  rcases r with e | b <;> rcases errs with _ | ⟨e', errs⟩ <;> simp [aggregate]

/-- `'(f . x)? {T}`: the mark is outside the postfix forms, and whitespace does not matter. -/
example : ∃ fuel left, parse (F := Unit) fuel [.lexed .quote, .lexed .lParen, .lexed (.symbol ['f']), .lexed .whitespaces, .lexed .dot,
    .lexed (.symbol ['x']), .lexed .rParen, .lexed .question, .lexed .lBrace, .lexed (.symbol ['T']), .lexed .rBrace] =
    some (.ok [Spec.form "quote" [Spec.form "annotate" [Spec.form "try?" [.listLike (.symbol ['f']) [] (.symbol ['x'])], .symbol ['T']]]], [], left) := by
  refine (parse_iff_grammar _ _ ((strip_iff _ _).2 rfl) _).2 ?_
  have sym : ∀ s, Spec.S (F := Unit) [.lexed (.symbol s)] (.symbol s) := fun s => .term _ _ (.atom _ _ (.symbol s))
  have one : ∀ s, Spec.Ss (F := Unit) [.lexed (.symbol s)] [.symbol s] := fun s => .cons _ _ _ _ (sym s) .nil
  exact .cons _ _ [] _ (.marked _ _ _ _ .quote (.term _ _ (.annotate [_, _, _, _, _, _] _ [_] _ (.question [_, _, _, _, _] _
    (.list _ _ [_, _, _] _ .paren (.dotted [_] _ [_] _ (one ['f']) (sym ['x'])))) (one ['T'])))) .nil

/-! ## C44: printing then parsing -/

/-- The text is read as the S-expressions `ss`, without error. -/
def ReadsAs (parseF64 : List Char → Option F) (text : List Char) (ss : List (Sexp F)) : Prop :=
  ∃ toks, lex parseF64 text = some toks ∧
    ∀ fuel, 3 * toks.length + 2 ≤ fuel → parse fuel (toks.map (fun t => Tok.lexed t.rep)) = some (.ok ss, [], [])

theorem ReadsAs.functional {parseF64 : List Char → Option F} {text ss ss'} (h : ReadsAs parseF64 text ss) (h' : ReadsAs parseF64 text ss') :
    ss = ss' := by
  obtain ⟨t, ht, hf⟩ := h
  obtain ⟨t', ht', hf'⟩ := h'
  rw [ht] at ht'
  cases ht'
  have h1 := hf _ (Nat.le_refl _)
  rw [hf' _ (Nat.le_refl _)] at h1
  simp only [Option.some.injEq, Prod.mk.injEq, Except.ok.injEq] at h1
  exact h1.1.symm

theorem readsAs_of {parseF64 : List Char → Option F} {text : List Char} {reps ss} (hl : Lx parseF64 text reps []) (hS : Spec.Ss (strip reps) ss) :
    ReadsAs parseF64 text ss := by
  obtain ⟨toks, ht, hr⟩ := hl.tokenizes []
  refine ⟨toks, (Lexer.lex_iff parseF64 text toks).2 ht, ?_⟩
  have hmap : toks.map (fun t => Tok.lexed t.rep) = reps.map Tok.lexed := by rw [← hr, List.map_map]; rfl
  have hlen : toks.length = (toks.map (fun t => Tok.lexed t.rep)).length := by simp
  rw [hlen, hmap]
  obtain ⟨f, hf⟩ := complete_sexps (ts := reps.map Tok.lexed) ((strip_iff _ _).2 rfl) hS
  obtain ⟨r, errs, left, -, -, hp⟩ := parse_terminates_partial (reps.map Tok.lexed) (by simp)
  intro fuel hfuel
  have h1 := hp (fuel + f) (by omega)
  rw [hf (fuel + f) (by omega)] at h1
  rw [hp fuel hfuel, ← h1]

variable {parseF64 : List Char → Option F} {printF64 : F → List Char}

/-- C44, partial: a faithful S-expression is read back from its printed text, whatever its size and nesting.  Missing: the S-expressions that are not
faithful; the theorems below show for each kind of them that printing loses what they are. -/
theorem print_parse_partial (hP : Punct parseF64) (x : Sexp F) (hx : Spec.Faithful parseF64 printF64 x) :
    ReadsAs parseF64 (x.text printF64) [x] := by
  obtain ⟨-, reps, hS, -, hL, -⟩ := faithful_good hP hx
  refine readsAs_of (hL [] (by intro c h; simp at h)) ?_
  have := Spec.Ss.cons _ _ _ _ hS .nil
  rwa [List.append_nil] at this

/-- C44, partial: the same for sequences of S-expressions, printed on lines of their own. -/
theorem print_parse_all_partial (hP : Punct parseF64) (xs : List (Sexp F)) (hx : ∀ x ∈ xs, Spec.Faithful parseF64 printF64 x) :
    ReadsAs parseF64 (ssText printF64 xs) xs := by
  have htail : ∀ xs : List (Sexp F), (∀ x ∈ xs, Spec.Faithful parseF64 printF64 x) →
      ∃ reps, Spec.Ss (strip reps) xs ∧ Lx parseF64 ((Sexp.texts printF64 xs).flatMap ('\n' :: ·)) reps [] ∧
        NonId ((Sexp.texts printF64 xs).flatMap ('\n' :: ·)) := by
    intro xs
    induction xs with
    | nil => intro _; exact ⟨[], .nil, .nil [], by intro c h; simp [Sexp.texts] at h⟩
    | cons x xs ih =>
      intro hx
      obtain ⟨reps, hS, hL, hN⟩ := ih (fun y hy => hx y (by simp [hy]))
      obtain ⟨hh, r, hS', -, hL', -⟩ := faithful_good hP (hx x (by simp))
      refine ⟨[.whitespaces] ++ (r ++ reps), ?_, ?_, ?_⟩
      · rw [strip_append, strip_append, strip_space, List.nil_append]; exact .cons _ _ _ _ hS' hS
      · have : (Sexp.texts printF64 (x :: xs)).flatMap ('\n' :: ·) = ['\n'] ++ (x.text printF64 ++ (Sexp.texts printF64 xs).flatMap ('\n' :: ·)) := by
          simp [Sexp.texts]
        rw [this]
        refine Lx.append ?_ (Lx.append (hL' _ (by rw [List.append_nil]; exact hN)) hL)
        rw [List.append_assoc]; exact lx_newline hh
      · exact NonId.of_cons (by decide)
  cases xs with
  | nil =>
    have : ssText printF64 ([] : List (Sexp F)) = [] := by simp only [ssText, Sexp.texts]
    rw [this]
    exact readsAs_of (.nil []) .nil
  | cons x xs =>
    have : ssText printF64 (x :: xs) = x.text printF64 ++ (Sexp.texts printF64 xs).flatMap ('\n' :: ·) := by simp only [ssText, Sexp.texts]
    rw [this]
    obtain ⟨reps, hS, hL, hN⟩ := htail xs (fun y hy => hx y (by simp [hy]))
    obtain ⟨hh, r, hS', -, hL', -⟩ := faithful_good hP (hx x (by simp))
    refine readsAs_of (reps := r ++ reps) (Lx.append (hL' _ (by rw [List.append_nil]; exact hN)) hL) ?_
    rw [strip_append]; exact .cons _ _ _ _ hS' hS

/-- C44, refuted: a signed integer that is not negative is read back as an unsigned one. -/
theorem signed_lost (hP : Punct parseF64) (n : Nat) (hn : n < 2 ^ 63) :
    ReadsAs parseF64 ((Sexp.integer true n).text printF64) [.integer false n] := by
  have h := print_parse_partial (printF64 := printF64) hP _ (.unsigned n (by omega))
  have : (Sexp.integer true n).text printF64 = (Sexp.integer false n).text printF64 := by
    simp only [Sexp.text, signedText, if_pos hn]
  rw [this]; exact h

/-- C44, refuted: a symbol made of digits is read back as an integer. -/
theorem digits_symbol_lost (hP : Punct parseF64) (n : Nat) (hn : n < 2 ^ 64) :
    ReadsAs parseF64 ((Sexp.symbol (digits n)).text printF64) [.integer false n] :=
  print_parse_partial (printF64 := printF64) hP _ (.unsigned n hn)

/-- C44, refuted: a float printed as digits only is read back as an integer. -/
theorem digits_float_lost (hP : Punct parseF64) (f : F) (n : Nat) (hn : n < 2 ^ 64) (hf : printF64 f = digits n) :
    ReadsAs parseF64 ((Sexp.fpNumber f).text printF64) [.integer false n] := by
  have h := print_parse_partial (printF64 := printF64) hP _ (.unsigned n hn)
  have : (Sexp.fpNumber f).text printF64 = (Sexp.integer false n).text printF64 := hf
  rw [this]; exact h

/-- C44, refuted: an annotation of a marked form is read back as a marked annotation. -/
theorem marked_annotate_lost (hP : Punct parseF64) (x y : Sexp F)
    (h : Spec.Faithful parseF64 printF64 (Spec.form "quote" [Spec.form "annotate" [x, y]])) :
    ReadsAs parseF64 ((Spec.form "annotate" [Spec.form "quote" [x], y]).text printF64) [Spec.form "quote" [Spec.form "annotate" [x, y]]] := by
  have := print_parse_partial hP _ h
  have ht : (Spec.form "annotate" [Spec.form "quote" [x], y]).text printF64 = (Spec.form "quote" [Spec.form "annotate" [x, y]]).text printF64 := by
    refine (text_ANNOTATE printF64 (.list [.symbol QUOTE, x]) [y]).trans ?_
    refine Eq.trans ?_ (text_QUOTE printF64 (.list [.symbol ANNOTATE, x, y])).symm
    rw [text_QUOTE, text_ANNOTATE]; rfl
  rw [ht]; exact this

/-- C44, refuted: a `?` after a marked list is read back inside the mark. -/
theorem marked_try_lost (hP : Punct parseF64) (l : List (Sexp F))
    (h : Spec.Faithful parseF64 printF64 (Spec.form "quote" [Spec.form "try?" [.list l]])) :
    ReadsAs parseF64 ((Spec.form "try?" [Spec.form "quote" [.list l]]).text printF64) [Spec.form "quote" [Spec.form "try?" [.list l]]] := by
  have := print_parse_partial hP _ h
  have ht : (Spec.form "try?" [Spec.form "quote" [.list l]]).text printF64 = (Spec.form "quote" [Spec.form "try?" [.list l]]).text printF64 := by
    refine (text_TRY_QUESTION printF64 [.symbol QUOTE, .list l]).trans ?_
    refine Eq.trans ?_ (text_QUOTE printF64 (.list [.symbol TRY_QUESTION, .list l])).symm
    rw [text_QUOTE, text_TRY_QUESTION]; rfl
  rw [ht]; exact this

/-- C44, refuted: a dotted list that ends in a list is read back as one list. -/
theorem dotted_list_lost (hP : Punct parseF64) (h : Sexp F) (i ls : List (Sexp F)) (hh : Spec.Faithful parseF64 printF64 h)
    (hi : ∀ x ∈ i, Spec.Faithful parseF64 printF64 x) (hl : Spec.Faithful parseF64 printF64 (.list ls)) :
    ReadsAs parseF64 ((Sexp.listLike h i (.list ls)).text printF64) [.list (h :: i ++ ls)] := by
  obtain ⟨reps, hT, hL⟩ := dotted_tokens hP.1 (faithful_good hP hh) (fun x hx => faithful_good hP (hi x hx)) (faithful_good hP hl)
  rw [foldr_cons_list] at hT
  refine readsAs_of (hL []) ?_
  have := Spec.Ss.cons _ _ _ _ (.term _ _ hT) .nil
  rwa [List.append_nil] at this

/-- C44, refuted: a `!` after a `?` is read back, with it, as a symbol of its own. -/
theorem glued_try_lost (hP : Punct parseF64) (l : List (Sexp F)) (hl : Spec.Faithful parseF64 printF64 (.list l))
    (hm : ¬ Spec.Marked (.list l) ∧ ¬ Spec.Tried (.list l)) (hs : Spec.SymbolText parseF64 ['?', '!']) :
    ReadsAs parseF64 ((Spec.form "try!" [Spec.form "try?" [.list l]]).text printF64) [.list l, .symbol ['?', '!']] := by
  have ht : (Spec.form "try!" [Spec.form "try?" [.list l]]).text printF64 = (Sexp.list l).text printF64 ++ ['?', '!'] := by
    refine (text_TRY_EXCLAMATION printF64 [.symbol TRY_QUESTION, .list l]).trans ?_
    rw [text_TRY_QUESTION, List.append_assoc]; rfl
  obtain ⟨-, reps, hS, -, -, hL⟩ := faithful_good hP hl
  obtain ⟨s1, s2, s3, s4, s5, s6⟩ := hs
  rw [ht]
  refine readsAs_of (reps := reps ++ [.symbol ['?', '!']])
    (Lx.append (hL ⟨⟨l, rfl⟩, hm⟩ _) (Lx.one (by simp) (.symbol _ _ ⟨s1, s2, by intro c h; simp at h⟩ s3 s4 s5 s6))) ?_
  rw [strip_append, strip_one rfl]
  exact .cons _ _ _ _ hS (.cons _ _ [] _ (.term _ _ (.atom _ _ (.symbol _))) .nil)

theorem readsAs_atom {text : List Char} {x : Sexp F} (h : ReadsAs parseF64 text [x]) (ha : IsAtom x) :
    ∃ rep s rest, Spec.Atom (.lexed rep) x ∧ Lexer.Spec.Tok parseF64 rep s rest := by
  obtain ⟨toks, hl, hf⟩ := h
  have hS := (sound_sexps ((strip_iff _ _).2 rfl) (hf _ (Nat.le_refl _))).1
  generalize hu : (toks.map (fun t => Tok.lexed t.rep)).filter (fun t => !t.isAmbient) = u at hS
  cases hS with
  | cons v _ w _ hS _ =>
    obtain ⟨t, ht, hat⟩ := S_atom hS ha
    have hm : t ∈ toks.map (fun t => Tok.lexed t.rep) := by
      have : t ∈ v ++ w := by simp [ht]
      rw [← hu] at this
      exact (List.mem_filter.1 this).1
    obtain ⟨tok, htok, rfl⟩ := List.mem_map.1 hm
    obtain ⟨s, rest, h⟩ := tokenizes_tok ((Lexer.lex_iff parseF64 text toks).1 hl) tok htok
    exact ⟨tok.rep, s, rest, hat, h⟩

/-- C44: only a symbol whose text is read as a symbol can be read back, from any text at all. -/
theorem symbol_only (text s : List Char) (h : ReadsAs parseF64 text [.symbol s]) : Spec.SymbolText parseF64 s := by
  obtain ⟨rep, s', rest, ha, ht⟩ := readsAs_atom h ⟨by simp, by simp⟩
  cases ha
  cases ht with
  | symbol _ _ h1 h2 h3 h4 h5 => exact ⟨h1.1, h1.2.1, h2, h3, h4, h5⟩
  | fixed _ _ _ h => simp [Lexer.Spec.fixed] at h

/-- C44, refuted: a native value is read back from no text. -/
theorem native_lost (text t : List Char) : ¬ ReadsAs parseF64 text [.native t] := by
  intro h
  obtain ⟨rep, s', rest, ha, -⟩ := readsAs_atom h ⟨by simp, by simp⟩
  cases ha

/-! A printed and read S-expression: `(if '(f -7 "a\"b")? {T} (x . #\c))`, with floats that do not exist. -/

def demoF : List Char → Option Unit := fun _ => none
def demoP : Unit → List Char := fun _ => []

def demo : Sexp Unit :=
  .list [.symbol ['i', 'f'], Spec.form "annotate" [Spec.form "try?" [.list [.symbol ['f'], .integer true (2 ^ 64 - 7), .string ['a', '"', 'b']]], .symbol ['T']],
    .listLike (.symbol ['x']) [.bool true] (.char 'c')]

example : demo.text demoP = "(if (f -7 \"a\\\"b\")? {T} (x #t . #\\c))".toList := by decide +kernel

theorem demo_symbol (s : List Char) (h0 : s ≠ []) (h : ∀ c ∈ s, 'a' ≤ c ∧ c ≤ 'z' ∨ c = 'T' ∨ c = '?') (h1 : s ≠ ['?']) : Spec.SymbolText demoF s := by
  have hd : ∀ d : List Char, Lexer.Spec.Digits d → s = d ∨ s = '+' :: d ∨ s = '-' :: d → False := by
    intro d hd hs
    have key : ∀ c ∈ s, ¬ ('0' ≤ c ∧ c ≤ '9') ∧ c ≠ '+' ∧ c ≠ '-' := by
      intro c hc
      rcases h c hc with ⟨ha, hb⟩ | rfl | rfl
      · refine ⟨fun h' => ?_, ?_, ?_⟩
        · have : ('a' : Char) ≤ '9' := Char.le_trans ha h'.2
          exact absurd this (by decide)
        · rintro rfl; exact absurd ha (by decide)
        · rintro rfl; exact absurd ha (by decide)
      · decide
      · decide
    obtain ⟨c, cs, rfl⟩ := List.exists_cons_of_ne_nil hd.1
    rcases hs with rfl | rfl | rfl
    · exact (key c (by simp)).1 (hd.2 c (by simp))
    · exact (key '+' (by simp)).2.1 rfl
    · exact (key '-' (by simp)).2.2 rfl
  refine ⟨h0, ?_, ?_, ?_, rfl, ?_⟩
  · intro c hc
    rcases h c hc with h | rfl | rfl
    · exact .inr (.inr (.inl h))
    · decide
    · decide
  · rintro n ⟨d, hs, hd', -⟩
    exact hd d hd' (by rcases hs with h | h <;> simp [h])
  · rintro n ⟨d, hs, hd', -⟩
    exact hd d hd' (by simp [hs])
  · intro hm
    simp only [List.mem_cons, List.not_mem_nil, or_false] at hm
    rcases hm with rfl | rfl | rfl
    · have := h '.' (by simp); revert this; decide
    · exact h1 rfl
    · have := h '!' (by simp); revert this; decide

theorem demo_faithful : Spec.Faithful demoF demoP demo := by
  have sym : ∀ s, s ≠ [] → (∀ c ∈ s, 'a' ≤ c ∧ c ≤ 'z' ∨ c = 'T' ∨ c = '?') → s ≠ ['?'] → Spec.Faithful demoF demoP (.symbol s) :=
    fun s h0 h h1 => .symbol _ (demo_symbol s h0 h h1)
  have hcall : Spec.Faithful demoF demoP (.list [.symbol ['f'], .integer true (2 ^ 64 - 7), .string ['a', '"', 'b']]) := by
    refine .list _ ?_ ?_ ?_
    · intro x hx
      simp only [List.mem_cons, List.not_mem_nil, or_false] at hx
      rcases hx with rfl | rfl | rfl
      · exact sym _ (by decide) (by decide) (by decide)
      · exact .negative _ (by decide) (by decide)
      · exact .string _
    · intro name l hn h
      simp [Spec.form] at h
    · intro x xs h
      simp only [Spec.form, Sexp.list.injEq, List.cons.injEq, Sexp.symbol.injEq] at h
      exact absurd h.1 (by decide)
  have htry : Spec.Faithful demoF demoP (Spec.form "try?" [.list [.symbol ['f'], .integer true (2 ^ 64 - 7), .string ['a', '"', 'b']]]) := by
    refine .list _ ?_ ?_ ?_
    · intro x hx
      simp only [List.mem_cons, List.not_mem_nil, or_false] at hx
      rcases hx with rfl | rfl
      · exact sym _ (by decide) (by decide) (by decide)
      · exact hcall
    · intro name l hn h
      simp only [Spec.form, Sexp.list.injEq, List.cons.injEq, and_true] at h
      rw [← h.2]
      constructor
      · rintro ⟨t, name, y, hm, h⟩; simp [Spec.form] at h
      · rintro ⟨name, l, hn, h⟩; simp [Spec.form] at h
    · intro x xs h
      simp only [Spec.form, Sexp.list.injEq, List.cons.injEq, Sexp.symbol.injEq] at h
      exact absurd h.1 (by decide)
  refine .list _ ?_ ?_ ?_
  · intro x hx
    simp only [List.mem_cons, List.not_mem_nil, or_false] at hx
    rcases hx with rfl | rfl | rfl
    · exact sym _ (by decide) (by decide) (by decide)
    · refine .list _ ?_ ?_ ?_
      · intro x hx
        simp only [List.mem_cons, List.not_mem_nil, or_false] at hx
        rcases hx with rfl | rfl | rfl
        · exact sym _ (by decide) (by decide) (by decide)
        · exact htry
        · exact sym _ (by decide) (by decide) (by decide)
      · intro name l hn h
        simp [Spec.form] at h
      · intro x xs h
        simp only [Spec.form, Sexp.list.injEq, List.cons.injEq] at h
        rw [← h.2.1]
        rintro ⟨t, name, y, hm, h⟩
        simp only [Spec.form, Sexp.list.injEq, List.cons.injEq, Sexp.symbol.injEq] at h
        have h1 := h.1
        cases hm <;> exact absurd h1 (by decide)
    · refine .listLike _ _ _ (sym _ (by decide) (by decide) (by decide)) ?_ (.char _) (by simp) (by simp)
      intro x hx
      simp only [List.mem_cons, List.not_mem_nil, or_false] at hx
      subst hx; exact .bool _
  · intro name l hn h
    simp [Spec.form] at h
  · intro x xs h
    simp only [Spec.form, Sexp.list.injEq, List.cons.injEq, Sexp.symbol.injEq] at h
    exact absurd h.1 (by decide)

example : ReadsAs demoF (demo.text demoP) [demo] := print_parse_partial ⟨rfl, rfl, rfl⟩ demo demo_faithful

end Verif.Parser
