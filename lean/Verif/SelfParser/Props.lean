import Verif.SelfParser.Total

/-!
# C85: the parser of the self-hosted compiler reads what that of `llrl0` reads
-/

namespace Verif.SelfParser

open Verif.Parser (Tok Sexp)
open Verif.Parser.Spec (Atom Mark Brackets cons form Strip)
open Spec

variable {F : Type}

/-- C85: the parser accepts exactly the token sequences of the grammar, and gives what the grammar says. -/
theorem parse_iff_grammar (ts us : List (Tok F)) (hs : Strip ts us) (xs : List (Sexp F)) :
    (∃ n cs, parseSs n ts = some (.ok (cs, [])) ∧ cs.map Cell.toSexp = xs) ↔ Ss us xs := by
  rw [Parser.strip_iff] at hs
  subst hs
  constructor
  · rintro ⟨n, cs, h, rfl⟩
    obtain ⟨cs', ts', h1, h2⟩ := andThen_ok h
    split at h2
    · simp only [Option.some.injEq, Except.ok.injEq, Prod.mk.injEq, and_true] at h2
      subst h2
      obtain ⟨u, hu, h3⟩ := sound_ss _ _ _ _ h1
      rw [List.append_nil] at hu
      rw [hu]
      exact h3
    · simp [error] at h2
  · intro h
    obtain ⟨_, cs, hcs, n, h1⟩ := complete_ss h
    refine ⟨n, cs, ?_, hcs⟩
    have h2 := h1 n (Nat.le_refl n)
    simp only at h2
    simp only [parseSs, h2, andThen]

/-- More fuel changes nothing. -/
theorem parse_ev {ts us : List (Tok F)} (hs : Strip ts us) {xs : List (Sexp F)} (h : Ss us xs) :
    ∃ cs : List (Cell F), cs.map Cell.toSexp = xs ∧ Ev (fun n => parseSs n ts) cs [] := by
  rw [Parser.strip_iff] at hs
  subst hs
  obtain ⟨_, cs, hcs, n, h1⟩ := complete_ss h
  refine ⟨cs, hcs, n, fun m hm => ?_⟩
  have h2 := h1 m hm
  simp only at h2
  simp only [parseSs, h2, andThen]

theorem foldr_list (ss l : List (Sexp F)) : ss.foldr cons (.list l) = .list (ss ++ l) := by
  induction ss with
  | nil => rfl
  | cons a ss ih => rw [List.foldr_cons, ih]; rfl

mutual

theorem incl_S {u : List (Tok F)} {x : Sexp F} (h : Parser.Spec.S u x) : S u x := by
  match h with
  | .marked t u s name hm hS => exact .marked _ _ _ _ hm (incl_S hS)
  | .term u s hT => exact .term _ _ (incl_T hT)
termination_by structural h

theorem incl_T {u : List (Tok F)} {x : Sexp F} (h : Parser.Spec.T u x) : T u x := by
  match h with
  | .atom t s ha => exact .atom _ _ ha
  | .list l r u s hb hB => exact .list _ _ _ _ hb (incl_B hB)
  | .question u s hT => exact .question _ _ (incl_T hT)
  | .exclamation u s hT => exact .exclamation _ _ (incl_T hT)
  | .annotate u s v ss hT hS =>
    have h1 := incl_Ss hS false [] (.list []) (.nil _)
    rw [foldr_list, List.append_nil, List.append_nil] at h1
    have h2 := T.annotate _ _ _ _ (incl_T hT) h1
    simpa [form, cons] using h2
termination_by structural h

theorem incl_Ss {u : List (Tok F)} {xs : List (Sexp F)} (h : Parser.Spec.Ss u xs) :
    ∀ b v x, B b v x → B b (u ++ v) (xs.foldr cons x) := by
  match h with
  | .nil => exact fun _ _ _ h => h
  | .cons u s v ss hS hSs =>
    intro b w x hB
    rw [List.append_assoc]
    exact .cons _ _ _ _ _ (incl_S hS) (incl_Ss hSs b w x hB)
termination_by structural h

theorem incl_B {u : List (Tok F)} {x : Sexp F} (h : Parser.Spec.B u x) : B true u x := by
  match h with
  | .list u ss hS =>
    have h1 := incl_Ss hS true [] (.list []) (.nil _)
    rw [foldr_list, List.append_nil, List.append_nil] at h1
    exact h1
  | .nested u ss v s hS hB =>
    have h1 := incl_Ss hS true _ _ (.nested _ _ _ (incl_B hB))
    rw [foldr_list] at h1
    exact h1
  | .dotted u ss v s hS hs => exact incl_Ss hS true _ _ (.dotted _ _ (incl_S hs))
termination_by structural h

end

theorem incl_sequence {u : List (Tok F)} {xs : List (Sexp F)} (h : Parser.Spec.Ss u xs) : Ss u xs := by
  match h with
  | .nil => exact .nil
  | .cons u s v ss hS hSs => exact .cons _ _ _ _ (incl_S hS) (incl_sequence hSs)
termination_by structural h

theorem cons_B {u v : List (Tok F)} {s x : Sexp F} (hs : Parser.Spec.S u s) (h : Parser.Spec.B v x) :
    Parser.Spec.B (u ++ v) (cons s x) := by
  cases h with
  | list _ ss hS => exact .list _ _ (.cons _ _ _ _ hs hS)
  | nested w ss v' y hS hB =>
    rw [← List.append_assoc]
    exact .nested _ (s :: ss) _ _ (.cons _ _ _ _ hs hS) hB
  | dotted w ss v' y hS hy =>
    rw [← List.append_assoc]
    exact .dotted _ (s :: ss) _ _ (.cons _ _ _ _ hs hS) hy

mutual

theorem back_S {u : List (Tok F)} {x : Sexp F} (h : S u x) (ha : Tok.lexed .at ∉ u) : Parser.Spec.S u x := by
  match h with
  | .marked t u s name hm hS => exact .marked _ _ _ _ hm (back_S hS fun h => ha (by simp [h]))
  | .term u s hT => exact .term _ _ (back_T hT ha)
termination_by structural h

theorem back_T {u : List (Tok F)} {x : Sexp F} (h : T u x) (ha : Tok.lexed .at ∉ u) : Parser.Spec.T u x := by
  match h with
  | .atom t s hat => exact .atom _ _ hat
  | .list l r u s hb hB => exact .list _ _ _ _ hb ((back_B hB fun h => ha (by simp [h])).1)
  | .question u s hT => exact .question _ _ (back_T hT fun h => ha (by simp [h]))
  | .exclamation u s hT => exact .exclamation _ _ (back_T hT fun h => ha (by simp [h]))
  | .annotate u s v x hT hB =>
    obtain ⟨ss, h1, rfl⟩ := (back_B hB fun h => ha (by simp [h])).2 rfl
    have h2 := Parser.Spec.T.annotate _ _ _ _ (back_T hT fun h => ha (by simp [h])) h1
    simpa [form, cons] using h2
termination_by structural h

theorem back_B {b : Bool} {u : List (Tok F)} {x : Sexp F} (h : B b u x) (ha : Tok.lexed .at ∉ u) :
    Parser.Spec.B u x ∧ (b = false → ∃ ss, Parser.Spec.Ss u ss ∧ x = .list ss) := by
  match h with
  | .nil b => exact ⟨.list _ _ .nil, fun _ => ⟨[], .nil, rfl⟩⟩
  | .cons b u s v x hS hB =>
    have h1 := back_S hS fun h => ha (by simp [h])
    have h2 := back_B hB fun h => ha (by simp [h])
    refine ⟨cons_B h1 h2.1, fun hb => ?_⟩
    obtain ⟨ss, h3, rfl⟩ := h2.2 hb
    exact ⟨s :: ss, .cons _ _ _ _ h1 h3, rfl⟩
  | .nested b v x hB => exact absurd (List.mem_cons_self) ha
  | .dotted v s hS =>
    have h1 := back_S hS fun h => ha (by simp [h])
    exact ⟨.dotted [] [] _ _ .nil h1, by simp⟩
termination_by structural h

end

theorem back_sequence {u : List (Tok F)} {xs : List (Sexp F)} (h : Ss u xs) (ha : Tok.lexed .at ∉ u) :
    Parser.Spec.Ss u xs := by
  induction h with
  | nil => exact .nil
  | cons u s v ss hS _ ih =>
    exact .cons _ _ _ _ (back_S hS fun h => ha (by simp [h])) (ih fun h => ha (by simp [h]))

theorem strip_self (ts : List (Tok F)) : Strip ts (ts.filter fun t => !t.isAmbient) :=
  (Parser.strip_iff _ _).2 rfl

theorem cons_injective {a b x y : Sexp F} (h : cons a x = cons b y) : a = b ∧ x = y := by
  cases x <;> cases y <;> simp_all [cons]

/-- C85: different cells stand for different S-expressions. -/
theorem toSexp_injective (c d : Cell F) (h : c.toSexp = d.toSexp) : c = d := by
  have ne : ∀ (a x : Sexp F), (∃ h i l, cons a x = .listLike h i l) ∨ ∃ y ys, cons a x = .list (y :: ys) := by
    intro a x
    cases x <;> simp [cons]
  induction c generalizing d with
  | cons a x iha ihx =>
    cases d with
    | cons b y =>
      obtain ⟨h1, h2⟩ := cons_injective h
      rw [iha _ h1, ihx _ h2]
    | _ =>
      exfalso
      rcases ne a.toSexp x.toSexp with ⟨_, _, _, h1⟩ | ⟨_, _, h1⟩ <;>
        simp only [Cell.toSexp, h1, reduceCtorEq, Sexp.list.injEq] at h
  | _ =>
    cases d with
    | cons b y =>
      exfalso
      rcases ne b.toSexp y.toSexp with ⟨_, _, _, h1⟩ | ⟨_, _, h1⟩ <;>
        simp only [Cell.toSexp, h1, reduceCtorEq, Sexp.list.injEq] at h
    | _ => simp_all [Cell.toSexp]

/-- C85: whatever the parser of `llrl0` accepts, the parser of the self-hosted compiler accepts, with
the same S-expressions. -/
theorem parses_what_llrl0_parses (fuel : Nat) (ts left : List (Tok F)) (xs : List (Sexp F))
    (h : Parser.parse fuel ts = some (.ok xs, [], left)) :
    ∃ cs : List (Cell F), cs.map Cell.toSexp = xs ∧ ∃ n0, ∀ n, n0 ≤ n → parseSs n ts = some (.ok (cs, [])) :=
  parse_ev (strip_self ts)
    (incl_sequence ((Parser.parse_iff_grammar ts _ (strip_self ts) xs).1 ⟨fuel, left, h⟩))

/-- C85, partial: and the other way round, if there is no `@`. What is missing does not hold: see
`at_in_braces`. -/
theorem llrl0_parses_partial (n : Nat) (ts : List (Tok F)) (cs : List (Cell F))
    (h : parseSs n ts = some (.ok (cs, []))) (ha : Tok.lexed .at ∉ ts) :
    ∃ fuel left, Parser.parse fuel ts = some (.ok (cs.map Cell.toSexp), [], left) :=
  (Parser.parse_iff_grammar ts _ (strip_self ts) _).2
    (back_sequence ((parse_iff_grammar ts _ (strip_self ts) _).1 ⟨n, cs, h, rfl⟩)
      fun h => ha (List.mem_filter.mp h).1)

theorem parse_mono (n k : Nat) (ts : List (Tok F)) (r) (h : parseSs n ts = some r) :
    parseSs (n + k) ts = some r := by
  induction k with
  | zero => exact h
  | succ k ih => exact andThen_mono (ss_mono _ _) (fun _ _ h => h) ih

/-- C85: parsing ends for every sequence of tokens, with one result whatever the fuel. -/
theorem parse_total (ts : List (Tok F)) :
    ∃ r, ∀ n, 6 * ts.length + 4 ≤ n → parseSs n ts = some r := by
  have h1 : parseSs (6 * ts.length + 4) ts ≠ none := by
    refine andThen_some (ss_total _ _ ?_) fun cs ts' _ => ?_
    · have := List.length_filter_le (fun t => !Tok.isAmbient t) ts
      omega
    · split <;> simp [error]
  obtain ⟨r, hr⟩ := Option.ne_none_iff_exists'.mp h1
  refine ⟨r, fun n hn => ?_⟩
  have := parse_mono _ (n - (6 * ts.length + 4)) ts r hr
  rwa [Nat.add_sub_cancel' hn] at this

/-- C85: so a sequence of tokens outside the grammar gives an error. -/
theorem parse_error (ts us : List (Tok F)) (hs : Strip ts us) (h : ∀ xs, ¬ Ss us xs) :
    ∃ e, ∀ n, 6 * ts.length + 4 ≤ n → parseSs n ts = some (.error e) := by
  obtain ⟨r, hr⟩ := parse_total ts
  cases r with
  | error e => exact ⟨e, hr⟩
  | ok p =>
    obtain ⟨cs, rest⟩ := p
    have h1 := hr _ (Nat.le_refl _)
    obtain ⟨cs', ts', h2, h3⟩ := andThen_ok h1
    have hrest : rest = [] := by
      split at h3
      · simp only [Option.some.injEq, Except.ok.injEq, Prod.mk.injEq] at h3
        exact h3.2.symm
      · simp [error] at h3
    subst hrest
    exact absurd ((parse_iff_grammar ts us hs _).1 ⟨_, cs, h1, rfl⟩) (h _)

/-- C85: where both parsers accept, they give the same S-expressions. -/
theorem parsers_agree (n fuel : Nat) (ts left : List (Tok F)) (cs : List (Cell F)) (xs : List (Sexp F))
    (h : parseSs n ts = some (.ok (cs, []))) (h0 : Parser.parse fuel ts = some (.ok xs, [], left)) :
    cs.map Cell.toSexp = xs := by
  obtain ⟨es, he, n0, h1⟩ := parses_what_llrl0_parses fuel ts left xs h0
  have h2 := parse_mono n n0 ts _ h
  rw [h1 _ (by omega)] at h2
  simp only [Option.some.injEq, Except.ok.injEq, Prod.mk.injEq, and_true] at h2
  rw [← h2]
  exact he

/-- `x {@ y}`. -/
private def atBraces : List (Tok Unit) :=
  [.lexed (.symbol ['x']), .lexed .lBrace, .lexed .at, .lexed (.symbol ['y']), .lexed .rBrace]

/-- C85, refutation: `x {@ y}` is `(annotate x (y))` for the parser of the self-hosted compiler, and is
rejected by that of `llrl0`. -/
theorem at_in_braces : ∃ ts : List (Tok Unit),
    (∃ n cs, parseSs n ts = some (.ok (cs, [])) ∧
      cs.map Cell.toSexp = [form "annotate" [.symbol ['x'], .list [.symbol ['y']]]]) ∧
    ¬ ∃ fuel xs left, Parser.parse fuel ts = some (.ok xs, [], left) := by
  refine ⟨atBraces, ⟨20, _, rfl, rfl⟩, ?_⟩
  rintro ⟨fuel, xs, left, h⟩
  have h1 := Parser.parse_mono (Nat.le_add_right fuel 20) h
  have h2 : ∃ r e es l, Parser.parse 20 atBraces = some (r, e :: es, l) := ⟨_, _, _, _, rfl⟩
  obtain ⟨r, e, es, l, h2⟩ := h2
  rw [Parser.parse_mono (Nat.le_add_left 20 fuel) h2] at h1
  simp at h1

/-- `'(f @ g x . y)? {T} ; c`: a nested list, a dot, a suffix and an annotation. -/
example : ∃ cs : List (Cell Unit), parseSs 60
    [.lexed .quote, .lexed .lParen, .lexed (.symbol ['f']), .lexed .whitespaces, .lexed .at,
      .lexed (.symbol ['g']), .lexed (.symbol ['x']), .lexed .dot, .lexed (.symbol ['y']), .lexed .rParen,
      .lexed .question, .lexed .lBrace, .lexed (.symbol ['T']), .lexed .rBrace, .lexed .lineComment] =
    some (.ok (cs, [])) ∧ cs.map Cell.toSexp =
    [form "quote" [form "annotate" [form "try?" [.list [.symbol ['f'],
      .listLike (.symbol ['g']) [.symbol ['x']] (.symbol ['y'])]], .symbol ['T']]]] :=
  ⟨_, rfl, rfl⟩

/-- A bracket that is closed by another one is an error at it. -/
example : (parseSs 60 [.lexed .lParen, .lexed (.symbol ['f']), .lexed .rBrack] : R Unit _) =
    some (.error ⟨some (.lexed .rBrack), ")"⟩) := rfl

/-- A mark at the end is an error at the end. -/
example : (parseSs 60 [.lexed .quote] : R Unit _) = some (.error ⟨none, "S-expression"⟩) := rfl

/-- C85: the error at a closing parenthesis that is too much names it, and not what follows. -/
theorem error_token : parseSs 20 [.lexed .rParen, .lexed .true, (.lexed .false : Tok F)] =
    some (.error ⟨some (.lexed .rParen), "eof"⟩) := rfl

end Verif.SelfParser
