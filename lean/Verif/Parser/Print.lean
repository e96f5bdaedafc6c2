import Verif.Parser.Complete
import Verif.Lexer.Props

/-! # Lemmas: the tokens of the printed text -/
namespace Verif.Parser
open Verif.Lexer (TokenRep)
open Verif.Lexer.Spec (IdChar Space Run Tokenizes)

variable {F : Type} {parseF64 : List Char → Option F} {printF64 : F → List Char}

/-- The text `s` before `rest` is cut into the tokens `reps`. -/
inductive Lx (parseF64 : List Char → Option F) : List Char → List (TokenRep F) → List Char → Prop
  | nil (rest) : Lx parseF64 [] [] rest
  | cons (s rep t reps rest) : s ≠ [] → Lexer.Spec.Tok parseF64 rep s (t ++ rest) → Lx parseF64 t reps rest → Lx parseF64 (s ++ t) (rep :: reps) rest

theorem Lx.append {a b : List Char} {ra rb rest} (ha : Lx parseF64 a ra (b ++ rest)) (hb : Lx parseF64 b rb rest) : Lx parseF64 (a ++ b) (ra ++ rb) rest := by
  generalize hr : b ++ rest = r at ha
  induction ha with
  | nil => exact hb
  | cons s rep t reps r' hs ht _ ih =>
    subst hr
    rw [List.append_assoc, List.cons_append]
    exact .cons s rep (t ++ b) _ rest hs (by rw [List.append_assoc]; exact ht) (ih rfl)

theorem Lx.one {s rest : List Char} {rep} (hs : s ≠ []) (h : Lexer.Spec.Tok parseF64 rep s rest) : Lx parseF64 s [rep] rest := by
  have := Lx.cons (parseF64 := parseF64) s rep [] [] rest hs h (.nil rest)
  rwa [List.append_nil] at this

theorem Lx.tokenizes {s : List Char} {reps} (h : Lx parseF64 s reps []) (pre : List Char) :
    ∃ ts, Tokenizes parseF64 pre s ts ∧ ts.map (·.rep) = reps := by
  generalize hr : ([] : List Char) = r at h
  induction h generalizing pre with
  | nil => exact ⟨[], .nil pre, rfl⟩
  | cons s rep t reps r hs ht _ ih =>
    subst hr
    obtain ⟨ts, h1, h2⟩ := ih (pre ++ s) rfl
    rw [List.append_nil] at ht
    exact ⟨_, .cons pre s t rep ts hs ht h1, by simp [h2]⟩

/-- The text does not go on with an identifier character. -/
def NonId (rest : List Char) : Prop := ∀ c, rest.head? = some c → ¬ IdChar c

theorem NonId.of_cons {c : Char} {cs} (h : ¬ IdChar c) : NonId (c :: cs) := by
  intro c' h'; simp only [List.head?_cons, Option.some.injEq] at h'; rw [← h']; exact h

instance (c : Char) : Decidable (IdChar c) := by unfold IdChar; infer_instance
instance (c : Char) : Decidable (Space c) := by unfold Space; infer_instance

/-- The first character of a printed S-expression: not a space, and not `@`. -/
def Head (s : List Char) : Prop := ∃ c cs, s = c :: cs ∧ ¬ Space c ∧ c ≠ '@'

theorem idChar_head {c : Char} (h : IdChar c) : ¬ Space c ∧ c ≠ '@' := by
  constructor
  · intro hs
    simp only [Space, List.mem_cons, List.not_mem_nil, or_false] at hs
    rcases hs with rfl | rfl | rfl | rfl <;> exact absurd h (by decide)
  · rintro rfl; exact absurd h (by decide)

theorem Head.of_id {s : List Char} (h0 : s ≠ []) (h : ∀ c ∈ s, IdChar c) : Head s := by
  obtain ⟨c, cs, rfl⟩ := List.exists_cons_of_ne_nil h0
  exact ⟨c, cs, rfl, idChar_head (h c (by simp))⟩

theorem lx_space {s rest : List Char} (h : Head s) : Lx parseF64 [' '] [.whitespaces] (s ++ rest) := by
  obtain ⟨c, cs, rfl, hc, -⟩ := h
  refine Lx.one (by simp) (.whitespaces _ _ ⟨by simp, by decide, ?_⟩)
  intro c' h'; simp only [List.cons_append, List.head?_cons, Option.some.injEq] at h'; rw [← h']; exact hc

theorem lx_newline {s rest : List Char} (h : Head s) : Lx parseF64 ['\n'] [.whitespaces] (s ++ rest) := by
  obtain ⟨c, cs, rfl, hc, -⟩ := h
  refine Lx.one (by simp) (.whitespaces _ _ ⟨by simp, by decide, ?_⟩)
  intro c' h'; simp only [List.cons_append, List.head?_cons, Option.some.injEq] at h'; rw [← h']; exact hc

theorem lx_fixed (text : List Char) (rep : TokenRep F) (rest : List Char) (h : (text, rep) ∈ Lexer.Spec.fixed (F := F)) (h0 : text ≠ [])
    (hc : text ≠ [',']) : Lx parseF64 text [rep] rest := Lx.one h0 (.fixed text rep rest h (fun h => absurd h hc))

theorem digit_char (n : Nat) (h : n < 10) : '0' ≤ Char.ofNat ('0'.toNat + n) ∧ Char.ofNat ('0'.toNat + n) ≤ '9' ∧
    (Char.ofNat ('0'.toNat + n)).toNat - '0'.toNat = n := by
  have : ∀ m : Fin 10, '0' ≤ Char.ofNat ('0'.toNat + m.1) ∧ Char.ofNat ('0'.toNat + m.1) ≤ '9' ∧
    (Char.ofNat ('0'.toNat + m.1)).toNat - '0'.toNat = m.1 := by decide
  exact this ⟨n, h⟩

theorem decimal_append (a : List Char) (c : Char) : Lexer.Spec.decimal (a ++ [c]) = Lexer.Spec.decimal a * 10 + (c.toNat - '0'.toNat) := by
  induction a with
  | nil => simp [Lexer.Spec.decimal]
  | cons b a ih =>
    simp only [List.cons_append, Lexer.Spec.decimal, ih, List.length_append, List.length_singleton, Nat.pow_succ]
    rw [Nat.add_mul, Nat.mul_assoc, Nat.add_assoc]

theorem digits_spec (n : Nat) : Lexer.Spec.Digits (digits n) ∧ Lexer.Spec.decimal (digits n) = n := by
  induction n using Nat.strongRecOn with
  | _ n ih =>
    rw [digits]
    split
    · rename_i h
      obtain ⟨h1, h2, h3⟩ := digit_char n h
      refine ⟨⟨by simp, ?_⟩, ?_⟩
      · intro c hc; simp only [List.mem_singleton] at hc; subst hc; exact ⟨h1, h2⟩
      · simp only [Lexer.Spec.decimal, List.length_nil, Nat.pow_zero, Nat.mul_one, Nat.add_zero]; exact h3
    · obtain ⟨⟨h1, h2⟩, h3⟩ := ih (n / 10) (by omega)
      obtain ⟨d1, d2, d3⟩ := digit_char (n % 10) (by omega)
      refine ⟨⟨by simp, ?_⟩, ?_⟩
      · intro c hc
        simp only [List.mem_append, List.mem_singleton] at hc
        rcases hc with hc | rfl
        · exact h2 c hc
        · exact ⟨d1, d2⟩
      · rw [decimal_append, h3, d3]; omega

theorem digits_id (n : Nat) : digits n ≠ [] ∧ ∀ c ∈ digits n, IdChar c := by
  obtain ⟨⟨h1, h2⟩, -⟩ := digits_spec n
  exact ⟨h1, fun c hc => .inl (h2 c hc)⟩

/-! ## Tokens and derivations of a printed S-expression -/

/-- The tokens apart from whitespace and comments. -/
def strip (reps : List (TokenRep F)) : List (Tok F) := (reps.map Tok.lexed).filter (fun t => !t.isAmbient)

theorem strip_append (a b : List (TokenRep F)) : strip (a ++ b) = strip a ++ strip b := by simp [strip]
theorem strip_one {r : TokenRep F} (h : (Tok.lexed r).isAmbient = false) : strip [r] = [Tok.lexed r] := by simp [strip, h]
theorem strip_space : strip [(.whitespaces : TokenRep F)] = [] := rfl

/-- A list that is printed with brackets or braces at its end. -/
def Closed (x : Sexp F) : Prop := (∃ l, x = .list l) ∧ ¬ Spec.Marked x ∧ ¬ Spec.Tried x

/-- The text of an S-expression is cut into tokens that are derived in the grammar as that S-expression. -/
def Good (parseF64 : List Char → Option F) (printF64 : F → List Char) (x : Sexp F) : Prop :=
  Head (x.text printF64) ∧ ∃ reps, Spec.S (strip reps) x ∧ (¬ Spec.Marked x → Spec.T (strip reps) x) ∧
    (∀ rest, NonId rest → Lx parseF64 (x.text printF64) reps rest) ∧
    (Closed x → ∀ rest, Lx parseF64 (x.text printF64) reps rest)

theorem good_atom {x : Sexp F} {rep : TokenRep F} (hh : Head (x.text printF64)) (ha : Spec.Atom (.lexed rep) x)
    (hl : ∀ rest, NonId rest → Lexer.Spec.Tok parseF64 rep (x.text printF64) rest) : Good parseF64 printF64 x := by
  have hamb : (Tok.lexed rep).isAmbient = false := by cases ha <;> rfl
  have hne : x.text printF64 ≠ [] := by obtain ⟨c, cs, h, -⟩ := hh; rw [h]; simp
  refine ⟨hh, [rep], ?_, ?_, fun rest hr => Lx.one hne (hl rest hr), ?_⟩
  · rw [strip_one hamb]; exact .term _ _ (.atom _ _ ha)
  · intro _; rw [strip_one hamb]; exact .atom _ _ ha
  · rintro ⟨⟨l, rfl⟩, -⟩; cases ha

theorem spaced_nonId (texts : List (List Char)) {rest} (h : NonId rest) : NonId (spaced texts ++ rest) := by
  cases texts with
  | nil => exact h
  | cons t ts => exact NonId.of_cons (by decide)

theorem good_spaced {xs : List (Sexp F)} (h : ∀ x ∈ xs, Good parseF64 printF64 x) :
    ∃ reps, Spec.Ss (strip reps) xs ∧ ∀ rest, NonId rest → Lx parseF64 (spaced (Sexp.texts printF64 xs)) reps rest := by
  induction xs with
  | nil => exact ⟨[], .nil, fun rest _ => .nil rest⟩
  | cons x xs ih =>
    obtain ⟨reps, hS, hL⟩ := ih (fun y hy => h y (by simp [hy]))
    obtain ⟨hh, r, hx, -, hl, -⟩ := h x (by simp)
    refine ⟨[.whitespaces] ++ (r ++ reps), ?_, fun rest hr => ?_⟩
    · rw [strip_append, strip_append, strip_space, List.nil_append]; exact .cons _ _ _ _ hx hS
    · have : spaced (Sexp.texts printF64 (x :: xs)) = [' '] ++ (x.text printF64 ++ spaced (Sexp.texts printF64 xs)) := by
        simp [spaced, Sexp.texts]
      rw [this]
      refine Lx.append ?_ (Lx.append (hl _ (spaced_nonId _ hr)) (hL rest hr))
      rw [List.append_assoc]; exact lx_space hh

theorem good_separated {xs : List (Sexp F)} (h : ∀ x ∈ xs, Good parseF64 printF64 x) :
    ∃ reps, Spec.Ss (strip reps) xs ∧ ∀ rest, NonId rest → Lx parseF64 (separated (Sexp.texts printF64 xs)) reps rest := by
  cases xs with
  | nil => exact ⟨[], .nil, fun rest _ => .nil rest⟩
  | cons x xs =>
    obtain ⟨reps, hS, hL⟩ := good_spaced (fun y hy => h y (List.mem_cons_of_mem _ hy))
    obtain ⟨hh, r, hx, -, hl, -⟩ := h x (by simp)
    refine ⟨r ++ reps, ?_, fun rest hr => ?_⟩
    · rw [strip_append]; exact .cons _ _ _ _ hx hS
    · exact Lx.append (hl _ (spaced_nonId _ hr)) (hL rest hr)

/-- The plain printing of a list. -/
theorem good_plain {ls : List (Sexp F)} (h : ∀ x ∈ ls, Good parseF64 printF64 x) :
    ∃ reps, Spec.T (strip reps) (.list ls) ∧ ∀ rest, Lx parseF64 ('(' :: separated (Sexp.texts printF64 ls) ++ [')']) reps rest := by
  obtain ⟨reps, hS, hL⟩ := good_separated h
  refine ⟨[.lParen] ++ (reps ++ [.rParen]), ?_, fun rest => ?_⟩
  · rw [strip_append, strip_append, strip_one rfl, strip_one rfl]
    exact .list _ _ _ _ .paren (.list _ _ hS)
  · have : '(' :: separated (Sexp.texts printF64 ls) ++ [')'] = ['('] ++ (separated (Sexp.texts printF64 ls) ++ [')']) := rfl
    rw [this]
    refine Lx.append (lx_fixed _ _ _ (by simp [Lexer.Spec.fixed]) (by simp) (by simp)) (Lx.append (hL _ (NonId.of_cons (by decide))) ?_)
    exact lx_fixed _ _ _ (by simp [Lexer.Spec.fixed]) (by simp) (by simp)

theorem good_plainList {ls : List (Sexp F)} (h : ∀ x ∈ ls, Good parseF64 printF64 x)
    (ht : (Sexp.list ls).text printF64 = '(' :: separated (Sexp.texts printF64 ls) ++ [')']) : Good parseF64 printF64 (.list ls) := by
  obtain ⟨reps, hT, hL⟩ := good_plain h
  refine ⟨?_, reps, .term _ _ hT, fun _ => hT, fun rest _ => ?_, fun _ rest => ?_⟩
  · rw [ht]; exact ⟨'(', _, rfl, by decide, by decide⟩
  · rw [ht]; exact hL rest
  · rw [ht]; exact hL rest

theorem good_mark {x : Sexp F} {t : TokenRep F} {name : String} {m : List Char} (hm : Spec.Mark (.lexed t) name) (h : Good parseF64 printF64 x)
    (hx : (Spec.form name [x]).text printF64 = m ++ x.text printF64) (hf : (m, t) ∈ Lexer.Spec.fixed (F := F)) (hh : Head m) :
    Good parseF64 printF64 (Spec.form name [x]) := by
  obtain ⟨hhx, r, hS, -, hl, -⟩ := h
  have hmk : Spec.Marked (Spec.form name [x]) := ⟨_, _, _, hm, rfl⟩
  obtain ⟨c, cs, rfl, hc⟩ := hh
  refine ⟨?_, [t] ++ r, ?_, fun hn => absurd hmk hn, fun rest hr => ?_, fun hc => absurd hmk hc.2.1⟩
  · rw [hx]; exact ⟨c, _, rfl, hc⟩
  · rw [strip_append, strip_one (by cases hm <;> rfl)]; exact .marked _ _ _ _ hm hS
  · rw [hx]
    refine Lx.append (Lx.one (by simp) (.fixed _ _ _ hf ?_)) (hl rest hr)
    intro _
    obtain ⟨c', cs', hx', -, hat⟩ := hhx
    rw [hx']; simp only [List.cons_append, List.head?_cons]
    exact fun h => hat (Option.some.inj h)

theorem run_one {c : Char} (hc : IdChar c) {rest} (h : NonId rest) : Run IdChar [c] rest :=
  ⟨by simp, by intro c' h'; simp only [List.mem_singleton] at h'; rw [h']; exact hc, h⟩

theorem good_question {l : List (Sexp F)} (h : Good parseF64 printF64 (.list l)) (hq : parseF64 ['?'] = none)
    (hn : ¬ Spec.Marked (.list l) ∧ ¬ Spec.Tried (.list l))
    (hx : (Spec.form "try?" [.list l]).text printF64 = (Sexp.list l).text printF64 ++ ['?']) :
    Good parseF64 printF64 (Spec.form "try?" [.list l]) := by
  obtain ⟨⟨c, cs, hc, hh⟩, r, -, hT, -, hl⟩ := h
  have htr : Spec.Tried (Spec.form "try?" [Sexp.list l]) := ⟨_, _, by simp, rfl⟩
  have hT2 := Spec.T.question _ _ (hT hn.1)
  have hs : strip (r ++ [.question]) = strip r ++ [.lexed .question] := by rw [strip_append, strip_one rfl]
  refine ⟨?_, r ++ [.question], .term _ _ (by rw [hs]; exact hT2), fun _ => by rw [hs]; exact hT2, fun rest hr => ?_, fun hc => absurd htr hc.2.2⟩
  · rw [hx, hc]; exact ⟨c, _, rfl, hh⟩
  · rw [hx]
    exact Lx.append (hl ⟨⟨l, rfl⟩, hn⟩ _) (Lx.one (by simp) (.question _ (run_one (by decide) hr) hq))

theorem good_exclamation {l : List (Sexp F)} (h : Good parseF64 printF64 (.list l)) (hq : parseF64 ['!'] = none)
    (hn : ¬ Spec.Marked (.list l) ∧ ¬ Spec.Tried (.list l))
    (hx : (Spec.form "try!" [.list l]).text printF64 = (Sexp.list l).text printF64 ++ ['!']) :
    Good parseF64 printF64 (Spec.form "try!" [.list l]) := by
  obtain ⟨⟨c, cs, hc, hh⟩, r, -, hT, -, hl⟩ := h
  have htr : Spec.Tried (Spec.form "try!" [Sexp.list l]) := ⟨_, _, by simp, rfl⟩
  have hT2 := Spec.T.exclamation _ _ (hT hn.1)
  have hs : strip (r ++ [.exclamation]) = strip r ++ [.lexed .exclamation] := by rw [strip_append, strip_one rfl]
  refine ⟨?_, r ++ [.exclamation], .term _ _ (by rw [hs]; exact hT2), fun _ => by rw [hs]; exact hT2, fun rest hr => ?_, fun hc => absurd htr hc.2.2⟩
  · rw [hx, hc]; exact ⟨c, _, rfl, hh⟩
  · rw [hx]
    exact Lx.append (hl ⟨⟨l, rfl⟩, hn⟩ _) (Lx.one (by simp) (.exclamation _ (run_one (by decide) hr) hq))

theorem good_annotate {x : Sexp F} {xs : List (Sexp F)} (h : Good parseF64 printF64 x) (hxs : ∀ y ∈ xs, Good parseF64 printF64 y)
    (hn : ¬ Spec.Marked x)
    (hx : (Spec.form "annotate" (x :: xs)).text printF64 = x.text printF64 ++ [' ', '{'] ++ separated (Sexp.texts printF64 xs) ++ ['}']) :
    Good parseF64 printF64 (Spec.form "annotate" (x :: xs)) := by
  obtain ⟨⟨c, cs, hc, hh⟩, r, -, hT, hl, -⟩ := h
  obtain ⟨rs, hS, hL⟩ := good_separated hxs
  have hT2 := Spec.T.annotate _ _ _ _ (hT hn) hS
  have hs : strip (r ++ ([.whitespaces] ++ ([.lBrace] ++ (rs ++ [.rBrace])))) = strip r ++ .lexed .lBrace :: strip rs ++ [.lexed .rBrace] := by
    simp only [strip_append, strip_one (F := F) (r := .lBrace) rfl, strip_one (F := F) (r := .rBrace) rfl, strip_space]; simp
  have hall : ∀ rest, Lx parseF64 ((Spec.form "annotate" (x :: xs)).text printF64) (r ++ ([.whitespaces] ++ ([.lBrace] ++ (rs ++ [.rBrace])))) rest := by
    intro rest
    have : (Spec.form "annotate" (x :: xs)).text printF64 =
        x.text printF64 ++ ([' '] ++ (['{'] ++ (separated (Sexp.texts printF64 xs) ++ ['}']))) := by rw [hx]; simp
    rw [this]
    refine Lx.append (hl _ (NonId.of_cons (by decide))) (Lx.append ?_ (Lx.append
      (lx_fixed _ _ _ (by simp [Lexer.Spec.fixed]) (by simp) (by simp)) (Lx.append (hL _ (NonId.of_cons (by decide)))
      (lx_fixed _ _ _ (by simp [Lexer.Spec.fixed]) (by simp) (by simp)))))
    rw [List.append_assoc]
    exact lx_space ⟨'{', [], rfl, by decide, by decide⟩
  refine ⟨?_, _, .term _ _ (by rw [hs]; exact hT2), fun _ => by rw [hs]; exact hT2, fun rest _ => hall rest, fun _ rest => hall rest⟩
  rw [hx, hc]; exact ⟨c, _, rfl, hh⟩

/-- The printing of a dotted list, whatever its last element is. -/
theorem dotted_tokens {h l : Sexp F} {i : List (Sexp F)} (hd : parseF64 ['.'] = none) (hh : Good parseF64 printF64 h)
    (hi : ∀ x ∈ i, Good parseF64 printF64 x) (hl : Good parseF64 printF64 l) :
    ∃ reps, Spec.T (strip reps) ((h :: i).foldr Spec.cons l) ∧ ∀ rest, Lx parseF64 ((Sexp.listLike h i l).text printF64) reps rest := by
  obtain ⟨-, rh, hSh, -, hlh, -⟩ := hh
  obtain ⟨ri, hSi, hLi⟩ := good_spaced hi
  obtain ⟨hhl, rl, hSl, -, hll, -⟩ := hl
  let reps := [.lParen] ++ (rh ++ (ri ++ ([.whitespaces] ++ ([.dot] ++ ([.whitespaces] ++ (rl ++ [(.rParen : TokenRep F)]))))))
  have hs : strip reps = .lexed .lParen :: ((strip rh ++ strip ri) ++ .lexed .dot :: strip rl) ++ [.lexed .rParen] := by
    simp only [reps, strip_append, strip_one (F := F) (r := .lParen) rfl, strip_one (F := F) (r := .rParen) rfl,
      strip_one (F := F) (r := .dot) rfl, strip_space]; simp
  refine ⟨reps, ?_, fun rest => ?_⟩
  · rw [hs]
    exact .list _ _ _ _ .paren (Spec.B.dotted _ _ _ _ (.cons _ _ _ _ hSh hSi) hSl)
  · have : (Sexp.listLike h i l).text printF64 = ['('] ++ (h.text printF64 ++ (spaced (Sexp.texts printF64 i) ++ ([' '] ++ (['.'] ++
        ([' '] ++ (l.text printF64 ++ [')'])))))) := by simp [Sexp.text]
    rw [this]
    refine Lx.append (lx_fixed _ _ _ (by simp [Lexer.Spec.fixed]) (by simp) (by simp)) (Lx.append (hlh _ ?_) (Lx.append (hLi _ ?_)
      (Lx.append ?_ (Lx.append (Lx.one (by simp) (.dot _ (run_one (by decide) ?_) hd)) (Lx.append ?_ (Lx.append (hll _ ?_)
      (lx_fixed _ _ _ (by simp [Lexer.Spec.fixed]) (by simp) (by simp))))))))
    · rw [List.append_assoc]; exact spaced_nonId _ (NonId.of_cons (by decide))
    · exact NonId.of_cons (by decide)
    · rw [List.append_assoc]; exact lx_space ⟨'.', [], rfl, by decide, by decide⟩
    · exact NonId.of_cons (by decide)
    · rw [List.append_assoc]; exact lx_space hhl
    · exact NonId.of_cons (by decide)

theorem good_listLike {h l : Sexp F} {i : List (Sexp F)} (hd : parseF64 ['.'] = none) (hh : Good parseF64 printF64 h)
    (hi : ∀ x ∈ i, Good parseF64 printF64 x) (hl : Good parseF64 printF64 l)
    (h1 : ∀ ls, l ≠ .list ls) (h2 : ∀ h' i' l', l ≠ .listLike h' i' l') : Good parseF64 printF64 (.listLike h i l) := by
  obtain ⟨reps, hT, hL⟩ := dotted_tokens hd hh hi hl
  rw [foldr_cons_other _ _ _ h1 h2] at hT
  refine ⟨⟨'(', _, rfl, by decide, by decide⟩, reps, .term _ _ hT, fun _ => hT, fun rest _ => hL rest, ?_⟩
  rintro ⟨⟨_, h⟩, -⟩; cases h

/-- The hypotheses about reading floats: `.`, `?` and `!` are not floats. -/
def Punct (parseF64 : List Char → Option F) : Prop := parseF64 ['.'] = none ∧ parseF64 ['?'] = none ∧ parseF64 ['!'] = none

theorem text_two (printF64 : F → List Char) (sym : List Char) (x : Sexp F) : (Sexp.list [.symbol sym, x]).text printF64 =
    if sym = QUOTE then '\'' :: x.text printF64
    else if sym = QUASIQUOTE then '`' :: x.text printF64
    else if sym = UNQUOTE then ',' :: x.text printF64
    else if sym = UNQUOTE_SPLICING then ',' :: '@' :: x.text printF64
    else if sym = LOAD then '~' :: x.text printF64
    else if sym = CAPTURE then '\\' :: x.text printF64
    else if sym = TRY_QUESTION ∧ x.isList then x.text printF64 ++ ['?']
    else if sym = TRY_EXCLAMATION ∧ x.isList then x.text printF64 ++ ['!']
    else if sym = ANNOTATE then x.text printF64 ++ [' ', '{'] ++ ['}']
    else '(' :: separated (Sexp.texts printF64 [.symbol sym, x]) ++ [')'] := by
  simp only [Sexp.text, Sexp.texts, listText]

theorem text_many (printF64 : F → List Char) (sym : List Char) (x y : Sexp F) (ys : List (Sexp F)) :
    (Sexp.list (.symbol sym :: x :: y :: ys)).text printF64 =
    if sym = ANNOTATE then x.text printF64 ++ [' ', '{'] ++ separated (Sexp.texts printF64 (y :: ys)) ++ ['}']
    else '(' :: separated (Sexp.texts printF64 (.symbol sym :: x :: y :: ys)) ++ [')'] := by
  simp only [Sexp.text, Sexp.texts, listText]

theorem names_ne : (QUASIQUOTE = QUOTE) = False ∧ (UNQUOTE = QUOTE) = False ∧ (UNQUOTE = QUASIQUOTE) = False ∧
    (UNQUOTE_SPLICING = QUOTE) = False ∧ (UNQUOTE_SPLICING = QUASIQUOTE) = False ∧ (UNQUOTE_SPLICING = UNQUOTE) = False ∧
    (LOAD = QUOTE) = False ∧ (LOAD = QUASIQUOTE) = False ∧ (LOAD = UNQUOTE) = False ∧ (LOAD = UNQUOTE_SPLICING) = False ∧
    (CAPTURE = QUOTE) = False ∧ (CAPTURE = QUASIQUOTE) = False ∧ (CAPTURE = UNQUOTE) = False ∧ (CAPTURE = UNQUOTE_SPLICING) = False ∧
    (CAPTURE = LOAD) = False ∧
    (TRY_QUESTION = QUOTE) = False ∧ (TRY_QUESTION = QUASIQUOTE) = False ∧ (TRY_QUESTION = UNQUOTE) = False ∧
    (TRY_QUESTION = UNQUOTE_SPLICING) = False ∧ (TRY_QUESTION = LOAD) = False ∧ (TRY_QUESTION = CAPTURE) = False ∧
    (TRY_EXCLAMATION = QUOTE) = False ∧ (TRY_EXCLAMATION = QUASIQUOTE) = False ∧ (TRY_EXCLAMATION = UNQUOTE) = False ∧
    (TRY_EXCLAMATION = UNQUOTE_SPLICING) = False ∧ (TRY_EXCLAMATION = LOAD) = False ∧ (TRY_EXCLAMATION = CAPTURE) = False ∧
    (TRY_EXCLAMATION = TRY_QUESTION) = False ∧
    (ANNOTATE = QUOTE) = False ∧ (ANNOTATE = QUASIQUOTE) = False ∧ (ANNOTATE = UNQUOTE) = False ∧ (ANNOTATE = UNQUOTE_SPLICING) = False ∧
    (ANNOTATE = LOAD) = False ∧ (ANNOTATE = CAPTURE) = False ∧ (ANNOTATE = TRY_QUESTION) = False ∧ (ANNOTATE = TRY_EXCLAMATION) = False := by
  refine ⟨?_, ?_, ?_, ?_, ?_, ?_, ?_, ?_, ?_, ?_, ?_, ?_, ?_, ?_, ?_, ?_, ?_, ?_, ?_, ?_, ?_, ?_, ?_, ?_, ?_, ?_, ?_, ?_, ?_, ?_, ?_, ?_, ?_, ?_, ?_, ?_⟩ <;>
    exact eq_false (by decide +kernel)

theorem text_QUOTE (printF64 : F → List Char) (x : Sexp F) : (Sexp.list [.symbol QUOTE, x]).text printF64 = '\'' :: x.text printF64 := by
  rw [text_two]; simp only [names_ne, if_false, if_true]
theorem text_QUASIQUOTE (printF64 : F → List Char) (x : Sexp F) : (Sexp.list [.symbol QUASIQUOTE, x]).text printF64 = '`' :: x.text printF64 := by
  rw [text_two]; simp only [names_ne, if_false, if_true]
theorem text_UNQUOTE (printF64 : F → List Char) (x : Sexp F) : (Sexp.list [.symbol UNQUOTE, x]).text printF64 = ',' :: x.text printF64 := by
  rw [text_two]; simp only [names_ne, if_false, if_true]
theorem text_UNQUOTE_SPLICING (printF64 : F → List Char) (x : Sexp F) : (Sexp.list [.symbol UNQUOTE_SPLICING, x]).text printF64 = ',' :: '@' :: x.text printF64 := by
  rw [text_two]; simp only [names_ne, if_false, if_true]
theorem text_LOAD (printF64 : F → List Char) (x : Sexp F) : (Sexp.list [.symbol LOAD, x]).text printF64 = '~' :: x.text printF64 := by
  rw [text_two]; simp only [names_ne, if_false, if_true]
theorem text_CAPTURE (printF64 : F → List Char) (x : Sexp F) : (Sexp.list [.symbol CAPTURE, x]).text printF64 = '\\' :: x.text printF64 := by
  rw [text_two]; simp only [names_ne, if_false, if_true]
theorem text_TRY_QUESTION (printF64 : F → List Char) (l : List (Sexp F)) :
    (Sexp.list [.symbol TRY_QUESTION, .list l]).text printF64 = (Sexp.list l).text printF64 ++ ['?'] := by
  rw [text_two]; simp only [names_ne, if_false, if_true, Sexp.isList, false_and, and_self]
theorem text_TRY_EXCLAMATION (printF64 : F → List Char) (l : List (Sexp F)) :
    (Sexp.list [.symbol TRY_EXCLAMATION, .list l]).text printF64 = (Sexp.list l).text printF64 ++ ['!'] := by
  rw [text_two]; simp only [names_ne, if_false, if_true, Sexp.isList, false_and, and_self]
theorem text_ANNOTATE (printF64 : F → List Char) (x : Sexp F) (xs : List (Sexp F)) :
    (Sexp.list (.symbol ANNOTATE :: x :: xs)).text printF64 =
      x.text printF64 ++ [' ', '{'] ++ separated (Sexp.texts printF64 xs) ++ ['}'] := by
  cases xs with
  | nil => rw [text_two]; simp only [names_ne, if_false, if_true, false_and, Sexp.texts, separated, List.append_nil]
  | cons y ys => rw [text_many, if_pos rfl]

theorem good_list (hP : Punct parseF64) {ls : List (Sexp F)} (h : ∀ x ∈ ls, Good parseF64 printF64 x)
    (h1 : ∀ name l, name ∈ ["try?", "try!"] → .list ls = Spec.form name [.list l] → ¬ Spec.Marked (Sexp.list l) ∧ ¬ Spec.Tried (Sexp.list l))
    (h2 : ∀ x xs, .list ls = Spec.form "annotate" (x :: xs) → ¬ Spec.Marked x) : Good parseF64 printF64 (.list ls) := by
  by_cases hform : ∃ sym x xs, ls = .symbol sym :: x :: xs
  · obtain ⟨sym, x, xs, rfl⟩ := hform
    have hx := h x (by simp)
    have hxs : ∀ y ∈ xs, Good parseF64 printF64 y := fun y hy => h y (by simp [hy])
    by_cases ha : sym = ANNOTATE
    · subst ha
      exact good_annotate hx hxs (h2 x xs rfl) (text_ANNOTATE printF64 x xs)
    · cases xs with
      | cons y ys =>
        refine good_plainList h ?_
        rw [text_many, if_neg ha]
      | nil =>
        by_cases k1 : sym = QUOTE
        · subst k1; exact good_mark (m := ['\'']) .quote hx (text_QUOTE printF64 x) (by simp [Lexer.Spec.fixed]) ⟨_, _, rfl, by decide, by decide⟩
        by_cases k2 : sym = QUASIQUOTE
        · subst k2; exact good_mark (m := ['`']) .quasiquote hx (text_QUASIQUOTE printF64 x) (by simp [Lexer.Spec.fixed]) ⟨_, _, rfl, by decide, by decide⟩
        by_cases k3 : sym = UNQUOTE
        · subst k3; exact good_mark (m := [',']) .unquote hx (text_UNQUOTE printF64 x) (by simp [Lexer.Spec.fixed]) ⟨_, _, rfl, by decide, by decide⟩
        by_cases k4 : sym = UNQUOTE_SPLICING
        · subst k4; exact good_mark (m := [',', '@']) .unquoteSplicing hx (text_UNQUOTE_SPLICING printF64 x) (by simp [Lexer.Spec.fixed]) ⟨_, _, rfl, by decide, by decide⟩
        by_cases k5 : sym = LOAD
        · subst k5; exact good_mark (m := ['~']) .load hx (text_LOAD printF64 x) (by simp [Lexer.Spec.fixed]) ⟨_, _, rfl, by decide, by decide⟩
        by_cases k6 : sym = CAPTURE
        · subst k6; exact good_mark (m := ['\\']) .capture hx (text_CAPTURE printF64 x) (by simp [Lexer.Spec.fixed]) ⟨_, _, rfl, by decide, by decide⟩
        by_cases k7 : sym = TRY_QUESTION ∧ x.isList
        · obtain ⟨rfl, hl⟩ := k7
          cases x <;> simp [Sexp.isList] at hl
          rename_i l
          exact good_question hx hP.2.1 (h1 "try?" l (by simp) rfl) (text_TRY_QUESTION printF64 l)
        by_cases k8 : sym = TRY_EXCLAMATION ∧ x.isList
        · obtain ⟨rfl, hl⟩ := k8
          cases x <;> simp [Sexp.isList] at hl
          rename_i l
          exact good_exclamation hx hP.2.2 (h1 "try!" l (by simp) rfl) (text_TRY_EXCLAMATION printF64 l)
        refine good_plainList h ?_
        rw [text_two]
        simp only [k1, k2, k3, k4, k5, k6, k7, k8, ha, if_false]
  · refine good_plainList h ?_
    rw [Sexp.text]
    cases ls with
    | nil => rfl
    | cons a ls =>
      cases ls with
      | nil => cases a <;> rfl
      | cons b ls =>
        cases a <;> first
          | (exact absurd ⟨_, _, _, rfl⟩ hform)
          | (cases ls <;> rfl)

theorem escape_getD (s : List Char) : (Str.escape s).getD [] = Str.esc s := by rw [Str.escape_eq]; rfl

theorem faithful_good (hP : Punct parseF64) {x : Sexp F} (h : Spec.Faithful parseF64 printF64 x) : Good parseF64 printF64 x := by
  induction h with
  | unsigned n hn =>
    obtain ⟨d1, d2⟩ := digits_id n
    obtain ⟨d3, d4⟩ := digits_spec n
    exact good_atom (Head.of_id d1 d2) (.unsigned n) (fun rest hr => .unsigned _ _ _ ⟨d1, d2, hr⟩ ⟨_, .inl rfl, d3, d4, hn⟩)
  | negative n h1 h2 =>
    obtain ⟨d1, d2⟩ := digits_id (2 ^ 64 - n)
    obtain ⟨d3, d4⟩ := digits_spec (2 ^ 64 - n)
    have ht : (Sexp.integer true n).text printF64 = '-' :: digits (2 ^ 64 - n) := by
      rw [Sexp.text, signedText, if_neg (by omega)]
    refine good_atom (rep := .signed (-((2 ^ 64 - n : Nat) : Int))) ⟨'-', _, ht, by decide, by decide⟩ (.signed _ n h2 ⟨-1, ?_⟩) (fun rest hr => ?_)
    · have h64 : (2 : Int) ^ 64 = ((2 ^ 64 : Nat) : Int) := by decide
      rw [Int.ofNat_sub (by omega), h64]; omega
    · rw [ht]
      refine .signed _ _ _ ⟨by simp, ?_, hr⟩ ⟨_, rfl, d3, by rw [d4], ?_⟩
      · intro c hc
        simp only [List.mem_cons] at hc
        rcases hc with rfl | hc
        · decide
        · exact d2 c hc
      · have h63 : (2 : Int) ^ 63 = ((2 ^ 63 : Nat) : Int) := by decide
        rw [h63]
        have : 2 ^ 64 - n ≤ 2 ^ 63 := by omega
        omega
  | fpNumber f hf =>
    obtain ⟨f1, f2, f3, f4, f5⟩ := hf
    exact good_atom (Head.of_id f1 f2) (.fpNumber f) (fun rest hr => .fp _ _ _ ⟨f1, f2, hr⟩ f3 f4 f5)
  | symbol s hs =>
    obtain ⟨f1, f2, f3, f4, f5, f6⟩ := hs
    exact good_atom (Head.of_id f1 f2) (.symbol s) (fun rest hr => .symbol _ _ ⟨f1, f2, hr⟩ f3 f4 f5 f6)
  | string s =>
    refine good_atom ⟨'"', _, rfl, by decide, by decide⟩ (.string s) (fun rest hr => ?_)
    rw [Sexp.text, escape_getD]
    exact .string _ _ _ (Lexer.esc_inside s) (Str.esc_denotes s)
  | char c =>
    refine good_atom ⟨'#', _, rfl, by decide, by decide⟩ (.char c) (fun rest hr => ?_)
    rw [Sexp.text, escape_getD]
    exact .char _ _ _ (Str.esc_denotes [c])
  | bool b =>
    cases b
    · exact good_atom ⟨'#', _, rfl, by decide, by decide⟩ .false (fun rest hr => .fixed _ _ _ (by simp [Lexer.Spec.fixed, Sexp.text]) (by intro h; cases h))
    · exact good_atom ⟨'#', _, rfl, by decide, by decide⟩ .true (fun rest hr => .fixed _ _ _ (by simp [Lexer.Spec.fixed, Sexp.text]) (by intro h; cases h))
  | list ls _ h1 h2 ih => exact good_list hP ih h1 h2
  | listLike h i l _ _ _ h1 h2 ih1 ih2 ih3 => exact good_listLike hP.1 ih1 ih2 ih3 h1 h2

/-! ## Where an atom comes from -/

/-- An S-expression that is neither a list nor a dotted list. -/
def IsAtom (x : Sexp F) : Prop := (∀ l, x ≠ .list l) ∧ ∀ h i l, x ≠ .listLike h i l

theorem cons_not_atom (a b : Sexp F) : ¬ IsAtom (Spec.cons a b) := by
  intro h
  cases b <;> first | exact h.1 _ rfl | exact h.2 _ _ _ rfl

mutual
theorem S_atom : ∀ {u : List (Tok F)} {x}, Spec.S u x → IsAtom x → ∃ t ∈ u, Spec.Atom t x
  | _, _, .marked t u s name _ _, ha => absurd rfl (ha.1 _)
  | _, _, .term u s h, ha => T_atom h ha
theorem T_atom : ∀ {u : List (Tok F)} {x}, Spec.T u x → IsAtom x → ∃ t ∈ u, Spec.Atom t x
  | _, _, .atom t s h, _ => ⟨t, by simp, h⟩
  | _, _, .list l r u s _ h, ha => by
    obtain ⟨t, ht, h⟩ := B_atom h ha
    exact ⟨t, by simp [ht], h⟩
  | _, _, .question u s _, ha => absurd rfl (ha.1 _)
  | _, _, .exclamation u s _, ha => absurd rfl (ha.1 _)
  | _, _, .annotate u s v ss _ _, ha => absurd rfl (ha.1 _)
theorem B_atom : ∀ {u : List (Tok F)} {x}, Spec.B u x → IsAtom x → ∃ t ∈ u, Spec.Atom t x
  | _, _, .list u ss _, ha => absurd rfl (ha.1 _)
  | _, _, .nested u ss v s _ _, ha => absurd rfl (ha.1 _)
  | _, _, .dotted u [] v s _ h, ha => by
    obtain ⟨t, ht, h⟩ := S_atom h ha
    exact ⟨t, by simp [ht], h⟩
  | _, _, .dotted u (b :: ss) v s _ h, ha => absurd ha (cons_not_atom _ _)
end

theorem tokenizes_tok {pre text : List Char} {ts} (h : Tokenizes parseF64 pre text ts) : ∀ t ∈ ts, ∃ s rest, Lexer.Spec.Tok parseF64 t.rep s rest := by
  induction h with
  | nil => simp
  | cons pre s rest rep ts _ ht _ ih =>
    intro t hm
    simp only [List.mem_cons] at hm
    rcases hm with rfl | hm
    · exact ⟨s, rest, ht⟩
    · exact ih t hm

end Verif.Parser
