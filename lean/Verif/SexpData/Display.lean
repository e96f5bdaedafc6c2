import Verif.Parser.Print
import Verif.SexpData.Lemmas
import Verif.Str.Lemmas

/-!
# The texts that the standard library and the compiler write
-/

namespace Verif.SexpData

open Verif.Parser (QUOTE QUASIQUOTE UNQUOTE UNQUOTE_SPLICING LOAD CAPTURE TRY_QUESTION
  TRY_EXCLAMATION ANNOTATE digits signedText spaced separated text_two text_many)

variable {L F U : Type} {showF64 printF64 : F → List Char} {useText : U → List Char}

/-- A tree of cells is written as this text, with enough fuel. -/
def Shows (showF64 : F → List Char) (c : Cell L F U) (t : List Char) : Prop :=
  ∃ n0, ∀ n, n0 ≤ n → display showF64 n c = some t

/-- The rest of a list is written as this text. -/
def TailShows (showF64 : F → List Char) (c : Cell L F U) (t : List Char) : Prop :=
  ∃ n0, ∀ n, n0 ≤ n → displayTail showF64 n c = some t

/-- An abbreviation is written as this text. -/
def SugarShows (showF64 : F → List Char) (s : Sugar L F U) (t : List Char) : Prop :=
  ∃ n0, ∀ n, n0 ≤ n → displaySugar showF64 n s = some t

theorem eventually_succ {α : Type} {f : Nat → Option α} {a : α}
    (h : ∃ n0, ∀ n, n0 ≤ n → f (n + 1) = some a) : ∃ n0, ∀ n, n0 ≤ n → f n = some a := by
  obtain ⟨n0, h⟩ := h
  refine ⟨n0 + 1, fun n hn => ?_⟩
  obtain ⟨n, rfl⟩ : ∃ m, n = m + 1 := ⟨n - 1, by omega⟩
  exact h n (by omega)

theorem escaped_eq : (escaped : Char → List Char) = fun c => (Str.escapeChar c).getD [c] := by
  funext c
  have h : charEscape c = Str.escapeChar c := by
    unfold charEscape Str.escapeChar
    rfl
  unfold escaped
  rw [h]
  cases Str.escapeChar c <;> rfl

/-- Both escape strings alike. -/
theorem flatMap_escaped (s : List Char) : s.flatMap escaped = (Str.escape s).getD [] := by
  rw [Str.escape_eq, escaped_eq]
  rfl

theorem escaped_one (c : Char) : escaped c = (Str.escape [c]).getD [] := by
  rw [← flatMap_escaped]
  simp

theorem tail_nil (l : L) : TailShows showF64 (.nil l : Cell L F U) [] :=
  eventually_succ ⟨0, fun _ _ => by simp [displayTail]⟩

theorem tail_cons {l : L} {a d : Cell L F U} {t u : List Char} (ha : Shows showF64 a t)
    (hd : TailShows showF64 d u) : TailShows showF64 (.cons l a d) (' ' :: t ++ u) := by
  obtain ⟨n1, ha⟩ := ha
  obtain ⟨n2, hd⟩ := hd
  exact eventually_succ ⟨n1 + n2, fun n hn => by
    simp [displayTail, all3, ha n (by omega), hd n (by omega)]⟩

/-- The elements of a list, each with a space before it. -/
theorem tail_chain (l : L) (ss : List (Host L F U)) {c : Cell L F U} {u : List Char}
    (h : ∀ s ∈ ss, Shows showF64 (toCells s) ((s.erase useText).text printF64))
    (hc : TailShows showF64 c u) :
    TailShows showF64 (chain l ss c)
      (spaced (Parser.Sexp.texts printF64 (Host.eraseAll useText ss)) ++ u) := by
  induction ss with
  | nil => simpa [chain, Host.eraseAll, Parser.Sexp.texts, spaced] using hc
  | cons s ss ih =>
    have := tail_cons (l := l) (h s (by simp)) (ih fun s hs => h s (by simp [hs]))
    simpa [chain, Host.eraseAll, Parser.Sexp.texts, spaced] using this

/-- What follows a dot. -/
theorem tail_atom {c : Cell L F U} {t : List Char} (h1 : c.isCons = false) (h2 : c.isNil = false)
    (hc : Shows showF64 c t) : TailShows showF64 c ([' ', '.', ' '] ++ t) := by
  obtain ⟨n1, hc⟩ := hc
  refine eventually_succ ⟨n1, fun n hn => ?_⟩
  have := hc n hn
  cases c <;> simp_all [displayTail, all3, Cell.isCons, Cell.isNil]

theorem shows_plain {l : L} {a d : Cell L F U} {t u : List Char}
    (hs : sugar (.cons l a d) = none) (ha : Shows showF64 a t) (hd : TailShows showF64 d u) :
    Shows showF64 (.cons l a d) ('(' :: (t ++ u) ++ [')']) := by
  obtain ⟨n1, ha⟩ := ha
  obtain ⟨n2, hd⟩ := hd
  exact eventually_succ ⟨n1 + n2, fun n hn => by
    simp [display, hs, all3, followed, ha n (by omega), hd n (by omega)]⟩

theorem shows_sugar {l : L} {a d : Cell L F U} {ss : Sugar L F U} {t : List Char}
    (hs : sugar (.cons l a d) = some ss) (h : SugarShows showF64 ss t) :
    Shows showF64 (.cons l a d) t := by
  obtain ⟨n1, h⟩ := h
  exact eventually_succ ⟨n1, fun n hn => by simp [display, hs, h n hn]⟩

theorem proper_chain (l m : L) (ss : List (Host L F U)) :
    isProper (chain l ss (.nil m)) = true := by
  induction ss with
  | nil => simp [chain, isProper]
  | cons s ss ih => simpa [chain, isProper] using ih

theorem not_proper_chain (l : L) (ss : List (Host L F U)) (t : Host L F U) (h : t.isList = false)
    (hn : t.Ok) : isProper (chain l ss (toCells t)) = false := by
  induction ss with
  | nil => cases t <;> simp_all [chain, isProper, toCells, Host.isList, Host.Ok]
  | cons s ss ih => simpa [chain, isProper] using ih

theorem atom_not (t : Host L F U) (h : t.isList = false) (hn : t.Ok) :
    (toCells t).isCons = false ∧ (toCells t).isNil = false := by
  cases t <;> simp_all [toCells, Host.isList, Host.Ok, Cell.isCons, Cell.isNil]

theorem sugar_two (l m k j : L) (sym : List Char) (c : Cell L F U) :
    sugar (.cons l (.symbol m sym) (.cons k c (.nil j))) =
      if sym = QUOTE then some (.quote c)
      else if sym = QUASIQUOTE then some (.quasiquote c)
      else if sym = UNQUOTE then some (.unquote c)
      else if sym = UNQUOTE_SPLICING then some (.unquoteSplicing c)
      else if sym = LOAD then some (.load c)
      else if sym = CAPTURE then some (.capture c)
      else if sym = TRY_QUESTION ∧ c.isCons then some (.tryQuestion c)
      else if sym = TRY_EXCLAMATION ∧ c.isCons then some (.tryExclamation c)
      else if sym = ANNOTATE then some (.annotate c (.nil j))
      else none := by
  simp [sugar, isProper, Cell.isNil]

theorem sugar_many (l m k j : L) (sym : List Char) (c a d : Cell L F U) (hd : isProper d = true) :
    sugar (.cons l (.symbol m sym) (.cons k c (.cons j a d))) =
      if sym = ANNOTATE then some (.annotate c (.cons j a d)) else none := by
  simp [sugar, isProper, Cell.isNil, hd]

theorem sugar_other (l : L) (a d : Cell L F U) (h : ∀ m sym, a ≠ .symbol m sym) :
    sugar (.cons l a d) = none := by
  unfold sugar
  split
  · split
    · rename_i heq
      cases heq
      exact absurd rfl (h _ _)
    · rfl
  · rfl

/-- An abbreviation in front. -/
theorem sugar_mark {s : Sugar L F U} {c : Cell L F U} {pre t : List Char}
    (hs : ∀ n, displaySugar showF64 (n + 1) s = all3 pre (display showF64 n c) (some []))
    (hc : Shows showF64 c t) : SugarShows showF64 s (pre ++ t) := by
  obtain ⟨n1, hc⟩ := hc
  exact eventually_succ ⟨n1, fun n hn => by simp [hs, all3, hc n hn]⟩

/-- An abbreviation behind. -/
theorem sugar_post {s : Sugar L F U} {c : Cell L F U} {post t : List Char}
    (hs : ∀ n, displaySugar showF64 (n + 1) s = followed (display showF64 n c) post)
    (hc : Shows showF64 c t) : SugarShows showF64 s (t ++ post) := by
  obtain ⟨n1, hc⟩ := hc
  exact eventually_succ ⟨n1, fun n hn => by simp [hs, followed, hc n hn]⟩

theorem sugar_annotate {l : L} {c a d : Cell L F U} {t u v : List Char} (hc : Shows showF64 c t)
    (ha : Shows showF64 a u) (hd : TailShows showF64 d v) :
    SugarShows showF64 (.annotate c (.cons l a d)) (t ++ [' ', '{'] ++ (u ++ v) ++ ['}']) := by
  obtain ⟨n1, hc⟩ := hc
  obtain ⟨n2, ha⟩ := ha
  obtain ⟨n3, hd⟩ := hd
  exact eventually_succ ⟨n1 + n2 + n3, fun n hn => by
    simp [displaySugar, followed, all3, hc n (by omega), ha n (by omega), hd n (by omega)]⟩

theorem isCons_iff (s : Host L F U) (h : ¬ ((∃ m, s = .list m []) ∨ ∃ m h i t, s = .listLike m h i t)) :
    ((toCells s).isCons = true) ↔ (s.erase useText).isList = true := by
  cases s with
  | list m ss =>
    cases ss with
    | nil => exact absurd (.inl ⟨m, rfl⟩) h
    | cons x xs => simp [toCells, chain, Cell.isCons, Host.erase, Parser.Sexp.isList]
  | listLike m hd i t => exact absurd (.inr ⟨m, hd, i, t, rfl⟩) h
  | _ => simp [toCells, Cell.isCons, Host.erase, Parser.Sexp.isList]

/-- A list with a symbol and one more element. -/
theorem shows_two (l m : L) (sym : List Char) (x : Host L F U)
    (hx : Shows showF64 (toCells x) ((x.erase useText).text printF64))
    (ho : ¬ OddTry [.symbol m sym, x]) :
    Shows showF64 (toCells (.list l [.symbol m sym, x]))
      (((Host.list l [.symbol m sym, x]).erase useText).text printF64) := by
  have e : ((Host.list l [.symbol m sym, x]).erase useText) =
      .list [.symbol sym, x.erase useText] := by simp [Host.erase, Host.eraseAll]
  have hk : toCells (.list l [.symbol m sym, x]) =
      .cons l (.symbol m sym) (.cons l (toCells x) (.nil l)) := by simp [toCells, chain]
  rw [e, hk, text_two]
  have hs := sugar_two (F := F) (U := U) l m l l sym (toCells x)
  by_cases h1 : sym = QUOTE
  · rw [if_pos h1] at hs ⊢
    exact shows_sugar hs (sugar_mark (pre := ['\'']) (fun _ => by simp [displaySugar]) hx)
  rw [if_neg h1] at hs ⊢
  by_cases h2 : sym = QUASIQUOTE
  · rw [if_pos h2] at hs ⊢
    exact shows_sugar hs (sugar_mark (pre := ['`']) (fun _ => by simp [displaySugar]) hx)
  rw [if_neg h2] at hs ⊢
  by_cases h3 : sym = UNQUOTE
  · rw [if_pos h3] at hs ⊢
    exact shows_sugar hs (sugar_mark (pre := [',']) (fun _ => by simp [displaySugar]) hx)
  rw [if_neg h3] at hs ⊢
  by_cases h4 : sym = UNQUOTE_SPLICING
  · rw [if_pos h4] at hs ⊢
    exact shows_sugar hs (sugar_mark (pre := [',', '@']) (fun _ => by simp [displaySugar]) hx)
  rw [if_neg h4] at hs ⊢
  by_cases h5 : sym = LOAD
  · rw [if_pos h5] at hs ⊢
    exact shows_sugar hs (sugar_mark (pre := ['~']) (fun _ => by simp [displaySugar]) hx)
  rw [if_neg h5] at hs ⊢
  by_cases h6 : sym = CAPTURE
  · rw [if_pos h6] at hs ⊢
    exact shows_sugar hs (sugar_mark (pre := ['\\']) (fun _ => by simp [displaySugar]) hx)
  rw [if_neg h6] at hs ⊢
  have key : (sym = TRY_QUESTION ∨ sym = TRY_EXCLAMATION) →
      ((toCells x).isCons = true ↔ (x.erase useText).isList = true) := fun ht =>
    isCons_iff x fun hx => ho ⟨m, sym, x, rfl, ht, hx⟩
  by_cases h7 : sym = TRY_QUESTION ∧ (toCells x).isCons
  · rw [if_pos h7] at hs
    rw [if_pos ⟨h7.1, (key (.inl h7.1)).1 h7.2⟩]
    exact shows_sugar hs (sugar_post (fun _ => by simp [displaySugar]) hx)
  rw [if_neg h7] at hs
  rw [if_neg fun h => h7 ⟨h.1, (key (.inl h.1)).2 h.2⟩]
  by_cases h8 : sym = TRY_EXCLAMATION ∧ (toCells x).isCons
  · rw [if_pos h8] at hs
    rw [if_pos ⟨h8.1, (key (.inr h8.1)).1 h8.2⟩]
    exact shows_sugar hs (sugar_post (fun _ => by simp [displaySugar]) hx)
  rw [if_neg h8] at hs
  rw [if_neg fun h => h8 ⟨h.1, (key (.inr h.1)).2 h.2⟩]
  by_cases h9 : sym = ANNOTATE
  · rw [if_pos h9] at hs ⊢
    have := shows_sugar hs (sugar_post (post := [' ', '{', '}']) (fun _ => by simp [displaySugar]) hx)
    simpa using this
  rw [if_neg h9] at hs ⊢
  have := shows_plain hs (eventually_succ ⟨0, fun _ _ => by simp [display]⟩ : Shows showF64 _ sym)
    (tail_cons (l := l) hx (tail_nil l))
  simpa [Parser.Sexp.texts, Parser.Sexp.text, separated, spaced] using this

/-- A list that is not abbreviated. -/
theorem shows_list_plain (l : L) (x : Host L F U) (xs : List (Host L F U))
    (hs : sugar (.cons l (toCells x) (chain l xs (.nil l))) = none)
    (hx : Shows showF64 (toCells x) ((x.erase useText).text printF64))
    (hxs : ∀ s ∈ xs, Shows showF64 (toCells s) ((s.erase useText).text printF64)) :
    Shows showF64 (toCells (.list l (x :: xs)))
      ('(' :: separated (Parser.Sexp.texts printF64 (Host.eraseAll useText (x :: xs))) ++ [')']) := by
  have := shows_plain hs hx (tail_chain l xs hxs (tail_nil l))
  simpa [toCells, chain, Host.eraseAll, Parser.Sexp.texts, separated] using this

theorem shows_list (l : L) (ss : List (Host L F U))
    (h : ∀ s ∈ ss, Shows showF64 (toCells s) ((s.erase useText).text printF64))
    (ho : ¬ OddTry ss) :
    Shows showF64 (toCells (.list l ss)) (((Host.list l ss).erase useText).text printF64) := by
  match ss with
  | [] =>
    refine eventually_succ ⟨0, fun _ _ => ?_⟩
    simp [toCells, chain, display, Host.erase, Host.eraseAll, Parser.Sexp.text, Parser.listText,
      Parser.Sexp.texts, separated]
  | [x] =>
    have hx := h x (by simp)
    have := shows_list_plain (useText := useText) (printF64 := printF64) l x [] (by
      unfold sugar
      split
      · split
        · rename_i heq
          simp [chain] at heq
        · rfl
      · rfl) hx (by simp)
    simpa [Host.erase, Host.eraseAll, Parser.Sexp.text, Parser.listText, Parser.Sexp.texts] using this
  | x :: y :: ys =>
    by_cases hsym : ∃ m sym, x = .symbol m sym
    · obtain ⟨m, sym, rfl⟩ := hsym
      cases ys with
      | nil => exact shows_two l m sym y (h y (by simp)) ho
      | cons z zs =>
        have hs := sugar_many (F := F) (U := U) l m l l sym (toCells y) (toCells z)
          (chain l zs (.nil l)) (proper_chain l l zs)
        have e : (Host.list l (.symbol m sym :: y :: z :: zs)).erase useText =
            .list (.symbol sym :: y.erase useText :: z.erase useText :: Host.eraseAll useText zs) := by
          simp [Host.erase, Host.eraseAll]
        rw [e, text_many]
        by_cases ha : sym = ANNOTATE
        · rw [if_pos ha] at hs ⊢
          have := shows_sugar hs (sugar_annotate (h y (by simp)) (h z (by simp))
            (tail_chain l zs (fun s hs => h s (by simp [hs])) (tail_nil l)))
          simpa [toCells, chain, Host.eraseAll, Parser.Sexp.texts, separated] using this
        · rw [if_neg ha] at hs ⊢
          have := shows_list_plain (useText := useText) (printF64 := printF64) l (.symbol m sym)
            (y :: z :: zs) (by simpa [toCells, chain] using hs) (h _ (by simp))
            (fun s hs => h s (List.mem_cons_of_mem _ hs))
          simpa [Host.erase, Host.eraseAll] using this
    · have hn : ∀ m sym, toCells x ≠ .symbol m sym := by
        intro m sym he
        cases x <;> simp_all [toCells]
        rename_i ss
        cases ss <;> simp [chain] at he
      have := shows_list_plain (useText := useText) (printF64 := printF64) l x (y :: ys)
        (sugar_other l _ _ hn) (h x (by simp)) (fun s hs => h s (List.mem_cons_of_mem _ hs))
      have e : ((Host.list l (x :: y :: ys)).erase useText).text printF64 =
          '(' :: separated (Parser.Sexp.texts printF64 (Host.eraseAll useText (x :: y :: ys))) ++
            [')'] := by
        cases x <;> simp_all [Host.erase, Host.eraseAll, Parser.Sexp.text, Parser.listText,
          Parser.Sexp.texts]
      rw [e]
      exact this

theorem shows_listLike (l : L) (hd : Host L F U) (i : List (Host L F U)) (t : Host L F U)
    (hh : Shows showF64 (toCells hd) ((hd.erase useText).text printF64))
    (hi : ∀ s ∈ i, Shows showF64 (toCells s) ((s.erase useText).text printF64))
    (ht : Shows showF64 (toCells t) ((t.erase useText).text printF64))
    (hl : t.isList = false) (ho : t.Ok) :
    Shows showF64 (toCells (.listLike l hd i t))
      (((Host.listLike l hd i t).erase useText).text printF64) := by
  have hs : sugar (.cons l (toCells hd) (chain l i (toCells t))) = none := by
    unfold sugar
    rw [if_neg]
    simp [isProper, not_proper_chain l i t hl ho]
  have ha := atom_not t hl ho
  have := shows_plain hs hh (tail_chain l i hi (tail_atom ha.1 ha.2 ht))
  simpa [toCells, Host.erase, Parser.Sexp.text] using this

mutual
/-- The texts are the same. -/
theorem shows_text (s : Host L F U) (ho : s.Ok) (hp : s.Plain showF64 printF64 useText) :
    Shows showF64 (toCells s) ((s.erase useText).text printF64) := by
  match s with
  | .integer _ true _ =>
    exact eventually_succ ⟨0, fun _ _ => by simp [toCells, display, Host.erase, Parser.Sexp.text]⟩
  | .integer _ false _ =>
    exact eventually_succ ⟨0, fun _ _ => by simp [toCells, display, Host.erase, Parser.Sexp.text]⟩
  | .fpNumber _ f =>
    simp only [Host.Plain] at hp
    exact eventually_succ ⟨0, fun _ _ => by
      simp [toCells, display, Host.erase, Parser.Sexp.text, hp]⟩
  | .symbol .. =>
    exact eventually_succ ⟨0, fun _ _ => by simp [toCells, display, Host.erase, Parser.Sexp.text]⟩
  | .string .. =>
    exact eventually_succ ⟨0, fun _ _ => by
      simp [toCells, display, Host.erase, Parser.Sexp.text, debugString, flatMap_escaped]⟩
  | .char .. =>
    exact eventually_succ ⟨0, fun _ _ => by
      simp [toCells, display, Host.erase, Parser.Sexp.text, debugChar, escaped_one]⟩
  | .bool _ true =>
    exact eventually_succ ⟨0, fun _ _ => by simp [toCells, display, Host.erase, Parser.Sexp.text]⟩
  | .bool _ false =>
    exact eventually_succ ⟨0, fun _ _ => by simp [toCells, display, Host.erase, Parser.Sexp.text]⟩
  | .use _ u =>
    simp only [Host.Plain] at hp
    exact eventually_succ ⟨0, fun _ _ => by
      simp [toCells, display, Host.erase, Parser.Sexp.text, hp]⟩
  | .native _ => simp [Host.Ok] at ho
  | .list l ss =>
    simp only [Host.Ok] at ho
    simp only [Host.Plain] at hp
    exact shows_list l ss (shows_all ss ho hp.1) hp.2
  | .listLike l hd i t =>
    simp only [Host.Ok] at ho
    simp only [Host.Plain] at hp
    exact shows_listLike l hd i t (shows_text hd ho.1 hp.1) (shows_all i ho.2.1 hp.2.1)
      (shows_text t ho.2.2.1 hp.2.2) ho.2.2.2 ho.2.2.1

theorem shows_all (ss : List (Host L F U)) (ho : Host.OkAll ss)
    (hp : Host.PlainAll showF64 printF64 useText ss) :
    ∀ s ∈ ss, Shows showF64 (toCells s) ((s.erase useText).text printF64) := by
  match ss with
  | [] => simp
  | s :: ss =>
    simp only [Host.OkAll] at ho
    simp only [Host.PlainAll] at hp
    have h1 := shows_text s ho.1 hp.1
    have h2 := shows_all ss ho.2 hp.2
    intro x hx
    rcases List.mem_cons.1 hx with rfl | hx
    · exact h1
    · exact h2 x hx
end

end Verif.SexpData
