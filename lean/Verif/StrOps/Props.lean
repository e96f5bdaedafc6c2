import Verif.StrOps.Lemmas

/-!
# C41 and C51: string operations end and keep strings well-formed
-/
namespace Verif.StrOps
open Verif.Utf8 Verif.Utf8.Spec Verif.StrOps.Spec

theorem bind_ok {α β : Type} (a : α) (f : α → M β) : (Except.ok a >>= f) = f a := rfl
theorem bind_error {α β : Type} (e : Err) (f : α → M β) : ((Except.error e : M α) >>= f) = .error e := rfl

/-! ## Slices -/

/-- Slicing a well-formed string succeeds exactly from one character boundary to a later one, and gives a well-formed string. -/
theorem substring_text (s : List Nat) (hs : Text s) (i j : Nat) :
    (∃ r, substring i j s = some r) ↔ ∃ a b c, Text a ∧ Text b ∧ Text c ∧ s = a ++ b ++ c ∧ i = a.length ∧ j = (a ++ b).length := by
  obtain ⟨xs, hx, rfl⟩ := hs
  constructor
  · rintro ⟨r, h⟩
    obtain ⟨as, bs, cs, rfl, rfl, rfl, rfl⟩ := (substring_spec xs hx i j r).1 h
    refine ⟨utf8s as, utf8s bs, utf8s cs, ⟨as, fun y hy => hx y (by simp [hy]), rfl⟩, ⟨bs, fun y hy => hx y (by simp [hy]), rfl⟩,
      ⟨cs, fun y hy => hx y (by simp [hy]), rfl⟩, by simp [utf8s_append], rfl, by simp [utf8s_append]⟩
  · rintro ⟨a, b, c, ⟨as, ha, rfl⟩, ⟨bs, hb, rfl⟩, ⟨cs, hc, rfl⟩, e, rfl, rfl⟩
    refine ⟨utf8s bs, (substring_spec xs hx _ _ _).2 ⟨as, bs, cs, ?_, rfl, by simp [utf8s_append], rfl⟩⟩
    refine utf8s_injective _ _ hx ?_ (by simpa [utf8s_append] using e)
    intro x h
    rcases List.mem_append.1 h with h | h
    · rcases List.mem_append.1 h with h | h
      · exact ha x h
      · exact hb x h
    · exact hc x h

/-- The slice is the bytes between the two boundaries, and it is well-formed. -/
theorem substring_ok (a b c : List Nat) (ha : Text a) (hb : Text b) (hc : Text c) :
    substring a.length (a ++ b).length (a ++ b ++ c) = some b := by
  have h1 := text_boundary ha (text_append hb hc)
  have h2 := text_boundary (text_append ha hb) hc
  rw [← List.append_assoc] at h1
  rw [substring, if_pos ⟨⟨by simp, by simp⟩, h1, h2⟩]
  simp

/-- `string/take` of a well-formed beginning. -/
theorem take_ok (a b : List Nat) (ha : Text a) (hb : Text b) : take a.length (a ++ b) = .ok a := by
  have := substring_ok [] a b text_nil ha hb
  have e : min a.length (a ++ b).length = a.length := by simp
  rw [take, e]
  simp only [List.nil_append, List.length_nil] at this
  rw [this]; rfl

/-- `string/skip` of a well-formed beginning. -/
theorem skip_ok (a b : List Nat) (ha : Text a) (hb : Text b) : skip a.length (a ++ b) = .ok b := by
  have := substring_ok a b [] ha hb text_nil
  have e : min a.length (a ++ b).length = a.length := by simp
  rw [skip, e]
  rw [List.append_nil] at this
  rw [this]; rfl

/-- Beyond the end, taking gives the whole string and skipping gives nothing. -/
theorem take_skip_beyond (n : Nat) (s : List Nat) (hs : Text s) (h : s.length ≤ n) : take n s = .ok s ∧ skip n s = .ok [] := by
  have e : min n s.length = s.length := by omega
  have h1 := substring_ok [] s [] text_nil hs text_nil
  have h2 := substring_ok s [] [] hs text_nil text_nil
  simp only [List.append_nil, List.nil_append, List.length_nil] at h1 h2
  exact ⟨by rw [take, e, h1]; rfl, by rw [skip, e, h2]; rfl⟩

/-- Taking or skipping within a character fails an assertion instead of giving a string that is not well-formed. -/
theorem take_skip_text (n : Nat) (s r : List Nat) (hs : Text s) (h : take n s = .ok r ∨ skip n s = .ok r) : Text r := by
  have key : ∀ i j, substring i j s = some r → Text r := by
    intro i j h
    obtain ⟨xs, hx, rfl⟩ := hs
    obtain ⟨as, bs, cs, rfl, _, _, rfl⟩ := (substring_spec xs hx i j r).1 h
    exact ⟨bs, fun y hy => hx y (by simp [hy]), rfl⟩
  rcases h with h | h
  · unfold take at h
    cases e : substring 0 (min n s.length) s with
    | none => rw [e] at h; cases h
    | some r' => rw [e] at h; cases h; exact key _ _ e
  · unfold skip at h
    cases e : substring (min n s.length) s.length s with
    | none => rw [e] at h; cases h
    | some r' => rw [e] at h; cases h; exact key _ _ e

/-! ## Searching -/

/-- `string/contains?` says whether the part occurs anywhere. -/
theorem contains_iff (part s : List Nat) (hp : Text part) (hs : Text s) (hl : s.length < 2 ^ 64) :
    ∃ r, contains part s = .ok r ∧ (r = true ↔ ∃ a b, s = a ++ part ++ b) := by
  unfold contains
  by_cases h0 : part.length = 0
  · have : part = [] := List.length_eq_zero_iff.1 h0
    subst this
    exact ⟨true, rfl, by simpa using ⟨[], s, rfl⟩⟩
  · rw [if_neg h0]
    have hf := find_spec part s hp hs hl
    rw [find, if_neg h0] at hf
    rcases hf with ⟨i, ⟨⟨a, b, e, _⟩, _⟩, hf⟩ | ⟨hn, hf⟩
    · rw [hf]
      exact ⟨true, rfl, by simpa using ⟨a, b, by simpa using e⟩⟩
    · rw [hf]
      refine ⟨false, rfl, ?_⟩
      simp only [Bool.false_eq_true, false_iff]
      rintro ⟨a, b, e⟩
      exact hn _ ⟨a, b, e, rfl⟩

/-- The library cannot search a well-formed string with a character beyond 111411: the assertion of the decoder fails. -/
theorem find_fails_partial : ∃ s x, Scalar x ∧ s = utf8 x ∧ find [97] s = .error .assertion :=
  ⟨utf8 0x1F600, 0x1F600, by unfold Scalar; omega, rfl, rfl⟩

/-! ## Splitting and joining -/

/-- `string/split` of a non-empty separator: it ends, and gives the parts between the leftmost separators. -/
theorem splitLoop_spec (sep : List Nat) (hsep : Text sep) (hne : sep ≠ []) (fuel : Nat) :
    ∀ s, Text s → s.length < 2 ^ 64 → s.length < fuel → ∃ parts, splitLoop sep fuel s = .ok parts ∧ Cut sep s parts := by
  have hpos := List.length_pos_iff.2 hne
  induction fuel with
  | zero => intro s _ _ h; omega
  | succ fuel ih =>
    intro s hs hl hf
    rw [splitLoop]
    rcases find_spec sep s hsep hs hl with ⟨i, ⟨⟨a, b, e, rfl⟩, hmin⟩, hfind⟩ | ⟨hn, hfind⟩
    · subst e
      rw [hfind, bind_ok]
      simp only [cut_to_end, cut_zero]
      have ed : (a ++ sep ++ b).drop (a.length + sep.length) = b := by
        rw [← List.length_append, List.drop_left]
      have et : (a ++ sep ++ b).take a.length = a := by
        rw [List.append_assoc, List.take_left]
      simp only [ed, et]
      have hlen : (a ++ sep ++ b).length = a.length + sep.length + b.length := by simp; omega
      obtain ⟨parts, e, hc⟩ := ih b (text_after hsep hne hs) (by omega) (by omega)
      rw [e]
      exact ⟨_, rfl, .cut a b parts ⟨⟨a, b, rfl, rfl⟩, hmin⟩ hc⟩
    · rw [hfind]
      exact ⟨_, rfl, .last s hn⟩

theorem singles_utf8s (xs : List Nat) (h : ∀ x ∈ xs, Known x) : singles xs = .ok (xs.map utf8) := by
  induction xs with
  | nil => rfl
  | cons x xs ih =>
    rw [singles, from_chars [x] (fun y hy => by rw [List.mem_singleton.1 hy]; exact h x (by simp)),
      ih (fun y hy => h y (by simp [hy]))]
    simp [lift, bind_ok, utf8s]

/-- **C51.** Splitting ends, whatever the two strings. -/
theorem split_ends (sep s : List Nat) (hsep : Text sep) (hs : Text s) (hl : s.length < 2 ^ 64) :
    ∃ parts, split (s.length + 1) sep s = .ok parts := by
  unfold split
  by_cases h0 : sep.length = 0
  · rw [if_pos h0]
    obtain ⟨xs, hx, rfl⟩ := hs
    rw [chars_utf8s xs hx]
    simp only [lift, bind_ok, singles_utf8s xs hx]
    exact ⟨_, rfl⟩
  · rw [if_neg h0]
    obtain ⟨parts, e, _⟩ := splitLoop_spec sep hsep (by intro h; simp [h] at h0) (s.length + 1) s hs hl (by omega)
    exact ⟨parts, e⟩

/-- **C41.** Splitting gives well-formed parts, and joining these gives the original; the parts are those between the leftmost
occurrences of the separator, and the characters if the separator is empty. -/
theorem split_join (sep s : List Nat) (hsep : Text sep) (hs : Text s) (hl : s.length < 2 ^ 64) :
    ∃ parts, split (s.length + 1) sep s = .ok parts ∧ (∀ p ∈ parts, Text p) ∧ join sep parts = s ∧
      (sep ≠ [] → Cut sep s parts) ∧ (sep = [] → ∃ xs, (∀ x ∈ xs, Known x) ∧ s = utf8s xs ∧ parts = xs.map utf8) := by
  unfold split
  by_cases h0 : sep.length = 0
  · have e0 : sep = [] := List.length_eq_zero_iff.1 h0
    subst e0
    obtain ⟨xs, hx, rfl⟩ := hs
    refine ⟨xs.map utf8, ?_, ?_, ?_, fun h => absurd rfl h, fun _ => ⟨xs, hx, rfl, rfl⟩⟩
    · simp only [List.length_nil, if_true, chars_utf8s xs hx, lift, bind_ok, singles_utf8s xs hx]
    · intro p hp
      obtain ⟨x, hx', rfl⟩ := List.mem_map.1 hp
      exact text_char x (hx x hx')
    · rw [join_eq]
      clear hl hx
      induction xs with
      | nil => rfl
      | cons x xs ih =>
        cases xs with
        | nil => simp [glue, utf8s]
        | cons y ys =>
          have : utf8s (x :: y :: ys) = utf8 x ++ utf8s (y :: ys) := by simp [utf8s]
          rw [this, ← ih]
          simp [glue]
  · have hne : sep ≠ [] := by intro h; simp [h] at h0
    rw [if_neg h0]
    obtain ⟨parts, e, hc⟩ := splitLoop_spec sep hsep hne (s.length + 1) s hs hl (by omega)
    exact ⟨parts, e, cut_text hsep hne hc hs, by rw [join_eq, cut_glue hc], fun _ => hc, fun h => absurd h hne⟩

/-- **C41.** Joining well-formed strings gives them with the separator in between, well-formed. -/
theorem join_text (sep : List Nat) (ss : List (List Nat)) (hsep : Text sep) (h : ∀ s ∈ ss, Text s) :
    join sep ss = glue sep ss ∧ Text (join sep ss) := by
  rw [join_eq]
  exact ⟨rfl, glue_text hsep ss h⟩

/-- A string cut at the leftmost separators is so in one way only. -/
theorem cut_unique (sep s : List Nat) (ps qs) (h1 : Cut sep s ps) (h2 : Cut sep s qs) : ps = qs := by
  induction h1 generalizing qs with
  | last s hn =>
    cases h2 with
    | last => rfl
    | cut a b _ _ _ => exact absurd ⟨a, b, rfl, rfl⟩ (hn a.length)
  | cut a b parts hf _ ih =>
    generalize hs : a ++ sep ++ b = s at h2
    cases h2 with
    | last hn => subst hs; exact absurd ⟨a, b, rfl, rfl⟩ (‹∀ i, ¬ At sep _ i› a.length)
    | cut a' b' parts' hf' hc' =>
      have h1 := hf.2 a'.length (by rw [hs]; exact ⟨a', b', rfl, rfl⟩)
      have h2 := hf'.2 a.length (by rw [← hs]; exact ⟨a, b, rfl, rfl⟩)
      have hl : a.length = a'.length := by omega
      rw [List.append_assoc, List.append_assoc] at hs
      obtain ⟨rfl, e⟩ := List.append_inj hs hl
      have := List.append_cancel_left e
      subst this
      rw [ih _ hc']

/-! ## Replacing -/

theorem replaceEmpty_eq (to : List Nat) (xs : List Nat) (h : ∀ x ∈ xs, Known x) :
    ∀ buf, replaceEmpty to buf xs = .ok (buf ++ (xs.map (utf8 · ++ to)).flatten) := by
  induction xs with
  | nil => intro buf; simp [replaceEmpty]
  | cons x xs ih =>
    intro buf
    rw [replaceEmpty, displayChar_known x (h x (by simp))]
    simp only [lift, bind_ok]
    rw [ih (fun y hy => h y (by simp [hy]))]
    simp

theorem replaceLoop_spec («from» to : List Nat) (hf : Text «from») (hne : «from» ≠ []) (fuel : Nat) :
    ∀ s buf, Text s → s.length < 2 ^ 64 → s.length < fuel →
      ∃ parts, replaceLoop «from» to fuel buf s = .ok (buf ++ glue to parts) ∧ Cut «from» s parts := by
  have hpos := List.length_pos_iff.2 hne
  induction fuel with
  | zero => intro s _ _ _ h; omega
  | succ fuel ih =>
    intro s buf hs hl hfu
    rw [replaceLoop]
    rcases find_spec «from» s hf hs hl with ⟨i, ⟨⟨a, b, e, rfl⟩, hmin⟩, hfind⟩ | ⟨hn, hfind⟩
    · subst e
      rw [hfind, bind_ok]
      simp only [cut_to_end, cut_zero]
      have ed : (a ++ «from» ++ b).drop (a.length + «from».length) = b := by
        rw [← List.length_append, List.drop_left]
      have et : (a ++ «from» ++ b).take a.length = a := by
        rw [List.append_assoc, List.take_left]
      simp only [ed, et]
      have hlen : (a ++ «from» ++ b).length = a.length + «from».length + b.length := by simp; omega
      obtain ⟨parts, e, hc⟩ := ih b (buf ++ a ++ to) (text_after hf hne hs) (by omega) (by omega)
      refine ⟨a :: parts, ?_, .cut a b parts ⟨⟨a, b, rfl, rfl⟩, hmin⟩ hc⟩
      rw [e]
      cases parts with
      | nil => cases hc
      | cons p ps => simp [glue]
    · rw [hfind]
      exact ⟨[s], rfl, .last s hn⟩

/-- **C41, C51.** Replacing ends and gives a well-formed string: what stays between the leftmost occurrences of `from`, with `to`
in between.  An empty `from` puts `to` before, between and after the characters. -/
theorem replace_spec («from» to s : List Nat) (hf : Text «from») (ht : Text to) (hs : Text s) (hl : s.length < 2 ^ 64) :
    ∃ r, replace (s.length + 1) «from» to s = .ok r ∧ Text r ∧
      («from» ≠ [] → ∃ parts, Cut «from» s parts ∧ r = glue to parts) ∧
      («from» = [] → ∃ xs, (∀ x ∈ xs, Known x) ∧ s = utf8s xs ∧ r = to ++ (xs.map (utf8 · ++ to)).flatten) := by
  unfold replace
  by_cases h0 : «from».length = 0
  · have e0 : «from» = [] := List.length_eq_zero_iff.1 h0
    subst e0
    obtain ⟨xs, hx, rfl⟩ := hs
    refine ⟨to ++ (xs.map (utf8 · ++ to)).flatten, ?_, ?_, fun h => absurd rfl h, fun _ => ⟨xs, hx, rfl, rfl⟩⟩
    · simp only [List.length_nil, if_true, chars_utf8s xs hx, lift, bind_ok, replaceEmpty_eq to xs hx]
    · refine text_append ht ?_
      clear hl
      induction xs with
      | nil => exact text_nil
      | cons x xs ih =>
        simp only [List.map_cons, List.flatten_cons]
        exact text_append (text_append (text_char x (hx x (by simp))) ht) (ih (fun y hy => hx y (by simp [hy])))
  · have hne : «from» ≠ [] := by intro h; simp [h] at h0
    have hpos := List.length_pos_iff.2 hne
    rw [if_neg h0]
    rcases find_spec «from» s hf hs hl with ⟨i, ⟨⟨a, b, e, rfl⟩, hmin⟩, hfind⟩ | ⟨hn, hfind⟩
    · subst e
      rw [hfind, bind_ok]
      simp only [cut_to_end, cut_zero]
      have ed : (a ++ «from» ++ b).drop (a.length + «from».length) = b := by
        rw [← List.length_append, List.drop_left]
      have et : (a ++ «from» ++ b).take a.length = a := by
        rw [List.append_assoc, List.take_left]
      simp only [ed, et]
      have hlen : (a ++ «from» ++ b).length = a.length + «from».length + b.length := by simp; omega
      obtain ⟨parts, e, hc⟩ := replaceLoop_spec «from» to hf hne ((a ++ «from» ++ b).length + 1) b (a ++ to)
        (text_after hf hne hs) (by omega) (by omega)
      have hcut : Cut «from» (a ++ «from» ++ b) (a :: parts) := .cut a b parts ⟨⟨a, b, rfl, rfl⟩, hmin⟩ hc
      have hg : a ++ to ++ glue to parts = glue to (a :: parts) := by
        cases parts with
        | nil => cases hc
        | cons p ps => simp [glue]
      refine ⟨glue to (a :: parts), by rw [e, hg], glue_text ht _ (cut_text hf hne hcut hs), fun _ => ⟨_, hcut, rfl⟩, fun h => absurd h hne⟩
    · rw [hfind]
      exact ⟨s, rfl, hs, fun _ => ⟨[s], .last s hn, rfl⟩, fun h => absurd h hne⟩

/-! ## Trimming -/

/-- **C51.** Removing a non-empty prefix ends; all its copies at the start are gone, and nothing else. -/
theorem remove_start_partial (pre s : List Nat) (hp : Text pre) (hne : pre ≠ []) (hs : Text s) :
    ∃ r n, removeStart pre (s.length + 1) s = .ok r ∧ s = times pre n ++ r ∧ (¬ ∃ b, r = pre ++ b) ∧ Text r := by
  have hpos := List.length_pos_iff.2 hne
  suffices h : ∀ fuel s, Text s → s.length < fuel →
      ∃ r n, removeStart pre fuel s = .ok r ∧ s = times pre n ++ r ∧ (¬ ∃ b, r = pre ++ b) ∧ Text r from h _ s hs (by omega)
  intro fuel
  induction fuel with
  | zero => intro s _ h; omega
  | succ fuel ih =>
    intro s hs hf
    rw [removeStart]
    by_cases h : startsWith pre s = true
    · obtain ⟨b, rfl⟩ := (startsWith_iff pre s).1 h
      rw [if_pos h]
      have hb := text_tail hp hs
      rw [skip_ok pre b hp hb, bind_ok]
      obtain ⟨r, n, e, h1, h2, h3⟩ := ih b hb (by simp at hf; omega)
      exact ⟨r, n + 1, e, by rw [h1]; simp [times], h2, h3⟩
    · rw [if_neg h]
      exact ⟨s, 0, rfl, by simp [times], fun hb => h ((startsWith_iff pre s).2 hb), hs⟩

/-- **C51, refuted.** Removing the empty prefix never ends. -/
theorem remove_start_empty_partial (s : List Nat) (hs : Text s) (fuel : Nat) : removeStart [] fuel s = .error .fuel := by
  induction fuel with
  | zero => rfl
  | succ fuel ih =>
    have : skip ([] : List Nat).length s = .ok s := by simpa using skip_ok [] s text_nil hs
    rw [removeStart, if_pos (by rfl), this, bind_ok, ih]

/-- **C51.** Removing a non-empty suffix ends; all its copies at the end are gone, and nothing else. -/
theorem remove_end_partial (suffix s : List Nat) (hp : Text suffix) (hne : suffix ≠ []) (hs : Text s) :
    ∃ r n, removeEnd suffix (s.length + 1) s = .ok r ∧ s = r ++ times suffix n ∧ (¬ ∃ a, r = a ++ suffix) ∧ Text r := by
  have hpos := List.length_pos_iff.2 hne
  have comm : ∀ n, times suffix n ++ suffix = suffix ++ times suffix n := by
    intro n
    induction n with
    | zero => simp [times]
    | succ n ih => simp only [times, List.append_assoc, ih]
  suffices h : ∀ fuel s, Text s → s.length < fuel →
      ∃ r n, removeEnd suffix fuel s = .ok r ∧ s = r ++ times suffix n ∧ (¬ ∃ a, r = a ++ suffix) ∧ Text r from h _ s hs (by omega)
  intro fuel
  induction fuel with
  | zero => intro s _ h; omega
  | succ fuel ih =>
    intro s hs hf
    rw [removeEnd]
    by_cases h : endsWith suffix s = true
    · obtain ⟨a, rfl⟩ := (endsWith_iff suffix s).1 h
      rw [if_pos h]
      have ha : Text a := text_before (b := []) hp hne (by simpa using hs)
      have hl : (a ++ suffix).length - suffix.length = a.length := by simp
      rw [hl, take_ok a suffix ha hp, bind_ok]
      obtain ⟨r, n, e, h1, h2, h3⟩ := ih a ha (by simp at hf; omega)
      refine ⟨r, n + 1, e, ?_, h2, h3⟩
      rw [h1, List.append_assoc, comm]
      rfl
    · rw [if_neg h]
      exact ⟨s, 0, rfl, by simp [times], fun hb => h ((endsWith_iff suffix s).2 hb), hs⟩

/-- **C51, refuted.** Removing the empty suffix never ends. -/
theorem remove_end_empty_partial (s : List Nat) (hs : Text s) (fuel : Nat) : removeEnd [] fuel s = .error .fuel := by
  induction fuel with
  | zero => rfl
  | succ fuel ih =>
    have : take (s.length - ([] : List Nat).length) s = .ok s := by
      have := take_ok s [] hs text_nil
      simpa using this
    rw [removeEnd, if_pos (by rfl), this, bind_ok, ih]

/-! ## Lines -/

theorem text_ascii (b : Nat) (h : b < 128) : Text [b] := by
  have : utf8 b = [b] := by simp [utf8, h]
  rw [← this]
  exact text_char b ⟨.inl (by omega), by omega⟩

/-- `string/split-lines` ends and gives the lines, all of them well-formed. -/
theorem split_lines_spec (s : List Nat) (hs : Text s) (hl : s.length < 2 ^ 64) :
    ∃ ls, splitLines (s.length + 1) s = .ok ls ∧ Lines s ls ∧ ∀ l ∈ ls, Text l := by
  have hlf : Text [10] := text_ascii 10 (by omega)
  suffices h : ∀ fuel s, Text s → s ≠ [] → s.length < 2 ^ 64 → s.length < fuel →
      ∃ ls, linesLoop fuel s = .ok ls ∧ Lines s ls ∧ ∀ l ∈ ls, Text l by
    unfold splitLines
    by_cases h0 : s.length = 0
    · have : s = [] := List.length_eq_zero_iff.1 h0
      subst this
      exact ⟨[], rfl, .none, by simp⟩
    · rw [if_neg h0]
      exact h _ s hs (by intro h; simp [h] at h0) hl (by omega)
  intro fuel
  induction fuel with
  | zero => intro s _ _ _ h; omega
  | succ fuel ih =>
    intro s hs hne hl hf
    rw [linesLoop]
    rcases find_spec [10] s hlf hs hl with ⟨i, ⟨⟨a, b, e, rfl⟩, hmin⟩, hfind⟩ | ⟨hn, hfind⟩
    · subst e
      have h10 : 10 ∉ a := by
        intro h
        obtain ⟨x, y, rfl⟩ := List.append_of_mem h
        have := hmin x.length ⟨x, y ++ [10] ++ b, by simp, rfl⟩
        simp at this
        omega
      rw [hfind, bind_ok]
      simp only [cut_zero, cut_to_end]
      have ed : (a ++ [10] ++ b).drop (a.length + 1) = b := by
        have : a.length + 1 = (a ++ [10]).length := by simp
        rw [this, List.drop_left]
      have ha : Text a := text_before hlf (by simp) hs
      have hb : Text b := text_after hlf (by simp) hs
      rw [ed]
      have hlen : (a ++ [10] ++ b).length = a.length + 1 + b.length := by simp; omega
      -- the line taken, and how it extends the lines of the rest
      have line : ∃ l, (a ++ [10] ++ b).take (if 1 ≤ a.length ∧ (a ++ [10] ++ b).getD (a.length - 1) 0 = 13 then a.length - 1 else a.length) = l ∧
          Text l ∧ ∀ ls, Lines b ls → Lines (a ++ [10] ++ b) (l :: ls) := by
        by_cases hc : 1 ≤ a.length ∧ (a ++ [10] ++ b).getD (a.length - 1) 0 = 13
        · rw [if_pos hc]
          rcases List.eq_nil_or_concat a with rfl | ⟨l, c, rfl⟩
          · simp at hc
          · rw [List.concat_eq_append] at *
            have hc13 : c = 13 := by
              have := hc.2
              simpa using this
            subst hc13
            refine ⟨l, by simp, ?_, fun ls h => ?_⟩
            · exact text_before (b := []) (text_ascii 13 (by omega)) (by simp) (by simpa using ha)
            · have := Lines.crlf l b ls (fun h => h10 (by simp [h])) h
              simpa using this
        · rw [if_neg hc]
          refine ⟨a, by simp, ha, fun ls h => .lf a b ls h10 ?_ h⟩
          rintro x rfl
          apply hc
          simp
      obtain ⟨l, el, hlt, hline⟩ := line
      rw [el]
      by_cases hb0 : b.length = 0
      · have : b = [] := List.length_eq_zero_iff.1 hb0
        subst this
        rw [if_pos hb0]
        exact ⟨[l], rfl, hline [] .none, by simpa using hlt⟩
      · rw [if_neg hb0]
        obtain ⟨ls, e, h1, h2⟩ := ih b hb (by intro h; simp [h] at hb0) (by omega) (by omega)
        rw [e]
        refine ⟨l :: ls, rfl, hline ls h1, ?_⟩
        intro x hx
        rcases List.mem_cons.1 hx with rfl | hx
        · exact hlt
        · exact h2 x hx
    · rw [hfind]
      refine ⟨[s], rfl, .rest s hne ?_, by simpa using hs⟩
      intro h
      obtain ⟨x, y, e⟩ := List.append_of_mem h
      exact hn x.length ⟨x, y, by rw [e]; simp, rfl⟩

/-! ## Texts, concatenation and reversal -/

/-- **C41.** Concatenating well-formed strings (`text/push!`) gives a well-formed string. -/
theorem concat_text (a b : List Nat) (ha : Text a) (hb : Text b) : Text (a ++ b) := text_append ha hb

/-- `text/consume!` cuts a text into two well-formed ones, or fails its assertion within a character. -/
theorem consume_text (n : Nat) (t : List Nat) (ht : Text t) :
    (∃ a b, consume n t = .ok (a, b) ∧ Text a ∧ Text b ∧ t = a ++ b ∧ a.length = n) ∨
      (consume n t = .error .assertion ∧ ¬ ∃ a b, Text a ∧ Text b ∧ t = a ++ b ∧ a.length = n) := by
  unfold consume
  by_cases h : charBoundary n t = true
  · obtain ⟨h1, h2, h3⟩ := boundary_text ht n h
    exact .inl ⟨_, _, by rw [if_pos h], h2, h3, by simp, by simp; omega⟩
  · refine .inr ⟨by rw [if_neg h], ?_⟩
    rintro ⟨a, b, ha, hb, rfl, rfl⟩
    exact h (text_boundary ha hb)

/-- **C41.** Reversing a string of ASCII characters gives a well-formed string, the reversal. -/
theorem reverse_partial (s : List Nat) (h : ∀ b ∈ s, b < 128) : Utf8.reverse s = s.reverse ∧ Text (Utf8.reverse s) := by
  have e : Utf8.reverse s = s.reverse := by
    unfold Utf8.reverse
    split
    · match s, ‹s.length ≤ 1› with
      | [], _ => rfl
      | [_], _ => rfl
    · rfl
  refine ⟨e, ?_⟩
  rw [e]
  have h' : ∀ b ∈ s.reverse, b < 128 := fun b hb => h b (by simpa using hb)
  generalize s.reverse = t at h'
  induction t with
  | nil => exact text_nil
  | cons b t ih =>
    exact text_append (a := [b]) (text_ascii b (h' b (by simp))) (ih (fun c hc => h' c (by simp [hc])))

/-- **C41, refuted.** Reversing any well-formed string with a character beyond ASCII gives a string that is not well-formed. -/
theorem reverse_breaks_partial (s : List Nat) (hs : Text s) (h : ∃ b ∈ s, 128 ≤ b) : ¬ Text (Utf8.reverse s) := by
  obtain ⟨xs, hx, rfl⟩ := hs
  have key : ∀ (xs : List Nat), (∀ x ∈ xs, Known x) → (∃ b ∈ utf8s xs, 128 ≤ b) →
      ∃ as x bs, (∀ y ∈ as, Known y) ∧ Known x ∧ (∀ b ∈ bs, b < 128) ∧ utf8s xs = utf8s as ++ utf8 x ++ bs ∧ 2 ≤ (utf8 x).length := by
    intro xs
    induction xs with
    | nil => intro _ h; simp [utf8s] at h
    | cons x xs ih =>
      intro hx h
      have ex : utf8s (x :: xs) = utf8 x ++ utf8s xs := by simp [utf8s]
      have hk := hx x (by simp)
      by_cases hlater : ∃ b ∈ utf8s xs, 128 ≤ b
      · obtain ⟨as, y, bs, h1, h2, h3, h4, h5⟩ := ih (fun z hz => hx z (by simp [hz])) hlater
        refine ⟨x :: as, y, bs, ?_, h2, h3, by rw [ex, h4]; simp [utf8s], h5⟩
        intro z hz
        rcases List.mem_cons.1 hz with rfl | hz
        · exact hk
        · exact h1 z hz
      · refine ⟨[], x, utf8s xs, by simp, hk, fun b hb => ?_, by rw [ex]; simp [utf8s], ?_⟩
        · exact Nat.lt_of_not_le fun hle => hlater ⟨b, hb, hle⟩
        · have hbig : ¬ x < 128 := by
            intro hlt
            obtain ⟨b, hb, hb'⟩ := h
            have eu : utf8 x = [x] := by simp [utf8, hlt]
            rw [ex, eu] at hb
            rcases List.mem_append.1 hb with hb | hb
            · rw [List.mem_singleton.1 hb] at hb'; omega
            · exact hlater ⟨b, hb, hb'⟩
          unfold utf8
          rw [if_neg hbig]
          split
          · simp
          · split <;> simp
  obtain ⟨as, x, bs, _, hk, hbs, e, h2⟩ := key xs hx h
  have hrev : Utf8.reverse (utf8s xs) = bs.reverse ++ ((utf8 x).reverse ++ (utf8s as).reverse) := by
    unfold Utf8.reverse
    have : ¬ (utf8s xs).length ≤ 1 := by rw [e]; simp; omega
    rw [if_neg this, e]
    simp
  rw [hrev]
  intro ht
  have hb : Text bs.reverse := by
    have := (reverse_partial bs hbs).2
    rwa [(reverse_partial bs hbs).1] at this
  have ht' := text_tail hb ht
  obtain ⟨b, cs, eu, _, hcs⟩ := utf8_bytes x hk
  rcases List.eq_nil_or_concat cs with rfl | ⟨ds, c, rfl⟩
  · rw [eu] at h2; simp at h2
  · rw [eu] at ht'
    obtain ⟨c', cs', e', hlead⟩ := text_head ht' (by simp)
    have : c = c' := by
      simp at e'
      exact e'.1
    have := hcs c (by simp)
    omega

/-! ## Non-vacuity -/

-- "aébaé": two characters of one byte and one of two
example : Text [97, 195, 169, 98, 97, 195, 169] := ⟨[97, 233, 98, 97, 233], by intro x hx; simp at hx; unfold Scalar; omega, by decide⟩
example : Cut [195, 169] [97, 195, 169, 98, 97, 195, 169] [[97], [98, 97], []] := by
  have h := split_join [195, 169] [97, 195, 169, 98, 97, 195, 169] ⟨[233], by intro x hx; simp at hx; unfold Scalar; omega, by decide⟩
    ⟨[97, 233, 98, 97, 233], by intro x hx; simp at hx; unfold Scalar; omega, by decide⟩ (by decide)
  obtain ⟨parts, e, _, _, h, _⟩ := h
  have : split 8 [195, 169] [97, 195, 169, 98, 97, 195, 169] = .ok [[97], [98, 97], []] := rfl
  have e := this.symm.trans e
  cases e
  exact h (by decide)
example : split 8 [97] [97, 98, 97, 97] = .ok [[], [98], [], []] := rfl
example : split 8 [] [97, 195, 169] = .ok [[97], [195, 169]] := rfl
example : replace 8 [97, 97] [98] [97, 97, 97, 97, 97] = .ok [98, 98, 97] := rfl
example : replace 8 [] [45] [97, 195, 169] = .ok [45, 97, 45, 195, 169, 45] := rfl
example : removeStart [97, 98] 8 [97, 98, 97, 98, 97] = .ok [97] := rfl
example : removeEnd [97] 8 [98, 97, 97] = .ok [98] := rfl
example : splitLines 9 [97, 13, 10, 10, 98, 13] = .ok [[97], [], [98, 13]] := rfl
example : splitLines 9 [97, 10] = .ok [[97]] := rfl
example : take 1 [195, 169] = .error .assertion := rfl
example : consume 2 [195, 169, 97] = .ok ([195, 169], [97]) := rfl
example : contains [98] [97, 195, 169, 98] = .ok true := rfl
example : find [169] [97, 195, 169, 98] = .ok none := rfl
example : Utf8.reverse [97, 195, 169] = [169, 195, 97] := rfl

end Verif.StrOps
