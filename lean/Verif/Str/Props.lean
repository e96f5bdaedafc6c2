import Verif.Str.Lemmas

/-!
# C01: string escaping round-trips
-/
namespace Verif.Str

/-- Specification: the text `t` denotes the string `s`, where a backslash followed by a letter of the escape
table stands for one character, every other character but the backslash stands for itself, and a backslash can
only appear as the start of an escape. -/
inductive Denotes : List Char → List Char → Prop
  | nil : Denotes [] []
  | plain (c : Char) (t s : List Char) : c ≠ '\\' → Denotes t s → Denotes (c :: t) (c :: s)
  | escaped (letter c : Char) (t s : List Char) :
      (letter, c) ∈ [('t', '\t'), ('r', '\r'), ('n', '\n'), ('"', '"'), ('\\', '\\')] →
      Denotes t s → Denotes ('\\' :: letter :: t) (c :: s)

theorem unescapeChar_iff (l c : Char) : unescapeChar l = some c ↔
    (l, c) ∈ [('t', '\t'), ('r', '\r'), ('n', '\n'), ('"', '"'), ('\\', '\\')] := by
  unfold unescapeChar
  constructor
  · intro h
    split at h <;> first | (cases h; simp) | simp at h
  · intro h
    simp at h
    rcases h with ⟨rfl, rfl⟩ | ⟨rfl, rfl⟩ | ⟨rfl, rfl⟩ | ⟨rfl, rfl⟩ | ⟨rfl, rfl⟩ <;> rfl

/-- `unescape` succeeds exactly on the texts that denote a string, and returns that string. -/
theorem unescape_exact (t s : List Char) : unescape t = some s ↔ Denotes t s := by
  rw [unescape_eq]
  constructor
  · intro h
    induction t using unesc.induct generalizing s with
    | case1 => simp [unesc] at h; subst h; exact .nil
    | case2 => simp [unesc] at h
    | case3 c hc =>
      simp [unesc] at h
      obtain ⟨_, rfl⟩ := h
      exact .plain _ _ _ hc .nil
    | case4 d rest hnone => simp [unesc, hnone] at h
    | case5 d rest e he ih =>
      simp [unesc, he] at h
      obtain ⟨a, ha, rfl⟩ := h
      exact .escaped _ _ _ _ ((unescapeChar_iff _ _).1 he) (ih _ ha)
    | case6 c d rest hc ih =>
      simp [unesc, hc] at h
      obtain ⟨a, ha, rfl⟩ := h
      exact .plain _ _ _ hc (ih _ ha)
  · intro h
    induction h with
    | nil => rfl
    | plain c t s hc _ ih =>
      cases t with
      | nil => simp [unesc] at *; subst ih; simp [hc]
      | cons d r => rw [unesc]; simp [hc, ih]
    | escaped l c t s hl _ ih =>
      simp [unesc, (unescapeChar_iff l c).2 hl, ih]

/-- Every string has at most one meaning as an escaped text. -/
theorem denotes_functional (t s s' : List Char) (h : Denotes t s) (h' : Denotes t s') : s = s' := by
  rw [← unescape_exact] at h h'
  rw [h] at h'; exact Option.some.inj h'

theorem esc_denotes (s : List Char) : Denotes (esc s) s := by
  induction s with
  | nil => exact .nil
  | cons c cs ih =>
    simp only [esc, List.flatMap_cons]
    cases h : escapeChar c with
    | none =>
      refine .plain _ _ _ ?_ ih
      rintro rfl; simp [escapeChar] at h
    | some e =>
      unfold escapeChar at h
      split at h <;> first | (cases h; exact .escaped _ _ _ _ (by simp) ih) | simp at h

/-- **C01.** `escape` never panics, its result denotes the original string, and `unescape` gives the original back. -/
theorem escape_unescape (s : List Char) :
    ∃ e, escape s = some e ∧ Denotes e s ∧ unescape e = some s :=
  ⟨esc s, escape_eq s, esc_denotes s, (unescape_exact _ _).2 (esc_denotes s)⟩

/-- The escaped text has no raw tab, carriage return or line feed. -/
theorem escape_one_line (s e : List Char) (h : escape s = some e) :
    '\t' ∉ e ∧ '\r' ∉ e ∧ '\n' ∉ e := by
  rw [escape_eq] at h; cases h
  have key : ∀ c ∈ esc s, c ≠ '\t' ∧ c ≠ '\r' ∧ c ≠ '\n' := by
    intro c hc
    simp only [esc, List.mem_flatMap] at hc
    obtain ⟨a, _, ha⟩ := hc
    cases h : escapeChar a with
    | none =>
      rw [h] at ha; simp at ha; subst ha
      refine ⟨?_, ?_, ?_⟩ <;> (rintro rfl; simp [escapeChar] at h)
    | some e =>
      rw [h] at ha
      unfold escapeChar at h
      split at h <;> first | (cases h; simp at ha; rcases ha with rfl | rfl <;> decide) | simp at h
  exact ⟨fun h => (key _ h).1 rfl, fun h => (key _ h).2.1 rfl, fun h => (key _ h).2.2 rfl⟩

-- non-vacuity: both a success and a failure of `unescape`, and a text with every escape
example : unescape "a\\n\\\"b".toList = some "a\n\"b".toList := by decide
example : unescape "a\\x".toList = none := by decide
example : unescape "a\\".toList = none := by decide
example : escape "q\"\\\t\r\n".toList = some "q\\\"\\\\\\t\\r\\n".toList := by decide
example : Denotes "a\\n".toList "a\n".toList := .plain _ _ _ (by decide) (.escaped _ _ _ _ (by decide) .nil)

end Verif.Str
