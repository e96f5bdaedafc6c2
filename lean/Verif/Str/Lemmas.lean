import Verif.Str.Model

namespace Verif.Str

/-- Direct recursive description of `unescape`. -/
def unesc : List Char → Option (List Char)
  | [] => some []
  | [c] => if c = '\\' then none else some [c]
  | c :: d :: rest =>
    if c = '\\' then
      match unescapeChar d with
      | none => none
      | some e => (unesc rest).map (e :: ·)
    else (unesc (d :: rest)).map (c :: ·)

/-- Direct recursive description of `escape`. -/
def esc (cs : List Char) : List Char :=
  cs.flatMap (fun c => (escapeChar c).getD [c])

theorem dropWhile_cons_fact (p : Char → Bool) (l : List Char) (x : Char) (xs : List Char)
    (h : l.dropWhile (fun c => !p c) = x :: xs) : p x = true := by
  induction l with
  | nil => simp at h
  | cons a as ih =>
    simp only [List.dropWhile_cons] at h
    split at h
    · exact ih h
    · next hn => simp at hn; cases h; exact hn

theorem takeWhile_append_dropWhile' (p : Char → Bool) (l : List Char) :
    l.takeWhile p ++ l.dropWhile p = l := List.takeWhile_append_dropWhile

theorem esc_append (a b : List Char) : esc (a ++ b) = esc a ++ esc b := by
  simp [esc]

theorem esc_id (l : List Char) (h : ∀ c ∈ l, (escapeChar c).isSome = false) : esc l = l := by
  induction l with
  | nil => rfl
  | cons a as ih =>
    have ha := h a (by simp)
    have : escapeChar a = none := by
      cases hh : escapeChar a <;> simp_all
    simp only [esc, List.flatMap_cons, this, Option.getD_none, List.singleton_append] at *
    rw [ih (fun c hc => h c (by simp [hc]))]

theorem mem_takeWhile_fact (p : Char → Bool) (l : List Char) :
    ∀ c ∈ l.takeWhile p, p c = true := by
  induction l with
  | nil => simp
  | cons a as ih =>
    simp only [List.takeWhile_cons]
    split
    · next h => intro c hc; simp at hc; rcases hc with rfl | hc; exact h; exact ih c hc
    · simp

theorem dropWhile_nil_fact (p : Char → Bool) (l : List Char) (h : l.dropWhile p = []) :
    ∀ c ∈ l, p c = true := by
  have h2 := @List.takeWhile_append_dropWhile _ p l
  rw [h, List.append_nil] at h2
  rw [← h2]; exact mem_takeWhile_fact p l

theorem escape_loop (fuel : Nat) (input buf : List Char) (hf : input.length < fuel) :
    replaceLoop (fun c => (escapeChar c).isSome) escapeReplacer fuel input buf
      = some (buf ++ esc input) := by
  induction fuel generalizing input buf with
  | zero => omega
  | succ n ih =>
    unfold replaceLoop
    split
    · next h =>
      rw [esc_id]
      intro c hc
      simpa using dropWhile_nil_fact _ _ h c hc
    · next found hne =>
      cases hd : input.dropWhile (fun c => !(escapeChar c).isSome) with
      | nil => exact absurd hd hne
      | cons x xs =>
        have hx := dropWhile_cons_fact _ _ _ _ hd
        have hsplit := @List.takeWhile_append_dropWhile _ (fun c => !(escapeChar c).isSome) input
        rw [hd] at hsplit
        simp only [escapeReplacer]
        cases he : escapeChar x with
        | none => simp [he] at hx
        | some ec =>
          simp only [Option.map_some]
          rw [ih]
          · conv => rhs; rw [← hsplit]
            rw [esc_append, esc_id (List.takeWhile _ _)]
            · simp [esc, he]
            · intro c hc; simpa using mem_takeWhile_fact _ _ c hc
          · have := congrArg List.length hsplit
            simp at this; omega

theorem escape_eq (s : List Char) : escape s = some (esc s) := by
  unfold escape replace
  rw [escape_loop _ _ _ (by omega)]; simp

theorem unesc_append (a b : List Char) (h : ∀ c ∈ a, c ≠ '\\') :
    unesc (a ++ b) = (unesc b).map (a ++ ·) := by
  induction a with
  | nil => simp
  | cons x xs ih =>
    have hx := h x (by simp)
    have ih' := ih (fun c hc => h c (by simp [hc]))
    cases hxb : xs ++ b with
    | nil => simp at hxb; simp [hxb, unesc, hx]
    | cons y ys =>
      rw [List.cons_append, hxb, unesc]
      simp only [hx, if_false]
      rw [← hxb, ih']
      cases unesc b <;> simp

theorem unesc_id (a : List Char) (h : ∀ c ∈ a, c ≠ '\\') : unesc a = some a := by
  have := unesc_append a [] h
  simpa [unesc] using this

theorem unescape_loop (fuel : Nat) (input buf : List Char) (hf : input.length < fuel) :
    replaceLoop (fun c => c == '\\') unescapeReplacer fuel input buf
      = (unesc input).map (buf ++ ·) := by
  induction fuel generalizing input buf with
  | zero => omega
  | succ n ih =>
    unfold replaceLoop
    split
    · next h =>
      rw [unesc_id]
      · simp
      · intro c hc; simpa using dropWhile_nil_fact _ _ h c hc
    · next found hne =>
      cases hd : input.dropWhile (fun c => !(c == '\\')) with
      | nil => exact absurd hd hne
      | cons x xs =>
        have hx := dropWhile_cons_fact (fun c => c == '\\') _ _ _ hd
        have hx' : x = '\\' := by simpa using hx
        have hsplit := @List.takeWhile_append_dropWhile _ (fun c => !(c == '\\')) input
        rw [hd] at hsplit
        have hlen := congrArg List.length hsplit
        simp at hlen
        have hbs : ∀ c ∈ input.takeWhile (fun c => !(c == '\\')), c ≠ '\\' := by
          intro c hc; simpa using mem_takeWhile_fact _ _ c hc
        conv => rhs; rw [← hsplit]
        rw [unesc_append _ _ hbs]
        cases xs with
        | nil => simp [unescapeReplacer, unesc, hx']
        | cons y ys =>
          simp only [unescapeReplacer, unesc, hx', if_true]
          cases he : unescapeChar y with
          | none => simp
          | some e =>
            simp only [Option.map_some]
            rw [ih _ _ (by simp at hlen; omega)]
            cases unesc ys <;> simp

theorem unescape_eq (s : List Char) : unescape s = unesc s := by
  unfold unescape replace
  rw [unescape_loop _ _ _ (by omega)]
  cases unesc s <;> simp

end Verif.Str
