import Verif.Utf8.Props
import Verif.StrOps.Model
import Verif.StrOps.Spec

/-!
# Lemmas on string operations
-/
namespace Verif.StrOps
open Verif.Utf8 Verif.Utf8.Spec Verif.StrOps.Spec

/-! ## Well-formed strings -/

theorem text_bytes {s : List Nat} (h : Text s) : ∀ b ∈ s, b < 256 := by
  obtain ⟨xs, hx, rfl⟩ := h
  intro b hb
  simp only [utf8s, List.mem_flatMap] at hb
  obtain ⟨x, hx', hb⟩ := hb
  exact utf8_lt x (hx x hx').1 b hb

theorem text_iff (s : List Nat) : Text s ↔ (∀ b ∈ s, b < 256) ∧ validSequence s = true := by
  constructor
  · intro h
    have hb := text_bytes h
    exact ⟨hb, (valid_iff_partial s hb).2 h⟩
  · rintro ⟨hb, hv⟩
    exact (valid_iff_partial s hb).1 hv

theorem text_nil : Text [] := ⟨[], by simp, rfl⟩

theorem utf8s_append (xs ys : List Nat) : utf8s (xs ++ ys) = utf8s xs ++ utf8s ys := by simp [utf8s]

theorem text_append {a b : List Nat} (ha : Text a) (hb : Text b) : Text (a ++ b) := by
  obtain ⟨xs, hx, rfl⟩ := ha
  obtain ⟨ys, hy, rfl⟩ := hb
  refine ⟨xs ++ ys, ?_, (utf8s_append _ _).symm⟩
  intro x h
  rcases List.mem_append.1 h with h | h
  · exact hx x h
  · exact hy x h

theorem text_char (x : Nat) (h : Known x) : Text (utf8 x) := ⟨[x], fun y hy => by rw [List.mem_singleton.1 hy]; exact h, by simp [utf8s]⟩

theorem valid_append (xs : List Nat) (h : ∀ x ∈ xs, Known x) (rest : List Nat) :
    validLoop none (utf8s xs ++ rest) = validLoop none rest := by
  induction xs with
  | nil => rfl
  | cons x xs ih =>
    have e : utf8s (x :: xs) ++ rest = utf8 x ++ (utf8s xs ++ rest) := by simp [utf8s]
    rw [e, (fed_utf8 x (h x (by simp))).valid, ih (fun y hy => h y (by simp [hy]))]

/-- What is left after a well-formed beginning is well-formed. -/
theorem text_tail {a b : List Nat} (ha : Text a) (hab : Text (a ++ b)) : Text b := by
  rw [text_iff] at hab ⊢
  obtain ⟨xs, hx, rfl⟩ := ha
  refine ⟨fun c hc => hab.1 c (by simp [hc]), ?_⟩
  have := valid_append xs hx b
  rw [validSequence, ← this]
  exact hab.2

/-- Well-formed strings other than the empty one start with the first byte of a character. -/
theorem text_head {s : List Nat} (h : Text s) (hne : s ≠ []) : ∃ b bs, s = b :: bs ∧ (b < 128 ∨ (192 ≤ b ∧ b < 248)) := by
  obtain ⟨xs, hx, rfl⟩ := h
  cases xs with
  | nil => exact absurd rfl hne
  | cons x xs =>
    obtain ⟨b, bs, e, hb, _⟩ := utf8_bytes x (hx x (by simp))
    exact ⟨b, bs ++ utf8s xs, by simp [utf8s, e], hb⟩

/-- A well-formed non-empty string occurs in another only where a character starts. -/
theorem text_before {a part b : List Nat} (hp : Text part) (hne : part ≠ []) (hs : Text (a ++ part ++ b)) : Text a := by
  obtain ⟨c, cs, rfl, hc⟩ := text_head hp hne
  obtain ⟨xs, hx, hs'⟩ := hs
  have hlt : c < 256 := by omega
  have hb : charBoundary a.length (utf8s xs) = true := by
    rw [← hs', charBoundary]
    by_cases h : 0 < a.length
    · rw [if_pos ⟨h, by simp⟩]
      have : (a ++ c :: cs ++ b).getD a.length 0 = c := by simp
      rw [this, lead_iff c hlt]
      exact hc
    · rw [if_neg (by omega)]
      simp; omega
  obtain ⟨ys, zs, rfl, hl⟩ := (char_boundary_iff xs hx _).1 hb
  refine ⟨ys, fun y hy => hx y (by simp [hy]), ?_⟩
  rw [utf8s_append, List.append_assoc] at hs'
  exact (List.append_inj hs' hl).1

theorem text_after {a part b : List Nat} (hp : Text part) (hne : part ≠ []) (hs : Text (a ++ part ++ b)) : Text b :=
  text_tail (text_append (text_before hp hne hs) hp) hs

theorem text_boundary {a b : List Nat} (ha : Text a) (hb : Text b) : charBoundary a.length (a ++ b) = true := by
  obtain ⟨xs, hx, rfl⟩ := ha
  obtain ⟨ys, hy, rfl⟩ := hb
  rw [← utf8s_append]
  refine (char_boundary_iff _ ?_ _).2 ⟨xs, ys, rfl, rfl⟩
  intro x h
  rcases List.mem_append.1 h with h | h
  · exact hx x h
  · exact hy x h

theorem boundary_text {s : List Nat} (hs : Text s) (i : Nat) (h : charBoundary i s = true) :
    i ≤ s.length ∧ Text (s.take i) ∧ Text (s.drop i) := by
  obtain ⟨xs, hx, rfl⟩ := hs
  obtain ⟨ys, zs, rfl, rfl⟩ := (char_boundary_iff xs hx i).1 h
  rw [utf8s_append]
  refine ⟨by simp, ⟨ys, fun y hy => hx y (by simp [hy]), by simp⟩, ⟨zs, fun y hy => hx y (by simp [hy]), by simp⟩⟩

/-! ## Prefixes and suffixes -/

theorem allZip_eq (a b : List Nat) (h : a.length ≤ b.length) : allZip a b = true ↔ ∃ c, b = a ++ c := by
  induction a generalizing b with
  | nil => cases b <;> simp [allZip]
  | cons x a ih =>
    cases b with
    | nil => simp at h
    | cons y b =>
      simp only [List.length_cons, Nat.add_le_add_iff_right] at h
      rw [allZip]
      by_cases e : x = y
      · subst e
        simp [ih b h]
      · simp [e]
        intro h'; exact absurd h'.symm e

theorem startsWith_iff (pre s : List Nat) : startsWith pre s = true ↔ ∃ b, s = pre ++ b := by
  unfold startsWith
  by_cases h0 : pre.length = 0
  · rw [if_pos h0]
    have : pre = [] := List.length_eq_zero_iff.1 h0
    subst this; simp
  · rw [if_neg h0]
    by_cases hl : pre.length ≤ s.length
    · simp [hl, allZip_eq]
    · simp [hl]
      rintro b rfl; simp at hl

theorem endsWith_iff (suffix s : List Nat) : endsWith suffix s = true ↔ ∃ a, s = a ++ suffix := by
  unfold endsWith
  by_cases h0 : suffix.length = 0
  · rw [if_pos h0]
    have : suffix = [] := List.length_eq_zero_iff.1 h0
    subst this; simp
  · rw [if_neg h0]
    by_cases hl : suffix.length ≤ s.length
    · rw [decide_eq_true hl, Bool.true_and, allZip_eq _ _ (by simpa using hl)]
      constructor
      · rintro ⟨c, e⟩
        refine ⟨c.reverse, ?_⟩
        have := congrArg List.reverse e
        simpa using this
      · rintro ⟨a, rfl⟩
        exact ⟨a.reverse, by simp⟩
    · simp [hl]
      rintro b rfl; simp at hl

theorem cut_to_end (k : Nat) (s : List Nat) : cut k s.length s = s.drop k := by
  unfold cut
  rw [List.take_of_length_le (by simp)]

theorem cut_zero (k : Nat) (s : List Nat) : cut 0 k s = s.take k := by simp [cut]

theorem at_drop (part s : List Nat) (k : Nat) : At part s k ↔ k ≤ s.length ∧ ∃ b, s.drop k = part ++ b := by
  constructor
  · rintro ⟨a, b, rfl, rfl⟩
    refine ⟨by simp, b, by simp⟩
  · rintro ⟨hk, b, e⟩
    refine ⟨s.take k, b, ?_, by simp; omega⟩
    rw [List.append_assoc, ← e, List.take_append_drop]

/-! ## Finding -/

theorem _root_.Verif.Utf8.Fed.findLoop {part s : List Nat} {i index st bs x} (h : Fed st bs x) (rest : List Nat) :
    findLoop part s i index st (bs ++ rest) =
      if s.length - min i index < part.length then .ok none
      else if startsWith part (cut (min i index) s.length s) then .ok (some (min i index))
      else findLoop part s (i + bs.length) (2 ^ 64 - 1) none rest := by
  induction h generalizing i index with
  | last e => simp only [List.cons_append, List.nil_append, StrOps.findLoop, e]; rfl
  | @more _ _ _ bs' _ e _ ih =>
    simp only [List.cons_append, StrOps.findLoop, e]
    rw [ih]
    have : min (i + 1) (min i index) = min i index := by omega
    rw [this]
    simp only [List.length_cons]
    have : i + 1 + bs'.length = i + (bs'.length + 1) := by omega
    rw [this]

theorem findLoop_spec (part s : List Nat) (hp : Text part) (hne : part ≠ []) (hl : s.length < 2 ^ 64) (zs : List Nat) :
    ∀ (pre : List Nat), (∀ z ∈ zs, Known z) → Text pre → s = pre ++ utf8s zs →
    ∃ r, findLoop part s pre.length (2 ^ 64 - 1) none (utf8s zs) = .ok r ∧
      (∀ k, r = some k → At part s k ∧ ∀ j, pre.length ≤ j → At part s j → k ≤ j) ∧
      (r = none → ∀ j, pre.length ≤ j → ¬ At part s j) := by
  have hpl : 0 < part.length := List.length_pos_iff.2 hne
  induction zs with
  | nil =>
    intro pre _ _ hs
    refine ⟨none, rfl, by simp, fun _ j hj h => ?_⟩
    obtain ⟨a, b, e, rfl⟩ := h
    have := congrArg List.length (hs.symm.trans e)
    simp [utf8s] at this
    omega
  | cons z zs ih =>
    intro pre hz hpre hs
    have hsplit : utf8s (z :: zs) = utf8 z ++ utf8s zs := by simp [utf8s]
    have hk := hz z (by simp)
    have hmin : min pre.length (2 ^ 64 - 1) = pre.length := by
      have : pre.length ≤ s.length := by rw [hs]; simp
      omega
    rw [hsplit, (fed_utf8 z hk).findLoop, hmin, cut_to_end]
    by_cases hshort : s.length - pre.length < part.length
    · rw [if_pos hshort]
      refine ⟨none, rfl, by simp, fun _ j hj h => ?_⟩
      obtain ⟨a, b, e, rfl⟩ := h
      have := congrArg List.length e
      simp at this
      omega
    rw [if_neg hshort]
    have hat : At part s pre.length ↔ startsWith part (s.drop pre.length) = true := by
      rw [at_drop, startsWith_iff]
      constructor
      · exact fun h => h.2
      · exact fun h => ⟨by rw [hs]; simp, h⟩
    by_cases hit : startsWith part (s.drop pre.length) = true
    · rw [if_pos hit]
      refine ⟨_, rfl, ?_, by simp⟩
      intro k hk
      cases hk
      exact ⟨hat.2 hit, fun j hj _ => hj⟩
    rw [if_neg hit]
    have hs' : s = (pre ++ utf8 z) ++ utf8s zs := by rw [hs, hsplit, List.append_assoc]
    obtain ⟨r, e, h1, h2⟩ := ih (pre ++ utf8 z) (fun y hy => hz y (by simp [hy])) (text_append hpre (text_char z hk)) hs'
    rw [List.length_append] at e h1 h2
    -- an occurrence from here on is one from the next character on
    have lift : ∀ j, pre.length ≤ j → At part s j → pre.length + (utf8 z).length ≤ j := by
      intro j hj h
      apply Classical.byContradiction
      intro hlt
      rcases Nat.lt_or_ge pre.length j with hgt | hle
      · obtain ⟨a, b, e', rfl⟩ := h
        have htext : Text (a ++ part ++ b) := by
          rw [← e', hs', List.append_assoc]
          refine text_append hpre (text_append (text_char z hk) ⟨zs, fun y hy => hz y (by simp [hy]), rfl⟩)
        obtain ⟨c, cs, hc, hcl⟩ := text_head hp hne
        obtain ⟨d, ds, hd, _, hds⟩ := utf8_bytes z hk
        -- byte of `s` at position `a.length` is `c` and a following byte of `z`
        have e1 : s[a.length]? = some c := by rw [e', hc]; simp
        have e2 : s[a.length]? = ds[a.length - pre.length - 1]? := by
          rw [hs, hsplit, hd, List.getElem?_append_right (by omega)]
          rw [hd] at hlt
          simp only [List.length_cons] at hlt
          rw [List.getElem?_append_left (by simp; omega)]
          have : a.length - pre.length = (a.length - pre.length - 1) + 1 := by omega
          rw [this, List.getElem?_cons_succ]
          simp
        rw [e2] at e1
        have := hds c (List.mem_of_getElem? e1)
        omega
      · have : j = pre.length := by omega
        subst this
        exact hit (hat.1 h)
    refine ⟨r, e, fun k hk => ⟨(h1 k hk).1, fun j hj h => (h1 k hk).2 j (lift j hj h) h⟩, fun hr j hj h => h2 hr j (lift j hj h) h⟩

/-- `string/find?` gives the first offset of the part, or none if there is none. -/
theorem find_spec (part s : List Nat) (hp : Text part) (hs : Text s) (hl : s.length < 2 ^ 64) :
    (∃ i, First part s i ∧ find part s = .ok (some i)) ∨ ((∀ i, ¬ At part s i) ∧ find part s = .ok none) := by
  by_cases hne : part = []
  · subst hne
    refine .inl ⟨0, ⟨⟨[], s, by simp, rfl⟩, by simp⟩, by simp [find]⟩
  · have hpl : part.length ≠ 0 := by simpa using hne
    obtain ⟨xs, hx, rfl⟩ := hs
    obtain ⟨r, e, h1, h2⟩ := findLoop_spec part (utf8s xs) hp hne hl xs [] hx text_nil rfl
    rw [find, if_neg hpl]
    simp only [List.length_nil] at e h1 h2
    cases r with
    | none => exact .inr ⟨fun i => h2 rfl i (by omega), e⟩
    | some k => exact .inl ⟨k, ⟨(h1 k rfl).1, fun j => (h1 k rfl).2 j (by omega)⟩, e⟩

/-! ## Joining -/

theorem joinLoop_eq (sep : List Nat) (ss : List (List Nat)) : ∀ i buf, 0 < i →
    joinLoop sep i buf ss = buf ++ (ss.map (sep ++ ·)).flatten := by
  induction ss with
  | nil => intro i buf _; simp [joinLoop]
  | cons s ss ih =>
    intro i buf hi
    rw [joinLoop, ih _ _ (by omega), if_pos hi]
    simp

theorem glue_eq (sep s : List Nat) (ss : List (List Nat)) : glue sep (s :: ss) = s ++ (ss.map (sep ++ ·)).flatten := by
  induction ss generalizing s with
  | nil => simp [glue]
  | cons t ss ih =>
    rw [glue, ih]; simp

theorem join_eq (sep : List Nat) (ss : List (List Nat)) : join sep ss = glue sep ss := by
  cases ss with
  | nil => rfl
  | cons s ss =>
    rw [join, joinLoop, joinLoop_eq _ _ _ _ (by omega), glue_eq]
    simp

theorem glue_text {sep : List Nat} (hsep : Text sep) (ss : List (List Nat)) (h : ∀ s ∈ ss, Text s) : Text (glue sep ss) := by
  induction ss with
  | nil => exact text_nil
  | cons s ss ih =>
    cases ss with
    | nil => simpa [glue] using h s (by simp)
    | cons t ss => exact text_append (text_append (h s (by simp)) hsep) (ih (fun x hx => h x (by simp [hx])))

theorem cut_glue {sep s : List Nat} {parts} (h : Cut sep s parts) : glue sep parts = s := by
  induction h with
  | last s _ => rfl
  | cut a b parts _ hc ih =>
    cases parts with
    | nil => cases hc
    | cons p ps => rw [glue, ih]

theorem cut_text {sep s : List Nat} {parts} (hsep : Text sep) (hne : sep ≠ []) (h : Cut sep s parts) (hs : Text s) :
    ∀ p ∈ parts, Text p := by
  induction h with
  | last s _ => simpa using hs
  | cut a b parts _ _ ih =>
    intro p hp
    rcases List.mem_cons.1 hp with rfl | hp
    · exact text_before hsep hne hs
    · exact ih (text_after hsep hne hs) p hp

end Verif.StrOps
