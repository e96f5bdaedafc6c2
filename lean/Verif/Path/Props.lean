import Verif.Path.Model

/-!
# C19: module paths round-trip and denote different files
-/
namespace Verif.Path

/-! ## Specification: the paths a program can hold

Paths are only made by `PackageName::current/external/from_str` and `ModuleName::prelude/from_parts/from_str`. -/

/-- An acceptable part of a path. -/
def PartOk (s : Str) : Prop := s ≠ [] ∧ '/' ∉ s ∧ s ≠ "~".toList ∧ s ≠ ".".toList ∧ s ≠ "..".toList

/-- Paths the constructors produce: `prelude` alone is represented by no part. -/
def Reachable (p : Path) : Prop :=
  (∀ n, p.package = some n → PartOk n) ∧ (∀ s ∈ p.module, PartOk s) ∧ p.module ≠ ["prelude".toList]

theorem validPart_iff (s : Str) : validPart s = true ↔ PartOk s := by
  simp [validPart, PartOk, tilde, Bool.and_eq_true, and_assoc]

theorem split_noslash (s : Str) (h : '/' ∉ s) : split s = [s] := by
  induction s with
  | nil => rfl
  | cons c s ih =>
    simp at h
    simp [split, ih h.2, Ne.symm h.1]

theorem split_ne_nil (s : Str) : split s ≠ [] := by
  cases s with
  | nil => simp [split]
  | cons c s => simp only [split]; split <;> (try simp); split <;> simp

theorem split_append (p rest : Str) (h : '/' ∉ p) : split (p ++ '/' :: rest) = p :: split rest := by
  induction p with
  | nil => simp [split]
  | cons c p ih =>
    simp at h
    simp [split, ih h.2, Ne.symm h.1]

theorem split_join (parts : List Str) (hne : parts ≠ []) (h : ∀ p ∈ parts, '/' ∉ p) : split (join parts) = parts := by
  induction parts with
  | nil => exact absurd rfl hne
  | cons p parts ih =>
    cases parts with
    | nil => simpa [join] using split_noslash p (h p (by simp))
    | cons q rest =>
      simp only [join]
      rw [split_append _ _ (h p (by simp)), ih (by simp) (fun x hx => h x (by simp [hx]))]

theorem join_split (s : Str) : join (split s) = s := by
  induction s with
  | nil => rfl
  | cons c s ih =>
    simp only [split]
    split
    · next h =>
      subst h
      cases hs : split s with
      | nil => exact absurd hs (split_ne_nil s)
      | cons a b => simp only [join, List.nil_append]; rw [← hs, ih]
    · cases hs : split s with
      | nil => exact absurd hs (split_ne_nil s)
      | cons a b =>
        rw [hs] at ih
        cases b with
        | nil => simp only [join] at ih ⊢; rw [ih]
        | cons b bs => simp only [join, List.cons_append] at ih ⊢; rw [ih]

theorem split_mem (s : Str) : ∀ p ∈ split s, '/' ∉ p := by
  induction s with
  | nil => simp [split]
  | cons c s ih =>
    simp only [split]
    split
    · intro p hp
      rcases List.mem_cons.1 hp with rfl | hp
      · simp
      · exact ih p hp
    · next hc =>
      cases hs : split s with
      | nil => exact absurd hs (split_ne_nil s)
      | cons a b =>
        rw [hs] at ih
        intro p hp
        rcases List.mem_cons.1 hp with rfl | hp
        · simp [Ne.symm hc, ih a (by simp)]
        · exact ih p (by simp [hp])

theorem cutAt_none (c : Char) (s : Str) (h : c ∉ s) : cutAt c s = none := by
  induction s with
  | nil => rfl
  | cons d s ih => simp at h; simp [cutAt, Ne.symm h.1, ih h.2]

theorem cutAt_some (c : Char) (s rest : Str) (h : c ∉ s) : cutAt c (s ++ c :: rest) = some (s, rest) := by
  induction s with
  | nil => simp [cutAt]
  | cons d s ih => simp at h; simp [cutAt, Ne.symm h.1, ih h.2]

theorem cut_exists (c : Char) (s : Str) (h : c ∈ s) : ∃ a b, s = a ++ c :: b ∧ c ∉ a := by
  induction s with
  | nil => simp at h
  | cons d s ih =>
    by_cases hd : d = c
    · exact ⟨[], s, by simp [hd], by simp⟩
    · obtain ⟨a, b, rfl, ha⟩ := ih (by simpa [Ne.symm hd] using h)
      exact ⟨d :: a, b, by simp, by simp [Ne.symm hd, ha]⟩

/-- C19, first half: printing a path and parsing the text gives the path back, for every path a program can hold. -/
theorem parse_print (p : Path) (h : Reachable p) : parse (print p) = some p := by
  obtain ⟨pk, m⟩ := p
  obtain ⟨h1, h2, h3⟩ := h
  simp only at h1 h2 h3
  have hpk : '/' ∉ showPackage pk ∧ parsePackage (showPackage pk) = some pk := by
    cases pk with
    | none => exact ⟨by decide, by decide⟩
    | some n =>
      have := h1 n rfl
      refine ⟨this.2.1, ?_⟩
      have hv := (validPart_iff n).2 this
      have hne : n ≠ tilde := this.2.2.1
      simp [showPackage, parsePackage, external, hv, hne]
  unfold print
  cases m with
  | nil => simp [parse, cutAt_none _ _ hpk.1, hpk.2]
  | cons q qs =>
    simp only [List.isEmpty_cons, Bool.false_eq_true, if_false]
    unfold parse
    rw [cutAt_some _ _ _ hpk.1]
    have : parseModule (showModule (q :: qs)) = some (q :: qs) := by
      show fromParts (split (join (q :: qs))) = _
      rw [split_join _ (by simp) (fun p hp => (h2 p hp).2.1)]
      unfold fromParts
      rw [if_neg, if_pos]
      · simp only [List.all_eq_true]; exact fun p hp => (validPart_iff p).2 (h2 p hp)
      · rintro ⟨hl, hh⟩
        apply h3
        cases qs with
        | nil => simp at hh; simp [hh]; rfl
        | cons a b => simp at hl
    simp only [hpk.2, this]
    rfl

/-- Whatever `parse` accepts is a path of the kind `parse_print` speaks about. -/
theorem parse_reachable (s : Str) (p : Path) (h : parse s = some p) : Reachable p := by
  have hpk : ∀ n pk, parsePackage n = some pk → ∀ m, pk = some m → PartOk m := by
    intro n pk h m e
    subst e
    unfold parsePackage external at h
    split at h
    · cases h
    · split at h
      · cases h; next hv => exact (validPart_iff _).1 hv
      · cases h
  have hm : ∀ n m, parseModule n = some m → (∀ s ∈ m, PartOk s) ∧ m ≠ ["prelude".toList] := by
    intro n m h
    unfold parseModule fromParts at h
    split at h
    · cases h; simp
    · next hnp =>
      split at h
      · next hv =>
        cases h
        refine ⟨fun s hs => (validPart_iff s).1 (List.all_eq_true.1 hv s hs), ?_⟩
        intro e; rw [e] at hnp; exact hnp ⟨rfl, rfl⟩
      · cases h
  unfold parse at h
  split at h
  · simp only [Option.bind_eq_bind, Option.bind_eq_some_iff] at h
    obtain ⟨pk, h1, m, h2, h3⟩ := h
    cases h3
    exact ⟨fun n e => hpk _ _ h1 n e, (hm _ _ h2).1, (hm _ _ h2).2⟩
  · simp only [Option.bind_eq_bind, Option.bind_eq_some_iff] at h
    obtain ⟨pk, h1, h3⟩ := h
    cases h3
    exact ⟨fun n e => hpk _ _ h1 n e, by simp, by simp⟩

/-- Different paths print differently. -/
theorem print_injective (p q : Path) (hp : Reachable p) (hq : Reachable q) (h : print p = print q) : p = q := by
  have := parse_print p hp
  rw [h, parse_print q hq] at this
  exact (Option.some.inj this).symm

/-- Parsing accepts exactly: a package, or a package followed by a slash and parts separated by slashes, every part acceptable. -/
theorem parse_accepts (s : Str) : (parse s).isSome ↔
    ∃ parts : List Str, parts ≠ [] ∧ join parts = s ∧ (∀ p ∈ parts, '/' ∉ p) ∧
      (∃ h, parts.head? = some h ∧ (h = "~".toList ∨ PartOk h)) ∧
      (∀ p ∈ parts.tail, PartOk p) := by
  have hpk : ∀ n, (parsePackage n).isSome = true ↔ (n = "~".toList ∨ PartOk n) := by
    intro n
    unfold parsePackage external
    split
    · next h => simp [h, tilde]
    · next h =>
      rw [← validPart_iff]
      have : n ≠ "~".toList := h
      split <;> simp_all
  have hprel : PartOk prelude := by unfold PartOk prelude; decide
  have hm : ∀ ps, (fromParts ps).isSome = true ↔ (∀ p ∈ ps, PartOk p) := by
    intro ps
    unfold fromParts
    split
    · next h =>
      obtain ⟨h1, h2⟩ := h
      match ps, h1 with
      | [x], _ => simp at h2; subst h2; simp [hprel]
    · split
      · next h => simp [List.all_eq_true, validPart_iff] at h ⊢; exact h
      · next h => simp [List.all_eq_true, validPart_iff] at h ⊢; exact h
  have uniq : ∀ parts : List Str, parts ≠ [] → join parts = s → (∀ p ∈ parts, '/' ∉ p) → parts = split s := by
    intro parts h1 h2 h3; rw [← h2, split_join _ h1 h3]
  have key : (parse s).isSome ↔ ∃ h, (split s).head? = some h ∧ (h = "~".toList ∨ PartOk h) ∧ ∀ p ∈ (split s).tail, PartOk p := by
    by_cases hs : '/' ∈ s
    · obtain ⟨a, b, rfl, ha⟩ := cut_exists _ _ hs
      unfold parse
      rw [cutAt_some _ _ _ ha, split_append _ _ ha]
      simp only [List.head?_cons, List.tail_cons, Option.some.injEq, exists_eq_left']
      rw [← hm, ← hpk]
      unfold parseModule
      cases parsePackage a <;> cases fromParts (split b) <;> simp
    · unfold parse
      rw [cutAt_none _ _ hs, split_noslash _ hs]
      simp only [List.head?_cons, List.tail_cons, Option.some.injEq, exists_eq_left']
      rw [← hpk]
      cases parsePackage s <;> simp
  rw [key]
  constructor
  · rintro ⟨h, h1, h2, h3⟩
    exact ⟨split s, split_ne_nil s, join_split s, split_mem s, ⟨h, h1, h2⟩, h3⟩
  · rintro ⟨parts, h1, h2, h3, ⟨h, h4, h5⟩, h6⟩
    have := uniq parts h1 h2 h3
    subst this
    exact ⟨h, h4, h5, h6⟩

/-- Non-vacuity. -/
example : Reachable ⟨some "std".toList, ["collections".toList, "prelude".toList]⟩ := by
  unfold Reachable PartOk; decide

/-- C19, second half, is false: `~/a.b` and `~/a.c` are different modules read from the same file `a.llrl`. -/
theorem files_collide :
    ∃ p q : Path, Reachable p ∧ Reachable q ∧ p ≠ q ∧ p.package = q.package ∧ fileOf p.module = fileOf q.module :=
  ⟨⟨none, ["a.b".toList]⟩, ⟨none, ["a.c".toList]⟩, by unfold Reachable PartOk; decide, by unfold Reachable PartOk; decide, by decide,
    rfl, by decide⟩

theorem stem_nodot (s : Str) (h : '.' ∉ s) : stem s = s := by
  unfold stem
  rw [cutAt_none _ _ (by simpa using h)]

/-- C19, second half: within a package, two modules whose last parts have no dot are read from different files. -/
theorem files_differ_partial (p q : Path) (hp : Reachable p) (hq : Reachable q)
    (hdp : ∀ s, p.module.getLast? = some s → '.' ∉ s) (hdq : ∀ s, q.module.getLast? = some s → '.' ∉ s)
    (h : fileOf p.module = fileOf q.module) : p.module = q.module := by
  obtain ⟨_, _, hp3⟩ := hp
  obtain ⟨_, _, hq3⟩ := hq
  have full : ∀ m : ModuleName, m ≠ [] → (∀ s, m.getLast? = some s → '.' ∉ s) →
      fileOf m = m.dropLast ++ [m.getLast?.getD [] ++ extension] := by
    intro m hne hd
    unfold fileOf
    have : m.isEmpty = false := by cases m <;> simp_all
    simp only [this, Bool.false_eq_true, if_false]
    rw [stem_nodot]
    obtain ⟨l, hl⟩ : ∃ l, m.getLast? = some l := ⟨m.getLast hne, List.getLast?_eq_some_getLast hne⟩
    rw [hl]; exact hd l hl
  have recover : ∀ m : ModuleName, m ≠ [] → m = m.dropLast ++ [m.getLast?.getD []] := by
    intro m hne
    rw [List.getLast?_eq_some_getLast hne]
    simp [List.dropLast_concat_getLast hne]
  have hprel : fileOf [] = [] ++ [prelude ++ extension] := rfl
  by_cases h1 : p.module = [] <;> by_cases h2 : q.module = []
  · rw [h1, h2]
  · exfalso
    rw [h1, full _ h2 hdq, hprel] at h
    have := List.append_inj' h rfl
    apply hq3
    rw [recover _ h2, ← this.1]
    have := List.append_cancel_right (List.cons.inj this.2).1
    rw [← this]; rfl
  · exfalso
    rw [h2, full _ h1 hdp, hprel] at h
    have := List.append_inj' h rfl
    apply hp3
    rw [recover _ h1, this.1]
    have := List.append_cancel_right (List.cons.inj this.2).1
    rw [this]; rfl
  · rw [full _ h1 hdp, full _ h2 hdq] at h
    have := List.append_inj' h rfl
    rw [recover _ h1, recover _ h2, this.1, List.append_cancel_right (List.cons.inj this.2).1]

/-- Non-vacuity of the partial theorem. -/
example : let p : Path := ⟨none, ["a".toList, "b".toList]⟩
    Reachable p ∧ (∀ s, p.module.getLast? = some s → '.' ∉ s) := by
  unfold Reachable PartOk; refine ⟨by decide, ?_⟩; intro s h; cases h; decide

end Verif.Path
