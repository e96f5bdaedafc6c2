import Verif.SelfParser.Complete

/-!
# The self-hosted parser always ends
-/

namespace Verif.SelfParser

open Verif.Parser (Tok Sexp)
open Spec

variable {F : Type}

theorem andThen_mono {A B : Type} {r r' : R F A} {k k' : A → List (Tok F) → R F B}
    {y : Except (Error F) (B × List (Tok F))} (hr : ∀ x, r = some x → r' = some x)
    (hk : ∀ a ts, k a ts = some y → k' a ts = some y) (h : andThen r k = some y) :
    andThen r' k' = some y := by
  unfold andThen at h
  split at h
  · simp at h
  · rw [hr _ rfl]
    exact h
  · rw [hr _ rfl]
    exact hk _ _ h

theorem mono (n : Nat) :
    (∀ (ts : List (Tok F)) r, s? n ts = some r → s? (n + 1) ts = some r) ∧
    (∀ (ts : List (Tok F)) r, s n ts = some r → s (n + 1) ts = some r) ∧
    (∀ (ts : List (Tok F)) r, s2? n ts = some r → s2? (n + 1) ts = some r) ∧
    (∀ (main : Cell F) (ts : List (Tok F)) r, suffix n main ts = some r → suffix (n + 1) main ts = some r) ∧
    (∀ (ts : List (Tok F)) r, s3? n ts = some r → s3? (n + 1) ts = some r) ∧
    (∀ (b : Bool) (ts : List (Tok F)) r, body n b ts = some r → body (n + 1) b ts = some r) := by
  induction n with
  | zero =>
    exact ⟨fun _ _ h => by simp [s?] at h, fun _ _ h => by simp [s] at h, fun _ _ h => by simp [s2?] at h,
      fun _ _ _ h => by simp [suffix] at h, fun _ _ h => by simp [s3?] at h,
      fun _ _ _ h => by simp [body] at h⟩
  | succ n ih =>
    obtain ⟨i1, i2, i3, i4, i5, i6⟩ := ih
    refine ⟨?_, ?_, ?_, ?_, ?_, ?_⟩
    · intro ts r h
      cases ts with
      | nil =>
        rw [s?] at h ⊢
        exact i3 _ _ h
      | cons t ts =>
        rw [s?] at h ⊢
        split at h
        · exact andThen_mono (i2 _) (fun _ _ h => h) h
        · exact i3 _ _ h
    · intro ts r h
      rw [s] at h ⊢
      exact andThen_mono (i1 _) (fun _ _ h => h) h
    · intro ts r h
      rw [s2?] at h ⊢
      refine andThen_mono (i5 _) (fun a ts h => ?_) h
      cases a with
      | none => exact h
      | some a => exact andThen_mono (i4 _ _) (fun _ _ h => h) h
    · intro main ts r h
      unfold suffix at h ⊢
      split at h
      · simp at *
      · rename_i he; cases he; exact i4 _ _ _ h
      · rename_i he; cases he; exact i4 _ _ _ h
      · rename_i he; cases he
        exact andThen_mono (i6 _ _) (fun _ _ h => andThen_mono (fun _ h => h) (fun _ _ h => i4 _ _ _ h) h) h
      · simp_all
    · intro ts r h
      unfold s3? at h ⊢
      split at h
      · simp at *
      · rename_i he; cases he
        exact andThen_mono (i6 _ _) (fun _ _ h => h) h
      · rename_i he; cases he
        exact andThen_mono (i6 _ _) (fun _ _ h => h) h
      · rename_i he; cases he; exact h
      · exact h
    · intro b ts r h
      rw [body] at h ⊢
      refine andThen_mono (i1 _) (fun a ts h => ?_) h
      split at h
      · exact andThen_mono (i6 _ _) (fun _ _ h => h) h
      · exact andThen_mono (i6 _ _) (fun _ _ h => h) h
      · cases b
        · exact h
        · exact i2 _ _ h
      · exact h

theorem ss_mono (n : Nat) (ts : List (Tok F)) (r) (h : ss n ts = some r) : ss (n + 1) ts = some r := by
  induction n generalizing ts r with
  | zero => simp [ss] at h
  | succ n ih =>
    rw [ss] at h ⊢
    refine andThen_mono ((mono n).1 _) (fun a ts h => ?_) h
    cases a with
    | none => exact h
    | some a => exact andThen_mono (ih _) (fun _ _ h => h) h

theorem andThen_some {A B : Type} {r : R F A} {k : A → List (Tok F) → R F B} (hr : r ≠ none)
    (hk : ∀ a ts, r = some (.ok (a, ts)) → k a ts ≠ none) : andThen r k ≠ none := by
  unfold andThen
  split
  · exact absurd rfl hr
  · simp
  · exact hk _ _ rfl

theorem S.ne_nil {u : List (Tok F)} {x : Sexp F} (h : S u x) : u ≠ [] := by
  cases h with
  | marked => simp
  | term _ _ hT =>
    obtain ⟨t, v, rfl, _⟩ := T.head hT
    simp

/-- An S-expression takes at least one token. -/
theorem s?_shorter {n : Nat} {ts rest : List (Tok F)} {c : Cell F} (h : s? n ts = some (.ok (some c, rest))) :
    rest.length < ts.length := by
  obtain ⟨u, rfl, hS⟩ := (sound n).1 _ _ _ h
  have := List.length_pos_iff.2 (S.ne_nil hS)
  simp only [List.length_append]
  omega

theorem total (n : Nat) :
    (∀ ts : List (Tok F), 6 * ts.length + 3 ≤ n → s? n ts ≠ none) ∧
    (∀ ts : List (Tok F), 6 * ts.length + 4 ≤ n → s n ts ≠ none) ∧
    (∀ ts : List (Tok F), 6 * ts.length + 2 ≤ n → s2? n ts ≠ none) ∧
    (∀ (main : Cell F) (ts : List (Tok F)), 6 * ts.length + 1 ≤ n → suffix n main ts ≠ none) ∧
    (∀ ts : List (Tok F), 6 * ts.length + 1 ≤ n → s3? n ts ≠ none) ∧
    (∀ (b : Bool) (ts : List (Tok F)), 6 * ts.length + 5 ≤ n → body n b ts ≠ none) := by
  induction n with
  | zero => refine ⟨?_, ?_, ?_, ?_, ?_, ?_⟩ <;> intros <;> omega
  | succ n ih =>
    obtain ⟨i1, i2, i3, i4, i5, i6⟩ := ih
    refine ⟨?_, ?_, ?_, ?_, ?_, ?_⟩
    · intro ts h
      cases ts with
      | nil =>
        rw [s?]
        exact i3 _ (by omega)
      | cons t ts =>
        rw [s?]
        simp only [List.length_cons] at h
        split
        · exact andThen_some (i2 _ (by omega)) (by simp)
        · exact i3 _ (by simp only [List.length_cons]; omega)
    · intro ts h
      rw [s]
      refine andThen_some (i1 _ (by omega)) fun a ts _ => ?_
      cases a <;> simp [error]
    · intro ts h
      rw [s2?]
      refine andThen_some (i5 _ (by omega)) fun a ts' h1 => ?_
      cases a with
      | none => simp
      | some a =>
        obtain ⟨u, rfl, _⟩ := (sound n).2.2.2.2.1 _ _ _ h1
        simp only [List.length_append] at h
        exact andThen_some (i4 _ _ (by omega)) (by simp)
    · intro main ts h
      unfold suffix
      split
      · simp at *
      · rename_i he; cases he
        simp only [List.length_cons] at h
        exact i4 _ _ (by omega)
      · rename_i he; cases he
        simp only [List.length_cons] at h
        exact i4 _ _ (by omega)
      · rename_i he; cases he
        simp only [List.length_cons] at h
        refine andThen_some (i6 _ _ (by omega)) fun a ts' h1 => ?_
        obtain ⟨u, rfl, _⟩ := (sound n).2.2.2.2.2 _ _ _ _ h1
        refine andThen_some ?_ fun _ ts2 h2 => ?_
        · unfold rBrace
          split <;> simp [error]
        · have := rBrace_ok h2
          subst this
          simp only [List.length_append, List.length_cons] at h
          exact i4 _ _ (by omega)
      · simp
    · intro ts h
      unfold s3?
      split
      · simp at *
      · rename_i he; cases he
        simp only [List.length_cons] at h
        refine andThen_some (i6 _ _ (by omega)) fun a ts' h1 => andThen_some ?_ (by simp)
        unfold rParen
        split <;> simp [error]
      · rename_i he; cases he
        simp only [List.length_cons] at h
        refine andThen_some (i6 _ _ (by omega)) fun a ts' h1 => andThen_some ?_ (by simp)
        unfold rBrack
        split <;> simp [error]
      · split <;> simp
      · simp
    · intro b ts h
      rw [body]
      refine andThen_some (i1 _ (by omega)) fun a ts' h1 => ?_
      split
      · have := s?_shorter h1
        exact andThen_some (i6 _ _ (by omega)) (by simp)
      · have h2 := (sound n).1 _ _ _ h1
        simp only at h2
        subst h2
        simp only [List.length_cons] at h
        exact andThen_some (i6 _ _ (by omega)) (by simp)
      · have h2 := (sound n).1 _ _ _ h1
        simp only at h2
        subst h2
        simp only [List.length_cons] at h
        cases b
        · simp
        · exact i2 _ (by omega)
      · simp

theorem ss_total (n : Nat) (ts : List (Tok F)) (h : 6 * ts.length + 4 ≤ n) : ss n ts ≠ none := by
  induction n generalizing ts with
  | zero => omega
  | succ n ih =>
    rw [ss]
    refine andThen_some ((total n).1 _ (by omega)) fun a ts' h1 => ?_
    cases a with
    | none => simp
    | some a =>
      have := s?_shorter h1
      exact andThen_some (ih _ (by omega)) (by simp)

end Verif.SelfParser
