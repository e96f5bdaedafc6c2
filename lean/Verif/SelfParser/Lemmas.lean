import Verif.Parser.Props
import Verif.SelfParser.Model
import Verif.SelfParser.Spec

/-!
# Soundness and completeness of the self-hosted parser
-/

namespace Verif.SelfParser

open Verif.Parser (Tok Sexp)
open Verif.Parser.Spec (Atom Mark Brackets cons form)
open Spec

variable {F : Type}

/-- The S-expression of `llrl0` that a cell stands for. -/
def Cell.toSexp : Cell F → Sexp F
  | .integer b n => .integer b n
  | .fpNumber f => .fpNumber f
  | .bool b => .bool b
  | .symbol s => .symbol s
  | .string s => .string s
  | .char c => .char c
  | .cons a d => Parser.Spec.cons a.toSexp d.toSexp
  | .nil => .list []

theorem toSexp_sugar (name : String) (c : Cell F) : (sugar name c).toSexp = form name [c.toSexp] := rfl

theorem mark_iff (t : Tok F) (name : String) : mark t = some name ↔ Mark t name := by
  constructor
  · intro h
    unfold mark at h
    split at h <;> first | (cases h; constructor) | simp at h
  · intro h
    cases h <;> rfl

theorem atom_iff (t : Tok F) (s : Sexp F) : (∃ c, atom t = some c ∧ c.toSexp = s) ↔ Atom t s := by
  constructor
  · rintro ⟨c, h, rfl⟩
    unfold atom at h
    split at h
    · cases h
      rename_i n
      refine .signed _ _ ?_ ⟨n / 2 ^ 64, ?_⟩
      · have := Int.emod_lt_of_pos n (show (0 : Int) < 2 ^ 64 by decide)
        have := Int.emod_nonneg n (show (2 ^ 64 : Int) ≠ 0 by decide)
        omega
      · have := Int.emod_nonneg n (show (2 ^ 64 : Int) ≠ 0 by decide)
        omega
    all_goals first | (cases h; constructor) | simp at h
  · intro h
    cases h with
    | signed i n hn hk =>
      obtain ⟨k, rfl⟩ := hk
      refine ⟨_, rfl, ?_⟩
      simp only [Cell.toSexp, Sexp.integer.injEq, true_and]
      omega
    | _ => exact ⟨_, rfl, rfl⟩

theorem andThen_ok {A B : Type} {r : R F A} {k : A → List (Tok F) → R F B} {b : B} {rest : List (Tok F)}
    (h : andThen r k = some (.ok (b, rest))) : ∃ a ts, r = some (.ok (a, ts)) ∧ k a ts = some (.ok (b, rest)) := by
  unfold andThen at h
  split at h
  · simp at h
  · simp at h
  · exact ⟨_, _, rfl, h⟩

theorem rParen_ok {ts rest : List (Tok F)} {u : Unit} (h : rParen ts = some (.ok (u, rest))) :
    ts = .lexed .rParen :: rest := by
  unfold rParen at h
  split at h
  · simp at h; simp [h]
  · simp [error] at h

theorem rBrack_ok {ts rest : List (Tok F)} {u : Unit} (h : rBrack ts = some (.ok (u, rest))) :
    ts = .lexed .rBrack :: rest := by
  unfold rBrack at h
  split at h
  · simp at h; simp [h]
  · simp [error] at h

theorem rBrace_ok {ts rest : List (Tok F)} {u : Unit} (h : rBrace ts = some (.ok (u, rest))) :
    ts = .lexed .rBrace :: rest := by
  unfold rBrace at h
  split at h
  · simp at h; simp [h]
  · simp [error] at h

/-! ## Soundness -/

theorem sound (n : Nat) :
    (∀ (ts rest : List (Tok F)) c, s? n ts = some (.ok (c, rest)) →
      match c with | some c => ∃ u, ts = u ++ rest ∧ S u c.toSexp | none => rest = ts) ∧
    (∀ (ts rest : List (Tok F)) c, s n ts = some (.ok (c, rest)) → ∃ u, ts = u ++ rest ∧ S u c.toSexp) ∧
    (∀ (ts rest : List (Tok F)) c, s2? n ts = some (.ok (c, rest)) →
      match c with | some c => ∃ u, ts = u ++ rest ∧ T u c.toSexp | none => rest = ts) ∧
    (∀ (main : Cell F) (ts rest : List (Tok F)) c u0, suffix n main ts = some (.ok (c, rest)) →
      T u0 main.toSexp → ∃ u, ts = u ++ rest ∧ T (u0 ++ u) c.toSexp) ∧
    (∀ (ts rest : List (Tok F)) c, s3? n ts = some (.ok (c, rest)) →
      match c with | some c => ∃ u, ts = u ++ rest ∧ T u c.toSexp | none => rest = ts) ∧
    (∀ (b : Bool) (ts rest : List (Tok F)) c, body n b ts = some (.ok (c, rest)) →
      ∃ u, ts = u ++ rest ∧ B b u c.toSexp) := by
  induction n with
  | zero => simp [s?, s, s2?, suffix, s3?, body]
  | succ n ih =>
    obtain ⟨i1, i2, i3, i4, i5, i6⟩ := ih
    refine ⟨?_, ?_, ?_, ?_, ?_, ?_⟩
    · intro ts rest c h
      cases ts with
      | nil =>
        rw [s?] at h
        have := i3 _ _ _ h
        cases c with
        | none => exact this
        | some c =>
          obtain ⟨u, h1, h2⟩ := this
          exact ⟨u, h1, .term _ _ h2⟩
      | cons t ts =>
        rw [s?] at h
        split at h
        · rename_i name hm
          obtain ⟨a, ts', h1, h2⟩ := andThen_ok h
          simp only [Option.some.injEq, Except.ok.injEq, Prod.mk.injEq] at h2
          obtain ⟨rfl, rfl⟩ := h2
          obtain ⟨u, rfl, h3⟩ := i2 _ _ _ h1
          exact ⟨t :: u, rfl, .marked _ _ _ _ ((mark_iff _ _).1 hm) h3⟩
        · have := i3 _ _ _ h
          cases c with
          | none => exact this
          | some c =>
            obtain ⟨u, h1, h2⟩ := this
            exact ⟨u, h1, .term _ _ h2⟩
    · intro ts rest c h
      rw [s] at h
      obtain ⟨a, ts', h1, h2⟩ := andThen_ok h
      cases a with
      | none => simp [error] at h2
      | some a =>
        simp only [Option.some.injEq, Except.ok.injEq, Prod.mk.injEq] at h2
        obtain ⟨rfl, rfl⟩ := h2
        exact i1 _ _ _ h1
    · intro ts rest c h
      rw [s2?] at h
      obtain ⟨a, ts', h1, h2⟩ := andThen_ok h
      have h3 := i5 _ _ _ h1
      cases a with
      | none =>
        simp only [Option.some.injEq, Except.ok.injEq, Prod.mk.injEq] at h2
        obtain ⟨rfl, rfl⟩ := h2
        exact h3
      | some a =>
        obtain ⟨u, rfl, h3⟩ := h3
        obtain ⟨m, ts2, h4, h5⟩ := andThen_ok h2
        simp only [Option.some.injEq, Except.ok.injEq, Prod.mk.injEq] at h5
        obtain ⟨rfl, rfl⟩ := h5
        obtain ⟨u', rfl, h6⟩ := i4 _ _ _ _ _ h4 h3
        exact ⟨u ++ u', by simp, h6⟩
    · intro main ts rest c u0 h hT
      unfold suffix at h
      split at h
      · simp at *
      · rename_i n' main' ts' he
        cases he
        obtain ⟨u, rfl, h1⟩ := i4 _ _ _ _ _ h (.question _ _ hT)
        exact ⟨.lexed .question :: u, rfl, by simpa using h1⟩
      · rename_i n' main' ts' he
        cases he
        obtain ⟨u, rfl, h1⟩ := i4 _ _ _ _ _ h (.exclamation _ _ hT)
        exact ⟨.lexed .exclamation :: u, rfl, by simpa using h1⟩
      · rename_i n' main' ts' he
        cases he
        obtain ⟨ann, ts1, h1, h2⟩ := andThen_ok h
        obtain ⟨x, ts2, h3, h4⟩ := andThen_ok h2
        obtain ⟨v, rfl, h5⟩ := i6 _ _ _ _ h1
        have := rBrace_ok h3
        subst this
        obtain ⟨u, rfl, h6⟩ := i4 _ _ _ _ _ h4 (.annotate _ _ _ _ hT h5)
        exact ⟨.lexed .lBrace :: (v ++ .lexed .rBrace :: u), by simp, by simpa using h6⟩
      · simp only [Option.some.injEq, Except.ok.injEq, Prod.mk.injEq] at h
        obtain ⟨rfl, rfl⟩ := h
        exact ⟨[], rfl, by simpa using hT⟩
    · intro ts rest c h
      unfold s3? at h
      split at h
      · simp at *
      · rename_i n' ts' he
        cases he
        obtain ⟨a, ts1, h1, h2⟩ := andThen_ok h
        obtain ⟨x, ts2, h3, h4⟩ := andThen_ok h2
        simp only [Option.some.injEq, Except.ok.injEq, Prod.mk.injEq] at h4
        obtain ⟨rfl, rfl⟩ := h4
        obtain ⟨v, rfl, h5⟩ := i6 _ _ _ _ h1
        have := rParen_ok h3
        subst this
        exact ⟨.lexed .lParen :: (v ++ [.lexed .rParen]), by simp, .list _ _ _ _ .paren h5⟩
      · rename_i n' ts' he
        cases he
        obtain ⟨a, ts1, h1, h2⟩ := andThen_ok h
        obtain ⟨x, ts2, h3, h4⟩ := andThen_ok h2
        simp only [Option.some.injEq, Except.ok.injEq, Prod.mk.injEq] at h4
        obtain ⟨rfl, rfl⟩ := h4
        obtain ⟨v, rfl, h5⟩ := i6 _ _ _ _ h1
        have := rBrack_ok h3
        subst this
        exact ⟨.lexed .lBrack :: (v ++ [.lexed .rBrack]), by simp, .list _ _ _ _ .brack h5⟩
      · split at h
        · rename_i ha
          simp only [Option.some.injEq, Except.ok.injEq, Prod.mk.injEq] at h
          obtain ⟨rfl, rfl⟩ := h
          exact ⟨[_], rfl, .atom _ _ ((atom_iff _ _).1 ⟨_, ha, rfl⟩)⟩
        · simp only [Option.some.injEq, Except.ok.injEq, Prod.mk.injEq] at h
          obtain ⟨rfl, rfl⟩ := h
          rfl
      · simp only [Option.some.injEq, Except.ok.injEq, Prod.mk.injEq] at h
        obtain ⟨rfl, rfl⟩ := h
        rfl
    · intro b ts rest c h
      rw [body] at h
      obtain ⟨a, ts', h1, h2⟩ := andThen_ok h
      have h3 := i1 _ _ _ h1
      split at h2
      · rename_i l ts1
        obtain ⟨u, rfl, h3⟩ := h3
        obtain ⟨d, ts2, h4, h5⟩ := andThen_ok h2
        simp only [Option.some.injEq, Except.ok.injEq, Prod.mk.injEq] at h5
        obtain ⟨rfl, rfl⟩ := h5
        obtain ⟨v, rfl, h6⟩ := i6 _ _ _ _ h4
        exact ⟨u ++ v, by simp, .cons _ _ _ _ _ h3 h6⟩
      · simp only at h3
        subst h3
        obtain ⟨d, ts2, h4, h5⟩ := andThen_ok h2
        simp only [Option.some.injEq, Except.ok.injEq, Prod.mk.injEq] at h5
        obtain ⟨rfl, rfl⟩ := h5
        obtain ⟨v, rfl, h6⟩ := i6 _ _ _ _ h4
        exact ⟨.lexed .at :: v, rfl, .nested _ _ _ h6⟩
      · simp only at h3
        subst h3
        cases b
        · simp only [Bool.false_eq_true, if_false, Option.some.injEq, Except.ok.injEq, Prod.mk.injEq] at h2
          obtain ⟨rfl, rfl⟩ := h2
          exact ⟨[], rfl, .nil _⟩
        · obtain ⟨v, rfl, h6⟩ := i2 _ _ _ h2
          exact ⟨.lexed .dot :: v, rfl, .dotted _ _ h6⟩
      · simp only at h3
        subst h3
        simp only [Option.some.injEq, Except.ok.injEq, Prod.mk.injEq] at h2
        obtain ⟨rfl, rfl⟩ := h2
        exact ⟨[], rfl, .nil _⟩

theorem sound_ss (n : Nat) (ts rest : List (Tok F)) (cs : List (Cell F))
    (h : ss n ts = some (.ok (cs, rest))) : ∃ u, ts = u ++ rest ∧ Ss u (cs.map Cell.toSexp) := by
  induction n generalizing ts cs with
  | zero => simp [ss] at h
  | succ n ih =>
    rw [ss] at h
    obtain ⟨a, ts', h1, h2⟩ := andThen_ok h
    have h3 := (sound n).1 _ _ _ h1
    cases a with
    | none =>
      simp only [Option.some.injEq, Except.ok.injEq, Prod.mk.injEq] at h2
      obtain ⟨rfl, rfl⟩ := h2
      exact ⟨[], by simpa using h3.symm, .nil⟩
    | some a =>
      obtain ⟨u, rfl, h3⟩ := h3
      obtain ⟨d, ts2, h4, h5⟩ := andThen_ok h2
      simp only [Option.some.injEq, Except.ok.injEq, Prod.mk.injEq] at h5
      obtain ⟨rfl, rfl⟩ := h5
      obtain ⟨v, rfl, h6⟩ := ih _ _ h4
      exact ⟨u ++ v, by simp, .cons _ _ _ _ h3 h6⟩

end Verif.SelfParser
