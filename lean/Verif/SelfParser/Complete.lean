import Verif.SelfParser.Lemmas

/-!
# Completeness of the self-hosted parser
-/

namespace Verif.SelfParser

open Verif.Parser (Tok Sexp)
open Verif.Parser.Spec (Atom Mark Brackets cons form)
open Spec

variable {F : Type}

/-- A result for all fuel from some on. -/
def Ev {A : Type} (f : Nat → R F A) (a : A) (rest : List (Tok F)) : Prop :=
  ∃ n0, ∀ n, n0 ≤ n → f n = some (.ok (a, rest))

theorem Ev.succ {A : Type} {f : Nat → R F A} {a : A} {rest : List (Tok F)} (n0 : Nat)
    (h : ∀ n, n0 ≤ n → f (n + 1) = some (.ok (a, rest))) : Ev f a rest :=
  ⟨n0 + 1, fun n hn => by
    obtain ⟨m, rfl⟩ : ∃ m, n = m + 1 := ⟨n - 1, by omega⟩
    exact h m (by omega)⟩

/-- The tokens after an S-expression that do not belong to it. -/
def NoPost : List (Tok F) → Prop
  | .lexed .question :: _ => False
  | .lexed .exclamation :: _ => False
  | .lexed .lBrace :: _ => False
  | _ => True

/-- The tokens that end a body. -/
inductive Closing : List (Tok F) → Prop
  | paren (r) : Closing (.lexed .rParen :: r)
  | brack (r) : Closing (.lexed .rBrack :: r)
  | brace (r) : Closing (.lexed .rBrace :: r)

theorem Closing.noPost {r : List (Tok F)} (h : Closing r) : NoPost r := by
  cases h <;> exact trivial

/-- The first tokens of S-expressions without a mark. -/
def Opens (t : Tok F) : Prop := (∃ s, Atom t s) ∨ ∃ r, Brackets t r

theorem T.head {u : List (Tok F)} {x : Sexp F} (h : T u x) : ∃ t v, u = t :: v ∧ Opens t := by
  match h with
  | .atom t s ha => exact ⟨t, [], rfl, .inl ⟨s, ha⟩⟩
  | .list l r u s hb _ => exact ⟨l, _, rfl, .inr ⟨r, hb⟩⟩
  | .question u s hT =>
    obtain ⟨t, v, rfl, ho⟩ := T.head hT
    exact ⟨t, _, rfl, ho⟩
  | .exclamation u s hT =>
    obtain ⟨t, v, rfl, ho⟩ := T.head hT
    exact ⟨t, _, rfl, ho⟩
  | .annotate u s v x hT _ =>
    obtain ⟨t, v, rfl, ho⟩ := T.head hT
    exact ⟨t, _, rfl, ho⟩
termination_by structural h

theorem Opens.mark {t : Tok F} (h : Opens t) : mark t = none := by
  rcases h with ⟨_, h⟩ | ⟨_, h⟩ <;> cases h <;> rfl

theorem Opens.noPost {t : Tok F} (h : Opens t) (r : List (Tok F)) : NoPost (t :: r) := by
  rcases h with ⟨_, h⟩ | ⟨_, h⟩ <;> cases h <;> exact trivial

theorem S.noPost {u : List (Tok F)} {x : Sexp F} (h : S u x) (r : List (Tok F)) : NoPost (u ++ r) := by
  cases h with
  | marked t u s name hm _ => cases hm <;> exact trivial
  | term _ _ hT =>
    obtain ⟨t, v, rfl, ho⟩ := T.head hT
    exact ho.noPost _

theorem B.noPost {b : Bool} {u : List (Tok F)} {x : Sexp F} (h : B b u x) (r : List (Tok F))
    (hr : NoPost r) : NoPost (u ++ r) := by
  cases h with
  | nil => exact hr
  | cons _ u _ v _ hs _ =>
    rw [List.append_assoc]
    exact S.noPost hs _
  | nested => exact trivial
  | dotted => exact trivial

theorem suffix_end (n : Nat) (c : Cell F) (r : List (Tok F)) (h : NoPost r) :
    suffix (n + 1) c r = some (.ok (c, r)) := by
  unfold suffix
  split <;> first | rfl | (simp_all [NoPost]; done) | skip

/-- What the parser makes of a token that starts no S-expression. -/
theorem s?_none (n : Nat) (r : List (Tok F)) (h : Closing r ∨ r = [] ∨ (∃ v, r = .lexed .at :: v) ∨ ∃ v, r = .lexed .dot :: v) :
    s? (n + 3) r = some (.ok (none, r)) := by
  rcases h with h | rfl | ⟨v, rfl⟩ | ⟨v, rfl⟩
  · cases h <;> simp [s?, mark, s2?, s3?, atom, andThen]
  · simp [s?, s2?, s3?, andThen]
  · simp [s?, mark, s2?, s3?, atom, andThen]
  · simp [s?, mark, s2?, s3?, atom, andThen]

theorem s3_atom (n : Nat) (t : Tok F) (r : List (Tok F)) (c : Cell F) (h : atom t = some c) :
    s3? (n + 1) (t :: r) = some (.ok (some c, r)) := by
  unfold s3?
  split
  · simp at *
  · rename_i he
    cases he
    simp [atom] at h
  · rename_i he
    cases he
    simp [atom] at h
  · rename_i he
    cases he
    simp [h]
  · rename_i he
    simp at he

mutual

theorem complete_S {u : List (Tok F)} {x : Sexp F} (h : S u x) :
    ∃ c : Cell F, c.toSexp = x ∧ ∀ rest, NoPost rest → Ev (fun n => s? n (u ++ rest)) (some c) rest := by
  match h with
  | .marked t u x name hm hS =>
    obtain ⟨c, hc, he⟩ := complete_S hS
    refine ⟨sugar name c, by rw [toSexp_sugar, hc], fun rest hr => ?_⟩
    obtain ⟨n0, h0⟩ := he rest hr
    refine Ev.succ (n0 + 1) fun n hn => ?_
    obtain ⟨m, rfl⟩ : ∃ m, n = m + 1 := ⟨n - 1, by omega⟩
    rw [List.cons_append, s?, (mark_iff _ _).2 hm]
    simp only [s, h0 m (by omega), andThen]
  | .term u x hT =>
    obtain ⟨c, hc, he⟩ := complete_T hT
    refine ⟨c, hc, fun rest hr => ?_⟩
    obtain ⟨n0, h0⟩ := he rest c rest (Ev.succ 0 fun n _ => suffix_end n c rest hr)
    refine Ev.succ n0 fun n hn => ?_
    have h1 := h0 n hn
    obtain ⟨t, v, rfl, ho⟩ := T.head hT
    rw [List.cons_append, s?, ho.mark]
    exact h1
termination_by structural h

theorem complete_T {u : List (Tok F)} {x : Sexp F} (h : T u x) :
    ∃ c : Cell F, c.toSexp = x ∧ ∀ rest m rest', Ev (fun n => suffix n c rest) m rest' →
      Ev (fun n => s2? n (u ++ rest)) (some m) rest' := by
  match h with
  | .atom t x ha =>
    obtain ⟨c, hc, hx⟩ := (atom_iff t x).2 ha
    refine ⟨c, hx, fun rest m rest' ⟨n0, h0⟩ => ?_⟩
    refine Ev.succ (n0 + 1) fun n hn => ?_
    obtain ⟨k, rfl⟩ : ∃ k, n = k + 1 := ⟨n - 1, by omega⟩
    rw [List.singleton_append, s2?, s3_atom _ _ _ _ hc]
    simp only [andThen, h0 (k + 1) (by omega)]
  | .list l r u x hb hB =>
    obtain ⟨c, hc, he⟩ := complete_B hB
    refine ⟨c, hc, fun rest m rest' ⟨n0, h0⟩ => ?_⟩
    have hcl : Closing (r :: rest) := by cases hb <;> constructor
    obtain ⟨n1, h1⟩ := he (r :: rest) hcl
    refine Ev.succ (n0 + n1 + 1) fun n hn => ?_
    obtain ⟨k, rfl⟩ : ∃ k, n = k + 1 := ⟨n - 1, by omega⟩
    have h2 := h1 k (by omega)
    cases hb with
    | paren =>
      simp only [List.cons_append, List.append_assoc, List.nil_append, s2?, s3?, h2, andThen, rParen,
        h0 (k + 1) (by omega)]
    | brack =>
      simp only [List.cons_append, List.append_assoc, List.nil_append, s2?, s3?, h2, andThen, rBrack,
        h0 (k + 1) (by omega)]
  | .question u x hT =>
    obtain ⟨c, hc, he⟩ := complete_T hT
    refine ⟨sugar "try?" c, by rw [toSexp_sugar, hc], fun rest m rest' ⟨n0, h0⟩ => ?_⟩
    rw [List.append_assoc]
    refine he _ m rest' (Ev.succ n0 fun n hn => ?_)
    rw [List.singleton_append, suffix]
    exact h0 n hn
  | .exclamation u x hT =>
    obtain ⟨c, hc, he⟩ := complete_T hT
    refine ⟨sugar "try!" c, by rw [toSexp_sugar, hc], fun rest m rest' ⟨n0, h0⟩ => ?_⟩
    rw [List.append_assoc]
    refine he _ m rest' (Ev.succ n0 fun n hn => ?_)
    rw [List.singleton_append, suffix]
    exact h0 n hn
  | .annotate u x v y hT hB =>
    obtain ⟨c, hc, he⟩ := complete_T hT
    obtain ⟨d, hd, he'⟩ := complete_B hB
    refine ⟨sugarAnnotate c d, by rw [← hc, ← hd]; rfl, fun rest m rest' ⟨n0, h0⟩ => ?_⟩
    rw [List.append_assoc]
    obtain ⟨n1, h1⟩ := he' (.lexed .rBrace :: rest) (.brace _)
    refine he _ m rest' (Ev.succ (n0 + n1) fun n hn => ?_)
    simp only [List.cons_append, List.append_assoc, List.nil_append, suffix, h1 n (by omega), andThen,
      rBrace]
    exact h0 n (by omega)
termination_by structural h

theorem complete_B {b : Bool} {u : List (Tok F)} {x : Sexp F} (h : B b u x) :
    ∃ c : Cell F, c.toSexp = x ∧ ∀ rest, Closing rest → Ev (fun n => body n b (u ++ rest)) c rest := by
  match h with
  | .nil b =>
    refine ⟨.nil, rfl, fun rest hr => Ev.succ 3 fun n hn => ?_⟩
    obtain ⟨k, rfl⟩ : ∃ k, n = k + 3 := ⟨n - 3, by omega⟩
    rw [List.nil_append, body, s?_none _ _ (.inl hr)]
    cases hr <;> rfl
  | .cons b u x v y hS hB =>
    obtain ⟨c, hc, he⟩ := complete_S hS
    obtain ⟨d, hd, he'⟩ := complete_B hB
    refine ⟨.cons c d, by rw [← hc, ← hd]; rfl, fun rest hr => ?_⟩
    obtain ⟨n0, h0⟩ := he (v ++ rest) (B.noPost hB rest hr.noPost)
    obtain ⟨n1, h1⟩ := he' rest hr
    refine Ev.succ (n0 + n1) fun n hn => ?_
    have h2 := h0 n (by omega)
    simp only at h2
    rw [List.append_assoc, body, h2]
    simp only [andThen, h1 n (by omega)]
  | .nested b v y hB =>
    obtain ⟨d, hd, he'⟩ := complete_B hB
    refine ⟨.cons d .nil, by rw [← hd]; rfl, fun rest hr => ?_⟩
    obtain ⟨n1, h1⟩ := he' rest hr
    refine Ev.succ (n1 + 3) fun n hn => ?_
    obtain ⟨k, rfl⟩ : ∃ k, n = k + 3 := ⟨n - 3, by omega⟩
    rw [List.cons_append, body, s?_none _ _ (.inr (.inr (.inl ⟨_, rfl⟩)))]
    simp only [andThen, h1 (k + 3) (by omega)]
  | .dotted v y hS =>
    obtain ⟨c, hc, he⟩ := complete_S hS
    refine ⟨c, hc, fun rest hr => ?_⟩
    obtain ⟨n0, h0⟩ := he rest hr.noPost
    refine Ev.succ (n0 + 3) fun n hn => ?_
    obtain ⟨k, rfl⟩ : ∃ k, n = k + 3 := ⟨n - 3, by omega⟩
    rw [List.cons_append, body, s?_none _ _ (.inr (.inr (.inr ⟨_, rfl⟩)))]
    simp only [andThen, if_true, s, h0 (k + 2) (by omega)]
termination_by structural h

end

theorem complete_ss {u : List (Tok F)} {xs : List (Sexp F)} (h : Ss u xs) :
    NoPost u ∧ ∃ cs : List (Cell F), cs.map Cell.toSexp = xs ∧ Ev (fun n => ss n u) cs [] := by
  induction h with
  | nil =>
    refine ⟨trivial, [], rfl, Ev.succ 3 fun n hn => ?_⟩
    obtain ⟨k, rfl⟩ : ∃ k, n = k + 3 := ⟨n - 3, by omega⟩
    rw [ss, s?_none _ _ (.inr (.inl rfl))]
    rfl
  | cons u x v xs hS _ ih =>
    obtain ⟨hp, cs, hcs, n1, h1⟩ := ih
    obtain ⟨c, hc, he⟩ := complete_S hS
    obtain ⟨n0, h0⟩ := he v hp
    refine ⟨S.noPost hS v, c :: cs, by rw [List.map_cons, hc, hcs], Ev.succ (n0 + n1) fun n hn => ?_⟩
    have h2 := h0 n (by omega)
    simp only at h2
    rw [ss, h2]
    simp only [andThen, h1 n (by omega)]

end Verif.SelfParser
