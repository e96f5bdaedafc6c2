import Verif.Import.Spec

namespace Verif.Import
open Spec

theorem isSuffixOf_iff (p s : Name) : p.isSuffixOf s = true ↔ p <:+ s := List.isSuffixOf_iff_suffix
theorem isPrefixOf_iff (p s : Name) : p.isPrefixOf s = true ↔ p <+: s := List.isPrefixOf_iff_prefix

theorem fixed_det {p f b f' b'} (h : Fixed p f b) (h' : Fixed p f' b') : f = f' ∧ b = b' := by
  generalize e : p = q at h'
  cases h with
  | front _ h1 h2 =>
    cases h' with
    | front _ h3 h4 => exact ⟨List.append_cancel_right e, rfl⟩
    | back _ h3 =>
      cases f with
      | nil => exact absurd rfl h1
      | cons c f => simp at e h2; exact absurd e.1 h2
  | back _ h1 =>
    cases h' with
    | front _ h3 h4 =>
      cases f' with
      | nil => exact absurd rfl h3
      | cons c f => simp at e h4; exact absurd e.1.symm h4
    | back _ h3 => exact ⟨(List.cons.inj e).2, rfl⟩

theorem fixed_ne {p f b} (h : Fixed p f b) : p ≠ ['_'] := by
  cases h with
  | front _ h1 h2 => cases f with
    | nil => exact absurd rfl h1
    | cons c f => intro e; simp at e
  | back _ h1 => intro e; simp at e; exact h1 e

/-- What `fromPattern` returns. -/
theorem fromPattern_cases (p : Name) :
    (p = ['_'] ∧ fromPattern p = some .everything) ∨
    (∃ f, Fixed p f true ∧ fromPattern p = some (.startsWith f)) ∨
    (∃ f, Fixed p f false ∧ fromPattern p = some (.endsWith f)) ∨
    (¬ IsPattern p ∧ fromPattern p = none) := by
  unfold fromPattern
  by_cases h0 : p = ['_']
  · left; exact ⟨h0, by simp [h0, wildcard]⟩
  · have h0' : ¬ p = wildcard := h0
    rw [if_neg h0']
    cases p with
    | nil =>
      right; right; right
      refine ⟨?_, by simp [stripPrefix, stripSuffix, wildcard]⟩
      rintro (h | ⟨f, b, h⟩)
      · cases h
      · generalize e : ([] : Name) = q at h
        cases h <;> simp at e
    | cons c p =>
      by_cases hc : c = '_'
      · subst hc
        right; right; left
        refine ⟨p, .back p (by intro e; exact h0 (by rw [e])), ?_⟩
        simp [stripPrefix, wildcard]
      · have : stripPrefix wildcard (c :: p) = none := by simp [stripPrefix, wildcard, Ne.symm hc]
        rw [this]
        simp only
        by_cases hs : ['_'] <:+ (c :: p)
        · obtain ⟨f, hf⟩ := hs
          right; left
          refine ⟨f, ?_, ?_⟩
          · rw [← hf]
            refine .front f ?_ ?_
            · rintro rfl; simp at hf; exact hc hf.1.symm
            · cases f with
              | nil => simp
              | cons d f => simp at hf ⊢; rw [hf.1]; exact hc
          · have : stripSuffix wildcard (c :: p) = some f := by
              unfold stripSuffix
              rw [if_pos ((isSuffixOf_iff _ _).2 (show wildcard <:+ _ from ⟨f, hf⟩)), ← hf]
              simp [wildcard]
            rw [this]
        · right; right; right
          have : stripSuffix wildcard (c :: p) = none := by
            unfold stripSuffix
            rw [if_neg (show ¬ List.isSuffixOf wildcard (c :: p) = true from fun h => hs ((isSuffixOf_iff _ _).1 h))]
          rw [this]
          refine ⟨?_, rfl⟩
          rintro (h | ⟨f, b, h⟩)
          · exact h0 h
          · generalize e : c :: p = q at h
            cases h with
            | front _ h1 h2 => exact hs ⟨f, e.symm⟩
            | back _ h1 => simp at e; exact hc e.1

variable {K : Type} [DecidableEq K]

/-- Binding a list of names in order, stopping at the first clash: what all the loops amount to. -/
theorem define_ok (top top' : Top K) (n : Name) (k : K) :
    define top n k = .ok top' ↔ (∀ k', top.get n = some k' → k' = k) ∧ top' = top.insert n k := by
  unfold define
  cases h : top.get n with
  | none => simp [eq_comm]
  | some old =>
    by_cases he : old = k
    · simp [he, eq_comm]
    · simp [he]

omit [DecidableEq K] in
theorem get_entries {l : List (Name × K)} (h : Entries l) (n : Name) (k : K) : HMap.get l n = some k ↔ (n, k) ∈ l :=
  ⟨HMap.get_some_mem, fun hm => HMap.mem_get h hm⟩

/-- Agreement of a table with a relation. -/
def Holds (top : Top K) (R : Name → K → Prop) : Prop := ∀ n k, top.get n = some k ↔ R n k

/-- A step that adds the relation `S` to a table: succeeds exactly when the result is still functional (and `ok` holds). -/
def Adds (f : Top K → Except Err (Top K)) (ok : Prop) (S : Name → K → Prop) : Prop :=
  ∀ top R, Holds top R →
    ((∃ top', f top = .ok top') ↔ ok ∧ ∀ n k k', (R n k ∨ S n k) → (R n k' ∨ S n k') → k = k') ∧
    ∀ top', f top = .ok top' → Holds top' (fun n k => R n k ∨ S n k)

omit [DecidableEq K] in
theorem holds_functional {top : Top K} {R} (h : Holds top R) : ∀ n k k', R n k → R n k' → k = k' := by
  intro n k k' h1 h2
  have a := (h n k).2 h1
  have b := (h n k').2 h2
  rw [a] at b; exact Option.some.inj b

theorem Adds.define (n : Name) (k : K) : Adds (fun top => define top n k) True (fun m j => m = n ∧ j = k) := by
  intro top R h
  refine ⟨?_, ?_⟩
  · constructor
    · rintro ⟨top', ht⟩
      have := ((define_ok _ _ _ _).1 ht).1
      refine ⟨trivial, ?_⟩
      rintro m a b (h1 | ⟨rfl, rfl⟩) (h2 | ⟨h3, h4⟩)
      · exact holds_functional h _ _ _ h1 h2
      · subst h3 h4; exact this _ ((h _ _).2 h1)
      · exact (this _ ((h _ _).2 h2)).symm
      · exact h4.symm
    · rintro ⟨-, hf⟩
      exact ⟨_, (define_ok _ _ _ _).2 ⟨fun k' hk => hf n k' k (.inl ((h _ _).1 hk)) (.inr ⟨rfl, rfl⟩), rfl⟩⟩
  · intro top' ht m j
    obtain ⟨h1, rfl⟩ := (define_ok _ _ _ _).1 ht
    rw [HMap.get_insert]
    by_cases hm : m = n
    · subst hm
      rw [if_pos rfl]
      constructor
      · intro e; exact .inr ⟨rfl, (Option.some.inj e).symm⟩
      · rintro (hr | ⟨-, rfl⟩)
        · rw [h1 j ((h _ _).2 hr)]
        · rfl
    · rw [if_neg hm, h]
      constructor
      · exact .inl
      · rintro (hr | ⟨e, -⟩)
        · exact hr
        · exact absurd e hm

omit [DecidableEq K] in
theorem Adds.none : Adds (K := K) (fun top => .ok top) True (fun _ _ => False) := by
  intro top R h
  refine ⟨?_, ?_⟩
  · simp; exact holds_functional h
  · rintro top' e; cases e; simpa using h

omit [DecidableEq K] in
theorem Adds.error (e : Err) : Adds (K := K) (fun _ => .error e) False (fun _ _ => False) := by
  intro top R h
  simp

omit [DecidableEq K] in
theorem Adds.bind {f g : Top K → Except Err (Top K)} {ok1 ok2 S1 S2} (hf : Adds f ok1 S1) (hg : Adds g ok2 S2) :
    Adds (fun top => f top >>= g) (ok1 ∧ ok2) (fun n k => S1 n k ∨ S2 n k) := by
  intro top R h
  obtain ⟨h1, h2⟩ := hf top R h
  refine ⟨?_, ?_⟩
  · constructor
    · rintro ⟨top', ht⟩
      have ht : f top >>= g = .ok top' := ht
      cases e : f top with
      | error x => rw [e] at ht; cases ht
      | ok t1 =>
        rw [e] at ht
        obtain ⟨o1, f1⟩ := h1.1 ⟨t1, e⟩
        obtain ⟨h3, h4⟩ := hg t1 _ (h2 t1 e)
        obtain ⟨o2, f2⟩ := h3.1 ⟨top', ht⟩
        refine ⟨⟨o1, o2⟩, ?_⟩
        intro n k k' a b
        exact f2 n k k' (by simpa [or_assoc] using a) (by simpa [or_assoc] using b)
    · rintro ⟨⟨o1, o2⟩, hfun⟩
      obtain ⟨t1, e⟩ := h1.2 ⟨o1, fun n k k' a b => hfun n k k'
        (by rcases a with a | a <;> simp [a]) (by rcases b with b | b <;> simp [b])⟩
      obtain ⟨h3, h4⟩ := hg t1 _ (h2 t1 e)
      obtain ⟨t2, e2⟩ := h3.2 ⟨o2, fun n k k' a b => hfun n k k' (by simpa [or_assoc] using a) (by simpa [or_assoc] using b)⟩
      refine ⟨t2, ?_⟩
      show f top >>= g = _
      rw [e]; exact e2
  · intro top' ht
    have ht : f top >>= g = .ok top' := ht
    cases e : f top with
    | error x => rw [e] at ht; cases ht
    | ok t1 =>
      rw [e] at ht
      obtain ⟨h3, h4⟩ := hg t1 _ (h2 t1 e)
      intro n k
      exact (h4 top' ht n k).trans or_assoc

omit [DecidableEq K] in
theorem Adds.congr {f : Top K → Except Err (Top K)} {ok ok' S S'} (h : Adds f ok S) (ho : ok ↔ ok') (hs : ∀ n k, S n k ↔ S' n k) :
    Adds f ok' S' := by
  have : S = S' := by funext n k; exact propext (hs n k)
  have : ok = ok' := propext ho
  subst_vars; exact h

end Verif.Import
