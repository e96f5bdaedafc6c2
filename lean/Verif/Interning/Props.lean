import Verif.Interning.Model
import Verif.Util.Lists

/-!
# C18: interning is a bijection on what was interned
-/
namespace Verif.Interning

variable {T : Type} [DecidableEq T]

/-- The table after interning the values of a list in order. -/
def internAll (t : Table T) (xs : List T) : Table T := xs.foldl (fun t x => (intern t x).2) t

/-- The identifier the value at the end of a history received. -/
def idOf (before : List T) (x : T) : Nat := (intern (internAll .new before) x).1

/-- Invariant of every table with at most 2^32 entries. -/
structure Inv (t : Table T) : Prop where
  nodup : t.ids.Nodup
  sym : ∀ x i, t.symbols.get x = some i ↔ t.ids[i]? = some x

theorem inv_new : Inv (Table.new : Table T) := ⟨by simp [Table.new], by intro x i; simp [Table.new, HMap.get_nil]⟩

theorem intern_inv {t : Table T} (h : Inv t) (x : T) (hl : t.ids.length < 2 ^ 32 ∨ x ∈ t.ids) : Inv (intern t x).2 := by
  unfold intern getInterned
  cases hg : t.symbols.get x with
  | some s => exact h
  | none =>
    have hx : x ∉ t.ids := by
      intro hm
      obtain ⟨i, hi, he⟩ := List.getElem_of_mem hm
      have := (h.sym x i).2 (by simp [List.getElem?_eq_getElem hi, he])
      rw [hg] at this; cases this
    have hl : t.ids.length < 2 ^ 32 := hl.resolve_right hx
    simp only [Nat.mod_eq_of_lt hl]
    constructor
    · rw [List.nodup_append]
      exact ⟨h.nodup, by simp, by intro a ha b hb; simp at hb; subst hb; rintro rfl; exact hx ha⟩
    · intro y i
      simp only
      rw [HMap.get_insert]
      by_cases hy : y = x
      · subst hy
        simp only [if_true, Option.some.injEq]
        constructor
        · rintro rfl; simp
        · intro hi
          rw [List.getElem?_append] at hi
          split at hi
          · exact absurd (List.mem_of_getElem? hi) hx
          · have : i - t.ids.length = 0 := by
              cases hk : i - t.ids.length with
              | zero => rfl
              | succ k => rw [hk] at hi; simp at hi
            omega
      · rw [if_neg hy, h.sym]
        constructor
        · intro hi
          rw [List.getElem?_append_left (List.getElem?_eq_some_iff.1 hi).1]; exact hi
        · intro hi
          rw [List.getElem?_append] at hi
          split at hi
          · exact hi
          · exfalso
            cases hk : i - t.ids.length with
            | zero => rw [hk] at hi; simp at hi; exact hy hi.symm
            | succ k => rw [hk] at hi; simp at hi

theorem intern_ids (t : Table T) (x : T) : ∃ l, (intern t x).2.ids = t.ids ++ l := by
  unfold intern
  cases getInterned t x with
  | some s => exact ⟨[], by simp⟩
  | none => exact ⟨[x], rfl⟩

theorem intern_ids_eq {t : Table T} (h : Inv t) (x : T) :
    (intern t x).2.ids = if x ∈ t.ids then t.ids else t.ids ++ [x] := by
  unfold intern getInterned
  cases hg : t.symbols.get x with
  | some s =>
    have := List.mem_of_getElem? ((h.sym x s).1 hg)
    simp [this]
  | none =>
    have hx : x ∉ t.ids := by
      intro hm
      obtain ⟨i, hi, he⟩ := List.getElem_of_mem hm
      have := (h.sym x i).2 (by simp [List.getElem?_eq_getElem hi, he])
      rw [hg] at this; cases this
    simp [hx]

theorem internAll_append (t : Table T) (xs ys : List T) : internAll t (xs ++ ys) = internAll (internAll t xs) ys := by
  simp [internAll]

theorem internAll_ids (t : Table T) (xs : List T) : ∃ l, (internAll t xs).ids = t.ids ++ l := by
  induction xs generalizing t with
  | nil => exact ⟨[], by simp [internAll]⟩
  | cons x xs ih =>
    obtain ⟨l, hl⟩ := ih (intern t x).2
    obtain ⟨l', hl'⟩ := intern_ids t x
    exact ⟨l' ++ l, by simp only [internAll, List.foldl_cons] at hl ⊢; rw [hl, hl', List.append_assoc]⟩

/-- A history keeps the table below 2^32 entries if the values come from a list of at most 2^32. -/
theorem internAll_inv {t : Table T} (h : Inv t) (u : List T) (hu : u.length ≤ 2 ^ 32) (ht : ∀ y ∈ t.ids, y ∈ u)
    (xs : List T) (hx : ∀ x ∈ xs, x ∈ u) : Inv (internAll t xs) ∧ (∀ y, y ∈ (internAll t xs).ids ↔ y ∈ t.ids ∨ y ∈ xs) := by
  induction xs generalizing t with
  | nil => exact ⟨h, by simp [internAll]⟩
  | cons x xs ih =>
    have hsub : ∀ y ∈ (intern t x).2.ids, y ∈ u := by
      rw [intern_ids_eq h]
      split
      · exact ht
      · intro y hy; simp at hy; rcases hy with hy | rfl
        · exact ht y hy
        · exact hx _ (by simp)
    have hl : t.ids.length < 2 ^ 32 ∨ x ∈ t.ids := by
      by_cases hm : x ∈ t.ids
      · exact .inr hm
      · left
        have hnd : (t.ids ++ [x]).Nodup := by
          rw [List.nodup_append]
          exact ⟨h.nodup, by simp, by intro a ha b hb; simp at hb; subst hb; rintro rfl; exact hm ha⟩
        have := nodup_length_le hnd (u := u) (fun y hy => by
          simp at hy; rcases hy with hy | rfl
          · exact ht y hy
          · exact hx _ (by simp))
        simp at this; omega
    have h1 := ih (t := (intern t x).2) (intern_inv h x hl) hsub (fun y hy => hx y (by simp [hy]))
    refine ⟨h1.1, fun y => ?_⟩
    have := h1.2 y
    have e : internAll t (x :: xs) = internAll (intern t x).2 xs := rfl
    rw [e, this, intern_ids_eq h]
    split
    · next hm => constructor
                 · rintro (h | h) <;> simp [h]
                 · simp only [List.mem_cons]; rintro (h | rfl | h)
                   · exact .inl h
                   · exact .inl hm
                   · exact .inr h
    · simp [or_assoc]

/-- The state in which a history of interned values, with at most 2^32 different ones, leaves the table. -/
theorem history_inv (u xs : List T) (hu : u.length ≤ 2 ^ 32) (hx : ∀ x ∈ xs, x ∈ u) :
    Inv (internAll .new xs) ∧ ∀ y, y ∈ (internAll .new xs).ids ↔ y ∈ xs := by
  have := internAll_inv inv_new u hu (by simp [Table.new]) xs hx
  refine ⟨this.1, fun y => ?_⟩
  rw [this.2]; simp [Table.new]

/-- C18: a value interned at any point of a history can be looked up by its identifier at every later point. -/
theorem review_intern_partial (u before after : List T) (x : T) (hu : u.length ≤ 2 ^ 32)
    (hx : ∀ y ∈ before ++ x :: after, y ∈ u) :
    review (internAll .new (before ++ x :: after)) (idOf before x) = some x := by
  have hb := history_inv u before hu (fun y hy => hx y (by simp [hy]))
  have hbx := history_inv u (before ++ [x]) hu (fun y hy => hx y (by simp at hy ⊢; rcases hy with h | h <;> simp [h]))
  have e : internAll .new (before ++ [x]) = (intern (internAll .new before) x).2 := by simp [internAll]
  have h1 : (internAll .new (before ++ [x])).ids[idOf before x]? = some x := by
    rw [e] at hbx ⊢
    unfold idOf
    rw [← hbx.1.sym]
    unfold intern
    cases hg : getInterned (internAll .new before) x with
    | some s => exact hg
    | none => simp [HMap.get_insert]
  have e2 : before ++ x :: after = (before ++ [x]) ++ after := by simp
  rw [e2, internAll_append]
  obtain ⟨l, hl⟩ := internAll_ids (internAll .new (before ++ [x])) after
  unfold review
  rw [hl, List.getElem?_append_left (List.getElem?_eq_some_iff.1 h1).1]
  exact h1

/-- C18: identifiers given at two points of one history are equal exactly when the values are. -/
theorem intern_eq_iff_partial (u before mid : List T) (x y : T) (hu : u.length ≤ 2 ^ 32)
    (hx : ∀ z ∈ before ++ x :: mid ++ [y], z ∈ u) :
    idOf before x = idOf (before ++ x :: mid) y ↔ x = y := by
  have h1 := review_intern_partial u before (mid ++ [y]) x hu (by simpa using hx)
  have h2 := review_intern_partial u (before ++ x :: mid) [] y hu (by simpa using hx)
  have e : before ++ x :: (mid ++ [y]) = before ++ x :: mid ++ [y] := by simp
  rw [e] at h1
  constructor
  · intro h
    rw [← h, h1] at h2
    exact Option.some.inj h2
  · rintro rfl
    have hb := history_inv u (before ++ x :: mid ++ [x]) hu hx
    rw [show review _ _ = _ from rfl] at h1 h2
    have := (hb.1.sym _ _).2 h1
    have h' := (hb.1.sym _ _).2 h2
    rw [this] at h'
    exact Option.some.inj h'

/-- Non-vacuity: a history of three values, one of them repeated, and its identifiers. -/
example : (∀ z ∈ ["a", "b", "a"], z ∈ ["a", "b"]) ∧ idOf [] "a" = 0 ∧ idOf ["a"] "b" = 1 ∧ idOf ["a", "b"] "a" = 0 := by decide

theorem fresh_history (n : Nat) (h : n ≤ 2 ^ 32) :
    (internAll .new (List.range n)).ids = List.range n ∧ Inv (internAll .new (List.range n)) := by
  have hi := history_inv (List.range n) (List.range n) (by simpa using h) (fun _ h => h)
  refine ⟨?_, hi.1⟩
  induction n with
  | zero => rfl
  | succ n ih =>
    have hi' := history_inv (List.range n) (List.range n) (by simp; omega) (fun _ h => h)
    have e : internAll Table.new (List.range (n + 1)) = (intern (internAll .new (List.range n)) n).2 := by
      simp [internAll, List.range_succ]
    rw [e, intern_ids_eq hi'.1, ih (by omega) hi', List.range_succ]
    simp

/-- C18 fails beyond 2^32 different values, because the index is truncated to 32 bits: after interning the numbers below
2^32, the number 2^32 gets the identifier of 0. -/
theorem wraps_around (n : Nat) (hn : n = 2 ^ 32) : n ≠ 0 ∧ idOf (List.range n) n = idOf [] 0 := by
  refine ⟨by omega, ?_⟩
  obtain ⟨h1, h2⟩ := fresh_history n (by omega)
  have hg : getInterned (internAll .new (List.range n)) n = none := by
    cases hg : getInterned (internAll .new (List.range n)) n with
    | none => rfl
    | some i =>
      have := List.mem_of_getElem? ((h2.sym _ _).1 hg)
      rw [h1, List.mem_range] at this
      exact absurd this (Nat.lt_irrefl _)
  have h0 : idOf [] 0 = 0 := rfl
  unfold idOf at h0 ⊢
  rw [h0]
  unfold intern
  rw [hg]
  simp only [h1, List.length_range]
  omega

end Verif.Interning
