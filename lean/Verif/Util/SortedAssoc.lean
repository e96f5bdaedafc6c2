/-!
# Sorted association lists

A specification of ordered maps: lists of bindings whose keys strictly ascend.
-/
namespace Verif.SortedAssoc

open Std (TransCmp OrientedCmp)

variable {K V : Type} (cmp : K → K → Ordering)

/-- Keys strictly ascend. -/
def Sorted (l : List (K × V)) : Prop := l.Pairwise fun a b => cmp a.1 b.1 = .lt

def look (k : K) : List (K × V) → Option V
  | [] => none
  | (k', v) :: l => if cmp k k' = .eq then some v else look k l

def ins (k : K) (v : V) : List (K × V) → List (K × V)
  | [] => [(k, v)]
  | (k', v') :: l =>
    match cmp k k' with
    | .lt => (k, v) :: (k', v') :: l
    | .eq => (k, v) :: l
    | .gt => (k', v') :: ins k v l

def del (k : K) (l : List (K × V)) : List (K × V) := l.filter fun e => cmp k e.1 ≠ .eq

variable {cmp}

theorem Sorted.nil : Sorted cmp ([] : List (K × V)) := List.Pairwise.nil

theorem Sorted.append_iff {l r : List (K × V)} :
    Sorted cmp (l ++ r) ↔ Sorted cmp l ∧ Sorted cmp r ∧ ∀ a ∈ l, ∀ b ∈ r, cmp a.1 b.1 = .lt := by
  unfold Sorted; exact List.pairwise_append

theorem Sorted.pivot_iff {l r : List (K × V)} {e : K × V} :
    Sorted cmp (l ++ e :: r) ↔ Sorted cmp l ∧ Sorted cmp r ∧ (∀ a ∈ l, cmp a.1 e.1 = .lt) ∧ (∀ b ∈ r, cmp e.1 b.1 = .lt) ∧
      ∀ a ∈ l, ∀ b ∈ r, cmp a.1 b.1 = .lt := by
  rw [Sorted.append_iff]
  unfold Sorted
  simp only [List.pairwise_cons, List.mem_cons, forall_eq_or_imp]
  constructor
  · rintro ⟨h1, ⟨h2, h3⟩, h4⟩
    exact ⟨h1, h3, fun a ha => (h4 a ha).1, h2, fun a ha => (h4 a ha).2⟩
  · rintro ⟨h1, h2, h3, h4, h5⟩
    exact ⟨h1, ⟨h4, h2⟩, fun a ha => ⟨h3 a ha, h5 a ha⟩⟩

theorem look_append (k : K) (l r : List (K × V)) : look cmp k (l ++ r) = (look cmp k l).or (look cmp k r) := by
  induction l with
  | nil => simp [look]
  | cons e l ih =>
    obtain ⟨k', v⟩ := e
    simp only [List.cons_append, look]
    split <;> simp [ih]

theorem look_eq_none {k : K} {l : List (K × V)} (h : ∀ e ∈ l, cmp k e.1 ≠ .eq) : look cmp k l = none := by
  induction l with
  | nil => rfl
  | cons e l ih =>
    simp only [look, if_neg (h e (by simp))]
    exact ih fun e' he' => h e' (by simp [he'])

theorem look_some {k : K} {l : List (K × V)} {v : V} (h : look cmp k l = some v) : ∃ e ∈ l, cmp k e.1 = .eq ∧ e.2 = v := by
  induction l with
  | nil => simp [look] at h
  | cons e l ih =>
    simp only [look] at h
    split at h
    · next hc => exact ⟨e, by simp, hc, by simpa using h⟩
    · obtain ⟨e', h1, h2⟩ := ih h; exact ⟨e', by simp [h1], h2⟩

variable [TransCmp cmp]

theorem lt_of_lt {a b c : K} (h1 : cmp a b = .lt) (h2 : cmp b c = .lt) : cmp a c = .lt := TransCmp.lt_trans h1 h2

theorem lt_of_eq_lt {a b c : K} (h1 : cmp a b = .eq) (h2 : cmp b c = .lt) : cmp a c = .lt := by
  rw [TransCmp.congr_left h1]; exact h2

theorem lt_of_lt_eq {a b c : K} (h1 : cmp a b = .lt) (h2 : cmp b c = .eq) : cmp a c = .lt := by
  rw [← TransCmp.congr_right h2]; exact h1

theorem gt_of_gt_lt {a b c : K} (h1 : cmp a b = .gt) (h2 : cmp c b = .lt) : cmp a c = .gt := by
  have h3 : cmp b a = .lt := OrientedCmp.lt_of_gt h1
  exact OrientedCmp.gt_of_lt (lt_of_lt h2 h3)

theorem lt_iff_gt {a b : K} : cmp a b = .lt ↔ cmp b a = .gt := OrientedCmp.gt_iff_lt.symm

theorem eq_of_eq {a b c : K} (h1 : cmp a b = .eq) (h2 : cmp c b = .eq) : cmp a c = .eq := by
  rw [TransCmp.congr_left h1]; exact OrientedCmp.eq_symm h2

/-- Lookup at a pivot. -/
theorem look_pivot {l r : List (K × V)} {k k' : K} {v : V} (hs : Sorted cmp (l ++ (k', v) :: r)) :
    look cmp k (l ++ (k', v) :: r) = match cmp k k' with
      | .lt => look cmp k l
      | .gt => look cmp k r
      | .eq => some v := by
  obtain ⟨-, -, h3, h4, -⟩ := Sorted.pivot_iff.1 hs
  rw [look_append]
  simp only [look]
  cases hc : cmp k k' with
  | lt =>
    have : look cmp k r = none := look_eq_none fun e he => by rw [lt_of_lt hc (h4 e he)]; simp
    simp [this]
  | eq =>
    have : look cmp k l = none := look_eq_none fun e he => by
      have h : cmp e.1 k = .lt := lt_of_lt_eq (h3 e he) (OrientedCmp.eq_symm hc)
      rw [OrientedCmp.gt_of_lt h]; simp
    simp [this]
  | gt =>
    have : look cmp k l = none := look_eq_none fun e he => by rw [gt_of_gt_lt hc (h3 e he)]; simp
    simp [this]

theorem ins_cons_lt {l : List (K × V)} {k k' : K} {v v' : V} (h : cmp k k' = .lt) :
    ins cmp k v ((k', v') :: l) = (k, v) :: (k', v') :: l := by simp only [ins, h]
theorem ins_cons_eq {l : List (K × V)} {k k' : K} {v v' : V} (h : cmp k k' = .eq) :
    ins cmp k v ((k', v') :: l) = (k, v) :: l := by simp only [ins, h]
theorem ins_cons_gt {l : List (K × V)} {k k' : K} {v v' : V} (h : cmp k k' = .gt) :
    ins cmp k v ((k', v') :: l) = (k', v') :: ins cmp k v l := by simp only [ins, h]

theorem ins_append_gt {l r : List (K × V)} {k : K} {v : V} (h : ∀ e ∈ l, cmp e.1 k = .lt) :
    ins cmp k v (l ++ r) = l ++ ins cmp k v r := by
  induction l with
  | nil => rfl
  | cons e l ih =>
    rw [List.cons_append, ins_cons_gt (OrientedCmp.gt_of_lt (h e (by simp))), ih fun e' he' => h e' (by simp [he'])]; rfl

theorem ins_append_lt {l r : List (K × V)} {k : K} {v : V} (h : ∀ e ∈ r, cmp k e.1 = .lt) :
    ins cmp k v (l ++ r) = ins cmp k v l ++ r := by
  induction l with
  | nil =>
    cases r with
    | nil => rfl
    | cons e r => rw [List.nil_append, ins_cons_lt (h e (by simp))]; rfl
  | cons e l ih =>
    obtain ⟨k', v'⟩ := e
    rw [List.cons_append]
    cases hc : cmp k k' with
    | lt => rw [ins_cons_lt hc, ins_cons_lt hc]; rfl
    | eq => rw [ins_cons_eq hc, ins_cons_eq hc]; rfl
    | gt => rw [ins_cons_gt hc, ins_cons_gt hc, ih]; rfl

/-- Insertion at a pivot. -/
theorem ins_pivot {l r : List (K × V)} {k k' : K} {v v' : V} (hs : Sorted cmp (l ++ (k', v') :: r)) :
    ins cmp k v (l ++ (k', v') :: r) = match cmp k k' with
      | .lt => ins cmp k v l ++ (k', v') :: r
      | .gt => l ++ (k', v') :: ins cmp k v r
      | .eq => l ++ (k, v) :: r := by
  obtain ⟨-, -, h3, h4, -⟩ := Sorted.pivot_iff.1 hs
  cases hc : cmp k k' with
  | lt =>
    rw [ins_append_lt]
    intro e he
    rcases List.mem_cons.1 he with rfl | he
    · exact hc
    · exact lt_of_lt hc (h4 e he)
  | eq =>
    rw [ins_append_gt (fun e he => lt_of_lt_eq (h3 e he) (OrientedCmp.eq_symm hc)), ins_cons_eq hc]
  | gt =>
    rw [ins_append_gt (fun e he => lt_of_lt (h3 e he) (OrientedCmp.lt_of_gt hc)), ins_cons_gt hc]

theorem mem_ins {l : List (K × V)} {k : K} {v : V} {e : K × V} (h : e ∈ ins cmp k v l) : e = (k, v) ∨ e ∈ l := by
  induction l with
  | nil => simpa [ins] using h
  | cons e' l ih =>
    obtain ⟨k', v'⟩ := e'
    cases hc : cmp k k' with
    | lt => rw [ins_cons_lt hc] at h; simpa using h
    | eq =>
      rw [ins_cons_eq hc] at h
      rcases List.mem_cons.1 h with h | h
      · exact .inl h
      · exact .inr (by simp [h])
    | gt =>
      rw [ins_cons_gt hc] at h
      rcases List.mem_cons.1 h with h | h
      · exact .inr (by simp [h])
      · rcases ih h with h | h
        · exact .inl h
        · exact .inr (by simp [h])

theorem ins_sorted {l : List (K × V)} (hs : Sorted cmp l) (k : K) (v : V) : Sorted cmp (ins cmp k v l) := by
  induction l with
  | nil => simp [ins, Sorted]
  | cons e l ih =>
    obtain ⟨k', v'⟩ := e
    unfold Sorted at hs
    rw [List.pairwise_cons] at hs
    cases hc : cmp k k' with
    | lt =>
      rw [ins_cons_lt hc]
      unfold Sorted
      rw [List.pairwise_cons, List.pairwise_cons]
      refine ⟨?_, hs⟩
      intro e he
      rcases List.mem_cons.1 he with rfl | he
      · exact hc
      · exact lt_of_lt hc (hs.1 e he)
    | eq =>
      rw [ins_cons_eq hc]
      unfold Sorted
      rw [List.pairwise_cons]
      exact ⟨fun e he => lt_of_eq_lt hc (hs.1 e he), hs.2⟩
    | gt =>
      rw [ins_cons_gt hc]
      unfold Sorted
      rw [List.pairwise_cons]
      refine ⟨?_, ih hs.2⟩
      intro e he
      rcases mem_ins he with rfl | he
      · exact OrientedCmp.lt_of_gt hc
      · exact hs.1 e he

/-- Lookup after insertion. -/
theorem look_ins {l : List (K × V)} (hs : Sorted cmp l) (k k' : K) (v : V) :
    look cmp k' (ins cmp k v l) = if cmp k' k = .eq then some v else look cmp k' l := by
  induction l with
  | nil => simp [ins, look]
  | cons e l ih =>
    obtain ⟨a, w⟩ := e
    unfold Sorted at hs
    rw [List.pairwise_cons] at hs
    cases hc : cmp k a with
    | lt => rw [ins_cons_lt hc]; rfl
    | eq =>
      rw [ins_cons_eq hc]
      simp only [look]
      by_cases h : cmp k' k = .eq
      · rw [if_pos h, if_pos h]
      · rw [if_neg h, if_neg h, if_neg]
        intro h2; exact h (eq_of_eq h2 hc)
    | gt =>
      rw [ins_cons_gt hc]
      simp only [look]
      rw [ih hs.2]
      by_cases h : cmp k' k = .eq
      · have hne : cmp k' a ≠ .eq := by rw [TransCmp.congr_left h, hc]; simp
        simp only [if_pos h, if_neg hne]
      · simp only [if_neg h]

/-! ### Deletion -/

omit [TransCmp cmp] in
theorem del_sorted {l : List (K × V)} (hs : Sorted cmp l) (k : K) : Sorted cmp (del cmp k l) :=
  List.Pairwise.filter _ hs

omit [TransCmp cmp] in
theorem del_append (k : K) (l r : List (K × V)) : del cmp k (l ++ r) = del cmp k l ++ del cmp k r := List.filter_append ..

omit [TransCmp cmp] in
theorem del_eq_self {k : K} {l : List (K × V)} (h : ∀ e ∈ l, cmp k e.1 ≠ .eq) : del cmp k l = l := by
  unfold del
  rw [List.filter_eq_self]
  intro e he; simpa using h e he

/-- Deletion at a pivot. -/
theorem del_pivot {l r : List (K × V)} {k k' : K} {v' : V} (hs : Sorted cmp (l ++ (k', v') :: r)) :
    del cmp k (l ++ (k', v') :: r) = match cmp k k' with
      | .lt => del cmp k l ++ (k', v') :: r
      | .gt => l ++ (k', v') :: del cmp k r
      | .eq => l ++ r := by
  obtain ⟨-, -, h3, h4, -⟩ := Sorted.pivot_iff.1 hs
  rw [del_append]
  have hcons : del cmp k ((k', v') :: r) = if cmp k k' = .eq then del cmp k r else (k', v') :: del cmp k r := by
    unfold del; rw [List.filter_cons]; by_cases h : cmp k k' = .eq <;> simp [h]
  rw [hcons]
  cases hc : cmp k k' with
  | lt =>
    rw [if_neg (by simp), del_eq_self (l := r)]
    intro e he; rw [lt_of_lt hc (h4 e he)]; simp
  | eq =>
    rw [if_pos rfl, del_eq_self (l := r), del_eq_self (l := l)]
    · intro e he
      have h : cmp e.1 k = .lt := lt_of_lt_eq (h3 e he) (OrientedCmp.eq_symm hc)
      rw [OrientedCmp.gt_of_lt h]; simp
    · intro e he; rw [lt_of_eq_lt hc (h4 e he)]; simp
  | gt =>
    rw [if_neg (by simp), del_eq_self (l := l)]
    intro e he; rw [gt_of_gt_lt hc (h3 e he)]; simp

theorem look_del (l : List (K × V)) (k k' : K) :
    look cmp k' (del cmp k l) = if cmp k' k = .eq then none else look cmp k' l := by
  induction l with
  | nil => simp [del, look]
  | cons e l ih =>
    obtain ⟨a, w⟩ := e
    have hcons : del cmp k ((a, w) :: l) = if cmp k a = .eq then del cmp k l else (a, w) :: del cmp k l := by
      unfold del; rw [List.filter_cons]; by_cases h : cmp k a = .eq <;> simp [h]
    rw [hcons]
    by_cases h : cmp k a = .eq
    · rw [if_pos h, ih]
      simp only [look]
      by_cases h2 : cmp k' k = .eq
      · rw [if_pos h2, if_pos h2]
      · rw [if_neg h2, if_neg h2, if_neg]
        intro h3; exact h2 (eq_of_eq h3 h)
    · rw [if_neg h]
      simp only [look, ih]
      by_cases h2 : cmp k' k = .eq
      · have hne : cmp k' a ≠ .eq := by rw [TransCmp.congr_left h2]; exact h
        simp only [if_pos h2, if_neg hne]
      · simp only [if_neg h2]

/-- In a sorted list, bindings and lookups agree. -/
theorem look_of_mem {l : List (K × V)} (hs : Sorted cmp l) {k : K} {v : V} (h : (k, v) ∈ l) : look cmp k l = some v := by
  obtain ⟨l1, l2, rfl⟩ := List.append_of_mem h
  rw [look_pivot hs]
  have : cmp k k = .eq := Std.ReflCmp.compare_self
  rw [this]

/-- Two sorted lists with the same lookups have equivalent keys and equal values, in the same order. -/
theorem ext_of_look [Std.LawfulEqCmp cmp] : ∀ {l r : List (K × V)}, Sorted cmp l → Sorted cmp r →
    (∀ k, look cmp k l = look cmp k r) → l = r := by
  intro l
  induction l with
  | nil =>
    intro r _ _ h
    cases r with
    | nil => rfl
    | cons e r =>
      have := h e.1
      rw [look, look, if_pos Std.ReflCmp.compare_self] at this; cases this
  | cons e l ih =>
    intro r hl hr h
    cases r with
    | nil =>
      have := h e.1
      rw [look, look, if_pos Std.ReflCmp.compare_self] at this; cases this
    | cons e' r =>
      obtain ⟨k, v⟩ := e
      obtain ⟨k', v'⟩ := e'
      have hl' := hl
      have hr' := hr
      unfold Sorted at hl' hr'
      rw [List.pairwise_cons] at hl' hr'
      have hkk : cmp k k' = .eq := by
        cases hc : cmp k k' with
        | eq => rfl
        | lt =>
          have h1 := h k
          rw [look, if_pos Std.ReflCmp.compare_self, look, if_neg (by simp [hc]),
            look_eq_none fun e he => by rw [lt_of_lt hc (hr'.1 e he)]; simp] at h1
          cases h1
        | gt =>
          have hc' : cmp k' k = .lt := OrientedCmp.lt_of_gt hc
          have h1 := h k'
          rw [look, if_neg (by simp [hc']), look_eq_none (fun e he => by rw [lt_of_lt hc' (hl'.1 e he)]; simp),
            look, if_pos Std.ReflCmp.compare_self] at h1
          cases h1
      have hk := Std.LawfulEqCmp.eq_of_compare hkk
      subst hk
      have hv := h k
      rw [look, look, if_pos hkk, if_pos hkk] at hv
      cases hv
      rw [ih hl'.2 hr'.2]
      intro x
      have hx := h x
      rw [look, look] at hx
      by_cases hc : cmp x k = .eq
      · rw [look_eq_none, look_eq_none]
        · intro e he; rw [lt_of_eq_lt hc (hr'.1 e he)]; simp
        · intro e he; rw [lt_of_eq_lt hc (hl'.1 e he)]; simp
      · rwa [if_neg hc, if_neg hc] at hx

end Verif.SortedAssoc
