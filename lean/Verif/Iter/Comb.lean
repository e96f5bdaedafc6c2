import Verif.Iter.Model

/-! # Calls of combinators -/

namespace Verif.Iter

variable {σ τ α β γ δ ρ ε : Type}

theorem Ended.step {next : Next σ α} {s : σ} (h : Ended next s) :
    ∃ s', Gives next s none s' ∧ Ended next s' := by
  obtain ⟨P, hs, hP⟩ := h
  obtain ⟨s', h1, h2⟩ := hP s hs
  exact ⟨s', h1, P, h2, hP⟩

theorem Total.step {next : Next σ α} {s : σ} (h : Total next s) :
    ∃ r s', Gives next s r s' ∧ Total next s' := by
  obtain ⟨P, hs, hP⟩ := h
  obtain ⟨r, s', h1, h2⟩ := hP s hs
  exact ⟨r, s', h1, P, h2, hP⟩

theorem Yields.step {next : Next σ α} {s : σ} {l : List α} (h : Yields next s l) :
    ∃ s', Gives next s l.head? s' ∧ Yields next s' l.tail := by
  cases h with
  | nil he =>
    obtain ⟨s', h1, h2⟩ := he.step
    exact ⟨s', h1, .nil h2⟩
  | cons hg hy => exact ⟨_, hg, hy⟩

theorem Yields.ended {next : Next σ α} {s : σ} (h : Yields next s []) : Ended next s := by
  cases h; assumption

/-- Elements are those of any relation that is kept. -/
theorem Yields.of_step {next : Next σ α} (R : σ → List α → Prop)
    (h : ∀ s l, R s l → ∃ s', Gives next s l.head? s' ∧ R s' l.tail) {s : σ} {l : List α}
    (hs : R s l) : Yields next s l := by
  induction l generalizing s with
  | nil =>
    refine .nil ⟨fun s => R s [], hs, fun s hs => ?_⟩
    exact h s [] hs
  | cons a l ih =>
    obtain ⟨s', h1, h2⟩ := h s _ hs
    exact .cons h1 (ih h2)

theorem Yields.total {next : Next σ α} {s : σ} {l : List α} (h : Yields next s l) :
    Total next s :=
  ⟨fun s => ∃ l, Yields next s l, ⟨l, h⟩, fun _ ⟨_, hl⟩ =>
    let ⟨s', h1, h2⟩ := hl.step
    ⟨_, s', h1, _, h2⟩⟩

/-! ## Sources -/

theorem gives_of {next : Next σ α} {s : σ} {r : Option α} {s' : σ}
    (h : ∀ n, next n s = some (r, s')) : Gives next s r s' := ⟨0, fun n _ => h n⟩

theorem empty_yields : Yields (emptyNext (α := α)) () [] :=
  .nil ⟨fun _ => True, trivial, fun _ _ => ⟨(), gives_of fun _ => rfl, trivial⟩⟩

theorem only_yields (a : α) : Yields onlyNext (some a) [a] :=
  .cons (gives_of fun _ => rfl) (.nil ⟨fun s => s = none, rfl, by
    rintro s rfl
    exact ⟨none, gives_of fun _ => rfl, rfl⟩⟩)

theorem forever_begins (a : α) (n : Nat) : Begins (foreverNext a) () (List.replicate n a) () := by
  induction n with
  | zero => exact .nil
  | succ n ih => exact .cons (gives_of fun _ => rfl) ih

theorem repeat_yields (a : α) (count : Nat) :
    Yields (repeatNext a) count (List.replicate count a) := by
  refine Yields.of_step (fun i l => l = List.replicate i a) ?_ rfl
  rintro i l rfl
  cases i with
  | zero => exact ⟨0, gives_of fun _ => by simp [repeatNext], rfl⟩
  | succ i =>
    exact ⟨i, gives_of fun _ => by simp [repeatNext, List.replicate_succ],
      by simp [List.replicate_succ]⟩

theorem unfold_yields (f : β → Option (α × β)) (b : β) (l : List α) (h : Unfolds f b l) :
    Yields (unfoldNext f) b l := by
  refine Yields.of_step (Unfolds f) ?_ h
  intro b l h
  cases h with
  | nil hf => exact ⟨b, gives_of fun _ => by simp [unfoldNext, hf], .nil hf⟩
  | cons hf hu => exact ⟨_, gives_of fun _ => by simp [unfoldNext, hf], hu⟩

/-! ## Combinators -/

theorem map_yields (f : α → β) {next : Next σ α} {s : σ} {l : List α} (h : Yields next s l) :
    Yields (mapNext f next) s (l.map f) := by
  refine Yields.of_step (fun s l' => ∃ l, l' = l.map f ∧ Yields next s l) ?_ ⟨l, rfl, h⟩
  rintro s _ ⟨l, rfl, h⟩
  obtain ⟨s', ⟨n0, hg⟩, h2⟩ := h.step
  refine ⟨s', ⟨n0, fun n hn => ?_⟩, l.tail, by simp, h2⟩
  cases l <;> simp_all [mapNext]

theorem map_begins (f : α → β) {next : Next σ α} {s s' : σ} {l : List α} (h : Begins next s l s') :
    Begins (mapNext f next) s (l.map f) s' := by
  induction h with
  | nil => exact .nil
  | cons hg _ ih =>
    obtain ⟨n0, hg⟩ := hg
    exact .cons ⟨n0, fun n hn => by simp [mapNext, hg n hn]⟩ ih

theorem filter_gives_none (f : α → Bool) {next : Next σ α} {s s' : σ}
    (h : Gives next s none s') : Gives (filterNext f next) s none s' := by
  obtain ⟨n0, hg⟩ := h
  refine ⟨n0 + 1, fun n hn => ?_⟩
  obtain ⟨m, rfl⟩ : ∃ m, n = m + 1 := ⟨n - 1, by omega⟩
  simp [filterNext, hg m (by omega)]

theorem filter_gives_take (f : α → Bool) {next : Next σ α} {s s' : σ} {a : α}
    (h : Gives next s (some a) s') (ha : f a = true) :
    Gives (filterNext f next) s (some a) s' := by
  obtain ⟨n0, hg⟩ := h
  refine ⟨n0 + 1, fun n hn => ?_⟩
  obtain ⟨m, rfl⟩ : ∃ m, n = m + 1 := ⟨n - 1, by omega⟩
  simp [filterNext, hg m (by omega), ha]

theorem filter_gives_skip (f : α → Bool) {next : Next σ α} {s s' s'' : σ} {a : α} {r : Option α}
    (h : Gives next s (some a) s') (ha : f a = false)
    (h' : Gives (filterNext f next) s' r s'') : Gives (filterNext f next) s r s'' := by
  obtain ⟨n0, hg⟩ := h
  obtain ⟨n1, hg'⟩ := h'
  refine ⟨max n0 n1 + 1, fun n hn => ?_⟩
  obtain ⟨m, rfl⟩ : ∃ m, n = m + 1 := ⟨n - 1, by omega⟩
  simp [filterNext, hg m (by omega), ha, hg' m (by omega)]

theorem filter_yields (f : α → Bool) {next : Next σ α} {s : σ} {l : List α}
    (h : Yields next s l) : Yields (filterNext f next) s (l.filter f) := by
  refine Yields.of_step (fun s l' => ∃ l, l' = l.filter f ∧ Yields next s l) ?_ ⟨l, rfl, h⟩
  rintro s _ ⟨l, rfl, h⟩
  induction l generalizing s with
  | nil =>
    obtain ⟨s', h1, h2⟩ := h.step
    exact ⟨s', filter_gives_none f h1, [], rfl, h2⟩
  | cons a l ih =>
    obtain ⟨s', h1, h2⟩ := h.step
    by_cases ha : f a = true
    · rw [List.filter_cons_of_pos ha]
      exact ⟨s', filter_gives_take f h1 ha, l, rfl, h2⟩
    · rw [List.filter_cons_of_neg ha]
      obtain ⟨s'', h3, h4⟩ := ih s' h2
      exact ⟨s'', filter_gives_skip f h1 (by simpa using ha) h3, h4⟩

/-- On an infinite iterator, elements that are kept are found, up to the last of them. -/
theorem filter_begins (f : α → Bool) {next : Next σ α} {s s' : σ} {l : List α}
    (h : Begins next s l s') (hl : ∀ a, l.getLast? = some a → f a = true) :
    Begins (filterNext f next) s (l.filter f) s' := by
  induction h with
  | nil => exact .nil
  | @cons s a s1 l s2 hg hb ih =>
    have ih' := ih (fun b hb' => hl b (by
      cases l with
      | nil => simp at hb'
      | cons c l => simpa using hb'))
    by_cases ha : f a = true
    · rw [List.filter_cons_of_pos ha]
      exact .cons (filter_gives_take f hg ha) ih'
    · rw [List.filter_cons_of_neg ha]
      cases l with
      | nil => exact absurd (hl a rfl) ha
      | cons c l =>
        -- there is an element that is kept
        have hne : (c :: l).filter f ≠ [] := by
          obtain ⟨b, hb1⟩ : ∃ b, (c :: l).getLast? = some b := ⟨_, List.getLast?_eq_some_getLast (by simp)⟩
          have := hl b (by simpa using hb1)
          intro he
          have hm : b ∈ (c :: l).filter f :=
            List.mem_filter.mpr ⟨List.mem_of_getLast? hb1, this⟩
          rw [he] at hm
          cases hm
        generalize hF : (c :: l).filter f = F at ih' hne
        cases ih' with
        | nil => exact absurd rfl hne
        | cons hg' hb' => exact .cons (filter_gives_skip f hg (by simpa using ha) hg') hb'

theorem filterMap_yields (f : α → Option β) {next : Next σ α} {s : σ} {l : List α}
    (h : Yields next s l) : Yields (filterMapNext f next) s (l.filterMap f) := by
  refine Yields.of_step (fun s l' => ∃ l, l' = l.filterMap f ∧ Yields next s l) ?_ ⟨l, rfl, h⟩
  rintro s _ ⟨l, rfl, h⟩
  induction l generalizing s with
  | nil =>
    obtain ⟨s', ⟨n0, hg⟩, h2⟩ := h.step
    refine ⟨s', ⟨n0 + 1, fun n hn => ?_⟩, [], rfl, h2⟩
    obtain ⟨m, rfl⟩ : ∃ m, n = m + 1 := ⟨n - 1, by omega⟩
    have := hg m (by omega)
    simp_all [filterMapNext]
  | cons a l ih =>
    obtain ⟨s', ⟨n0, hg⟩, h2⟩ := h.step
    cases ha : f a with
    | some b =>
      rw [List.filterMap_cons_some ha]
      refine ⟨s', ⟨n0 + 1, fun n hn => ?_⟩, l, rfl, h2⟩
      obtain ⟨m, rfl⟩ : ∃ m, n = m + 1 := ⟨n - 1, by omega⟩
      have := hg m (by omega)
      simp_all [filterMapNext]
    | none =>
      rw [List.filterMap_cons_none ha]
      obtain ⟨s'', ⟨n1, h3⟩, h4⟩ := ih s' h2
      refine ⟨s'', ⟨max n0 n1 + 1, fun n hn => ?_⟩, h4⟩
      obtain ⟨m, rfl⟩ : ∃ m, n = m + 1 := ⟨n - 1, by omega⟩
      have := hg m (by omega)
      have := h3 m (by omega)
      simp_all [filterMapNext]

theorem withIndex_yields {next : Next σ α} {s : σ} {l : List α} (h : Yields next s l) (i : Nat)
    (hi : i + l.length ≤ 2 ^ 64) :
    Yields (withIndexNext next) (s, i) ((List.range' i l.length).zip l) := by
  refine Yields.of_step (fun st l' => ∃ l, l' = (List.range' st.2 l.length).zip l ∧
    Yields next st.1 l ∧ (l = [] ∨ st.2 + l.length ≤ 2 ^ 64)) ?_ ⟨l, rfl, h, Or.inr hi⟩
  rintro ⟨s, i⟩ _ ⟨l, rfl, h, hi⟩
  obtain ⟨s', ⟨n0, hg⟩, h2⟩ := h.step
  cases l with
  | nil => exact ⟨(s', i), ⟨n0, fun n hn => by have := hg n hn; simp_all [withIndexNext]⟩, [], rfl,
      h2, Or.inl rfl⟩
  | cons a l =>
    refine ⟨(s', u64 (i + 1)), ⟨n0, fun n hn => by
      have := hg n hn
      simp_all [withIndexNext, List.range'_succ]⟩, l, ?_, h2, ?_⟩
    · cases l with
      | nil => simp [List.range'_succ]
      | cons b l =>
        simp only [List.length_cons, reduceCtorEq, false_or] at hi
        simp only [u64]
        rw [Nat.mod_eq_of_lt (by omega)]
        simp [List.range'_succ]
    · cases l with
      | nil => exact Or.inl rfl
      | cons b l =>
        right
        simp only [List.length_cons, reduceCtorEq, false_or] at hi ⊢
        simp only [u64]
        rw [Nat.mod_eq_of_lt (by omega)]
        omega

theorem take_yields {next : Next σ α} {s : σ} {l : List α} (h : Yields next s l) (k : Nat) :
    Yields (takeNext next) (s, k) (l.take k) := by
  refine Yields.of_step (fun st l' => ∃ l, l' = l.take st.2 ∧ Yields next st.1 l) ?_ ⟨l, rfl, h⟩
  rintro ⟨s, k⟩ _ ⟨l, rfl, h⟩
  cases k with
  | zero => exact ⟨(s, 0), gives_of fun _ => by simp [takeNext], l, by simp, h⟩
  | succ k =>
    obtain ⟨s', ⟨n0, hg⟩, h2⟩ := h.step
    refine ⟨(s', k), ⟨n0, fun n hn => ?_⟩, l.tail, ?_, h2⟩
    · cases l <;> simp [takeNext, hg n hn]
    · cases l <;> simp

/-- The start of an infinite iterator. -/
theorem take_begins {next : Next σ α} {s s' : σ} {l : List α} (h : Begins next s l s') :
    Yields (takeNext next) (s, l.length) l := by
  induction h with
  | @nil s =>
    refine .nil ⟨fun st => st.2 = 0, rfl, ?_⟩
    rintro ⟨s, k⟩ hk
    simp only at hk
    subst hk
    exact ⟨(s, 0), gives_of fun _ => by simp [takeNext], rfl⟩
  | cons hg _ ih =>
    obtain ⟨n0, hg⟩ := hg
    exact .cons ⟨n0, fun n hn => by simp [takeNext, hg n hn]⟩ ih

theorem skipLoop_yields {next : Next σ α} {s : σ} {l : List α} (h : Yields next s l) (k : Nat) :
    ∃ n0 s' b i, (∀ n, n0 ≤ n → skipLoop next n s k = some (b, s', i)) ∧
      Yields next s' (l.drop k) ∧ (b = true → i = 0) ∧ (b = false → l.drop k = []) := by
  induction k generalizing s l with
  | zero =>
    refine ⟨1, s, true, 0, fun n hn => ?_, by simpa using h, fun _ => rfl, by simp⟩
    obtain ⟨m, rfl⟩ : ∃ m, n = m + 1 := ⟨n - 1, by omega⟩
    simp [skipLoop]
  | succ k ih =>
    obtain ⟨s', ⟨n0, hg⟩, h2⟩ := h.step
    cases l with
    | nil =>
      refine ⟨n0 + 1, s', false, k + 1, fun n hn => ?_, by simpa using h2, by simp, by simp⟩
      obtain ⟨m, rfl⟩ : ∃ m, n = m + 1 := ⟨n - 1, by omega⟩
      have := hg m (by omega)
      simp_all [skipLoop]
    | cons a l =>
      obtain ⟨n1, s'', b, i, h3, h4, h5, h6⟩ := ih h2
      refine ⟨max n0 n1 + 1, s'', b, i, fun n hn => ?_, by simpa using h4, h5, by simpa using h6⟩
      obtain ⟨m, rfl⟩ : ∃ m, n = m + 1 := ⟨n - 1, by omega⟩
      have := hg m (by omega)
      have := h3 m (by omega)
      simp_all [skipLoop]

theorem skip_yields {next : Next σ α} {s : σ} {l : List α} (h : Yields next s l) (k : Nat) :
    Yields (skipNext next) (s, k) (l.drop k) := by
  refine Yields.of_step (fun st l' => ∃ l, l' = l.drop st.2 ∧ Yields next st.1 l) ?_ ⟨l, rfl, h⟩
  rintro ⟨s, k⟩ _ ⟨l, rfl, h⟩
  obtain ⟨n0, s', b, i, h1, h2, h3, h4⟩ := skipLoop_yields h k
  cases b with
  | false =>
    refine ⟨(s', i), ⟨n0, fun n hn => by simp [skipNext, h1 n hn, h4 rfl]⟩, [], ?_, ?_⟩
    · simp [h4 rfl]
    · rw [h4 rfl] at h2; exact h2
  | true =>
    obtain ⟨s'', ⟨n1, hg⟩, h5⟩ := h2.step
    have hi := h3 rfl
    subst hi
    exact ⟨(s'', 0), ⟨max n0 n1, fun n hn => by
      simp only [skipNext, h1 n (by omega), hg n (by omega)]⟩, (l.drop k).tail, by simp, h5⟩

theorem takeWhile_yields (f : α → Bool) {next : Next σ α} {s : σ} {l : List α}
    (h : Yields next s l) : Yields (takeWhileNext f next) (s, false) (l.takeWhile f) := by
  refine Yields.of_step (fun st l' => (st.2 = true ∧ l' = []) ∨
    st.2 = false ∧ ∃ l, l' = l.takeWhile f ∧ Yields next st.1 l) ?_ (Or.inr ⟨rfl, l, rfl, h⟩)
  rintro ⟨s, b⟩ l' (⟨hb, rfl⟩ | ⟨hb, l, rfl, h⟩) <;> simp only at hb <;> subst hb
  · exact ⟨(s, true), gives_of fun _ => by simp [takeWhileNext], Or.inl ⟨rfl, rfl⟩⟩
  · obtain ⟨s', ⟨n0, hg⟩, h2⟩ := h.step
    cases l with
    | nil =>
      exact ⟨(s', false), ⟨n0, fun n hn => by have := hg n hn; simp_all [takeWhileNext]⟩,
        Or.inr ⟨rfl, [], rfl, h2⟩⟩
    | cons a l =>
      cases ha : f a with
      | true =>
        exact ⟨(s', false), ⟨n0, fun n hn => by have := hg n hn; simp_all [takeWhileNext]⟩,
          Or.inr ⟨rfl, l, by simp [ha], h2⟩⟩
      | false =>
        exact ⟨(s', true), ⟨n0, fun n hn => by have := hg n hn; simp_all [takeWhileNext]⟩,
          Or.inl ⟨rfl, by simp [ha]⟩⟩

theorem skipWhileLoop_yields (f : α → Bool) {next : Next σ α} {s : σ} {l : List α}
    (h : Yields next s l) :
    ∃ n0 s', (∀ n, n0 ≤ n → skipWhileLoop f next n s = some ((l.dropWhile f).head?, s')) ∧
      Yields next s' (l.dropWhile f).tail := by
  induction l generalizing s with
  | nil =>
    obtain ⟨s', ⟨n0, hg⟩, h2⟩ := h.step
    refine ⟨n0 + 1, s', fun n hn => ?_, h2⟩
    obtain ⟨m, rfl⟩ : ∃ m, n = m + 1 := ⟨n - 1, by omega⟩
    have := hg m (by omega)
    simp_all [skipWhileLoop]
  | cons a l ih =>
    obtain ⟨s', ⟨n0, hg⟩, h2⟩ := h.step
    cases ha : f a with
    | true =>
      obtain ⟨n1, s'', h3, h4⟩ := ih h2
      refine ⟨max n0 n1 + 1, s'', fun n hn => ?_, by simpa [ha] using h4⟩
      obtain ⟨m, rfl⟩ : ∃ m, n = m + 1 := ⟨n - 1, by omega⟩
      have := hg m (by omega)
      have := h3 m (by omega)
      simp_all [skipWhileLoop]
    | false =>
      refine ⟨n0 + 1, s', fun n hn => ?_, by simpa [ha] using h2⟩
      obtain ⟨m, rfl⟩ : ∃ m, n = m + 1 := ⟨n - 1, by omega⟩
      have := hg m (by omega)
      simp_all [skipWhileLoop]

theorem skipWhile_yields (f : α → Bool) {next : Next σ α} {s : σ} {l : List α}
    (h : Yields next s l) : Yields (skipWhileNext f next) (s, false) (l.dropWhile f) := by
  refine Yields.of_step (fun st l' => (st.2 = true ∧ Yields next st.1 l') ∨
    st.2 = false ∧ ∃ l, l' = l.dropWhile f ∧ Yields next st.1 l) ?_ (Or.inr ⟨rfl, l, rfl, h⟩)
  rintro ⟨s, b⟩ l' (⟨hb, h⟩ | ⟨hb, l, rfl, h⟩) <;> simp only at hb <;> subst hb
  · obtain ⟨s', ⟨n0, hg⟩, h2⟩ := h.step
    exact ⟨(s', true), ⟨n0, fun n hn => by
      have := hg n hn
      simp_all [skipWhileNext]⟩, Or.inl ⟨rfl, h2⟩⟩
  · obtain ⟨n0, s', h1, h2⟩ := skipWhileLoop_yields f h
    cases hd : l.dropWhile f with
    | nil =>
      rw [hd] at h2
      obtain ⟨s'', ⟨n1, hg⟩, h3⟩ := h2.step
      refine ⟨(s'', true), ⟨max n0 n1, fun n hn => ?_⟩, Or.inl ⟨rfl, h3⟩⟩
      have := h1 n (by omega)
      have := hg n (by omega)
      simp_all [skipWhileNext]
    | cons a l' =>
      rw [hd] at h2
      refine ⟨(s', true), ⟨n0, fun n hn => ?_⟩, Or.inl ⟨rfl, h2⟩⟩
      have := h1 n hn
      simp_all [skipWhileNext]

theorem chain_yields {nextA : Next σ α} (iterate : γ → τ) {nextB : Next τ α} {s : σ} {b : γ}
    {l l' : List α} (h : Yields nextA s l) (h' : Yields nextB (iterate b) l') :
    Yields (chainNext nextA iterate nextB) (.a s b) (l ++ l') := by
  refine Yields.of_step (fun c k => (∃ s l, c = .a s b ∧ k = l ++ l' ∧ Yields nextA s l) ∨
    ∃ t, c = .b t ∧ Yields nextB t k) ?_ (Or.inl ⟨s, l, rfl, rfl, h⟩)
  rintro c k (⟨s, l, rfl, rfl, h⟩ | ⟨t, rfl, h⟩)
  · obtain ⟨s', ⟨n0, hg⟩, h2⟩ := h.step
    cases l with
    | nil =>
      obtain ⟨t, ⟨n1, hg'⟩, h3⟩ := h'.step
      refine ⟨.b t, ⟨max n0 n1, fun n hn => ?_⟩, Or.inr ⟨t, rfl, h3⟩⟩
      have := hg n (by omega)
      have := hg' n (by omega)
      simp_all [chainNext]
    | cons a l =>
      refine ⟨.a s' b, ⟨n0, fun n hn => ?_⟩, Or.inl ⟨s', l, rfl, by simp, h2⟩⟩
      have := hg n hn
      simp_all [chainNext]
  · obtain ⟨t', ⟨n0, hg⟩, h2⟩ := h.step
    exact ⟨.b t', ⟨n0, fun n hn => by simp [chainNext, hg n hn]⟩, Or.inr ⟨t', rfl, h2⟩⟩

/-- What `zip*` yields, where the first iterator may be infinite. -/
theorem zipWith_yields_total (f : α → β → δ) {nextA : Next σ α} {nextB : Next τ β} {s s1 : σ}
    {t : τ} {l : List α} {l' : List β} (h : Begins nextA s l s1) (ht : Total nextA s1)
    (h' : Yields nextB t l') (hl : l'.length ≤ l.length) :
    Yields (zipWithNext f nextA nextB) (s, t) (List.zipWith f l l') := by
  induction h generalizing t l' with
  | @nil s =>
    have hl' : l' = [] := List.length_eq_zero_iff.mp (Nat.le_zero.mp hl)
    subst hl'
    refine .nil ⟨fun st => Total nextA st.1 ∧ Ended nextB st.2, ⟨ht, h'.ended⟩, ?_⟩
    rintro ⟨s, t⟩ ⟨h1, h2⟩
    obtain ⟨r, s', ⟨n0, hg⟩, h3⟩ := h1.step
    obtain ⟨t', ⟨n1, hg'⟩, h4⟩ := h2.step
    cases r with
    | none => exact ⟨(s', t), ⟨n0, fun n hn => by simp [zipWithNext, hg n hn]⟩, h3, h2⟩
    | some a => exact ⟨(s', t'), ⟨max n0 n1, fun n hn => by
        simp [zipWithNext, hg n (by omega), hg' n (by omega)]⟩, h3, h4⟩
  | @cons s a s' l s'' hg hb ih =>
    obtain ⟨n0, hg⟩ := hg
    obtain ⟨t', ⟨n1, hg'⟩, h2⟩ := h'.step
    cases l' with
    | nil =>
      -- the first iterator loses elements, but nothing is yielded
      have htot : Total nextA s := by
        have key : ∀ {s1 : σ} {l : List α} {s2 : σ}, Begins nextA s1 l s2 → Total nextA s2 →
            Total nextA s1 := by
          intro s1 l s2 hb ht
          induction hb with
          | nil => exact ht
          | cons hg _ ih =>
            obtain ⟨P, h1, h2⟩ := ih ht
            refine ⟨fun x => P x ∨ x = _, Or.inr rfl, ?_⟩
            rintro x (hx | rfl)
            · obtain ⟨r, y, h3, h4⟩ := h2 x hx
              exact ⟨r, y, h3, Or.inl h4⟩
            · exact ⟨_, _, hg, Or.inl h1⟩
        exact key (.cons ⟨n0, hg⟩ hb) ht
      refine .nil ⟨fun st => Total nextA st.1 ∧ Ended nextB st.2, ⟨htot, h'.ended⟩, ?_⟩
      rintro ⟨s, t⟩ ⟨h1, h2⟩
      obtain ⟨r, s', ⟨n0, hg⟩, h3⟩ := h1.step
      obtain ⟨t', ⟨n1, hg'⟩, h4⟩ := h2.step
      cases r with
      | none => exact ⟨(s', t), ⟨n0, fun n hn => by simp [zipWithNext, hg n hn]⟩, h3, h2⟩
      | some a => exact ⟨(s', t'), ⟨max n0 n1, fun n hn => by
          simp [zipWithNext, hg n (by omega), hg' n (by omega)]⟩, h3, h4⟩
    | cons b l' =>
      refine .cons (s' := (s', t')) ⟨max n0 n1, fun n hn => ?_⟩
        (ih ht h2 (by simpa using hl))
      have := hg n (by omega)
      have := hg' n (by omega)
      simp_all [zipWithNext]

theorem zipWith_yields (f : α → β → δ) {nextA : Next σ α} {nextB : Next τ β} {s : σ} {t : τ}
    {l : List α} {l' : List β} (h : Yields nextA s l) (h' : Yields nextB t l') :
    Yields (zipWithNext f nextA nextB) (s, t) (List.zipWith f l l') := by
  refine Yields.of_step (fun st k => ∃ l l', k = List.zipWith f l l' ∧ Yields nextA st.1 l ∧
    Yields nextB st.2 l') ?_ ⟨l, l', rfl, h, h'⟩
  rintro ⟨s, t⟩ _ ⟨l, l', rfl, h, h'⟩
  obtain ⟨s', ⟨n0, hg⟩, h2⟩ := h.step
  obtain ⟨t', ⟨n1, hg'⟩, h3⟩ := h'.step
  cases l with
  | nil =>
    exact ⟨(s', t), ⟨n0, fun n hn => by have := hg n hn; simp_all [zipWithNext]⟩, [], l', by simp,
      h2, h'⟩
  | cons a l =>
    refine ⟨(s', t'), ⟨max n0 n1, fun n hn => ?_⟩, l, l'.tail, ?_, h2, h3⟩
    · have := hg n (by omega)
      have := hg' n (by omega)
      cases l' <;> simp_all [zipWithNext]
    · cases l' <;> simp

theorem zip_eq (nextA : Next σ α) (nextB : Next τ β) :
    zipNext nextA nextB = zipWithNext Prod.mk nextA nextB := rfl

theorem zip_yields {nextA : Next σ α} {nextB : Next τ β} {s : σ} {t : τ} {l : List α} {l' : List β}
    (h : Yields nextA s l) (h' : Yields nextB t l') :
    Yields (zipNext nextA nextB) (s, t) (l.zip l') := by
  rw [zip_eq]
  exact zipWith_yields Prod.mk h h'

theorem zipEither_yields {nextA : Next σ α} {nextB : Next τ β} {s : σ} {t : τ} {l : List α}
    {l' : List β} (h : Yields nextA s l) (h' : Yields nextB t l') :
    Yields (zipEitherNext nextA nextB) (s, t) (zipEither l l') := by
  refine Yields.of_step (fun st k => ∃ l l', k = zipEither l l' ∧ Yields nextA st.1 l ∧
    Yields nextB st.2 l') ?_ ⟨l, l', rfl, h, h'⟩
  rintro ⟨s, t⟩ _ ⟨l, l', rfl, h, h'⟩
  obtain ⟨s', ⟨n0, hg⟩, h2⟩ := h.step
  obtain ⟨t', ⟨n1, hg'⟩, h3⟩ := h'.step
  refine ⟨(s', t'), ⟨max n0 n1, fun n hn => ?_⟩, l.tail, l'.tail, ?_, h2, h3⟩
  · have := hg n (by omega)
    have := hg' n (by omega)
    cases l <;> cases l' <;> simp_all [zipEitherNext, zipEither]
  · cases l with
    | nil => cases l' with
      | nil => simp [zipEither]
      | cons b l' => cases l' <;> simp [zipEither]
    | cons a l => cases l' with
      | nil => cases l <;> simp [zipEither]
      | cons b l' => simp [zipEither]

theorem flatMap_gives_inner (f : α → τ) {outer : Next σ α} {inner : Next τ β} {s : σ} {t t' : τ}
    {b : β} (h : Gives inner t (some b) t') :
    Gives (flatMapNext f outer inner) (s, some t) (some b) (s, some t') := by
  obtain ⟨n0, hg⟩ := h
  refine ⟨n0 + 1, fun n hn => ?_⟩
  obtain ⟨m, rfl⟩ : ∃ m, n = m + 1 := ⟨n - 1, by omega⟩
  simp [flatMapNext, hg m (by omega)]

theorem flatMap_gives_next (f : α → τ) {outer : Next σ α} {inner : Next τ β} {s : σ} {t t' : τ}
    {r : Option β} {st : σ × Option τ} (h : Gives inner t none t')
    (h' : Gives (flatMapNext f outer inner) (s, none) r st) :
    Gives (flatMapNext f outer inner) (s, some t) r st := by
  obtain ⟨n0, hg⟩ := h
  obtain ⟨n1, hg'⟩ := h'
  refine ⟨max n0 n1 + 1, fun n hn => ?_⟩
  obtain ⟨m, rfl⟩ : ∃ m, n = m + 1 := ⟨n - 1, by omega⟩
  simp [flatMapNext, hg m (by omega), hg' m (by omega)]

theorem flatMap_gives_outer (f : α → τ) {outer : Next σ α} {inner : Next τ β} {s s' : σ} {x : α}
    {r : Option β} {st : σ × Option τ} (h : Gives outer s (some x) s')
    (h' : Gives (flatMapNext f outer inner) (s', some (f x)) r st) :
    Gives (flatMapNext f outer inner) (s, none) r st := by
  obtain ⟨n0, hg⟩ := h
  obtain ⟨n1, hg'⟩ := h'
  refine ⟨max n0 n1 + 1, fun n hn => ?_⟩
  obtain ⟨m, rfl⟩ : ∃ m, n = m + 1 := ⟨n - 1, by omega⟩
  simp [flatMapNext, hg m (by omega), hg' m (by omega)]

theorem flatMap_gives_none (f : α → τ) {outer : Next σ α} {inner : Next τ β} {s s' : σ}
    (h : Gives outer s none s') :
    Gives (flatMapNext f outer inner) (s, none) none (s', none) := by
  obtain ⟨n0, hg⟩ := h
  refine ⟨n0 + 1, fun n hn => ?_⟩
  obtain ⟨m, rfl⟩ : ∃ m, n = m + 1 := ⟨n - 1, by omega⟩
  simp [flatMapNext, hg m (by omega)]

theorem flatMap_yields (f : α → τ) (g : α → List β) {outer : Next σ α} {inner : Next τ β} {s : σ}
    {l : List α} (h : Yields outer s l) (hi : ∀ a ∈ l, Yields inner (f a) (g a)) :
    Yields (flatMapNext f outer inner) (s, none) (l.flatMap g) := by
  refine Yields.of_step (fun st k => ∃ l, (∀ a ∈ l, Yields inner (f a) (g a)) ∧
    Yields outer st.1 l ∧ ((st.2 = none ∧ k = l.flatMap g) ∨
      ∃ t m, st.2 = some t ∧ Yields inner t m ∧ k = m ++ l.flatMap g)) ?_
    ⟨l, hi, h, Or.inl ⟨rfl, rfl⟩⟩
  have key : ∀ (l : List α) (s : σ), (∀ a ∈ l, Yields inner (f a) (g a)) → Yields outer s l →
      ∃ st', Gives (flatMapNext f outer inner) (s, none) (l.flatMap g).head? st' ∧
        ∃ l', (∀ a ∈ l', Yields inner (f a) (g a)) ∧ Yields outer st'.1 l' ∧
          ((st'.2 = none ∧ (l.flatMap g).tail = l'.flatMap g) ∨
            ∃ t m, st'.2 = some t ∧ Yields inner t m ∧ (l.flatMap g).tail = m ++ l'.flatMap g) := by
    intro l
    induction l with
    | nil =>
      intro s hi h
      obtain ⟨s', h1, h2⟩ := h.step
      exact ⟨(s', none), flatMap_gives_none f h1, [], hi, h2, Or.inl ⟨rfl, rfl⟩⟩
    | cons a l ih =>
      intro s hi h
      obtain ⟨s', h1, h2⟩ := h.step
      have hi' : ∀ a ∈ l, Yields inner (f a) (g a) := fun x hx => hi x (List.mem_cons_of_mem _ hx)
      obtain ⟨t', h3, h4⟩ := (hi a List.mem_cons_self).step
      cases hg : g a with
      | nil =>
        rw [hg] at h3
        obtain ⟨st', h5, h6⟩ := ih s' hi' h2
        rw [List.flatMap_cons, hg, List.nil_append]
        exact ⟨st', flatMap_gives_outer f h1 (flatMap_gives_next f h3 h5), h6⟩
      | cons b m =>
        rw [hg] at h3 h4
        rw [List.flatMap_cons, hg]
        exact ⟨(s', some t'), flatMap_gives_outer f h1 (flatMap_gives_inner f h3), l, hi', h2,
          Or.inr ⟨t', m, rfl, h4, rfl⟩⟩
  rintro ⟨s, o⟩ k ⟨l, hi, h, ⟨ho, rfl⟩ | ⟨t, m, ho, hm, rfl⟩⟩ <;> simp only at ho <;> subst ho
  · obtain ⟨st', h1, h2⟩ := key l s hi h
    exact ⟨st', h1, h2⟩
  · obtain ⟨t', h3, h4⟩ := hm.step
    cases m with
    | nil =>
      obtain ⟨st', h1, h2⟩ := key l s hi h
      exact ⟨st', flatMap_gives_next f h3 h1, h2⟩
    | cons b m =>
      exact ⟨(s, some t'), flatMap_gives_inner f h3, l, hi, h, Or.inr ⟨t', m, rfl, h4, rfl⟩⟩

end Verif.Iter
