import Verif.Iter.Comb
import Mathlib.Tactic.Ring

/-!
# Iterators compute the functions on lists (C74)

The combinators are in `Verif.Iter.Comb`; here are loops over iterators and ranges.
-/

namespace Verif.Iter

variable {σ τ α β γ δ ρ ε : Type}

/-! ## Loops -/

/-- What a loop computes, and the elements after it. -/
def loopOn (body : α → β → Except ρ β) : List α → β → Except ρ β × List α
  | [], v => (.ok v, [])
  | a :: l, v =>
    match body a v with
    | .ok v' => loopOn body l v'
    | .error r => (.error r, l)

theorem forLoop_yields (body : α → β → Except ρ β) {next : Next σ α} {s : σ} {l : List α}
    (h : Yields next s l) (v : β) :
    ∃ s', Ends (fun n => forLoop next body n s v) ((loopOn body l v).1, s') ∧
      Yields next s' (loopOn body l v).2 := by
  induction l generalizing s v with
  | nil =>
    obtain ⟨s', ⟨n0, hg⟩, h2⟩ := h.step
    refine ⟨s', ⟨n0 + 1, fun n hn => ?_⟩, h2⟩
    obtain ⟨m, rfl⟩ : ∃ m, n = m + 1 := ⟨n - 1, by omega⟩
    have := hg m (by omega)
    simp_all [forLoop, loopOn]
  | cons a l ih =>
    obtain ⟨s', ⟨n0, hg⟩, h2⟩ := h.step
    cases hb : body a v with
    | ok v' =>
      obtain ⟨s'', ⟨n1, h3⟩, h4⟩ := ih h2 v'
      refine ⟨s'', ⟨max n0 n1 + 1, fun n hn => ?_⟩, by simpa [loopOn, hb] using h4⟩
      obtain ⟨m, rfl⟩ : ∃ m, n = m + 1 := ⟨n - 1, by omega⟩
      have := hg m (by omega)
      have := h3 m (by omega)
      simp_all [forLoop, loopOn]
    | error r =>
      refine ⟨s', ⟨n0 + 1, fun n hn => ?_⟩, by simpa [loopOn, hb] using h2⟩
      obtain ⟨m, rfl⟩ : ∃ m, n = m + 1 := ⟨n - 1, by omega⟩
      have := hg m (by omega)
      simp_all [forLoop, loopOn]

/-- What a function returns after a loop. -/
def outcome (last : β → ρ) : Except ρ β → ρ
  | .ok v => last v
  | .error r => r

/-- A function with a loop, by what the loop computes. -/
theorem returns_yields (body : α → β → Except ρ β) (last : β → ρ) {next : Next σ α} {s : σ}
    {l : List α} (h : Yields next s l) (v : β) (r : ρ) (rest : List α)
    (hr : outcome last (loopOn body l v).1 = r)
    (hrest : (loopOn body l v).2 = rest) :
    ∃ s', Ends (fun n => returns last (forLoop next body n s v)) (r, s') ∧ Yields next s' rest := by
  obtain ⟨s', ⟨n0, h1⟩, h2⟩ := forLoop_yields body h v
  refine ⟨s', ⟨n0, fun n hn => ?_⟩, hrest ▸ h2⟩
  simp only at h1 ⊢
  rw [h1 n hn]
  cases he : (loopOn body l v).1 with
  | ok v => rw [he] at hr; simp only [outcome] at hr; simp [returns, hr]
  | error r' => rw [he] at hr; simp only [outcome] at hr; simp [returns, hr]

theorem count_yields {next : Next σ α} {s : σ} {l : List α} (h : Yields next s l) :
    ∃ s', Ends (count next s) (l.length % 2 ^ 64, s') ∧ Yields next s' [] := by
  have key : ∀ (l : List α) c, loopOn (ρ := Nat) (fun _ c => .ok (u64 (c + 1))) l (c % 2 ^ 64) =
      (.ok ((c + l.length) % 2 ^ 64), []) := by
    intro l
    induction l with
    | nil => intro c; simp [loopOn, outcome]
    | cons a l ih =>
      intro c
      simp only [loopOn]
      rw [show u64 (c % 2 ^ 64 + 1) = (c + 1) % 2 ^ 64 by simp only [u64]; omega, ih]
      simp only [List.length_cons]
      rw [show c + 1 + l.length = c + (l.length + 1) by omega]
  have := key l 0
  simp only [Nat.zero_mod, Nat.zero_add] at this
  exact returns_yields _ id h 0 _ _ (by rw [this]; rfl) (by rw [this])

theorem first_yields {next : Next σ α} {s : σ} {l : List α} (h : Yields next s l) :
    ∃ s', Ends (first next s) (l.head?, s') ∧ Yields next s' l.tail :=
  returns_yields _ _ h () _ _ (by cases l <;> rfl) (by cases l <;> rfl)

theorem at_yields {next : Next σ α} {s : σ} {l : List α} (h : Yields next s l) (k : Nat) :
    ∃ s', Ends (at' k next s) (l[k]?, s') ∧ Yields next s' (l.drop (k + 1)) := by
  have key : ∀ (l : List α) (k : Nat),
      outcome (fun _ => none) (loopOn (fun x i => if i = 0 then .error (some x) else .ok (i - 1)) l k).1 = l[k]? ∧
      (loopOn (ρ := Option α) (fun x i => if i = 0 then .error (some x) else .ok (i - 1)) l k).2 =
        l.drop (k + 1) := by
    intro l
    induction l with
    | nil => intro k; simp [loopOn, outcome]
    | cons a l ih =>
      intro k
      cases k with
      | zero => simp [loopOn, outcome]
      | succ k => simpa [loopOn, outcome] using ih k
  exact returns_yields _ _ h k _ _ (key l k).1 (key l k).2

theorem fold_yields (f : β → α → β) (init : β) {next : Next σ α} {s : σ} {l : List α}
    (h : Yields next s l) :
    ∃ s', Ends (fold f init next s) (l.foldl f init, s') ∧ Yields next s' [] := by
  have key : ∀ (l : List α) v, loopOn (ρ := β) (fun a ret => .ok (f ret a)) l v =
      (.ok (l.foldl f v), []) := by
    intro l
    induction l with
    | nil => intro v; rfl
    | cons a l ih => intro v; simp [loopOn, ih]
  exact returns_yields _ id h init _ _ (by rw [key]; rfl) (by rw [key])

theorem total_yields (op : α → α → α) (unit : α) {next : Next σ α} {s : σ} {l : List α}
    (h : Yields next s l) :
    ∃ s', Ends (total op unit next s) (l.foldl op unit, s') ∧ Yields next s' [] :=
  fold_yields op unit h

theorem all_yields (f : α → Bool) {next : Next σ α} {s : σ} {l : List α} (h : Yields next s l) :
    ∃ s', Ends (all f next s) (l.all f, s') ∧ Yields next s' (l.dropWhile f).tail := by
  have key : ∀ l : List α,
      outcome (fun _ => true) (loopOn (fun a () => if !f a then .error false else .ok ()) l ()).1 = l.all f ∧
      (loopOn (ρ := Bool) (fun a () => if !f a then .error false else .ok ()) l ()).2 =
        (l.dropWhile f).tail := by
    intro l
    induction l with
    | nil => simp [loopOn, outcome]
    | cons a l ih => cases ha : f a <;> simp_all [loopOn, outcome]
  exact returns_yields _ _ h () _ _ (key l).1 (key l).2

theorem any_yields (f : α → Bool) {next : Next σ α} {s : σ} {l : List α} (h : Yields next s l) :
    ∃ s', Ends (any f next s) (l.any f, s') ∧ Yields next s' (l.dropWhile (!f ·)).tail := by
  have key : ∀ l : List α,
      outcome (fun _ => false) (loopOn (fun a () => if f a then .error true else .ok ()) l ()).1 = l.any f ∧
      (loopOn (ρ := Bool) (fun a () => if f a then .error true else .ok ()) l ()).2 =
        (l.dropWhile (!f ·)).tail := by
    intro l
    induction l with
    | nil => simp [loopOn, outcome]
    | cons a l ih => cases ha : f a <;> simp_all [loopOn, outcome]
  exact returns_yields _ _ h () _ _ (key l).1 (key l).2

theorem find_yields (f : α → Bool) {next : Next σ α} {s : σ} {l : List α} (h : Yields next s l) :
    ∃ s', Ends (find f next s) (l.find? f, s') ∧ Yields next s' (l.dropWhile (!f ·)).tail := by
  have key : ∀ l : List α,
      outcome (fun _ => none) (loopOn (fun a () => if f a then .error (some a) else .ok ()) l ()).1 = l.find? f ∧
      (loopOn (ρ := Option α) (fun a () => if f a then .error (some a) else .ok ()) l ()).2 =
        (l.dropWhile (!f ·)).tail := by
    intro l
    induction l with
    | nil => simp [loopOn, outcome]
    | cons a l ih => cases ha : f a <;> simp_all [loopOn, outcome]
  exact returns_yields _ _ h () _ _ (key l).1 (key l).2

theorem findMap_yields (f : α → Option β) {next : Next σ α} {s : σ} {l : List α}
    (h : Yields next s l) :
    ∃ s', Ends (findMap f next s) (l.findSome? f, s') ∧
      Yields next s' (l.dropWhile fun a => (f a).isNone).tail := by
  have key : ∀ l : List α,
      outcome (fun _ => none) (loopOn (fun a () =>
          match f a with
          | some b => .error (some b)
          | none => .ok ()) l ()).1 = l.findSome? f ∧
      (loopOn (ρ := Option β) (fun a () =>
          match f a with
          | some b => .error (some b)
          | none => .ok ()) l ()).2 = (l.dropWhile fun a => (f a).isNone).tail := by
    intro l
    induction l with
    | nil => simp [loopOn, outcome]
    | cons a l ih => cases ha : f a <;> simp_all [loopOn, outcome]
  exact returns_yields _ _ h () _ _ (key l).1 (key l).2

theorem findIndex_yields (f : α → Bool) {next : Next σ α} {s : σ} {l : List α}
    (h : Yields next s l) (hl : l.length ≤ 2 ^ 64) :
    ∃ s', Ends (findIndex f next s) (l.findIdx? f, s') ∧
      Yields next s' (l.dropWhile (!f ·)).tail := by
  have key : ∀ (l : List α) (i : Nat), (l = [] ∨ i + l.length ≤ 2 ^ 64) →
      outcome (fun _ => none) (loopOn (fun a i => if f a then .error (some i) else .ok (u64 (i + 1))) l i).1 = (l.findIdx? f).map (· + i) ∧
      (loopOn (ρ := Option Nat) (fun a i => if f a then .error (some i) else .ok (u64 (i + 1))) l
        i).2 = (l.dropWhile (!f ·)).tail := by
    intro l
    induction l with
    | nil => intro i _; simp [loopOn, outcome]
    | cons a l ih =>
      intro i hi
      cases ha : f a with
      | true => simp [loopOn, ha, outcome, List.findIdx?_cons]
      | false =>
        have hi' : l = [] ∨ u64 (i + 1) + l.length ≤ 2 ^ 64 ∧ u64 (i + 1) = i + 1 := by
          cases l with
          | nil => exact Or.inl rfl
          | cons b l =>
            right
            simp only [List.length_cons, reduceCtorEq, false_or] at hi ⊢
            simp only [u64]
            omega
        have := ih (u64 (i + 1)) (hi'.imp id fun h => h.1)
        simp only [loopOn, ha, List.findIdx?_cons, Bool.false_eq_true, if_false, Bool.not_false,
          List.dropWhile_cons_of_pos]
        refine ⟨?_, this.2⟩
        rw [this.1]
        rcases hi' with rfl | ⟨-, hi'⟩
        · simp
        · rw [hi', Option.map_map]
          congr 1
          funext x
          simp only [Function.comp_apply]
          omega
  have hk := key l 0 (Or.inr (by omega))
  simp only [Nat.add_zero, Option.map_id'] at hk
  exact returns_yields _ _ h 0 _ _ hk.1 hk.2

theorem traverseOption_yields (f : α → Option β) {next : Next σ α} {s : σ} {l : List α}
    (h : Yields next s l) :
    ∃ s', Ends (traverseOption f next s) (l.mapM f, s') ∧
      Yields next s' (l.dropWhile fun a => (f a).isSome).tail := by
  have key : ∀ (l : List α) (buf : List β),
      outcome (fun v => some v) (loopOn (fun a buf =>
          match f a with
          | some b => .ok (buf ++ [b])
          | none => .error none) l buf).1 = (l.mapM f).map (buf ++ ·) ∧
      (loopOn (ρ := Option (List β)) (fun a buf =>
          match f a with
          | some b => .ok (buf ++ [b])
          | none => .error none) l buf).2 = (l.dropWhile fun a => (f a).isSome).tail := by
    intro l
    induction l with
    | nil => intro buf; simp [loopOn, outcome]
    | cons a l ih =>
      intro buf
      cases ha : f a with
      | none => simp [loopOn, ha, outcome]
      | some b =>
        have := ih (buf ++ [b])
        simp only [loopOn, ha]
        refine ⟨?_, by simpa [ha] using this.2⟩
        rw [this.1]
        simp only [List.mapM_cons, ha, Option.bind_eq_bind, Option.bind_some]
        cases List.mapM f l <;> simp
  have hk := key l []
  simp only [List.nil_append, Option.map_id'] at hk
  exact returns_yields _ _ h [] _ _ hk.1 hk.2

theorem traverseResult_yields (f : α → Except ε β) {next : Next σ α} {s : σ} {l : List α}
    (h : Yields next s l) :
    ∃ s', Ends (traverseResult f next s) (l.mapM f, s') ∧
      Yields next s' (l.dropWhile fun a => (f a).isOk).tail := by
  have key : ∀ (l : List α) (buf : List β),
      outcome (fun v => .ok v) (loopOn (fun a buf =>
          match f a with
          | .ok b => .ok (buf ++ [b])
          | .error e => .error (.error e)) l buf).1 = (l.mapM f).map (buf ++ ·) ∧
      (loopOn (ρ := Except ε (List β)) (fun a buf =>
          match f a with
          | .ok b => .ok (buf ++ [b])
          | .error e => .error (.error e)) l buf).2 = (l.dropWhile fun a => (f a).isOk).tail := by
    intro l
    induction l with
    | nil => intro buf; simp [loopOn, outcome, pure, Except.pure, Except.map]
    | cons a l ih =>
      intro buf
      cases ha : f a with
      | error e =>
        simp [loopOn, ha, outcome, bind, Except.bind, Except.map, Except.isOk, Except.toBool]
      | ok b =>
        have := ih (buf ++ [b])
        simp only [loopOn, ha]
        refine ⟨?_, by simpa [ha, Except.isOk, Except.toBool] using this.2⟩
        rw [this.1]
        simp only [List.mapM_cons, ha, bind, Except.bind]
        cases List.mapM f l <;> simp [Except.map, pure, Except.pure]
  have hk := key l []
  have hid : ∀ x : Except ε (List β), x.map ([] ++ ·) = x := by intro x; cases x <;> rfl
  rw [hid] at hk
  exact returns_yields _ _ h [] _ _ hk.1 hk.2

/-! ## Ranges -/

theorem range_stop (wrap : Int → Int) (stop step i : Int)
    (h : ¬((0 < step ∧ i < stop) ∨ (0 > step ∧ i > stop))) :
    Yields (rangeNext wrap stop step) i [] ∧ IsRange i stop step [] := by
  constructor
  · refine .nil ⟨fun j => j = i, rfl, ?_⟩
    rintro j rfl
    exact ⟨j, gives_of fun _ => by simp only [rangeNext, if_neg h], rfl⟩
  · intro k x
    simp only [List.getElem?_nil, reduceCtorEq, false_iff]
    rintro ⟨rfl, ⟨h1, h2⟩ | ⟨h1, h2⟩⟩
    · have : 0 ≤ (k : Int) * step := Int.mul_nonneg (by omega) (by omega)
      exact h (Or.inl ⟨h1, by omega⟩)
    · have : 0 ≤ (k : Int) * -step := Int.mul_nonneg (by omega) (by omega)
      rw [Int.mul_neg] at this
      exact h (Or.inr ⟨h1, by omega⟩)

theorem isRange_cons (i stop step : Int) (l : List Int)
    (h : (0 < step ∧ i < stop) ∨ (0 > step ∧ i > stop)) (hl : IsRange (i + step) stop step l) :
    IsRange i stop step (i :: l) := by
  intro k x
  cases k with
  | zero =>
    simp only [List.getElem?_cons_zero, Option.some.injEq]
    constructor
    · rintro rfl
      exact ⟨by simp, by omega⟩
    · rintro ⟨hx, -⟩
      simp only [Int.natCast_zero, Int.zero_mul] at hx
      omega
  | succ k =>
    rw [List.getElem?_cons_succ, hl k x]
    have : i + step + (k : Int) * step = i + ((k + 1 : Nat) : Int) * step := by push_cast; ring
    rw [this]

/-- A range in a type of integers from `lo` to `hi` is right when the end of the range is not so
near to the end of the type that a step leads out of it.  Without the last two assumptions this is
wrong (`range_wraps`). -/
theorem range_yields_partial (wrap : Int → Int) (lo hi start stop step : Int)
    (hw : ∀ x, lo ≤ x → x ≤ hi → wrap x = x) (hs : lo ≤ start ∧ start ≤ hi)
    (hup : 0 < step → stop + step - 1 ≤ hi) (hdown : step < 0 → lo ≤ stop + step + 1) :
    ∃ l, Yields (rangeNext wrap stop step) start l ∧ IsRange start stop step l := by
  by_cases h0 : 0 < step
  · generalize hm : (stop - start).toNat = m
    induction m using Nat.strongRecOn generalizing start with
    | ind m ih =>
      by_cases h : (0 < step ∧ start < stop) ∨ (0 > step ∧ start > stop)
      · have hlt : start < stop := by omega
        have := hup h0
        obtain ⟨l, h1, h2⟩ := ih (stop - (start + step)).toNat (by omega) (start + step)
          (by omega) rfl
        refine ⟨start :: l, .cons (gives_of fun _ => ?_) h1, isRange_cons _ _ _ _ h h2⟩
        simp only [rangeNext, if_pos h]
        rw [hw _ (by omega) (by omega)]
      · exact ⟨[], range_stop wrap stop step start h⟩
  · generalize hm : (start - stop).toNat = m
    induction m using Nat.strongRecOn generalizing start with
    | ind m ih =>
      by_cases h : (0 < step ∧ start < stop) ∨ (0 > step ∧ start > stop)
      · have hlt : stop < start := by omega
        have := hdown (by omega)
        obtain ⟨l, h1, h2⟩ := ih ((start + step) - stop).toNat (by omega) (start + step)
          (by omega) rfl
        refine ⟨start :: l, .cons (gives_of fun _ => ?_) h1, isRange_cons _ _ _ _ h h2⟩
        simp only [rangeNext, if_pos h]
        rw [hw _ (by omega) (by omega)]
      · exact ⟨[], range_stop wrap stop step start h⟩

/-- With steps of one in either direction a range is always right. -/
theorem range_one (wrap : Int → Int) (lo hi start stop step : Int)
    (hw : ∀ x, lo ≤ x → x ≤ hi → wrap x = x) (hs : lo ≤ start ∧ start ≤ hi)
    (he : lo ≤ stop ∧ stop ≤ hi) (h1 : step = 1 ∨ step = -1) :
    ∃ l, Yields (rangeNext wrap stop step) start l ∧ IsRange start stop step l :=
  range_yields_partial wrap lo hi start stop step hw hs (by omega) (by omega)

/-- The range of `U8` from 250 to 255 in steps of 4 does not end: after 254 come 2, 6, 10 and so
on, back to 250 and 254. -/
theorem range_wraps :
    (∀ l, ¬Yields (rangeNext (· % 256) 255 4) 250 l) ∧
    Begins (rangeNext (· % 256) 255 4) 250 [250, 254, 2, 6] 10 := by
  constructor
  · have key : ∀ (l : List Int) (i : Int), 0 ≤ i → i < 256 → i % 4 = 2 →
        ¬Yields (rangeNext (· % 256) 255 4) i l := by
      intro l
      induction l with
      | nil =>
        intro i h0 h1 h2 h
        obtain ⟨s', ⟨n0, hg⟩, -⟩ := h.step
        have := hg n0 (Nat.le_refl _)
        rw [rangeNext, if_pos (Or.inl ⟨by omega, by omega⟩)] at this
        simp at this
      | cons a l ih =>
        intro i h0 h1 h2 h
        obtain ⟨s', ⟨n0, hg⟩, hy⟩ := h.step
        have := hg n0 (Nat.le_refl _)
        rw [rangeNext, if_pos (Or.inl ⟨by omega, by omega⟩)] at this
        simp only [List.head?_cons, Option.some.injEq, Prod.mk.injEq] at this
        obtain ⟨-, rfl⟩ := this
        exact ih _ (by omega) (by omega) (by omega) hy
    exact fun l => key l 250 (by omega) (by omega) (by omega)
  · exact .cons (s' := 254) (gives_of fun _ => by simp [rangeNext])
      (.cons (s' := 2) (gives_of fun _ => by simp [rangeNext])
      (.cons (s' := 6) (gives_of fun _ => by simp [rangeNext])
      (.cons (s' := 10) (gives_of fun _ => by simp [rangeNext]) .nil)))

/-! ## Examples -/

/-- An iterator over a list. -/
def listNext : Next (List Nat) Nat := unfoldNext fun l =>
  match l with
  | [] => none
  | a :: l => some (a, l)

theorem list_yields (l : List Nat) : Yields listNext l l := by
  refine unfold_yields _ _ _ ?_
  induction l with
  | nil => exact .nil rfl
  | cons a l ih => exact .cons rfl ih

/-- A pipeline of combinators: squares of the numbers from the second on that are not 4, each
followed by as many numbers of the other list. -/
example : Yields (flatMapNext (fun k => ([7, 8, 9], k)) (mapNext (fun n => n * n)
    (filterNext (fun n => n ≠ 2) (skipNext listNext))) (takeNext listNext)) (([5, 2, 1, 2, 1], 1),
      none) [7, 7] := by
  have h := flatMap_yields (fun k => ([7, 8, 9], k)) (fun k => [7, 8, 9].take k)
    (map_yields (fun n => n * n) (filter_yields (fun n => n ≠ 2)
      (skip_yields (list_yields [5, 2, 1, 2, 1]) 1)))
    (inner := takeNext listNext) (fun a _ => take_yields (list_yields [7, 8, 9]) a)
  simpa using h

/-- The same by running it. -/
example : (count (flatMapNext (fun k => ([7, 8, 9], k)) (mapNext (fun n => n * n)
    (filterNext (fun n => n ≠ 2) (skipNext listNext))) (takeNext listNext))
      (([5, 2, 1, 2, 1], 1), none) 30).map Prod.fst = some 2 := by decide +kernel

/-- A search in an iterator goes on behind the element that was found. -/
example : ∃ s', Ends (find (fun n => n > 3) listNext [1, 5, 6]) (some 5, s') ∧
    Yields listNext s' [6] := by
  simpa using find_yields (fun n => n > 3) (list_yields [1, 5, 6])

/-- Ten numbers of an infinite iterator. -/
example : Yields (takeNext (mapNext (· + 1) (foreverNext 1))) ((), 10) (List.replicate 10 2) := by
  simpa using take_begins (map_begins (· + 1) (forever_begins 1 10))

/-- A range downwards. -/
example : ∃ l, Yields (rangeNext id (-1) (-1)) 3 l ∧ IsRange 3 (-1) (-1) l ∧
    l[2]? = some 1 ∧ l[4]? = none := by
  obtain ⟨l, h1, h2⟩ := range_one id (-128) 127 3 (-1) (-1) (fun _ _ _ => rfl) (by omega) (by omega)
    (Or.inr rfl)
  refine ⟨l, h1, h2, (h2 2 1).mpr (by omega), ?_⟩
  cases hk : l[4]? with
  | none => rfl
  | some x =>
    have := (h2 4 x).mp hk
    omega

end Verif.Iter
