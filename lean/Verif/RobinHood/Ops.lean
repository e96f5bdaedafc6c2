import Verif.RobinHood.Lemmas

/-! # Lookup, insertion and removal keep the invariant -/
namespace Verif.RobinHood

variable {K V : Type} [DecidableEq K]

/-! ### Lookup -/

/-- The key is in slot `j`, not before `i`: the loop finds it. -/
theorem lookupLoop_found {m : Map K V} (hc : Pow m.cap) (hr : RH m.cap m.slots) (hu : Uniq m.cap m.slots) {j : Nat}
    (hj : j < m.cap) {h : Nat} {k : K} {v : V} (he : m.slots j = some (h, k, v)) :
    ∀ (n i fuel : Nat), i < m.cap → dist i h m.cap + n = dist j h m.cap → n < fuel →
      lookupLoop h k m fuel i = .ok (some j) := by
  intro n
  induction n with
  | zero =>
    intro i fuel hi hd hf
    have hij : i = j := dist_inj hc hi hj h (by omega)
    subst hij
    obtain ⟨f, rfl⟩ : ∃ f, fuel = f + 1 := ⟨fuel - 1, by omega⟩
    rw [lookupLoop, if_pos hi, he]
    simp
  | succ n ih =>
    intro i fuel hi hd hf
    obtain ⟨f, rfl⟩ : ∃ f, fuel = f + 1 := ⟨fuel - 1, by omega⟩
    obtain ⟨⟨h', k', v'⟩, h1, h2⟩ := hr.chain hc hj he (n + 1) i hi hd
    have hne : ¬ (h = h' ∧ k = k') := by
      rintro ⟨-, rfl⟩
      have := hu.inj hi hj h1 he rfl
      subst this; omega
    have hlt := dist_lt hc hj h
    simp only at h2
    rw [lookupLoop, if_pos hi, h1]
    simp only
    rw [if_neg hne, dist_def, if_neg (by omega), mod_nxt hi]
    exact ih _ f (nxt_lt hi) (by rw [dist_nxt hc hi h (by omega)]; omega) (by omega)

theorem add_nxt {cap i s : Nat} (hi : i < cap) (hs : s ≠ 0) : (nxt cap i + (s - 1)) % cap = (i + s) % cap := by
  rw [← mod_nxt hi, Nat.mod_add_mod]; congr 1; omega

/-- The key is not in the table: the loop ends without a result, at the latest at an empty slot. -/
theorem lookupLoop_absent {m : Map K V} (hc : Pow m.cap) {h : Nat} {k : K}
    (ha : ∀ i e, i < m.cap → m.slots i = some e → e.2.1 ≠ k) :
    ∀ (fuel s i : Nat), i < m.cap → m.slots ((i + s) % m.cap) = none → s < fuel →
      lookupLoop h k m fuel i = .ok none := by
  intro fuel
  induction fuel with
  | zero => intro s i _ _ hs; omega
  | succ f ih =>
    intro s i hi hs hf
    rw [lookupLoop, if_pos hi]
    cases hT : m.slots i with
    | none => rfl
    | some e =>
      obtain ⟨h', k', v'⟩ := e
      have hne : ¬ (h = h' ∧ k = k') := fun hh => ha i _ hi hT hh.2.symm
      simp only
      rw [if_neg hne]
      split
      · rfl
      · have hs0 : s ≠ 0 := by
          rintro rfl
          rw [Nat.add_zero, Nat.mod_eq_of_lt hi, hT] at hs; cases hs
        rw [mod_nxt hi]
        exact ih (s - 1) _ (nxt_lt hi) (by rw [add_nxt hi hs0]; exact hs) (by omega)

theorem empty_ahead {cap : Nat} {T : Slots K V} (h : ∃ i, i < cap ∧ T i = none) {i : Nat} (hi : i < cap) :
    ∃ s, s < cap ∧ T ((i + s) % cap) = none := by
  obtain ⟨j, hj, hT⟩ := h
  by_cases hij : i ≤ j
  · exact ⟨j - i, by omega, by rwa [show i + (j - i) = j by omega, Nat.mod_eq_of_lt hj]⟩
  · refine ⟨j + cap - i, by omega, ?_⟩
    rwa [show i + (j + cap - i) = j + cap by omega, Nat.add_mod_right, Nat.mod_eq_of_lt hj]

/-- What lookup does, for a table that is not full. -/
theorem lookup_spec {m : Map K V} (hc : Pow m.cap) (hr : RH m.cap m.slots) (hu : Uniq m.cap m.slots)
    (hne : ∃ i, i < m.cap ∧ m.slots i = none) (h : Nat) (k : K)
    (hh : ∀ i e, i < m.cap → m.slots i = some e → e.2.1 = k → e.1 = h) :
    (∃ j v, j < m.cap ∧ m.slots j = some (h, k, v) ∧ lookup h k m = .ok (some j)) ∨
    ((∀ i e, i < m.cap → m.slots i = some e → e.2.1 ≠ k) ∧ lookup h k m = .ok none) := by
  have hi := ideal_lt hc h
  by_cases hx : ∃ i e, i < m.cap ∧ m.slots i = some e ∧ e.2.1 = k
  · obtain ⟨j, ⟨h', k', v⟩, hj, he, hk⟩ := hx
    have := hh j _ hj he hk
    simp only at hk this
    subst hk this
    refine .inl ⟨j, v, hj, he, ?_⟩
    have hd0 : dist (ideal h' m.cap) h' m.cap = 0 := dist_ideal hc h'
    have hlt := dist_lt hc hj h'
    unfold lookup
    rw [ideal_def]
    exact lookupLoop_found hc hr hu hj he (dist j h' m.cap) _ _ hi (by omega) (by omega)
  · have ha : ∀ i e, i < m.cap → m.slots i = some e → e.2.1 ≠ k := fun i e h1 h2 h3 => hx ⟨i, e, h1, h2, h3⟩
    obtain ⟨s, hs, hT⟩ := empty_ahead hne hi
    refine .inr ⟨ha, ?_⟩
    unfold lookup
    rw [ideal_def]
    exact lookupLoop_absent hc ha _ s _ hi hT (by omega)

/-! ### Insertion -/

/-- The carried entry may be put at `i`. -/
def Fits (cap : Nat) (T : Slots K V) (i h : Nat) : Prop :=
  dist i h cap = 0 ∨ ∃ e', T (prv cap i) = some e' ∧ dist i h cap ≤ dist (prv cap i) e'.1 cap + 1

omit [DecidableEq K] in
theorem RH.put {cap : Nat} {T : Slots K V} (hc : Pow cap) (hr : RH cap T) {i : Nat} (hi : i < cap) {e : Nat × K × V}
    (hf : Fits cap T i e.1) (hcap : prv cap i ≠ i ∨ dist i e.1 cap = 0)
    (hold : ∀ e', T i = some e' → dist i e'.1 cap ≤ dist i e.1 cap) : RH cap (upd T i (some e)) := by
  intro x hx ex hex hd
  by_cases hxi : x = i
  · subst hxi
    rw [upd_same] at hex; cases hex
    rcases hf with h0 | ⟨e', h1, h2⟩
    · omega
    · rcases hcap with hp | h0
      · exact ⟨e', by rw [upd_ne _ hp]; exact h1, h2⟩
      · omega
  · rw [upd_ne _ hxi] at hex
    obtain ⟨e', h1, h2⟩ := hr x hx ex hex hd
    by_cases hpi : prv cap x = i
    · rw [hpi] at h1 h2 ⊢
      exact ⟨e, upd_same _ _ _, by have := hold e' h1; omega⟩
    · exact ⟨e', by rw [upd_ne _ hpi]; exact h1, h2⟩

theorem dist_one {cap : Nat} (hc : Pow cap) {i : Nat} (hi : i < cap) (h : Nat) (hp : prv cap i = i) : dist i h cap = 0 := by
  have : cap = 1 := by unfold prv at hp; split at hp <;> omega
  have := dist_lt hc hi h
  omega

/-- Insertion of an entry whose key is not compared equal (absent, or a displaced entry). -/
theorem insertLoop_absent {len cap : Nat} (hc : Pow cap) : ∀ (fuel s : Nat) (T : Slots K V) (i : Nat) (st : Bool) (h : Nat) (k : K) (v : V),
    RH cap T → i < cap → Fits cap T i h →
    (st = false → ∀ i e, i < cap → T i = some e → e.2.1 ≠ k) →
    T ((i + s) % cap) = none → s < fuel →
    ∃ T', insertLoop len cap fuel T i st h k v = .ok (none, ⟨(len + 1) % 2 ^ 64, cap, T'⟩) ∧ RH cap T' ∧
      (contents cap T').Perm ((h, k, v) :: contents cap T) := by
  intro fuel
  induction fuel with
  | zero => intro s T i st h k v _ _ _ _ _ hs; omega
  | succ f ih =>
    intro s T i st h k v hr hi hf ha hs hlt
    rw [insertLoop, if_pos hi]
    cases hT : T i with
    | none =>
      refine ⟨_, rfl, ?_, contents_store hi hT _⟩
      refine hr.put hc hi hf ?_ (by intro e' he'; rw [hT] at he'; cases he')
      by_cases hp : prv cap i = i
      · exact .inr (dist_one hc hi h hp)
      · exact .inl hp
    | some e =>
      obtain ⟨h', k', v'⟩ := e
      have hne : ¬ (st = false ∧ h = h' ∧ k = k') := fun hh => ha hh.1 i _ hi hT hh.2.2.symm
      have hs0 : s ≠ 0 := by
        rintro rfl
        rw [Nat.add_zero, Nat.mod_eq_of_lt hi, hT] at hs; cases hs
      simp only
      rw [if_neg hne, dist_def]
      by_cases hd : dist i h cap > dist i h' cap
      · rw [if_pos hd, mod_nxt hi]
        have hr' : RH cap (upd T i (some (h, k, v))) := by
          refine hr.put hc hi hf (.inl fun hp => ?_) ?_
          · have := dist_one hc hi h hp; omega
          · intro e' he'; rw [hT] at he'; cases he'; simp only; omega
        have hlt' := dist_lt hc hi h
        have hn := dist_nxt hc hi h' (by omega)
        obtain ⟨T', h1, h2, h3⟩ := ih (s - 1) (upd T i (some (h, k, v))) (nxt cap i) true h' k' v' hr' (nxt_lt hi)
          (.inr ⟨(h, k, v), by rw [prv_nxt hi, upd_same], by rw [prv_nxt hi]; simp only; omega⟩)
          (by intro hst; cases hst)
          (by
            rw [add_nxt hi hs0, upd_ne _ _]
            · exact hs
            · intro hh; rw [hh, hT] at hs; cases hs)
          (by omega)
        exact ⟨T', h1, h2, h3.trans (contents_replace hi hT _)⟩
      · rw [if_neg hd, mod_nxt hi]
        by_cases hw : dist i h cap + 1 = cap
        · exact ih (s - 1) T (nxt cap i) st h k v hr (nxt_lt hi) (.inl (dist_nxt_wrap hc hi h hw)) ha
            (by rw [add_nxt hi hs0]; exact hs) (by omega)
        · have := dist_lt hc hi h
          refine ih (s - 1) T (nxt cap i) st h k v hr (nxt_lt hi) (.inr ⟨_, by rw [prv_nxt hi]; exact hT, ?_⟩) ha
            (by rw [add_nxt hi hs0]; exact hs) (by omega)
          rw [prv_nxt hi, dist_nxt hc hi h (by omega)]; simp only; omega

/-- Insertion of a key that is in the table replaces its value. -/
theorem insertLoop_present {len cap : Nat} (hc : Pow cap) {T : Slots K V} (hr : RH cap T) (hu : Uniq cap T) {j : Nat}
    (hj : j < cap) {h : Nat} {k : K} {w : V} (v : V) (he : T j = some (h, k, w)) :
    ∀ (n i fuel : Nat), i < cap → dist i h cap + n = dist j h cap → n < fuel →
      insertLoop len cap fuel T i false h k v = .ok (some w, ⟨len, cap, upd T j (some (h, k, v))⟩) := by
  intro n
  induction n with
  | zero =>
    intro i fuel hi hd hf
    have hij : i = j := dist_inj hc hi hj h (by omega)
    subst hij
    obtain ⟨f, rfl⟩ : ∃ f, fuel = f + 1 := ⟨fuel - 1, by omega⟩
    rw [insertLoop, if_pos hi, he]
    simp
  | succ n ih =>
    intro i fuel hi hd hf
    obtain ⟨f, rfl⟩ : ∃ f, fuel = f + 1 := ⟨fuel - 1, by omega⟩
    obtain ⟨⟨h', k', v'⟩, h1, h2⟩ := hr.chain hc hj he (n + 1) i hi hd
    have hne : ¬ (True ∧ h = h' ∧ k = k') := by
      rintro ⟨-, -, rfl⟩
      have := hu.inj hi hj h1 he rfl
      subst this; omega
    have hlt := dist_lt hc hj h
    simp only at h2
    rw [insertLoop, if_pos hi, h1]
    simp only
    rw [if_neg hne, dist_def, if_neg (by omega), mod_nxt hi]
    exact ih _ f (nxt_lt hi) (by rw [dist_nxt hc hi h (by omega)]; omega) (by omega)

omit [DecidableEq K] in
/-- Replacing the value of an entry keeps the invariant. -/
theorem RH.replace {cap : Nat} {T : Slots K V} (hr : RH cap T) {j : Nat} {h : Nat} {k k' : K} {w v : V}
    (he : T j = some (h, k, w)) : RH cap (upd T j (some (h, k', v))) := by
  intro x hx ex hex hd
  have key : ∀ y e, upd T j (some (h, k', v)) y = some e → ∃ e0, T y = some e0 ∧ e0.1 = e.1 := by
    intro y e hy
    by_cases hyj : y = j
    · subst hyj; rw [upd_same] at hy; cases hy; exact ⟨_, he, rfl⟩
    · rw [upd_ne _ hyj] at hy; exact ⟨_, hy, rfl⟩
  obtain ⟨e0, h1, h2⟩ := key x ex hex
  obtain ⟨e', h3, h4⟩ := hr x hx e0 h1 (by rw [h2]; exact hd)
  rw [h2] at h4
  by_cases hpj : prv cap x = j
  · rw [hpj] at h3 h4 ⊢
    rw [he] at h3; cases h3
    exact ⟨_, upd_same _ _ _, h4⟩
  · exact ⟨e', by rw [upd_ne _ hpj]; exact h3, h4⟩

/-- What `insert!` does, for a table that is not full. -/
theorem insertHashed_spec {m : Map K V} (hc : Pow m.cap) (hr : RH m.cap m.slots) (hu : Uniq m.cap m.slots)
    (hne : ∃ i, i < m.cap ∧ m.slots i = none) (h : Nat) (k : K) (v : V)
    (hh : ∀ i e, i < m.cap → m.slots i = some e → e.2.1 = k → e.1 = h) :
    (∃ w T', insertHashed h k v m = .ok (some w, ⟨m.len, m.cap, T'⟩) ∧ RH m.cap T' ∧ (h, k, w) ∈ contents m.cap m.slots ∧
      ((h, k, w) :: contents m.cap T').Perm ((h, k, v) :: contents m.cap m.slots)) ∨
    ((∀ e, e ∈ contents m.cap m.slots → e.2.1 ≠ k) ∧
      ∃ T', insertHashed h k v m = .ok (none, ⟨(m.len + 1) % 2 ^ 64, m.cap, T'⟩) ∧ RH m.cap T' ∧
        (contents m.cap T').Perm ((h, k, v) :: contents m.cap m.slots)) := by
  have hi := ideal_lt hc h
  have hd0 : dist (ideal h m.cap) h m.cap = 0 := dist_ideal hc h
  by_cases hx : ∃ i e, i < m.cap ∧ m.slots i = some e ∧ e.2.1 = k
  · obtain ⟨j, ⟨h', k', w⟩, hj, he, hk⟩ := hx
    have := hh j _ hj he hk
    simp only at hk this
    subst hk this
    have hlt := dist_lt hc hj h'
    refine .inl ⟨w, upd m.slots j (some (h', k', v)), ?_, hr.replace he, mem_contents.2 ⟨j, hj, he⟩, contents_replace hj he _⟩
    unfold insertHashed
    rw [ideal_def]
    exact insertLoop_present hc hr hu hj v he (dist j h' m.cap) _ _ hi (by omega) (by omega)
  · have ha : ∀ i e, i < m.cap → m.slots i = some e → e.2.1 ≠ k := fun i e h1 h2 h3 => hx ⟨i, e, h1, h2, h3⟩
    obtain ⟨s, hs, hT⟩ := empty_ahead hne hi
    refine .inr ⟨fun e he => ?_, ?_⟩
    · obtain ⟨i, h1, h2⟩ := mem_contents.1 he; exact ha i e h1 h2
    · unfold insertHashed
      rw [ideal_def]
      exact insertLoop_absent hc _ s _ _ _ _ _ _ hr hi (.inl hd0) (fun _ => ha) hT (by omega)

end Verif.RobinHood
