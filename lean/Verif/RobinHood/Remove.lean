import Verif.RobinHood.Ops

/-! # Removal with backshift -/
namespace Verif.RobinHood

variable {K V : Type}

theorem ideal_self {cap : Nat} (hc : Pow cap) {i : Nat} (hi : i < cap) : ideal i cap = i := by
  rw [← ideal_def]
  obtain ⟨k, hk, rfl⟩ := hc
  rw [idealIndex_pow i k hk, Nat.mod_eq_of_lt hi]

/-- Slots from `i` on, up to offset `n`, moved back by one; the slot at offset `n` empty. -/
noncomputable def shifted (cap i n : Nat) (T : Slots K V) : Slots K V := fun x =>
  if dist x i cap < n then T (nxt cap x) else if dist x i cap = n then none else T x

theorem contents_congr {cap : Nat} {S T : Slots K V} (h : ∀ x, x < cap → S x = T x) : contents cap S = contents cap T :=
  filterMap_congr' fun x hx => h x (List.mem_range.1 hx)

theorem RH.congr {cap : Nat} {S T : Slots K V} (h : ∀ x, x < cap → S x = T x) (hr : RH cap S) : RH cap T := by
  intro x hx e he hd
  obtain ⟨e', h1, h2⟩ := hr x hx e (by rw [h x hx]; exact he) hd
  exact ⟨e', by rw [← h _ (prv_lt hx)]; exact h1, h2⟩

/-- The slot at offset `n` from `i`. -/
theorem exists_off {cap : Nat} (hc : Pow cap) {i : Nat} (hi : i < cap) {n : Nat} (hn : n < cap) :
    ∃ x, x < cap ∧ dist x i cap = n := by
  by_cases h : i + n < cap
  · exact ⟨i + n, h, by rw [dist_eq hc h, ideal_self hc hi, if_pos (by omega)]; omega⟩
  · exact ⟨i + n - cap, by omega, by rw [dist_eq hc (by omega), ideal_self hc hi, if_neg (by omega)]; omega⟩

theorem shifted_contents {cap : Nat} (hc : Pow cap) {i : Nat} (hi : i < cap) {T : Slots K V} {o} (ho : T i = some o) :
    ∀ n, n < cap → (o :: contents cap (shifted cap i n T)).Perm (contents cap T) := by
  have hii : dist i i cap = 0 := by have := dist_ideal hc i; rwa [ideal_self hc hi] at this
  intro n
  induction n with
  | zero =>
    intro _
    rw [contents_congr (T := upd T i none)]
    · exact contents_clear hi ho
    · intro x hx
      unfold shifted
      rw [if_neg (by omega)]
      by_cases hxi : x = i
      · subst hxi; rw [if_pos hii, upd_same]
      · rw [if_neg, upd_ne _ hxi]
        intro h; exact hxi (dist_inj hc hx hi i (by omega))
  | succ n ih =>
    intro hn
    refine List.Perm.trans ?_ (ih (by omega))
    obtain ⟨p, hp, hpd⟩ := exists_off hc hi (n := n) (by omega)
    have hqd := dist_nxt hc hp i (by omega)
    have hq := nxt_lt hp
    have hqp : nxt cap p ≠ p := by intro h; rw [h] at hqd; omega
    have h := contents_move (T := shifted cap i n T) hp hq hqp (by unfold shifted; rw [if_neg (by omega), if_pos hpd])
    refine List.Perm.cons o ((List.Perm.of_eq ?_).trans h)
    apply contents_congr
    intro x hx
    by_cases hxq : x = nxt cap p
    · subst hxq; rw [upd_same]; unfold shifted; rw [if_neg (by omega), if_pos (by omega)]
    · rw [upd_ne _ hxq]
      by_cases hxp : x = p
      · subst hxp; rw [upd_same]; unfold shifted; rw [if_pos (by omega), if_neg (by omega), if_neg (by omega)]
      · rw [upd_ne _ hxp]
        have h1 : dist x i cap ≠ n := fun h => hxp (dist_inj hc hx hp i (by omega))
        have h2 : dist x i cap ≠ n + 1 := fun h => hxq (dist_inj hc hx hq i (by omega))
        unfold shifted
        by_cases h3 : dist x i cap < n
        · rw [if_pos (by omega), if_pos h3]
        · rw [if_neg (by omega), if_neg h2, if_neg h3, if_neg h1]

/-- The slots after `i` up to offset `n` hold entries away from home. -/
def Run (cap i n : Nat) (T : Slots K V) : Prop :=
  ∀ x, x < cap → 1 ≤ dist x i cap → dist x i cap ≤ n → ∃ e, T x = some e ∧ 0 < dist x e.1 cap

theorem shifted_RH {cap : Nat} (hc : Pow cap) {i : Nat} (hi : i < cap) {T : Slots K V} (hr : RH cap T) {n : Nat} (hn : n + 1 < cap)
    (hrun : Run cap i n T)
    (hend : ∀ x, x < cap → dist x i cap = n + 1 → ∀ e, T x = some e → dist x e.1 cap = 0) : RH cap (shifted cap i n T) := by
  intro x hx e he hd
  have hii : dist i i cap = 0 := by have := dist_ideal hc i; rwa [ideal_self hc hi] at this
  unfold shifted at he
  by_cases h1 : dist x i cap < n
  · -- a shifted entry
    rw [if_pos h1] at he
    have hxd := dist_nxt hc hx i (by omega)
    obtain ⟨e1, he1, hpos1⟩ := hrun (nxt cap x) (nxt_lt hx) (by omega) (by omega)
    rw [he] at he1; cases he1
    have hpd := dist_prv hc (nxt_lt hx) e.1 hpos1
    rw [prv_nxt hx] at hpd
    obtain ⟨e2, he2, hle2⟩ := hr _ (nxt_lt hx) e he hpos1
    rw [prv_nxt hx] at he2 hle2
    -- `e2` was in slot `x`
    obtain ⟨e3, he3, hle3⟩ := hr x hx e2 he2 (by omega)
    by_cases h0 : dist x i cap = 0
    · -- x = i
      have hxi : x = i := dist_inj hc hx hi i (by omega)
      refine ⟨e3, ?_, by omega⟩
      unfold shifted
      have hpx : dist (prv cap x) i cap + 1 = cap := by
        have := dist_lt hc (prv_lt hx) i
        by_cases hh : dist (prv cap x) i cap + 1 < cap
        · have := dist_nxt hc (prv_lt hx) i hh
          rw [nxt_prv hx] at this; omega
        · omega
      rw [if_neg (by omega), if_neg (by omega), he3]
    · have hpx := dist_prv hc hx i (by omega)
      refine ⟨e2, ?_, ?_⟩
      · unfold shifted; rw [if_pos (by omega), nxt_prv hx, he2]
      · have := dist_prv hc hx e2.1 (by omega); omega
  · rw [if_neg h1] at he
    by_cases h2 : dist x i cap = n
    · rw [if_pos h2] at he; cases he
    · rw [if_neg h2] at he
      obtain ⟨e', h3, h4⟩ := hr x hx e he hd
      have hpx := dist_prv hc hx i (by omega)
      have hne : dist x i cap ≠ n + 1 := fun h => by have := hend x hx h e he; omega
      exact ⟨e', by unfold shifted; rw [if_neg (by omega), if_neg (by omega)]; exact h3, h4⟩

/-- The `ptr/move!` calls of `remove!` shift. -/
theorem backshift_eq {cap : Nat} (hc : Pow cap) {i j : Nat} (hi : i < cap) (hj : j < cap) (T : Slots K V) (x : Nat) (hx : x < cap) :
    upd (backshift cap i j T) j none x = shifted cap i (dist j i cap) T x := by
  have hs := ideal_self hc hi
  have hdx := dist_eq hc hx i
  have hdj := dist_eq hc hj i
  rw [hs] at hdx hdj
  unfold shifted nxt
  by_cases hxj : x = j
  · subst hxj; rw [upd_same, if_neg (Nat.lt_irrefl _), if_pos rfl]
  rw [upd_ne _ hxj, hdx, hdj]
  by_cases hji : j < i
  · have f1 : ∀ y, y < cap → (if i ≠ cap - 1 then move (i + 1) (cap - 1 - i) i T else T) y =
        if i ≤ y ∧ y < cap - 1 then T (y + 1) else T y := by
      intro y hy
      by_cases h1 : i ≠ cap - 1
      · rw [if_pos h1]
        unfold move
        by_cases h2 : i ≤ y ∧ y < cap - 1
        · rw [if_pos h2, if_pos (by omega)]; congr 1; omega
        · rw [if_neg h2, if_neg (by omega)]
      · rw [if_neg h1, if_neg (by omega)]
    unfold backshift
    rw [if_pos hji]
    generalize (if i ≠ cap - 1 then move (i + 1) (cap - 1 - i) i T else T) = S1 at *
    have f2 : ∀ y, y < cap → upd S1 (cap - 1) (S1 0) y = if y = cap - 1 then T 0 else if i ≤ y then T (y + 1) else T y := by
      intro y hy
      unfold upd
      by_cases h1 : y = cap - 1
      · rw [if_pos h1, if_pos h1, f1 0 (by omega), if_neg (by omega)]
      · rw [if_neg h1, if_neg h1, f1 y hy]
        by_cases h2 : i ≤ y
        · rw [if_pos h2, if_pos (by omega)]
        · rw [if_neg h2, if_neg (by omega)]
    generalize upd S1 (cap - 1) (S1 0) = S2 at *
    have f3 : (if j ≠ 0 then move 1 j 0 S2 else S2) x = if x < j then S2 (x + 1) else S2 x := by
      by_cases h1 : j ≠ 0
      · rw [if_pos h1]
        unfold move
        by_cases h2 : x < j
        · rw [if_pos h2, if_pos (by omega)]; congr 1; omega
        · rw [if_neg h2, if_neg (by omega)]
      · rw [if_neg h1, if_neg (by omega)]
    rw [f3]
    have hji' : ¬ i ≤ j := by omega
    by_cases h1 : x < j
    · rw [if_pos h1, f2 _ (by omega), if_neg (show ¬ x + 1 = cap - 1 by omega), if_neg (show ¬ i ≤ x + 1 by omega)]
      simp only [if_neg (show ¬ i ≤ x by omega), if_neg hji', if_neg (show ¬ x + 1 = cap by omega)]
      rw [if_pos (by omega)]
    · rw [if_neg h1, f2 x hx]
      by_cases h2 : i ≤ x
      · simp only [if_pos h2, if_neg hji']
        rw [if_pos (show x - i < j + cap - i by omega)]
        by_cases h3 : x = cap - 1
        · rw [if_pos h3, if_pos (by omega)]
        · rw [if_neg h3, if_neg (by omega)]
      · simp only [if_neg h2, if_neg hji']
        rw [if_neg (show ¬ x = cap - 1 by omega), if_neg (by omega), if_neg (by omega)]
  · unfold backshift
    rw [if_neg hji, if_pos (show i ≤ j by omega)]
    by_cases hij : i = j
    · rw [if_neg (by simp [hij])]
      by_cases h2 : i ≤ x
      · simp only [if_pos h2]; rw [if_neg (by omega), if_neg (by omega)]
      · simp only [if_neg h2]; rw [if_neg (by omega), if_neg (by omega)]
    · rw [if_pos hij]
      unfold move
      by_cases hin : i ≤ x ∧ x < j
      · simp only [if_pos hin.1]
        rw [if_pos (by omega), if_pos (by omega), if_neg (by omega)]; congr 1; omega
      · rw [if_neg (by omega)]
        by_cases h2 : i ≤ x
        · simp only [if_pos h2]; rw [if_neg (by omega), if_neg (by omega)]
        · simp only [if_neg h2]; rw [if_neg (by omega), if_neg (by omega)]

theorem findEnd_spec [DecidableEq K] {cap : Nat} (hc : Pow cap) {i : Nat} (hi : i < cap) {T : Slots K V} {s : Nat} (hs : s < cap)
    (hempty : ∀ x, x < cap → dist x i cap = s → T x = none) :
    ∀ (fuel j : Nat), j < cap → dist j i cap < s → s - dist j i cap ≤ fuel → Run cap i (dist j i cap) T →
      ∃ j', findEnd cap T fuel j = .ok j' ∧ j' < cap ∧ dist j' i cap < s ∧ Run cap i (dist j' i cap) T ∧
        ∀ x, x < cap → dist x i cap = dist j' i cap + 1 → ∀ e, T x = some e → dist x e.1 cap = 0 := by
  intro fuel
  induction fuel with
  | zero => intro j hj h1 h2; omega
  | succ f ih =>
    intro j hj h1 h2 hrun
    have hn := dist_nxt hc hj i (by omega)
    have huniq : ∀ x, x < cap → dist x i cap = dist j i cap + 1 → x = nxt cap j :=
      fun x hx hd => dist_inj hc hx (nxt_lt hj) i (by omega)
    rw [findEnd]
    simp only [mod_nxt hj, dist_def]
    cases hT : T (nxt cap j) with
    | none =>
      refine ⟨j, rfl, hj, h1, hrun, ?_⟩
      intro x hx hd e he
      rw [huniq x hx hd, hT] at he; cases he
    | some e0 =>
      obtain ⟨h, k, v⟩ := e0
      simp only
      by_cases hz : dist (nxt cap j) h cap = 0
      · rw [if_neg (by omega)]
        refine ⟨j, rfl, hj, h1, hrun, ?_⟩
        intro x hx hd e he
        rw [huniq x hx hd, hT] at he; cases he
        rw [huniq x hx hd]; exact hz
      · rw [if_pos hz]
        have hlt : dist (nxt cap j) i cap < s := by
          have : dist (nxt cap j) i cap ≠ s := fun hh => by
            have := hempty _ (nxt_lt hj) hh; rw [hT] at this; cases this
          omega
        refine ih _ (nxt_lt hj) hlt (by omega) ?_
        intro x hx h3 h4
        by_cases h5 : dist x i cap ≤ dist j i cap
        · exact hrun x hx h3 h5
        · rw [huniq x hx (by omega)]
          exact ⟨_, hT, by simp only; omega⟩

/-- What `remove!` does, for a table that is not full. -/
theorem removeHashed_spec [DecidableEq K] {m : Map K V} (hc : Pow m.cap) (hr : RH m.cap m.slots) (hu : Uniq m.cap m.slots)
    (hne : ∃ i, i < m.cap ∧ m.slots i = none) (h : Nat) (k : K)
    (hh : ∀ i e, i < m.cap → m.slots i = some e → e.2.1 = k → e.1 = h) :
    (∃ w T', removeHashed h k m = .ok (some w, ⟨m.len - 1, m.cap, T'⟩) ∧ RH m.cap T' ∧
      ((h, k, w) :: contents m.cap T').Perm (contents m.cap m.slots)) ∨
    ((∀ e, e ∈ contents m.cap m.slots → e.2.1 ≠ k) ∧ removeHashed h k m = .ok (none, m)) := by
  rcases lookup_spec hc hr hu hne h k hh with ⟨i, w, hi, he, hl⟩ | ⟨ha, hl⟩
  · left
    obtain ⟨x0, hx0, hT0⟩ := hne
    have hii : dist i i m.cap = 0 := by have := dist_ideal hc i; rwa [ideal_self hc hi] at this
    have hs := dist_lt hc hx0 i
    have hspos : dist x0 i m.cap ≠ 0 := by
      intro h0
      rw [dist_inj hc hx0 hi i (by omega), he] at hT0; cases hT0
    obtain ⟨j, h1, h2, h3, h4, h5⟩ := findEnd_spec hc hi (T := m.slots) hs
      (by intro x hx hd; rw [dist_inj hc hx hx0 i hd]; exact hT0) (m.cap + 1) i hi (by omega) (by omega)
      (by intro x hx h6 h7; omega)
    have heq := backshift_eq hc hi h2 m.slots
    refine ⟨w, upd (backshift m.cap i j m.slots) j none, ?_, ?_, ?_⟩
    · unfold removeHashed
      rw [hl]
      show (do let j ← findEnd m.cap m.slots (m.cap + 1) i
               Except.ok _) = _
      rw [h1, he]; rfl
    · exact (shifted_RH hc hi hr (by omega) h4 h5).congr fun x hx => (heq x hx).symm
    · rw [contents_congr heq]
      exact shifted_contents hc hi he _ (by omega)
  · right
    refine ⟨fun e he => ?_, ?_⟩
    · obtain ⟨i, h1, h2⟩ := mem_contents.1 he; exact ha i e h1 h2
    · unfold removeHashed; rw [hl]; rfl

end Verif.RobinHood
