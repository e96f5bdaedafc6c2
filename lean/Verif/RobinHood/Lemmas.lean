import Verif.RobinHood.Capacity

/-! # The Robin Hood invariant -/
namespace Verif.RobinHood

/-- Table sizes: powers of two up to 2^62. -/
def Pow (cap : Nat) : Prop := ∃ k, k ≤ 62 ∧ cap = 2 ^ k

theorem Pow.pos {cap : Nat} (h : Pow cap) : 0 < cap := by
  obtain ⟨k, -, rfl⟩ := h; exact Nat.pos_of_ne_zero (by simp)

theorem Pow.le {cap : Nat} (h : Pow cap) : cap ≤ 2 ^ 62 := by
  obtain ⟨k, hk, rfl⟩ := h; exact Nat.pow_le_pow_right (by omega) hk

theorem idealIndex_lt {cap : Nat} (hc : Pow cap) (h : Nat) : idealIndex h cap < cap := by
  have hp := hc.pos
  obtain ⟨k, hk, rfl⟩ := hc
  rw [idealIndex_pow h k hk]; exact Nat.mod_lt _ hp

theorem distance_eq {cap : Nat} (hc : Pow cap) {i : Nat} (hi : i < cap) (h : Nat) :
    distance i h cap = if idealIndex h cap ≤ i then i - idealIndex h cap else i + cap - idealIndex h cap := by
  have h1 := idealIndex_lt hc h
  have h2 := hc.le
  unfold distance
  generalize idealIndex h cap = a at *
  rw [show (i + cap + 2 ^ 64 - a) % 2 ^ 64 = i + cap - a by omega]
  split
  · rw [show i + cap - a = (i - a) + cap by omega, Nat.add_mod_right, Nat.mod_eq_of_lt (by omega)]
  · rw [Nat.mod_eq_of_lt (by omega)]

/-- `idealIndex` and `distance`, sealed: the kernel must not unfold them (they contain 2^64). -/
noncomputable def ideal : Nat → Nat → Nat := Classical.choose (⟨idealIndex, rfl⟩ : ∃ f, f = idealIndex)
noncomputable def dist : Nat → Nat → Nat → Nat := Classical.choose (⟨distance, rfl⟩ : ∃ f, f = distance)
theorem ideal_def : idealIndex = ideal := (Classical.choose_spec (⟨idealIndex, rfl⟩ : ∃ f, f = idealIndex)).symm
theorem dist_def : distance = dist := (Classical.choose_spec (⟨distance, rfl⟩ : ∃ f, f = distance)).symm

theorem ideal_lt {cap : Nat} (hc : Pow cap) (h : Nat) : ideal h cap < cap := ideal_def ▸ idealIndex_lt hc h

theorem dist_eq {cap : Nat} (hc : Pow cap) {i : Nat} (hi : i < cap) (h : Nat) :
    dist i h cap = if ideal h cap ≤ i then i - ideal h cap else i + cap - ideal h cap := by
  rw [← dist_def, ← ideal_def, distance_eq hc hi]

theorem dist_lt {cap : Nat} (hc : Pow cap) {i : Nat} (hi : i < cap) (h : Nat) : dist i h cap < cap := by
  rw [dist_eq hc hi]; have := ideal_lt hc h; split <;> omega

theorem dist_ideal {cap : Nat} (hc : Pow cap) (h : Nat) : dist (ideal h cap) h cap = 0 := by
  rw [dist_eq hc (ideal_lt hc h), if_pos (Nat.le_refl _), Nat.sub_self]

/-- The slot after / before `i`. -/
def nxt (cap i : Nat) : Nat := if i + 1 = cap then 0 else i + 1
def prv (cap i : Nat) : Nat := if i = 0 then cap - 1 else i - 1

theorem mod_nxt {cap i : Nat} (hi : i < cap) : (i + 1) % cap = nxt cap i := by
  unfold nxt; split
  · next h => rw [h, Nat.mod_self]
  · rw [Nat.mod_eq_of_lt (by omega)]

theorem nxt_lt {cap i : Nat} (hi : i < cap) : nxt cap i < cap := by unfold nxt; split <;> omega
theorem prv_lt {cap i : Nat} (hi : i < cap) : prv cap i < cap := by unfold prv; split <;> omega
theorem prv_nxt {cap i : Nat} (hi : i < cap) : prv cap (nxt cap i) = i := by
  unfold prv nxt; split <;> split <;> omega
theorem nxt_prv {cap i : Nat} (hi : i < cap) : nxt cap (prv cap i) = i := by
  unfold prv nxt; split <;> split <;> omega

theorem dist_nxt {cap : Nat} (hc : Pow cap) {i : Nat} (hi : i < cap) (h : Nat) (hd : dist i h cap + 1 < cap) :
    dist (nxt cap i) h cap = dist i h cap + 1 := by
  rw [dist_eq hc hi] at hd
  rw [dist_eq hc hi, dist_eq hc (nxt_lt hi)]
  have := ideal_lt hc h
  unfold nxt
  split at hd <;> (try split) <;> (try split) <;> (try split) <;> omega

theorem dist_nxt_wrap {cap : Nat} (hc : Pow cap) {i : Nat} (hi : i < cap) (h : Nat) (hd : dist i h cap + 1 = cap) :
    dist (nxt cap i) h cap = 0 := by
  rw [dist_eq hc hi] at hd
  rw [dist_eq hc (nxt_lt hi)]
  have := ideal_lt hc h
  unfold nxt
  split at hd <;> (try split) <;> (try split) <;> (try split) <;> omega

theorem dist_prv {cap : Nat} (hc : Pow cap) {i : Nat} (hi : i < cap) (h : Nat) (hd : 0 < dist i h cap) :
    dist (prv cap i) h cap + 1 = dist i h cap := by
  rw [dist_eq hc hi] at hd
  rw [dist_eq hc hi, dist_eq hc (prv_lt hi)]
  have := ideal_lt hc h
  unfold prv
  split at hd <;> (try split) <;> (try split) <;> (try split) <;> omega

theorem dist_inj {cap : Nat} (hc : Pow cap) {i j : Nat} (hi : i < cap) (hj : j < cap) (h : Nat)
    (e : dist i h cap = dist j h cap) : i = j := by
  rw [dist_eq hc hi, dist_eq hc hj] at e
  have := ideal_lt hc h
  split at e <;> split at e <;> omega

variable {K V : Type}

/-- The Robin Hood invariant: an entry away from its ideal slot follows an entry that is at most one less away. -/
def RH (cap : Nat) (T : Slots K V) : Prop :=
  ∀ i, i < cap → ∀ e, T i = some e → 0 < dist i e.1 cap →
    ∃ e', T (prv cap i) = some e' ∧ dist i e.1 cap ≤ dist (prv cap i) e'.1 cap + 1

/-- All slots between the ideal slot of an entry and the entry are taken, by entries at least as far from home. -/
theorem RH.chain {cap : Nat} {T : Slots K V} (hc : Pow cap) (hr : RH cap T) {j : Nat} (hj : j < cap) {e : Nat × K × V}
    (he : T j = some e) : ∀ (n i : Nat), i < cap → dist i e.1 cap + n = dist j e.1 cap →
      ∃ e', T i = some e' ∧ dist i e.1 cap ≤ dist i e'.1 cap := by
  intro n
  induction n with
  | zero =>
    intro i hi hd
    rw [dist_inj hc hi hj e.1 (by omega)]
    exact ⟨e, he, Nat.le_refl _⟩
  | succ n ih =>
    intro i hi hd
    have hlt := dist_lt hc hj e.1
    have hn := dist_nxt hc hi e.1 (by omega)
    obtain ⟨e', h1, h2⟩ := ih (nxt cap i) (nxt_lt hi) (by omega)
    obtain ⟨e'', h3, h4⟩ := hr _ (nxt_lt hi) e' h1 (by omega)
    rw [prv_nxt hi] at h3 h4
    exact ⟨e'', h3, by omega⟩

/-! ### Contents of a table -/

def contents (cap : Nat) (T : Slots K V) : List (Nat × K × V) := (List.range cap).filterMap T

theorem upd_same {α} (f : Nat → α) (i : Nat) (a : α) : upd f i a i = a := by simp [upd]
theorem upd_ne {α} (f : Nat → α) {i j : Nat} (h : j ≠ i) (a : α) : upd f i a j = f j := by simp [upd, h]

theorem mem_contents {cap : Nat} {T : Slots K V} {e} : e ∈ contents cap T ↔ ∃ i, i < cap ∧ T i = some e := by
  simp [contents, List.mem_filterMap]

theorem filterMap_congr' {α β} {f g : α → Option β} : ∀ {l : List α}, (∀ x ∈ l, f x = g x) → l.filterMap f = l.filterMap g
  | [], _ => rfl
  | x :: l, h => by
    rw [List.filterMap_cons, List.filterMap_cons, h x (by simp), filterMap_congr' (fun y hy => h y (by simp [hy]))]

/-- Taking a slot out of a table: what is left does not depend on the slot. -/
theorem contents_split {cap : Nat} {i : Nat} (hi : i < cap) :
    ∃ l r : List Nat, i ∉ l ∧ i ∉ r ∧ List.range cap = l ++ i :: r := by
  obtain ⟨l, r, e⟩ := List.append_of_mem (List.mem_range.2 hi)
  have := List.nodup_range (n := cap)
  rw [e, List.nodup_append, List.nodup_cons] at this
  exact ⟨l, r, fun h => this.2.2 i h i (by simp) rfl, this.2.1.1, e⟩

theorem contents_upd {cap : Nat} (T : Slots K V) {i : Nat} (hi : i < cap) :
    ∃ rest, ∀ s, (contents cap (upd T i s)).Perm (s.toList ++ rest) := by
  obtain ⟨l, r, hl, hr, e⟩ := contents_split hi
  refine ⟨l.filterMap T ++ r.filterMap T, fun s => ?_⟩
  have h1 : l.filterMap (upd T i s) = l.filterMap T :=
    filterMap_congr' fun x hx => upd_ne _ (show x ≠ i from fun h => hl (h ▸ hx)) _
  have h2 : r.filterMap (upd T i s) = r.filterMap T :=
    filterMap_congr' fun x hx => upd_ne _ (show x ≠ i from fun h => hr (h ▸ hx)) _
  unfold contents
  rw [e, List.filterMap_append, List.filterMap_cons, h1, h2, upd_same]
  cases s with
  | none => simp
  | some a => simp

theorem upd_self {α} (f : Nat → α) (i : Nat) : upd f i (f i) = f := by
  funext j; unfold upd; split
  · next h => rw [h]
  · rfl

theorem upd_upd {α} (f : Nat → α) (i : Nat) (a b : α) : upd (upd f i a) i b = upd f i b := by
  funext j; unfold upd; split <;> rfl

/-- Storing into an empty slot. -/
theorem contents_store {cap : Nat} {T : Slots K V} {i : Nat} (hi : i < cap) (h : T i = none) (e) :
    (contents cap (upd T i (some e))).Perm (e :: contents cap T) := by
  obtain ⟨rest, hr⟩ := contents_upd T hi
  have h0 := hr none
  rw [← h, upd_self] at h0
  have h1 := hr (some e)
  rw [h] at h0
  exact h1.trans (List.Perm.cons e h0.symm)

/-- Replacing an entry. -/
theorem contents_replace {cap : Nat} {T : Slots K V} {i : Nat} (hi : i < cap) {o} (h : T i = some o) (e) :
    (o :: contents cap (upd T i (some e))).Perm (e :: contents cap T) := by
  obtain ⟨rest, hr⟩ := contents_upd T hi
  have h0 := hr (T i)
  rw [upd_self, h] at h0
  exact ((hr (some e)).cons o).trans ((List.Perm.swap e o rest).trans (h0.symm.cons e))

/-- Clearing a slot. -/
theorem contents_clear {cap : Nat} {T : Slots K V} {i : Nat} (hi : i < cap) {o} (h : T i = some o) :
    (o :: contents cap (upd T i none)).Perm (contents cap T) := by
  obtain ⟨rest, hr⟩ := contents_upd T hi
  have h0 := hr (T i)
  rw [upd_self, h] at h0
  exact ((hr none).cons o).trans h0.symm

/-- Moving an entry to an empty slot. -/
theorem contents_move {cap : Nat} {T : Slots K V} {p q : Nat} (hp : p < cap) (hq : q < cap) (hpq : q ≠ p) (h : T p = none) :
    (contents cap (upd (upd T p (T q)) q none)).Perm (contents cap T) := by
  cases hT : T q with
  | none =>
    have : upd (upd T p none) q none = T := by
      rw [← h, upd_self, h, ← hT, upd_self]
    rw [this]
  | some o =>
    have h1 := contents_clear (T := upd T p (some o)) hq (o := o) (by rw [upd_ne _ hpq, hT])
    exact List.Perm.cons_inv (h1.trans (contents_store hp h o))

/-- Keys occur once. -/
def Uniq (cap : Nat) (T : Slots K V) : Prop := ((contents cap T).map fun e => e.2.1).Nodup

theorem Uniq.inj {cap : Nat} {T : Slots K V} (hu : Uniq cap T) {i j : Nat} (hi : i < cap) (hj : j < cap) {e e'}
    (h1 : T i = some e) (h2 : T j = some e') (hk : e.2.1 = e'.2.1) : i = j := by
  have key : ∀ {i j : Nat} {e e'}, i < j → j < cap → T i = some e → T j = some e' → e.2.1 = e'.2.1 → False := by
    intro i j e e' hij hj h1 h2 hk
    unfold Uniq contents List.Nodup at hu
    rw [List.pairwise_map, List.pairwise_filterMap, List.pairwise_iff_getElem] at hu
    have := hu i j (by simp; omega) (by simp; omega) hij
    simp only [List.getElem_range] at this
    exact this e h1 e' h2 hk
  rcases Nat.lt_trichotomy i j with h | h | h
  · exact (key h hj h1 h2 hk).elim
  · exact h
  · exact (key h hi h2 h1 hk.symm).elim

/-- A table that is not full has an empty slot. -/
theorem exists_empty {cap : Nat} {T : Slots K V} (h : (contents cap T).length < cap) : ∃ i, i < cap ∧ T i = none := by
  apply Classical.byContradiction
  intro hn
  have hall : ∀ i, i ∈ List.range cap → (T i).isSome := by
    intro i hi
    cases hT : T i with
    | none => exact (hn ⟨i, List.mem_range.1 hi, hT⟩).elim
    | some _ => rfl
  have : ∀ l : List Nat, (∀ i, i ∈ l → (T i).isSome) → (l.filterMap T).length = l.length := by
    intro l
    induction l with
    | nil => simp
    | cons x l ih =>
      intro hl
      have := hl x (by simp)
      rw [Option.isSome_iff_exists] at this
      obtain ⟨a, ha⟩ := this
      rw [List.filterMap_cons, ha]
      simp [ih fun i hi => hl i (by simp [hi])]
  have := this _ hall
  simp only [List.length_range] at this
  unfold contents at h
  omega

end Verif.RobinHood
