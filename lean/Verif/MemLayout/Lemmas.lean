import Verif.MemLayout.Spec

namespace Verif.MemLayout
open Layout Spec

theorem padTo_zero (n : Nat) : padTo n 0 = n := by simp [padTo]

theorem le_padTo (n a : Nat) : n ≤ padTo n a := by unfold padTo; split <;> omega

theorem dvd_padTo (n : Nat) {a : Nat} (h : a ≠ 0) : a ∣ padTo n a := by
  unfold padTo
  rw [if_pos h]
  have hp : 0 < a := Nat.pos_of_ne_zero h
  have hlt := Nat.mod_lt n hp
  have hd := Nat.div_add_mod n a
  by_cases h0 : n % a = 0
  · rw [h0, Nat.sub_zero, Nat.mod_self, Nat.add_zero]; exact Nat.dvd_of_mod_eq_zero h0
  · rw [Nat.mod_eq_of_lt (show a - n % a < a by omega)]
    refine ⟨n / a + 1, ?_⟩
    rw [Nat.mul_add, Nat.mul_one]; omega

theorem padTo_lt (n : Nat) {a : Nat} (h : a ≠ 0) : padTo n a < n + a := by
  unfold padTo
  rw [if_pos h]
  have := Nat.mod_lt (a - n % a) (Nat.pos_of_ne_zero h)
  omega

theorem padTo_eq_self {n a : Nat} (h : a ∣ n) : padTo n a = n := by
  unfold padTo
  split
  · rw [Nat.mod_eq_zero_of_dvd h, Nat.sub_zero, Nat.mod_self, Nat.add_zero]
  · rfl

theorem Alignment.max {a b : Nat} (ha : Alignment a) (hb : Alignment b) : Alignment (max a b) := by
  rcases Nat.le_total a b with h | h
  · rw [Nat.max_eq_right h]; exact hb
  · rw [Nat.max_eq_left h]; exact ha

theorem Alignment.dvd {a b : Nat} (ha : Alignment a) (hb : Alignment b) (h : a ≤ b) : a = 0 ∨ a ∣ b := by
  rcases ha with rfl | ⟨k, rfl⟩
  · exact .inl rfl
  · rcases hb with rfl | ⟨m, rfl⟩
    · exact .inr (Nat.dvd_zero _)
    · exact .inr (Nat.pow_dvd_pow 2 ((Nat.pow_le_pow_iff_right (by omega)).1 h))

/-! ### `new` -/

theorem new_size (s a c) : (new s a c).size = padTo s a := rfl
theorem new_align (s a c) : (new s a c).align = a := rfl
theorem new_composite (s a c) : (new s a c).composite = none := rfl
theorem new_cls (s a c) : (new s a c).cls = if padTo s a = 0 then .void else if padTo s a > 16 then .memory else c := rfl

theorem wf_new {s a : Nat} {c : Class} (ha : Alignment a) (h0 : a = 0 → s = 0) (hc : c = .void → padTo s a = 0 ∨ 16 < padTo s a) : Wf (new s a c) := by
  refine .mk ha ?_ ?_ ?_ ?_ ?_ ?_
  · intro h; rw [new_align] at h; rw [new_size, h, padTo_zero]; exact h0 h
  · rw [new_align, new_size]
    by_cases h : a = 0
    · rw [h, padTo_zero, h0 h]; exact Nat.dvd_zero 0
    · exact dvd_padTo s h
  · rw [new_cls, new_size]
    split
    · simp_all
    · split
      · simp_all
      · constructor
        · intro h; have := hc h; omega
        · intro h; omega
  · intro h; rw [new_size] at h; rw [new_cls, if_neg (by omega), if_pos h]
  · intro es cs h; rw [new_composite] at h; cases h
  · intro es cs h; rw [new_composite] at h; cases h

/-! ### `iter_with_offset` -/

theorem iter_snd (ls : List Layout) : ∀ o, (iterWithOffset o ls).map Prod.snd = ls := by
  induction ls with
  | nil => intro o; rfl
  | cons l ls ih => intro o; simp [iterWithOffset, ih]

theorem iter_ge (ls : List Layout) : ∀ o, ∀ e ∈ iterWithOffset o ls, o ≤ e.1 := by
  induction ls with
  | nil => intro o e he; simp [iterWithOffset] at he
  | cons l ls ih =>
    intro o e he
    have := le_padTo o l.align
    simp only [iterWithOffset, List.mem_cons] at he
    rcases he with rfl | he
    · exact this
    · have := ih _ e he; omega

theorem iter_aligned (ls : List Layout) : ∀ o, ∀ e ∈ iterWithOffset o ls, e.2.align = 0 ∨ e.2.align ∣ e.1 := by
  induction ls with
  | nil => intro o e he; simp [iterWithOffset] at he
  | cons l ls ih =>
    intro o e he
    simp only [iterWithOffset, List.mem_cons] at he
    rcases he with rfl | he
    · by_cases h : l.align = 0
      · exact .inl h
      · exact .inr (dvd_padTo o h)
    · exact ih _ e he

theorem iter_disjoint (ls : List Layout) : ∀ o, (iterWithOffset o ls).Pairwise fun a b => a.1 + a.2.size ≤ b.1 := by
  induction ls with
  | nil => intro o; exact .nil
  | cons l ls ih =>
    intro o
    simp only [iterWithOffset, List.pairwise_cons]
    exact ⟨fun e he => iter_ge ls _ e he, ih _⟩

/-! ### `product` -/

theorem productStep_foldl (L : List (Nat × Layout)) : ∀ a : Acc, L.foldl productStep a =
    ⟨L.foldl (fun x e => max e.2.align x) a.align, L.foldl (fun x e => e.2.cls.merge x) a.cls,
      L.foldl (fun _ e => e.1 + e.2.size) a.size, a.elems ++ L, a.components ++ L.flatMap fun e => componentsOf e.1 e.2⟩ := by
  induction L with
  | nil => intro a; simp
  | cons e L ih =>
    intro a
    rw [List.foldl_cons, ih]
    simp [productStep]

theorem rawEnd_mem (L : List (Nat × Layout)) : ∀ x, L.foldl (fun _ e => e.1 + e.2.size) x = x ∨ ∃ e ∈ L, L.foldl (fun _ e => e.1 + e.2.size) x = e.1 + e.2.size := by
  induction L with
  | nil => intro x; exact .inl rfl
  | cons e L ih =>
    intro x
    rw [List.foldl_cons]
    rcases ih (e.1 + e.2.size) with h | ⟨e', he', h⟩
    · exact .inr ⟨e, by simp, h⟩
    · exact .inr ⟨e', by simp [he'], h⟩

/-- End of the last element. -/
def rawEnd (L : List (Nat × Layout)) : Nat := L.foldl (fun _ e => e.1 + e.2.size) 0

/-- The product of elements already placed. -/
def productOf (L : List (Nat × Layout)) (A : Nat) : Layout :=
  mk (padTo (rawEnd L) A) A
    (if padTo (rawEnd L) A = 0 then .void else if padTo (rawEnd L) A > 16 then .memory else L.foldl (fun x e => e.2.cls.merge x) .void)
    (some (L, L.flatMap fun e => componentsOf e.1 e.2))

theorem product_eq (ls : List Layout) :
    product ls = productOf (iterWithOffset 0 ls) ((iterWithOffset 0 ls).foldl (fun x e => max e.2.align x) 0) := by
  unfold product productOf rawEnd
  rw [productStep_foldl]
  rfl

theorem padTo_zero_left (a : Nat) : padTo 0 a = 0 := padTo_eq_self (Nat.dvd_zero a)

theorem iter_zero (ls : List Layout) (h : ∀ l ∈ ls, l.size = 0) : ∀ e ∈ iterWithOffset 0 ls, e.1 = 0 := by
  induction ls with
  | nil => intro e he; simp [iterWithOffset] at he
  | cons l ls ih =>
    intro e he
    simp only [iterWithOffset, List.mem_cons, padTo_zero_left, h l (by simp), Nat.add_zero] at he
    rcases he with rfl | he
    · rfl
    · exact ih (fun l hl => h l (by simp [hl])) e he

theorem rawEnd_zero (ls : List Layout) (h : ∀ e ∈ iterWithOffset 0 ls, e.2.size = 0) : rawEnd (iterWithOffset 0 ls) = 0 := by
  have hz : ∀ l ∈ ls, l.size = 0 := by
    intro l hl
    rw [← iter_snd ls 0] at hl
    obtain ⟨e, he, rfl⟩ := List.mem_map.1 hl
    exact h e he
  have := iter_zero ls hz
  unfold rawEnd
  rcases rawEnd_mem (iterWithOffset 0 ls) 0 with h' | ⟨e, he, h'⟩
  · exact h'
  · rw [h', h e he, this e he]

theorem foldl_max_ge {α} (f : α → Nat) (L : List α) : ∀ x, x ≤ L.foldl (fun x e => max (f e) x) x ∧ ∀ e ∈ L, f e ≤ L.foldl (fun x e => max (f e) x) x := by
  induction L with
  | nil => intro x; simp
  | cons e L ih =>
    intro x
    obtain ⟨h1, h2⟩ := ih (max (f e) x)
    simp only [List.foldl_cons]
    refine ⟨by omega, fun e' he' => ?_⟩
    rcases List.mem_cons.1 he' with rfl | h
    · omega
    · exact h2 e' h

theorem foldl_max_le {α} (f : α → Nat) (L : List α) {b : Nat} (hL : ∀ e ∈ L, f e ≤ b) : ∀ {x}, x ≤ b → L.foldl (fun x e => max (f e) x) x ≤ b := by
  induction L with
  | nil => intro x h; exact h
  | cons e L ih =>
    intro x h
    have := hL e (by simp)
    exact ih (fun e he => hL e (by simp [he])) (Nat.max_le.2 ⟨this, h⟩)

theorem foldl_max_mem {α} (f : α → Nat) (L : List α) : ∀ x, L.foldl (fun x e => max (f e) x) x = x ∨ ∃ e ∈ L, L.foldl (fun x e => max (f e) x) x = f e := by
  induction L with
  | nil => intro x; exact .inl rfl
  | cons e L ih =>
    intro x
    rw [List.foldl_cons]
    rcases ih (max (f e) x) with h | ⟨e', he', h⟩
    · rw [h]
      rcases Nat.le_total (f e) x with h' | h'
      · exact .inl (Nat.max_eq_right h')
      · exact .inr ⟨e, by simp, Nat.max_eq_left h'⟩
    · exact .inr ⟨e', by simp [he'], h⟩

theorem foldl_max_alignment {α} (f : α → Nat) (L : List α) (h : ∀ e ∈ L, Alignment (f e)) : ∀ x, Alignment x → Alignment (L.foldl (fun x e => max (f e) x) x) := by
  induction L with
  | nil => intro x hx; exact hx
  | cons e L ih => intro x hx; exact ih (fun e he => h e (by simp [he])) _ (Alignment.max (h e (by simp)) hx)

theorem rawEnd_ge (L : List (Nat × Layout)) (h : L.Pairwise fun a b => a.1 + a.2.size ≤ b.1) : ∀ x, (∀ e ∈ L, x ≤ e.1) →
    x ≤ L.foldl (fun _ e => e.1 + e.2.size) x ∧ ∀ e ∈ L, e.1 + e.2.size ≤ L.foldl (fun _ e => e.1 + e.2.size) x := by
  induction L with
  | nil => intro x _; simp
  | cons e L ih =>
    intro x hx
    rw [List.pairwise_cons] at h
    obtain ⟨h1, h2⟩ := ih h.2 (e.1 + e.2.size) h.1
    have := hx e (by simp)
    simp only [List.foldl_cons]
    refine ⟨by omega, fun e' he' => ?_⟩
    rcases List.mem_cons.1 he' with rfl | h
    · exact h1
    · exact h2 e' h

theorem Wf.parts {l : Layout} (h : Wf l) : Alignment l.align ∧ (l.align = 0 → l.size = 0) ∧ (l.align ∣ l.size) ∧
    (l.cls = .void ↔ l.size = 0) ∧ (16 < l.size → l.cls = .memory) ∧
    (∀ es cs, l.composite = some (es, cs) →
        Placed l.size l.align es ∧ Placed l.size l.align cs ∧ (∀ e ∈ es, Wf e.2) ∧ (∀ o c, (o, c) ∈ cs ↔ Leaf l o c)) := by
  cases h with
  | mk a b c d e f g => exact ⟨a, b, c, d, e, fun es cs h => ⟨(f es cs h).1, (f es cs h).2.1, g es cs h, (f es cs h).2.2⟩⟩

/-- The leaves of a well-formed layout, and what is inside. -/
theorem componentsOf_leaf {l : Layout} (h : Wf l) (o p : Nat) (c : Layout) : (p, c) ∈ componentsOf o l ↔ ∃ q, p = o + q ∧ Leaf l q c := by
  obtain ⟨-, -, -, -, -, hc⟩ := Wf.parts h
  unfold componentsOf
  cases hl : l.composite with
  | none =>
    simp only [List.mem_singleton, Prod.mk.injEq]
    constructor
    · rintro ⟨rfl, rfl⟩; exact ⟨0, by omega, .self hl⟩
    · rintro ⟨q, rfl, hq⟩
      cases hq with
      | self _ => exact ⟨by omega, rfl⟩
      | elem h _ _ => rw [hl] at h; cases h
  | some ec =>
    obtain ⟨-, -, -, hleaf⟩ := hc ec.1 ec.2 hl
    simp only [List.mem_map, Prod.mk.injEq]
    constructor
    · rintro ⟨⟨q, c'⟩, hm, rfl, rfl⟩; exact ⟨q, rfl, (hleaf q c').1 hm⟩
    · rintro ⟨q, rfl, hq⟩; exact ⟨(q, c), (hleaf q c).2 hq, rfl, rfl⟩

theorem componentsOf_placed {l : Layout} (h : Wf l) (o : Nat) (ho : l.align = 0 ∨ l.align ∣ o) :
    (∀ e ∈ componentsOf o l, e.2.align = 0 ∨ (e.2.align ∣ e.1 ∧ e.2.align ∣ l.align ∧ l.align ≠ 0)) ∧
    (∀ e ∈ componentsOf o l, o ≤ e.1 ∧ e.1 + e.2.size ≤ o + l.size) ∧
    (componentsOf o l).Pairwise (fun a b => a.1 + a.2.size ≤ b.1) := by
  obtain ⟨-, h0, -, -, -, hc⟩ := Wf.parts h
  unfold componentsOf
  cases hl : l.composite with
  | none =>
    simp only [List.mem_singleton]
    refine ⟨?_, ?_, by simp⟩
    · rintro e rfl
      by_cases hz : l.align = 0
      · exact .inl hz
      · exact .inr ⟨ho.resolve_left hz, Nat.dvd_refl _, hz⟩
    · rintro e rfl; exact ⟨Nat.le_refl _, Nat.le_refl _⟩
  | some ec =>
    obtain ⟨-, hp, -, -⟩ := hc ec.1 ec.2 hl
    refine ⟨?_, ?_, ?_⟩
    · intro e he
      obtain ⟨⟨p, c⟩, hm, rfl⟩ := List.mem_map.1 he
      rcases hp.aligned _ hm with h | ⟨h1, h2, h3⟩
      · exact .inl h
      · rcases ho with h | h
        · exact absurd h h3
        · exact .inr ⟨Nat.dvd_add (Nat.dvd_trans h2 h) h1, h2, h3⟩
    · intro e he
      obtain ⟨⟨p, c⟩, hm, rfl⟩ := List.mem_map.1 he
      have := hp.inside _ hm
      simp only at this ⊢
      omega
    · rw [List.pairwise_map]
      exact hp.disjoint.imp fun h => by simp only; omega

theorem pairwise_flatMap_iter {f : Nat × Layout → List (Nat × Layout)} (L : List (Nat × Layout)) (h : L.Pairwise fun a b => a.1 + a.2.size ≤ b.1)
    (hf : ∀ e ∈ L, (∀ c ∈ f e, e.1 ≤ c.1 ∧ c.1 + c.2.size ≤ e.1 + e.2.size) ∧ (f e).Pairwise fun a b => a.1 + a.2.size ≤ b.1) :
    (L.flatMap f).Pairwise fun a b => a.1 + a.2.size ≤ b.1 := by
  induction L with
  | nil => exact .nil
  | cons e L ih =>
    rw [List.pairwise_cons] at h
    rw [List.flatMap_cons, List.pairwise_append]
    refine ⟨(hf e (by simp)).2, ih h.2 fun e he => hf e (by simp [he]), fun a ha b hb => ?_⟩
    obtain ⟨e', he', hb⟩ := List.mem_flatMap.1 hb
    have h1 := (hf e (by simp)).1 a ha
    have h2 := (hf e' (by simp [he'])).1 b hb
    have h3 := h.1 e' he'
    omega

theorem merge_void {a b : Class} : a.merge b = .void ↔ a = .void ∧ b = .void := by cases a <;> cases b <;> simp [Class.merge]

theorem foldl_merge_void {α} (f : α → Class) (L : List α) : ∀ x, L.foldl (fun x e => (f e).merge x) x = .void ↔ x = .void ∧ ∀ e ∈ L, f e = .void := by
  induction L with
  | nil => intro x; simp
  | cons e L ih =>
    intro x
    rw [List.foldl_cons, ih, merge_void]
    simp only [List.mem_cons, forall_eq_or_imp]
    constructor
    · rintro ⟨⟨a, b⟩, c⟩; exact ⟨b, a, c⟩
    · rintro ⟨b, a, c⟩; exact ⟨⟨a, b⟩, c⟩

theorem wf_product {ls : List Layout} (h : ∀ l ∈ ls, Wf l) : Wf (product ls) := by
  have hcomp := product_eq ls
  have hmem : ∀ e ∈ iterWithOffset 0 ls, Wf e.2 := fun e he => h e.2 (by
    have := List.mem_map_of_mem (f := Prod.snd) he
    rwa [iter_snd] at this)
  have hal := iter_aligned ls 0
  have hdis := iter_disjoint ls 0
  have hz := rawEnd_zero ls
  generalize iterWithOffset 0 ls = L at hcomp hmem hal hdis hz
  have hends := rawEnd_ge L hdis 0 (fun _ _ => Nat.zero_le _)
  have hmax := foldl_max_ge (fun e : Nat × Layout => e.2.align) L 0
  have hA : Alignment (L.foldl (fun x e => max e.2.align x) 0) :=
    foldl_max_alignment _ L (fun e he => (Wf.parts (hmem e he)).1) 0 (.inl rfl)
  generalize hAe : L.foldl (fun x e => max e.2.align x) 0 = A at hcomp hmax hA
  have hA0 : A = 0 → rawEnd L = 0 := fun h0 =>
    hz fun e he => (Wf.parts (hmem e he)).2.1 (by have := hmax.2 e he; omega)
  rw [hcomp]
  have hle := le_padTo (rawEnd L) A
  refine .mk hA ?_ ?_ ?_ ?_ ?_ ?_
  · intro h0
    show padTo (rawEnd L) A = 0
    have h0 : A = 0 := h0
    rw [hA0 h0, h0, padTo_zero]
  · show A ∣ padTo (rawEnd L) A
    by_cases h0 : A = 0
    · rw [hA0 h0, h0, padTo_zero]; exact Nat.dvd_zero 0
    · exact dvd_padTo _ h0
  · show ((if padTo (rawEnd L) A = 0 then Class.void else if padTo (rawEnd L) A > 16 then .memory else L.foldl (fun x e => e.2.cls.merge x) .void) : Class) = .void ↔ padTo (rawEnd L) A = 0
    split
    · simp_all
    · split
      · simp_all
      · rename_i h1 h2
        rw [foldl_merge_void (fun e : Nat × Layout => e.2.cls)]
        refine ⟨fun hv => ?_, fun h => absurd h h1⟩
        have := hz fun e he => (Wf.parts (hmem e he)).2.2.2.1.1 (hv.2 e he)
        rw [this, padTo_zero_left]
  · intro h16
    have h16 : 16 < padTo (rawEnd L) A := h16
    show ((if padTo (rawEnd L) A = 0 then Class.void else if padTo (rawEnd L) A > 16 then .memory else L.foldl (fun x e => e.2.cls.merge x) .void) : Class) = .memory
    rw [if_neg (by omega), if_pos h16]
  · intro es cs hc
    have hc : some (L, L.flatMap fun e => componentsOf e.1 e.2) = some (es, cs) := hc
    cases hc
    refine ⟨⟨?_, ?_, hdis⟩, ⟨?_, ?_, ?_⟩, ?_⟩
    · intro e he
      by_cases hz : e.2.align = 0
      · exact .inl hz
      · have hle := hmax.2 e he
        exact .inr ⟨(hal e he).resolve_left hz, (Alignment.dvd (Wf.parts (hmem e he)).1 hA hle).resolve_left hz, by show A ≠ 0; omega⟩
    · intro e he
      have := hends.2 e he
      show e.1 + e.2.size ≤ padTo (rawEnd L) A
      unfold rawEnd at hle ⊢
      omega
    · intro c hc
      obtain ⟨e, he, hc⟩ := List.mem_flatMap.1 hc
      have hle := hmax.2 e he
      rcases (componentsOf_placed (hmem e he) e.1 (hal e he)).1 c hc with h | ⟨h1, h2, h3⟩
      · exact .inl h
      · exact .inr ⟨h1, Nat.dvd_trans h2 ((Alignment.dvd (Wf.parts (hmem e he)).1 hA hle).resolve_left h3), by show A ≠ 0; omega⟩
    · intro c hc
      obtain ⟨e, he, hc⟩ := List.mem_flatMap.1 hc
      have := hends.2 e he
      have := (componentsOf_placed (hmem e he) e.1 (hal e he)).2.1 c hc
      show c.1 + c.2.size ≤ padTo (rawEnd L) A
      unfold rawEnd at hle ⊢
      omega
    · exact pairwise_flatMap_iter L hdis fun e he => (componentsOf_placed (hmem e he) e.1 (hal e he)).2
    · intro o c
      constructor
      · intro hm
        obtain ⟨e, he, hm⟩ := List.mem_flatMap.1 hm
        obtain ⟨q, rfl, hq⟩ := (componentsOf_leaf (hmem e he) _ _ _).1 hm
        exact .elem rfl he hq
      · intro hm
        cases hm with
        | self hn => cases hn
        | elem hs he hq =>
          cases hs
          exact List.mem_flatMap.2 ⟨_, he, (componentsOf_leaf (hmem _ he) _ _ _).2 ⟨_, rfl, hq⟩⟩
  · intro es cs hc
    have hc : some (L, L.flatMap fun e => componentsOf e.1 e.2) = some (es, cs) := hc
    cases hc
    exact hmem

/-! ### `sum` -/

theorem sum_foldl (ls : List Layout) : ∀ a : Nat × Class × Nat,
    ls.foldl (fun (a : Nat × Class × Nat) l => (max l.align a.1, l.cls.merge a.2.1, max l.size a.2.2)) a =
    (ls.foldl (fun x l => max l.align x) a.1, ls.foldl (fun x l => l.cls.merge x) a.2.1, ls.foldl (fun x l => max l.size x) a.2.2) := by
  induction ls with
  | nil => intro a; rfl
  | cons l ls ih => intro a; rw [List.foldl_cons, ih]; rfl

theorem sum_eq (ls : List Layout) : sum ls =
    new (ls.foldl (fun x l => max l.size x) 0) (ls.foldl (fun x l => max l.align x) 0) (ls.foldl (fun x l => l.cls.merge x) .integer) := by
  unfold sum; rw [sum_foldl]

theorem wf_sum {ls : List Layout} (h : ∀ l ∈ ls, Wf l) : Wf (sum ls) := by
  rw [sum_eq]
  have hmax := foldl_max_ge (fun l : Layout => l.align) ls 0
  refine wf_new ?_ ?_ ?_
  · exact foldl_max_alignment (fun l : Layout => l.align) ls (fun l hl => (Wf.parts (h l hl)).1) 0 (.inl rfl)
  · intro h0
    have hz : ∀ l ∈ ls, l.size ≤ 0 := fun l hl => by
      have := hmax.2 l hl
      rw [h0] at this
      have := (Wf.parts (h l hl)).2.1 (by omega)
      omega
    have := foldl_max_le (fun l : Layout => l.size) ls hz (x := 0) (Nat.le_refl 0)
    omega
  · intro hv
    exact absurd ((foldl_merge_void (fun l : Layout => l.cls) ls .integer).1 hv).1 (by decide)

theorem sum_member {ls : List Layout} (h : ∀ l ∈ ls, Wf l) {l : Layout} (hl : l ∈ ls) :
    l.size ≤ (sum ls).size ∧ (l.align = 0 ∨ l.align ∣ (sum ls).align) := by
  rw [sum_eq, new_size, new_align]
  have h1 := (foldl_max_ge (fun l : Layout => l.align) ls 0).2 l hl
  have h2 := (foldl_max_ge (fun l : Layout => l.size) ls 0).2 l hl
  have h3 := le_padTo (ls.foldl (fun x l => max l.size x) 0) (ls.foldl (fun x l => max l.align x) 0)
  exact ⟨Nat.le_trans h2 h3, Alignment.dvd (Wf.parts (h l hl)).1
    (foldl_max_alignment (fun l : Layout => l.align) ls (fun l hl => (Wf.parts (h l hl)).1) 0 (.inl rfl)) h1⟩

/-! ### Layouts whose values fit registers -/

/-- What holds of every layout the resolver gives. -/
structure Regular (l : Layout) : Prop where
  wf : Wf l
  cls : l.cls = .memory → 16 < l.size
  leaf : ∀ o c, Leaf l o c → (c.cls = .void ↔ c.size = 0) ∧ (c.cls = .memory → 16 < c.size)
  first : 0 < l.size → l.size ≤ 16 → ∃ c, Leaf l 0 c ∧ 0 < c.size
  zero : l.size = 0 → l.align = 0
  last : 0 < l.size → l.size ≤ 16 → ∃ o c, Leaf l o c ∧ 0 < c.size ∧ l.size < o + c.size + min l.align 8

theorem regular_new {s a : Nat} {c : Class} (ha : Alignment a) (h0 : a = 0 → s = 0) (hc : c = .integer ∨ c = .floatingPoint ∨ (c = .void ∧ padTo s a = 0))
    (hz : padTo s a = 0 → a = 0) : Regular (new s a c) := by
  have hwf : Wf (new s a c) := wf_new ha h0 (by rintro rfl; rcases hc with h | h | h <;> simp_all)
  have hm : (new s a c).cls = .memory → 16 < (new s a c).size := by
    rw [new_cls, new_size]
    split
    · intro h; cases h
    · split
      · intro _; assumption
      · rintro rfl; rcases hc with h | h | h <;> simp_all
  have hleaf : Leaf (new s a c) 0 (new s a c) := .self rfl
  have hl : ∀ o c', Leaf (new s a c) o c' → c' = new s a c := by
    intro o c' h
    cases h with
    | self _ => rfl
    | elem h _ _ => cases h
  refine ⟨hwf, hm, ?_, fun hp _ => ⟨_, hleaf, hp⟩, hz, fun hp _ => ⟨0, _, hleaf, hp, ?_⟩⟩
  · intro o c' h
    rw [hl o c' h]
    exact ⟨(Wf.parts hwf).2.2.2.1, hm⟩
  · have : (new s a c).align ≠ 0 := fun h => by
      have := (Wf.parts hwf).2.1 h
      omega
    omega

theorem leaf_le {l : Layout} (h : Wf l) {o : Nat} {c : Layout} (hl : Leaf l o c) : o + c.size ≤ l.size := by
  induction hl with
  | self _ => omega
  | elem hc hm _ ih =>
    obtain ⟨hp, -, hw, -⟩ := (Wf.parts h).2.2.2.2.2 _ _ hc
    have := ih (hw _ hm)
    have := hp.inside _ hm
    simp only at *
    omega

theorem foldl_merge_memory {α} (f : α → Class) (L : List α) : ∀ x, L.foldl (fun x e => (f e).merge x) x = .memory → x = .memory ∨ ∃ e ∈ L, f e = .memory := by
  induction L with
  | nil => intro x h; exact .inl h
  | cons e L ih =>
    intro x h
    rw [List.foldl_cons] at h
    rcases ih _ h with h | ⟨e', he', h⟩
    · have : f e = .memory ∨ x = .memory := by
        generalize f e = y at h
        clear ih
        revert h; cases y <;> cases x <;> simp [Class.merge]
      rcases this with h | h
      · exact .inr ⟨e, by simp, h⟩
      · exact .inl h
    · exact .inr ⟨e', by simp [he'], h⟩

theorem rawEnd_last (ls : List Layout) (h : ∀ l ∈ ls, l.size = 0 → l.align = 0) : ∀ o,
    (iterWithOffset o ls).foldl (fun _ e => e.1 + e.2.size) o = o ∨
    ∃ e ∈ iterWithOffset o ls, 0 < e.2.size ∧ (iterWithOffset o ls).foldl (fun _ e => e.1 + e.2.size) o = e.1 + e.2.size := by
  induction ls with
  | nil => intro o; exact .inl rfl
  | cons l ls ih =>
    intro o
    have ih := ih (fun l hl => h l (by simp [hl]))
    simp only [iterWithOffset, List.foldl_cons]
    by_cases h0 : l.size = 0
    · rw [h l (by simp) h0, h0, padTo_zero, Nat.add_zero]
      rcases ih o with h' | ⟨e, he, h'⟩
      · exact .inl h'
      · exact .inr ⟨e, by simp [he], h'⟩
    · rcases ih (padTo o l.align + l.size) with h' | ⟨e, he, h'⟩
      · exact .inr ⟨(padTo o l.align, l), by simp, by simp only; omega, h'⟩
      · exact .inr ⟨e, by simp [he], h'⟩

theorem regular_product {ls : List Layout} (h : ∀ l ∈ ls, Regular l) : Regular (product ls) := by
  have hwf : Wf (product ls) := wf_product fun l hl => (h l hl).wf
  have hcomp := product_eq ls
  have hmem : ∀ e ∈ iterWithOffset 0 ls, Regular e.2 := fun e he => h e.2 (by
    have := List.mem_map_of_mem (f := Prod.snd) he
    rwa [iter_snd] at this)
  have hal := iter_aligned ls 0
  have hdis := iter_disjoint ls 0
  have hz := rawEnd_zero ls
  have hfirst : rawEnd (iterWithOffset 0 ls) ≠ 0 → ∃ e ∈ iterWithOffset 0 ls, e.1 = 0 ∧ 0 < e.2.size := by
    intro hne
    have : ∀ ls : List Layout, (∃ l ∈ ls, 0 < l.size) → ∃ e ∈ iterWithOffset 0 ls, e.1 = 0 ∧ 0 < e.2.size := by
      intro ls
      induction ls with
      | nil => rintro ⟨l, hl, -⟩; cases hl
      | cons l ls ih =>
        rintro ⟨l', hl', hp⟩
        simp only [iterWithOffset, padTo_zero_left, Nat.zero_add]
        by_cases h0 : l.size = 0
        · rw [h0]
          obtain ⟨e, he, h⟩ := ih (by
            rcases List.mem_cons.1 hl' with rfl | h
            · omega
            · exact ⟨l', h, hp⟩)
          exact ⟨e, by simp [he], h⟩
        · exact ⟨(0, l), by simp, rfl, by simp only; omega⟩
    apply this
    apply Classical.byContradiction
    intro hno
    apply hne
    apply hz
    intro e he
    have hl : e.2 ∈ ls := by
      have := List.mem_map_of_mem (f := Prod.snd) he
      rwa [iter_snd] at this
    apply Classical.byContradiction
    intro hs
    exact hno ⟨e.2, hl, by omega⟩
  have hlast : rawEnd (iterWithOffset 0 ls) = 0 ∨ ∃ e ∈ iterWithOffset 0 ls, 0 < e.2.size ∧ rawEnd (iterWithOffset 0 ls) = e.1 + e.2.size :=
    rawEnd_last ls (fun l hl => (h l hl).zero) 0
  generalize iterWithOffset 0 ls = L at hcomp hmem hal hdis hz hfirst hlast
  have hends := rawEnd_ge L hdis 0 (fun _ _ => Nat.zero_le _)
  have hmax := foldl_max_ge (fun e : Nat × Layout => e.2.align) L 0
  generalize hAe : L.foldl (fun x e => max e.2.align x) 0 = A at hcomp hmax
  have hle := le_padTo (rawEnd L) A
  rw [hcomp] at hwf ⊢
  have hsz : (productOf L A).size = padTo (rawEnd L) A := rfl
  have hal' : (productOf L A).align = A := rfl
  have hcm : (productOf L A).composite = some (L, L.flatMap fun e => componentsOf e.1 e.2) := rfl
  have hA : Alignment A := (Wf.parts hwf).1
  have hin : ∀ e ∈ L, e.1 + e.2.size ≤ rawEnd L := hends.2
  have hpos : 0 < padTo (rawEnd L) A → rawEnd L ≠ 0 := by
    intro h h0
    rw [h0, padTo_zero_left] at h
    omega
  refine ⟨hwf, ?_, ?_, ?_, ?_, ?_⟩
  · intro hm
    rw [hsz]
    have hm : ((if padTo (rawEnd L) A = 0 then Class.void else if padTo (rawEnd L) A > 16 then .memory else L.foldl (fun x e => e.2.cls.merge x) .void) : Class) = .memory := hm
    split at hm
    · cases hm
    · split at hm
      · assumption
      · rcases foldl_merge_memory (fun e : Nat × Layout => e.2.cls) L _ hm with h | ⟨e, he, h⟩
        · cases h
        · have := (hmem e he).cls h
          have := hin e he
          omega
  · intro o c hl
    cases hl with
    | self hn => rw [hcm] at hn; cases hn
    | elem hs he hq => rw [hcm] at hs; cases hs; exact (hmem _ he).leaf _ _ hq
  · intro hp h16
    rw [hsz] at hp h16
    obtain ⟨e, he, h0, hs⟩ := hfirst (hpos hp)
    have := hin e he
    obtain ⟨c, hc, hcs⟩ := (hmem e he).first hs (by omega)
    have hL := Leaf.elem hcm he hc
    rw [h0] at hL
    exact ⟨c, hL, hcs⟩
  · intro h0
    rw [hsz] at h0
    rw [hal', ← hAe]
    have h0 : rawEnd L = 0 := by omega
    rcases foldl_max_mem (fun e : Nat × Layout => e.2.align) L 0 with h | ⟨e, he, h⟩
    · exact h
    · have := hin e he
      exact h.trans ((hmem e he).zero (by omega))
  · intro hp h16
    rw [hsz] at hp h16 ⊢
    rw [hal']
    have hA0 : A ≠ 0 := fun h => by
      have := (Wf.parts hwf).2.1 h
      rw [hsz] at this
      omega
    rcases hlast with h | ⟨e, he, hs, hR⟩
    · exact absurd h (hpos hp)
    have hR : rawEnd L = e.1 + e.2.size := hR
    by_cases hA16 : 16 ≤ A
    · -- some element has this alignment, so it fills the whole layout
      rcases foldl_max_mem (fun e : Nat × Layout => e.2.align) L 0 with h | ⟨e', he', h⟩
      · exact absurd (hAe.symm.trans h) hA0
      · have h : A = e'.2.align := hAe.symm.trans h
        have hs' : e'.2.size ≠ 0 := fun hz' => hA0 (h.trans ((hmem e' he').zero hz'))
        have hle' := Nat.le_of_dvd (by omega) (Wf.parts (hmem e' he').wf).2.2.1
        have := hin e' he'
        obtain ⟨q, c, hc, hcs, hq⟩ := (hmem e' he').last (by omega) (by omega)
        refine ⟨_, c, Leaf.elem hcm he' hc, hcs, ?_⟩
        omega
    · have ha0 : e.2.align ≠ 0 := fun h => by have := (Wf.parts (hmem e he).wf).2.1 h; omega
      have hin' := hin e he
      have haA := hmax.2 e he
      obtain ⟨q, c, hc, hcs, hq⟩ := (hmem e he).last hs (by omega)
      refine ⟨_, c, Leaf.elem hcm he hc, hcs, ?_⟩
      have hda : e.2.align ∣ A := (Alignment.dvd (Wf.parts (hmem e he).wf).1 hA haA).resolve_left ha0
      have hdR : e.2.align ∣ rawEnd L := by
        rw [hR]; exact Nat.dvd_add ((hal e he).resolve_left ha0) (Wf.parts (hmem e he).wf).2.2.1
      have hA8 : A ≤ 8 := by
        rcases hA with h | ⟨k, h⟩
        · omega
        · have : k < 4 := by
            apply Classical.byContradiction; intro hk
            have := Nat.pow_le_pow_right (n := 2) (by omega) (show 4 ≤ k by omega)
            omega
          have := Nat.pow_le_pow_right (n := 2) (by omega) (show k ≤ 3 by omega)
          omega
      have hlt := padTo_lt (rawEnd L) hA0
      have hds : A ∣ padTo (rawEnd L) A := dvd_padTo _ hA0
      have hAs : A ≤ padTo (rawEnd L) A := Nat.le_of_dvd hp hds
      have hdx : e.2.align ∣ padTo (rawEnd L) A - A := Nat.dvd_trans hda (Nat.dvd_sub hds (Nat.dvd_refl A))
      obtain ⟨x, hx⟩ := hdx
      obtain ⟨y, hy⟩ := hdR
      have hxy : x < y := by
        apply Classical.byContradiction; intro h
        have := Nat.mul_le_mul_left e.2.align (show y ≤ x by omega)
        omega
      have := Nat.mul_le_mul_left e.2.align (show x + 1 ≤ y by omega)
      rw [Nat.mul_add, Nat.mul_one] at this
      omega

theorem regular_sum {ls : List Layout} (h : ∀ l ∈ ls, Regular l) : Regular (sum ls) := by
  have hwf := wf_sum fun l hl => (h l hl).wf
  rw [sum_eq] at hwf ⊢
  have hmaxs := foldl_max_ge (fun l : Layout => l.size) ls 0
  have hmaxa := foldl_max_mem (fun l : Layout => l.align) ls 0
  generalize hS : ls.foldl (fun x l => max l.size x) 0 = S at hwf hmaxs
  generalize hA : ls.foldl (fun x l => max l.align x) 0 = A at hwf hmaxa
  generalize hC : ls.foldl (fun x l => l.cls.merge x) Class.integer = C at hwf
  have hm : (new S A C).cls = .memory → 16 < (new S A C).size := by
    rw [new_cls, new_size]
    split
    · intro h; cases h
    · split
      · intro _; assumption
      · intro hc
        rw [← hC] at hc
        rcases foldl_merge_memory (fun l : Layout => l.cls) ls _ hc with h' | ⟨l, hl, h'⟩
        · cases h'
        · have := (h l hl).cls h'
          have := hmaxs.2 l hl
          have := le_padTo S A
          omega
  have hleaf : Leaf (new S A C) 0 (new S A C) := .self rfl
  refine ⟨hwf, hm, ?_, fun hp _ => ⟨_, hleaf, hp⟩, ?_, fun hp _ => ⟨0, _, hleaf, hp, ?_⟩⟩
  · intro o c hl
    cases hl with
    | self _ => exact ⟨(Wf.parts hwf).2.2.2.1, hm⟩
    | elem h _ _ => cases h
  · intro h0
    rw [new_size] at h0
    rw [new_align]
    have := le_padTo S A
    rcases hmaxa with h' | ⟨l, hl, h'⟩
    · exact h'
    · have := hmaxs.2 l hl
      exact h'.trans ((h l hl).zero (by omega))
  · have : (new S A C).align ≠ 0 := fun h => by
      have := (Wf.parts hwf).2.1 h
      omega
    omega

theorem pow2_alignment (k : Nat) : Alignment (2 ^ k) := .inr ⟨k, rfl⟩

theorem nextPowerOfTwo_pow (n : Nat) : ∃ k, nextPowerOfTwo n = 2 ^ k := by
  unfold nextPowerOfTwo
  split
  · exact ⟨0, rfl⟩
  · exact ⟨_, rfl⟩

theorem regular_prim (n : Nat) (k : Nat) (c : Class) (hc : c = .integer ∨ c = .floatingPoint) (hn : 0 < n) : Regular (new n (2 ^ k) c) := by
  have hk : 0 < 2 ^ k := Nat.pow_pos (by omega)
  have := le_padTo n (2 ^ k)
  exact regular_new (pow2_alignment k) (by omega) (by rcases hc with h | h <;> simp [h]) (by omega)

theorem regular_getCt {m : Layouts} (hm : ∀ n l, Verif.HMap.get m n = some (some l) → Regular l) {t : Ct} {l : Layout} (h : m.getCt t = some l) : Regular l := by
  have hint : ∀ n, Regular (integer (nextPowerOfTwo n)) := by
    intro n
    obtain ⟨k, hk⟩ := nextPowerOfTwo_pow n
    unfold integer
    rw [hk]
    exact regular_prim _ _ _ (.inl rfl) (Nat.pow_pos (by omega))
  have h8 : Regular pointer := regular_prim 8 3 .integer (.inl rfl) (by omega)
  have h16 : Regular clos := regular_prim 16 3 .integer (.inl rfl) (by omega)
  cases t with
  | id n =>
    simp only [Layouts.getCt] at h
    split at h
    · rename_i l' hl
      cases h
      exact hm n _ hl
    · cases h
  | erased => cases h
  | ptr _ => cases h; exact h8
  | clos => cases h; exact h16
  | s n => cases h; exact hint _
  | u n => cases h; exact hint _
  | f32 => cases h; exact regular_prim 4 2 .floatingPoint (.inr rfl) (by omega)
  | f64 => cases h; exact regular_prim 8 3 .floatingPoint (.inr rfl) (by omega)
  | string => cases h; exact h16
  | char => cases h; exact regular_prim 4 2 .integer (.inl rfl) (by omega)
  | array _ => cases h; exact h16
  | capturedUse => cases h; exact h16
  | unit => cases h; exact regular_new (.inl rfl) (fun _ => rfl) (.inr (.inr ⟨rfl, rfl⟩)) (fun _ => rfl)
  | env => cases h; exact h8
  | «syntax» _ => cases h; exact h8

/-! ### Eightbytes -/

theorem foldl_merge_nonmem (L : List (Nat × Layout)) (h : ∀ e ∈ L, e.2.cls ≠ .memory) : ∀ x : Class, x ≠ .memory →
    L.foldl (fun c p => c.merge p.2.cls) x ≠ .memory := by
  induction L with
  | nil => intro x hx; exact hx
  | cons e L ih =>
    intro x hx
    have := h e (by simp)
    have key : ∀ y : Class, y ≠ .memory → x.merge y ≠ .memory := by
      revert hx; cases x <;> intro hx y <;> cases y <;> simp_all [Class.merge]
    exact ih (fun e he => h e (by simp [he])) _ (key _ this)

theorem foldl_merge_nonvoid (L : List (Nat × Layout)) : ∀ x : Class, (x ≠ .void ∨ ∃ e ∈ L, e.2.cls ≠ .void) →
    L.foldl (fun c p => c.merge p.2.cls) x ≠ .void := by
  induction L with
  | nil => intro x hx; simpa using hx
  | cons e L ih =>
    intro x hx
    rw [List.foldl_cons]
    apply ih
    have key : x ≠ .void ∨ e.2.cls ≠ .void → x.merge e.2.cls ≠ .void := by
      generalize e.2.cls = y; cases x <;> cases y <;> simp [Class.merge]
    rcases hx with hx | ⟨e', he', hx⟩
    · exact .inl (key (.inl hx))
    · rcases List.mem_cons.1 he' with rfl | h
      · exact .inl (key (.inr hx))
      · exact .inr ⟨e', h, hx⟩

theorem Regular.eightbyte_cls {l : Layout} (h : Regular l) (h0 : 0 < l.size) (h16 : l.size ≤ 16) :
    ∀ e ∈ l.eightbytes, e.cls = .integer ∨ e.cls = .floatingPoint := by
  intro e he
  have hres : e.cls ≠ .void ∧ e.cls ≠ .memory := by
    unfold eightbytes at he
    obtain ⟨i, hi, rfl⟩ := List.mem_map.1 he
    rw [List.mem_range, numEightbytes] at hi
    cases hc : l.composite with
    | none =>
      simp only [hc]
      exact ⟨fun hv => by have := (Wf.parts h.wf).2.2.2.1.1 hv; omega, fun hm => by have := h.cls hm; omega⟩
    | some ec =>
      obtain ⟨es, cs⟩ := ec
      simp only [hc]
      obtain ⟨-, hp, -, hleaf⟩ := (Wf.parts h.wf).2.2.2.2.2 es cs hc
      constructor
      · apply foldl_merge_nonvoid
        right
        have : i = 0 ∨ i = 1 := by omega
        rcases this with rfl | rfl
        · obtain ⟨c, hc1, hc2⟩ := h.first h0 h16
          refine ⟨(0, c), ?_, fun hv => by have := ((h.leaf 0 c hc1).1).1 hv; omega⟩
          simp only [List.mem_filter, (hleaf 0 c).2 hc1, true_and]
          simp; omega
        · obtain ⟨o, c, hc1, hc2, hc3⟩ := h.last h0 h16
          have hin := leaf_le h.wf hc1
          refine ⟨(o, c), ?_, fun hv => by have := ((h.leaf o c hc1).1).1 hv; omega⟩
          simp only [List.mem_filter, (hleaf o c).2 hc1, true_and]
          have hal : l.size ≥ 8 + min l.align 8 := by
            rcases (Wf.parts h.wf).1 with ha | ⟨k, ha⟩
            · omega
            · by_cases hk : k ≤ 3
              · have hd : l.align ∣ 8 := by rw [ha]; exact Nat.pow_dvd_pow 2 hk (n := 3)
                obtain ⟨x, hx⟩ := hd
                obtain ⟨y, hy⟩ := (Wf.parts h.wf).2.2.1
                have hxy : x < y := by
                  apply Classical.byContradiction; intro hh
                  have := Nat.mul_le_mul_left l.align (show y ≤ x by omega)
                  omega
                have := Nat.mul_le_mul_left l.align (show x + 1 ≤ y by omega)
                rw [Nat.mul_add, Nat.mul_one] at this
                omega
              · have := Nat.pow_le_pow_right (n := 2) (by omega) (show 4 ≤ k by omega)
                have := Nat.le_of_dvd h0 (Wf.parts h.wf).2.2.1
                omega
          simp; omega
      · apply foldl_merge_nonmem _ _ _ (by decide)
        intro p hp hm
        have hp1 := (List.mem_filter.1 hp).1
        have hl := (hleaf p.1 p.2).1 hp1
        have := (h.leaf _ _ hl).2 hm
        have := leaf_le h.wf hl
        omega
  revert hres
  cases e.cls <;> simp

theorem length_eightbytes (l : Layout) : l.eightbytes.length = l.numEightbytes := by simp [eightbytes]

theorem buildLoop_some (es : List Eightbyte) (h : ∀ e ∈ es, e.cls = .integer ∨ e.cls = .floatingPoint) : ∀ gps fps,
    es.length ≤ gps.length → es.length ≤ fps.length →
    ∃ as gps' fps', buildLoop gps fps es = some (as, gps', fps') ∧ as.length = es.length ∧ ∀ a ∈ as, a.reg ≠ .void := by
  induction es with
  | nil => intro gps fps _ _; exact ⟨[], gps, fps, by simp [buildLoop]⟩
  | cons e es ih =>
    intro gps fps hg hf
    have ih := ih fun e he => h e (by simp [he])
    cases gps with
    | nil => simp at hg
    | cons g gps =>
      cases fps with
      | nil => simp at hf
      | cons f fps =>
        simp only [List.length_cons, Nat.add_le_add_iff_right] at hg hf
        rcases h e (by simp) with hc | hc
        · obtain ⟨as, g', f', h1, h2, h3⟩ := ih gps (f :: fps) hg (by simp; omega)
          refine ⟨_, g', f', by simp only [buildLoop, hc, h1]; rfl, by simp [h2], ?_⟩
          intro a ha
          rcases List.mem_cons.1 ha with rfl | ha
          · simp
          · exact h3 a ha
        · obtain ⟨as, g', f', h1, h2, h3⟩ := ih (g :: gps) fps (by simp; omega) hf
          refine ⟨_, g', f', by simp only [buildLoop, hc, h1]; rfl, by simp [h2], ?_⟩
          intro a ha
          rcases List.mem_cons.1 ha with rfl | ha
          · simp
          · exact h3 a ha

end Verif.MemLayout

