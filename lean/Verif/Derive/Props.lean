import Verif.Derive.Lemmas

/-!
# C50: derived orderings are total orders
-/
namespace Verif.Derive
variable {A β ι : Type}

/-- **The derived `compare` is the expected order** (constructors in declaration order, then fields lexicographically) on all values of all declared data
types, recursive ones included: it returns, with no clause missing. -/
theorem derive_ord (D : Decls β ι) (hD : Distinct D) (dom : β → A → Prop) (cmp : β → A → A → Ordering) (t : FTy β ι) (u v : Val A)
    (hu : Typed D dom t u) (hv : Typed D dom t v) : ∃ n0, ∀ n, n0 ≤ n → compareAt D cmp n t u v = some (order D cmp t u v) :=
  ⟨sizeOf u + 1, fun n hn => compareAt_eq hD cmp n t u v (by omega) hu hv⟩

/-- **It is a total order** if the orders of the base types are. -/
theorem derive_ord_total (D : Decls β ι) (hD : Distinct D) (dom : β → A → Prop) (cmp : β → A → A → Ordering) (hb : ∀ b, IsOrder (dom b) (cmp b)) (t : FTy β ι) :
    IsOrder (Typed D dom t) (order D cmp t) := order_isOrder hb hD t

/-- It tells all values apart if the orders of the base types do. -/
theorem derive_ord_antisymm (D : Decls β ι) (hD : Distinct D) (dom : β → A → Prop) (cmp : β → A → A → Ordering)
    (he : ∀ b x y, dom b x → dom b y → cmp b x y = .eq → x = y) (t : FTy β ι) (u v : Val A) (hu : Typed D dom t u) (hv : Typed D dom t v)
    (h : order D cmp t u v = .eq) : u = v := order_eq he hD hu hv h

/-- **The derived `eq?` agrees with the derived `compare`.** -/
theorem derive_eq_agrees (D : Decls β ι) (hD : Distinct D) (dom : β → A → Prop) (cmp : β → A → A → Ordering) (eq : β → A → A → Bool)
    (he : ∀ b x y, dom b x → dom b y → eq b x y = (cmp b x y == .eq)) (t : FTy β ι) (u v : Val A) (hu : Typed D dom t u) (hv : Typed D dom t v) :
    ∃ n0, ∀ n, n0 ≤ n → eqAt D eq n t u v = some (order D cmp t u v == .eq) :=
  ⟨sizeOf u + 1, fun n hn => eqAt_eq hD cmp eq he n t u v (by omega) hu hv⟩

/-! ## Instances -/

/-- A lawful instance: all methods agree with one total order. -/
structure Inst.Lawful {X : Type} (P : X → Prop) (I : Inst X) : Prop where
  order : IsOrder P I.compare
  eq : ∀ a b, P a → P b → (I.eq? a b = true ↔ I.compare a b = .eq)
  lt : ∀ a b, P a → P b → (I.lt? a b = true ↔ I.compare a b = .lt)
  le : ∀ a b, P a → P b → (I.le? a b = true ↔ I.compare a b ≠ .gt)
  gt : ∀ a b, P a → P b → (I.gt? a b = true ↔ I.compare a b = .gt)
  ge : ∀ a b, P a → P b → (I.ge? a b = true ↔ I.compare a b ≠ .lt)

/-- The default methods of an instance given by `compare` agree with it. -/
theorem ofCompare_lawful {X : Type} (P : X → Prop) (eq : X → X → Bool) (cmp : X → X → Ordering) (h : IsOrder P cmp)
    (he : ∀ a b, P a → P b → eq a b = (cmp a b == .eq)) : (Inst.ofCompare eq cmp).Lawful P where
  order := h
  eq a b ha hb := by simp [Inst.ofCompare, he a b ha hb]
  lt a b _ _ := by simp [Inst.ofCompare]
  le a b _ _ := by simp [Inst.ofCompare]
  gt a b _ _ := by simp [Inst.ofCompare]
  ge a b _ _ := by simp [Inst.ofCompare]

/-- The default `compare` of an instance given by the tests on numbers (integers, `Bool` and `Ordering` by their tags, `Ptr` by address). -/
theorem ofTests_lawful {X : Type} (num : X → Int) (I : Inst X)
    (h : I = Inst.ofTests (fun a b => num a == num b) (fun a b => num a < num b) (fun a b => num a ≤ num b) (fun a b => num a > num b) (fun a b => num a ≥ num b)) :
    I.Lawful (fun _ => True) ∧ ∀ a b, I.compare a b = compare (num a) (num b) := by
  subst h
  have key : ∀ a b, (Inst.ofTests (fun a b => num a == num b) (fun a b => num a < num b) (fun a b => num a ≤ num b) (fun a b => num a > num b)
      (fun a b => num a ≥ num b)).compare a b = compare (num a) (num b) := by
    intro a b
    simp only [Inst.ofTests, compare, compareOfLessAndEq, beq_iff_eq, decide_eq_true_eq]
    by_cases h1 : num a = num b
    · simp [h1]
    · by_cases h2 : num a < num b
      · simp [h1, h2, Int.le_of_lt h2]
      · simp [h1, h2, show ¬ num a ≤ num b by omega]
  refine ⟨⟨⟨fun a _ => ?_, fun a b _ _ => ?_, fun a b c _ _ _ => ?_⟩, ?_, ?_, ?_, ?_, ?_⟩, key⟩
  · rw [key]; simp [compare, compareOfLessAndEq]
  · rw [key, key]; simp only [compare, compareOfLessAndEq]; repeat' split
    all_goals first | rfl | (exfalso; omega)
  · rw [key, key, key]; simp only [compare, compareOfLessAndEq]; repeat' split
    all_goals first | simp; done | (intros; omega) | simp_all
  all_goals
    intro a b _ _; rw [key]
    simp only [Inst.ofTests, compare, compareOfLessAndEq, beq_iff_eq, decide_eq_true_eq]
    repeat' split
    all_goals first | (simp; omega) | simp

/-- **`min` and `max`** give one of their arguments, and none of the arguments is smaller (larger). -/
theorem min_least {X : Type} (P : X → Prop) (I : Inst X) (h : I.Lawful P) (a : X) (bs : List X) (hP : ∀ x ∈ a :: bs, P x) :
    minMacro I a bs ∈ a :: bs ∧ ∀ x ∈ a :: bs, I.compare (minMacro I a bs) x ≠ .gt := by
  induction bs generalizing a with
  | nil => simp [minMacro, h.order.refl a (hP a (by simp))]
  | cons b bs ih =>
    have hPa := hP a (by simp)
    have hPb := hP b (by simp)
    have hm : min2 I a b = a ∧ I.compare a b ≠ .gt ∨ min2 I a b = b ∧ I.compare b a ≠ .gt := by
      unfold min2
      by_cases hle : I.le? a b = true
      · simp [hle, (h.le a b hPa hPb).1 hle]
      · right
        have : I.compare a b = .gt := Classical.byContradiction fun hc => hle ((h.le a b hPa hPb).2 hc)
        rw [h.order.swap a b hPa hPb, this]; simp [hle, Ordering.swap]
    have hPm : P (min2 I a b) := by rcases hm with h | h <;> rw [h.1] <;> assumption
    obtain ⟨i1, i2⟩ := ih (min2 I a b) (by intro x hx; rcases List.mem_cons.1 hx with rfl | hx; exact hPm; exact hP x (by simp [hx]))
    have e : minMacro I a (b :: bs) = minMacro I (min2 I a b) bs := rfl
    rw [e]
    have hin : minMacro I (min2 I a b) bs ∈ a :: b :: bs := by
      rcases List.mem_cons.1 i1 with h' | h'
      · rw [h']; rcases hm with h | h <;> rw [h.1] <;> simp
      · simp [h']
    refine ⟨hin, fun x hx => ?_⟩
    have hle : I.compare (minMacro I (min2 I a b) bs) (min2 I a b) ≠ .gt := i2 _ (by simp)
    have hPr := hP _ hin
    simp only [List.mem_cons] at hx
    rcases hx with rfl | rfl | hx
    · refine h.order.trans _ _ _ hPr hPm hPa hle ?_
      rcases hm with h' | h' <;> rw [h'.1]
      · rw [h.order.refl _ hPa]; simp
      · exact h'.2
    · refine h.order.trans _ _ _ hPr hPm hPb hle ?_
      rcases hm with h' | h' <;> rw [h'.1]
      · exact h'.2
      · rw [h.order.refl _ hPb]; simp
    · exact i2 x (by simp [hx])

theorem max_greatest {X : Type} (P : X → Prop) (I : Inst X) (h : I.Lawful P) (a : X) (bs : List X) (hP : ∀ x ∈ a :: bs, P x) :
    maxMacro I a bs ∈ a :: bs ∧ ∀ x ∈ a :: bs, I.compare x (maxMacro I a bs) ≠ .gt := by
  induction bs generalizing a with
  | nil => simp [maxMacro, h.order.refl a (hP a (by simp))]
  | cons b bs ih =>
    have hPa := hP a (by simp)
    have hPb := hP b (by simp)
    have hm : max2 I a b = a ∧ I.compare b a ≠ .gt ∨ max2 I a b = b ∧ I.compare a b ≠ .gt := by
      unfold max2
      by_cases hge : I.ge? a b = true
      · left
        have := (h.ge a b hPa hPb).1 hge
        rw [h.order.swap a b hPa hPb]; simp only [hge, if_true, true_and]
        cases hc : I.compare a b <;> simp_all [Ordering.swap]
      · right
        have : I.compare a b = .lt := Classical.byContradiction fun hc => hge ((h.ge a b hPa hPb).2 hc)
        simp [hge, this]
    have hPm : P (max2 I a b) := by rcases hm with h | h <;> rw [h.1] <;> assumption
    obtain ⟨i1, i2⟩ := ih (max2 I a b) (by intro x hx; rcases List.mem_cons.1 hx with rfl | hx; exact hPm; exact hP x (by simp [hx]))
    have e : maxMacro I a (b :: bs) = maxMacro I (max2 I a b) bs := rfl
    rw [e]
    have hin : maxMacro I (max2 I a b) bs ∈ a :: b :: bs := by
      rcases List.mem_cons.1 i1 with h' | h'
      · rw [h']; rcases hm with h | h <;> rw [h.1] <;> simp
      · simp [h']
    refine ⟨hin, fun x hx => ?_⟩
    have hle : I.compare (max2 I a b) (maxMacro I (max2 I a b) bs) ≠ .gt := i2 _ (by simp)
    have hPr := hP _ hin
    simp only [List.mem_cons] at hx
    rcases hx with rfl | rfl | hx
    · refine h.order.trans _ _ _ hPa hPm hPr ?_ hle
      rcases hm with h' | h' <;> rw [h'.1]
      · rw [h.order.refl _ hPa]; simp
      · exact h'.2
    · refine h.order.trans _ _ _ hPb hPm hPr ?_ hle
      rcases hm with h' | h' <;> rw [h'.1]
      · exact h'.2
      · rw [h.order.refl _ hPb]; simp
    · exact i2 x (by simp [hx])

/-- **Chained comparisons** `(< a b c ...)` hold exactly when all neighbours compare so. -/
theorem chain_iff {X : Type} (pred : X → X → Bool) (xs : List X) :
    compareChainEntry pred xs = true ↔ ∀ (i : Nat) (x y : X), xs[i]? = some x → xs[i + 1]? = some y → pred x y = true := by
  have hc : ∀ (bs : List X) (a : X), compareChain pred a bs = true ↔ ∀ (i : Nat) (x y : X), (a :: bs)[i]? = some x → (a :: bs)[i + 1]? = some y → pred x y = true := by
    intro bs
    induction bs with
    | nil => intro a; simp [compareChain]
    | cons b bs ih =>
      intro a
      have e : compareChain pred a (b :: bs) = (pred a b && compareChain pred b bs) := by cases bs <;> simp [compareChain]
      rw [e, Bool.and_eq_true, ih b]
      constructor
      · rintro ⟨h1, h2⟩ i x y hx hy
        cases i with
        | zero => simp at hx hy; subst hx; subst hy; exact h1
        | succ i => exact h2 i x y (by simpa using hx) (by simpa using hy)
      · exact fun h => ⟨h 0 a b rfl rfl, fun i x y hx hy => h (i + 1) x y (by simpa using hx) (by simpa using hy)⟩
  match xs with
  | [] => simp [compareChainEntry]
  | [a] => simp [compareChainEntry]
  | [a, b] => rw [← hc [b] a]; simp [compareChainEntry, compareChain]
  | a :: b :: c :: bs => rw [← hc (b :: c :: bs) a]; simp [compareChainEntry]

/-! ## Arrays, vectors, strings, `Option`, `Result` -/

/-- Lexicographic order of lists; a proper prefix is smaller. -/
def listLex {X : Type} (cmp : X → X → Ordering) : List X → List X → Ordering
  | [], [] => .eq
  | [], _ :: _ => .lt
  | _ :: _, [] => .gt
  | x :: xs, y :: ys => (cmp x y).then (listLex cmp xs ys)

theorem listLex_order {X : Type} {P : X → Prop} {cmp : X → X → Ordering} (h : IsOrder P cmp) : IsOrder (fun l : List X => ∀ x ∈ l, P x) (listLex cmp) where
  refl a ha := by
    induction a with
    | nil => rfl
    | cons x xs ih => simp only [listLex, h.refl x (ha x (by simp)), ih (fun y hy => ha y (by simp [hy]))]; rfl
  swap a b ha hb := by
    induction a generalizing b with
    | nil => cases b <;> rfl
    | cons x xs ih =>
      cases b with
      | nil => rfl
      | cons y ys =>
        simp only [listLex, then_swap, h.swap x y (ha x (by simp)) (hb y (by simp)), ih ys (fun z hz => ha z (by simp [hz])) (fun z hz => hb z (by simp [hz]))]
  trans a b c ha hb hc := by
    have : listLex cmp a b ≠ .gt → listLex cmp b c ≠ .gt → listLex cmp a c = (listLex cmp a b).then (listLex cmp b c) := by
      induction a generalizing b c with
      | nil => cases b <;> cases c <;> simp [listLex, Ordering.then]
      | cons x xs ih =>
        cases b with
        | nil => cases c <;> simp [listLex]
        | cons y ys =>
          cases c with
          | nil => simp [listLex]
          | cons z zs =>
            simp only [listLex]
            exact then_chain (h.chain (ha x (by simp)) (hb y (by simp)) (hc z (by simp)))
              (fun _ _ => ih ys zs (fun w hw => ha w (by simp [hw])) (fun w hw => hb w (by simp [hw])) (fun w hw => hc w (by simp [hw])))
    intro h1 h2
    rw [this h1 h2]
    revert h1 h2; cases listLex cmp a b <;> simp [Ordering.then]

theorem arrayLoop_eq {X : Type} (cmp : X → X → Ordering) (a b : List X) : ∀ (m i : Nat), i ≤ min a.length b.length → min a.length b.length - i < m →
    arrayLoop cmp a b (min a.length b.length) m i = some (listLex cmp (a.drop i) (b.drop i)) := by
  intro m
  induction m with
  | zero => intro i _ h; omega
  | succ m ih =>
    intro i hi hm
    rw [arrayLoop]
    by_cases h : i < min a.length b.length
    · have ha : i < a.length := by omega
      have hb : i < b.length := by omega
      simp only [h, if_true, List.getElem?_eq_getElem ha, List.getElem?_eq_getElem hb]
      rw [List.drop_eq_getElem_cons ha, List.drop_eq_getElem_cons hb, listLex]
      cases hc : cmp a[i] b[i] with
      | eq => simp only [Ordering.then]; exact ih (i + 1) (by omega) (by omega)
      | lt => rfl
      | gt => rfl
    · simp only [h, if_false]
      congr 1
      rcases Nat.lt_trichotomy a.length b.length with hl | hl | hl
      · have h1 : a.drop i = [] := List.drop_eq_nil_of_le (by omega)
        have h2 : b.drop i ≠ [] := fun hn => by have := List.drop_eq_nil_iff.1 hn; omega
        rw [h1, Nat.compare_eq_lt.2 hl]
        cases hd : b.drop i with
        | nil => exact absurd hd h2
        | cons => rfl
      · rw [Nat.compare_eq_eq.2 hl, List.drop_eq_nil_of_le (by omega : a.length ≤ i), List.drop_eq_nil_of_le (by omega : b.length ≤ i)]; rfl
      · have h1 : b.drop i = [] := List.drop_eq_nil_of_le (by omega)
        have h2 : a.drop i ≠ [] := fun hn => by have := List.drop_eq_nil_iff.1 hn; omega
        rw [h1, Nat.compare_eq_gt.2 hl]
        cases hd : a.drop i with
        | nil => exact absurd hd h2
        | cons => rfl

/-- **Arrays and vectors are ordered lexicographically**, and that is a total order. -/
theorem array_ord {X : Type} (P : X → Prop) (cmp : X → X → Ordering) (h : IsOrder P cmp) :
    (∀ a b : List X, arrayCompare cmp a b = some (listLex cmp a b)) ∧ IsOrder (fun l : List X => ∀ x ∈ l, P x) (listLex cmp) :=
  ⟨fun a b => by unfold arrayCompare; simpa using arrayLoop_eq cmp a b (min a.length b.length + 1) 0 (by omega) (by omega), listLex_order h⟩

theorem memcmp_lex : ∀ (a b : List UInt8), (if 0 < min a.length b.length ∧ memcmp a b (min a.length b.length) ≠ 0 then
      (if memcmp a b (min a.length b.length) < 0 then Ordering.lt else .gt) else compare a.length b.length) = listLex (fun x y => compare x.toNat y.toNat) a b
  | [], [] => by simp [listLex]
  | [], y :: b => by simp [listLex, compare, compareOfLessAndEq]
  | x :: a, [] => by simp [listLex, compare, compareOfLessAndEq]
  | x :: a, y :: b => by
    have ih := memcmp_lex a b
    have hm : min (a.length + 1) (b.length + 1) = min a.length b.length + 1 := by omega
    simp only [List.length_cons, hm, memcmp, listLex]
    by_cases h : x = y
    · subst h
      have : compare x.toNat x.toNat = .eq := by simp
      simp only [if_true, this, Ordering.then]
      rw [← ih]
      by_cases h0 : 0 < min a.length b.length
      · simp [h0, compare, compareOfLessAndEq]
      · have : min a.length b.length = 0 := by omega
        have hz : memcmp a b 0 = 0 := by cases a <;> cases b <;> simp [memcmp]
        simp [this, hz, compare, compareOfLessAndEq]
    · have hne : x.toNat ≠ y.toNat := fun h' => h (UInt8.toNat_inj.1 h')
      have hsub : (x.toNat : Int) - y.toNat ≠ 0 := by omega
      simp only [h, if_false, hsub, ne_eq, not_false_eq_true, and_true, Nat.zero_lt_succ, if_true]
      by_cases hl : x.toNat < y.toNat
      · have : (x.toNat : Int) - y.toNat < 0 := by omega
        simp only [this, if_true, Nat.compare_eq_lt.2 hl]; rfl
      · have : ¬ (x.toNat : Int) - y.toNat < 0 := by omega
        have hg : y.toNat < x.toNat := by omega
        simp only [this, if_false, Nat.compare_eq_gt.2 hg]; rfl

/-- **Strings are ordered by bytes**; the assertion in `ordering/from-order-value` never fails. -/
theorem string_ord (a b : List UInt8) : stringCompare a b = some (listLex (fun x y => compare x.toNat y.toNat) a b) := by
  rw [← memcmp_lex a b]
  unfold stringCompare stringCmp
  have hmin : (if a.length < b.length then a.length else b.length) = min a.length b.length := by split <;> omega
  simp only [hmin]
  by_cases h1 : 0 < min a.length b.length ∧ memcmp a b (min a.length b.length) ≠ 0
  · simp only [h1, ne_eq, not_false_eq_true, and_self, if_true]
    split <;> simp [fromOrderValue]
  · rw [if_neg h1, if_neg h1]
    rcases Nat.lt_trichotomy a.length b.length with hl | hl | hl
    · rw [Nat.compare_eq_lt.2 hl]; simp [hl, Nat.ne_of_lt hl, fromOrderValue]
    · rw [Nat.compare_eq_eq.2 hl]; simp [hl, fromOrderValue]
    · rw [Nat.compare_eq_gt.2 hl]; simp [Nat.ne_of_gt hl, Nat.lt_asymm hl, fromOrderValue]

theorem option_ord {X : Type} (P : X → Prop) (cmp : X → X → Ordering) (h : IsOrder P cmp) :
    IsOrder (fun o : Option X => ∀ x, o = some x → P x) (optionCompare cmp) where
  refl a ha := by cases a with | none => rfl | some x => exact h.refl x (ha x rfl)
  swap a b ha hb := by
    cases a with
    | none => cases b <;> rfl
    | some x => cases b with | none => rfl | some y => exact h.swap x y (ha x rfl) (hb y rfl)
  trans a b c ha hb hc := by
    cases a with
    | none => cases b <;> cases c <;> simp [optionCompare]
    | some x =>
      cases b with
      | none => simp [optionCompare]
      | some y => cases c with | none => simp [optionCompare] | some z => exact h.trans x y z (ha x rfl) (hb y rfl) (hc z rfl)

theorem result_ord {T E : Type} (P : T → Prop) (Q : E → Prop) (cT : T → T → Ordering) (cE : E → E → Ordering) (h : IsOrder P cT) (h' : IsOrder Q cE) :
    IsOrder (fun r : Except E T => (∀ x, r = .ok x → P x) ∧ ∀ e, r = .error e → Q e) (resultCompare cT cE) where
  refl a ha := by cases a with | ok x => exact h.refl x (ha.1 x rfl) | error e => exact h'.refl e (ha.2 e rfl)
  swap a b ha hb := by
    cases a with
    | ok x => cases b with | ok y => exact h.swap x y (ha.1 x rfl) (hb.1 y rfl) | error e => rfl
    | error x => cases b with | ok y => rfl | error e => exact h'.swap x e (ha.2 x rfl) (hb.2 e rfl)
  trans a b c ha hb hc := by
    cases a with
    | ok x =>
      cases b with
      | error e => simp [resultCompare]
      | ok y => cases c with | error e => simp [resultCompare] | ok z => exact h.trans x y z (ha.1 x rfl) (hb.1 y rfl) (hc.1 z rfl)
    | error x =>
      cases b with
      | ok y => cases c <;> simp [resultCompare]
      | error y => cases c with | ok z => simp [resultCompare] | error z => exact h'.trans x y z (ha.2 x rfl) (hb.2 y rfl) (hc.2 z rfl)

/-! ## Non-vacuity -/

/-- `(data Tree leaf (node Int Tree Tree))` -/
def demoDecls : Decls Unit Unit := fun _ => [⟨"leaf", none⟩, ⟨"node", some [.base (), .data (), .data ()]⟩]

def leaf : Val Int := .con "leaf" []
def node (i : Int) (l r : Val Int) : Val Int := .con "node" [.base i, l, r]

theorem demoTyped_leaf : Typed demoDecls (fun _ _ => True) (.data ()) leaf :=
  .con (c := ⟨"leaf", none⟩) (by simp [demoDecls]) .nil
theorem demoTyped_node (i : Int) {l r : Val Int} (hl : Typed demoDecls (fun _ _ => True) (.data ()) l) (hr : Typed demoDecls (fun _ _ => True) (.data ()) r) :
    Typed demoDecls (fun _ _ => True) (.data ()) (node i l r) :=
  .con (c := ⟨"node", some [.base (), .data (), .data ()]⟩) (by simp [demoDecls]) (.cons (.base trivial) (.cons hl (.cons hr .nil)))

example : Distinct demoDecls := fun _ => by simp [demoDecls]
example : Typed demoDecls (fun _ _ => True) (.data ()) (node 1 leaf (node 2 leaf leaf)) := demoTyped_node 1 demoTyped_leaf (demoTyped_node 2 demoTyped_leaf demoTyped_leaf)
example : compareAt demoDecls (fun _ a b => compare a b) 9 (.data ()) (node 1 leaf (node 2 leaf leaf)) (node 1 leaf (node 3 leaf leaf)) = some .lt := by decide
example : compareAt demoDecls (fun _ a b => compare a b) 9 (.data ()) (node 1 leaf leaf) leaf = some .gt := by decide
example : eqAt demoDecls (fun _ a b => a == b) 9 (.data ()) (node 1 leaf leaf) (node 1 leaf leaf) = some true := by decide
example : (Inst.ofTests (fun a b : Int => a == b) (fun a b => a < b) (fun a b => a ≤ b) (fun a b => a > b) (fun a b => a ≥ b)).Lawful (fun _ => True) :=
  (ofTests_lawful (fun x => x) _ rfl).1
example : compareChainEntry (fun a b : Nat => a < b) [1, 3, 2] = false := by decide
example : stringCompare [97, 98] [97, 98, 0] = some .lt := by decide

end Verif.Derive
