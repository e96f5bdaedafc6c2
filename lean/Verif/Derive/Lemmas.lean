import Verif.Derive.Model

namespace Verif.Derive
variable {A β ι : Type}

theorem conIndex_cons (e : ConDecl β ι) (cs : List (ConDecl β ι)) (n : String) :
    conIndex (e :: cs) n = if e.name = n then 0 else conIndex cs n + 1 := by
  unfold conIndex; rw [List.findIdx_cons]; by_cases h : e.name = n <;> simp [h, beq_eq_false_iff_ne.2]

theorem conTypes_cons (e : ConDecl β ι) (cs : List (ConDecl β ι)) (n : String) :
    conTypes (e :: cs) n = if e.name = n then e.ftys else conTypes cs n := by
  unfold conTypes; rw [List.find?_cons]; by_cases h : e.name = n <;> simp [h, beq_eq_false_iff_ne.2]

theorem name_inj {cs : List (ConDecl β ι)} (hn : (cs.map ConDecl.name).Nodup) {c d : ConDecl β ι} (hc : c ∈ cs) (hd : d ∈ cs) (h : c.name = d.name) : c = d := by
  induction cs with
  | nil => simp at hc
  | cons e cs ih =>
    simp only [List.map_cons, List.nodup_cons] at hn
    rcases List.mem_cons.1 hc with h1 | h1 <;> rcases List.mem_cons.1 hd with h2 | h2
    · exact h1.trans h2.symm
    · subst h1; exact absurd (h ▸ List.mem_map_of_mem h2) hn.1
    · subst h2; exact absurd (h ▸ List.mem_map_of_mem h1) hn.1
    · exact ih hn.2 h1 h2

theorem conTypes_mem {cs : List (ConDecl β ι)} (hn : (cs.map ConDecl.name).Nodup) {c : ConDecl β ι} (hc : c ∈ cs) : conTypes cs c.name = c.ftys := by
  induction cs with
  | nil => simp at hc
  | cons e cs ih =>
    rw [conTypes_cons]
    simp only [List.map_cons, List.nodup_cons] at hn
    rcases List.mem_cons.1 hc with rfl | hc
    · simp
    · have : e.name ≠ c.name := fun h => hn.1 (h ▸ List.mem_map_of_mem hc)
      simp [this, ih hn.2 hc]

theorem conIndex_inj {cs : List (ConDecl β ι)} {c d : ConDecl β ι} (hc : c ∈ cs) (hd : d ∈ cs) (h : conIndex cs c.name = conIndex cs d.name) :
    c.name = d.name := by
  induction cs with
  | nil => simp at hc
  | cons e cs ih =>
    simp only [conIndex_cons] at h
    by_cases h1 : e.name = c.name <;> by_cases h2 : e.name = d.name
    · exact h1.symm.trans h2
    · simp [if_pos h1, if_neg h2] at h
    · simp [if_neg h1, if_pos h2] at h
    · simp only [if_neg h1, if_neg h2, Nat.add_right_cancel_iff] at h
      have hc' : c ∈ cs := by rcases List.mem_cons.1 hc with rfl | hc; exact absurd rfl h1; exact hc
      have hd' : d ∈ cs := by rcases List.mem_cons.1 hd with rfl | hd; exact absurd rfl h2; exact hd
      exact ih hc' hd' h

/-- The generated clauses: the body for equal constructors, otherwise by position. -/
theorem evalMatch_clauses (f : String → Nat → Val A → Val A → Option Ordering) {cs : List (ConDecl β ι)} (hn : (cs.map ConDecl.name).Nodup)
    {c d : ConDecl β ι} (hc : c ∈ cs) (hd : d ∈ cs) {xs ys : List (Val A)} (hx : xs.length = c.ftys.length) (hy : ys.length = d.ftys.length) :
    evalMatch f (.con c.name xs) (.con d.name ys) (comparisonClauses cs) =
      if c.name = d.name then evalCode (f c.name) xs ys (comparisonClause c).body
      else some (compare (conIndex cs c.name) (conIndex cs d.name)) := by
  have hlen : ∀ c : ConDecl β ι, (c.fields.map List.length).getD 0 = c.ftys.length := by
    intro c; unfold ConDecl.ftys; cases c.fields <;> rfl
  have hcl : ∀ c : ConDecl β ι, (comparisonClause c).l = .con c.name (c.fields.map List.length) ∧ (comparisonClause c).r = .con c.name (c.fields.map List.length) := by
    intro c; unfold comparisonClause; cases c.fields <;> exact ⟨rfl, rfl⟩
  have hm : ∀ (e c : ConDecl β ι) (zs : List (Val A)), zs.length = c.ftys.length → (e.name = c.name → e = c) →
      matchPat (.con e.name (e.fields.map List.length)) (.con c.name zs) = if c.name = e.name then some zs else none := by
    intro e c zs hz he
    simp only [matchPat, hlen]
    by_cases h : c.name = e.name
    · have := he h.symm; subst this; simp [hz]
    · simp [h]
  have hinj : ∀ cs : List (ConDecl β ι), (cs.map ConDecl.name).Nodup → ∀ e ∈ cs, ∀ c ∈ cs, e.name = c.name → e = c :=
    fun cs hn e he c hc h => name_inj hn he hc h
  induction cs with
  | nil => simp at hc
  | cons e cs ih =>
    have hec := hinj _ hn e (by simp) c hc
    have hed := hinj _ hn e (by simp) d hd
    simp only [List.map_cons, List.nodup_cons] at hn
    have head : ∀ rest, evalMatch f (.con c.name xs) (.con d.name ys) (comparisonClause e :: rest) =
        if c.name = e.name ∧ d.name = e.name then evalCode (f c.name) xs ys (comparisonClause c).body
        else evalMatch f (.con c.name xs) (.con d.name ys) rest := by
      intro rest
      simp only [evalMatch, (hcl e).1, (hcl e).2, hm e c xs hx hec, hm e d ys hy hed]
      by_cases h1 : c.name = e.name
      · by_cases h2 : d.name = e.name
        · have := hec h1.symm; subst this; simp [h2]
        · simp [h2]
      · simp [h1]
    have hcs : ∀ {c : ConDecl β ι}, c ∈ e :: cs → c.name ≠ e.name → c ∈ cs := by
      intro c hc h; rcases List.mem_cons.1 hc with rfl | hc
      · exact absurd rfl h
      · exact hc
    cases cs with
    | nil =>
      simp at hc hd; subst hc; subst hd
      simp only [comparisonClauses, head]; simp
    | cons e' cs' =>
      rw [show comparisonClauses (e :: e' :: cs') = comparisonClause e :: (comparisonClauseDefault e ++ comparisonClauses (e' :: cs')) from rfl, head]
      simp only [comparisonClauseDefault, List.cons_append, List.nil_append, evalMatch, hm e c xs hx hec, hm e d ys hy hed, conIndex_cons (e := e)]
      by_cases h1 : c.name = e.name
      · by_cases h2 : d.name = e.name
        · simp [h1, h2]
        · have h3 : ¬ e.name = d.name := fun h => h2 h.symm
          simp only [h1, h2, h3]
          simp [matchPat, evalCode, compare, compareOfLessAndEq]
      · by_cases h2 : d.name = e.name
        · have h3 : ¬ e.name = c.name := fun h => h1 h.symm
          have h4 : ¬ c.name = d.name := fun h => h1 (h.trans h2)
          simp [h2, h3, h1, matchPat, evalCode, compare, compareOfLessAndEq]
        · have h3 : ¬ e.name = c.name := fun h => h1 h.symm
          have h4 : ¬ e.name = d.name := fun h => h2 h.symm
          have := ih hn.2 (hcs hc h1) (hcs hd h2)
          simp only [h1, h2, h3, h4, matchPat, this, if_false, false_and]
          by_cases h5 : c.name = d.name
          · simp [h5]
          · simp [h5, compare, compareOfLessAndEq]

/-- A chain of `ordering/or` evaluates from left to right. -/
theorem evalCode_or (f : Nat → Val A → Val A → Option Ordering) (ls rs : List (Val A)) (cs : List Code) :
    evalCode f ls rs (orderingOr cs) = cs.foldr (fun c acc => match evalCode f ls rs c with | some .eq => acc | r => r) (some .eq) := by
  cases cs with
  | nil => rfl
  | cons a bs =>
    simp only [orderingOr]
    induction bs generalizing a with
    | nil => simp only [foldr1, List.foldr_cons, List.foldr_nil]; split <;> simp_all
    | cons b bs ih => simp only [foldr1, evalCode, List.foldr_cons]; rw [ih b]; rfl

theorem typedAll_length {D : Decls β ι} {dom : β → A → Prop} {ts : List (FTy β ι)} {vs : List (Val A)} (h : TypedAll D dom ts vs) : vs.length = ts.length := by
  induction ts generalizing vs with
  | nil => cases h; rfl
  | cons t ts ih => cases h with | cons h1 h2 => simp [ih h2]

theorem typedAll_get {D : Decls β ι} {dom : β → A → Prop} {ts : List (FTy β ι)} {vs : List (Val A)} (h : TypedAll D dom ts vs) {i : Nat} {t : FTy β ι} {v : Val A}
    (ht : ts[i]? = some t) (hv : vs[i]? = some v) : Typed D dom t v := by
  induction ts generalizing vs i with
  | nil => simp at ht
  | cons t ts ih =>
    cases h with
    | cons h1 h2 =>
      cases i with
      | zero => simp at ht hv; subst ht; subst hv; exact h1
      | succ i => simp at ht hv; exact ih h2 ht hv

/-- The fields compared by the generated code are compared lexicographically. -/
theorem evalOr_lex {D : Decls β ι} {cmp : β → A → A → Ordering} (f : Nat → Val A → Val A → Option Ordering) {ts : List (FTy β ι)} {xs ys : List (Val A)}
    (hx : xs.length = ts.length) (hy : ys.length = ts.length)
    (h : ∀ (i : Nat) t x y, ts[i]? = some t → xs[i]? = some x → ys[i]? = some y → f i x y = some (order D cmp t x y)) :
    ((List.range ts.length).map Code.cmp).foldr (fun c acc => match evalCode f xs ys c with | some .eq => acc | r => r) (some .eq) = some (lex D cmp ts xs ys) := by
  rw [List.foldr_map]
  induction ts generalizing f xs ys with
  | nil => cases xs <;> cases ys <;> simp_all [lex]
  | cons t ts ih =>
    cases xs with
    | nil => simp at hx
    | cons x xs =>
      cases ys with
      | nil => simp at hy
      | cons y ys =>
        simp only [List.length_cons, List.range_succ_eq_map, List.foldr_cons, List.foldr_map]
        have h0 := h 0 t x y rfl rfl rfl
        have := ih (f := fun i => f (i + 1)) (xs := xs) (ys := ys) (by simpa using hx) (by simpa using hy)
          (fun i t x y h1 h2 h3 => h (i + 1) t x y (by simpa using h1) (by simpa using h2) (by simpa using h3))
        simp only [evalCode, List.getElem?_cons_zero, h0]
        simp only [evalCode] at this
        simp only [List.getElem?_cons_succ, this, lex]
        cases order D cmp t x y <;> rfl

/-- **The derived `compare` computes the expected order.** -/
theorem compareAt_eq {D : Decls β ι} {dom : β → A → Prop} (hD : Distinct D) (cmp : β → A → A → Ordering) :
    ∀ (n : Nat) (t : FTy β ι) (u v : Val A), sizeOf u < n → Typed D dom t u → Typed D dom t v → compareAt D cmp n t u v = some (order D cmp t u v) := by
  intro n
  induction n with
  | zero => intro t u v h; omega
  | succ n ih =>
    intro t u v hs hu hv
    cases hu with
    | base h1 => cases hv with | base h2 => simp [compareAt, order]
    | @con k xs c hc hxs =>
      cases hv with
      | @con _ ys d hd hys =>
        simp only [compareAt, order]
        rw [evalMatch_clauses _ (hD k) hc hd (typedAll_length hxs) (typedAll_length hys)]
        by_cases h : c.name = d.name
        · have := name_inj (hD k) hc hd h; subst this
          simp only [if_true, conTypes_mem (hD k) hc]
          have hb : (comparisonClause c).body = if c.fields.isSome then orderingOr ((List.range c.ftys.length).map .cmp) else .const .eq := by
            unfold comparisonClause ConDecl.ftys; cases c.fields <;> rfl
          have hlex := evalOr_lex (D := D) (cmp := cmp) (fun i l r => match c.ftys[i]? with | some t => compareAt D cmp n t l r | none => none)
            (typedAll_length hxs) (typedAll_length hys) (fun i t x y h1 h2 h3 => by
              simp only [h1]
              refine ih t x y ?_ (typedAll_get hxs h1 h2) (typedAll_get hys h1 h3)
              have := List.sizeOf_lt_of_mem (List.mem_of_getElem? h2)
              simp at hs; omega)
          have : (compare (conIndex (D k) c.name) (conIndex (D k) c.name)) = .eq := by simp
          rw [hb, this]
          simp only [Ordering.then]
          by_cases hf : c.fields.isSome
          · simp only [hf, if_true]; rw [evalCode_or]; exact hlex
          · have h0 : c.ftys = [] := by unfold ConDecl.ftys; cases hcf : c.fields <;> simp_all
            rw [h0] at hxs hys; cases hxs; cases hys
            simp [hf, evalCode, h0, lex]
        · have : compare (conIndex (D k) c.name) (conIndex (D k) d.name) ≠ .eq := by
            intro h'; exact h (conIndex_inj hc hd (Nat.compare_eq_eq.1 h'))
          simp only [h, if_false]
          cases hcmp : compare (conIndex (D k) c.name) (conIndex (D k) d.name) <;> simp_all [Ordering.then]

/-! ## The laws of the expected order -/

theorem then_swap (a b : Ordering) : (a.then b).swap = a.swap.then b.swap := by cases a <;> cases b <;> rfl

/-- The strong form of transitivity. -/
theorem IsOrder.chain {X : Type} {P : X → Prop} {cmp : X → X → Ordering} (h : IsOrder P cmp) {a b c : X} (ha : P a) (hb : P b) (hc : P c)
    (h1 : cmp a b ≠ .gt) (h2 : cmp b c ≠ .gt) : cmp a c = (cmp a b).then (cmp b c) := by
  have h3 := h.trans a b c ha hb hc h1 h2
  have s1 := h.swap a b ha hb
  have s2 := h.swap b c hb hc
  have s3 := h.swap a c ha hc
  cases e1 : cmp a b with
  | gt => exact absurd e1 h1
  | lt =>
    cases e3 : cmp a c with
    | gt => exact absurd e3 h3
    | lt => rfl
    | eq =>
      have := h.trans b c a hb hc ha h2 (by rw [s3, e3]; decide)
      rw [s1, e1] at this; exact absurd rfl this
  | eq =>
    cases e2 : cmp b c with
    | gt => exact absurd e2 h2
    | lt =>
      cases e3 : cmp a c with
      | gt => exact absurd e3 h3
      | lt => rfl
      | eq =>
        have := h.trans c a b hc ha hb (by rw [s3, e3]; decide) h1
        rw [s2, e2] at this; exact absurd rfl this
    | eq =>
      cases e3 : cmp a c with
      | gt => exact absurd e3 h3
      | eq => rfl
      | lt =>
        have := h.trans c b a hc hb ha (by rw [s2, e2]; decide) (by rw [s1, e1]; decide)
        rw [s3, e3] at this; exact absurd rfl this

theorem nat_compare_chain {i j k : Nat} (h1 : compare i j ≠ .gt) (h2 : compare j k ≠ .gt) : compare i k = (compare i j).then (compare j k) := by
  simp only [compare, compareOfLessAndEq] at *
  repeat' split at *
  all_goals first
    | rfl
    | (exfalso; omega)
    | simp_all [Ordering.then]

theorem nat_compare_swap (i j : Nat) : compare j i = (compare i j).swap := (Nat.compare_swap i j).symm

mutual
theorem order_refl {D : Decls β ι} {dom : β → A → Prop} {cmp : β → A → A → Ordering} (hb : ∀ b, IsOrder (dom b) (cmp b)) (hD : Distinct D) :
    ∀ {t : FTy β ι} {u : Val A}, Typed D dom t u → order D cmp t u u = .eq
  | _, _, .base h => by simp only [order]; exact (hb _).refl _ h
  | _, _, .con (k := k) (c := c) hc hf => by
    simp only [order, conTypes_mem (hD k) hc, lex_refl hb hD hf]; simp
theorem lex_refl {D : Decls β ι} {dom : β → A → Prop} {cmp : β → A → A → Ordering} (hb : ∀ b, IsOrder (dom b) (cmp b)) (hD : Distinct D) :
    ∀ {ts : List (FTy β ι)} {us : List (Val A)}, TypedAll D dom ts us → lex D cmp ts us us = .eq
  | _, _, .nil => by simp [lex]
  | _, _, .cons h1 h2 => by simp [lex, order_refl hb hD h1, lex_refl hb hD h2, Ordering.then]
end

mutual
theorem order_swap {D : Decls β ι} {dom : β → A → Prop} {cmp : β → A → A → Ordering} (hb : ∀ b, IsOrder (dom b) (cmp b)) (hD : Distinct D) :
    ∀ {t : FTy β ι} {u v : Val A}, Typed D dom t u → Typed D dom t v → order D cmp t v u = (order D cmp t u v).swap
  | _, _, _, .base h, .base h' => by simp only [order]; exact (hb _).swap _ _ h h'
  | _, _, _, .con (k := k) (c := c) hc hf, .con (c := d) hd hf' => by
    simp only [order, conTypes_mem (hD k) hc, conTypes_mem (hD k) hd, then_swap]
    rw [nat_compare_swap]
    by_cases h : c.name = d.name
    · have := name_inj (hD k) hc hd h; subst this
      rw [lex_swap hb hD hf hf']
    · have : compare (conIndex (D k) c.name) (conIndex (D k) d.name) ≠ .eq := fun h' => h (conIndex_inj hc hd (Nat.compare_eq_eq.1 h'))
      cases hcmp : compare (conIndex (D k) c.name) (conIndex (D k) d.name) <;> simp_all [Ordering.then, Ordering.swap]
theorem lex_swap {D : Decls β ι} {dom : β → A → Prop} {cmp : β → A → A → Ordering} (hb : ∀ b, IsOrder (dom b) (cmp b)) (hD : Distinct D) :
    ∀ {ts : List (FTy β ι)} {us vs : List (Val A)}, TypedAll D dom ts us → TypedAll D dom ts vs → lex D cmp ts vs us = (lex D cmp ts us vs).swap
  | _, _, _, .nil, .nil => by simp [lex, Ordering.swap]
  | _, _, _, .cons h1 h2, .cons h1' h2' => by
    simp only [lex, then_swap]; rw [order_swap hb hD h1 h1', lex_swap hb hD h2 h2']
end

theorem then_chain {a1 a2 a3 b1 b2 b3 : Ordering} (ha : a1 ≠ .gt → a2 ≠ .gt → a3 = a1.then a2) (hb : a1 = .eq → a2 = .eq → b1 ≠ .gt → b2 ≠ .gt → b3 = b1.then b2)
    (h1 : a1.then b1 ≠ .gt) (h2 : a2.then b2 ≠ .gt) : a3.then b3 = (a1.then b1).then (a2.then b2) := by
  cases a1 <;> cases a2 <;> cases b1 <;> cases b2 <;> simp_all [Ordering.then]

mutual
theorem order_chain {D : Decls β ι} {dom : β → A → Prop} {cmp : β → A → A → Ordering} (hb : ∀ b, IsOrder (dom b) (cmp b)) (hD : Distinct D) :
    ∀ {t : FTy β ι} {u v w : Val A}, Typed D dom t u → Typed D dom t v → Typed D dom t w → order D cmp t u v ≠ .gt → order D cmp t v w ≠ .gt →
      order D cmp t u w = (order D cmp t u v).then (order D cmp t v w)
  | _, _, _, _, .base h, .base h', .base h'', h1, h2 => by simp only [order] at *; exact (hb _).chain h h' h'' h1 h2
  | _, _, _, _, .con (k := k) (c := c) hc hf, .con (c := d) hd hf', .con (c := e) he hf'', h1, h2 => by
    simp only [order, conTypes_mem (hD k) hc, conTypes_mem (hD k) hd] at *
    refine then_chain nat_compare_chain (fun e1 e2 g1 g2 => ?_) h1 h2
    have := name_inj (hD k) hc hd (conIndex_inj hc hd (Nat.compare_eq_eq.1 e1)); subst this
    have := name_inj (hD k) hc he (conIndex_inj hc he (Nat.compare_eq_eq.1 e2)); subst this
    exact lex_chain hb hD hf hf' hf'' g1 g2
theorem lex_chain {D : Decls β ι} {dom : β → A → Prop} {cmp : β → A → A → Ordering} (hb : ∀ b, IsOrder (dom b) (cmp b)) (hD : Distinct D) :
    ∀ {ts : List (FTy β ι)} {us vs ws : List (Val A)}, TypedAll D dom ts us → TypedAll D dom ts vs → TypedAll D dom ts ws →
      lex D cmp ts us vs ≠ .gt → lex D cmp ts vs ws ≠ .gt → lex D cmp ts us ws = (lex D cmp ts us vs).then (lex D cmp ts vs ws)
  | _, _, _, _, .nil, .nil, .nil, _, _ => by simp [lex, Ordering.then]
  | _, _, _, _, .cons h1 h2, .cons h1' h2', .cons h1'' h2'', g1, g2 => by
    simp only [lex] at *
    exact then_chain (order_chain hb hD h1 h1' h1'') (fun _ _ => lex_chain hb hD h2 h2' h2'') g1 g2
end

/-- **The expected order is a total order.** -/
theorem order_isOrder {D : Decls β ι} {dom : β → A → Prop} {cmp : β → A → A → Ordering} (hb : ∀ b, IsOrder (dom b) (cmp b)) (hD : Distinct D) (t : FTy β ι) :
    IsOrder (Typed D dom t) (order D cmp t) where
  refl _ h := order_refl hb hD h
  swap _ _ h h' := order_swap hb hD h h'
  trans _ _ _ h1 h2 h3 g1 g2 := by
    rw [order_chain hb hD h1 h2 h3 g1 g2]
    revert g1 g2; cases order D cmp t _ _ <;> simp [Ordering.then]

mutual
theorem order_eq {D : Decls β ι} {dom : β → A → Prop} {cmp : β → A → A → Ordering} (he : ∀ b x y, dom b x → dom b y → cmp b x y = .eq → x = y) (hD : Distinct D) :
    ∀ {t : FTy β ι} {u v : Val A}, Typed D dom t u → Typed D dom t v → order D cmp t u v = .eq → u = v
  | _, _, _, .base h, .base h', g => by simp only [order] at g; rw [he _ _ _ h h' g]
  | _, _, _, .con (k := k) (c := c) hc hf, .con (c := d) hd hf', g => by
    simp only [order, conTypes_mem (hD k) hc, Ordering.then_eq_eq] at g
    have := name_inj (hD k) hc hd (conIndex_inj hc hd (Nat.compare_eq_eq.1 g.1)); subst this
    rw [lex_eq he hD hf hf' g.2]
theorem lex_eq {D : Decls β ι} {dom : β → A → Prop} {cmp : β → A → A → Ordering} (he : ∀ b x y, dom b x → dom b y → cmp b x y = .eq → x = y) (hD : Distinct D) :
    ∀ {ts : List (FTy β ι)} {us vs : List (Val A)}, TypedAll D dom ts us → TypedAll D dom ts vs → lex D cmp ts us vs = .eq → us = vs
  | _, _, _, .nil, .nil, _ => rfl
  | _, _, _, .cons h1 h2, .cons h1' h2', g => by
    simp only [lex, Ordering.then_eq_eq] at g
    rw [order_eq he hD h1 h1' g.1, lex_eq he hD h2 h2' g.2]
end

/-! ## `derive/Eq` -/

theorem evalAnd_eq (f : Nat → Option Bool) (is : List Nat) :
    evalAnd f is = is.foldr (fun i acc => match f i with | some true => acc | r => r) (some true) := by
  cases is with
  | nil => rfl
  | cons i is =>
    simp only [evalAnd]
    induction is generalizing i with
    | nil => simp only [foldr1, List.map_nil, List.foldr_cons, List.foldr_nil]; split <;> simp_all
    | cons j is ih => simp only [List.map_cons, foldr1, List.foldr_cons]; rw [ih j]; rfl

theorem evalAnd_lex {D : Decls β ι} {cmp : β → A → A → Ordering} (f : Nat → Val A → Val A → Option Bool) {ts : List (FTy β ι)} {xs ys : List (Val A)}
    (hx : xs.length = ts.length) (hy : ys.length = ts.length)
    (h : ∀ (i : Nat) t x y, ts[i]? = some t → xs[i]? = some x → ys[i]? = some y → f i x y = some (order D cmp t x y == .eq)) :
    (List.range ts.length).foldr (fun i acc => match (match xs[i]?, ys[i]? with | some l, some r => f i l r | _, _ => none) with | some true => acc | r => r)
      (some true) = some (lex D cmp ts xs ys == .eq) := by
  induction ts generalizing f xs ys with
  | nil => cases xs <;> cases ys <;> simp_all [lex]
  | cons t ts ih =>
    cases xs with
    | nil => simp at hx
    | cons x xs =>
      cases ys with
      | nil => simp at hy
      | cons y ys =>
        simp only [List.length_cons, List.range_succ_eq_map, List.foldr_cons, List.foldr_map]
        have h0 := h 0 t x y rfl rfl rfl
        have := ih (f := fun i => f (i + 1)) (xs := xs) (ys := ys) (by simpa using hx) (by simpa using hy)
          (fun i t x y h1 h2 h3 => h (i + 1) t x y (by simpa using h1) (by simpa using h2) (by simpa using h3))
        simp only [List.getElem?_cons_zero, h0]
        simp only [List.getElem?_cons_succ, this, lex]
        cases order D cmp t x y <;> rfl

theorem evalEqClauses_eq (f : String → Nat → Val A → Val A → Option Bool) {cs : List (ConDecl β ι)} (hn : (cs.map ConDecl.name).Nodup) (last : Option Bool)
    {c d : ConDecl β ι} (hc : c ∈ cs) (hd : d ∈ cs) {xs ys : List (Val A)} (hx : xs.length = c.ftys.length) (hy : ys.length = d.ftys.length) :
    evalEqClauses f (.con c.name xs) (.con d.name ys) last cs =
      if c.name = d.name then evalAnd (fun i => match xs[i]?, ys[i]? with | some l, some r => f c.name i l r | _, _ => none) (List.range c.ftys.length)
      else last := by
  have hlen : ∀ c : ConDecl β ι, (c.fields.map List.length).getD 0 = c.ftys.length := by
    intro c; unfold ConDecl.ftys; cases c.fields <;> rfl
  suffices H : ∀ es : List (ConDecl β ι), (∀ e ∈ es, e ∈ cs) → evalEqClauses f (.con c.name xs) (.con d.name ys) last es =
      if c.name = d.name ∧ c.name ∈ es.map ConDecl.name then evalAnd (fun i => match xs[i]?, ys[i]? with | some l, some r => f c.name i l r | _, _ => none) (List.range c.ftys.length)
      else last by
    rw [H cs (fun _ h => h)]; have := List.mem_map_of_mem (f := ConDecl.name) hc; simp only [this, and_true]
  intro es
  induction es with
  | nil => intro _; simp [evalEqClauses]
  | cons e es ih =>
    intro hes
    have he := hes e (by simp)
    rw [evalEqClauses]
    by_cases h : c.name = d.name
    · have := name_inj hn hc hd h; subst this
      by_cases h1 : c.name = e.name
      · have := name_inj hn hc he h1; subst this
        simp only [matchPat, hlen, hx, hy, and_self, if_true, List.map_cons, List.mem_cons, true_or]
        cases hf : c.fields with
        | none => simp [ConDecl.ftys, hf, evalAnd]
        | some fs => simp only [ConDecl.ftys, hf, Option.getD_some]; rfl
      · simp only [matchPat, h1, false_and, if_false, List.map_cons, List.mem_cons, false_or]
        have ih' := ih (fun e h => hes e (by simp [h]))
        simp only [true_and] at ih' ⊢; exact ih'
    · have : ¬ (c.name = e.name ∧ d.name = e.name) := fun h' => h (h'.1.trans h'.2.symm)
      have ih' := ih (fun e h => hes e (by simp [h]))
      simp only [h, false_and, if_false] at ih' ⊢
      simp only [matchPat]
      by_cases h1 : c.name = e.name
      · have h2 : ¬ d.name = e.name := fun h2 => this ⟨h1, h2⟩
        simp only [h2, false_and, if_false]
        split <;> simp_all
      · simp only [h1, false_and, if_false]; exact ih'

/-- The derived `eq?` agrees with the derived `compare` if it does on the base types. -/
theorem eqAt_eq {D : Decls β ι} {dom : β → A → Prop} (hD : Distinct D) (cmp : β → A → A → Ordering) (eq : β → A → A → Bool)
    (he : ∀ b x y, dom b x → dom b y → eq b x y = (cmp b x y == .eq)) :
    ∀ (n : Nat) (t : FTy β ι) (u v : Val A), sizeOf u < n → Typed D dom t u → Typed D dom t v → eqAt D eq n t u v = some (order D cmp t u v == .eq) := by
  intro n
  induction n with
  | zero => intro t u v h; omega
  | succ n ih =>
    intro t u v hs hu hv
    cases hu with
    | base h1 => cases hv with | base h2 => simp [eqAt, order, he _ _ _ h1 h2]
    | @con k xs c hc hxs =>
      cases hv with
      | @con _ ys d hd hys =>
        simp only [eqAt, order]
        rw [evalEqClauses_eq _ (hD k) _ hc hd (typedAll_length hxs) (typedAll_length hys)]
        by_cases h : c.name = d.name
        · have := name_inj (hD k) hc hd h; subst this
          simp only [if_true, conTypes_mem (hD k) hc, evalAnd_eq]
          have hlex := evalAnd_lex (D := D) (cmp := cmp) (fun i l r => match c.ftys[i]? with | some t => eqAt D eq n t l r | none => none)
            (typedAll_length hxs) (typedAll_length hys) (fun i t x y h1 h2 h3 => by
              simp only [h1]
              refine ih t x y ?_ (typedAll_get hxs h1 h2) (typedAll_get hys h1 h3)
              have := List.sizeOf_lt_of_mem (List.mem_of_getElem? h2)
              simp at hs; omega)
          exact hlex.trans (by simp)
        · have h1 : compare (conIndex (D k) c.name) (conIndex (D k) d.name) ≠ .eq := by
            intro h'; exact h (conIndex_inj hc hd (Nat.compare_eq_eq.1 h'))
          have h2 : (D k).length ≠ 1 := by
            intro hl
            obtain ⟨e, he⟩ := List.length_eq_one_iff.1 hl
            rw [he] at hc hd; simp at hc hd; exact h (by rw [hc, hd])
          simp only [h, h2, if_false]
          cases hcmp : compare (conIndex (D k) c.name) (conIndex (D k) d.name) <;> simp_all [Ordering.then]

end Verif.Derive
