import Verif.Heap2Stack.Spec

/-
The pass moves exactly the allocations of a set of sites, each of which is the initial value of a
variable whose address is not used.
-/

namespace Verif.Heap2Stack

mutual
/-- An expression with the allocations of a set of sites moved, where they are initial values of
variables (`b`). -/
def mark (P : List Nat) : Bool → Rt → Rt
  | _, .var x => .var x
  | _, .fn f => .fn f
  | _, .clos f e => .clos f (mark P false e)
  | _, .prim op as => .prim op (markList P as)
  | _, .call c as => .call (mark P false c) (markList P as)
  | _, .contCall k as => .contCall k (markList P as)
  | _, .load p => .load (mark P false p)
  | _, .store v p => .store (mark P false v) (mark P false p)
  | _, .panic e => .panic (mark P false e)
  | b, .alloc l s i => .alloc (if b = true ∧ s ∈ P then .stackStatic else l) s (mark P false i)
  | _, .seq ss e => .seq (markList P ss) (mark P false e)
  | _, .ite c t e => .ite (mark P false c) (mark P false t) (mark P false e)
  | _, .while c b => .while (mark P false c) (mark P false b)
  | _, .ret e => .ret (mark P false e)
  | _, .never => .never
  | _, .letVar vs b => .letVar (markVars P vs) (mark P false b)
  | _, .letCont ks b => .letCont (markConts P ks) (mark P false b)

/-- The same for operands. -/
def markList (P : List Nat) : Rts → Rts
  | .nil => .nil
  | .cons e es => .cons (mark P false e) (markList P es)

/-- The same for initial values. -/
def markVars (P : List Nat) : Vars → Vars
  | .nil => .nil
  | .cons x i vs => .cons x (mark P true i) (markVars P vs)

/-- The same for continuations. -/
def markConts (P : List Nat) : Conts → Conts
  | .nil => .nil
  | .cons k ps b ks => .cons k ps (mark P false b) (markConts P ks)
end

/-- What must hold of an allocation at a place: moved only as the initial value of a variable
that is not among the escaping ones. -/
def OkSite (P : List Nat) (o : Option (Nat × List Nat)) (l : Loc) (s : Nat) : Prop :=
  s ∈ P → l = .heap ∧ ∃ x E, o = some (x, E) ∧ x ∉ E

mutual
/-- All allocations of a set of sites are of the right kind. -/
def Ok (P : List Nat) : Option (Nat × List Nat) → Rt → Prop
  | _, .var _ | _, .fn _ | _, .never => True
  | _, .clos _ e | _, .load e | _, .panic e | _, .ret e => Ok P none e
  | _, .prim _ as | _, .contCall _ as => OkList P as
  | _, .call c as => Ok P none c ∧ OkList P as
  | _, .store v p => Ok P none v ∧ Ok P none p
  | o, .alloc l s i => OkSite P o l s ∧ Ok P none i
  | _, .seq ss e => OkList P ss ∧ Ok P none e
  | _, .ite c t e => Ok P none c ∧ Ok P none t ∧ Ok P none e
  | _, .while c b => Ok P none c ∧ Ok P none b
  | _, .letVar vs b => OkVars P (escsVars vs ++ escs b) vs ∧ Ok P none b
  | _, .letCont ks b => OkConts P ks ∧ Ok P none b

/-- The same for operands. -/
def OkList (P : List Nat) : Rts → Prop
  | .nil => True
  | .cons e es => Ok P none e ∧ OkList P es

/-- The same for initial values. -/
def OkVars (P : List Nat) (E : List Nat) : Vars → Prop
  | .nil => True
  | .cons x i vs => Ok P (some (x, E)) i ∧ OkVars P E vs

/-- The same for continuations. -/
def OkConts (P : List Nat) : Conts → Prop
  | .nil => True
  | .cons _ _ b ks => Ok P none b ∧ OkConts P ks
end

theorem load_cases (p : Rt) : (∃ x, p = .var x) ∨
    ((∀ S, pass (.load p) S = (.load (pass p S).1, (pass p S).2)) ∧ escs (.load p) = escs p) := by
  cases p <;> first
    | exact Or.inl ⟨_, rfl⟩
    | exact Or.inr ⟨fun S => by simp only [pass], by simp only [escs]⟩

theorem store_cases (v p : Rt) : (∃ x, p = .var x) ∨
    ((∀ S, pass (.store v p) S =
        (.store (pass v S).1 (pass p (pass v S).2).1, (pass p (pass v S).2).2)) ∧
      escs (.store v p) = escs v ++ escs p) := by
  cases p <;> first
    | exact Or.inl ⟨_, rfl⟩
    | exact Or.inr ⟨fun S => by simp only [pass], by simp only [escs]⟩

/-- No initial value binds the variable. -/
def FreshInits (x : Nat) : Vars → Prop
  | .nil => True
  | .cons _ i vs => x ∉ binders i ∧ FreshInits x vs

/-- The variables of a `let`. -/
def ids : Vars → List Nat
  | .nil => []
  | .cons x _ vs => x :: ids vs

theorem ids_sub : (vs : Vars) → ∀ x ∈ ids vs, x ∈ bindersVars vs
  | .nil => fun x h => by simp [ids] at h
  | .cons y i vs => fun x h => by
    simp only [ids, List.mem_cons] at h
    simp only [bindersVars, List.mem_cons, List.mem_append]
    cases h with
    | inl h => exact Or.inl h
    | inr h => exact Or.inr (Or.inr (ids_sub vs x h))

theorem fresh_of_not_mem : (vs : Vars) → ∀ x, x ∉ bindersVars vs → FreshInits x vs
  | .nil => fun _ _ => trivial
  | .cons y i vs => fun x h => by
    simp only [bindersVars, List.mem_cons, List.mem_append, not_or] at h
    exact ⟨h.2.1, fresh_of_not_mem vs x h.2.2⟩

theorem fresh_of_nodup : (vs : Vars) → (bindersVars vs).Nodup → ∀ x ∈ ids vs, FreshInits x vs
  | .nil => fun _ _ _ => trivial
  | .cons y i vs => fun h x hx => by
    simp only [bindersVars, List.nodup_cons, List.mem_append, not_or, List.nodup_append] at h
    obtain ⟨⟨h1, h2⟩, h3, h4, h5⟩ := h
    simp only [ids, List.mem_cons] at hx
    cases hx with
    | inl e => subst e; exact ⟨h1, fresh_of_not_mem vs x h2⟩
    | inr hx =>
      exact ⟨fun hb => h5 _ hb _ (ids_sub vs x hx) rfl, fresh_of_nodup vs h4 x hx⟩

theorem mem_remove (x y : Nat) (S : List Nat) : x ∈ remove y S ↔ x ∈ S ∧ x ≠ y := by
  simp [remove]

theorem mem_insertAllocs : (vs : Vars) → ∀ (S : List Nat) (x : Nat), x ∉ ids vs →
    (x ∈ insertAllocs vs S ↔ x ∈ S)
  | .nil => fun _ _ _ => Iff.rfl
  | .cons y i vs => fun S x h => by
    simp only [ids, List.mem_cons, not_or] at h
    cases i <;> simp only [insertAllocs] <;>
      first
      | exact mem_insertAllocs vs S x h.2
      | (rw [mem_insertAllocs vs _ x h.2, List.mem_cons]
         exact ⟨fun q => q.resolve_left h.1, Or.inr⟩)

/-- Two visits after one another. -/
theorem both {a b c p q : Prop} (h1 : b ↔ a ∧ ¬ p) (h2 : c ↔ b ∧ ¬ q) :
    c ↔ a ∧ ¬ (p ∨ q) := by
  rw [h2, h1, not_or, and_assoc]

mutual
/-- A variable that is not bound inside stays in the set exactly when its address is not used. -/
theorem pass_mem : (e : Rt) → ∀ (S : List Nat) (x : Nat), x ∉ binders e →
    (x ∈ (pass e S).2 ↔ x ∈ S ∧ x ∉ escs e)
  | .var y => fun S x _ => by simp [pass, escs, mem_remove]
  | .fn f => fun S x _ => by simp [pass, escs]
  | .never => fun S x _ => by simp [pass, escs]
  | .clos f e => fun S x h => by
    simp only [pass, escs]; exact pass_mem e S x (by simpa only [binders] using h)
  | .panic e => fun S x h => by
    simp only [pass, escs]; exact pass_mem e S x (by simpa only [binders] using h)
  | .ret e => fun S x h => by
    simp only [pass, escs]; exact pass_mem e S x (by simpa only [binders] using h)
  | .alloc l s e => fun S x h => by
    simp only [pass, escs]; exact pass_mem e S x (by simpa only [binders] using h)
  | .prim op as => fun S x h => by
    simp only [pass, escs]; exact passList_mem as S x (by simpa only [binders] using h)
  | .contCall k as => fun S x h => by
    simp only [pass, escs]; exact passList_mem as S x (by simpa only [binders] using h)
  | .call c as => fun S x h => by
    simp only [binders, List.mem_append, not_or] at h
    simp only [pass, escs, List.mem_append]
    exact both (pass_mem c S x h.1) (passList_mem as _ x h.2)
  | .load p => fun S x h => by
    have ih := pass_mem p S x (by simpa only [binders] using h)
    rcases load_cases p with ⟨y, rfl⟩ | ⟨h1, h2⟩
    · simp [pass, escs]
    · rw [h1, h2]; exact ih
  | .store v p => fun S x h => by
    simp only [binders, List.mem_append, not_or] at h
    have ih1 := pass_mem v S x h.1
    have ih2 := pass_mem p (pass v S).2 x h.2
    rcases store_cases v p with ⟨y, rfl⟩ | ⟨h1, h2⟩
    · simp only [pass, escs]; exact ih1
    · rw [h1, h2, List.mem_append]; exact both ih1 ih2
  | .seq ss e => fun S x h => by
    simp only [binders, List.mem_append, not_or] at h
    simp only [pass, escs, List.mem_append]
    exact both (passList_mem ss S x h.1) (pass_mem e _ x h.2)
  | .ite c t e => fun S x h => by
    simp only [binders, List.mem_append, not_or] at h
    simp only [pass, escs, List.mem_append]
    exact both (both (pass_mem c S x h.1.1) (pass_mem t _ x h.1.2)) (pass_mem e _ x h.2)
  | .while c b => fun S x h => by
    simp only [binders, List.mem_append, not_or] at h
    simp only [pass, escs, List.mem_append]
    exact both (pass_mem c S x h.1) (pass_mem b _ x h.2)
  | .letVar vs b => fun S x h => by
    simp only [binders, List.mem_append, not_or] at h
    simp only [pass, escs, List.mem_append]
    refine both ?_ (pass_mem b _ x h.2)
    rw [passVars_mem vs _ x (fresh_of_not_mem vs x h.1),
      mem_insertAllocs vs S x (fun q => h.1 (ids_sub vs x q))]
  | .letCont ks b => fun S x h => by
    simp only [binders, List.mem_append, not_or] at h
    simp only [pass, escs, List.mem_append]
    exact both (passConts_mem ks S x h.1) (pass_mem b _ x h.2)

theorem passList_mem : (es : Rts) → ∀ (S : List Nat) (x : Nat), x ∉ bindersList es →
    (x ∈ (passList es S).2 ↔ x ∈ S ∧ x ∉ escsList es)
  | .nil => fun S x _ => by simp [passList, escsList]
  | .cons e es => fun S x h => by
    simp only [bindersList, List.mem_append, not_or] at h
    simp only [passList, escsList, List.mem_append]
    exact both (pass_mem e S x h.1) (passList_mem es _ x h.2)

theorem passVars_mem : (vs : Vars) → ∀ (S : List Nat) (x : Nat), FreshInits x vs →
    (x ∈ (passVars vs S).2 ↔ x ∈ S ∧ x ∉ escsVars vs)
  | .nil => fun S x _ => by simp [passVars, escsVars]
  | .cons y i vs => fun S x h => by
    simp only [passVars, escsVars, List.mem_append]
    exact both (pass_mem i S x h.1) (passVars_mem vs _ x h.2)

theorem passConts_mem : (ks : Conts) → ∀ (S : List Nat) (x : Nat), x ∉ bindersConts ks →
    (x ∈ (passConts ks S).2 ↔ x ∈ S ∧ x ∉ escsConts ks)
  | .nil => fun S x _ => by simp [passConts, escsConts]
  | .cons k ps b ks => fun S x h => by
    simp only [bindersConts, List.mem_append, not_or] at h
    simp only [passConts, escsConts, List.mem_append]
    exact both (pass_mem b S x h.1) (passConts_mem ks _ x h.2)
end

theorem okSite_congr {P Q : List Nat} {o : Option (Nat × List Nat)} {l : Loc} {s : Nat}
    (h : s ∈ P ↔ s ∈ Q) : OkSite P o l s ↔ OkSite Q o l s := by
  unfold OkSite; rw [h]

mutual
/-- Only the sites of an expression matter. -/
theorem mark_congr : (e : Rt) → ∀ (P Q : List Nat) (b : Bool) (o : Option (Nat × List Nat)),
    (∀ s ∈ sites e, s ∈ P ↔ s ∈ Q) → mark P b e = mark Q b e ∧ (Ok P o e ↔ Ok Q o e)
  | .var y => fun _ _ _ _ _ => by simp [mark, Ok]
  | .fn f => fun _ _ _ _ _ => by simp [mark, Ok]
  | .never => fun _ _ _ _ _ => by simp [mark, Ok]
  | .clos f e => fun P Q b o h => by
    have := mark_congr e P Q false none (by simpa only [sites] using h)
    simp only [mark, Ok]; exact ⟨by rw [this.1], this.2⟩
  | .panic e => fun P Q b o h => by
    have := mark_congr e P Q false none (by simpa only [sites] using h)
    simp only [mark, Ok]; exact ⟨by rw [this.1], this.2⟩
  | .ret e => fun P Q b o h => by
    have := mark_congr e P Q false none (by simpa only [sites] using h)
    simp only [mark, Ok]; exact ⟨by rw [this.1], this.2⟩
  | .load e => fun P Q b o h => by
    have := mark_congr e P Q false none (by simpa only [sites] using h)
    simp only [mark, Ok]; exact ⟨by rw [this.1], this.2⟩
  | .alloc l s e => fun P Q b o h => by
    simp only [sites, List.mem_cons, forall_eq_or_imp] at h
    have := mark_congr e P Q false none h.2
    simp only [mark, Ok]; exact ⟨by rw [this.1]; simp only [h.1], by
      rw [this.2, okSite_congr h.1]⟩
  | .prim op as => fun P Q b o h => by
    have := markList_congr as P Q (by simpa only [sites] using h)
    simp only [mark, Ok]; exact ⟨by rw [this.1], this.2⟩
  | .contCall k as => fun P Q b o h => by
    have := markList_congr as P Q (by simpa only [sites] using h)
    simp only [mark, Ok]; exact ⟨by rw [this.1], this.2⟩
  | .call c as => fun P Q b o h => by
    simp only [sites, List.mem_append] at h
    have h1 := mark_congr c P Q false none (fun s hs => h s (Or.inl hs))
    have h2 := markList_congr as P Q (fun s hs => h s (Or.inr hs))
    simp only [mark, Ok]; exact ⟨by rw [h1.1, h2.1], by rw [h1.2, h2.2]⟩
  | .store v p => fun P Q b o h => by
    simp only [sites, List.mem_append] at h
    have h1 := mark_congr v P Q false none (fun s hs => h s (Or.inl hs))
    have h2 := mark_congr p P Q false none (fun s hs => h s (Or.inr hs))
    simp only [mark, Ok]; exact ⟨by rw [h1.1, h2.1], by rw [h1.2, h2.2]⟩
  | .seq ss e => fun P Q b o h => by
    simp only [sites, List.mem_append] at h
    have h1 := markList_congr ss P Q (fun s hs => h s (Or.inl hs))
    have h2 := mark_congr e P Q false none (fun s hs => h s (Or.inr hs))
    simp only [mark, Ok]; exact ⟨by rw [h1.1, h2.1], by rw [h1.2, h2.2]⟩
  | .ite c t e => fun P Q b o h => by
    simp only [sites, List.mem_append] at h
    have h1 := mark_congr c P Q false none (fun s hs => h s (Or.inl (Or.inl hs)))
    have h2 := mark_congr t P Q false none (fun s hs => h s (Or.inl (Or.inr hs)))
    have h3 := mark_congr e P Q false none (fun s hs => h s (Or.inr hs))
    simp only [mark, Ok]; exact ⟨by rw [h1.1, h2.1, h3.1], by rw [h1.2, h2.2, h3.2]⟩
  | .while c e => fun P Q b o h => by
    simp only [sites, List.mem_append] at h
    have h1 := mark_congr c P Q false none (fun s hs => h s (Or.inl hs))
    have h2 := mark_congr e P Q false none (fun s hs => h s (Or.inr hs))
    simp only [mark, Ok]; exact ⟨by rw [h1.1, h2.1], by rw [h1.2, h2.2]⟩
  | .letVar vs e => fun P Q b o h => by
    simp only [sites, List.mem_append] at h
    have h1 := markVars_congr vs P Q (escsVars vs ++ escs e) (fun s hs => h s (Or.inl hs))
    have h2 := mark_congr e P Q false none (fun s hs => h s (Or.inr hs))
    simp only [mark, Ok]; exact ⟨by rw [h1.1, h2.1], by rw [h1.2, h2.2]⟩
  | .letCont ks e => fun P Q b o h => by
    simp only [sites, List.mem_append] at h
    have h1 := markConts_congr ks P Q (fun s hs => h s (Or.inl hs))
    have h2 := mark_congr e P Q false none (fun s hs => h s (Or.inr hs))
    simp only [mark, Ok]; exact ⟨by rw [h1.1, h2.1], by rw [h1.2, h2.2]⟩

theorem markList_congr : (es : Rts) → ∀ (P Q : List Nat),
    (∀ s ∈ sitesList es, s ∈ P ↔ s ∈ Q) →
    markList P es = markList Q es ∧ (OkList P es ↔ OkList Q es)
  | .nil => fun _ _ _ => by simp [markList, OkList]
  | .cons e es => fun P Q h => by
    simp only [sitesList, List.mem_append] at h
    have h1 := mark_congr e P Q false none (fun s hs => h s (Or.inl hs))
    have h2 := markList_congr es P Q (fun s hs => h s (Or.inr hs))
    simp only [markList, OkList]; exact ⟨by rw [h1.1, h2.1], by rw [h1.2, h2.2]⟩

theorem markVars_congr : (vs : Vars) → ∀ (P Q E : List Nat),
    (∀ s ∈ sitesVars vs, s ∈ P ↔ s ∈ Q) →
    markVars P vs = markVars Q vs ∧ (OkVars P E vs ↔ OkVars Q E vs)
  | .nil => fun _ _ _ _ => by simp [markVars, OkVars]
  | .cons x i vs => fun P Q E h => by
    simp only [sitesVars, List.mem_append] at h
    have h1 := mark_congr i P Q true (some (x, E)) (fun s hs => h s (Or.inl hs))
    have h2 := markVars_congr vs P Q E (fun s hs => h s (Or.inr hs))
    simp only [markVars, OkVars]; exact ⟨by rw [h1.1, h2.1], by rw [h1.2, h2.2]⟩

theorem markConts_congr : (ks : Conts) → ∀ (P Q : List Nat),
    (∀ s ∈ sitesConts ks, s ∈ P ↔ s ∈ Q) →
    markConts P ks = markConts Q ks ∧ (OkConts P ks ↔ OkConts Q ks)
  | .nil => fun _ _ _ => by simp [markConts, OkConts]
  | .cons k ps b ks => fun P Q h => by
    simp only [sitesConts, List.mem_append] at h
    have h1 := mark_congr b P Q false none (fun s hs => h s (Or.inl hs))
    have h2 := markConts_congr ks P Q (fun s hs => h s (Or.inr hs))
    simp only [markConts, OkConts]; exact ⟨by rw [h1.1, h2.1], by rw [h1.2, h2.2]⟩
end

end Verif.Heap2Stack
