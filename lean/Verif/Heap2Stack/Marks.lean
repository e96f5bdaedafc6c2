import Verif.Heap2Stack.Lemmas

/-
What the pass gives is the expression with the allocations of a good set of sites moved.
-/

namespace Verif.Heap2Stack

/-- The pass at an expression moves a good set of sites. -/
def Good (e : Rt) (S : List Nat) : Prop :=
  ∃ P, (∀ s ∈ P, s ∈ sites e) ∧ (pass e S).1 = mark P false e ∧ Ok P none e

/-- The same at the initial value of a variable. -/
def GoodInit (e : Rt) (S : List Nat) : Prop :=
  ∀ (S' : List Nat) (x : Nat) (E : List Nat), (x ∈ S' → x ∉ E) →
    ∃ P, (∀ s ∈ P, s ∈ sites e) ∧ promoteInit S' x (pass e S).1 = mark P true e ∧
      Ok P (some (x, E)) e

theorem iff_left {A B P Q : List Nat} (hd : ∀ a ∈ A, ∀ b ∈ B, a ≠ b) (hQ : ∀ s ∈ Q, s ∈ B) :
    ∀ s ∈ A, s ∈ P ↔ s ∈ P ++ Q := fun s hs =>
  ⟨fun h => List.mem_append.2 (Or.inl h), fun h => (List.mem_append.1 h).resolve_right
    (fun q => hd s hs s (hQ s q) rfl)⟩

theorem iff_right {A B P Q : List Nat} (hd : ∀ a ∈ A, ∀ b ∈ B, a ≠ b) (hP : ∀ s ∈ P, s ∈ A) :
    ∀ s ∈ B, s ∈ Q ↔ s ∈ P ++ Q := fun s hs =>
  ⟨fun h => List.mem_append.2 (Or.inr h), fun h => (List.mem_append.1 h).resolve_left
    (fun q => hd s (hP s q) s hs rfl)⟩

theorem sub_append {A B P Q : List Nat} (hP : ∀ s ∈ P, s ∈ A) (hQ : ∀ s ∈ Q, s ∈ B) :
    ∀ s ∈ P ++ Q, s ∈ A ++ B := fun s h => by
  rw [List.mem_append] at *
  exact h.imp (hP s) (hQ s)

theorem init_of_good {e : Rt} {S : List Nat} (hn : ∀ l s j, e ≠ .alloc l s j)
    (hn' : ∀ l s j, (pass e S).1 ≠ .alloc l s j) (h : Good e S) : Good e S ∧ GoodInit e S := by
  refine ⟨h, fun S' x E _ => ?_⟩
  obtain ⟨P, h1, h2, h3⟩ := h
  refine ⟨P, h1, ?_, ?_⟩
  · have e1 : promoteInit S' x (pass e S).1 = (pass e S).1 := by
      unfold promoteInit
      split
      · split
        · rename_i q; exact absurd q (hn' _ _ _)
        · rfl
      · rfl
    rw [e1, h2]
    cases e <;> first | rfl | exact absurd rfl (hn _ _ _)
  · cases e <;> first | exact h3 | exact absurd rfl (hn _ _ _)

theorem load_not_alloc (p : Rt) (S : List Nat) : ∀ l s j, (pass (.load p) S).1 ≠ .alloc l s j := by
  intro l s j
  rcases load_cases p with ⟨y, rfl⟩ | ⟨h1, _⟩
  · simp [pass]
  · rw [h1]; exact Rt.noConfusion

theorem store_not_alloc (v p : Rt) (S : List Nat) :
    ∀ l s j, (pass (.store v p) S).1 ≠ .alloc l s j := by
  intro l s j
  rcases store_cases v p with ⟨y, rfl⟩ | ⟨h1, _⟩
  · simp [pass]
  · rw [h1]; exact Rt.noConfusion

mutual
theorem pass_mark : (e : Rt) → ∀ (S : List Nat), (sites e).Nodup → (binders e).Nodup →
    Good e S ∧ GoodInit e S
  | .var y => fun S _ _ => init_of_good (by simp) (by simp [pass])
      ⟨[], by simp, by simp [pass, mark], by simp [Ok]⟩
  | .fn f => fun S _ _ => init_of_good (by simp) (by simp [pass])
      ⟨[], by simp, by simp [pass, mark], by simp [Ok]⟩
  | .never => fun S _ _ => init_of_good (by simp) (by simp [pass])
      ⟨[], by simp, by simp [pass, mark], by simp [Ok]⟩
  | .clos f e => fun S hs hb => init_of_good (by simp) (by simp [pass]) (by
      simp only [sites, binders] at hs hb
      obtain ⟨P, h1, h2, h3⟩ := (pass_mark e S hs hb).1
      exact ⟨P, by simpa only [sites] using h1, by simp only [pass, mark, h2],
        by simpa only [Ok] using h3⟩)
  | .panic e => fun S hs hb => init_of_good (by simp) (by simp [pass]) (by
      simp only [sites, binders] at hs hb
      obtain ⟨P, h1, h2, h3⟩ := (pass_mark e S hs hb).1
      exact ⟨P, by simpa only [sites] using h1, by simp only [pass, mark, h2],
        by simpa only [Ok] using h3⟩)
  | .ret e => fun S hs hb => init_of_good (by simp) (by simp [pass]) (by
      simp only [sites, binders] at hs hb
      obtain ⟨P, h1, h2, h3⟩ := (pass_mark e S hs hb).1
      exact ⟨P, by simpa only [sites] using h1, by simp only [pass, mark, h2],
        by simpa only [Ok] using h3⟩)
  | .alloc l s j => fun S hs hb => by
      simp only [sites, binders, List.nodup_cons] at hs hb
      obtain ⟨P, h1, h2, h3⟩ := (pass_mark j S hs.2 hb).1
      have hsP : s ∉ P := fun q => hs.1 (h1 s q)
      refine ⟨⟨P, ?_, ?_, ?_⟩, ?_⟩
      · intro t ht; simp only [sites, List.mem_cons]; exact Or.inr (h1 t ht)
      · simp only [pass, mark, h2]; simp
      · simp only [Ok]; exact ⟨fun q => absurd q hsP, h3⟩
      · intro S' x E hx
        by_cases hc : x ∈ S' ∧ l = .heap
        · have hcg := mark_congr j P (s :: P) false none (fun t ht => by
            simp only [List.mem_cons]
            exact ⟨Or.inr, fun q => q.resolve_left (fun e => hs.1 (e ▸ ht))⟩)
          refine ⟨s :: P, ?_, ?_, ?_⟩
          · intro t ht
            simp only [sites, List.mem_cons] at ht ⊢
            exact ht.imp id (h1 t)
          · simp only [pass, mark, promoteInit, if_pos hc.1, h2, hcg.1]; simp
          · simp only [Ok]
            exact ⟨fun _ => ⟨hc.2, x, E, rfl, hx hc.1⟩, hcg.2.1 h3⟩
        · refine ⟨P, ?_, ?_, ?_⟩
          · intro t ht; simp only [sites, List.mem_cons]; exact Or.inr (h1 t ht)
          · simp only [pass, mark, promoteInit, h2, hsP, and_false, if_false]
            by_cases hxs : x ∈ S'
            · have : l = .stackStatic := by
                cases l
                · exact absurd ⟨hxs, rfl⟩ hc
                · rfl
              simp [hxs, this]
            · simp [hxs]
          · simp only [Ok]; exact ⟨fun q => absurd q hsP, h3⟩
  | .prim op as => fun S hs hb => init_of_good (by simp) (by simp [pass]) (by
      simp only [sites, binders] at hs hb
      obtain ⟨P, h1, h2, h3⟩ := passList_mark as S hs hb
      exact ⟨P, by simpa only [sites] using h1, by simp only [pass, mark, h2],
        by simpa only [Ok] using h3⟩)
  | .contCall k as => fun S hs hb => init_of_good (by simp) (by simp [pass]) (by
      simp only [sites, binders] at hs hb
      obtain ⟨P, h1, h2, h3⟩ := passList_mark as S hs hb
      exact ⟨P, by simpa only [sites] using h1, by simp only [pass, mark, h2],
        by simpa only [Ok] using h3⟩)
  | .call c as => fun S hs hb => init_of_good (by simp) (by simp [pass]) (by
      simp only [sites, binders, List.nodup_append] at hs hb
      obtain ⟨P, h1, h2, h3⟩ := (pass_mark c S hs.1 hb.1).1
      obtain ⟨Q, q1, q2, q3⟩ := passList_mark as (pass c S).2 hs.2.1 hb.2.1
      have c1 := mark_congr c P (P ++ Q) false none (iff_left hs.2.2 q1)
      have c2 := markList_congr as Q (P ++ Q) (iff_right hs.2.2 h1)
      refine ⟨P ++ Q, by simpa only [sites] using sub_append h1 q1, ?_, ?_⟩
      · simp only [pass, mark, h2, q2, c1.1, c2.1]
      · simp only [Ok]; exact ⟨c1.2.1 h3, c2.2.1 q3⟩)
  | .load p => fun S hs hb => init_of_good (by simp) (load_not_alloc p S) (by
      simp only [sites, binders] at hs hb
      obtain ⟨P, h1, h2, h3⟩ := (pass_mark p S hs hb).1
      refine ⟨P, by simpa only [sites] using h1, ?_, by simpa only [Ok] using h3⟩
      rcases load_cases p with ⟨y, rfl⟩ | ⟨e1, _⟩
      · simp only [pass, mark]
      · rw [e1]; simp only [mark, h2])
  | .store v p => fun S hs hb => init_of_good (by simp) (store_not_alloc v p S) (by
      simp only [sites, binders, List.nodup_append] at hs hb
      obtain ⟨P, h1, h2, h3⟩ := (pass_mark v S hs.1 hb.1).1
      obtain ⟨Q, q1, q2, q3⟩ := (pass_mark p (pass v S).2 hs.2.1 hb.2.1).1
      have c1 := mark_congr v P (P ++ Q) false none (iff_left hs.2.2 q1)
      have c2 := mark_congr p Q (P ++ Q) false none (iff_right hs.2.2 h1)
      refine ⟨P ++ Q, by simpa only [sites] using sub_append h1 q1, ?_, ?_⟩
      · rcases store_cases v p with ⟨y, rfl⟩ | ⟨e1, _⟩
        · simp only [pass, mark, h2, c1.1]
        · rw [e1]; simp only [mark, h2, q2, c1.1, c2.1]
      · simp only [Ok]; exact ⟨c1.2.1 h3, c2.2.1 q3⟩)
  | .seq ss e => fun S hs hb => init_of_good (by simp) (by simp [pass]) (by
      simp only [sites, binders, List.nodup_append] at hs hb
      obtain ⟨P, h1, h2, h3⟩ := passList_mark ss S hs.1 hb.1
      obtain ⟨Q, q1, q2, q3⟩ := (pass_mark e (passList ss S).2 hs.2.1 hb.2.1).1
      have c1 := markList_congr ss P (P ++ Q) (iff_left hs.2.2 q1)
      have c2 := mark_congr e Q (P ++ Q) false none (iff_right hs.2.2 h1)
      refine ⟨P ++ Q, by simpa only [sites] using sub_append h1 q1, ?_, ?_⟩
      · simp only [pass, mark, h2, q2, c1.1, c2.1]
      · simp only [Ok]; exact ⟨c1.2.1 h3, c2.2.1 q3⟩)
  | .ite c t e => fun S hs hb => init_of_good (by simp) (by simp [pass]) (by
      simp only [sites, binders] at hs hb
      rw [List.nodup_append] at hs hb
      have hs1 := List.nodup_append.1 hs.1
      have hb1 := List.nodup_append.1 hb.1
      obtain ⟨P, h1, h2, h3⟩ := (pass_mark c S hs1.1 hb1.1).1
      obtain ⟨Q, q1, q2, q3⟩ := (pass_mark t (pass c S).2 hs1.2.1 hb1.2.1).1
      obtain ⟨W, w1, w2, w3⟩ := (pass_mark e (pass t (pass c S).2).2 hs.2.1 hb.2.1).1
      have a1 := mark_congr c P (P ++ Q) false none (iff_left hs1.2.2 q1)
      have a2 := mark_congr t Q (P ++ Q) false none (iff_right hs1.2.2 h1)
      have l1 : ∀ s ∈ sites c ++ sites t, s ∈ P ++ Q ↔ s ∈ P ++ Q ++ W := iff_left hs.2.2 w1
      have b1 := mark_congr c (P ++ Q) (P ++ Q ++ W) false none
        (fun s h => l1 s (List.mem_append.2 (Or.inl h)))
      have b2 := mark_congr t (P ++ Q) (P ++ Q ++ W) false none
        (fun s h => l1 s (List.mem_append.2 (Or.inr h)))
      have b3 := mark_congr e W (P ++ Q ++ W) false none (iff_right hs.2.2 (sub_append h1 q1))
      refine ⟨P ++ Q ++ W, by simpa only [sites] using sub_append (sub_append h1 q1) w1, ?_, ?_⟩
      · simp only [pass, mark, h2, q2, w2, a1.1, a2.1, b1.1, b2.1, b3.1]
      · simp only [Ok]; exact ⟨b1.2.1 (a1.2.1 h3), b2.2.1 (a2.2.1 q3), b3.2.1 w3⟩)
  | .while c b => fun S hs hb => init_of_good (by simp) (by simp [pass]) (by
      simp only [sites, binders, List.nodup_append] at hs hb
      obtain ⟨P, h1, h2, h3⟩ := (pass_mark c S hs.1 hb.1).1
      obtain ⟨Q, q1, q2, q3⟩ := (pass_mark b (pass c S).2 hs.2.1 hb.2.1).1
      have c1 := mark_congr c P (P ++ Q) false none (iff_left hs.2.2 q1)
      have c2 := mark_congr b Q (P ++ Q) false none (iff_right hs.2.2 h1)
      refine ⟨P ++ Q, by simpa only [sites] using sub_append h1 q1, ?_, ?_⟩
      · simp only [pass, mark, h2, q2, c1.1, c2.1]
      · simp only [Ok]; exact ⟨c1.2.1 h3, c2.2.1 q3⟩)
  | .letVar vs b => fun S hs hb => init_of_good (by simp) (by simp [pass]) (by
      simp only [sites, binders, List.nodup_append] at hs hb
      obtain ⟨Q, q1, q2, q3⟩ :=
        (pass_mark b (passVars vs (insertAllocs vs S)).2 hs.2.1 hb.2.1).1
      obtain ⟨P, h1, h2, h3⟩ := passVars_mark vs (insertAllocs vs S)
        (pass b (passVars vs (insertAllocs vs S)).2).2 (escsVars vs ++ escs b) hs.1 hb.1
        (fun x hx hm => by
          have m1 := (pass_mem b _ x (fun q => hb.2.2 x (ids_sub vs x hx) x q rfl)).1 hm
          have m2 := (passVars_mem vs _ x (fresh_of_nodup vs hb.1 x hx)).1 m1.1
          simp only [List.mem_append, not_or]
          exact ⟨m2.2, m1.2⟩)
      have c1 := markVars_congr vs P (P ++ Q) (escsVars vs ++ escs b) (iff_left hs.2.2 q1)
      have c2 := mark_congr b Q (P ++ Q) false none (iff_right hs.2.2 h1)
      refine ⟨P ++ Q, by simpa only [sites] using sub_append h1 q1, ?_, ?_⟩
      · simp only [pass, mark, h2, q2, c1.1, c2.1]
      · simp only [Ok]; exact ⟨c1.2.1 h3, c2.2.1 q3⟩)
  | .letCont ks b => fun S hs hb => init_of_good (by simp) (by simp [pass]) (by
      simp only [sites, binders, List.nodup_append] at hs hb
      obtain ⟨P, h1, h2, h3⟩ := passConts_mark ks S hs.1 hb.1
      obtain ⟨Q, q1, q2, q3⟩ := (pass_mark b (passConts ks S).2 hs.2.1 hb.2.1).1
      have c1 := markConts_congr ks P (P ++ Q) (iff_left hs.2.2 q1)
      have c2 := mark_congr b Q (P ++ Q) false none (iff_right hs.2.2 h1)
      refine ⟨P ++ Q, by simpa only [sites] using sub_append h1 q1, ?_, ?_⟩
      · simp only [pass, mark, h2, q2, c1.1, c2.1]
      · simp only [Ok]; exact ⟨c1.2.1 h3, c2.2.1 q3⟩)

theorem passList_mark : (es : Rts) → ∀ (S : List Nat), (sitesList es).Nodup →
    (bindersList es).Nodup →
    ∃ P, (∀ s ∈ P, s ∈ sitesList es) ∧ (passList es S).1 = markList P es ∧ OkList P es
  | .nil => fun S _ _ => ⟨[], by simp, by simp [passList, markList], by simp [OkList]⟩
  | .cons e es => fun S hs hb => by
      simp only [sitesList, bindersList, List.nodup_append] at hs hb
      obtain ⟨P, h1, h2, h3⟩ := (pass_mark e S hs.1 hb.1).1
      obtain ⟨Q, q1, q2, q3⟩ := passList_mark es (pass e S).2 hs.2.1 hb.2.1
      have c1 := mark_congr e P (P ++ Q) false none (iff_left hs.2.2 q1)
      have c2 := markList_congr es Q (P ++ Q) (iff_right hs.2.2 h1)
      refine ⟨P ++ Q, by simpa only [sitesList] using sub_append h1 q1, ?_, ?_⟩
      · simp only [passList, markList, h2, q2, c1.1, c2.1]
      · simp only [OkList]; exact ⟨c1.2.1 h3, c2.2.1 q3⟩

theorem passVars_mark : (vs : Vars) → ∀ (S S' E : List Nat), (sitesVars vs).Nodup →
    (bindersVars vs).Nodup → (∀ x ∈ ids vs, x ∈ S' → x ∉ E) →
    ∃ P, (∀ s ∈ P, s ∈ sitesVars vs) ∧ promote S' (passVars vs S).1 = markVars P vs ∧
      OkVars P E vs
  | .nil => fun S S' E _ _ _ =>
      ⟨[], by simp, by simp [passVars, markVars, promote], by simp [OkVars]⟩
  | .cons x i vs => fun S S' E hs hb hx => by
      simp only [sitesVars, bindersVars, List.nodup_append, List.nodup_cons] at hs hb
      simp only [ids, List.mem_cons, forall_eq_or_imp] at hx
      obtain ⟨P, h1, h2, h3⟩ := (pass_mark i S hs.1 hb.2.1).2 S' x E hx.1
      obtain ⟨Q, q1, q2, q3⟩ := passVars_mark vs (pass i S).2 S' E hs.2.1 hb.2.2.1 hx.2
      have c1 := mark_congr i P (P ++ Q) true (some (x, E)) (iff_left hs.2.2 q1)
      have c2 := markVars_congr vs Q (P ++ Q) E (iff_right hs.2.2 h1)
      refine ⟨P ++ Q, by simpa only [sitesVars] using sub_append h1 q1, ?_, ?_⟩
      · simp only [passVars, markVars, promote, h2, q2, c1.1, c2.1]
      · simp only [OkVars]; exact ⟨c1.2.1 h3, c2.2.1 q3⟩

theorem passConts_mark : (ks : Conts) → ∀ (S : List Nat), (sitesConts ks).Nodup →
    (bindersConts ks).Nodup →
    ∃ P, (∀ s ∈ P, s ∈ sitesConts ks) ∧ (passConts ks S).1 = markConts P ks ∧ OkConts P ks
  | .nil => fun S _ _ => ⟨[], by simp, by simp [passConts, markConts], by simp [OkConts]⟩
  | .cons k ps b ks => fun S hs hb => by
      simp only [sitesConts, bindersConts, List.nodup_append] at hs hb
      obtain ⟨P, h1, h2, h3⟩ := (pass_mark b S hs.1 hb.1).1
      obtain ⟨Q, q1, q2, q3⟩ := passConts_mark ks (pass b S).2 hs.2.1 hb.2.1
      have c1 := mark_congr b P (P ++ Q) false none (iff_left hs.2.2 q1)
      have c2 := markConts_congr ks Q (P ++ Q) (iff_right hs.2.2 h1)
      refine ⟨P ++ Q, by simpa only [sitesConts] using sub_append h1 q1, ?_, ?_⟩
      · simp only [passConts, markConts, h2, q2, c1.1, c2.1]
      · simp only [OkConts]; exact ⟨c1.2.1 h3, c2.2.1 q3⟩
end

mutual
/-- A good set of sites moved is a move in the sense of the specification. -/
theorem mark_moves : (e : Rt) → ∀ (P : List Nat), Ok P none e → Moves e (mark P false e)
  | .var y => fun P _ => .var y
  | .fn f => fun P _ => .fn f
  | .never => fun P _ => .never
  | .clos f e => fun P h => .clos f (mark_moves e P (by simpa only [Ok] using h))
  | .panic e => fun P h => .panic (mark_moves e P (by simpa only [Ok] using h))
  | .ret e => fun P h => .ret (mark_moves e P (by simpa only [Ok] using h))
  | .load e => fun P h => .load (mark_moves e P (by simpa only [Ok] using h))
  | .alloc l s e => fun P h => by
    simp only [Ok] at h; simp only [mark]
    simpa using Moves.alloc l s (mark_moves e P h.2)
  | .prim op as => fun P h => .prim op (markList_moves as P (by simpa only [Ok] using h))
  | .contCall k as => fun P h => .contCall k (markList_moves as P (by simpa only [Ok] using h))
  | .call c as => fun P h => by
    simp only [Ok] at h; exact .call (mark_moves c P h.1) (markList_moves as P h.2)
  | .store v p => fun P h => by
    simp only [Ok] at h; exact .store (mark_moves v P h.1) (mark_moves p P h.2)
  | .seq ss e => fun P h => by
    simp only [Ok] at h; exact .seq (markList_moves ss P h.1) (mark_moves e P h.2)
  | .ite c t e => fun P h => by
    simp only [Ok] at h
    exact .ite (mark_moves c P h.1) (mark_moves t P h.2.1) (mark_moves e P h.2.2)
  | .while c b => fun P h => by
    simp only [Ok] at h; exact .while (mark_moves c P h.1) (mark_moves b P h.2)
  | .letVar vs b => fun P h => by
    simp only [Ok] at h; exact .letVar (markVars_moves vs P _ h.1) (mark_moves b P h.2)
  | .letCont ks b => fun P h => by
    simp only [Ok] at h; exact .letCont (markConts_moves ks P h.1) (mark_moves b P h.2)

theorem markList_moves : (es : Rts) → ∀ (P : List Nat), OkList P es → MovesList es (markList P es)
  | .nil => fun _ _ => .nil
  | .cons e es => fun P h => by
    simp only [OkList] at h; exact .cons (mark_moves e P h.1) (markList_moves es P h.2)

theorem markVars_moves : (vs : Vars) → ∀ (P E : List Nat), OkVars P E vs →
    MovesVars E vs (markVars P vs)
  | .nil => fun _ E _ => .nil E
  | .cons x (.alloc l s j) vs => fun P E h => by
    simp only [OkVars, Ok] at h
    have ih := mark_moves j P h.1.2
    have ih2 := markVars_moves vs P E h.2
    simp only [markVars, mark]
    by_cases hs : s ∈ P
    · obtain ⟨_, y, F, e1, e2⟩ := h.1.1 hs
      cases e1
      simpa [hs] using MovesVars.move x l s e2 ih ih2
    · simpa [hs] using MovesVars.keep x (Moves.alloc l s ih) ih2
  | .cons x (.var y) vs => fun P E h => .keep x (.var y) (markVars_moves vs P E h.2)
  | .cons x (.fn f) vs => fun P E h => .keep x (.fn f) (markVars_moves vs P E h.2)
  | .cons x .never vs => fun P E h => .keep x .never (markVars_moves vs P E h.2)
  | .cons x (.clos f e) vs => fun P E h =>
    .keep x (mark_moves (.clos f e) P h.1) (markVars_moves vs P E h.2)
  | .cons x (.panic e) vs => fun P E h =>
    .keep x (mark_moves (.panic e) P h.1) (markVars_moves vs P E h.2)
  | .cons x (.ret e) vs => fun P E h =>
    .keep x (mark_moves (.ret e) P h.1) (markVars_moves vs P E h.2)
  | .cons x (.load e) vs => fun P E h =>
    .keep x (mark_moves (.load e) P h.1) (markVars_moves vs P E h.2)
  | .cons x (.prim op as) vs => fun P E h =>
    .keep x (mark_moves (.prim op as) P h.1) (markVars_moves vs P E h.2)
  | .cons x (.contCall op as) vs => fun P E h =>
    .keep x (mark_moves (.contCall op as) P h.1) (markVars_moves vs P E h.2)
  | .cons x (.call op as) vs => fun P E h =>
    .keep x (mark_moves (.call op as) P h.1) (markVars_moves vs P E h.2)
  | .cons x (.store v p) vs => fun P E h =>
    .keep x (mark_moves (.store v p) P h.1) (markVars_moves vs P E h.2)
  | .cons x (.seq v p) vs => fun P E h =>
    .keep x (mark_moves (.seq v p) P h.1) (markVars_moves vs P E h.2)
  | .cons x (.ite c t e) vs => fun P E h =>
    .keep x (mark_moves (.ite c t e) P h.1) (markVars_moves vs P E h.2)
  | .cons x (.while v p) vs => fun P E h =>
    .keep x (mark_moves (.while v p) P h.1) (markVars_moves vs P E h.2)
  | .cons x (.letVar v p) vs => fun P E h =>
    .keep x (mark_moves (.letVar v p) P h.1) (markVars_moves vs P E h.2)
  | .cons x (.letCont v p) vs => fun P E h =>
    .keep x (mark_moves (.letCont v p) P h.1) (markVars_moves vs P E h.2)

theorem markConts_moves : (ks : Conts) → ∀ (P : List Nat), OkConts P ks →
    MovesConts ks (markConts P ks)
  | .nil => fun _ _ => .nil
  | .cons k ps b ks => fun P h => by
    simp only [OkConts] at h; exact .cons k ps (mark_moves b P h.1) (markConts_moves ks P h.2)
end

end Verif.Heap2Stack
