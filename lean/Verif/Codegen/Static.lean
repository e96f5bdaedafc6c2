import Verif.Codegen.Spec

/-!
# What can be said about the generated code without running it

Labels are defined once, the depth afterwards is the one before and the eightbytes of the value on the stack, and the generator knows whether
control reaches the end.
-/
namespace Verif.Codegen
open Verif (HMap)
open Spec

/-! ### Labels -/

/-- How often a label is defined. -/
def cl (l : Nat) (c : Code) : Nat := c.count (.label l)

/-- How often a function is defined. -/
def cf (f : Nat) (c : Code) : Nat := c.count (.fn f)

theorem cl_append (l : Nat) (a b : Code) : cl l (a ++ b) = cl l a + cl l b := List.count_append ..
theorem cf_append (l : Nat) (a b : Code) : cf l (a ++ b) = cf l a + cf l b := List.count_append ..
theorem cl_nil (l : Nat) : cl l [] = 0 := rfl
theorem cf_nil (l : Nat) : cf l [] = 0 := rfl

/-- Neither label nor function. -/
def isLab : Instr → Bool
  | .label _ | .fn _ => true
  | _ => false

theorem cl_plain {i : Instr} (h : isLab i = false) (l : Nat) (c : Code) : cl l (i :: c) = cl l c := by
  unfold cl; rw [List.count_cons_of_ne]; intro e; rw [e] at h; cases h

theorem cf_plain {i : Instr} (h : isLab i = false) (l : Nat) (c : Code) : cf l (i :: c) = cf l c := by
  unfold cf; rw [List.count_cons_of_ne]; intro e; rw [e] at h; cases h

theorem cl_label (a l : Nat) (c : Code) : cl l (.label a :: c) = cl l c + if a = l then 1 else 0 := by
  unfold cl; rw [List.count_cons]; simp

theorem cf_label (a l : Nat) (c : Code) : cf l (.label a :: c) = cf l c := by
  unfold cf; rw [List.count_cons]; simp

theorem cl_fn (a l : Nat) (c : Code) : cl l (.fn a :: c) = cl l c := by
  unfold cl; rw [List.count_cons]; simp

theorem cf_fn (a l : Nat) (c : Code) : cf l (.fn a :: c) = cf l c + if a = l then 1 else 0 := by
  unfold cf; rw [List.count_cons]; simp

/-- Code without labels. -/
def Plain (c : Code) : Prop := ∀ i ∈ c, isLab i = false

theorem Plain.cl {c : Code} (h : Plain c) (l : Nat) : cl l c = 0 :=
  List.count_eq_zero.2 fun hm => by cases h _ hm

theorem Plain.cf {c : Code} (h : Plain c) (l : Nat) : cf l c = 0 :=
  List.count_eq_zero.2 fun hm => by cases h _ hm

theorem Plain.nil : Plain [] := by simp [Plain]
theorem Plain.cons {i : Instr} {c : Code} (h : isLab i = false) (h' : Plain c) : Plain (i :: c) := by
  intro j hj; rcases List.mem_cons.1 hj with rfl | hj
  · exact h
  · exact h' j hj
theorem Plain.append {a b : Code} (h : Plain a) (h' : Plain b) : Plain (a ++ b) := by
  intro j hj; exact (List.mem_append.1 hj).elim (h j) (h' j)

theorem plain_extend (n : Nat) : Plain (extend n) := by unfold extend; split <;> simp [Plain, isLab]
theorem plain_shrink (n : Nat) : Plain (shrink n) := by unfold shrink; split <;> simp [Plain, isLab]
theorem plain_pushV (n : Nat) : Plain (pushV n) := by unfold pushV; split <;> simp [Plain, isLab]
theorem plain_popV (n : Nat) : Plain (popV n) := by unfold popV; split <;> simp [Plain, isLab]
theorem plain_loadMem (b o) : ∀ n, Plain (loadMem b o n)
  | 0 => .nil
  | n + 1 => by rw [loadMem]; exact .cons rfl (.cons rfl (plain_loadMem b o n))
theorem plain_storeMem (b) : ∀ n o, Plain (storeMem b o n)
  | 0, _ => .nil
  | n + 1, o => by rw [storeMem]; exact .cons rfl (.cons rfl (plain_storeMem b n _))
theorem plain_loadV (b o n) : Plain (loadV b o n) := by
  unfold loadV; split
  · exact .nil
  · simp [Plain, isLab]
  · simp [Plain, isLab]
  · exact plain_loadMem b o _
theorem plain_storeV (b o n) : Plain (storeV b o n) := by
  unfold storeV; split
  · exact .nil
  · simp [Plain, isLab]
  · simp [Plain, isLab]
  · exact plain_storeMem b _ o
theorem plain_slideUp (a b) : ∀ n, Plain (slideUp a b n)
  | 0 => .nil
  | n + 1 => by rw [slideUp]; exact .cons rfl (.cons rfl (plain_slideUp a b n))
theorem plain_slideDown : ∀ n a b, Plain (slideDown a b n)
  | 0, _, _ => .nil
  | n + 1, a, b => by rw [slideDown]; exact .cons rfl (.cons rfl (plain_slideDown n _ _))
theorem plain_slide (a b n) : Plain (slide a b n) := by
  unfold slide; split
  · exact .nil
  · split
    · exact plain_slideUp a b n
    · exact plain_slideDown n a b
theorem plain_elemCode (o n N) : Plain (elemCode o n N) := by
  unfold elemCode; split
  · exact (((plain_pushV _).append (plain_slide _ _ _)).append (plain_shrink _)).append (plain_popV _)
  · exact .nil
theorem plain_binCode (op) : Plain (binCode op) := by unfold binCode; split <;> simp [Plain, isLab]
theorem plain_malloc (d n) : Plain (mallocCode d n) :=
  (((Plain.cons rfl .nil).append (plain_extend _)).append (Plain.cons rfl .nil)).append (plain_shrink _)
theorem plain_pops (l : List Reg) : Plain (l.map Instr.pop) := by
  intro i hi; obtain ⟨r, -, rfl⟩ := List.mem_map.1 hi; rfl

/-- The labels of the code are the ones issued between `a` and `b`, and each is defined at most once. -/
structure LabOK (c : Code) (a b : Nat) : Prop where
  le : a ≤ b
  one : ∀ l, cl l c ≤ 1
  out : ∀ l, l < a ∨ b ≤ l → cl l c = 0
  fn : ∀ f, cf f c = 0

theorem Plain.lab {c : Code} (h : Plain c) {a : Nat} : LabOK c a a :=
  ⟨Nat.le_refl _, fun l => by rw [h.cl]; omega, fun l _ => h.cl l, h.cf⟩

theorem LabOK.append {c d : Code} {a b e : Nat} (h : LabOK c a b) (h' : LabOK d b e) : LabOK (c ++ d) a e := by
  refine ⟨Nat.le_trans h.le h'.le, fun l => ?_, fun l hl => ?_, fun f => ?_⟩
  · rw [cl_append]; have := h.one l; have := h'.one l; have := h.out l; have := h'.out l; omega
  · rw [cl_append]; have := h.le; have := h'.le; have := h.out l; have := h'.out l; omega
  · rw [cf_append, h.fn, h'.fn]

theorem LabOK.plain {c d : Code} {a b : Nat} (h : LabOK c a b) (h' : Plain d) : LabOK (c ++ d) a b := h.append h'.lab
theorem Plain.then {c d : Code} {a b : Nat} (h : Plain c) (h' : LabOK d a b) : LabOK (c ++ d) a b := h.lab.append h'

theorem msz_add_rsz (n : Nat) : msz n + rsz n = n := by unfold msz rsz; split <;> omega

/-- What is known about the result of the generator. -/
structure Fact (cx : Cx) (T : Prop) (s : St) (c : Code) (s' : St) (F : Bool) (l : Bool) (d : Nat) : Prop where
  lab : LabOK c s.next s'.next
  reach : (cx.fx = false → T) → l = F
  depth : (cx.fx = false → T) → l = true → s'.depth = s.depth + d
/-- What is known about the code of continuations. -/
structure FactC (cx : Cx) (T : Prop) (a lm d : Nat) (m : Option (Nat × Nat)) (s : St) (c : Code) (m' : Option (Nat × Nat)) (s' : St) (F : Bool) : Prop where
  le : s.next ≤ s'.next
  one : ∀ x, cl x c ≤ 1
  out : ∀ x, x < a ∨ (lm < x ∧ x < s.next) ∨ s'.next ≤ x → cl x c = 0
  fn : ∀ f, cf f c = 0
  reach : (cx.fx = false → T) → m'.isSome = (m.isSome || F)
  depth : (cx.fx = false → T) → (∀ n d', m = some (n, d') → d' = d + msz n) → ∀ n d', m' = some (n, d') → d' = d + msz n

theorem sum_append (a b : List Nat) : sum (a ++ b) = sum a + sum b := by
  induction a with
  | nil => simp [sum]
  | cons x a ih => simp only [List.cons_append, sum, ih]; omega

/-- Split a computation of the generator: the first part and the rest. -/
macro "ob " h:ident c:ident l:ident s:ident h1:ident : tactic =>
  `(tactic| ((try simp only [Option.bind_eq_bind, Option.bind_eq_some_iff] at $h:ident); obtain ⟨⟨$c:ident, $l:ident, $s:ident⟩, $h1:ident, $h:ident⟩ := $h:ident; (try dsimp only at $h:ident)))

theorem msz0 : msz 0 = 0 := rfl
theorem msz1 : msz 1 = 0 := rfl
theorem msz2 : msz 2 = 0 := rfl
theorem rsz1 : rsz 1 = 1 := rfl

theorem sum_ones (n : Nat) : sum (List.replicate n 1) = n := by
  induction n with
  | zero => rfl
  | succ n ih => rw [List.replicate_succ, sum, ih]; omega

theorem Fact.diverge {cx T T' s c s' F F' d d'} (h : Fact cx T s c s' F false d) (hT : T' → T) (hF : F = false → F' = false) : Fact cx T' s c s' F' false d' :=
  ⟨h.lab, fun h' => (hF (h.reach fun e => hT (h' e)).symm).symm, fun _ h => by cases h⟩

set_option maxHeartbeats 1000000 in
mutual
theorem fact : ∀ (e : Rt) (cx : Cx) (K : LConts) (s : St) (c : Code) (l : Option Nat) (s' : St), comp cx K e s = some (c, l, s') →
    Fact cx (Tame e) s c s' (falls e) l.isSome (l.elim 0 msz)
  | .var x n, cx, K, s, c, l, s', h => by
    simp only [comp, Option.bind_eq_bind, Option.bind_eq_some_iff] at h
    obtain ⟨o, -, h⟩ := h; cases h
    exact ⟨(plain_loadV _ _ _).lab, fun _ => rfl, fun _ _ => rfl⟩
  | .sfun f, cx, K, s, c, l, s', h => by
    simp only [comp] at h; cases h
    exact ⟨(Plain.cons rfl (.cons rfl .nil)).lab, fun _ => rfl, fun _ _ => rfl⟩
  | .const i, cx, K, s, c, l, s', h => by
    simp only [comp] at h; cases h
    exact ⟨(Plain.cons rfl .nil).lab, fun _ => rfl, fun _ _ => rfl⟩
  | .unit, cx, K, s, c, l, s', h => by
    simp only [comp] at h; cases h
    exact ⟨Plain.nil.lab, fun _ => rfl, fun _ _ => rfl⟩
  | .never, cx, K, s, c, l, s', h => by
    simp only [comp] at h; cases h
    exact ⟨Plain.nil.lab, fun _ => rfl, fun _ h => by cases h⟩
  | .clos f e, cx, K, s, c, l, s', h => by
    simp only [comp, Option.bind_eq_bind, Option.bind_eq_some_iff] at h
    obtain ⟨⟨c1, l1, s1⟩, h1, h⟩ := h
    have f1 := fact e cx K s c1 l1 s1 h1
    cases l1 with
    | none => cases h; exact f1.diverge id id
    | some n =>
      dsimp only at h
      split at h
      · subst n; cases h
        exact ⟨f1.lab.plain (.cons rfl (.cons rfl .nil)), f1.reach, f1.depth⟩
      · cases h
  | .call f tys ret args, cx, K, s, c, l, s', h => by
    rw [comp] at h
    cases ht : tyOf f with
    | none =>
      rw [ht] at h; dsimp only at h
      split at h
      · next hf =>
        ob h c1 l1 s1 h1
        have f1 := factSeq args cx K s c1 l1 s1 h1
        cases l1 with
        | false => cases h; exact f1.diverge (fun h => h.2.2) (fun h => by simp [falls, h])
        | true =>
          simp only [↓reduceIte] at h
          ob h c2 l2 s2 h2
          have f2 := fact f cx K _ c2 l2 s2 h2
          cases l2 with
          | some n => cases h
          | none =>
            cases h
            exact ⟨f1.lab.append f2.lab, fun h => by rw [falls, ← f2.reach fun e => (h e).2.1]; simp, fun _ h => by cases h⟩
      · next hf =>
        cases h
        exact ⟨Plain.nil.lab, fun h => absurd ht (h (by simpa using hf)).1, fun _ h => by cases h⟩
    | some k =>
      rw [ht] at h; dsimp only at h
      ob h c1 l1 s1 h1
      have f1 := factArgs args cx K _ c1 l1 s1 h1
      have lab1 := (plain_extend (msz ret + (s.depth + msz ret + sum tys) % 2)).then f1.lab
      cases l1 with
      | none => cases h; exact ⟨lab1, fun h => by rw [falls, ← f1.reach fun e => (h e).2.2]; simp, fun _ h => by cases h⟩
      | some ns =>
        dsimp only at h
        split at h
        · next hn =>
          subst ns
          ob h c2 l2 s2 h2
          have f2 := fact f cx K _ c2 l2 s2 h2
          have lab := lab1.append f2.lab
          cases l2 with
          | none => cases h; exact ⟨lab, fun h => by rw [falls, ← f2.reach fun e => (h e).2.1]; simp, fun _ h => by cases h⟩
          | some m =>
            dsimp only at h
            split at h
            · subst m; cases h
              refine ⟨?_, fun h => ?_, fun h _ => ?_⟩
              · refine (((lab.plain (.cons rfl .nil)).plain ?_).plain (.cons rfl .nil)).plain (plain_shrink _)
                split
                · exact .nil
                · exact .cons rfl .nil
              · rw [falls, ← f1.reach fun e => (h e).2.2, ← f2.reach fun e => (h e).2.1]; rfl
              · have d1 := f1.depth (fun e => (h e).2.2) rfl
                have d2 := f2.depth (fun e => (h e).2.1) rfl
                simp only [Option.elim, msz2] at d1 d2 ⊢
                omega
            · cases h
        · cases h
  | .ccall sym ret args, cx, K, s, c, l, s', h => by
    rw [comp] at h
    split at h
    · next hc =>
      ob h c1 l1 s1 h1
      have f1 := factSeq args cx K s c1 l1 s1 h1
      cases l1 with
      | true => cases h
      | false => cases h; exact f1.diverge (fun h => h.2) (fun h => by simp [falls, h])
    · ob h c1 l1 s1 h1
      have f1 : Fact cx (TameL args) { s with depth := s.depth + s.depth % 2 } c1 s1 (fallsL args) l1.isSome (l1.elim 0 sum) := by
        split at h1
        · exact factArgs args cx K _ c1 l1 s1 h1
        · exact factArgsR args cx K _ c1 l1 s1 h1
      have lab1 := (plain_extend (s.depth % 2)).then f1.lab
      cases l1 with
      | none => cases h; exact ⟨lab1, fun h => by rw [falls, ← f1.reach fun e => (h e).2] <;> rfl, fun _ h => by cases h⟩
      | some ns =>
        dsimp only at h
        split at h
        · next hn =>
          cases h
          refine ⟨((lab1.plain (plain_pops _)).plain (.cons rfl .nil)).plain (plain_shrink _), fun h => ?_, fun h _ => ?_⟩
          · rw [falls, ← f1.reach fun e => (h e).2]; rfl
          · have d1 := f1.depth (fun e => (h e).2) rfl
            have hs : sum ns = ns.length := by rw [hn.2.1]; simp only [List.length_replicate]; exact sum_ones _
            have hr : msz ret = 0 := by unfold msz; rw [if_pos hn.2.2]
            simp only [Option.elim] at d1 ⊢
            omega
        · cases h
  | .jump k r args, cx, K, s, c, l, s', h => by
    rw [comp] at h
    simp only [Option.bind_eq_bind, Option.bind_eq_some_iff] at h
    obtain ⟨⟨a, ps, d⟩, -, ⟨c1, l1, s1⟩, h1, h⟩ := h
    have f1 := factStores args ps cx K s c1 l1 s1 h1
    dsimp only at h
    split at h
    · split at h
      · cases h; exact ⟨f1.lab.plain (.cons rfl .nil), fun _ => rfl, fun _ h => by cases h⟩
      · cases h
    · cases h; exact ⟨f1.lab, fun _ => rfl, fun _ h => by cases h⟩
  | .bin op a b, cx, K, s, c, l, s', h => by
    simp only [comp, Option.bind_eq_bind, Option.bind_eq_some_iff] at h
    obtain ⟨⟨c1, l1, s1⟩, h1, h⟩ := h
    have f1 := fact a cx K s c1 l1 s1 h1
    cases l1 with
    | none => cases h; exact f1.diverge (fun h => h.1) (fun h => by simp [falls, h])
    | some n =>
      simp only [Option.bind_eq_some_iff] at h
      obtain ⟨⟨c2, l2, s2⟩, h2, h⟩ := h
      have f2 := fact b cx K _ c2 l2 s2 h2
      have lab := (f1.lab.plain (plain_pushV n)).append f2.lab
      cases l2 with
      | none =>
        cases h
        exact ⟨lab, fun h => by rw [falls, ← f2.reach fun e => (h e).2]; simp, fun _ h => by cases h⟩
      | some m =>
        dsimp only at h
        split at h
        · next hn =>
          obtain ⟨rfl, rfl⟩ := hn; cases h
          refine ⟨lab.plain (plain_binCode op), fun h => ?_, fun h _ => ?_⟩
          · rw [falls, ← f1.reach fun e => (h e).1, ← f2.reach fun e => (h e).2]; rfl
          · have d1 := f1.depth (fun e => (h e).1) rfl
            have d2 := f2.depth (fun e => (h e).2) rfl
            simp only [Option.elim, msz, rsz] at d1 d2 ⊢
            simp at d1 d2 ⊢; omega
        · cases h
  | .load n p, cx, K, s, c, l, s', h => by
    rw [comp] at h
    ob h c1 l1 s1 h1
    have f1 := fact p cx K s c1 l1 s1 h1
    cases l1 with
    | none => cases h; exact f1.diverge id id
    | some m =>
      dsimp only at h
      split at h
      · subst m; cases h
        refine ⟨(f1.lab.plain (.cons rfl .nil)).plain (plain_loadV _ _ _), f1.reach, fun h _ => ?_⟩
        have d1 := f1.depth h rfl
        simp only [Option.elim, msz1] at d1 ⊢; omega
      · cases h
  | .store v p, cx, K, s, c, l, s', h => by
    rw [comp] at h
    ob h c1 l1 s1 h1
    have f1 := fact v cx K s c1 l1 s1 h1
    cases l1 with
    | none => cases h; exact f1.diverge (fun h => h.1) (fun h => by simp [falls, h])
    | some n =>
      ob h c2 l2 s2 h2
      have f2 := fact p cx K _ c2 l2 s2 h2
      have lab := (f1.lab.plain (plain_pushV n)).append f2.lab
      cases l2 with
      | none => cases h; exact ⟨lab, fun h => by rw [falls, ← f2.reach fun e => (h e).2]; simp, fun _ h => by cases h⟩
      | some m =>
        dsimp only at h
        split at h
        · subst m; cases h
          refine ⟨((lab.plain (.cons rfl .nil)).plain (plain_popV _)).plain (plain_storeV _ _ _), fun h => ?_, fun h _ => ?_⟩
          · rw [falls, ← f1.reach fun e => (h e).1, ← f2.reach fun e => (h e).2]; rfl
          · have d1 := f1.depth (fun e => (h e).1) rfl
            have d2 := f2.depth (fun e => (h e).2) rfl
            have := msz_add_rsz n
            simp only [Option.elim, msz1, msz0] at d1 d2 ⊢; omega
        · cases h
  | .elem o n a, cx, K, s, c, l, s', h => by
    rw [comp] at h
    ob h c1 l1 s1 h1
    have f1 := fact a cx K s c1 l1 s1 h1
    cases l1 with
    | none => cases h; exact f1.diverge id id
    | some N =>
      dsimp only at h
      split at h
      · cases h
        refine ⟨f1.lab.plain (plain_elemCode _ _ _), f1.reach, fun h _ => ?_⟩
        have d1 := f1.depth h rfl
        have := msz_add_rsz n
        have := msz_add_rsz N
        simp only [Option.elim] at d1 ⊢; omega
      · cases h
  | .alloc e, cx, K, s, c, l, s', h => by
    rw [comp] at h
    cases ht : tyOf e with
    | none =>
      rw [ht] at h; dsimp only at h
      ob h c1 l1 s1 h1
      have f1 := fact e cx K s c1 l1 s1 h1
      cases l1 with
      | some _ => cases h
      | none => cases h; exact f1.diverge id id
    | some n =>
      rw [ht] at h; dsimp only at h
      ob h c1 l1 s1 h1
      have f1 := fact e cx K _ c1 l1 s1 h1
      have lab := ((plain_malloc s.depth (8 * n)).append (plain_pushV 1)).then f1.lab
      cases l1 with
      | none => cases h; exact ⟨lab, fun h => by rw [falls, ← f1.reach h] <;> rfl, fun _ h => by cases h⟩
      | some m =>
        dsimp only at h
        split at h
        · subst m; cases h
          refine ⟨((lab.plain (.cons rfl .nil)).plain (plain_storeV _ _ _)).plain (plain_popV _), f1.reach, fun h _ => ?_⟩
          have d1 := f1.depth h rfl
          simp only [Option.elim, msz1] at d1 ⊢; omega
        · cases h
  | .mkEnv es, cx, K, s, c, l, s', h => by
    rw [comp] at h
    cases ht : tysOf es with
    | none =>
      rw [ht] at h; dsimp only at h
      ob h c1 l1 s1 h1
      have f1 := factSeq es cx K s c1 l1 s1 h1
      cases l1 with
      | true => cases h
      | false => cases h; exact f1.diverge id id
    | some ns =>
      rw [ht] at h; dsimp only at h
      ob h c1 l1 s1 h1
      have f1 := factEnv es 0 cx K _ c1 l1 s1 h1
      have lab := ((plain_malloc s.depth (8 * sum ns)).append (plain_pushV 1)).then f1.lab
      cases l1 with
      | none => cases h; exact ⟨lab, fun h => by rw [falls, ← f1.reach h] <;> rfl, fun _ h => by cases h⟩
      | some m =>
        dsimp only at h
        split at h
        · subst m; cases h
          refine ⟨lab.plain (plain_popV _), f1.reach, fun h _ => ?_⟩
          have d1 := f1.depth h rfl
          simp only [Option.elim, msz1] at d1 ⊢; omega
        · cases h
  | .mkStruct tys es, cx, K, s, c, l, s', h => by
    rw [comp] at h
    ob h c1 l1 s1 h1
    have f1 := factStruct es tys 0 cx K _ c1 l1 s1 h1
    have lab := (plain_extend (sum tys)).then f1.lab
    cases l1 with
    | true =>
      cases h
      refine ⟨lab.plain (plain_popV _), f1.reach, fun h _ => ?_⟩
      have d1 := f1.depth h rfl
      have := msz_add_rsz (sum tys)
      simp only [Option.elim] at d1 ⊢; omega
    | false => cases h; exact ⟨lab, f1.reach, fun _ h => by cases h⟩
  | .seq es e, cx, K, s, c, l, s', h => by
    rw [comp] at h
    ob h c1 l1 s1 h1
    have f1 := factSeq es cx K s c1 l1 s1 h1
    cases l1 with
    | false => cases h; exact f1.diverge (fun h => h.1) (fun h => by simp [falls, h])
    | true =>
      simp only [↓reduceIte] at h
      ob h c2 l2 s2 h2
      have f2 := fact e cx K _ c2 l2 s2 h2
      cases h
      refine ⟨f1.lab.append f2.lab, fun h => ?_, fun h hl => ?_⟩
      · rw [falls, ← f1.reach fun e => (h e).1, ← f2.reach fun e => (h e).2]; rfl
      · have d1 := f1.depth (fun e => (h e).1) rfl
        have d2 := f2.depth (fun e => (h e).2) hl
        omega
  | .ret e, cx, K, s, c, l, s', h => by
    rw [comp] at h
    ob h c1 l1 s1 h1
    have f1 := fact e cx K s c1 l1 s1 h1
    cases l1 with
    | none => cases h; exact ⟨f1.lab, fun _ => rfl, fun _ h => by cases h⟩
    | some n => cases h; exact ⟨f1.lab.plain (.cons rfl .nil), fun _ => rfl, fun _ h => by cases h⟩
  | .letVar vs b, cx, K, s, c, l, s', h => by
    rw [comp] at h
    ob h c1 l1 s1 h1
    have f1 := factVars vs cx K s c1 l1 s1 h1
    cases l1 with
    | false => cases h; exact f1.diverge (fun h => h.1) (fun h => by simp [falls, h])
    | true =>
      simp only [↓reduceIte] at h
      ob h c2 l2 s2 h2
      have f2 := fact b cx K _ c2 l2 s2 h2
      cases h
      refine ⟨f1.lab.append f2.lab, fun h => ?_, fun h hl => ?_⟩
      · rw [falls, ← f1.reach fun e => (h e).1, ← f2.reach fun e => (h e).2]; rfl
      · have d1 := f1.depth (fun e => (h e).1) rfl
        have d2 := f2.depth (fun e => (h e).2) hl
        omega
  | .ite a t e, cx, K, s, c, l, s', h => by
    rw [comp] at h
    ob h c0 l0 s0 h0
    have f0 := fact a cx K s c0 l0 s0 h0
    cases l0 with
    | none => cases h; exact f0.diverge (fun h => h.1) (fun h => by simp [falls, h])
    | some n =>
      dsimp only at h
      split at h
      · subst n
        ob h c1 l1 s1 h1
        have f1 := fact t cx K _ c1 l1 s1 h1
        ob h c2 l2 s2 h2
        have f2 := fact e cx K _ c2 l2 s2 h2
        have hlab : LabOK (c0 ++ [.jz s0.next] ++ c1 ++ (if l1.isSome then [.jmp (s0.next + 1)] else []) ++ [.label s0.next] ++ c2 ++ [.label (s0.next + 1)]) s.next s2.next := by
          have hj : Plain (if l1.isSome then [.jmp (s0.next + 1)] else []) := by split <;> first | exact .nil | exact .cons rfl .nil
          have a0 := f0.lab
          have a1 := f1.lab; have a2 := f2.lab
          have := a0.le; have := a1.le; have := a2.le
          simp only at *
          refine ⟨by omega, fun x => ?_, fun x hx => ?_, fun x => ?_⟩
          · simp only [cl_append, cl_plain (i := .jz _) rfl, cl_nil, hj.cl, cl_label]
            have := a0.one x; have := a1.one x; have := a2.one x; have := a0.out x; have := a1.out x; have := a2.out x
            split <;> split <;> omega
          · simp only [cl_append, cl_plain (i := .jz _) rfl, cl_nil, hj.cl, cl_label]
            have := a0.out x; have := a1.out x; have := a2.out x
            split <;> split <;> omega
          · simp only [cf_append, cf_plain (i := .jz _) rfl, cf_nil, hj.cf, cf_label, a0.fn, a1.fn, a2.fn]
        have hr : (cx.fx = false → Tame (.ite a t e)) → falls (.ite a t e) = (l1.isSome || l2.isSome) := fun h => by
          rw [falls, ← f0.reach fun e => (h e).1, ← f1.reach fun e => (h e).2.1, ← f2.reach fun e => (h e).2.2]; rfl
        have d0 := fun h : cx.fx = false → Tame (.ite a t e) => f0.depth (fun e => (h e).1) rfl
        have d1 := fun h : cx.fx = false → Tame (.ite a t e) => f1.depth (fun e => (h e).2.1)
        have d2 := fun h : cx.fx = false → Tame (.ite a t e) => f2.depth (fun e => (h e).2.2)
        simp only [Option.elim, msz1] at d0 d1 d2
        cases l1 with
        | none =>
          cases l2 with
          | none => cases h; exact ⟨hlab, fun h => (hr h).symm, fun _ h => by cases h⟩
          | some n2 =>
            cases h
            exact ⟨hlab, fun h => (hr h).symm, fun h _ => by have := d0 h; have := d2 h rfl; simp only [Option.elim] at *; omega⟩
        | some n1 =>
          cases l2 with
          | none =>
            cases h
            exact ⟨hlab, fun h => (hr h).symm, fun h _ => by have := d0 h; have := d1 h rfl; simp only [Option.elim] at *; omega⟩
          | some n2 =>
            dsimp only at h
            split at h
            · cases h
              exact ⟨hlab, fun h => (hr h).symm, fun h _ => by have := d0 h; have := d1 h rfl; simp only [Option.elim] at *; omega⟩
            · cases h
      · cases h
  | .loop a b, cx, K, s, c, l, s', h => by
    rw [comp] at h
    ob h c0 l0 s0 h0
    have f0 := fact a cx K _ c0 l0 s0 h0
    have a0 := f0.lab
    have := a0.le
    cases l0 with
    | none =>
      cases h
      simp only at *
      refine ⟨⟨by omega, fun x => ?_, fun x hx => ?_, fun x => ?_⟩, fun h => ?_, fun _ h => by cases h⟩
      · simp only [cl_append, cl_nil, cl_label]
        have := a0.one x; have := a0.out x
        split <;> omega
      · simp only [cl_append, cl_nil, cl_label]
        have := a0.out x
        split <;> omega
      · simp only [cf_append, cf_nil, cf_label, a0.fn]
      · rw [falls, ← f0.reach fun e => (h e).1]
    | some n =>
      dsimp only at h
      split at h
      · subst n
        ob h c1 l1 s1 h1
        have f1 := fact b cx K _ c1 l1 s1 h1
        have a1 := f1.lab
        have := a1.le
        have hlab : ∀ j, Plain j → LabOK ([.label s.next] ++ c0 ++ [.jz (s.next + 1)] ++ c1 ++ j ++ [.label (s.next + 1)]) s.next s1.next := by
          intro j hj
          simp only at *
          refine ⟨by omega, fun x => ?_, fun x hx => ?_, fun x => ?_⟩
          · simp only [cl_append, cl_plain (i := .jz _) rfl, cl_nil, hj.cl, cl_label]
            have := a0.one x; have := a1.one x; have := a0.out x; have := a1.out x
            split <;> split <;> omega
          · simp only [cl_append, cl_plain (i := .jz _) rfl, cl_nil, hj.cl, cl_label]
            have := a0.out x; have := a1.out x
            split <;> split <;> omega
          · simp only [cf_append, cf_plain (i := .jz _) rfl, cf_nil, hj.cf, cf_label, a0.fn, a1.fn]
        cases h
        refine ⟨?_, fun h => by rw [falls, ← f0.reach fun e => (h e).1]; rfl, fun h _ => ?_⟩
        · have hn : ∀ s2 : St, (if cx.fx = true then { depth := s0.depth, next := s2.next } else s2 : St).next = s2.next := by
            intro s2; split <;> rfl
          rw [hn]
          cases l1 with
          | none => exact hlab _ .nil
          | some m => exact hlab _ ((plain_shrink _).append (.cons rfl .nil))
        · have d0 := f0.depth (fun e => (h e).1) rfl
          simp only [Option.elim, msz1, msz0] at d0 ⊢
          cases hf : cx.fx with
          | true => simp only [↓reduceIte]; omega
          | false =>
            have hb := f1.reach (fun e => (h e).2.1)
            rw [(h hf).2.2] at hb
            have d1 := f1.depth (fun e => (h e).2.1) hb
            cases l1 with
            | none => cases hb
            | some m => simp only [Option.elim, Bool.false_eq_true, ↓reduceIte] at d1 ⊢; omega
      · cases h
  | .letCont cs b, cx, K, s, c, l, s', h => by
    rw [comp] at h
    ob h c1 l1 s1 h1
    have f1 := fact b cx _ _ c1 l1 s1 h1
    ob h c2 m s2 h2
    have f2 := factConts cs s.next (s.next + cs.length) s.depth (l1.map fun n => (n, s1.depth)) cx K s1 c2 m s2 rfl f1.lab.le h2
    cases h
    have hj : Plain (if l1.isSome then [.jmp (s.next + cs.length)] else []) := by split <;> first | exact .nil | exact .cons rfl .nil
    have a1 := f1.lab
    have := a1.le; have := f2.le
    refine ⟨?_, fun h => ?_, fun h hm => ?_⟩
    · suffices hS : LabOK (c1 ++ (if l1.isSome then [.jmp (s.next + cs.length)] else []) ++ c2) s.next s2.next by
        cases m <;> exact hS
      simp only at *
      refine ⟨by omega, fun x => ?_, fun x hx => ?_, fun x => ?_⟩
      · simp only [cl_append, hj.cl]
        have := a1.one x; have := a1.out x; have := f2.one x; have := f2.out x
        omega
      · simp only [cl_append, hj.cl]
        have := a1.out x; have := f2.out x
        omega
      · simp only [cf_append, hj.cf, a1.fn, f2.fn]
    · have r1 := f1.reach fun e => (h e).2
      have r2 := f2.reach fun e => (h e).1
      rw [falls, ← r1]
      simp only [Option.isSome_map] at r2 ⊢
      exact r2
    · cases m with
      | none => cases hm
      | some p =>
        obtain ⟨n, d'⟩ := p
        refine f2.depth (fun e => (h e).1) (fun n d' hd => ?_) n d' rfl
        cases l1 with
        | none => cases hd
        | some n1 =>
          cases hd
          exact f1.depth (fun e => (h e).2) rfl
theorem factSeq : ∀ (es : Rts) (cx : Cx) (K : LConts) (s : St) (c : Code) (l : Bool) (s' : St), compSeq cx K es s = some (c, l, s') →
    Fact cx (TameL es) s c s' (fallsL es) l 0
  | .nil, cx, K, s, c, l, s', h => by
    rw [compSeq] at h; cases h; exact ⟨Plain.nil.lab, fun _ => rfl, fun _ _ => rfl⟩
  | .cons e es, cx, K, s, c, l, s', h => by
    rw [compSeq] at h
    ob h c1 l1 s1 h1
    have f1 := fact e cx K s c1 l1 s1 h1
    cases l1 with
    | none => cases h; exact f1.diverge (fun h => h.1) (fun h => by simp [fallsL, h])
    | some n =>
      ob h c2 l2 s2 h2
      have f2 := factSeq es cx K _ c2 l2 s2 h2
      cases h
      refine ⟨(f1.lab.plain (plain_shrink _)).append f2.lab, fun h => ?_, fun h hl => ?_⟩
      · rw [fallsL, ← f1.reach fun e => (h e).1, ← f2.reach fun e => (h e).2]; rfl
      · have d1 := f1.depth (fun e => (h e).1) rfl
        have d2 := f2.depth (fun e => (h e).2) hl
        simp only [Option.elim] at d1 d2 ⊢; omega
theorem factArgs : ∀ (es : Rts) (cx : Cx) (K : LConts) (s : St) (c : Code) (l : Option (List Nat)) (s' : St), compArgs cx K es s = some (c, l, s') →
    Fact cx (TameL es) s c s' (fallsL es) l.isSome (l.elim 0 sum)
  | .nil, cx, K, s, c, l, s', h => by
    rw [compArgs] at h; cases h; exact ⟨Plain.nil.lab, fun _ => rfl, fun _ _ => rfl⟩
  | .cons e es, cx, K, s, c, l, s', h => by
    rw [compArgs] at h
    ob h c1 l1 s1 h1
    have f1 := fact e cx K s c1 l1 s1 h1
    cases l1 with
    | none => cases h; exact f1.diverge (fun h => h.1) (fun h => by simp [fallsL, h])
    | some n =>
      ob h c2 l2 s2 h2
      have f2 := factArgs es cx K _ c2 l2 s2 h2
      cases h
      refine ⟨(f1.lab.plain (plain_pushV _)).append f2.lab, fun h => ?_, fun h hl => ?_⟩
      · rw [fallsL, ← f1.reach fun e => (h e).1, ← f2.reach fun e => (h e).2]; simp
      · cases l2 with
        | none => cases hl
        | some ns =>
          have d1 := f1.depth (fun e => (h e).1) rfl
          have d2 := f2.depth (fun e => (h e).2) rfl
          have := msz_add_rsz n
          simp only [Option.elim, Option.map, sum] at d1 d2 ⊢; omega
theorem factArgsR : ∀ (es : Rts) (cx : Cx) (K : LConts) (s : St) (c : Code) (l : Option (List Nat)) (s' : St), compArgsR cx K es s = some (c, l, s') →
    Fact cx (TameL es) s c s' (fallsL es) l.isSome (l.elim 0 sum)
  | .nil, cx, K, s, c, l, s', h => by
    rw [compArgsR] at h; cases h; exact ⟨Plain.nil.lab, fun _ => rfl, fun _ _ => rfl⟩
  | .cons e es, cx, K, s, c, l, s', h => by
    rw [compArgsR] at h
    ob h c1 l1 s1 h1
    have f1 := factArgsR es cx K s c1 l1 s1 h1
    cases l1 with
    | none => cases h; exact f1.diverge (fun h => h.2) (fun h => by simp [fallsL, h])
    | some ns =>
      ob h c2 l2 s2 h2
      have f2 := fact e cx K _ c2 l2 s2 h2
      cases l2 with
      | none =>
        cases h
        exact ⟨f1.lab.append f2.lab, fun h => by rw [fallsL, ← f2.reach fun e => (h e).1]; rfl, fun _ h => by cases h⟩
      | some n =>
        cases h
        refine ⟨(f1.lab.append f2.lab).plain (plain_pushV _), fun h => ?_, fun h hl => ?_⟩
        · rw [fallsL, ← f1.reach fun e => (h e).2, ← f2.reach fun e => (h e).1]; rfl
        · have d1 := f1.depth (fun e => (h e).2) rfl
          have d2 := f2.depth (fun e => (h e).1) rfl
          have := msz_add_rsz n
          simp only [Option.elim, sum_append, sum] at d1 d2 ⊢; omega
theorem factStores : ∀ (es : Rts) (ps : List Binder) (cx : Cx) (K : LConts) (s : St) (c : Code) (l : Bool) (s' : St), compStores cx K es ps s = some (c, l, s') →
    Fact cx (TameL es) s c s' l l 0
  | .nil, [], cx, K, s, c, l, s', h => by
    rw [compStores] at h; cases h; exact ⟨Plain.nil.lab, fun _ => rfl, fun _ _ => rfl⟩
  | .nil, _ :: _, cx, K, s, c, l, s', h => by simp [compStores] at h
  | .cons _ _, [], cx, K, s, c, l, s', h => by simp [compStores] at h
  | .cons e es, p :: ps, cx, K, s, c, l, s', h => by
    rw [compStores] at h
    ob h c1 l1 s1 h1
    have f1 := fact e cx K s c1 l1 s1 h1
    cases l1 with
    | none => cases h; exact ⟨f1.lab, fun _ => rfl, fun _ h => by cases h⟩
    | some n =>
      dsimp only at h; split at h
      · simp only [Option.bind_eq_bind, Option.bind_eq_some_iff] at h
        obtain ⟨o, -, h⟩ := h
        ob h c2 l2 s2 h2
        have f2 := factStores es ps cx K _ c2 l2 s2 h2
        cases h
        refine ⟨(f1.lab.plain (plain_storeV _ _ _)).append f2.lab, fun _ => rfl, fun h hl => ?_⟩
        have d1 := f1.depth (fun e => (h e).1) rfl
        have d2 := f2.depth (fun e => (h e).2) hl
        simp only [Option.elim] at d1 d2 ⊢; omega
      · cases h
theorem factEnv : ∀ (es : Rts) (o : Nat) (cx : Cx) (K : LConts) (s : St) (c : Code) (l : Option (List Nat)) (s' : St), compEnv cx K es o s = some (c, l, s') →
    Fact cx (TameL es) s c s' (fallsL es) l.isSome 0
  | .nil, o, cx, K, s, c, l, s', h => by
    rw [compEnv] at h; cases h; exact ⟨Plain.nil.lab, fun _ => rfl, fun _ _ => rfl⟩
  | .cons e es, o, cx, K, s, c, l, s', h => by
    rw [compEnv] at h
    ob h c1 l1 s1 h1
    have f1 := fact e cx K s c1 l1 s1 h1
    cases l1 with
    | none => cases h; exact f1.diverge (fun h => h.1) (fun h => by simp [fallsL, h])
    | some n =>
      ob h c2 l2 s2 h2
      have f2 := factEnv es (o + n) cx K _ c2 l2 s2 h2
      cases h
      refine ⟨((f1.lab.plain (.cons rfl .nil)).plain (plain_storeV _ _ _)).append f2.lab, fun h => ?_, fun h hl => ?_⟩
      · rw [fallsL, ← f1.reach fun e => (h e).1, ← f2.reach fun e => (h e).2]; simp
      · have d1 := f1.depth (fun e => (h e).1) rfl
        have d2 := f2.depth (fun e => (h e).2) (by simpa using hl)
        simp only [Option.elim] at d1 d2 ⊢; omega
theorem factStruct : ∀ (es : Rts) (tys : List Nat) (o : Nat) (cx : Cx) (K : LConts) (s : St) (c : Code) (l : Bool) (s' : St), compStruct cx K es tys o s = some (c, l, s') →
    Fact cx (TameL es) s c s' (fallsL es) l 0
  | .nil, [], o, cx, K, s, c, l, s', h => by
    rw [compStruct] at h; cases h; exact ⟨Plain.nil.lab, fun _ => rfl, fun _ _ => rfl⟩
  | .nil, _ :: _, o, cx, K, s, c, l, s', h => by simp [compStruct] at h
  | .cons _ _, [], o, cx, K, s, c, l, s', h => by simp [compStruct] at h
  | .cons e es, t :: tys, o, cx, K, s, c, l, s', h => by
    rw [compStruct] at h
    ob h c1 l1 s1 h1
    have f1 := fact e cx K s c1 l1 s1 h1
    cases l1 with
    | none => cases h; exact f1.diverge (fun h => h.1) (fun h => by simp [fallsL, h])
    | some n =>
      dsimp only at h
      split at h
      · ob h c2 l2 s2 h2
        have f2 := factStruct es tys (o + n) cx K _ c2 l2 s2 h2
        cases h
        refine ⟨((f1.lab.plain (.cons rfl .nil)).plain (plain_storeV _ _ _)).append f2.lab, fun h => ?_, fun h hl => ?_⟩
        · rw [fallsL, ← f1.reach fun e => (h e).1, ← f2.reach fun e => (h e).2]; rfl
        · have d1 := f1.depth (fun e => (h e).1) rfl
          have d2 := f2.depth (fun e => (h e).2) hl
          simp only [Option.elim] at d1 d2 ⊢; omega
      · cases h
theorem factVars : ∀ (vs : Vars) (cx : Cx) (K : LConts) (s : St) (c : Code) (l : Bool) (s' : St), compVars cx K vs s = some (c, l, s') →
    Fact cx (TameV vs) s c s' (fallsV vs) l 0
  | .nil, cx, K, s, c, l, s', h => by
    rw [compVars] at h; cases h; exact ⟨Plain.nil.lab, fun _ => rfl, fun _ _ => rfl⟩
  | .cons x e vs, cx, K, s, c, l, s', h => by
    rw [compVars] at h
    ob h c1 l1 s1 h1
    have f1 := fact e cx K s c1 l1 s1 h1
    cases l1 with
    | none => cases h; exact f1.diverge (fun h => h.1) (fun h => by simp [fallsV, h])
    | some n =>
      dsimp only at h
      split at h
      · simp only [Option.bind_eq_bind, Option.bind_eq_some_iff] at h
        obtain ⟨o, -, h⟩ := h
        ob h c2 l2 s2 h2
        have f2 := factVars vs cx K _ c2 l2 s2 h2
        cases h
        refine ⟨(f1.lab.plain (plain_storeV _ _ _)).append f2.lab, fun h => ?_, fun h hl => ?_⟩
        · rw [fallsV, ← f1.reach fun e => (h e).1, ← f2.reach fun e => (h e).2]; rfl
        · have d1 := f1.depth (fun e => (h e).1) rfl
          have d2 := f2.depth (fun e => (h e).2) hl
          simp only [Option.elim] at d1 d2 ⊢; omega
      · cases h
theorem factConts : ∀ (cs : Conts) (a lm d : Nat) (m : Option (Nat × Nat)) (cx : Cx) (K : LConts) (s : St) (c : Code) (m' : Option (Nat × Nat)) (s' : St),
    lm = a + cs.length → lm + 1 ≤ s.next → compConts cx K cs a lm d m s = some (c, m', s') → FactC cx (TameC cs) a lm d m s c m' s' (fallsC cs)
  | .nil, a, lm, d, m, cx, K, s, c, m', s', ha, hl, h => by
    rw [compConts] at h; cases h
    refine ⟨Nat.le_refl _, fun x => ?_, fun x hx => ?_, fun x => ?_, fun _ => ?_, fun _ h => h⟩
    · simp only [cl_label, cl_nil]; split <;> omega
    · simp only [cl_label, cl_nil]; simp only [Conts.length] at ha; split <;> omega
    · simp only [cf_label, cf_nil]
    · simp [fallsC]
  | .cons k ps b cs, a, lm, d, m, cx, K, s, c, m', s', ha, hl, h => by
    rw [compConts] at h
    ob h c1 l1 s1 h1
    have f1 := fact b cx _ _ c1 l1 s1 h1
    have a1 := f1.lab
    have := a1.le
    simp only [Conts.length] at ha
    have hlab : ∀ j c2 s2 m1, Plain j → FactC cx (TameC cs) (a + 1) lm d m1 s1 c2 m' s2 (fallsC cs) →
        s.next ≤ s2.next ∧ (∀ x, cl x ([.label a] ++ c1 ++ j ++ c2) ≤ 1) ∧
        (∀ x, x < a ∨ (lm < x ∧ x < s.next) ∨ s2.next ≤ x → cl x ([.label a] ++ c1 ++ j ++ c2) = 0) ∧ (∀ f, cf f ([.label a] ++ c1 ++ j ++ c2) = 0) := by
      intro j c2 s2 m1 hj f2
      have := f2.le
      simp only at *
      refine ⟨by omega, fun x => ?_, fun x hx => ?_, fun x => ?_⟩
      · simp only [cl_append, hj.cl, cl_label, cl_nil]
        have := a1.one x; have := a1.out x; have := f2.one x; have := f2.out x
        split <;> omega
      · simp only [cl_append, hj.cl, cl_label, cl_nil]
        have := a1.out x; have := f2.out x
        split <;> omega
      · simp only [cf_append, hj.cf, cf_label, cf_nil, a1.fn, f2.fn]
    cases l1 with
    | none =>
      ob h c2 m2 s2 h2
      have f2 := factConts cs (a + 1) lm d m cx K s1 c2 m2 s2 (by omega) (by simp only at *; omega) h2
      cases h
      obtain ⟨x1, x2, x3, x4⟩ := hlab [] c2 s' m .nil f2
      simp only [List.append_nil] at x2 x3 x4
      refine ⟨x1, x2, x3, x4, fun h => ?_, fun h => ?_⟩
      · rw [f2.reach fun e => (h e).2, fallsC, ← f1.reach fun e => (h e).1]; rfl
      · exact f2.depth fun e => (h e).2
    | some n =>
      dsimp only at h
      split at h
      · next hm =>
        ob h c2 m2 s2 h2
        have f2 := factConts cs (a + 1) lm d _ cx K s1 c2 m2 s2 (by omega) (by simp only at *; omega) h2
        cases h
        obtain ⟨x1, x2, x3, x4⟩ := hlab [.jmp lm] c2 s' _ (.cons rfl .nil) f2
        refine ⟨x1, x2, x3, x4, fun h => ?_, fun h _ => ?_⟩
        · rw [f2.reach fun e => (h e).2, fallsC, ← f1.reach fun e => (h e).1]; simp
        · refine f2.depth (fun e => (h e).2) fun n d' hd => ?_
          cases hd
          exact f1.depth (fun e => (h e).1) rfl
      · cases h
end
end Verif.Codegen
