import Verif.RbMap.Model
import Verif.Util.SortedAssoc

/-! # Contents and balance of red-black trees -/
namespace Verif.RbMap
open Color Tree SortedAssoc
open Std (TransCmp)

variable {K V : Type}

/-- Bindings from left to right. -/
def toList : Tree K V → List (K × V)
  | leaf => []
  | node _ k v l r => toList l ++ (k, v) :: toList r

/-! ### Contents -/

theorem toList_blacken (t : Tree K V) : toList (blacken t).1 = toList t := by
  unfold blacken; split <;> rfl

theorem toList_balanceLeft (k : K) (v : V) (l r : Tree K V) : toList (balanceLeft k v l r) = toList l ++ (k, v) :: toList r := by
  unfold balanceLeft; split <;> simp [toList]

theorem toList_balanceRight (k : K) (v : V) (l r : Tree K V) : toList (balanceRight k v l r) = toList l ++ (k, v) :: toList r := by
  unfold balanceRight; split <;> simp [toList]

theorem toList_bubbleLeft {c : Color} {k : K} {v : V} {l r m : Tree K V} {d d' : Bool}
    (h : bubbleLeft c k v l r d = some (m, d')) : toList m = toList l ++ (k, v) :: toList r := by
  unfold bubbleLeft at h
  split at h
  · split at h <;> cases h <;> simp [toList, toList_balanceLeft]
  · cases h; rfl

theorem toList_bubbleRight {c : Color} {k : K} {v : V} {l r m : Tree K V} {d d' : Bool}
    (h : bubbleRight c k v l r d = some (m, d')) : toList m = toList l ++ (k, v) :: toList r := by
  unfold bubbleRight at h
  split at h
  · split at h <;> cases h <;> simp [toList, toList_balanceRight]
  · cases h; rfl

theorem toList_removeMin (t : Tree K V) : ∀ {t' k v d}, removeMin t = some (t', k, v, d) → toList t = (k, v) :: toList t' := by
  fun_induction removeMin t with
  | case1 => intro t' k v d h; cases h; simp [toList]
  | case2 => intro t' k v d h; cases h; simp [toList]
  | case3 => intro t' k v d h; cases h; simp [toList]
  | case4 color kx vx l r h1 h2 h3 ih =>
    intro t' k v d h
    cases hm : removeMin l with
    | none => rw [hm] at h; cases h
    | some x =>
      obtain ⟨l', k', v', d1⟩ := x
      rw [hm] at h
      cases hb : bubbleRight color kx vx l' r d1 with
      | none => simp [hb] at h
      | some y =>
        obtain ⟨m, d2⟩ := y
        simp [hb] at h
        obtain ⟨rfl, rfl, rfl, rfl⟩ := h
        rw [toList_bubbleRight hb, toList, ih hm]; rfl
  | case5 => intro t' k v d h; cases h

theorem toList_removeMax (t : Tree K V) : ∀ {t' k v d}, removeMax t = some (t', k, v, d) → toList t = toList t' ++ [(k, v)] := by
  fun_induction removeMax t with
  | case1 => intro t' k v d h; cases h; simp [toList]
  | case2 => intro t' k v d h; cases h; simp [toList]
  | case3 => intro t' k v d h; cases h; simp [toList]
  | case4 color kx vx l r h1 h2 h3 ih =>
    intro t' k v d h
    cases hm : removeMax r with
    | none => rw [hm] at h; cases h
    | some x =>
      obtain ⟨r', k', v', d1⟩ := x
      rw [hm] at h
      cases hb : bubbleLeft color kx vx l r' d1 with
      | none => simp [hb] at h
      | some y =>
        obtain ⟨m, d2⟩ := y
        simp [hb] at h
        obtain ⟨rfl, rfl, rfl, rfl⟩ := h
        rw [toList_bubbleLeft hb, toList, ih hm]; simp
  | case5 => intro t' k v d h; cases h

variable {cmp : K → K → Ordering} [TransCmp cmp]

theorem toList_insertNode (k : K) (v : V) (t : Tree K V) (hs : Sorted cmp (toList t)) :
    toList (insertNode cmp k v t) = ins cmp k v (toList t) := by
  induction t with
  | leaf => rfl
  | node c ky vy l r ihl ihr =>
    have hp := ins_pivot (k := k) (v := v) hs
    obtain ⟨hl, hr, -, -, -⟩ := Sorted.pivot_iff.1 hs
    simp only [toList]
    cases c with
    | black =>
      simp only [insertNode]
      cases hc : cmp k ky <;> simp only [hc] at hp ⊢ <;> rw [hp]
      · rw [toList_balanceLeft, ihl hl]
      · rfl
      · rw [toList_balanceRight, ihr hr]
    | red =>
      simp only [insertNode]
      cases hc : cmp k ky <;> simp only [hc] at hp ⊢ <;> rw [hp]
      · rw [toList, ihl hl]
      · rfl
      · rw [toList, ihr hr]

theorem lookup_eq (k : K) (t : Tree K V) (hs : Sorted cmp (toList t)) : lookup cmp k t = look cmp k (toList t) := by
  induction t with
  | leaf => rfl
  | node c kx vx l r ihl ihr =>
    obtain ⟨hl, hr, -, -, -⟩ := Sorted.pivot_iff.1 hs
    rw [toList, look_pivot hs, lookup, ihl hl, ihr hr]
    cases cmp k kx <;> rfl

theorem toList_removeNode (k : K) (t : Tree K V) (hs : Sorted cmp (toList t)) :
    (removeNode cmp k t = some none → look cmp k (toList t) = none) ∧
    ∀ t' v d, removeNode cmp k t = some (some (t', v, d)) → toList t' = del cmp k (toList t) ∧ look cmp k (toList t) = some v := by
  induction t with
  | leaf => exact ⟨fun _ => rfl, fun _ _ _ h => by cases h⟩
  | node c kx vx l r ihl ihr =>
    obtain ⟨hl, hr, -, -, -⟩ := Sorted.pivot_iff.1 hs
    have hlook := look_pivot (k := k) hs
    have hdel := del_pivot (k := k) hs
    rw [toList, hlook, hdel]
    unfold removeNode
    cases hc : cmp k kx with
    | lt =>
      simp only
      obtain ⟨i1, i2⟩ := ihl hl
      cases hx : removeNode cmp k l with
      | none => simp
      | some o =>
        cases o with
        | none => simp [i1 hx]
        | some e =>
          obtain ⟨l', v', d1⟩ := e
          obtain ⟨i3, i4⟩ := i2 _ _ _ hx
          cases hb : bubbleRight c kx vx l' r d1 with
          | none => simp [hb]
          | some y =>
            obtain ⟨m, d2⟩ := y
            simp [hb]
            refine ⟨?_, i4⟩
            rw [toList_bubbleRight hb, i3]
    | gt =>
      simp only
      obtain ⟨i1, i2⟩ := ihr hr
      cases hx : removeNode cmp k r with
      | none => simp
      | some o =>
        cases o with
        | none => simp [i1 hx]
        | some e =>
          obtain ⟨r', v', d1⟩ := e
          obtain ⟨i3, i4⟩ := i2 _ _ _ hx
          cases hb : bubbleLeft c kx vx l r' d1 with
          | none => simp [hb]
          | some y =>
            obtain ⟨m, d2⟩ := y
            simp [hb]
            refine ⟨?_, i4⟩
            rw [toList_bubbleLeft hb, i3]
    | eq =>
      simp only
      cases r with
      | leaf =>
        by_cases hcb : c = black
        · simp [hcb, toList]
          exact toList_blacken l
        · simp [hcb, toList]
      | node c2 k2 v2 l2 r2 =>
        simp only
        cases hm : removeMin (node c2 k2 v2 l2 r2) with
        | none => simp
        | some x =>
          obtain ⟨r', ky, vy, d1⟩ := x
          cases hb : bubbleLeft c ky vy l r' d1 with
          | none => simp [hb]
          | some y =>
            obtain ⟨m, d2⟩ := y
            simp [hb]
            rw [toList_bubbleLeft hb, ← toList_removeMin _ hm]

/-! ### Balance -/

def isRed : Tree K V → Bool
  | node red _ _ _ _ => true
  | _ => false

/-- No red node has a red child, and `n` black nodes on every path to a leaf. -/
def RB : Tree K V → Nat → Prop
  | leaf, n => n = 0
  | node black _ _ l r, n => ∃ m, n = m + 1 ∧ RB l m ∧ RB r m
  | node red _ _ l r, n => RB l n ∧ RB r n ∧ isRed l = false ∧ isRed r = false

/-- As `RB`, but the root and one of its children may both be red. -/
def Almost (t : Tree K V) (n : Nat) : Prop := RB t n ∨ ∃ k v l r, t = node red k v l r ∧ RB l n ∧ RB r n

theorem RB.not_red_pos {t : Tree K V} {n : Nat} (h : RB t (n + 1)) (hr : isRed t = false) :
    ∃ k v l r, t = node black k v l r ∧ RB l n ∧ RB r n := by
  cases t with
  | leaf => cases h
  | node c k v l r =>
    cases c with
    | red => cases hr
    | black =>
      obtain ⟨m, h1, h2, h3⟩ := h
      have : m = n := by omega
      subst this
      exact ⟨k, v, l, r, rfl, h2, h3⟩

theorem isRed_iff {t : Tree K V} : isRed t = true ↔ ∃ k v l r, t = node red k v l r := by
  cases t with
  | leaf => simp [isRed]
  | node c k v l r => cases c <;> simp [isRed]

theorem RB_balanceLeft {l r : Tree K V} {n : Nat} (hl : Almost l n) (hr : RB r n) (k : K) (v : V) :
    RB (balanceLeft k v l r) (n + 1) := by
  unfold balanceLeft
  split
  · rcases hl with h | ⟨_, _, _, _, e, h1, h2⟩
    · exact (by simp [RB, isRed] at h)
    · cases e
      simp only [RB, isRed, and_true] at h1 ⊢
      exact ⟨⟨n, rfl, h1.1, h1.2.1⟩, ⟨n, rfl, h2, hr⟩⟩
  · rcases hl with h | ⟨_, _, _, _, e, h1, h2⟩
    · exact (by simp [RB, isRed] at h)
    · cases e
      simp only [RB, isRed, and_true] at h2 ⊢
      exact ⟨⟨n, rfl, h1, h2.1⟩, ⟨n, rfl, h2.2.1, hr⟩⟩
  · next h1 h2 =>
    refine ⟨n, rfl, ?_, hr⟩
    rcases hl with h | ⟨k', v', a, b, rfl, ha, hb⟩
    · exact h
    · refine ⟨ha, hb, ?_, ?_⟩
      · cases hra : isRed a with
        | false => rfl
        | true => obtain ⟨_, _, _, _, rfl⟩ := isRed_iff.1 hra; exact (h1 _ _ _ _ _ _ _ rfl).elim
      · cases hrb : isRed b with
        | false => rfl
        | true => obtain ⟨_, _, _, _, rfl⟩ := isRed_iff.1 hrb; exact (h2 _ _ _ _ _ _ _ rfl).elim

theorem RB_balanceRight {l r : Tree K V} {n : Nat} (hl : RB l n) (hr : Almost r n) (k : K) (v : V) :
    RB (balanceRight k v l r) (n + 1) := by
  unfold balanceRight
  split
  · rcases hr with h | ⟨_, _, _, _, e, h1, h2⟩
    · exact (by simp [RB, isRed] at h)
    · cases e
      simp only [RB, isRed, and_true] at h1 ⊢
      exact ⟨⟨n, rfl, hl, h1.1⟩, ⟨n, rfl, h1.2.1, h2⟩⟩
  · rcases hr with h | ⟨_, _, _, _, e, h1, h2⟩
    · exact (by simp [RB, isRed] at h)
    · cases e
      simp only [RB, isRed, and_true] at h2 ⊢
      exact ⟨⟨n, rfl, hl, h1⟩, ⟨n, rfl, h2.1, h2.2.1⟩⟩
  · next h1 h2 =>
    refine ⟨n, rfl, hl, ?_⟩
    rcases hr with h | ⟨k', v', a, b, rfl, ha, hb⟩
    · exact h
    · refine ⟨ha, hb, ?_, ?_⟩
      · cases hra : isRed a with
        | false => rfl
        | true => obtain ⟨_, _, _, _, rfl⟩ := isRed_iff.1 hra; exact (h1 _ _ _ _ _ _ _ rfl).elim
      · cases hrb : isRed b with
        | false => rfl
        | true => obtain ⟨_, _, _, _, rfl⟩ := isRed_iff.1 hrb; exact (h2 _ _ _ _ _ _ _ rfl).elim

omit [TransCmp cmp] in
theorem RB_insertNode (k : K) (v : V) (t : Tree K V) : ∀ {n}, RB t n →
    Almost (insertNode cmp k v t) n ∧ (isRed t = false → RB (insertNode cmp k v t) n) := by
  induction t with
  | leaf => intro n h; cases h; simp [insertNode, Almost, RB, isRed]
  | node c ky vy l r ihl ihr =>
    intro n h
    cases c with
    | black =>
      obtain ⟨m, rfl, h1, h2⟩ := h
      have key : RB (insertNode cmp k v (node black ky vy l r)) (m + 1) := by
        simp only [insertNode]
        split
        · exact RB_balanceLeft (ihl h1).1 h2 _ _
        · exact RB_balanceRight h1 (ihr h2).1 _ _
        · exact ⟨m, rfl, h1, h2⟩
      exact ⟨.inl key, fun _ => key⟩
    | red =>
      obtain ⟨h1, h2, h3, h4⟩ := h
      refine ⟨.inr ?_, fun h => by cases h⟩
      simp only [insertNode]
      split
      · exact ⟨_, _, _, _, rfl, (ihl h1).2 h3, h2⟩
      · exact ⟨_, _, _, _, rfl, h1, (ihr h2).2 h4⟩
      · exact ⟨_, _, _, _, rfl, h1, h2⟩

theorem RB_blacken_almost {t : Tree K V} {n : Nat} (h : Almost t n) : ∃ m, RB (blacken t).1 m ∧ isRed (blacken t).1 = false := by
  rcases h with h | ⟨k, v, l, r, rfl, h1, h2⟩
  · cases t with
    | leaf => exact ⟨0, rfl, rfl⟩
    | node c k v l r =>
      cases c with
      | black => exact ⟨n, h, rfl⟩
      | red => exact ⟨n + 1, ⟨n, rfl, h.1, h.2.1⟩, rfl⟩
  · exact ⟨n + 1, ⟨n, rfl, h1, h2⟩, rfl⟩

/-- The result of removing from a tree whose root was red (`rt`) or not, of black height `n`: of the same height, or one less and `d` set. -/
def Good (rt : Bool) (n : Nat) (t' : Tree K V) (d : Bool) : Prop :=
  if d then rt = false ∧ ∃ m, n = m + 1 ∧ RB t' m else RB t' n ∧ (isRed t' = true → rt = true)

theorem RB.almost_red {k : K} {v : V} {l r : Tree K V} {n : Nat} (hl : RB l n) (hr : RB r n) : Almost (node red k v l r) n :=
  .inr ⟨k, v, l, r, rfl, hl, hr⟩

theorem bubbleRight_good {c : Color} {k : K} {v : V} {l r l' : Tree K V} {n : Nat} {d : Bool} (h : RB (node c k v l r) n)
    (hg : Good (isRed l) (if c = red then n else n - 1) l' d) :
    ∃ m' d', bubbleRight c k v l' r d = some (m', d') ∧ Good (decide (c = red)) n m' d' := by
  cases c with
  | red =>
    obtain ⟨h1, h2, h3, h4⟩ := h
    cases d with
    | false =>
      obtain ⟨g1, g2⟩ := hg
      refine ⟨_, _, rfl, ⟨g1, h2, ?_, h4⟩, fun _ => rfl⟩
      cases hx : isRed l' with
      | false => rfl
      | true => rw [g2 hx] at h3; cases h3
    | true =>
      obtain ⟨g1, m, g2, g3⟩ := hg
      simp only [if_true] at g2
      subst g2
      obtain ⟨ky, vy, b, e, rfl, hb, he⟩ := h2.not_red_pos h4
      refine ⟨_, _, rfl, RB_balanceRight g3 (RB.almost_red hb he) _ _, fun _ => rfl⟩
  | black =>
    obtain ⟨m, rfl, h1, h2⟩ := h
    cases d with
    | false =>
      obtain ⟨g1, g2⟩ := hg
      exact ⟨_, _, rfl, ⟨m, rfl, g1, h2⟩, fun h => by cases h⟩
    | true =>
      obtain ⟨g1, m', g2, g3⟩ := hg
      have : m = m' + 1 := by simpa using g2
      subst this
      cases hr : isRed r with
      | false =>
        obtain ⟨ky, vy, b, e, rfl, hb, he⟩ := h2.not_red_pos hr
        exact ⟨_, _, rfl, rfl, m' + 1, rfl, RB_balanceRight g3 (RB.almost_red hb he) _ _⟩
      | true =>
        obtain ⟨kz, vz, a, b, rfl⟩ := isRed_iff.1 hr
        obtain ⟨h3, h4, h5, h6⟩ := h2
        obtain ⟨ky, vy, b1, e1, rfl, hb, he⟩ := h3.not_red_pos h5
        exact ⟨_, _, rfl, ⟨m' + 1, rfl, RB_balanceRight g3 (RB.almost_red hb he) _ _, h4⟩, fun h => by cases h⟩

theorem bubbleLeft_good {c : Color} {k : K} {v : V} {l r r' : Tree K V} {n : Nat} {d : Bool} {k0 : K} {v0 : V}
    (h : RB (node c k0 v0 l r) n) (hg : Good (isRed r) (if c = red then n else n - 1) r' d) :
    ∃ m' d', bubbleLeft c k v l r' d = some (m', d') ∧ Good (decide (c = red)) n m' d' := by
  cases c with
  | red =>
    obtain ⟨h1, h2, h3, h4⟩ := h
    cases d with
    | false =>
      obtain ⟨g1, g2⟩ := hg
      refine ⟨_, _, rfl, ⟨h1, g1, h3, ?_⟩, fun _ => rfl⟩
      cases hx : isRed r' with
      | false => rfl
      | true => rw [g2 hx] at h4; cases h4
    | true =>
      obtain ⟨g1, m, g2, g3⟩ := hg
      simp only [if_true] at g2
      subst g2
      obtain ⟨ky, vy, b, e, rfl, hb, he⟩ := h1.not_red_pos h3
      refine ⟨_, _, rfl, RB_balanceLeft (RB.almost_red hb he) g3 _ _, fun _ => rfl⟩
  | black =>
    obtain ⟨m, rfl, h1, h2⟩ := h
    cases d with
    | false =>
      obtain ⟨g1, g2⟩ := hg
      exact ⟨_, _, rfl, ⟨m, rfl, h1, g1⟩, fun h => by cases h⟩
    | true =>
      obtain ⟨g1, m', g2, g3⟩ := hg
      have : m = m' + 1 := by simpa using g2
      subst this
      cases hr : isRed l with
      | false =>
        obtain ⟨ky, vy, b, e, rfl, hb, he⟩ := h1.not_red_pos hr
        exact ⟨_, _, rfl, rfl, m' + 1, rfl, RB_balanceLeft (RB.almost_red hb he) g3 _ _⟩
      | true =>
        obtain ⟨kz, vz, a, b, rfl⟩ := isRed_iff.1 hr
        obtain ⟨h3, h4, h5, h6⟩ := h1
        obtain ⟨ky, vy, b1, e1, rfl, hb, he⟩ := h4.not_red_pos h6
        exact ⟨_, _, rfl, ⟨m' + 1, rfl, h3, RB_balanceLeft (RB.almost_red hb he) g3 _ _⟩, fun h => by cases h⟩

theorem RB.child {c : Color} {k : K} {v : V} {l r : Tree K V} {n : Nat} (h : RB (node c k v l r) n) :
    RB l (if c = red then n else n - 1) ∧ RB r (if c = red then n else n - 1) := by
  cases c with
  | red => exact ⟨h.1, h.2.1⟩
  | black => obtain ⟨m, rfl, h1, h2⟩ := h; exact ⟨h1, h2⟩

theorem isRed_node {c : Color} {k : K} {v : V} {l r : Tree K V} : isRed (node c k v l r) = decide (c = red) := by
  cases c <;> rfl

theorem removeMin_good (t : Tree K V) : ∀ {n}, RB t n → t ≠ leaf →
    ∃ t' k v d, removeMin t = some (t', k, v, d) ∧ Good (isRed t) n t' d := by
  fun_induction removeMin t with
  | case1 k v =>
    intro n h _
    obtain ⟨m, rfl, h1, -⟩ := h
    exact ⟨_, _, _, _, rfl, rfl, m, rfl, h1⟩
  | case2 k v kx vx l r =>
    intro n h _
    obtain ⟨m, rfl, h1, h2⟩ := h
    cases h1
    exact ⟨_, _, _, _, rfl, ⟨0, rfl, h2.1, h2.2.1⟩, fun h => by cases h⟩
  | case3 k v r =>
    intro n h _
    obtain ⟨h1, h2, h3, h4⟩ := h
    exact ⟨_, _, _, _, rfl, h2, fun _ => rfl⟩
  | case4 color kx vx l r h1 h2 h3 ih =>
    intro n h _
    have hl : l ≠ leaf := by
      rintro rfl
      cases color with
      | red => exact h3 rfl rfl
      | black =>
        obtain ⟨m, rfl, h4, h5⟩ := h
        cases h4
        cases r with
        | leaf => exact h1 rfl rfl rfl
        | node c2 k2 v2 l2 r2 =>
          cases c2 with
          | red => exact h2 _ _ _ _ rfl rfl rfl
          | black => obtain ⟨_, h6, -⟩ := h5; cases h6
    obtain ⟨l', k, v, d, e1, g1⟩ := ih h.child.1 hl
    obtain ⟨m', d', e2, g2⟩ := bubbleRight_good h g1
    rw [e1]
    refine ⟨m', k, v, d', by simp [e2], ?_⟩
    rw [isRed_node]; exact g2
  | case5 => intro n _ h; exact (h rfl).elim

theorem removeMax_good (t : Tree K V) : ∀ {n}, RB t n → t ≠ leaf →
    ∃ t' k v d, removeMax t = some (t', k, v, d) ∧ Good (isRed t) n t' d := by
  fun_induction removeMax t with
  | case1 k v =>
    intro n h _
    obtain ⟨m, rfl, h1, -⟩ := h
    exact ⟨_, _, _, _, rfl, rfl, m, rfl, h1⟩
  | case2 k v kx vx l r =>
    intro n h _
    obtain ⟨m, rfl, h1, h2⟩ := h
    cases h2
    exact ⟨_, _, _, _, rfl, ⟨0, rfl, h1.1, h1.2.1⟩, fun h => by cases h⟩
  | case3 k v r =>
    intro n h _
    obtain ⟨h1, h2, h3, h4⟩ := h
    exact ⟨_, _, _, _, rfl, h1, fun _ => rfl⟩
  | case4 color kx vx l r h1 h2 h3 ih =>
    intro n h _
    have hr : r ≠ leaf := by
      rintro rfl
      cases color with
      | red => exact h3 rfl rfl
      | black =>
        obtain ⟨m, rfl, h4, h5⟩ := h
        cases h5
        cases l with
        | leaf => exact h1 rfl rfl rfl
        | node c2 k2 v2 l2 r2 =>
          cases c2 with
          | red => exact h2 _ _ _ _ rfl rfl rfl
          | black => obtain ⟨_, h6, -⟩ := h4; cases h6
    obtain ⟨r', k, v, d, e1, g1⟩ := ih h.child.2 hr
    obtain ⟨m', d', e2, g2⟩ := bubbleLeft_good (k := kx) (v := vx) h g1
    rw [e1]
    refine ⟨m', k, v, d', by simp [e2], ?_⟩
    rw [isRed_node]; exact g2
  | case5 => intro n _ h; exact (h rfl).elim

omit [TransCmp cmp] in
theorem removeNode_good (k : K) (t : Tree K V) : ∀ {n}, RB t n →
    removeNode cmp k t = some none ∨ ∃ t' v d, removeNode cmp k t = some (some (t', v, d)) ∧ Good (isRed t) n t' d := by
  induction t with
  | leaf => intro n _; exact .inl rfl
  | node c kx vx l r ihl ihr =>
    intro n h
    unfold removeNode
    cases hc : cmp k kx with
    | lt =>
      simp only
      rcases ihl h.child.1 with e | ⟨l', v', d1, e, g⟩
      · left; rw [e]; rfl
      · right
        obtain ⟨m', d', e2, g2⟩ := bubbleRight_good h g
        refine ⟨m', v', d', by simp [e, e2], ?_⟩
        rw [isRed_node]; exact g2
    | gt =>
      simp only
      rcases ihr h.child.2 with e | ⟨r', v', d1, e, g⟩
      · left; rw [e]; rfl
      · right
        obtain ⟨m', d', e2, g2⟩ := bubbleLeft_good (k := kx) (v := vx) h g
        refine ⟨m', v', d', by simp [e, e2], ?_⟩
        rw [isRed_node]; exact g2
    | eq =>
      right
      simp only
      cases r with
      | leaf =>
        cases c with
        | red =>
          obtain ⟨h1, h2, h3, h4⟩ := h
          exact ⟨l, vx, false, rfl, h1, fun _ => rfl⟩
        | black =>
          obtain ⟨m, rfl, h1, h2⟩ := h
          cases h2
          refine ⟨(blacken l).1, vx, (blacken l).2, rfl, ?_⟩
          cases l with
          | leaf => exact ⟨rfl, 0, rfl, rfl⟩
          | node c2 k2 v2 l2 r2 =>
            cases c2 with
            | red => exact ⟨⟨0, rfl, h1.1, h1.2.1⟩, fun h => by cases h⟩
            | black => obtain ⟨_, h6, -⟩ := h1; cases h6
      | node c2 k2 v2 l2 r2 =>
        obtain ⟨r', ky, vy, d, e1, g1⟩ := removeMin_good _ h.child.2 (by simp)
        obtain ⟨m', d', e2, g2⟩ := bubbleLeft_good (k := ky) (v := vy) h g1
        refine ⟨m', vx, d', by simp [e1, e2], ?_⟩
        rw [isRed_node]; exact g2

theorem Good.blacken {rt : Bool} {n : Nat} {t : Tree K V} {d : Bool} (h : Good rt n t d) :
    ∃ m, RB (blacken t).1 m ∧ isRed (RbMap.blacken t).1 = false := by
  unfold Good at h
  split at h
  · obtain ⟨-, m, -, h⟩ := h; exact RB_blacken_almost (.inl h)
  · exact RB_blacken_almost (.inl h.1)

/-! ### The cursor -/

def stackList : List (K × V × Tree K V) → List (K × V)
  | [] => []
  | (k, v, r) :: stack => (k, v) :: (toList r ++ stackList stack)

theorem stackList_push (t : Tree K V) : ∀ stack, stackList (push t stack) = toList t ++ stackList stack := by
  induction t with
  | leaf => intro _; rfl
  | node c k v l r ihl ihr =>
    intro stack
    rw [push, ihl, stackList, toList]; simp

theorem drain_eq : ∀ (fuel : Nat) (stack : List (K × V × Tree K V)), (stackList stack).length ≤ fuel → drain fuel stack = stackList stack := by
  intro fuel
  induction fuel with
  | zero =>
    intro stack h
    cases stack with
    | nil => rfl
    | cons e s => simp [stackList] at h
  | succ f ih =>
    intro stack h
    cases stack with
    | nil => rfl
    | cons e s =>
      obtain ⟨k, v, r⟩ := e
      rw [drain, ih, stackList_push]; rfl
      rw [stackList_push]
      simp only [stackList, List.length_cons] at h
      omega

theorem length_toList (t : Tree K V) : (toList t).length = size t := by
  induction t with
  | leaf => rfl
  | node c k v l r ihl ihr => simp [toList, size, ihl, ihr]; omega

theorem elems_eq (t : Tree K V) : elems t = toList t := by
  unfold elems
  rw [drain_eq]
  · rw [stackList_push]; simp [stackList]
  · rw [stackList_push]; simp [stackList, length_toList]

end Verif.RbMap
