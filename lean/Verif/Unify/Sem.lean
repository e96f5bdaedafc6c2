import Verif.Unify.Pool

/-!
# What a pool means: assignments of terms to indices
-/
namespace Verif.Unify
open Cell

/-- Finite terms `T` as values of cells. -/
class Alg (K : Type) [Cell K] (T : Type) where
  sem : (Nat → T) → K → T
  sem_var : ∀ σ k v, asVar k = some v → sem σ k = σ v
  sem_congr : ∀ σ τ k, (∀ j ∈ refs k, σ j = τ j) → sem σ k = sem τ k
  size : T → Nat
  size_lt : ∀ σ k, asVar k = none → ∀ j ∈ children k, size (σ j) < size (sem σ k)

variable {K : Type} [Cell K] {T : Type} [Alg K T]
open Alg

/-- An assignment of terms to all indices that agrees with every cell of the pool. -/
def Sol (p : List K) (σ : Nat → T) : Prop := ∀ (i : Nat) (k : K), p[i]? = some k → σ i = sem σ k

theorem Step.sol {r : Nat → Nat} {p p' : List K} (h : Step p p') (hw : WF r p) (σ : Nat → T) : Sol p' σ ↔ Sol p σ := by
  cases h with
  | @mk v w c k' h1 h2 h3 h4 =>
    constructor
    · intro hs i k hi
      by_cases hiv : i = v
      · subst hiv
        rw [h1] at hi; cases hi
        rw [sem_var σ c w h2, hs i k' (get_set_self h1), hs w k' (by rw [get_set_ne h3]; exact h4)]
      · exact hs i k (by rw [get_set_ne hiv]; exact hi)
    · intro hs i k hi
      by_cases hiv : i = v
      · subst hiv
        rw [get_set_self h1] at hi; cases hi
        rw [hs i c h1, sem_var σ c w h2, hs w k' h4]
      · rw [get_set_ne hiv] at hi
        exact hs i k hi

theorem Compress.sol {r : Nat → Nat} {p p' : List K} (h : Compress p p') (hw : WF r p) (σ : Nat → T) : Sol p' σ ↔ Sol p σ := by
  induction h with
  | refl => rfl
  | tail hc hs ih => rw [hs.sol (Compress.wf hc hw), ih]

/-- An unknown that occurs is no bigger than what it occurs in. -/
theorem Occ.size {p : List K} {σ : Nat → T} (hs : Sol p σ) {i v : Nat} {x : K} (h : Occ p i x) (hx : asVar x = some v) :
    Alg.size K (σ v) ≤ Alg.size K (σ i) := by
  induction h with
  | here h1 h2 =>
    rw [hx] at h2
    rcases h2 with h2 | h2
    · cases h2
    · cases h2; exact Nat.le_refl _
  | @step i j k x h1 h2 h3 _ ih =>
    have := ih hx
    cases ha : asVar k with
    | none =>
      rw [refs_node ha] at h3
      have h4 := Alg.size_lt (T := T) σ k ha j h3
      rw [hs i k h1]; omega
    | some w =>
      rw [refs_var ha, List.mem_singleton] at h3
      subst h3
      rw [hs i k h1, sem_var σ k j ha]; exact this

theorem CellOf.size {p : List K} {σ : Nat → T} (hs : Sol p σ) {k x : K} {v : Nat} (hk : asVar k = none) (h : CellOf p k x) (hx : asVar x = some v) :
    Alg.size K (σ v) < Alg.size K (sem σ k) := by
  rw [CellOf.of_node hk] at h
  rcases h with rfl | ⟨j, hj, ho⟩
  · rw [hk] at hx; cases hx
  · have h1 := ho.size hs hx
    have h2 := Alg.size_lt (T := T) σ k hk j hj
    omega

/-- Without any condition on a pool with cycles, every assignment of the unknowns extends to all indices. -/
theorem exists_sol {r : Nat → Nat} {p : List K} (hw : WF r p) (τ : Nat → T) :
    ∃ σ : Nat → T, Sol p σ ∧ (∀ i, IsRoot p i → σ i = τ i) ∧ ∀ i, p.length ≤ i → σ i = τ i := by
  let F : (Nat → T) → Nat → T := fun σ i =>
    match p[i]? with
    | none => τ i
    | some k => if asVar k = some i then τ i else sem σ k
  let G : Nat → Nat → T := fun n => Nat.rec τ (fun _ σ => F σ) n
  have hG : ∀ n, G (n + 1) = F (G n) := fun n => rfl
  have hst : ∀ N i, r i < N → ∀ n, r i < n → G (n + 1) i = G n i := by
    intro N
    induction N with
    | zero => intro i h; omega
    | succ N ih =>
      intro i hi n hn
      obtain ⟨n, rfl⟩ : ∃ m, n = m + 1 := ⟨n - 1, by omega⟩
      rw [hG (n + 1), hG n]
      show F (F (G n)) i = F (G n) i
      simp only [F]
      cases hk : p[i]? with
      | none => rfl
      | some k =>
        by_cases hs : asVar k = some i
        · simp only [hs, if_true]
        · simp only [hs, if_false]
          apply Alg.sem_congr
          intro j hj
          have hr := hw.ranked i j ⟨k, hk, hs, hj⟩
          exact ih j (by omega) n (by omega)
  have hst' : ∀ i n m, r i < n → n ≤ m → G m i = G n i := by
    intro i n m hn hm
    obtain ⟨d, rfl⟩ := Nat.exists_eq_add_of_le hm
    clear hm
    induction d with
    | zero => rfl
    | succ d ih => rw [← Nat.add_assoc, hst (r i + 1) i (by omega) (n + d) (by omega), ih]
  have hval : ∀ i k, p[i]? = some k → asVar k ≠ some i → ∀ (σ : Nat → T), (∀ i, σ i = G (r i + 1) i) → σ i = sem σ k := by
    intro i k hk hs σ hσ
    rw [hσ i, hG]
    show F (G (r i)) i = _
    simp only [F, hk, hs, if_false]
    apply Alg.sem_congr
    intro j hj
    have hr := hw.ranked i j ⟨k, hk, hs, hj⟩
    rw [hσ j]
    exact hst' j (r j + 1) (r i) (by omega) (by omega)
  refine ⟨fun i => G (r i + 1) i, fun i k hk => ?_, fun i ⟨k, hk, hs⟩ => ?_, fun i hi => ?_⟩
  · by_cases hs : asVar k = some i
    · rw [sem_var _ k i hs]
    · exact hval i k hk hs _ (fun _ => rfl)
  · show F _ i = _
    simp only [F, hk, hs, if_true]
  · show F _ i = _
    simp only [F, List.getElem?_eq_none_iff.2 hi]

/-- A solution is determined by the unknowns. -/
theorem sol_unique {r : Nat → Nat} {p : List K} (hw : WF r p) {σ τ : Nat → T} (hs : Sol p σ) (ht : Sol p τ)
    (h : ∀ i, IsRoot p i → σ i = τ i) : ∀ i, i < p.length → σ i = τ i := by
  have : ∀ N i, r i < N → i < p.length → σ i = τ i := by
    intro N
    induction N with
    | zero => intro i h; omega
    | succ N ih =>
      intro i hi hl
      obtain ⟨k, hk⟩ : ∃ k, p[i]? = some k := ⟨p[i], List.getElem?_eq_getElem hl⟩
      by_cases hr : asVar k = some i
      · exact h i ⟨k, hk, hr⟩
      · rw [hs i k hk, ht i k hk]
        apply Alg.sem_congr
        intro j hj
        have := hw.ranked i j ⟨k, hk, hr, hj⟩
        exact ih j (by omega) (hw.closed i k hk j hj)
  exact fun i hi => this (r i + 1) i (by omega) hi

/-! ## Binding an unknown -/

omit [Cell K] in
theorem rank_extend {E : Nat → Nat → Prop} {r : Nat → Nat} (hr : ∀ i j, E i j → r j < r i) {v : Nat} (J : List Nat)
    (hv : ∀ j, ¬ E v j) (hJ : ∀ j ∈ J, ¬ Relation.ReflTransGen E j v) :
    ∃ r' : Nat → Nat, (∀ i j, E i j → r' j < r' i) ∧ ∀ j ∈ J, r' j < r' v := by
  classical
  have hM : ∃ M, ∀ j ∈ J, r j < M := by
    clear hJ
    induction J with
    | nil => exact ⟨0, by simp⟩
    | cons a l ih =>
      obtain ⟨R, hR⟩ := ih
      refine ⟨max R (r a + 1), fun j hj => ?_⟩
      rcases List.mem_cons.1 hj with rfl | hj
      · omega
      · have := hR j hj; omega
  obtain ⟨M, hM⟩ := hM
  refine ⟨fun i => if Relation.ReflTransGen E i v then r i + M else r i, fun i j hij => ?_, fun j hj => ?_⟩
  · have h1 := hr i j hij
    by_cases hj : Relation.ReflTransGen E j v
    · simp only [hj, if_true, Relation.ReflTransGen.head hij hj]; omega
    · simp only [hj, if_false]
      split <;> omega
  · have h1 := hM j hj
    simp only [hJ j hj, if_false, Relation.ReflTransGen.refl, if_true]
    omega

theorem occ_of_reach {p : List K} {v : Nat} {x : K} (hx : p[v]? = some x) (hv : asVar x = some v) {i : Nat}
    (h : Relation.ReflTransGen (Edge p) i v) : Occ p i x := by
  induction h using Relation.ReflTransGen.head_induction_on with
  | refl => exact .here hx (.inr hv)
  | head he _ ih =>
    obtain ⟨k, h1, h2, h3⟩ := he
    exact .step h1 h2 h3 ih

/-- Binding an unknown to a resolved cell in which it does not occur. -/
theorem bind_wf {r : Nat → Nat} {p : List K} (hw : WF r p) {v : Nat} {x k : K} (hx : p[v]? = some x) (hv : asVar x = some v)
    (hg : Good p k) (hc : Canon p k) (hkv : asVar k ≠ some v) (ho : ¬ CellOf p k x) : ∃ r', WF r' (p.set v k) := by
  have hno : ∀ j, ¬ Edge p v j := by
    rintro j ⟨c, hc, hn, -⟩
    rw [hx] at hc; cases hc
    exact hn hv
  have hJ : ∀ j ∈ refs k, ¬ Relation.ReflTransGen (Edge p) j v := by
    intro j hj hreach
    have hocc := occ_of_reach hx hv hreach
    apply ho
    cases ha : asVar k with
    | none => exact (CellOf.of_node ha).2 (.inr ⟨j, by rwa [refs_node ha] at hj, hocc⟩)
    | some w =>
      rw [refs_var ha, List.mem_singleton] at hj
      subst hj
      exact (CellOf.of_var ha).2 hocc
  obtain ⟨r', h1, h2⟩ := rank_extend hw.ranked (refs k) hno hJ
  refine ⟨r', fun i c hc' j hj => ?_, fun i j ⟨c, hc', hn, hj⟩ => ?_⟩
  · rw [List.length_set]
    by_cases hi : i = v
    · subst hi
      rw [get_set_self hx] at hc'; cases hc'
      exact hg j hj
    · rw [get_set_ne hi] at hc'
      exact hw.closed i c hc' j hj
  · by_cases hi : i = v
    · subst hi
      rw [get_set_self hx] at hc'; cases hc'
      exact h2 j hj
    · rw [get_set_ne hi] at hc'
      exact h1 i j ⟨c, hc', hn, hj⟩

theorem bind_sol {p : List K} {v : Nat} {x k : K} (hx : p[v]? = some x) (hv : asVar x = some v) (σ : Nat → T) :
    Sol (p.set v k) σ ↔ Sol p σ ∧ σ v = sem σ k := by
  constructor
  · intro h
    refine ⟨fun i c hc => ?_, h v k (get_set_self hx)⟩
    by_cases hi : i = v
    · subst hi
      rw [hx] at hc; cases hc
      rw [sem_var σ x i hv]
    · exact h i c (by rw [get_set_ne hi]; exact hc)
  · rintro ⟨h1, h2⟩ i c hc
    by_cases hi : i = v
    · subst hi
      rw [get_set_self hx] at hc; cases hc
      exact h2
    · rw [get_set_ne hi] at hc
      exact h1 i c hc

/-! ## Counting unknowns -/

/-- The number of unknowns of a pool. -/
def numRoots (p : List K) : Nat := ((List.range p.length).filter fun i => (p[i]?).bind asVar == some i).length

theorem mem_roots {p : List K} {i : Nat} : (((p[i]?).bind asVar == some i) = true) ↔ IsRoot p i := by
  simp only [beq_iff_eq, IsRoot, Option.bind_eq_some_iff]

theorem numRoots_congr {p p' : List K} (hl : p'.length = p.length) (h : ∀ i, IsRoot p' i ↔ IsRoot p i) : numRoots p' = numRoots p := by
  unfold numRoots
  rw [hl]
  congr 1
  apply List.filter_congr
  intro i _
  have := h i
  rw [← mem_roots, ← mem_roots] at this
  exact Bool.eq_iff_iff.2 this

theorem numRoots_lt {p p' : List K} (hl : p'.length = p.length) (h : ∀ i, IsRoot p' i → IsRoot p i) {v : Nat} (hv : IsRoot p v)
    (hv' : ¬ IsRoot p' v) : numRoots p' < numRoots p := by
  unfold numRoots
  rw [hl]
  have hsub : ∀ l : List Nat, ((l.filter fun i => (p'[i]?).bind asVar == some i).length ≤ (l.filter fun i => (p[i]?).bind asVar == some i).length) ∧
      (v ∈ l → (l.filter fun i => (p'[i]?).bind asVar == some i).length < (l.filter fun i => (p[i]?).bind asVar == some i).length) := by
    intro l
    induction l with
    | nil => simp
    | cons a l ih =>
      by_cases h1 : IsRoot p' a
      · have h2 := h a h1
        rw [← mem_roots] at h1 h2
        rw [List.filter_cons_of_pos (by exact h1), List.filter_cons_of_pos (by exact h2)]
        refine ⟨by simpa using ih.1, fun hm => ?_⟩
        rcases List.mem_cons.1 hm with rfl | hm
        · exact absurd (mem_roots.1 h1) hv'
        · simpa using ih.2 hm
      · have h1' := h1
        rw [← mem_roots] at h1
        rw [List.filter_cons_of_neg (by exact h1)]
        by_cases h2 : IsRoot p a
        · rw [← mem_roots] at h2
          rw [List.filter_cons_of_pos (by exact h2)]
          simp only [List.length_cons]
          exact ⟨by have := ih.1; omega, fun _ => by have := ih.1; omega⟩
        · have h2' := h2
          rw [← mem_roots] at h2
          rw [List.filter_cons_of_neg (by exact h2)]
          refine ⟨ih.1, fun hm => ?_⟩
          rcases List.mem_cons.1 hm with rfl | hm
          · exact absurd hv h2'
          · exact ih.2 hm
  obtain ⟨k, hk, -⟩ := hv
  exact (hsub _).2 (List.mem_range.2 (lt_of_get hk))

theorem bind_isRoot {p : List K} {v : Nat} {x k : K} (hx : p[v]? = some x) (hkv : asVar k ≠ some v) (i : Nat) :
    IsRoot (p.set v k) i ↔ IsRoot p i ∧ i ≠ v := by
  by_cases hi : i = v
  · subst hi
    constructor
    · rintro ⟨c, hc, hn⟩
      rw [get_set_self hx] at hc; cases hc
      exact absurd hn hkv
    · rintro ⟨-, h⟩; exact absurd rfl h
  · simp only [IsRoot, get_set_ne hi, ne_eq, hi, not_false_iff, and_true]

theorem bind_numRoots {p : List K} {v : Nat} {x k : K} (hx : p[v]? = some x) (hv : asVar x = some v) (hkv : asVar k ≠ some v) :
    numRoots (p.set v k) < numRoots p :=
  numRoots_lt (by simp) (fun i hi => ((bind_isRoot hx hkv i).1 hi).1) ⟨x, hx, hv⟩ (fun h => ((bind_isRoot hx hkv v).1 h).2 rfl)

theorem Compress.numRoots {r : Nat → Nat} {p p' : List K} (h : Compress p p') (hw : WF r p) : Unify.numRoots p' = Unify.numRoots p :=
  numRoots_congr h.length (h.isRoot hw)

end Verif.Unify

namespace Verif.Unify
open Cell Alg
variable {K : Type} [Cell K] {T : Type} [Alg K T]

/-! ## Adding cells -/

theorem get_append {p ks : List K} {i : Nat} {k : K} (h : (p ++ ks)[i]? = some k) :
    (i < p.length ∧ p[i]? = some k) ∨ (p.length ≤ i ∧ ks[i - p.length]? = some k) := by
  by_cases hi : i < p.length
  · rw [List.getElem?_append_left hi] at h; exact .inl ⟨hi, h⟩
  · rw [List.getElem?_append_right (by omega)] at h; exact .inr ⟨by omega, h⟩

theorem exists_bound (r : Nat → Nat) (n : Nat) : ∃ M, ∀ j, j < n → r j < M := by
  induction n with
  | zero => exact ⟨0, by omega⟩
  | succ n ih =>
    obtain ⟨M, hM⟩ := ih
    refine ⟨max M (r n + 1), fun j hj => ?_⟩
    by_cases h : j = n
    · subst h; omega
    · have := hM j (by omega); omega

/-- New cells that refer to the old pool, or to themselves. -/
theorem append_wf {r : Nat → Nat} {p ks : List K} (hw : WF r p)
    (hk : ∀ (i : Nat) (k : K), ks[i]? = some k → Good p k ∨ asVar k = some (p.length + i)) : ∃ r', WF r' (p ++ ks) ∧ ∀ i, i < p.length → r' i = r i := by
  obtain ⟨M, hM⟩ := exists_bound r p.length
  refine ⟨fun i => if i < p.length then r i else M, ⟨fun i k hi j hj => ?_, fun i j ⟨k, hi, hn, hj⟩ => ?_⟩, fun i hi => by simp [hi]⟩
  · rw [List.length_append]
    rcases get_append hi with ⟨h1, h2⟩ | ⟨h1, h2⟩
    · have := hw.closed i k h2 j hj; omega
    · rcases hk _ _ h2 with h | h
      · have := h j hj; omega
      · rw [refs_var h, List.mem_singleton] at hj
        have := lt_of_get h2
        omega
  · rcases get_append hi with ⟨h1, h2⟩ | ⟨h1, h2⟩
    · have h3 := hw.closed i k h2 j hj
      simp only [h1, h3, if_true]
      exact hw.ranked i j ⟨k, h2, hn, hj⟩
    · rcases hk _ _ h2 with h | h
      · have h3 := h j hj
        simp only [h3, if_true, show ¬ i < p.length by omega, if_false]
        exact hM j h3
      · exact absurd (by rw [h]; congr 1; omega) hn

theorem append_sol {p ks : List K} {σ : Nat → T} (h : Sol (p ++ ks) σ) :
    Sol p σ ∧ ∀ (i : Nat) (k : K), ks[i]? = some k → σ (p.length + i) = sem σ k := by
  constructor
  · intro i k hi
    exact h i k (by rw [List.getElem?_append_left (lt_of_get hi)]; exact hi)
  · intro i k hi
    exact h _ k (by rw [List.getElem?_append_right (by omega)]; simpa using hi)

theorem sem_agree {p : List K} {k : K} (hg : Good p k) {σ τ : Nat → T} (h : ∀ i, i < p.length → σ i = τ i) : sem σ k = sem τ k :=
  Alg.sem_congr σ τ k (fun j hj => h j (hg j hj))

theorem append_extend {r : Nat → Nat} {p ks : List K} (hw : WF r p) (hk : ∀ k ∈ ks, Good p k) {σ : Nat → T} (hs : Sol p σ) :
    ∃ σ' : Nat → T, Sol (p ++ ks) σ' ∧ ∀ i, i < p.length → σ' i = σ i := by
  refine ⟨fun i => if i < p.length then σ i else match ks[i - p.length]? with | some k => sem σ k | none => σ i, fun i k hi => ?_,
    fun i hi => by simp [hi]⟩
  rcases get_append hi with ⟨h1, h2⟩ | ⟨h1, h2⟩
  · simp only [h1, if_true]
    rw [hs i k h2]
    exact sem_agree (hw.closed i k h2) (fun j hj => by simp [hj])
  · simp only [show ¬ i < p.length by omega, if_false, h2]
    exact sem_agree (hk k (List.mem_of_getElem? h2)) (fun j hj => by simp [hj])

theorem append_root_extend {r : Nat → Nat} {p : List K} (hw : WF r p) {k : K} (hk : asVar k = some p.length) (t : T) {σ : Nat → T} (hs : Sol p σ) :
    ∃ σ' : Nat → T, Sol (p ++ [k]) σ' ∧ (∀ i, i < p.length → σ' i = σ i) ∧ σ' p.length = t := by
  refine ⟨fun i => if i < p.length then σ i else t, fun i c hi => ?_, fun i hi => by simp [hi], by simp⟩
  rcases get_append hi with ⟨h1, h2⟩ | ⟨h1, h2⟩
  · simp only [h1, if_true]
    rw [hs i c h2]
    exact sem_agree (hw.closed i c h2) (fun j hj => by simp [hj])
  · have hi' : i = p.length := by
      have := lt_of_get h2
      simp at this; omega
    subst hi'
    simp at h2
    subst h2
    rw [sem_var _ k p.length hk]

/-- Solutions that agree on the unknowns in a cell give it the same value. -/
theorem sem_determined {r : Nat → Nat} {p : List K} (hw : WF r p) {σ τ : Nat → T} (hs : Sol p σ) (ht : Sol p τ) {k : K} (hg : Good p k)
    (h : ∀ x v, CellOf p k x → asVar x = some v → σ v = τ v) : sem σ k = sem τ k := by
  have hi : ∀ N i, r i < N → i < p.length → (∀ x v, Occ p i x → asVar x = some v → σ v = τ v) → σ i = τ i := by
    intro N
    induction N with
    | zero => intro i h; omega
    | succ N ih =>
      intro i hi hl h
      obtain ⟨k, hk⟩ : ∃ k, p[i]? = some k := ⟨p[i], List.getElem?_eq_getElem hl⟩
      by_cases hr : asVar k = some i
      · exact h k i (.here hk (.inr hr)) hr
      · rw [hs i k hk, ht i k hk]
        apply Alg.sem_congr
        intro j hj
        have := hw.ranked i j ⟨k, hk, hr, hj⟩
        exact ih j (by omega) (hw.closed i k hk j hj) (fun x v hx hv => h x v (.step hk hr hj hx) hv)
  apply Alg.sem_congr
  intro j hj
  refine hi (r j + 1) j (by omega) (hg j hj) (fun x v hx hv => h x v ?_ hv)
  cases ha : asVar k with
  | none => exact (CellOf.of_node ha).2 (.inr ⟨j, by rwa [refs_node ha] at hj, hx⟩)
  | some w =>
    rw [refs_var ha, List.mem_singleton] at hj
    subst hj
    exact (CellOf.of_var ha).2 hx

end Verif.Unify
