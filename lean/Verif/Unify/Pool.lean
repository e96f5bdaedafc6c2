import Mathlib.Logic.Relation

/-!
# The pool shared by kind and type unification

`llrl0/src/unification/kind.rs` and `llrl0/src/unification/types.rs` use the same representation: a vector (`pool`) of cells, whose
variables and children are indices into the vector.  A cell is a variable or a node with children.  The functions that are
line by line the same in both files (`resolve`, `dfs`) are modelled once, over any type of cells.

`none` stands for a panic (an index outside of the pool) or, with too little fuel, for a call that did not return; the theorems
show that neither occurs.  Indices are natural numbers (`u32` in the code: the pool has fewer than 2^32 cells).
-/
namespace Verif.Unify

/-- What the pool operations need to know about a cell: `Kind` (kind.rs:9-17) and `Type` (types.rs:17-22). -/
class Cell (K : Type) where
  /-- the variable this cell is a reference to -/
  asVar : K → Option Nat
  /-- the children of a node, in the order `dfs` visits them -/
  children : K → List Nat
  children_var : ∀ k v, asVar k = some v → children k = []

variable {K : Type} [Cell K]
open Cell

/-- `Resolve<Var>::resolve`, kind.rs:236-247 and types.rs:421-432 (with path compression). -/
def resolveVar : Nat → Nat → List K → Option (K × List K)
  | 0, _, _ => none
  | n + 1, v, p =>
    match p[v]? with
    | none => none
    | some k =>
      match asVar k with
      | none => some (k, p)
      | some w =>
        if w ≠ v then
          match resolveVar n w p with
          | none => none
          | some (k', p') => some (k', p'.set v k')
        else some (k, p)

/-- `Resolve<Kind>::resolve`, kind.rs:249-256; `Resolve<Type>::resolve`, types.rs:434-441. -/
def resolve (n : Nat) (k : K) (p : List K) : Option (K × List K) :=
  match asVar k with
  | some v => resolveVar n v p
  | none => some (k, p)

/-- `for child in children { f(child)? }`. -/
def forEach {ε σ : Type} (f : Nat → σ → List K → Option (Except ε σ × List K)) : List Nat → σ → List K → Option (Except ε σ × List K)
  | [], s, p => some (.ok s, p)
  | c :: cs, s, p =>
    match f c s p with
    | none => none
    | some (.error e, p) => some (.error e, p)
    | some (.ok s, p) => forEach f cs s p

/-- Following an index of the pool: the code passes a `Var`, and `Resolve<Var>` resolves it. -/
def dfsVar {ε σ : Type} (f : K → σ → Except ε σ) : Nat → Nat → σ → List K → Option (Except ε σ × List K)
  | 0, _, _, _ => none
  | n + 1, v, s, p =>
    match resolveVar n v p with
    | none => none
    | some (k, p) =>
      match forEach (dfsVar f n) (children k) s p with
      | none => none
      | some (.error e, p) => some (.error e, p)
      | some (.ok s, p) => some (f k s, p)

/-- `dfs`, kind.rs:104-125 and types.rs:275-290; the closure is `f`, its captured variables `s`. -/
def dfs {ε σ : Type} (f : K → σ → Except ε σ) (n : Nat) (k : K) (s : σ) (p : List K) : Option (Except ε σ × List K) :=
  match resolve n k p with
  | none => none
  | some (k, p) =>
    match forEach (dfsVar f n) (children k) s p with
    | none => none
    | some (.error e, p) => some (.error e, p)
    | some (.ok s, p) => some (f k s, p)

/-! ## Well formed pools -/

/-- The indices a cell refers to. -/
def refs (k : K) : List Nat :=
  match asVar k with
  | some v => [v]
  | none => children k

/-- An index which is an unknown: it refers to itself. -/
def IsRoot (p : List K) (i : Nat) : Prop := ∃ k, p[i]? = some k ∧ asVar k = some i

def Edge (p : List K) (i j : Nat) : Prop := ∃ k, p[i]? = some k ∧ asVar k ≠ some i ∧ j ∈ refs k

/-- No index points outside of the pool, and the pool has no cycle: `r` decreases along every reference. -/
structure WF (r : Nat → Nat) (p : List K) : Prop where
  closed : ∀ (i : Nat) (k : K), p[i]? = some k → ∀ j ∈ refs k, j < p.length
  ranked : ∀ i j, Edge p i j → r j < r i

/-- A cell whose references are in the pool. -/
def Good (p : List K) (k : K) : Prop := ∀ j ∈ refs k, j < p.length

theorem refs_var {k : K} {v : Nat} (h : asVar k = some v) : refs k = [v] := by rw [refs, h]
theorem refs_node {k : K} (h : asVar k = none) : refs k = children k := by rw [refs, h]

/-- One path compression. -/
inductive Step : List K → List K → Prop
  | mk {p : List K} {v w : Nat} {k k' : K} (hv : p[v]? = some k) (hk : asVar k = some w) (hne : w ≠ v) (hw : p[w]? = some k') :
    Step p (p.set v k')

abbrev Compress : List K → List K → Prop := Relation.ReflTransGen Step

theorem get_set {p : List K} {v i : Nat} {k : K} : (p.set v k)[i]? = if i = v ∧ v < p.length then some k else p[i]? := by
  rw [List.getElem?_set]
  by_cases h : v = i
  · subst h
    by_cases h' : v < p.length
    · simp [h']
    · simp [h', List.getElem?_eq_none_iff.2 (Nat.le_of_not_lt h')]
  · simp [h, Ne.symm h]

theorem lt_of_get {p : List K} {i : Nat} {k : K} (h : p[i]? = some k) : i < p.length := by
  rw [List.getElem?_eq_some_iff] at h
  exact h.1

theorem get_set_self {p : List K} {v : Nat} {k k0 : K} (h : p[v]? = some k0) : (p.set v k)[v]? = some k := by
  rw [get_set, if_pos ⟨rfl, lt_of_get h⟩]

theorem get_set_ne {p : List K} {v i : Nat} {k : K} (h : i ≠ v) : (p.set v k)[i]? = p[i]? := by
  rw [get_set, if_neg (fun h' => h h'.1)]

theorem Step.length {p p' : List K} (h : Step p p') : p'.length = p.length := by
  cases h; simp

/-- The cell a step writes is not a reference to its own index. -/
theorem step_not_self {r : Nat → Nat} {p : List K} (hw : WF r p) {v w : Nat} {k k' : K} (h1 : p[v]? = some k) (h2 : asVar k = some w)
    (h3 : w ≠ v) (h4 : p[w]? = some k') : asVar k' ≠ some v := by
  intro h
  have e1 : r w < r v := hw.ranked v w ⟨k, h1, by rw [h2]; simpa using h3, by simp [refs_var h2]⟩
  have e2 : r v < r w := hw.ranked w v ⟨k', h4, by rw [h]; simpa using Ne.symm h3, by simp [refs_var h]⟩
  omega

theorem Step.wf {r : Nat → Nat} {p p' : List K} (h : Step p p') (hw : WF r p) : WF r p' := by
  cases h with
  | @mk v w k k' h1 h2 h3 h4 =>
    have e1 : r w < r v := hw.ranked v w ⟨k, h1, by rw [h2]; simpa using h3, by simp [refs_var h2]⟩
    have hns := step_not_self hw h1 h2 h3 h4
    refine ⟨fun i c hc j hj => ?_, fun i j ⟨c, hc, hn, hj⟩ => ?_⟩
    · rw [List.length_set]
      by_cases hi : i = v
      · subst hi
        rw [get_set_self h1] at hc; cases hc
        exact hw.closed w k' h4 j hj
      · rw [get_set_ne hi] at hc
        exact hw.closed i c hc j hj
    · by_cases hi : i = v
      · subst hi
        rw [get_set_self h1] at hc; cases hc
        by_cases hs : asVar k' = some w
        · rw [refs_var hs] at hj
          rw [List.mem_singleton] at hj
          rw [hj]; exact e1
        · have := hw.ranked w j ⟨k', h4, hs, hj⟩
          omega
      · rw [get_set_ne hi] at hc
        exact hw.ranked i j ⟨c, hc, hn, hj⟩

theorem Step.root {r : Nat → Nat} {p p' : List K} (h : Step p p') (hw : WF r p) {i : Nat} {k : K} (hk : asVar k = some i) :
    p'[i]? = some k ↔ p[i]? = some k := by
  cases h with
  | @mk v w c k' h1 h2 h3 h4 =>
    by_cases hi : i = v
    · subst hi
      rw [get_set_self h1, h1]
      constructor
      · intro h; cases h; exact absurd hk (step_not_self hw h1 h2 h3 h4)
      · intro h; cases h; rw [h2] at hk; cases hk; exact absurd rfl h3
    · rw [get_set_ne hi]

theorem Step.node {p p' : List K} (h : Step p p') {i : Nat} {k : K} (hk : asVar k = none) (hi : p[i]? = some k) : p'[i]? = some k := by
  cases h with
  | @mk v w c k' h1 h2 h3 h4 =>
    by_cases hiv : i = v
    · subst hiv; rw [h1] at hi; cases hi; rw [h2] at hk; cases hk
    · rw [get_set_ne hiv]; exact hi

/-- The resolved cell `x` occurs in what index `i` stands for. -/
inductive Occ (p : List K) : Nat → K → Prop
  | here {i : Nat} {x : K} : p[i]? = some x → (asVar x = none ∨ asVar x = some i) → Occ p i x
  | step {i j : Nat} {k x : K} : p[i]? = some k → asVar k ≠ some i → j ∈ refs k → Occ p j x → Occ p i x

theorem Step.occ {r : Nat → Nat} {p p' : List K} (h : Step p p') (hw : WF r p) (i : Nat) (x : K) : Occ p' i x ↔ Occ p i x := by
  cases h with
  | @mk v w c k' h1 h2 h3 h4 =>
    have hns := step_not_self hw h1 h2 h3 h4
    have hvw : asVar c ≠ some v := by rw [h2]; simpa using h3
    have hmem : w ∈ refs c := by simp [refs_var h2]
    constructor
    · intro h
      induction h with
      | @here i x hx hn =>
        by_cases hi : i = v
        · subst hi
          rw [get_set_self h1] at hx; cases hx
          rcases hn with hn | hn
          · exact .step h1 hvw hmem (.here h4 (.inl hn))
          · exact absurd hn hns
        · rw [get_set_ne hi] at hx
          exact .here hx hn
      | @step i j k x hx hn hj _ ih =>
        by_cases hi : i = v
        · subst hi
          rw [get_set_self h1] at hx
          obtain rfl : k' = k := by simpa using hx
          by_cases hs : asVar k' = some w
          · rw [refs_var hs, List.mem_singleton] at hj
            subst hj
            exact .step h1 hvw hmem ih
          · exact .step h1 hvw hmem (.step h4 hs hj ih)
        · rw [get_set_ne hi] at hx
          exact .step hx hn hj ih
    · intro h
      induction h with
      | @here i x hx hn =>
        by_cases hi : i = v
        · subst hi
          rw [h1] at hx; cases hx
          rw [h2] at hn
          rcases hn with hn | hn
          · cases hn
          · cases hn; exact absurd rfl h3
        · exact .here (by rw [get_set_ne hi]; exact hx) hn
      | @step i j k x hx hn hj _ ih =>
        by_cases hi : i = v
        · subst hi
          rw [h1] at hx; cases hx
          rw [refs_var h2, List.mem_singleton] at hj
          subst hj
          have h4' : (p.set i k')[j]? = some k' := by rw [get_set_ne h3]; exact h4
          cases ih with
          | here hx' hn' =>
            rw [h4'] at hx'; cases hx'
            rcases hn' with hn' | hn'
            · exact .here (get_set_self h1) (.inl hn')
            · exact .step (get_set_self h1) hns (by simp [refs_var hn']) (.here h4' (.inr hn'))
          | step hx' hn' hj' ho =>
            rw [h4'] at hx'; cases hx'
            exact .step (get_set_self h1) hns hj' ho
        · exact .step (by rw [get_set_ne hi]; exact hx) hn hj ih

section
variable {r : Nat → Nat} {p p' : List K}

theorem Compress.length (h : Compress p p') : p'.length = p.length := by
  induction h with
  | refl => rfl
  | tail _ hs ih => rw [hs.length, ih]

theorem Compress.wf (h : Compress p p') (hw : WF r p) : WF r p' := by
  induction h with
  | refl => exact hw
  | tail _ hs ih => exact hs.wf ih

theorem Compress.root (h : Compress p p') (hw : WF r p) {i : Nat} {k : K} (hk : asVar k = some i) : p'[i]? = some k ↔ p[i]? = some k := by
  induction h with
  | refl => rfl
  | tail hc hs ih => rw [hs.root (Compress.wf hc hw) hk, ih]

theorem Compress.isRoot (h : Compress p p') (hw : WF r p) (i : Nat) : IsRoot p' i ↔ IsRoot p i :=
  ⟨fun ⟨k, h1, h2⟩ => ⟨k, (h.root hw h2).1 h1, h2⟩, fun ⟨k, h1, h2⟩ => ⟨k, (h.root hw h2).2 h1, h2⟩⟩

theorem Compress.node (h : Compress p p') {i : Nat} {k : K} (hk : asVar k = none) (hi : p[i]? = some k) : p'[i]? = some k := by
  induction h with
  | refl => exact hi
  | tail _ hs ih => exact hs.node hk ih

theorem Compress.occ (h : Compress p p') (hw : WF r p) (i : Nat) (x : K) : Occ p' i x ↔ Occ p i x := by
  induction h with
  | refl => rfl
  | tail hc hs ih => rw [hs.occ (Compress.wf hc hw), ih]

theorem Compress.good (h : Compress p p') {k : K} (hg : Good p k) : Good p' k := by
  intro j hj; rw [h.length]; exact hg j hj

end

theorem Step.cells {p p' : List K} (h : Step p p') : ∀ k ∈ p', k ∈ p := by
  cases h with
  | @mk v w c k' h1 h2 h3 h4 =>
    intro k hk
    rcases List.mem_or_eq_of_mem_set hk with h | rfl
    · exact h
    · exact List.mem_of_getElem? h4

theorem Compress.cells {p p' : List K} (h : Compress p p') : ∀ k ∈ p', k ∈ p := by
  induction h with
  | refl => exact fun _ h => h
  | tail _ hs ih => exact fun k hk => ih k (hs.cells k hk)

/-- What a resolved cell looks like: a node, or an unknown together with the cell stored for it. -/
def Canon (p : List K) (k : K) : Prop := ∀ w, asVar k = some w → p[w]? = some k

theorem Compress.canon {r : Nat → Nat} {p p' : List K} (h : Compress p p') (hw : WF r p) {k : K} (hk : Canon p k) : Canon p' k :=
  fun w hkw => (h.root hw hkw).2 (hk w hkw)

/-- Resolving an index: terminates within `r v + 1` steps, only compresses paths, and gives a resolved cell. -/
theorem resolveVar_spec {r : Nat → Nat} : ∀ (N v : Nat) {p : List K}, r v < N → WF r p → v < p.length →
    ∃ k p', (∀ n, r v < n → resolveVar n v p = some (k, p')) ∧ Compress p p' ∧ p'[v]? = some k ∧ Canon p' k ∧
      (∀ w, asVar k = some w → r w ≤ r v) ∧ (asVar k = none → ∀ j ∈ children k, r j < r v) ∧
      (∀ i, r v < r i → p'[i]? = p[i]?) := by
  intro N
  induction N with
  | zero => intro v p h; omega
  | succ N ih =>
    intro v p hN hw hv
    obtain ⟨k, hk⟩ : ∃ k, p[v]? = some k := ⟨p[v], List.getElem?_eq_getElem hv⟩
    cases ha : asVar k with
    | none =>
      refine ⟨k, p, fun n hn => ?_, .refl, hk, fun w hw' => by simp [ha] at hw', fun w hw' => by simp [ha] at hw',
        fun _ j hj => hw.ranked v j ⟨k, hk, by rw [ha]; simp, by rwa [refs_node ha]⟩, fun _ _ => rfl⟩
      obtain ⟨n, rfl⟩ : ∃ m, n = m + 1 := ⟨n - 1, by omega⟩
      simp only [resolveVar, hk, ha]
    | some w =>
      by_cases hwv : w = v
      · subst hwv
        refine ⟨k, p, fun n hn => ?_, .refl, hk, fun w' hw' => by rw [ha] at hw'; cases hw'; exact hk,
          fun w' hw' => by rw [ha] at hw'; cases hw'; exact Nat.le_refl _, fun h => (by rw [ha] at h; cases h), fun _ _ => rfl⟩
        obtain ⟨n, rfl⟩ : ∃ m, n = m + 1 := ⟨n - 1, by omega⟩
        simp [resolveVar, hk, ha]
      · have hrw : r w < r v := hw.ranked v w ⟨k, hk, by rw [ha]; simpa using hwv, by simp [refs_var ha]⟩
        obtain ⟨k', p', h1, h2, h3, h4, h5, h6, h7⟩ := ih w (by omega) hw (hw.closed v k hk w (by simp [refs_var ha]))
        have hv' : p'[v]? = some k := by rw [h7 v hrw]; exact hk
        have hstep : Step p' (p'.set v k') := .mk hv' ha hwv h3
        refine ⟨k', p'.set v k', fun n hn => ?_, h2.tail hstep, get_set_self hv', fun u hu => ?_, fun u hu => ?_, fun hn j hj => ?_,
          fun i hi => ?_⟩
        · obtain ⟨n, rfl⟩ : ∃ m, n = m + 1 := ⟨n - 1, by omega⟩
          simp only [resolveVar, hk, ha, ne_eq, hwv, not_false_iff, if_true]
          rw [h1 n (by omega)]
        · exact (hstep.root (h2.wf hw) hu).2 (h4 u hu)
        · have := h5 u hu; omega
        · have := h6 hn j hj; omega
        · rw [get_set_ne (by rintro rfl; omega), h7 i (by omega)]

/-! ## The cells a traversal visits -/

/-- The resolved cell `x` occurs in what the cell `k` stands for. -/
def CellOf (p : List K) (k x : K) : Prop :=
  match asVar k with
  | some v => Occ p v x
  | none => x = k ∨ ∃ j ∈ children k, Occ p j x

theorem occ_iff {p : List K} {i : Nat} {k : K} (h : p[i]? = some k) (x : K) :
    Occ p i x ↔ (x = k ∧ (asVar k = none ∨ asVar k = some i)) ∨ (asVar k ≠ some i ∧ ∃ j ∈ refs k, Occ p j x) := by
  constructor
  · intro ho
    cases ho with
    | here h1 h2 => rw [h] at h1; cases h1; exact .inl ⟨rfl, h2⟩
    | step h1 h2 h3 h4 => rw [h] at h1; cases h1; exact .inr ⟨h2, _, h3, h4⟩
  · rintro (⟨rfl, h2⟩ | ⟨h2, j, h3, h4⟩)
    · exact .here h h2
    · exact .step h h2 h3 h4

/-- Of an index and the resolved cell stored for it, the same cells. -/
theorem occ_canon {p : List K} {i : Nat} {k : K} (h : p[i]? = some k) (hc : Canon p k) (x : K) :
    Occ p i x ↔ x = k ∨ ∃ j ∈ children k, Occ p j x := by
  rw [occ_iff h]
  cases ha : asVar k with
  | none => simp [refs_node ha]
  | some w =>
    have hch := children_var k w ha
    simp only [reduceCtorEq, false_or, Option.some.injEq, refs_var ha, List.mem_singleton, exists_eq_left, hch, List.not_mem_nil, false_and,
      exists_false, or_false]
    have hw : Occ p w x ↔ x = k := by
      rw [occ_iff (hc w ha)]; simp [ha]
    rw [hw]
    by_cases hwi : w = i <;> simp [hwi]

/-- Running a fallible step on each element, stopping at the first failure. -/
def runAll {ε σ : Type} (f : K → σ → Except ε σ) : List K → σ → Except ε σ
  | [], s => .ok s
  | x :: xs, s =>
    match f x s with
    | .error e => .error e
    | .ok s => runAll f xs s

theorem runAll_append {ε σ : Type} (f : K → σ → Except ε σ) (xs ys : List K) (s : σ) :
    runAll f (xs ++ ys) s = match runAll f xs s with | .error e => .error e | .ok s => runAll f ys s := by
  induction xs generalizing s with
  | nil => rfl
  | cons x xs ih =>
    simp only [List.cons_append, runAll]
    cases f x s with
    | error e => rfl
    | ok s => exact ih s

theorem runAll_single {ε σ : Type} (f : K → σ → Except ε σ) (x : K) (s : σ) : runAll f [x] s = f x s := by
  simp only [runAll]; cases f x s <;> rfl

theorem forEach_spec {ε σ : Type} (f : K → σ → Except ε σ) {r : Nat → Nat} {N : Nat} (g : Nat → Nat → σ → List K → Option (Except ε σ × List K))
    (hg : ∀ c p s, r c < N → WF r p → c < p.length → ∃ (L : List K) (p' : List K), (∀ n, N ≤ n → g n c s p = some (runAll f L s, p')) ∧
      Compress p p' ∧ ∀ x, x ∈ L ↔ Occ p c x) :
    ∀ (cs : List Nat) (p : List K) (s : σ), WF r p → (∀ c ∈ cs, r c < N ∧ c < p.length) →
      ∃ (L : List K) (p' : List K), (∀ n, N ≤ n → forEach (g n) cs s p = some (runAll f L s, p')) ∧ Compress p p' ∧
        ∀ x, x ∈ L ↔ ∃ c ∈ cs, Occ p c x := by
  intro cs
  induction cs with
  | nil => intro p s hw _; exact ⟨[], p, fun n _ => rfl, .refl, by simp⟩
  | cons c cs ih =>
    intro p s hw hc
    obtain ⟨L, p1, h1, h2, h3⟩ := hg c p s (hc c (by simp)).1 hw (hc c (by simp)).2
    have hc' : ∀ d ∈ cs, r d < N ∧ d < p1.length := fun d hd => by rw [h2.length]; exact hc d (by simp [hd])
    cases hr : runAll f L s with
    | error e =>
      obtain ⟨L', p2, -, -, h6⟩ := ih p1 s (h2.wf hw) hc'
      refine ⟨L ++ L', p1, fun n hn => ?_, h2, fun x => ?_⟩
      · simp only [forEach, h1 n hn, hr, runAll_append]
      · simp only [List.mem_append, h3, h6, List.mem_cons, exists_eq_or_imp, h2.occ hw]
    | ok s' =>
      obtain ⟨L', p2, h4, h5, h6⟩ := ih p1 s' (h2.wf hw) hc'
      refine ⟨L ++ L', p2, fun n hn => ?_, h2.trans h5, fun x => ?_⟩
      · simp only [forEach, h1 n hn, hr, runAll_append, h4 n hn]
      · simp only [List.mem_append, h3, h6, List.mem_cons, exists_eq_or_imp, h2.occ hw]

/-- A traversal runs its step exactly on the resolved cells that occur. -/
theorem dfsVar_spec {ε σ : Type} (f : K → σ → Except ε σ) {r : Nat → Nat} : ∀ (N v : Nat) (p : List K) (s : σ), r v < N → WF r p →
    v < p.length → ∃ (L : List K) (p' : List K), (∀ n, N < n → dfsVar f n v s p = some (runAll f L s, p')) ∧ Compress p p' ∧
      ∀ x, x ∈ L ↔ Occ p v x := by
  intro N
  induction N with
  | zero => intro v p s h; omega
  | succ N ih =>
    intro v p s hN hw hv
    obtain ⟨k, p1, h1, h2, h3, h4, h5, h6, -⟩ := resolveVar_spec (r v + 1) v (by omega) hw hv
    have hch : ∀ c ∈ children k, r c < N ∧ c < p1.length := fun c hc => by
      cases ha : asVar k with
      | some w => rw [children_var k w ha] at hc; simp at hc
      | none => exact ⟨by have := h6 ha c hc; omega, (h2.wf hw).closed v k h3 c (by rwa [refs_node ha])⟩
    obtain ⟨L, p2, e1, e2, e3⟩ := forEach_spec f (N := N) (fun n => dfsVar f (n + 1))
      (fun c p s hc hw hv => by
        obtain ⟨L, p', g1, g2, g3⟩ := ih c p s hc hw hv
        exact ⟨L, p', fun n hn => g1 _ (by omega), g2, g3⟩) (children k) p1 s (h2.wf hw) hch
    refine ⟨L ++ [k], p2, fun n hn => ?_, h2.trans e2, fun x => ?_⟩
    · obtain ⟨n, rfl⟩ : ∃ m, n = m + 2 := ⟨n - 2, by omega⟩
      rw [dfsVar, h1 (n + 1) (by omega)]
      simp only [e1 n (by omega), runAll_append]
      cases runAll f L s <;> simp [runAll_single]
    · rw [List.mem_append, e3, List.mem_singleton, ← h2.occ hw v x, occ_canon h3 h4]
      exact or_comm

theorem CellOf.of_node {p : List K} {k x : K} (h : asVar k = none) : CellOf p k x ↔ x = k ∨ ∃ j ∈ children k, Occ p j x := by
  rw [CellOf, h]

theorem CellOf.of_var {p : List K} {k x : K} {v : Nat} (h : asVar k = some v) : CellOf p k x ↔ Occ p v x := by
  rw [CellOf, h]

theorem CellOf.compress {r : Nat → Nat} {p p' : List K} (h : Compress p p') (hw : WF r p) (k x : K) : CellOf p' k x ↔ CellOf p k x := by
  cases ha : asVar k with
  | none => simp only [CellOf.of_node ha, h.occ hw]
  | some v => simp only [CellOf.of_var ha, h.occ hw]

/-- Ranks of what a cell refers to are below `R` (for a variable: at most). -/
def RankLt (r : Nat → Nat) (R : Nat) (k : K) : Prop := ∀ j ∈ refs k, r j < R

theorem exists_rankLt (r : Nat → Nat) (k : K) : ∃ R, RankLt r R k := by
  have : ∀ l : List Nat, ∃ R, ∀ j ∈ l, r j < R := by
    intro l
    induction l with
    | nil => exact ⟨0, by simp⟩
    | cons a l ih =>
      obtain ⟨R, hR⟩ := ih
      refine ⟨max R (r a + 1), fun j hj => ?_⟩
      rcases List.mem_cons.1 hj with rfl | hj
      · omega
      · have := hR j hj; omega
  exact this _

/-- `resolve` on a cell. -/
theorem resolve_spec {r : Nat → Nat} {R : Nat} {p : List K} {k : K} (hw : WF r p) (hg : Good p k) (hR : RankLt r R k) :
    ∃ k' p', (∀ n, R ≤ n → resolve n k p = some (k', p')) ∧ Compress p p' ∧ Canon p' k' ∧ Good p' k' ∧
      (asVar k' = none → ∀ j ∈ children k', r j < R) ∧ RankLt r R k' ∧ (∀ x, CellOf p k x ↔ x = k' ∨ ∃ j ∈ children k', Occ p' j x) ∧
      ((∃ v, asVar k = some v ∧ p'[v]? = some k' ∧ ∀ j ∈ children k', r j < r v) ∨ (asVar k = none ∧ k' = k ∧ p' = p)) := by
  cases ha : asVar k with
  | none =>
    refine ⟨k, p, fun n _ => by simp only [resolve, ha], .refl, fun w hw' => by simp [ha] at hw', hg, fun _ j hj => ?_, hR,
      fun x => CellOf.of_node ha, .inr ⟨rfl, rfl, rfl⟩⟩
    exact hR j (by rwa [refs_node ha])
  | some v =>
    have hv : r v < R := hR v (by simp [refs_var ha])
    obtain ⟨k', p', h1, h2, h3, h4, h5, h6, -⟩ := resolveVar_spec (r v + 1) v (by omega) hw (hg v (by simp [refs_var ha]))
    refine ⟨k', p', fun n hn => by simp only [resolve, ha]; exact h1 n (by omega), h2, h4, (h2.wf hw).closed v k' h3, fun hn j hj => ?_,
      fun j hj => ?_, fun x => ?_, .inl ⟨v, rfl, h3, fun j hj => ?_⟩⟩
    · have := h6 hn j hj; omega
    · cases hk : asVar k' with
      | none => have := h6 hk j (by rwa [refs_node hk] at hj); omega
      | some w => rw [refs_var hk, List.mem_singleton] at hj; subst hj; have := h5 j hk; omega
    · rw [CellOf.of_var ha, ← h2.occ hw v x, occ_canon h3 h4]
    · cases hk : asVar k' with
      | none => exact h6 hk j hj
      | some w => rw [children_var k' w hk] at hj; simp at hj

/-- A bound for the recursion of unification: the children of a node are below `R - 1`, a variable is below `R`. -/
def Low (r : Nat → Nat) (R : Nat) (k : K) : Prop := (∀ v, asVar k = some v → r v < R) ∧ ∀ j ∈ children k, r j + 1 < R

theorem Low.rankLt {r : Nat → Nat} {R : Nat} {k : K} (h : Low r R k) : RankLt r R k := by
  intro j hj
  cases ha : asVar k with
  | none => rw [refs_node ha] at hj; have := h.2 j hj; omega
  | some v => rw [refs_var ha, List.mem_singleton] at hj; subst hj; exact h.1 j ha

theorem exists_low (r : Nat → Nat) (k : K) : ∃ R, Low r R k := by
  obtain ⟨R, hR⟩ := exists_rankLt r k
  refine ⟨R + 1, fun v hv => ?_, fun j hj => ?_⟩
  · have := hR v (by simp [refs_var hv]); omega
  · cases ha : asVar k with
    | none => have := hR j (by rwa [refs_node ha]); omega
    | some w => rw [children_var k w ha] at hj; simp at hj

/-- The children of a resolved cell are low. -/
theorem Low.resolved {r : Nat → Nat} {R : Nat} {k k' : K} (h : Low r R k) {P : Nat → Prop} {Q : Prop}
    (hr : (∃ v, asVar k = some v ∧ P v ∧ ∀ j ∈ children k', r j < r v) ∨ (asVar k = none ∧ k' = k ∧ Q)) : ∀ j ∈ children k', r j + 1 < R := by
  intro j hj
  rcases hr with ⟨v, h1, -, h2⟩ | ⟨-, rfl, -⟩
  · have := h.1 v h1; have := h2 j hj; omega
  · exact h.2 j hj

/-- `dfs` on a cell. -/
theorem dfs_spec {ε σ : Type} (f : K → σ → Except ε σ) {r : Nat → Nat} {R : Nat} {p : List K} {k : K} (s : σ) (hw : WF r p) (hg : Good p k)
    (hR : RankLt r R k) : ∃ (L : List K) (p' : List K), (∀ n, R < n → dfs f n k s p = some (runAll f L s, p')) ∧ Compress p p' ∧
      ∀ x, x ∈ L ↔ CellOf p k x := by
  obtain ⟨k', p1, h1, h2, h3, h4, h5, h6, h7, -⟩ := resolve_spec hw hg hR
  have hch : ∀ c ∈ children k', r c < R ∧ c < p1.length := fun c hc => by
    cases ha : asVar k' with
    | some w => rw [children_var k' w ha] at hc; simp at hc
    | none => exact ⟨h5 ha c hc, h4 c (by rwa [refs_node ha])⟩
  obtain ⟨L, p2, e1, e2, e3⟩ := forEach_spec f (N := R) (fun n => dfsVar f (n + 1))
    (fun c p s hc hw hv => by
      obtain ⟨L, p', g1, g2, g3⟩ := dfsVar_spec f R c p s hc hw hv
      exact ⟨L, p', fun n hn => g1 _ (by omega), g2, g3⟩) (children k') p1 s (h2.wf hw) hch
  refine ⟨L ++ [k'], p2, fun n hn => ?_, h2.trans e2, fun x => ?_⟩
  · obtain ⟨n, rfl⟩ : ∃ m, n = m + 1 := ⟨n - 1, by omega⟩
    simp only [dfs, h1 (n + 1) (by omega), e1 n (by omega), runAll_append]
    cases runAll f L s <;> simp [runAll_single]
  · rw [List.mem_append, e3, List.mem_singleton, h7]
    exact or_comm

end Verif.Unify
