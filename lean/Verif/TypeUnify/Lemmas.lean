import Verif.TypeUnify.Model

/-! # Correctness of type unification: lemmas -/
namespace Verif.TypeUnify
open Verif Verif.Unify Verif.Unify.Cell

variable {Kd : Type}

mutual
def AType.size : AType Kd → Nat
  | .app callee args => callee.size + AType.sizes args + 1
  | _ => 0
def AType.sizes : List (AType Kd) → Nat
  | [] => 0
  | a :: as => a.size + AType.sizes as
end

theorem size_le_sizes {a : AType Kd} {as : List (AType Kd)} (h : a ∈ as) : a.size ≤ AType.sizes as := by
  induction as with
  | nil => simp at h
  | cons b as ih =>
    simp only [AType.sizes]
    rcases List.mem_cons.1 h with rfl | h
    · omega
    · have := ih h; omega

/-- The type a cell stands for under an assignment of types to indices. -/
def Ty.sem (σ : Nat → AType Kd) : Ty Kd → AType Kd
  | .var v _ _ => σ v
  | .con c => .con c
  | .app callee lo hi => .app (σ callee) ((vars lo hi).map σ)
  | .gen g lv => .gen g lv

instance : Alg (Ty Kd) (AType Kd) where
  sem := Ty.sem
  sem_var := by intro σ k v h; cases k <;> simp_all [asVar, Ty.sem]
  sem_congr := by
    intro σ τ k h
    cases k <;> simp_all [refs, asVar, Ty.sem, children]
  size := AType.size
  size_lt := by
    intro σ k h j hj
    cases k <;> simp_all [asVar, Ty.sem, children]
    rw [AType.size]
    rcases hj with rfl | hj
    · omega
    · have := size_le_sizes (List.mem_map_of_mem (f := σ) hj); omega

@[simp] theorem sem_eq (σ : Nat → AType Kd) (k : Ty Kd) : Alg.sem σ k = k.sem σ := rfl

abbrev Assign (Kd : Type) := Nat → AType Kd

def Ty.Proper : Ty Kd → Prop
  | .app _ lo hi => lo < hi
  | _ => True

variable (env : Env Kd)

/-- The kind of a cell, from the kinds of the indices. -/
def cellKind (κ : Nat → Kd) : Ty Kd → Option Kd
  | .var v _ _ => some (κ v)
  | .con c => some (env.con c)
  | .app callee _ _ => env.ret (κ callee)
  | .gen g _ => some (env.gen g)

/-- Every cell has the kind `κ` says, and applications have arguments. -/
structure Kinded (κ : Nat → Kd) (p : Pool Kd) : Prop where
  cell : ∀ (i : Nat) (t : Ty Kd), p[i]? = some t → cellKind env κ t = some (κ i)
  root : ∀ (i : Nat) (k : Kd) (lv : Nat), p[i]? = some (.var i k lv) → κ i = k
  proper : ∀ (i : Nat) (t : Ty Kd), p[i]? = some t → t.Proper

/-- A solution of the pool that respects kinds and levels. -/
structure RSol (p : Pool Kd) (σ : Assign Kd) : Prop where
  sol : Sol p σ
  kind : ∀ (i : Nat) (k : Kd) (lv : Nat), p[i]? = some (.var i k lv) → (σ i).kindOf env = some k
  level : ∀ (i : Nat) (k : Kd) (lv : Nat), p[i]? = some (.var i k lv) → (σ i).maxLevel ≤ lv

variable {env} {κ : Nat → Kd}

theorem Kinded.compress {r : Nat → Nat} {p p' : Pool Kd} (hw : WF r p) (hc : Compress p p') (h : Kinded env κ p) : Kinded env κ p' := by
  induction hc with
  | refl => exact h
  | @tail q q' hc hs ih =>
    have hwq := Compress.wf hc hw
    have hroot := fun i k lv => hs.root hwq (i := i) (k := Ty.var i k lv) rfl
    have hcells := hs.cells
    refine ⟨?_, fun i k lv hi => ih.root i k lv ((hroot i k lv).1 hi), fun i t hi => ?_⟩
    · cases hs with
      | @mk v w c k' h1 h2 h3 h4 =>
        intro i t hi
        by_cases hiv : i = v
        · subst hiv
          rw [get_set_self h1] at hi
          cases hi
          have e1 := ih.cell i c h1
          have e2 := ih.cell w _ h4
          rw [e2]
          cases c <;> simp_all [asVar, cellKind]
        · rw [get_set_ne hiv] at hi; exact ih.cell i t hi
    · obtain ⟨j, hj⟩ := List.getElem?_of_mem (hcells t (List.mem_of_getElem? hi))
      exact ih.proper j t hj

theorem RSol.compress {r : Nat → Nat} {p p' : Pool Kd} (hw : WF r p) (hc : Compress p p') (σ : Assign Kd) : RSol env p' σ ↔ RSol env p σ := by
  constructor
  · intro h
    exact ⟨(hc.sol hw σ).1 h.sol, fun i k lv hi => h.kind i k lv ((hc.root hw rfl).2 hi), fun i k lv hi => h.level i k lv ((hc.root hw rfl).2 hi)⟩
  · intro h
    exact ⟨(hc.sol hw σ).2 h.sol, fun i k lv hi => h.kind i k lv ((hc.root hw rfl).1 hi), fun i k lv hi => h.level i k lv ((hc.root hw rfl).1 hi)⟩

/-- Under a solution that respects kinds, every index has the kind `κ` says. -/
theorem RSol.kindOf {r : Nat → Nat} {p : Pool Kd} (hw : WF r p) (hk : Kinded env κ p) {σ : Assign Kd} (hs : RSol env p σ) :
    ∀ (N i : Nat), r i < N → i < p.length → (σ i).kindOf env = some (κ i) := by
  intro N
  induction N with
  | zero => intro i h; omega
  | succ N ih =>
    intro i hN hi
    obtain ⟨t, ht⟩ : ∃ t, p[i]? = some t := ⟨p[i], List.getElem?_eq_getElem hi⟩
    have hck := hk.cell i t ht
    have hsem : σ i = t.sem σ := hs.sol i t ht
    have hrec : asVar t ≠ some i → ∀ j ∈ refs t, (σ j).kindOf env = some (κ j) := fun hn j hj =>
      ih j (by have := hw.ranked i j ⟨t, ht, hn, hj⟩; omega) (hw.closed i t ht j hj)
    cases t with
    | var v k lv =>
      by_cases hv : v = i
      · subst hv; rw [hs.kind v k lv ht, hk.root v k lv ht]
      · have := hrec (by simpa [asVar] using hv) v (by simp [refs, asVar])
        rw [hsem, Ty.sem, this, ← hck, cellKind]
    | con c => rw [hsem, Ty.sem, AType.kindOf, ← hck, cellKind]
    | gen g lv => rw [hsem, Ty.sem, AType.kindOf, ← hck, cellKind]
    | app callee lo hi' =>
      have := hrec (by simp [asVar]) callee (by simp [refs, asVar, children])
      rw [hsem, Ty.sem, AType.kindOf, this, ← hck, cellKind]; rfl

theorem RSol.kindOf_cell {r : Nat → Nat} {p : Pool Kd} (hw : WF r p) (hk : Kinded env κ p) {σ : Assign Kd} (hs : RSol env p σ) {t : Ty Kd} (hg : Good p t)
    : (t.sem σ).kindOf env = cellKind env κ t := by
  have h : ∀ j ∈ refs t, (σ j).kindOf env = some (κ j) := fun j hj => hs.kindOf hw hk (r j + 1) j (by omega) (hg j hj)
  cases t with
  | var v k lv => exact h v (by simp [refs, asVar])
  | con c => rfl
  | gen g lv => rfl
  | app callee lo hi => rw [Ty.sem, AType.kindOf, h callee (by simp [refs, asVar, children])]; rfl

theorem maxLevels_le {as : List (AType Kd)} {lv : Nat} : AType.maxLevels as ≤ lv ↔ ∀ a ∈ as, a.maxLevel ≤ lv := by
  induction as with
  | nil => simp [AType.maxLevels]
  | cons a as ih => simp [AType.maxLevels, ih, Nat.max_le]

/-- A leaf is of level at most `lv`. -/
def leafOk (σ : Assign Kd) (lv : Nat) : Ty Kd → Prop
  | .gen _ l => l ≤ lv
  | .var w _ _ => (σ w).maxLevel ≤ lv
  | _ => True

theorem sem_level {σ : Assign Kd} {lv : Nat} {t : Ty Kd} (ht : asVar t = none) :
    (t.sem σ).maxLevel ≤ lv ↔ leafOk σ lv t ∧ ∀ j ∈ children t, (σ j).maxLevel ≤ lv := by
  cases t <;> simp_all [asVar, Ty.sem, AType.maxLevel, leafOk, children, maxLevels_le, Nat.max_le]

theorem level_occ {r : Nat → Nat} {p : Pool Kd} (hw : WF r p) {σ : Assign Kd} (hs : Sol p σ) (lv : Nat) :
    ∀ (N i : Nat), r i < N → i < p.length → ((σ i).maxLevel ≤ lv ↔ ∀ x, Occ p i x → leafOk σ lv x) := by
  intro N
  induction N with
  | zero => intro i h; omega
  | succ N ih =>
    intro i hN hi
    obtain ⟨t, ht⟩ : ∃ t, p[i]? = some t := ⟨p[i], List.getElem?_eq_getElem hi⟩
    have hsem : σ i = t.sem σ := hs i t ht
    have hrec : asVar t ≠ some i → ∀ j ∈ refs t, ((σ j).maxLevel ≤ lv ↔ ∀ x, Occ p j x → leafOk σ lv x) := fun hn j hj =>
      ih j (by have := hw.ranked i j ⟨t, ht, hn, hj⟩; omega) (hw.closed i t ht j hj)
    cases ha : asVar t with
    | some v =>
      by_cases hv : v = i
      · subst hv
        have hocc : ∀ x, Occ p v x ↔ x = t := fun x => by rw [occ_iff ht]; simp [ha]
        cases t <;> simp_all [asVar, leafOk]
      · have := hrec (by rw [ha]; simpa using hv) v (by simp [refs_var ha])
        have e : σ i = σ v := by rw [hsem, ← sem_eq, Alg.sem_var σ t v ha]
        rw [e, this]
        have hocc : ∀ x, Occ p i x ↔ Occ p v x := fun x => by rw [occ_iff ht]; simp [ha, hv, refs_var ha]
        simp only [hocc]
    | none =>
      have hh := hrec (by rw [ha]; simp)
      rw [refs_node ha] at hh
      rw [hsem, sem_level ha]
      have hocc : ∀ x, Occ p i x ↔ x = t ∨ ∃ j ∈ children t, Occ p j x := fun x => by rw [occ_iff ht]; simp [ha, refs_node ha]
      constructor
      · rintro ⟨h1, h2⟩ x hx
        rcases (hocc x).1 hx with rfl | ⟨j, hj, ho⟩
        · exact h1
        · exact (hh j hj).1 (h2 j hj) x ho
      · intro h
        exact ⟨h t ((hocc t).2 (.inl rfl)), fun j hj => (hh j hj).2 fun x hx => h x ((hocc x).2 (.inr ⟨j, hj, hx⟩))⟩

theorem level_cell {r : Nat → Nat} {p : Pool Kd} (hw : WF r p) {σ : Assign Kd} (hs : Sol p σ) (lv : Nat) {t : Ty Kd} (hg : Good p t) :
    (t.sem σ).maxLevel ≤ lv ↔ ∀ x, CellOf p t x → leafOk σ lv x := by
  have hj : ∀ j ∈ refs t, ((σ j).maxLevel ≤ lv ↔ ∀ x, Occ p j x → leafOk σ lv x) := fun j hj =>
    level_occ hw hs lv (r j + 1) j (by omega) (hg j hj)
  cases ha : asVar t with
  | some v =>
    have := hj v (by simp [refs_var ha])
    rw [← sem_eq, Alg.sem_var σ t v ha, this]
    simp only [CellOf.of_var ha]
  | none =>
    rw [refs_node ha] at hj
    rw [sem_level ha]
    simp only [CellOf.of_node ha]
    constructor
    · rintro ⟨h1, h2⟩ x (rfl | ⟨j, hj', ho⟩)
      · exact h1
      · exact (hj j hj').1 (h2 j hj') x ho
    · intro h
      exact ⟨h t (.inl rfl), fun j hj' => (hj j hj').2 fun x hx => h x (.inr ⟨j, hj', hx⟩)⟩

/-- An occurring unknown is the cell stored for it. -/
theorem occ_root {p : Pool Kd} {i w : Nat} {x : Ty Kd} (h : Occ p i x) (hx : asVar x = some w) : p[w]? = some x := by
  induction h with
  | here h1 h2 =>
    rw [hx] at h2
    rcases h2 with h2 | h2
    · cases h2
    · cases h2; exact h1
  | step _ _ _ _ ih => exact ih hx

theorem cellOf_root {p : Pool Kd} {t x : Ty Kd} {w : Nat} (h : CellOf p t x) (hx : asVar x = some w) : p[w]? = some x := by
  cases ha : asVar t with
  | some v => exact occ_root ((CellOf.of_var ha).1 h) hx
  | none =>
    rcases (CellOf.of_node ha).1 h with rfl | ⟨j, _, ho⟩
    · rw [ha] at hx; cases hx
    · exact occ_root ho hx

/-! ## Changing levels -/

/-- Some unknowns have their level changed. -/
structure Relevel (p p' : Pool Kd) : Prop where
  len : p'.length = p.length
  cells : ∀ i : Nat, p'[i]? = p[i]? ∨ ∃ k l l', p[i]? = some (.var i k l) ∧ l' ≤ l ∧ p'[i]? = some (.var i k l')

theorem Relevel.rfl {p : Pool Kd} : Relevel p p := ⟨Eq.refl _, fun _ => .inl (Eq.refl _)⟩

theorem Relevel.root {p p' : Pool Kd} (h : Relevel p p') {i : Nat} {k : Kd} {l : Nat} (hi : p'[i]? = some (.var i k l)) :
    ∃ l', l ≤ l' ∧ p[i]? = some (.var i k l') := by
  rcases h.cells i with e | ⟨k', l1, l2, e1, e2, e3⟩
  · exact ⟨l, Nat.le_refl _, by rw [← e]; exact hi⟩
  · rw [hi] at e3; cases e3; exact ⟨l1, e2, e1⟩

theorem Relevel.other {p p' : Pool Kd} (h : Relevel p p') {i : Nat} {t : Ty Kd} (ht : asVar t ≠ some i) : p'[i]? = some t ↔ p[i]? = some t := by
  rcases h.cells i with e | ⟨k', l1, l2, e1, e2, e3⟩
  · rw [e]
  · rw [e1, e3]
    constructor <;> (intro hh; cases hh; exact absurd (Eq.refl _) ht)

theorem Relevel.back {p p' : Pool Kd} (h : Relevel p p') {i : Nat} {t : Ty Kd} (hi : p'[i]? = some t) :
    p[i]? = some t ∨ ∃ k l l', t = .var i k l ∧ l ≤ l' ∧ p[i]? = some (.var i k l') := by
  by_cases ht : asVar t = some i
  · cases t <;> simp [asVar] at ht
    subst ht
    obtain ⟨l', e1, e2⟩ := h.root hi
    exact .inr ⟨_, _, _, Eq.refl _, e1, e2⟩
  · exact .inl ((h.other ht).1 hi)

theorem Relevel.wf {r : Nat → Nat} {p p' : Pool Kd} (h : Relevel p p') (hw : WF r p) : WF r p' := by
  refine ⟨fun i t hi j hj => ?_, fun i j ⟨t, hi, hn, hj⟩ => ?_⟩
  · rw [h.len]
    rcases h.back hi with e | ⟨k, l, l', rfl, -, e⟩
    · exact hw.closed i t e j hj
    · exact hw.closed i _ e j hj
  · exact hw.ranked i j ⟨t, (h.other hn).1 hi, hn, hj⟩

theorem Relevel.sol {p p' : Pool Kd} (h : Relevel p p') (σ : Assign Kd) : Sol p' σ ↔ Sol p σ := by
  constructor
  · intro hs i t hi
    by_cases ht : asVar t = some i
    · rw [Alg.sem_var σ t i ht]
    · exact hs i t ((h.other ht).2 hi)
  · intro hs i t hi
    by_cases ht : asVar t = some i
    · rw [Alg.sem_var σ t i ht]
    · exact hs i t ((h.other ht).1 hi)

theorem Relevel.isRoot {p p' : Pool Kd} (h : Relevel p p') (i : Nat) : IsRoot p' i ↔ IsRoot p i := by
  constructor
  · rintro ⟨t, h1, h2⟩
    rcases h.back h1 with e | ⟨k, l, l', rfl, -, e⟩
    · exact ⟨t, e, h2⟩
    · exact ⟨_, e, Eq.refl _⟩
  · rintro ⟨t, h1, h2⟩
    rcases h.cells i with e | ⟨k, l, l', -, -, e⟩
    · exact ⟨t, by rw [e]; exact h1, h2⟩
    · exact ⟨_, e, Eq.refl _⟩

theorem Relevel.kinded {p p' : Pool Kd} (h : Relevel p p') (hk : Kinded env κ p) : Kinded env κ p' := by
  refine ⟨fun i t hi => ?_, fun i k lv hi => ?_, fun i t hi => ?_⟩
  · rcases h.back hi with e | ⟨k, l, l', rfl, -, e⟩
    · exact hk.cell i t e
    · have := hk.cell i _ e
      simpa [cellKind] using this
  · obtain ⟨l', -, e⟩ := h.root hi
    exact hk.root i k l' e
  · rcases h.back hi with e | ⟨k, l, l', rfl, -, e⟩
    · exact hk.proper i t e
    · trivial

theorem relevel_fold (lv : Nat) : ∀ (ts : List (Nat × Kd)) (p : Pool Kd), (∀ wk ∈ ts, ∃ l, lv ≤ l ∧ p[wk.1]? = some (.var wk.1 wk.2 l)) →
    Relevel p (ts.foldl (fun p wk => p.set wk.1 (.var wk.1 wk.2 lv)) p) ∧
      (∀ wk ∈ ts, (ts.foldl (fun p wk => p.set wk.1 (.var wk.1 wk.2 lv)) p)[wk.1]? = some (.var wk.1 wk.2 lv)) ∧
      ∀ i : Nat, (∀ wk ∈ ts, wk.1 ≠ i) → (ts.foldl (fun p wk => p.set wk.1 (.var wk.1 wk.2 lv)) p)[i]? = p[i]? := by
  intro ts
  induction ts with
  | nil => intro p _; exact ⟨.rfl, by simp, fun _ _ => rfl⟩
  | cons wk ts ih =>
    intro p hp
    obtain ⟨l, hl, hwk⟩ := hp wk (by simp)
    have hset : ∀ i : Nat, (p.set wk.1 (Ty.var wk.1 wk.2 lv))[i]? = p[i]? ∨ (i = wk.1 ∧ (p.set wk.1 (Ty.var wk.1 wk.2 lv))[i]? = some (.var wk.1 wk.2 lv)) := by
      intro i
      by_cases hi : i = wk.1
      · subst hi; exact .inr ⟨rfl, get_set_self hwk⟩
      · exact .inl (get_set_ne hi)
    obtain ⟨h1, h2, h3⟩ := ih (p.set wk.1 (.var wk.1 wk.2 lv)) (fun x hx => by
      obtain ⟨l', hl', hx'⟩ := hp x (by simp [hx])
      rcases hset x.1 with e | ⟨e1, e2⟩
      · exact ⟨l', hl', by rw [e]; exact hx'⟩
      · have hk : x.2 = wk.2 := by rw [e1, hwk] at hx'; simp only [Option.some.injEq, Ty.var.injEq] at hx'; exact hx'.2.1.symm
        exact ⟨lv, Nat.le_refl _, by rw [e2, e1, hk]⟩)
    rw [List.foldl_cons]
    refine ⟨⟨by rw [h1.len]; simp, fun i => ?_⟩, fun x hx => ?_, fun i hi => ?_⟩
    · rcases h1.cells i with e | ⟨k, l1, l2, e1, e2, e3⟩
      · rcases hset i with e' | ⟨rfl, e'⟩
        · exact .inl (by rw [e, e'])
        · exact .inr ⟨wk.2, l, lv, hwk, hl, by rw [e, e']⟩
      · rcases hset i with e' | ⟨rfl, e'⟩
        · exact .inr ⟨k, l1, l2, by rw [← e']; exact e1, e2, e3⟩
        · rw [e'] at e1; cases e1
          exact .inr ⟨wk.2, l, l2, hwk, by omega, e3⟩
    · rcases List.mem_cons.1 hx with rfl | hx
      · by_cases hm : ∃ y ∈ ts, y.1 = x.1
        · obtain ⟨y, hy, hyx⟩ := hm
          have hkk : y.2 = x.2 := by
            obtain ⟨l', -, hy'⟩ := hp y (by simp [hy])
            rw [hyx, hwk] at hy'; simp only [Option.some.injEq, Ty.var.injEq] at hy'; exact hy'.2.1.symm
          have := h2 y hy; rw [hyx, hkk] at this; exact this
        · rw [h3 x.1 (fun y hy he => hm ⟨y, hy, he⟩)]; exact get_set_self hwk
      · exact h2 x hx
    · rw [h3 i (fun y hy => hi y (by simp [hy]))]
      exact get_set_ne (Ne.symm (hi wk (by simp)))

/-! ## The traversals -/

theorem runAll_occurs (v : Nat) (L : List (Ty Kd)) :
    runAll (fun k _ => if isVar v k then (.error () : Except Unit Unit) else .ok ()) L () =
      if ∃ x ∈ L, asVar x = some v then .error () else .ok () := by
  induction L with
  | nil => rfl
  | cons x L ih =>
    rw [runAll]
    have hx : (isVar v x = true) ↔ asVar x = some v := by cases x <;> simp [isVar, asVar]
    by_cases h : isVar v x = true
    · have := hx.1 h; simp [h, this]
    · have h' := fun e => h (hx.2 e)
      simp only [h, Bool.false_eq_true, if_false, ih, List.mem_cons, exists_eq_or_imp]
      by_cases hL : ∃ x ∈ L, asVar x = some v <;> simp [hL]
      exact fun e => h' e

/-- A leaf whose own level is above `lv`. -/
def deepGen (lv : Nat) : Ty Kd → Prop
  | .gen _ l => lv < l
  | _ => False

theorem runAll_adjust (lv : Nat) : ∀ (L : List (Ty Kd)) (s : List (Nat × Kd)),
    (∃ x ∈ L, deepGen lv x) ∧ runAll (adjustOne lv) L s = .error .mismatch ∨
    (∀ x ∈ L, ¬ deepGen lv x) ∧ ∃ ts, runAll (adjustOne lv) L s = .ok ts ∧
      ∀ w k, (w, k) ∈ ts ↔ (w, k) ∈ s ∨ ∃ l, lv < l ∧ Ty.var w k l ∈ L := by
  intro L
  induction L with
  | nil => intro s; exact .inr ⟨by simp, s, rfl, by simp⟩
  | cons x L ih =>
    intro s
    cases x with
    | gen g l =>
      by_cases hl : lv < l
      · exact .inl ⟨⟨_, List.mem_cons_self, hl⟩, by simp [runAll, adjustOne, hl]⟩
      · rcases ih s with ⟨⟨x, h1, h2⟩, h3⟩ | ⟨h1, ts, h2, h3⟩
        · exact .inl ⟨⟨x, by simp [h1], h2⟩, by simp [runAll, adjustOne, hl, h3]⟩
        · refine .inr ⟨by simpa [deepGen, hl] using h1, ts, by simp [runAll, adjustOne, hl, h2], fun w k => by rw [h3]; simp⟩
    | var v k l =>
      by_cases hl : lv < l
      · rcases ih (s ++ [(v, k)]) with ⟨⟨x, h1, h2⟩, h3⟩ | ⟨h1, ts, h2, h3⟩
        · exact .inl ⟨⟨x, by simp [h1], h2⟩, by simp [runAll, adjustOne, hl, h3]⟩
        · refine .inr ⟨by simpa [deepGen] using h1, ts, by simp [runAll, adjustOne, hl, h2], fun w k' => ?_⟩
          rw [h3]
          simp only [List.mem_append, List.mem_cons, List.not_mem_nil, or_false, Prod.mk.injEq, Ty.var.injEq]
          constructor
          · rintro ((h | ⟨rfl, rfl⟩) | ⟨l', h4, h5⟩)
            · exact .inl h
            · exact .inr ⟨l, hl, .inl ⟨rfl, rfl, rfl⟩⟩
            · exact .inr ⟨l', h4, .inr h5⟩
          · rintro (h | ⟨l', h4, ⟨h6, h7, -⟩ | h5⟩)
            · exact .inl (.inl h)
            · exact .inl (.inr ⟨h6, h7⟩)
            · exact .inr ⟨l', h4, h5⟩
      · rcases ih s with ⟨⟨x, h1, h2⟩, h3⟩ | ⟨h1, ts, h2, h3⟩
        · exact .inl ⟨⟨x, by simp [h1], h2⟩, by simp [runAll, adjustOne, hl, h3]⟩
        · refine .inr ⟨by simpa [deepGen] using h1, ts, by simp [runAll, adjustOne, hl, h2], fun w k' => ?_⟩
          rw [h3]
          simp only [List.mem_cons, Ty.var.injEq]
          constructor
          · rintro (h | ⟨l', h4, h5⟩)
            · exact .inl h
            · exact .inr ⟨l', h4, .inr h5⟩
          · rintro (h | ⟨l', h4, ⟨-, -, h8⟩ | h5⟩)
            · exact .inl h
            · exact absurd (h8 ▸ h4) hl
            · exact .inr ⟨l', h4, h5⟩
    | con c =>
      rcases ih s with ⟨⟨x, h1, h2⟩, h3⟩ | ⟨h1, ts, h2, h3⟩
      · exact .inl ⟨⟨x, by simp [h1], h2⟩, by simp [runAll, adjustOne, h3]⟩
      · exact .inr ⟨by simpa [deepGen] using h1, ts, by simp [runAll, adjustOne, h2], fun w k' => by rw [h3]; simp⟩
    | app c lo hi =>
      rcases ih s with ⟨⟨x, h1, h2⟩, h3⟩ | ⟨h1, ts, h2, h3⟩
      · exact .inl ⟨⟨x, by simp [h1], h2⟩, by simp [runAll, adjustOne, h3]⟩
      · exact .inr ⟨by simpa [deepGen] using h1, ts, by simp [runAll, adjustOne, h2], fun w k' => by rw [h3]; simp⟩

/-- A leaf that `deny_adjust_required_level` rejects. -/
def tooDeep (lv : Nat) : Ty Kd → Prop
  | .gen _ l => lv < l
  | .var _ _ l => lv < l
  | _ => False

theorem runAll_deny (lv : Nat) : ∀ (L : List (Ty Kd)),
    (∃ x ∈ L, tooDeep lv x) ∧ runAll (denyOne lv) L () = .error .mismatch ∨
    (∀ x ∈ L, ¬ tooDeep lv x) ∧ runAll (denyOne lv) L () = .ok () := by
  intro L
  induction L with
  | nil => exact .inr ⟨by simp, rfl⟩
  | cons x L ih =>
    have hx : tooDeep lv x ∧ denyOne lv x () = .error .mismatch ∨ ¬ tooDeep lv x ∧ denyOne lv x () = .ok () := by
      cases x with
      | gen g l => by_cases h : lv < l <;> simp [tooDeep, denyOne, h]
      | var v k l => by_cases h : lv < l <;> simp [tooDeep, denyOne, h]
      | con c => simp [tooDeep, denyOne]
      | app c lo hi => simp [tooDeep, denyOne]
    rcases hx with ⟨h1, h2⟩ | ⟨h1, h2⟩
    · exact .inl ⟨⟨x, by simp, h1⟩, by simp [runAll, h2]⟩
    · rcases ih with ⟨⟨y, h3, h4⟩, h5⟩ | ⟨h3, h4⟩
      · exact .inl ⟨⟨y, by simp [h3], h4⟩, by simp [runAll, h2, h5]⟩
      · exact .inr ⟨by simpa [h1] using h3, by simp [runAll, h2, h4]⟩

/-- `get_kind_id` returns the kind without a panic. -/
theorem getKind_spec {r : Nat → Nat} : ∀ (R : Nat) (t : Ty Kd) (p : Pool Kd) (k : Kd), Low r R t → WF r p → Good p t → Kinded env κ p →
    cellKind env κ t = some k →
    ∃ p', (∀ n, R < n → getKind env n t p = some (k, p')) ∧ Compress p p' := by
  intro R
  induction R using Nat.strongRecOn with
  | ind R ih =>
    intro t p k hL hw hg hk hck
    obtain ⟨t', p1, h1, h2, h3, h4, h5, h6, -, h8⟩ := resolve_spec hw hg hL.rankLt
    have hw1 := h2.wf hw
    have hk1 := hk.compress hw h2
    have hck' : cellKind env κ t' = some k := by
      rcases h8 with ⟨v, e1, e2, -⟩ | ⟨-, rfl, -⟩
      · rw [hk1.cell v t' e2, ← hck]
        cases t <;> simp_all [asVar, cellKind]
      · exact hck
    have hsimple : ∀ k', (∀ n, R < n + 1 → getKind env (n + 1) t p = some (k', p1)) → k' = k →
        ∃ p', (∀ n, R < n → getKind env n t p = some (k, p')) ∧ Compress p p' := by
      rintro k' h rfl
      refine ⟨p1, fun n hn => ?_, h2⟩
      obtain ⟨n, rfl⟩ : ∃ m, n = m + 1 := ⟨n - 1, by omega⟩
      exact h n hn
    cases t' with
    | var v k' l =>
      refine hsimple k' (fun n hn => by simp only [getKind, h1 n (by omega)]) ?_
      have := hk1.root v k' l (h3 v rfl)
      simp only [cellKind, Option.some.injEq] at hck'
      rw [← this, hck']
    | con c => exact hsimple (env.con c) (fun n hn => by simp only [getKind, h1 n (by omega)]) (by simpa [cellKind] using hck')
    | gen g l => exact hsimple (env.gen g) (fun n hn => by simp only [getKind, h1 n (by omega)]) (by simpa [cellKind] using hck')
    | app callee lo hi =>
      have hm : callee ∈ children (Ty.app (Kd := Kd) callee lo hi) := by simp [children]
      have hlow := hL.resolved h8 callee hm
      have hlen := h4 callee hm
      obtain ⟨p2, e1, e2⟩ := ih (r callee + 1) hlow (ref env callee) p1 (κ callee)
        ⟨fun v hv => by cases hv; omega, fun j hj => by simp [ref, children] at hj⟩ hw1
        (fun j hj => by simp [ref, refs, asVar] at hj; subst hj; exact hlen) hk1 rfl
      refine ⟨p2, fun n hn => ?_, h2.trans e2⟩
      obtain ⟨n, rfl⟩ : ∃ m, n = m + 1 := ⟨n - 1, by omega⟩
      have hr : env.ret (κ callee) = some k := hck'
      simp only [getKind, h1 n (by omega), e1 n (by omega), hr]

end Verif.TypeUnify
