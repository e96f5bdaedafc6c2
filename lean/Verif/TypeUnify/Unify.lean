import Verif.TypeUnify.Lemmas

/-! # Correctness of type unification -/
namespace Verif.TypeUnify
open Verif Verif.Unify Verif.Unify.Cell

variable {Kd : Type} {env : Env Kd} {κ : Nat → Kd}

/-- What one run establishes about the pool, for the equation `E`; that a failure means that there is no solution is under the condition `G`. -/
structure Unified (env : Env Kd) (κ : Nat → Kd) (p : Pool Kd) (E : Assign Kd → Prop) (G : Prop) (res : Except Error Unit) (p' : Pool Kd) : Prop where
  len : p'.length = p.length
  wf : ∃ r, WF r p'
  kinded : Kinded env κ p'
  sub : ∀ σ : Assign Kd, Sol p' σ → Sol p σ
  ok : res = .ok () → ∀ σ : Assign Kd, RSol env p' σ ↔ RSol env p σ ∧ E σ
  err : ∀ e, res = .error e → G → ∀ σ : Assign Kd, RSol env p σ → ¬ E σ
  roots : ∀ i, IsRoot p' i → IsRoot p i
  measure : numRoots p' < numRoots p ∨ Compress p p'

theorem Unified.congr {p p' : Pool Kd} {E E' : Assign Kd → Prop} {G G' : Prop} {res : Except Error Unit} (h : Unified env κ p E G res p')
    (hE : ∀ σ : Assign Kd, RSol env p σ → (E σ ↔ E' σ)) (hG : G' → G) : Unified env κ p E' G' res p' :=
  { h with
    ok := fun hr σ => by rw [h.ok hr σ]; exact and_congr_right (hE σ)
    err := fun e he hg σ hs hE' => h.err e he (hG hg) σ hs ((hE σ hs).2 hE') }

theorem Unified.good {p p' : Pool Kd} {E : Assign Kd → Prop} {G : Prop} {res : Except Error Unit} (h : Unified env κ p E G res p') {k : Ty Kd} (hg : Good p k) :
    Good p' k := fun j hj => by rw [h.len]; exact hg j hj

theorem Unified.of_compress {r : Nat → Nat} {p p' : Pool Kd} (hw : WF r p) (hk : Kinded env κ p) (h : Compress p p') {E : Assign Kd → Prop} {G : Prop}
    {res : Except Error Unit} (hok : res = .ok () → ∀ σ : Assign Kd, RSol env p σ → E σ)
    (herr : ∀ e, res = .error e → G → ∀ σ : Assign Kd, RSol env p σ → ¬ E σ) : Unified env κ p E G res p' where
  len := h.length
  wf := ⟨r, h.wf hw⟩
  kinded := hk.compress hw h
  sub := fun σ => (h.sol hw σ).1
  ok := fun hr σ => by rw [RSol.compress hw h σ]; exact ⟨fun hs => ⟨hs, hok hr σ hs⟩, fun hs => hs.1⟩
  err := herr
  roots := fun i => (h.isRoot hw i).1
  measure := .inr h

theorem Unified.before {r : Nat → Nat} {p p1 p' : Pool Kd} (hw : WF r p) (h : Compress p p1) {E : Assign Kd → Prop} {G : Prop} {res : Except Error Unit}
    (hu : Unified env κ p1 E G res p') : Unified env κ p E G res p' where
  len := by rw [hu.len, h.length]
  wf := hu.wf
  kinded := hu.kinded
  sub := fun σ hs => (h.sol hw σ).1 (hu.sub σ hs)
  ok := fun hr σ => by rw [hu.ok hr σ, RSol.compress hw h σ]
  err := fun e he hg σ hs => hu.err e he hg σ ((RSol.compress hw h σ).2 hs)
  roots := fun i hi => (h.isRoot hw i).1 (hu.roots i hi)
  measure := by
    rcases hu.measure with hm | hm
    · rw [h.numRoots hw] at hm; exact .inl hm
    · exact .inr (h.trans hm)

theorem Unified.seq {r : Nat → Nat} {p p1 p' : Pool Kd} (hw : WF r p) {E1 E2 : Assign Kd → Prop} {G : Prop} {res : Except Error Unit}
    (h1 : Unified env κ p E1 G (.ok ()) p1) (h2 : Unified env κ p1 E2 G res p') : Unified env κ p (fun σ => E1 σ ∧ E2 σ) G res p' where
  len := by rw [h2.len, h1.len]
  wf := h2.wf
  kinded := h2.kinded
  sub := fun σ hs => h1.sub σ (h2.sub σ hs)
  ok := fun hr σ => by rw [h2.ok hr σ, h1.ok rfl σ, and_assoc]
  err := fun e he hg σ hs hE => h2.err e he hg σ ((h1.ok rfl σ).2 ⟨hs, hE.1⟩) hE.2
  roots := fun i hi => h1.roots i (h2.roots i hi)
  measure := by
    obtain ⟨r1, hw1⟩ := h1.wf
    rcases h1.measure with hm1 | hm1 <;> rcases h2.measure with hm2 | hm2
    · exact .inl (by omega)
    · exact .inl (by rw [hm2.numRoots hw1]; exact hm1)
    · rw [hm1.numRoots hw] at hm2; exact .inl hm2
    · exact .inr (hm1.trans hm2)

theorem Unified.seq_err {p p1 : Pool Kd} {E1 E2 : Assign Kd → Prop} {G : Prop} {e : Error} (h1 : Unified env κ p E1 G (.error e) p1) :
    Unified env κ p (fun σ => E1 σ ∧ E2 σ) G (.error e) p1 :=
  { h1 with
    ok := fun h => by cases h
    err := fun e' he hg σ hs hE => h1.err e' he hg σ hs hE.1 }

/-! ## Binding an unknown -/

/-- What holds when the unknown `v` has just been bound to `t`. -/
structure Bound (env : Env Kd) (κ : Nat → Kd) (v : Nat) (k : Kd) (lv : Nat) (t : Ty Kd) (p q : Pool Kd) : Prop where
  root : p[v]? = some (.var v k lv)
  good : Good p t
  set : q = p.set v t
  wfp : ∃ r, WF r p
  wf : ∃ r, WF r q
  kp : Kinded env κ p
  kq : Kinded env κ q
  ne : asVar t ≠ some v
  kind : cellKind env κ t = some k

theorem Bound.get {v : Nat} {k : Kd} {lv : Nat} {t : Ty Kd} {p q : Pool Kd} (h : Bound env κ v k lv t p q) {i : Nat} (hi : i ≠ v) : q[i]? = p[i]? := by
  rw [h.set]; exact get_set_ne hi

theorem Bound.isRoot {v : Nat} {k : Kd} {lv : Nat} {t : Ty Kd} {p q : Pool Kd} (h : Bound env κ v k lv t p q) (i : Nat) :
    IsRoot q i ↔ IsRoot p i ∧ i ≠ v := by
  rw [h.set]; exact bind_isRoot h.root h.ne i

theorem Bound.sol {v : Nat} {k : Kd} {lv : Nat} {t : Ty Kd} {p q : Pool Kd} (h : Bound env κ v k lv t p q) (σ : Assign Kd) :
    Sol q σ ↔ Sol p σ ∧ σ v = t.sem σ := by
  rw [h.set]; exact bind_sol h.root rfl σ

/-- The bound pool after path compression and changes of levels. -/
theorem Bound.unified {v : Nat} {k : Kd} {lv : Nat} {t : Ty Kd} {p q q1 q2 : Pool Kd} (h : Bound env κ v k lv t p q)
    (hc : Compress q q1) (hr : Relevel q1 q2) {G : Prop} {res : Except Error Unit}
    (hok : res = .ok () → (∀ σ : Assign Kd, RSol env q2 σ → (t.sem σ).maxLevel ≤ lv) ∧
      ∀ (σ : Assign Kd) (i : Nat) (k' : Kd) (l : Nat), RSol env p σ → σ v = t.sem σ → q2[i]? = some (.var i k' l) → (σ i).maxLevel ≤ l)
    (herr : ∀ e, res = .error e → G → ∀ σ : Assign Kd, RSol env p σ → σ v = t.sem σ → False) :
    Unified env κ p (fun σ => σ v = t.sem σ) G res q2 := by
  obtain ⟨rq, hwq⟩ := h.wf
  have hw1 := hc.wf hwq
  have hw2 := hr.wf hw1
  have hk2 : Kinded env κ q2 := hr.kinded (h.kq.compress hwq hc)
  have hsol : ∀ σ : Assign Kd, Sol q2 σ ↔ Sol p σ ∧ σ v = t.sem σ := fun σ => by rw [hr.sol, hc.sol hwq, h.sol]
  have hroot : ∀ i, IsRoot q2 i ↔ IsRoot p i ∧ i ≠ v := fun i => by rw [hr.isRoot, hc.isRoot hwq, h.isRoot]
  have hlen : q2.length = p.length := by rw [hr.len, hc.length, h.set]; simp
  -- the unknowns of the new pool
  have hcell : ∀ (i : Nat) (k' : Kd) (l : Nat), q2[i]? = some (.var i k' l) → i ≠ v ∧ ∃ l', l ≤ l' ∧ p[i]? = some (.var i k' l') := by
    intro i k' l hi
    have hiv : i ≠ v := ((hroot i).1 ⟨_, hi, rfl⟩).2
    obtain ⟨l', e1, e2⟩ := hr.root hi
    refine ⟨hiv, l', e1, ?_⟩
    rw [← h.get hiv]
    exact (hc.root hwq rfl).1 e2
  refine ⟨hlen, ⟨rq, hw2⟩, hk2, fun σ hs => ((hsol σ).1 hs).1, fun hres σ => ?_, herr, fun i hi => ((hroot i).1 hi).1, .inl ?_⟩
  · constructor
    · intro hs
      obtain ⟨e1, e2⟩ := (hsol σ).1 hs.sol
      have hpk : ∀ i, i < p.length → (σ i).kindOf env = some (κ i) := fun i hi => hs.kindOf hw2 hk2 (rq i + 1) i (by omega) (by rw [hlen]; exact hi)
      refine ⟨⟨e1, fun i k' l hi => ?_, fun i k' l hi => ?_⟩, e2⟩
      · rw [hpk i (lt_of_get hi), h.kp.root i k' l hi]
      · by_cases hiv : i = v
        · subst hiv
          have := h.root
          rw [hi] at this
          cases this
          rw [e2]
          exact (hok hres).1 σ hs
        · have hq1 : q1[i]? = some (.var i k' l) := (hc.root hwq rfl).2 (by rw [h.get hiv]; exact hi)
          rcases hr.cells i with e | ⟨k2, l1, l2, e3, e4, e5⟩
          · exact hs.level i k' l (by rw [e]; exact hq1)
          · rw [hq1] at e3; cases e3
            exact Nat.le_trans (hs.level i k' l2 e5) e4
    · rintro ⟨hs, hE⟩
      refine ⟨(hsol σ).2 ⟨hs.sol, hE⟩, fun i k' l hi => ?_, fun i k' l hi => (hok hres).2 σ i k' l hs hE hi⟩
      obtain ⟨-, l', -, e⟩ := hcell i k' l hi
      exact hs.kind i k' l' e
  · have h1 : numRoots q < numRoots p := by rw [h.set]; exact bind_numRoots h.root rfl h.ne
    have h2 : numRoots q2 = numRoots q1 := numRoots_congr hr.len hr.isRoot
    rw [h2, hc.numRoots hwq]; exact h1

/-- `adjust_level` after a binding. -/
theorem Bound.adjust {v : Nat} {k : Kd} {lv : Nat} {t : Ty Kd} {p q : Pool Kd} (h : Bound env κ v k lv t p q) :
    ∃ res p' n0, (∀ n, n0 ≤ n → adjustLevel n t lv q = some (res, p')) ∧ Unified env κ p (fun σ => σ v = t.sem σ) True res p' := by
  obtain ⟨rq, hwq⟩ := h.wf
  have hgq : Good q t := fun j hj => by rw [h.set]; simpa using h.good j hj
  obtain ⟨R, hR⟩ := exists_rankLt rq t
  obtain ⟨L, q1, h1, h2, h3⟩ := dfs_spec (adjustOne lv) [] hwq hgq hR
  have hw1 := h2.wf hwq
  have hg1 := h2.good hgq
  have h3' : ∀ x, x ∈ L ↔ CellOf q1 t x := fun x => by rw [h3, CellOf.compress h2 hwq]
  have hlevel : ∀ σ : Assign Kd, Sol q1 σ → ((t.sem σ).maxLevel ≤ lv ↔ ∀ x ∈ L, leafOk σ lv x) := fun σ hs => by
    rw [level_cell hw1 hs lv hg1]; simp only [h3']
  have hsolq1 : ∀ σ : Assign Kd, RSol env p σ → σ v = t.sem σ → Sol q1 σ ∧ (t.sem σ).maxLevel ≤ lv := fun σ hs hE =>
    ⟨(h2.sol hwq σ).2 ((h.sol σ).2 ⟨hs.sol, hE⟩), by rw [← hE]; exact hs.level v k lv h.root⟩
  rcases runAll_adjust lv L [] with ⟨⟨x, hx, hd⟩, hrun⟩ | ⟨hno, ts, hrun, hts⟩
  · refine ⟨.error .mismatch, q1, R + 1, fun n hn => by simp only [adjustLevel, h1 n (by omega), hrun], ?_⟩
    refine h.unified h2 .rfl (fun hh => by cases hh) (fun e _ _ σ hs hE => ?_)
    obtain ⟨hs1, hl⟩ := hsolq1 σ hs hE
    have := (hlevel σ hs1).1 hl x hx
    cases x <;> simp_all [deepGen, leafOk]
    omega
  · have hts' : ∀ wk ∈ ts, ∃ l, lv ≤ l ∧ q1[wk.1]? = some (.var wk.1 wk.2 l) := by
      rintro ⟨w, k'⟩ hwk
      obtain ⟨l, hl, hm⟩ := ((hts w k').1 hwk).resolve_left (by simp)
      exact ⟨l, Nat.le_of_lt hl, cellOf_root ((h3' _).1 hm) rfl⟩
    obtain ⟨g1, g2, g3⟩ := relevel_fold lv ts q1 hts'
    refine ⟨.ok (), ts.foldl (fun p wk => p.set wk.1 (.var wk.1 wk.2 lv)) q1, R + 1, fun n hn => by simp only [adjustLevel, h1 n (by omega), hrun], ?_⟩
    refine h.unified h2 g1 (fun _ => ⟨fun σ hs => ?_, fun σ i k' l hs hE hi => ?_⟩) (fun e he => by cases he)
    · refine (hlevel σ ((g1.sol σ).1 hs.sol)).2 fun x hx => ?_
      cases x with
      | gen g l =>
        have := hno _ hx
        simp only [deepGen, Nat.not_lt] at this
        exact this
      | con c => trivial
      | app c lo hi => trivial
      | var w k' l =>
        have hw' : q1[w]? = some (.var w k' l) := cellOf_root ((h3' _).1 hx) rfl
        by_cases hl : lv < l
        · exact hs.level w k' lv (g2 (w, k') ((hts w k').2 (.inr ⟨l, hl, hx⟩)))
        · by_cases hm : ∃ wk ∈ ts, wk.1 = w
          · obtain ⟨⟨w', k2⟩, hm1, rfl⟩ := hm
            exact hs.level w' k2 lv (g2 _ hm1)
          · refine Nat.le_trans (hs.level w k' l ?_) (Nat.le_of_not_lt hl)
            rw [g3 w (fun y hy he => hm ⟨y, hy, he⟩)]; exact hw'
    · obtain ⟨hs1, hl⟩ := hsolq1 σ hs hE
      by_cases hm : ∃ wk ∈ ts, wk.1 = i
      · obtain ⟨⟨w', k2⟩, hm1, rfl⟩ := hm
        have he := g2 _ hm1
        rw [hi] at he
        cases he
        obtain ⟨l', hl', hm2⟩ := ((hts _ _).1 hm1).resolve_left (by simp)
        exact (hlevel σ hs1).1 hl _ hm2
      · rw [g3 i (fun y hy he => hm ⟨y, hy, he⟩)] at hi
        have hq := (h2.root hwq rfl).1 hi
        have hiv : i ≠ v := ((h.isRoot i).1 ⟨_, hq, rfl⟩).2
        exact hs.level i k' l (by rw [← h.get hiv]; exact hq)

/-- No unknown is left in a type: it is the same under all solutions. -/
def Ground (env : Env Kd) (p : Pool Kd) (t : Ty Kd) : Prop := ∀ σ τ : Assign Kd, RSol env p σ → RSol env p τ → t.sem σ = t.sem τ

/-- The most general solution with the unknown `i` named `i + c`. -/
theorem exists_named {r : Nat → Nat} {p : Pool Kd} (hw : WF r p) (c : Nat) :
    ∃ σ : Assign Kd, RSol env p σ ∧ ∀ (i : Nat) (k : Kd) (lv : Nat), p[i]? = some (.var i k lv) → σ i = .unknown (i + c) k lv := by
  obtain ⟨σ, h1, h2, -⟩ := exists_sol (K := Ty Kd) hw (fun i => match p[i]? with | some (.var _ k lv) => AType.unknown (i + c) k lv | _ => .con 0)
  have h3 : ∀ (i : Nat) (k : Kd) (lv : Nat), p[i]? = some (.var i k lv) → σ i = .unknown (i + c) k lv := fun i k lv hi => by
    rw [h2 i ⟨_, hi, rfl⟩]; simp only [hi]
  exact ⟨σ, ⟨h1, fun i k lv hi => by rw [h3 i k lv hi]; rfl, fun i k lv hi => by rw [h3 i k lv hi]; exact Nat.le_refl _⟩, h3⟩

theorem not_ground_root {r : Nat → Nat} {p : Pool Kd} (hw : WF r p) {i : Nat} {k : Kd} {lv : Nat} (hi : p[i]? = some (.var i k lv))
    {t : Ty Kd} (ht : ∀ σ : Assign Kd, RSol env p σ → σ i = t.sem σ) : ¬ Ground env p t := by
  intro hg
  obtain ⟨σ, h1, h2⟩ := exists_named (env := env) hw 0
  obtain ⟨τ, h3, h4⟩ := exists_named (env := env) hw 1
  have := hg σ τ h1 h3
  rw [← ht σ h1, ← ht τ h3, h2 i k lv hi, h4 i k lv hi] at this
  simp at this

/-- Every solution of a ground type has no unknown: an occurring unknown would differ. -/
theorem ground_no_var {r : Nat → Nat} {p : Pool Kd} (hw : WF r p) {t : Ty Kd} (hg : Good p t) (hgr : Ground env p t) {x : Ty Kd} {w : Nat}
    (h : CellOf p t x) (hx : asVar x = some w) : False := by
  have hocc : ∀ (σ τ : Assign Kd), Sol p σ → Sol p τ → ∀ (N i : Nat), r i < N → i < p.length → Occ p i x → σ i = τ i → σ w = τ w := by
    intro σ τ hs ht N
    induction N with
    | zero => intro i h; omega
    | succ N ih =>
      intro i hN hi ho he
      obtain ⟨c, hc⟩ : ∃ t, p[i]? = some t := ⟨p[i], List.getElem?_eq_getElem hi⟩
      rcases (occ_iff hc x).1 ho with ⟨rfl, h1⟩ | ⟨h1, j, hj, ho'⟩
      · rw [hx] at h1
        rcases h1 with h1 | h1
        · cases h1
        · cases h1; exact he
      · refine ih j (by have := hw.ranked i j ⟨c, hc, h1, hj⟩; omega) (hw.closed i c hc j hj) ho' ?_
        have e1 : σ i = c.sem σ := hs i c hc
        have e2 : τ i = c.sem τ := ht i c hc
        rw [e1, e2] at he
        cases c with
        | var v k l => simp [refs, asVar] at hj; subst hj; exact he
        | con c => simp [refs, asVar, children] at hj
        | gen g l => simp [refs, asVar, children] at hj
        | app callee lo hi =>
          simp only [Ty.sem, AType.app.injEq] at he
          simp only [refs, asVar, children, List.mem_cons] at hj
          rcases hj with rfl | hj
          · exact he.1
          · exact List.map_inj_left.1 he.2 j hj
  obtain ⟨σ, h1, h2⟩ := exists_named (env := env) hw 0
  obtain ⟨τ, h3, h4⟩ := exists_named (env := env) hw 1
  have hroot := cellOf_root h hx
  have heq := hgr σ τ h1 h3
  have hfin : σ w = τ w := by
    cases ha : asVar t with
    | some v =>
      have e : t.sem σ = σ v := Alg.sem_var σ t v ha
      have e' : t.sem τ = τ v := Alg.sem_var τ t v ha
      rw [e, e'] at heq
      exact hocc σ τ h1.sol h3.sol (r v + 1) v (by omega) (hg v (by simp [refs_var ha])) ((CellOf.of_var ha).1 h) heq
    | none =>
      rcases (CellOf.of_node ha).1 h with rfl | ⟨j, hj, ho⟩
      · rw [ha] at hx; cases hx
      · refine hocc σ τ h1.sol h3.sol (r j + 1) j (by omega) (hg j (by rwa [refs_node ha])) ho ?_
        cases t with
        | var v k l => cases ha
        | con c => simp [children] at hj
        | gen g l => simp [children] at hj
        | app callee lo hi =>
          simp only [Ty.sem, AType.app.injEq] at heq
          simp only [children, List.mem_cons] at hj
          rcases hj with rfl | hj
          · exact heq.1
          · exact List.map_inj_left.1 heq.2 j hj
  cases x with
  | var w' k l =>
    cases hx
    rw [h2 w k l hroot, h4 w k l hroot] at hfin
    simp at hfin
  | _ => cases hx

/-- `deny_adjust_required_level` after a binding. -/
theorem Bound.deny {v : Nat} {k : Kd} {lv : Nat} {t : Ty Kd} {p q : Pool Kd} (h : Bound env κ v k lv t p q)
    (hcell : ∀ x w, CellOf q t x → asVar x = some w → CellOf p t x) :
    ∃ res p' n0, (∀ n, n0 ≤ n → denyLevel n t lv q = some (res, p')) ∧ Unified env κ p (fun σ => σ v = t.sem σ) (Ground env p t) res p' := by
  obtain ⟨rq, hwq⟩ := h.wf
  have hgq : Good q t := fun j hj => by rw [h.set]; simpa using h.good j hj
  obtain ⟨R, hR⟩ := exists_rankLt rq t
  obtain ⟨L, q1, h1, h2, h3⟩ := dfs_spec (denyOne lv) () hwq hgq hR
  have hw1 := h2.wf hwq
  have hg1 := h2.good hgq
  have h3' : ∀ x, x ∈ L ↔ CellOf q1 t x := fun x => by rw [h3, CellOf.compress h2 hwq]
  have hlevel : ∀ σ : Assign Kd, Sol q1 σ → ((t.sem σ).maxLevel ≤ lv ↔ ∀ x ∈ L, leafOk σ lv x) := fun σ hs => by
    rw [level_cell hw1 hs lv hg1]; simp only [h3']
  have hsolq1 : ∀ σ : Assign Kd, RSol env p σ → σ v = t.sem σ → Sol q1 σ ∧ (t.sem σ).maxLevel ≤ lv := fun σ hs hE =>
    ⟨(h2.sol hwq σ).2 ((h.sol σ).2 ⟨hs.sol, hE⟩), by rw [← hE]; exact hs.level v k lv h.root⟩
  rcases runAll_deny lv L with ⟨⟨x, hx, hd⟩, hrun⟩ | ⟨hno, hrun⟩
  · refine ⟨.error .mismatch, q1, R + 1, fun n hn => by simp only [denyLevel, h1 n (by omega), hrun], ?_⟩
    refine h.unified h2 .rfl (fun hh => by cases hh) (fun e _ hgr σ hs hE => ?_)
    cases x with
    | gen g l =>
      obtain ⟨hs1, hl⟩ := hsolq1 σ hs hE
      have h4 := (hlevel σ hs1).1 hl _ hx
      simp only [tooDeep, leafOk] at h4 hd
      omega
    | var w k' l =>
      obtain ⟨rp, hwp⟩ := h.wfp
      exact ground_no_var hwp h.good hgr (hcell _ w ((h3 _).1 hx) rfl) rfl
    | con c => exact hd
    | app c lo hi => exact hd
  · refine ⟨.ok (), q1, R + 1, fun n hn => by simp only [denyLevel, h1 n (by omega), hrun], ?_⟩
    refine h.unified h2 .rfl (fun _ => ⟨fun σ hs => ?_, fun σ i k' l hs hE hi => ?_⟩) (fun e he => by cases he)
    · refine (hlevel σ hs.sol).2 fun x hx => ?_
      have hn := hno _ hx
      cases x with
      | gen g l => simp only [tooDeep, Nat.not_lt] at hn; exact hn
      | con c => trivial
      | app c lo hi => trivial
      | var w k' l =>
        simp only [tooDeep, Nat.not_lt] at hn
        exact Nat.le_trans (hs.level w k' l (cellOf_root ((h3' _).1 hx) rfl)) hn
    · have hq := (h2.root hwq rfl).1 hi
      have hiv : i ≠ v := ((h.isRoot i).1 ⟨_, hq, rfl⟩).2
      exact hs.level i k' l (by rw [← h.get hiv]; exact hq)

variable [DecidableEq Kd]

/-- Binding an unknown, up to the check of the levels. -/
theorem bindVar_spec (adj : Nat → Ty Kd → Nat → Pool Kd → Option (Except Error Unit × Pool Kd)) {r : Nat → Nat} {p : Pool Kd} (hw : WF r p)
    (hk : Kinded env κ p) {v : Nat} {k : Kd} {lv : Nat} (hv : p[v]? = some (.var v k lv)) {t : Ty Kd} (hg : Good p t) (hc : Canon p t)
    (ht : asVar t ≠ some v) {kt : Kd} (hkt : cellKind env κ t = some kt) (hpr : t.Proper) (G : Prop)
    (hadj : ∀ p1 q, Compress p p1 → Bound env κ v k lv t p1 q → (∀ x w, CellOf q t x → asVar x = some w → CellOf p1 t x) →
      ∃ res p' n0, (∀ n, n0 ≤ n → adj n t lv q = some (res, p')) ∧ Unified env κ p1 (fun σ => σ v = t.sem σ) G res p') :
    ∃ res p' n0, (∀ n, n0 ≤ n → bindVar env adj n v k lv t p = some (res, p')) ∧ Unified env κ p (fun σ => σ v = t.sem σ) G res p' := by
  obtain ⟨R, hR⟩ := exists_low r t
  obtain ⟨L, p1, h1, h2, h3⟩ := dfs_spec (fun k _ => if isVar v k then (.error () : Except Unit Unit) else .ok ()) () hw hg hR.rankLt
  rw [runAll_occurs] at h1
  have hw1 := h2.wf hw
  have hk1 := hk.compress hw h2
  have hv1 : p1[v]? = some (.var v k lv) := (h2.root hw rfl).2 hv
  by_cases hm : ∃ x ∈ L, asVar x = some v
  · rw [if_pos hm] at h1
    refine ⟨.error .occursCheckFailed, p1, R + 1, fun n hn => by simp only [bindVar, occursCheck, h1 n (by omega)],
      Unified.of_compress hw hk h2 (fun h => by cases h) ?_⟩
    intro e _ _ σ hs hE
    obtain ⟨x, hxL, hx⟩ := hm
    have hcell := (h3 _).1 hxL
    cases ha : asVar t with
    | none =>
      have := hcell.size hs.sol ha hx
      rw [sem_eq, ← hE] at this
      omega
    | some w =>
      rw [CellOf.of_var ha, occ_canon (hc w ha) hc] at hcell
      rw [children_var t w ha] at hcell
      simp at hcell
      rw [hcell] at hx; exact ht hx
  · rw [if_neg hm] at h1
    obtain ⟨p2, e1, e2⟩ := getKind_spec R t p1 kt hR hw1 (h2.good hg) hk1 hkt
    have hpp : Compress p p2 := h2.trans e2
    have hw2 := hpp.wf hw
    have hk2 := hk.compress hw hpp
    have hv2 : p2[v]? = some (.var v k lv) := (hpp.root hw rfl).2 hv
    by_cases hkk : kt ≠ k
    · refine ⟨.error .mismatch, p2, R + 1, fun n hn => by simp only [bindVar, occursCheck, h1 n (by omega), e1 n (by omega), if_pos hkk],
        Unified.of_compress hw hk hpp (fun h => by cases h) ?_⟩
      intro e _ _ σ hs hE
      have a1 := hs.kindOf_cell hw hk hg
      have a2 := hs.kind v k lv hv
      rw [hE, a1, hkt] at a2
      exact hkk (Option.some.inj a2)
    · have hkk' : kt = k := Classical.not_not.1 hkk
      subst hkk'
      have hno : ¬ CellOf p2 t (.var v kt lv) := by
        rw [CellOf.compress hpp hw, ← h3]; exact fun h => hm ⟨_, h, rfl⟩
      have hwq := bind_wf hw2 hv2 rfl (hpp.good hg) (hpp.canon hw hc) ht hno
      have hb : Bound env κ v kt lv t p2 (p2.set v t) := by
        refine ⟨hv2, hpp.good hg, rfl, ⟨r, hw2⟩, hwq, hk2, ⟨fun i c hi => ?_, fun i k' l hi => ?_, fun i c hi => ?_⟩, ht, hkt⟩
        · by_cases hiv : i = v
          · subst hiv; rw [get_set_self hv2] at hi; cases hi
            rw [hkt, hk2.root i kt lv hv2]
          · rw [get_set_ne hiv] at hi; exact hk2.cell i c hi
        · by_cases hiv : i = v
          · subst hiv; rw [get_set_self hv2] at hi; cases hi; exact absurd rfl ht
          · rw [get_set_ne hiv] at hi; exact hk2.root i k' l hi
        · by_cases hiv : i = v
          · subst hiv; rw [get_set_self hv2] at hi; cases hi; exact hpr
          · rw [get_set_ne hiv] at hi; exact hk2.proper i c hi
      -- what occurs in `t` does not change
      have hocc : ∀ i x, Occ (p2.set v t) i x → ¬ Occ p2 i (.var v kt lv) → Occ p2 i x := by
        intro i x ho
        induction ho with
        | here g1 g2 =>
          intro hn
          refine .here ?_ g2
          rw [get_set_ne] at g1
          · exact g1
          · rintro rfl; exact hn (.here hv2 (.inr rfl))
        | @step i j c x g1 g2 g3 _ ih =>
          intro hn
          have hne : i ≠ v := by rintro rfl; exact hn (.here hv2 (.inr rfl))
          rw [get_set_ne hne] at g1
          exact .step g1 g2 g3 (ih fun ho' => hn (.step g1 g2 g3 ho'))
      obtain ⟨res, p', n0, a1, a2⟩ := hadj p2 _ hpp hb (fun x w hx hxw => by
        cases ha : asVar t with
        | some u =>
          rw [CellOf.of_var ha] at hx hno ⊢
          exact hocc u x hx hno
        | none =>
          rw [CellOf.of_node ha] at hx hno ⊢
          rcases hx with rfl | ⟨j, hj, ho⟩
          · exact .inl rfl
          · exact .inr ⟨j, hj, hocc j x ho fun h => hno (.inr ⟨j, hj, h⟩)⟩)
      refine ⟨res, p', max n0 (R + 1), fun n hn => ?_, Unified.before hw hpp a2⟩
      simp only [bindVar, occursCheck, h1 n (by omega), e1 n (by omega), if_neg hkk]
      exact a1 n (by omega)

omit [DecidableEq Kd]

/-- A pool unification went on to. -/
structure Ext (env : Env Kd) (κ : Nat → Kd) (p p' : Pool Kd) : Prop where
  len : p'.length = p.length
  wf : ∃ r, WF r p'
  kinded : Kinded env κ p'
  measure : numRoots p' < numRoots p ∨ Compress p p'
  sol : ∀ σ : Assign Kd, RSol env p' σ → RSol env p σ

theorem forEach2_spec {r : Nat → Nat} {p : Pool Kd} (hw : WF r p) {G : Prop} {f : Nat → Nat → Nat → Pool Kd → Option (Except Error Unit × Pool Kd)} :
    ∀ (l : List (Nat × Nat)),
    (∀ c ∈ l, ∀ q, Ext env κ p q → ∃ res q' n0, (∀ n, n0 ≤ n → f n c.1 c.2 q = some (res, q')) ∧ Unified env κ q (fun σ => σ c.1 = σ c.2) G res q') →
    ∀ q, Ext env κ p q → ∃ res q' n0, (∀ n, n0 ≤ n → forEach2 (f n) l q = some (res, q')) ∧
      Unified env κ q (fun σ => ∀ c ∈ l, σ c.1 = σ c.2) G res q' := by
  intro l
  induction l with
  | nil =>
    intro _ q hq
    obtain ⟨r', hw'⟩ := hq.wf
    exact ⟨.ok (), q, 0, fun n _ => rfl, Unified.of_compress hw' hq.kinded .refl (fun _ σ _ => by simp) (fun e he => by cases he)⟩
  | cons c l ih =>
    intro hl q hq
    obtain ⟨r', hw'⟩ := hq.wf
    obtain ⟨res, q1, n1, h1, h2⟩ := hl c (by simp) q hq
    obtain ⟨c1, c2⟩ := c
    cases res with
    | error e =>
      refine ⟨.error e, q1, n1, fun n hn => by simp only [forEach2, h1 n hn], ?_⟩
      exact (Unified.seq_err (E2 := fun σ => ∀ c ∈ l, σ c.1 = σ c.2) h2).congr (fun σ _ => by simp) id
    | ok u =>
      have hq1 : Ext env κ p q1 := by
        refine ⟨by rw [h2.len, hq.len], h2.wf, h2.kinded, ?_, fun σ hs => hq.sol σ ((h2.ok rfl σ).1 hs).1⟩
        rcases hq.measure with hm | hm <;> rcases h2.measure with hm' | hm'
        · exact .inl (by omega)
        · exact .inl (by rw [hm'.numRoots hw']; exact hm)
        · exact .inl (by rw [hm.numRoots hw] at hm'; exact hm')
        · exact .inr (hm.trans hm')
      obtain ⟨res2, q2, n2, h3, h4⟩ := ih (fun c hc => hl c (by simp [hc])) q1 hq1
      refine ⟨res2, q2, max n1 n2, fun n hn => ?_, (Unified.seq hw' h2 h4).congr (fun σ _ => by simp) id⟩
      simp only [forEach2, h1 n (by omega), h3 n (by omega)]

theorem mem_vars {lo hi i : Nat} : i ∈ vars lo hi ↔ lo ≤ i ∧ i < hi := by
  simp only [vars, List.mem_range']
  constructor
  · rintro ⟨j, h1, h2⟩; omega
  · rintro ⟨h1, h2⟩; exact ⟨i - lo, by omega, by omega⟩

theorem map_zip_eq {σ : Assign Kd} : ∀ {as bs : List Nat}, as.length = bs.length →
    ((∀ c ∈ as.zip bs, σ c.1 = σ c.2) ↔ as.map σ = bs.map σ)
  | [], [], _ => by simp
  | a :: as, b :: bs, h => by
    have := map_zip_eq (σ := σ) (as := as) (bs := bs) (by simpa using h)
    simp [← this]

theorem sem_resolved {r : Nat → Nat} {p p' : Pool Kd} {k k' : Ty Kd} (hw : WF r p) (hc : Compress p p')
    (h : (∃ v, asVar k = some v ∧ p'[v]? = some k' ∧ ∀ j ∈ children k', r j < r v) ∨ (asVar k = none ∧ k' = k ∧ p' = p)) {σ : Assign Kd} (hs : Sol p σ) :
    k.sem σ = k'.sem σ := by
  rcases h with ⟨v, h1, h2, -⟩ | ⟨-, rfl, rfl⟩
  · have := (hc.sol hw σ).2 hs v k' h2
    rw [← sem_eq, Alg.sem_var σ k v h1, this, sem_eq]
  · rfl

/-- A type a user of the context holds: in the pool, with a kind, and applications have arguments. -/
structure Ok (env : Env Kd) (κ : Nat → Kd) (p : Pool Kd) (t : Ty Kd) : Prop where
  good : Good p t
  kind : ∃ k, cellKind env κ t = some k
  proper : t.Proper

theorem ok_ref {p : Pool Kd} {c : Nat} (h : c < p.length) : Ok env κ p (ref env c) :=
  ⟨fun j hj => by simp [ref, refs, asVar] at hj; subst hj; exact h, ⟨κ c, rfl⟩, trivial⟩

theorem resolved_ok {r : Nat → Nat} {p p' : Pool Kd} {k k' : Ty Kd} (hw : WF r p) (hk : Kinded env κ p) (hc : Compress p p') (hg : Good p' k')
    (h : (∃ v, asVar k = some v ∧ p'[v]? = some k' ∧ ∀ j ∈ children k', r j < r v) ∨ (asVar k = none ∧ k' = k ∧ p' = p)) (ho : Ok env κ p k) :
    Ok env κ p' k' := by
  have hk' := hk.compress hw hc
  rcases h with ⟨v, h1, h2, -⟩ | ⟨-, rfl, rfl⟩
  · exact ⟨hg, ⟨_, hk'.cell v k' h2⟩, hk'.proper v k' h2⟩
  · exact ho

theorem Ok.compress {p p' : Pool Kd} {t : Ty Kd} (h : Ok env κ p t) (hc : Compress p p') : Ok env κ p' t := ⟨hc.good h.good, h.kind, h.proper⟩

variable [DecidableEq Kd]

/-- The two functions share the cases after resolving both sides; `unify` and `match_to_right` differ in `core`. -/
theorem pair_spec (F : Nat → Ty Kd → Ty Kd → Pool Kd → Option (Except Error Unit × Pool Kd))
    (core : Nat → Ty Kd → Ty Kd → Pool Kd → Option (Except Error Unit × Pool Kd))
    (hF : ∀ n a b p, F (n + 1) a b p = match resolve n a p with
      | none => none
      | some (a, p) =>
        match resolve n b p with
        | none => none
        | some (b, p) => if a = b then some (.ok (), p) else core n a b p)
    (hmis : ∀ n a b p, asVar a = none → asVar b = none → (∀ c lo hi c' lo' hi', ¬ (a = .app c lo hi ∧ b = .app c' lo' hi')) →
      core n a b p = some (.error .mismatch, p))
    (happ : ∀ n ac alo ahi bc blo bhi p, core n (.app ac alo ahi) (.app bc blo bhi) p =
      if ahi - alo ≠ bhi - blo then some (.error .mismatch, p)
      else forEach2 (fun a b => F n (ref env a) (ref env b)) ((ac, bc) :: (vars alo ahi).zip (vars blo bhi)) p)
    (G : Pool Kd → Ty Kd → Prop)
    (hGc : ∀ p p' r t, WF r p → Compress p p' → G p t → G p' t)
    (hGr : ∀ p r t t', WF r p → (∀ σ : Assign Kd, RSol env p σ → t.sem σ = t'.sem σ) → G p t → G p t')
    (hGe : ∀ p q t c, Ext env κ p q → c ∈ children t → G p t → G q (ref env c))
    (hvar : ∀ (r : Nat → Nat) (p : Pool Kd) (a b : Ty Kd), WF r p → Kinded env κ p → Ok env κ p a → Ok env κ p b → Canon p a → Canon p b → a ≠ b →
      (asVar a ≠ none ∨ asVar b ≠ none) →
      ∃ res p' n0, (∀ n, n0 ≤ n → core n a b p = some (res, p')) ∧ Unified env κ p (fun σ => a.sem σ = b.sem σ) (G p b) res p') :
    ∀ (N R : Nat) (r : Nat → Nat) (p : Pool Kd) (a b : Ty Kd), WF r p → Kinded env κ p → numRoots p ≤ N → Low r R a → Ok env κ p a → Ok env κ p b →
      ∃ res p' n0, (∀ n, n0 ≤ n → F n a b p = some (res, p')) ∧ Unified env κ p (fun σ => a.sem σ = b.sem σ) (G p b) res p' := by
  intro N
  induction N using Nat.strongRecOn with
  | ind N ihN =>
    intro R
    induction R using Nat.strongRecOn with
    | ind R ihR =>
      intro r p a b hw hk hN hLa hoa hob
      have hRa := hLa.rankLt
      obtain ⟨Rb, hRb⟩ := exists_rankLt r b
      obtain ⟨a', p1, a1, a2, a3, a4, a5, a6, -, a8⟩ := resolve_spec hw hoa.good hRa
      have hw1 := a2.wf hw
      have hk1 := hk.compress hw a2
      obtain ⟨b', p2, b1, b2, b3, b4, b5, b6, -, b8⟩ := resolve_spec hw1 (a2.good hob.good) hRb
      have hw2 := b2.wf hw1
      have hk2 := hk1.compress hw1 b2
      have hpp : Compress p p2 := a2.trans b2
      have hoa' : Ok env κ p2 a' := (resolved_ok hw hk a2 a4 a8 hoa).compress b2
      have hob' : Ok env κ p2 b' := resolved_ok hw1 hk1 b2 b4 b8 (hob.compress a2)
      have hsa : ∀ σ : Assign Kd, Sol p2 σ → a.sem σ = a'.sem σ := fun σ hs => sem_resolved hw a2 a8 ((hpp.sol hw σ).1 hs)
      have hsb : ∀ σ : Assign Kd, Sol p2 σ → b.sem σ = b'.sem σ := fun σ hs => sem_resolved hw1 b2 b8 ((b2.sol hw1 σ).1 hs)
      suffices hmain : ∃ res p' n0, (∀ n, n0 ≤ n → (if a' = b' then some (.ok (), p2) else core n a' b' p2) = some (res, p')) ∧
          Unified env κ p2 (fun σ => a'.sem σ = b'.sem σ) (G p2 b') res p' by
        obtain ⟨res, p', n0, h1, h2⟩ := hmain
        refine ⟨res, p', max n0 (max R Rb) + 1, fun n hn => ?_, Unified.before hw hpp (h2.congr (fun σ hs => by rw [hsa σ hs.sol, hsb σ hs.sol])
          (fun hg => hGr p2 r b b' hw2 (fun σ hs => hsb σ hs.sol) (hGc p p2 r b hw hpp hg)))⟩
        obtain ⟨n, rfl⟩ : ∃ m, n = m + 1 := ⟨n - 1, by omega⟩
        rw [hF]
        simp only [a1 n (by omega), b1 n (by omega)]
        exact h1 n (by omega)
      by_cases hab : a' = b'
      · exact ⟨.ok (), p2, 0, fun n _ => by rw [if_pos hab], Unified.of_compress hw2 hk2 .refl (fun _ σ _ => by rw [hab]) (fun e he => by cases he)⟩
      · simp only [if_neg hab]
        have a3' := b2.canon hw1 a3
        by_cases hv : asVar a' ≠ none ∨ asVar b' ≠ none
        · exact hvar r p2 a' b' hw2 hk2 hoa' hob' a3' b3 hab hv
        · simp only [not_or, Classical.not_not] at hv
          obtain ⟨hva, hvb⟩ := hv
          by_cases hap : ∃ c lo hi c' lo' hi', a' = .app c lo hi ∧ b' = .app c' lo' hi'
          · obtain ⟨ac, alo, ahi, bc, blo, bhi, rfl, rfl⟩ := hap
            simp only [happ]
            by_cases hlen : ahi - alo ≠ bhi - blo
            · simp only [if_pos hlen]
              refine ⟨_, p2, 0, fun n _ => rfl, Unified.of_compress hw2 hk2 .refl (fun h => by cases h) (fun e _ _ σ _ h => hlen ?_)⟩
              simp only [Ty.sem, AType.app.injEq] at h
              have := congrArg List.length h.2
              simpa [vars] using this
            · simp only [if_neg hlen]
              have hchild : ∀ c ∈ children (Ty.app (Kd := Kd) ac alo ahi), r c + 1 < R ∧ c < p2.length := fun c hm =>
                ⟨hLa.resolved a8 c hm, hoa'.good c hm⟩
              have hchildb : ∀ c ∈ children (Ty.app (Kd := Kd) bc blo bhi), c < p2.length := fun c hm => hob'.good c hm
              have hN2 : numRoots p2 ≤ N := by rw [hpp.numRoots hw]; exact hN
              have hone : ∀ c d q, c ∈ children (Ty.app (Kd := Kd) ac alo ahi) → d ∈ children (Ty.app (Kd := Kd) bc blo bhi) → Ext env κ p2 q →
                  ∃ res q' n0, (∀ n, n0 ≤ n → F n (ref env c) (ref env d) q = some (res, q')) ∧
                    Unified env κ q (fun σ => σ c = σ d) (G p2 (.app bc blo bhi)) res q' := by
                intro c d q hc hd hq
                have hc' := hchild c hc
                have hd' := hchildb d hd
                have hG := hGe p2 q _ d hq hd
                rcases hq.measure with hm | hm
                · obtain ⟨r', hw'⟩ := hq.wf
                  obtain ⟨R', hR'⟩ := exists_low r' (ref env c)
                  obtain ⟨res, q', n0, e1, e2⟩ := ihN (numRoots q) (by omega) R' r' q (ref env c) (ref env d) hw' hq.kinded (Nat.le_refl _) hR'
                    (ok_ref (by rw [hq.len]; exact hc'.2)) (ok_ref (by rw [hq.len]; exact hd'))
                  exact ⟨res, q', n0, e1, e2.congr (fun σ _ => Iff.rfl) hG⟩
                · obtain ⟨res, q', n0, e1, e2⟩ := ihR (r c + 1) hc'.1 r q (ref env c) (ref env d) (hm.wf hw2) hq.kinded
                    (by rw [hm.numRoots hw2]; exact hN2)
                    ⟨fun v hv => by cases hv; omega, fun j hj => by simp [ref, children] at hj⟩
                    (ok_ref (by rw [hq.len]; exact hc'.2)) (ok_ref (by rw [hq.len]; exact hd'))
                  exact ⟨res, q', n0, e1, e2.congr (fun σ _ => Iff.rfl) hG⟩
              have hl : (vars alo ahi).length = (vars blo bhi).length := by simp [vars]; omega
              obtain ⟨res, p3, n1, h1, h2⟩ := forEach2_spec (env := env) (κ := κ) hw2 (G := G p2 (.app bc blo bhi))
                (f := fun n c d => F n (ref env c) (ref env d)) ((ac, bc) :: (vars alo ahi).zip (vars blo bhi))
                (fun c hc q hq => hone c.1 c.2 q (by
                    rcases List.mem_cons.1 hc with rfl | hc
                    · simp [children]
                    · simp [children, (List.of_mem_zip hc).1]) (by
                    rcases List.mem_cons.1 hc with rfl | hc
                    · simp [children]
                    · simp [children, (List.of_mem_zip hc).2]) hq) p2 ⟨rfl, ⟨r, hw2⟩, hk2, .inr .refl, fun _ h => h⟩
              refine ⟨res, p3, n1, h1, h2.congr (fun σ _ => ?_) id⟩
              simp only [List.mem_cons, forall_eq_or_imp, map_zip_eq hl, Ty.sem, AType.app.injEq]
          · have hap' : ∀ c lo hi c' lo' hi', ¬ (a' = .app c lo hi ∧ b' = .app c' lo' hi') := fun c lo hi c' lo' hi' h =>
              hap ⟨c, lo, hi, c', lo', hi', h⟩
            simp only [hmis _ a' b' p2 hva hvb hap']
            refine ⟨_, p2, 0, fun n _ => rfl, Unified.of_compress hw2 hk2 .refl (fun h => by cases h) (fun e _ _ σ _ h => ?_)⟩
            cases a' <;> cases b' <;> first | (cases hva; done) | (cases hvb; done) | (simp [Ty.sem] at h hab; done) | skip
            all_goals first | exact absurd h (by simpa [Ty.sem] using hab) | exact hap' _ _ _ _ _ _ ⟨rfl, rfl⟩ | simp_all [Ty.sem, asVar]

/-- **`unify` terminates, never panics, and decides whether the types can be made equal.** -/
theorem unify_spec (N R : Nat) (r : Nat → Nat) (p : Pool Kd) (a b : Ty Kd) (hw : WF r p) (hk : Kinded env κ p) (hN : numRoots p ≤ N) (hL : Low r R a)
    (ha : Ok env κ p a) (hb : Ok env κ p b) :
    ∃ res p' n0, (∀ n, n0 ≤ n → unify env n a b p = some (res, p')) ∧ Unified env κ p (fun σ => a.sem σ = b.sem σ) True res p' := by
  refine pair_spec (unify env) (fun n a b p =>
      match a, b with
      | .var v k lv, t => bindVar env adjustLevel n v k lv t p
      | t, .var v k lv => bindVar env adjustLevel n v k lv t p
      | .app ac alo ahi, .app bc blo bhi =>
        if ahi - alo ≠ bhi - blo then some (.error .mismatch, p)
        else forEach2 (fun a b => unify env n (ref env a) (ref env b)) ((ac, bc) :: (vars alo ahi).zip (vars blo bhi)) p
      | _, _ => some (.error .mismatch, p)) (fun n a b p => by rw [unify]; rfl) ?_ (fun _ _ _ _ _ _ _ _ => rfl) (fun _ _ => True)
    (fun _ _ _ _ _ _ _ => trivial) (fun _ _ _ _ _ _ _ => trivial) (fun _ _ _ _ _ _ _ => trivial) ?_ N R r p a b hw hk hN hL ha hb
  · intro n a b p ha hb hne
    cases a <;> cases b <;> first | rfl | (cases ha; done) | (cases hb; done) | exact absurd ⟨rfl, rfl⟩ (hne _ _ _ _ _ _)
  · intro r p a b hw hk hoa hob hca hcb hne hv
    have hbind : ∀ v k lv t, Ok env κ p t → Canon p t → p[v]? = some (.var v k lv) → t ≠ .var v k lv →
        ∃ res p' n0, (∀ n, n0 ≤ n → bindVar env adjustLevel n v k lv t p = some (res, p')) ∧ Unified env κ p (fun σ => σ v = t.sem σ) True res p' := by
      intro v k lv t hot hct hv hne
      obtain ⟨kt, hkt⟩ := hot.kind
      refine bindVar_spec adjustLevel hw hk hv hot.good hct (fun h => hne ?_) hkt hot.proper True (fun p1 q hc hb _ => hb.adjust)
      have := hct v h
      rw [hv] at this; cases this; rfl
    cases a with
    | var v k lv => exact hbind v k lv b hob hcb (hca v rfl) (Ne.symm hne)
    | _ =>
      cases b with
      | var v k lv =>
        obtain ⟨res, p', n0, h1, h2⟩ := hbind v k lv _ hoa hca (hcb v rfl) hne
        exact ⟨res, p', n0, h1, h2.congr (fun σ _ => eq_comm) id⟩
      | _ => rcases hv with hv | hv <;> exact absurd rfl hv

/-- `match_to_right`: terminates and never panics; on success exactly the solutions that make the types equal are left; a failure means that there is
none if the right side has no unknown. -/
theorem match_spec (N R : Nat) (r : Nat → Nat) (p : Pool Kd) (a b : Ty Kd) (hw : WF r p) (hk : Kinded env κ p) (hN : numRoots p ≤ N) (hL : Low r R a)
    (ha : Ok env κ p a) (hb : Ok env κ p b) :
    ∃ res p' n0, (∀ n, n0 ≤ n → matchToRight env n a b p = some (res, p')) ∧ Unified env κ p (fun σ => a.sem σ = b.sem σ) (Ground env p b) res p' := by
  refine pair_spec (matchToRight env) (fun n a b p =>
      match a, b with
      | .var v k lv, t => bindVar env denyLevel n v k lv t p
      | .app ac alo ahi, .app bc blo bhi =>
        if ahi - alo ≠ bhi - blo then some (.error .mismatch, p)
        else forEach2 (fun a b => matchToRight env n (ref env a) (ref env b)) ((ac, bc) :: (vars alo ahi).zip (vars blo bhi)) p
      | _, _ => some (.error .mismatch, p)) (fun n a b p => by rw [matchToRight]; rfl) ?_ (fun _ _ _ _ _ _ _ _ => rfl) (Ground env)
    (fun p p' r t hw hc hg σ τ hs ht => hg σ τ ((RSol.compress hw hc σ).1 hs) ((RSol.compress hw hc τ).1 ht))
    (fun p r t t' hw he hg σ τ hs ht => by rw [← he σ hs, ← he τ ht]; exact hg σ τ hs ht)
    (fun p q t c hq hc hg σ τ hs ht => ?_) ?_ N R r p a b hw hk hN hL ha hb
  · intro n a b p ha hb hne
    cases a <;> cases b <;> first | rfl | (cases ha; done) | (cases hb; done) | exact absurd ⟨rfl, rfl⟩ (hne _ _ _ _ _ _)
  · have := hg σ τ (hq.sol σ hs) (hq.sol τ ht)
    cases t with
    | app callee lo hi =>
      simp only [Ty.sem, AType.app.injEq] at this
      simp only [children, List.mem_cons] at hc
      show σ c = τ c
      rcases hc with rfl | hc
      · exact this.1
      · exact List.map_inj_left.1 this.2 c hc
    | _ => simp [children] at hc
  · intro r p a b hw hk hoa hob hca hcb hne hv
    cases a with
    | var v k lv =>
      have hv := hca v rfl
      obtain ⟨kt, hkt⟩ := hob.kind
      refine bindVar_spec denyLevel hw hk hv hob.good hcb (fun h => hne ?_) hkt hob.proper _ (fun p1 q hc hb hcell => ?_)
      · have := hcb v h
        rw [hv] at this; cases this; rfl
      · obtain ⟨res, p', n0, h1, h2⟩ := hb.deny hcell
        exact ⟨res, p', n0, h1, h2.congr (fun σ _ => Iff.rfl)
          (fun hg σ τ hs ht => hg σ τ ((RSol.compress hw hc σ).1 hs) ((RSol.compress hw hc τ).1 ht))⟩
    | _ =>
      cases b with
      | var v k lv =>
        refine ⟨.error .mismatch, p, 0, fun n _ => rfl, Unified.of_compress hw hk .refl (fun h => by cases h) (fun e _ hg => ?_)⟩
        exact absurd hg (not_ground_root hw (hcb v rfl) (fun σ _ => rfl))
      | _ => rcases hv with hv | hv <;> exact absurd rfl hv

end Verif.TypeUnify
