import Verif.KindUnify.Lemmas

/-! # Building kinds -/
namespace Verif.KindUnify
open Verif Verif.Unify Verif.Unify.Cell

/-- The pools that occur: no cycle, the shared constants in place, functions with arguments. -/
structure Inv (p : Pool) : Prop where
  wf : ∃ r, WF r p
  base : ∀ i, i < 21 → p[i]? = new[i]?
  proper : AllProper p

theorem Inv.len {p : Pool} (h : Inv p) : 21 ≤ p.length := by
  have := h.base 20 (by omega)
  have h2 : new[20]? = some .type := by decide
  rw [h2] at this
  have := lt_of_get this
  omega

theorem new_inv : Inv new where
  wf := by
    refine ⟨fun _ => 0, fun i k hk j hj => ?_, fun i j ⟨k, hk, _, hj⟩ => ?_⟩
    all_goals
      have hm : k ∈ new := List.mem_of_getElem? hk
      have : refs k = [] := by
        simp only [new, List.mem_append, List.mem_cons, List.not_mem_nil, or_false, List.mem_replicate] at hm
        rcases hm with (rfl | rfl | rfl | rfl | rfl) | ⟨-, rfl⟩ <;> rfl
      rw [this] at hj; simp at hj
  base := fun _ _ => rfl
  proper := by
    intro k hm
    simp only [new, List.mem_append, List.mem_cons, List.not_mem_nil, or_false, List.mem_replicate] at hm
    rcases hm with (rfl | rfl | rfl | rfl | rfl) | ⟨-, rfl⟩ <;> trivial

theorem Unified.inv {p p' : Pool} {E : Assign → Prop} {res : Except Error Unit} (h : Unified p E res p') (hi : Inv p) : Inv p' where
  wf := h.wf
  base := fun i hi' => by
    have hb := hi.base i hi'
    obtain ⟨k, hk⟩ : ∃ k, new[i]? = some k := ⟨new[i]'(by simpa [new] using hi'), List.getElem?_eq_getElem _⟩
    rw [hk] at hb ⊢
    refine h.nodes i k ?_ hb
    have hm : k ∈ new := List.mem_of_getElem? hk
    simp only [new, List.mem_append, List.mem_cons, List.not_mem_nil, or_false, List.mem_replicate] at hm
    rcases hm with (rfl | rfl | rfl | rfl | rfl) | ⟨-, rfl⟩ <;> rfl
  proper := h.proper hi.proper

theorem Inv.compress {p p' : Pool} (hi : Inv p) (h : Compress p p') : Inv p' := by
  obtain ⟨r, hw⟩ := hi.wf
  exact (Unified.of_compress (E := fun _ => True) (res := .ok ()) hw h (fun _ _ _ => trivial) (fun e he => by cases he)).inv hi

/-- The pool grew by cells that do not restrict the old unknowns. -/
structure Grown (p p' : Pool) : Prop where
  pre : ∃ ks, p' = p ++ ks
  inv : Inv p'
  extend : ∀ σ : Assign, Sol p σ → ∃ σ' : Assign, Sol p' σ' ∧ ∀ i, i < p.length → σ' i = σ i

theorem Grown.le {p p' : Pool} (h : Grown p p') : p.length ≤ p'.length := by
  obtain ⟨ks, rfl⟩ := h.pre; simp

theorem Grown.sol {p p' : Pool} (h : Grown p p') {σ : Assign} (hs : Sol p' σ) : Sol p σ := by
  obtain ⟨ks, rfl⟩ := h.pre; exact (append_sol hs).1

theorem Grown.good {p p' : Pool} (h : Grown p p') {k : Kind} (hg : Good p k) : Good p' k := fun j hj => by
  have := hg j hj; have := h.le; omega

theorem Grown.rfl {p : Pool} (h : Inv p) : Grown p p := ⟨⟨[], by simp⟩, h, fun σ hs => ⟨σ, hs, fun _ _ => Eq.refl _⟩⟩

theorem Grown.trans {p q s : Pool} (h1 : Grown p q) (h2 : Grown q s) : Grown p s where
  pre := by
    obtain ⟨ks, rfl⟩ := h1.pre
    obtain ⟨ls, rfl⟩ := h2.pre
    exact ⟨ks ++ ls, by simp⟩
  inv := h2.inv
  extend := fun σ hs => by
    obtain ⟨σ1, e1, e2⟩ := h1.extend σ hs
    obtain ⟨σ2, e3, e4⟩ := h2.extend σ1 e1
    exact ⟨σ2, e3, fun i hi => by rw [e4 i (by have := h1.le; omega), e2 i hi]⟩

theorem grown_append {p : Pool} (hi : Inv p) {ks : List Kind} (hg : ∀ k ∈ ks, Good p k) (hp : ∀ k ∈ ks, k.Proper) : Grown p (p ++ ks) where
  pre := ⟨ks, rfl⟩
  inv := by
    obtain ⟨r, hw⟩ := hi.wf
    obtain ⟨r', hw', -⟩ := append_wf hw (ks := ks) (fun i k hk => .inl (hg k (List.mem_of_getElem? hk)))
    refine ⟨⟨r', hw'⟩, fun i h => ?_, fun k hk => ?_⟩
    · rw [List.getElem?_append_left (by have := hi.len; omega)]; exact hi.base i h
    · rcases List.mem_append.1 hk with hk | hk
      · exact hi.proper k hk
      · exact hp k hk
  extend := fun σ hs => by
    obtain ⟨r, hw⟩ := hi.wf
    exact append_extend hw hg hs

theorem newVar_spec {p : Pool} (hi : Inv p) : Grown p (newVar p).2 ∧ (newVar p).1 = .var p.length ∧ (newVar p).2 = p ++ [.var p.length] := by
  refine ⟨⟨⟨_, rfl⟩, ?_, fun σ hs => ?_⟩, rfl, rfl⟩
  · obtain ⟨r, hw⟩ := hi.wf
    obtain ⟨r', hw', -⟩ := append_wf hw (ks := [Kind.var p.length]) (fun i k hk => .inr (by
      have h0 : i = 0 := by have := lt_of_get hk; simpa using this
      subst h0
      simp at hk; subst hk; rfl))
    refine ⟨⟨r', hw'⟩, fun i h => ?_, fun k hk => ?_⟩
    · show (p ++ [_])[i]? = _
      rw [List.getElem?_append_left (by have := hi.len; omega)]; exact hi.base i h
    · rcases List.mem_append.1 hk with hk | hk
      · exact hi.proper k hk
      · simp at hk; subst hk; trivial
  · obtain ⟨r, hw⟩ := hi.wf
    obtain ⟨σ', h1, h2, -⟩ := append_root_extend hw (k := Kind.var p.length) rfl AKind.type hs
    exact ⟨σ', h1, h2⟩

theorem base_sem {p : Pool} (hi : Inv p) {σ : Assign} (hs : Sol p σ) {i : Nat} {k : Kind} (hk : new[i]? = some k) : σ i = k.sem σ := by
  refine hs i k ?_
  rw [hi.base i (by have := lt_of_get hk; simpa [new] using this)]; exact hk

theorem allocBind_spec {p : Pool} (hi : Inv p) {k : Kind} (hg : Good p k) (hp : k.Proper) :
    Grown p (allocBind k p).2 ∧ (allocBind k p).1 < (allocBind k p).2.length ∧
      ∀ σ : Assign, Sol (allocBind k p).2 σ → σ (allocBind k p).1 = k.sem σ := by
  have hlen := hi.len
  have hc : ∀ i k', new[i]? = some k' → i < p.length ∧ ∀ σ : Assign, Sol p σ → σ i = k'.sem σ := fun i k' h =>
    ⟨by have := lt_of_get h; simp [new] at this; omega, fun σ hs => base_sem hi hs h⟩
  cases k with
  | var v => exact ⟨.rfl hi, hg v (by simp [refs, asVar]), fun σ _ => rfl⟩
  | type => exact ⟨.rfl hi, hc 0 .type rfl⟩
  | constraint => exact ⟨.rfl hi, hc 1 .constraint rfl⟩
  | satisfaction => exact ⟨.rfl hi, hc 2 .satisfaction rfl⟩
  | value => exact ⟨.rfl hi, hc 3 .value rfl⟩
  | mac => exact ⟨.rfl hi, hc 4 .mac rfl⟩
  | func lo hi' r =>
    refine ⟨grown_append hi (by simpa using hg) (by simpa using hp), by simp [allocBind], fun σ hs => ?_⟩
    have := (append_sol hs).2 0 _ rfl
    simpa [allocBind] using this

theorem vars_one (v : Nat) : vars v (v + 1) = [v] := by simp [vars]

theorem map_vars {σ : Assign} {lo : Nat} : ∀ {ks : List Kind}, (∀ (i : Nat) (k : Kind), ks[i]? = some k → σ (lo + i) = k.sem σ) →
    (List.range' lo ks.length).map σ = ks.map (Kind.sem σ)
  | [], _ => rfl
  | k :: ks, h => by
    rw [List.length_cons, List.range'_succ, List.map_cons, List.map_cons, ← map_vars (lo := lo + 1) (fun i k' hk => by
      have := h (i + 1) k' (by simpa using hk)
      rw [← this]; congr 1; omega)]
    have := h 0 k rfl
    rw [← this]; rfl

theorem allocBinds_spec {p : Pool} (hi : Inv p) {ks : List Kind} (hne : ks ≠ []) (hg : ∀ k ∈ ks, Good p k) (hp : ∀ k ∈ ks, k.Proper) :
    Grown p (allocBinds ks p).2 ∧ (allocBinds ks p).1.1 < (allocBinds ks p).1.2 ∧ (allocBinds ks p).1.2 ≤ (allocBinds ks p).2.length ∧
      ∀ σ : Assign, Sol (allocBinds ks p).2 σ → (vars (allocBinds ks p).1.1 (allocBinds ks p).1.2).map σ = ks.map (Kind.sem σ) := by
  have hlen := hi.len
  have hl : ks.length ≠ 0 := by simpa using hne
  unfold allocBinds
  split
  · next h =>
    obtain ⟨h1, h2⟩ := h
    refine ⟨.rfl hi, ?_, ?_, fun σ hs => ?_⟩ <;> simp only [fromIndexCount, hl, if_false]
    · omega
    · omega
    · rw [vars, Nat.add_sub_cancel_left]
      apply map_vars
      intro i k hk
      have hkt : k = .type := by
        have := List.all_eq_true.1 h2 k (List.mem_of_getElem? hk)
        simpa using this
      subst hkt
      have hil := lt_of_get hk
      refine base_sem hi hs ?_
      have hb : ∀ j, j < 16 → new[5 + j]? = some .type := by decide
      exact hb i (by omega)
  · split
    · next k _ =>
      obtain ⟨h1, h2, h3⟩ := allocBind_spec hi (hg k (by simp)) (hp k (by simp))
      refine ⟨h1, ?_, ?_, fun σ hs => ?_⟩ <;> simp only [fromIndexCount, Nat.one_ne_zero, if_false]
      · omega
      · omega
      · rw [vars_one]; simp [h3 σ hs]
    · refine ⟨grown_append hi hg hp, ?_, ?_, fun σ hs => ?_⟩ <;> simp only [fromIndexCount, hl, if_false]
      · omega
      · simp
      · rw [vars, Nat.add_sub_cancel_left]
        exact map_vars (append_sol hs).2

/-- `new_fun` makes the function kind. -/
theorem newFun_spec {p : Pool} (hi : Inv p) {args : List Kind} {ret : Kind} (hg : ∀ k ∈ args, Good p k) (hp : ∀ k ∈ args, k.Proper)
    (hgr : Good p ret) (hpr : ret.Proper) :
    Grown p (newFun args ret p).2 ∧ Good (newFun args ret p).2 (newFun args ret p).1 ∧ (newFun args ret p).1.Proper ∧
      ∀ σ : Assign, Sol (newFun args ret p).2 σ → (newFun args ret p).1.sem σ = AKind.fun_ (args.map (Kind.sem σ)) (ret.sem σ) := by
  unfold newFun
  by_cases hne : args = []
  · subst hne
    exact ⟨.rfl hi, hgr, hpr, fun σ _ => rfl⟩
  · rw [if_neg (by simpa using hne)]
    obtain ⟨h1, h2, h3, h4⟩ := allocBinds_spec hi hne hg hp
    obtain ⟨h5, h6, h7⟩ := allocBind_spec h1.inv (h1.good hgr) hpr
    have hle := h5.le
    refine ⟨h1.trans h5, fun j hj => ?_, h2, fun σ hs => ?_⟩
    · simp only [refs, asVar, children, List.mem_append, mem_vars, List.mem_singleton] at hj
      show j < (allocBind ret (allocBinds args p).2).2.length
      rcases hj with hj | hj
      · omega
      · rw [hj]; exact h6
    · have e1 := h4 σ (h5.sol hs)
      have e2 := h7 σ hs
      simp only [Kind.sem, e1, e2, AKind.fun_]
      rw [if_neg (by simpa using hne)]

mutual
/-- The kind with functions without arguments replaced by their results, as `ast::Kind::fun` (ast/kind.rs:49-55) builds it. -/
def AKind.norm : AKind → AKind
  | .func args ret => AKind.fun_ (AKind.norms args) ret.norm
  | k => k
def AKind.norms : List AKind → List AKind
  | [] => []
  | a :: as => a.norm :: AKind.norms as
end

mutual
theorem importKind_spec : ∀ (a : AKind), a.noError = true → ∀ (p : Pool), Inv p → ∃ k p', importKind a p = some (k, p') ∧ Grown p p' ∧ Good p' k ∧
    k.Proper ∧ ∀ σ : Assign, Sol p' σ → k.sem σ = a.norm
  | .type, _, p, hi => ⟨_, p, rfl, .rfl hi, fun j hj => by simp [refs, asVar, children] at hj, trivial, fun _ _ => rfl⟩
  | .constraint, _, p, hi => ⟨_, p, rfl, .rfl hi, fun j hj => by simp [refs, asVar, children] at hj, trivial, fun _ _ => rfl⟩
  | .satisfaction, _, p, hi => ⟨_, p, rfl, .rfl hi, fun j hj => by simp [refs, asVar, children] at hj, trivial, fun _ _ => rfl⟩
  | .value, _, p, hi => ⟨_, p, rfl, .rfl hi, fun j hj => by simp [refs, asVar, children] at hj, trivial, fun _ _ => rfl⟩
  | .mac, _, p, hi => ⟨_, p, rfl, .rfl hi, fun j hj => by simp [refs, asVar, children] at hj, trivial, fun _ _ => rfl⟩
  | .error _, h, _, _ => by simp [AKind.noError] at h
  | .func args ret, h, p, hi => by
    simp only [AKind.noError, Bool.and_eq_true] at h
    obtain ⟨as, p1, h1, h2, h3, h4, h5⟩ := importKinds_spec args h.1 p hi
    obtain ⟨r, p2, e1, e2, e3, e4, e5⟩ := importKind_spec ret h.2 p1 h2.inv
    obtain ⟨g1, g2, g3, g4⟩ := newFun_spec e2.inv (fun k hk => e2.good (h3 k hk)) h4 e3 e4
    refine ⟨_, _, by simp only [importKind, h1, e1], h2.trans (e2.trans g1), g2, g3, fun σ hs => ?_⟩
    have hs2 := g1.sol hs
    rw [g4 σ hs, h5 σ (e2.sol hs2), e5 σ hs2, AKind.norm]
theorem importKinds_spec : ∀ (as : List AKind), AKind.noErrors as = true → ∀ (p : Pool), Inv p → ∃ ks p', importKinds as p = some (ks, p') ∧
    Grown p p' ∧ (∀ k ∈ ks, Good p' k) ∧ (∀ k ∈ ks, k.Proper) ∧ ∀ σ : Assign, Sol p' σ → ks.map (Kind.sem σ) = AKind.norms as
  | [], _, p, hi => ⟨[], p, rfl, .rfl hi, by simp, by simp, fun _ _ => rfl⟩
  | a :: as, h, p, hi => by
    simp only [AKind.noErrors, Bool.and_eq_true] at h
    obtain ⟨k, p1, h1, h2, h3, h4, h5⟩ := importKind_spec a h.1 p hi
    obtain ⟨ks, p2, e1, e2, e3, e4, e5⟩ := importKinds_spec as h.2 p1 h2.inv
    refine ⟨k :: ks, p2, by simp only [importKinds, h1, e1], h2.trans e2, ?_, ?_, fun σ hs => ?_⟩
    · rintro c hc
      rcases List.mem_cons.1 hc with rfl | hc
      · exact e2.good h3
      · exact e3 c hc
    · rintro c hc
      rcases List.mem_cons.1 hc with rfl | hc
      · exact h4
      · exact e4 c hc
    · rw [List.map_cons, h5 σ (e2.sol hs), e5 σ hs, AKind.norms]
end

end Verif.KindUnify
