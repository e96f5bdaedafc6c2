import Verif.KindInfer.Types

/-! # Recording kinds -/
namespace Verif.KindInfer
open Verif Verif.KindUnify Verif.Unify Verif.Unify.Cell

variable {ext : Id → Option SrcKind} {U : Id → Prop}

/-! ## Kinds -/

mutual
theorem firstClass_iff : ∀ k : AKind, isFirstClass k = true ↔ FirstClass k
  | .func args ret => by simp [isFirstClass, FirstClass, firstClasses_iff args, firstClass_iff ret]
  | .type => by simp [isFirstClass, FirstClass]
  | .constraint => by simp [isFirstClass, FirstClass]
  | .satisfaction => by simp [isFirstClass, FirstClass]
  | .value => by simp [isFirstClass, FirstClass]
  | .mac => by simp [isFirstClass, FirstClass]
  | .error _ => by simp [isFirstClass, FirstClass]
theorem firstClasses_iff : ∀ ks : List AKind, areFirstClass ks = true ↔ FirstClasses ks
  | [] => by simp [areFirstClass, FirstClasses]
  | k :: ks => by simp [areFirstClass, FirstClasses, firstClass_iff k, firstClasses_iff ks]
end

mutual
theorem FirstClass.noError : ∀ k : AKind, FirstClass k → k.noError = true
  | .func args ret, h => by
    simp only [FirstClass] at h
    simp [AKind.noError, FirstClasses.noErrors args h.1, FirstClass.noError ret h.2]
  | .type, _ => rfl
  | .constraint, h => h.elim
  | .satisfaction, h => h.elim
  | .value, h => h.elim
  | .mac, h => h.elim
  | .error _, h => h.elim
theorem FirstClasses.noErrors : ∀ ks : List AKind, FirstClasses ks → AKind.noErrors ks = true
  | [], _ => rfl
  | k :: ks, h => by
    simp only [FirstClasses] at h
    simp [AKind.noErrors, FirstClass.noError k h.1, FirstClasses.noErrors ks h.2]
end

mutual
/-- If some instance of a kind is first class, the one with `*` for its unknowns is. -/
theorem FirstClass.default {ρ : Nat → AKind} : ∀ k : AKind, FirstClass (k.subst ρ) → FirstClass (k.subst (fun _ => .type))
  | .func args ret, h => by
    simp only [AKind.subst, FirstClass] at h ⊢
    exact ⟨FirstClasses.default args h.1, FirstClass.default ret h.2⟩
  | .type, _ => trivial
  | .constraint, h => h.elim
  | .satisfaction, h => h.elim
  | .value, h => h.elim
  | .mac, h => h.elim
  | .error _, _ => trivial
theorem FirstClasses.default {ρ : Nat → AKind} : ∀ ks : List AKind, FirstClasses (AKind.substs ρ ks) → FirstClasses (AKind.substs (fun _ => .type) ks)
  | [], _ => trivial
  | k :: ks, h => by
    simp only [AKind.substs, FirstClasses] at h ⊢
    exact ⟨FirstClass.default k h.1, FirstClasses.default ks h.2⟩
end

mutual
theorem subst_noError {ρ : Nat → AKind} : ∀ k : AKind, k.noError = true → k.subst ρ = k
  | .func args ret, h => by
    simp only [AKind.noError, Bool.and_eq_true] at h
    simp [AKind.subst, substs_noErrors args h.1, subst_noError ret h.2]
  | .type, _ => rfl
  | .constraint, _ => rfl
  | .satisfaction, _ => rfl
  | .value, _ => rfl
  | .mac, _ => rfl
  | .error _, h => by simp [AKind.noError] at h
theorem substs_noErrors {ρ : Nat → AKind} : ∀ ks : List AKind, AKind.noErrors ks = true → AKind.substs ρ ks = ks
  | [], _ => rfl
  | k :: ks, h => by
    simp only [AKind.noErrors, Bool.and_eq_true] at h
    simp [AKind.substs, subst_noError k h.1, substs_noErrors ks h.2]
end

theorem writtens_map (ks : List AKind) : writtens ks = ks.map written := by
  induction ks with
  | nil => rfl
  | cons k ks ih => simp [writtens, ih]

theorem written_sem {k : Kind} (hk : k.Proper) (σ : Assign) : written (k.sem σ) = k.sem (fun i => written (σ i)) := by
  cases k <;> simp [Kind.sem, written]
  rename_i lo hi ret
  have : writtens (List.map σ (vars lo hi)) ≠ [] := by
    simp only [Kind.Proper] at hk
    rw [writtens_map]
    simp only [ne_eq, List.map_eq_nil_iff]
    intro h
    have := congrArg List.length h
    simp [vars] at this
    omega
  simp [arrow, this]
  simp [writtens_map]

/-- The kinds the unifier exports have no functions without arguments. -/
theorem written_principal {p : Pool} (hi : Inv p) {σ : Assign} (hσ : Principal p σ) {k : Kind} (hk : Good p k ∧ k.Proper) : written (k.sem σ) = k.sem σ := by
  obtain ⟨r, hw⟩ := hi.wf
  rw [written_sem hk.2]
  refine sem_agree (T := AKind) hk.1 (fun i hlt => ?_)
  refine sol_unique (T := AKind) (σ := fun i => written (σ i)) (τ := σ) hw (fun i k h => ?_) hσ.1 (fun i h => ?_) i hlt
  · show written (σ i) = _
    rw [hσ.1 i k h]
    exact written_sem (hi.proper k (List.mem_of_getElem? h)) σ
  · show written (σ i) = σ i
    rw [hσ.2 i h]; rfl

theorem noErrors_iff (ks : List AKind) : AKind.noErrors ks = true ↔ ∀ k ∈ ks, k.noError = true := by
  induction ks with
  | nil => simp [AKind.noErrors]
  | cons k ks ih => simp [AKind.noErrors, ih]

theorem arrow_noError {ks : List AKind} {k : AKind} (h : ∀ a ∈ ks, a.noError = true) (hk : k.noError = true) : (arrow ks k).noError = true := by
  unfold arrow
  split
  · exact hk
  · simp [AKind.noError, (noErrors_iff ks).2 h, hk]

mutual
theorem written_noError : ∀ k : AKind, k.noError = true → (written k).noError = true
  | .func args ret, h => by
    simp only [AKind.noError, Bool.and_eq_true] at h
    exact arrow_noError ((noErrors_iff _).1 (writtens_noErrors args h.1)) (written_noError ret h.2)
  | .type, _ => rfl
  | .constraint, _ => rfl
  | .satisfaction, _ => rfl
  | .value, _ => rfl
  | .mac, _ => rfl
  | .error _, h => by simp [AKind.noError] at h
theorem writtens_noErrors : ∀ ks : List AKind, AKind.noErrors ks = true → AKind.noErrors (writtens ks) = true
  | [], _ => rfl
  | k :: ks, h => by
    simp only [AKind.noErrors, Bool.and_eq_true] at h
    simp [writtens, AKind.noErrors, written_noError k h.1, writtens_noErrors ks h.2]
end

/-! ## Recording -/

/-- The kinds of all constructs under a solution. -/
def under (s : St) (σ : Assign) : Id → AKind := fun c => match s.kinds c with
  | some k => k.sem σ
  | none => .type

theorem agree_under (s : St) (σ : Assign) : Agree s σ (under s σ) := fun c k hk => by simp [under, hk]

/-- `fix_kind_of` of a construct whose kind is known. -/
theorem fixKindOf_runs {s : St} (hs : Valid ext s) {c : Id} {k : Kind} (hk : s.kinds c = some k) {a : AKind} (ha : a.noError = true)
    (hv : ∀ σ : Assign, Sol s.pool σ → k.sem σ = a) (first : Bool) :
    written a = a ∧ ∃ p' n0, Compress s.pool p' ∧ ∀ n, n0 ≤ n → fixKindOf ext c first n s =
      if (first && !isFirstClass a) = true then some (.error (.unsupported a), { s with pool := p' })
      else some (.ok (), { s with pool := p', recorded := upd s.recorded c a }) := by
  obtain ⟨σ, hσ⟩ := exists_principal hs.inv.wf
  obtain ⟨r, hw⟩ := hs.inv.wf
  obtain ⟨R, hR⟩ := exists_low r k
  have hg := hs.good c k hk
  obtain ⟨p', h1, h2⟩ := exportKind_spec R k s.pool hR hw hg.1 hg.2 hs.inv.proper hσ
  rw [hv σ hσ.1] at h1
  refine ⟨?_, p', R + 1, h2, fun n hn => ?_⟩
  · rw [← hv σ hσ.1]; exact written_principal hs.inv hσ hg
  · simp only [fixKindOf, Bind.bind, kindOf, hk, exportM, h1 n hn, ha]
    split
    · contradiction
    · split
      · rfl
      · rfl

/-- The state after recording. -/
theorem Res.record {s : St} (hs : Valid ext s) {c : Id} {k : Kind} (hk : s.kinds c = some k) {a : AKind} (ha : a.noError = true) (hw : written a = a)
    {p' : Pool} (hi : Inv p') (hl : p'.length = s.pool.length) (hsub : ∀ σ : Assign, Sol p' σ → Sol s.pool σ) (hv : ∀ σ : Assign, Sol p' σ → k.sem σ = a)
    (hup : ∀ σ : Assign, Sol s.pool σ → k.sem σ = a → Sol p' σ)
    (hfree : U c ∨ ∀ σ : Assign, Sol s.pool σ → k.sem σ = a) {D : (Id → AKind) → Prop} (hD : ∀ K, K c = a → D K) :
    Res ext U s D (fun d => d = c) { s with pool := p', recorded := upd s.recorded c a } := by
  have hex : ∃ σ : Assign, Sol p' σ := by
    obtain ⟨σ, h⟩ := exists_principal hi.wf
    exact ⟨σ, h.1⟩
  have hold : ∀ a', s.recorded c = some a' → a' = a := by
    intro a' ha'
    obtain ⟨-, -, k', h1, h2⟩ := hs.tab c a' ha'
    rw [hk] at h1; cases h1
    obtain ⟨σ, hσ⟩ := hex
    rw [← h2 σ (hsub σ hσ), hv σ hσ]
  refine ⟨⟨hi, fun d k' h => ?_, fun d k' a' h h' σ hσ => hs.imp d k' a' h h' σ (hsub σ hσ), fun d a' h => ?_⟩, Nat.le_of_eq hl.symm, fun _ _ h => h, fun d a' h => ?_, hsub,
    fun σ K hσ hag => hD K ?_, fun σ K hσ hag _ hrec _ => ⟨σ, hup σ hσ ?_, hag, fun _ _ => Eq.refl _⟩, fun d hd => ⟨a, by simp [upd, hd]⟩⟩
  · have := hs.good d k' h
    refine ⟨fun j hj => ?_, this.2⟩
    have := this.1 j hj
    show j < p'.length
    omega
  · by_cases hd : d = c
    · subst hd
      simp [upd] at h
      subst h
      exact ⟨ha, hw, k, hk, hv⟩
    · simp [upd, hd] at h
      obtain ⟨h1, h2, k', h3, h4⟩ := hs.tab d a' h
      exact ⟨h1, h2, k', h3, fun σ hσ => h4 σ (hsub σ hσ)⟩
  · by_cases hd : d = c
    · subst hd
      simp [upd, hold a' h]
    · simp [upd, hd, h]
  · rw [← hag c k hk]; exact hv σ hσ
  · rcases hfree with h | h
    · rw [hag c k hk]
      exact hrec c a h (by simp [upd])
    · exact h σ hσ

/-- The kind of a construct that all solutions agree on. -/
theorem known_value {s : St} (hs : Valid ext s) {c : Id} {k : Kind} (hk : s.kinds c = some k) (h : Known s (fun K => (K c).noError = true)) :
    ∃ a : AKind, a.noError = true ∧ ∀ σ : Assign, Sol s.pool σ → k.sem σ = a := by
  obtain ⟨σ, hσ⟩ := exists_principal hs.inv.wf
  obtain ⟨r, hw⟩ := hs.inv.wf
  have h1 := h σ _ hσ.1 (agree_under s σ)
  simp only [under, hk] at h1
  refine ⟨_, h1, fun τ hτ => ?_⟩
  rw [hσ.instance hw hτ (hs.good c k hk).1, subst_noError _ h1]

theorem fixKindOf_works (c : Id) : Works ext U (fun K => (K c).noError = true) (fixKindOf ext c false) (fun _ => True) (fun d => d = c) := by
  intro s hs hq
  refine ((Does.kindOf hs c).bind (R2 := fun d => d = c) (D2 := fun _ => True) (W := fun _ _ => True) (fun k s1 h2 hk => ?_)).congr (by simp) (by simp) (fun _ _ _ h => h)
  obtain ⟨a, ha, hv⟩ := known_value h2.valid hk (h2.known hq)
  obtain ⟨hw, p', n1, hc, hrun⟩ := fixKindOf_runs h2.valid hk ha hv false
  obtain ⟨r, hwf⟩ := h2.valid.inv.wf
  refine ⟨n1, .ok (), _, fun n hn => ?_, Res.record h2.valid hk ha hw (h2.valid.inv.compress hc) hc.length (fun σ hσ => (hc.sol hwf σ).1 hσ)
      (fun σ hσ => hv σ ((hc.sol hwf σ).1 hσ)) (fun σ hσ _ => (hc.sol hwf σ).2 hσ) (.inr hv) (fun _ _ => trivial), trivial⟩
  have e2 := hrun n hn
  simp only [fixKindOf, Bind.bind, kindOf, hk] at e2
  simp only [Bind.bind]
  simpa using e2

theorem Valid.defaulted {s : St} (hs : Valid ext s) {c : AKind} {p' : Pool} (hd : Defaulted c s.pool p') : Valid ext { s with pool := p' } where
  inv := {
    wf := hd.wf
    base := fun i hi' => by
      have hb := hs.inv.base i hi'
      obtain ⟨k, hk⟩ : ∃ k, new[i]? = some k := ⟨new[i]'(by simpa [new] using hi'), List.getElem?_eq_getElem _⟩
      rw [hk] at hb ⊢
      refine hd.nodes i k ?_ hb
      have hm : k ∈ new := List.mem_of_getElem? hk
      simp only [new, List.mem_append, List.mem_cons, List.not_mem_nil, or_false, List.mem_replicate] at hm
      rcases hm with (rfl | rfl | rfl | rfl | rfl) | ⟨-, rfl⟩ <;> rfl
    proper := hd.proper hs.inv.proper }
  good := fun c k hk => ⟨fun j hj => by have := (hs.good c k hk).1 j hj; have := hd.len; show j < p'.length; omega, (hs.good c k hk).2⟩
  imp := fun c k a hk ha σ hσ => hs.imp c k a hk ha σ (hd.sub σ hσ)
  tab := fun c a ha => by
    obtain ⟨h1, h2, k, h3, h4⟩ := hs.tab c a ha
    exact ⟨h1, h2, k, h3, fun σ hσ => h4 σ (hd.sub σ hσ)⟩

theorem fixParam_works (p : TParam) (hU : p.ann = none → U p.id) :
    Works ext U (fun K => AnnEq K p) (fixParam ext p) (fun K => FirstClass (K p.id)) (fun d => d = p.id) := by
  intro s hs hq
  refine ((Does.kindOf hs p.id).bind (R2 := fun d => d = p.id) (D2 := fun K => FirstClass (K p.id)) (W := fun _ _ => True) (fun k s1 h1 hk => ?_)).congr
    (by simp) (by simp) (fun _ _ _ h => h)
  obtain ⟨r, hwf⟩ := h1.valid.inv.wf
  obtain ⟨R, hR⟩ := exists_low r k
  have hg := h1.valid.good p.id k hk
  obtain ⟨p2, n0, d1, d2, d3, d4⟩ := defaultVars_spec (d := .type) (by simp [Kind.Const, asVar, children]) .type (fun _ => rfl) (numRoots s1.pool) R r s1.pool k hwf (Nat.le_refl _) hR hg.1 hg.2
  obtain ⟨σ0, hσ0⟩ := exists_principal h1.valid.inv.wf
  have hs2 : Valid ext { s1 with pool := p2 } := h1.valid.defaulted d2
  have hv : ∀ τ : Assign, Sol p2 τ → k.sem τ = (k.sem σ0).subst (fun _ => .type) := fun τ hτ => d3 τ hτ σ0 hσ0
  have hp : ∀ τ : Assign, Sol s1.pool τ → k.sem τ = (k.sem σ0).subst (fun _ => .type) → Sol p2 τ := fun τ hτ he => d4 τ hτ (fun σ hσ => by
    rw [he]
    obtain ⟨τ0, hτ0⟩ := exists_principal d2.wf
    rw [← d3 τ0 hτ0.1 σ0 hσ0, ← d3 τ0 hτ0.1 σ hσ])
  generalize hgen : (k.sem σ0).subst (fun _ => .type) = a at hv hp
  have ha : a.noError = true := by rw [← hgen]; exact noError_default _
  obtain ⟨hw, p', n1, hc, hrun⟩ := fixKindOf_runs (s := { s1 with pool := p2 }) hs2 hk ha hv true
  obtain ⟨r2, hwf2⟩ := d2.wf
  have hstep : ∀ n, max n0 n1 ≤ n → (defaultM k >>= fun _ => fixKindOf ext p.id true) n s1 = fixKindOf ext p.id true n { s1 with pool := p2 } := fun n hn => by
    simp only [Bind.bind, defaultM, d1 n (by omega)]
  have hfree : U p.id ∨ ∀ σ : Assign, Sol s1.pool σ → k.sem σ = a := by
    cases hb : p.ann with
    | none => exact .inl (hU hb)
    | some b =>
      have hall : ∀ σ : Assign, Sol s1.pool σ → k.sem σ = written b.1 := fun σ hσ => by
        have := h1.known hq σ _ hσ (agree_under s1 σ) b hb
        simpa [under, hk] using this
      refine .inr (fun σ hσ => ?_)
      rw [← hgen, hall σ hσ, hall σ0 hσ0.1, subst_noError _ (written_noError _ b.2)]
  by_cases hf : isFirstClass a = true
  · refine ⟨max n0 n1, .ok (), _, fun n hn => by rw [hstep n hn, hrun n (by omega), if_neg (by simp [hf])], Res.record h1.valid hk ha hw (hs2.inv.compress hc)
      (by have := hc.length; have := d2.len; simp only at *; omega) (fun σ hσ => d2.sub σ ((hc.sol hwf2 σ).1 hσ)) (fun σ hσ => hv σ ((hc.sol hwf2 σ).1 hσ))
      (fun σ hσ he => (hc.sol hwf2 σ).2 (hp σ hσ he)) hfree (fun K he => by rw [he]; exact (firstClass_iff a).1 hf), trivial⟩
  · refine ⟨max n0 n1, .error (.unsupported a), { s1 with pool := p' }, fun n hn => by rw [hstep n hn, hrun n (by omega), if_pos (by simp [hf])], fun _ _ h => h, fun σ K hσ hag _ _ hd => hf ?_⟩
    rw [firstClass_iff, ← hgen]
    rw [← hag p.id k hk, hσ0.instance hwf hσ hg.1] at hd
    exact FirstClass.default _ hd

/-- What `fix_generic` demands and records, once the declaration is set up. -/
theorem fixGeneric_works (c : Id) (ps : List TParam) (cons : Nat) (ret : AKind) (hret : ret.noError = true)
    (hU : ∀ p ∈ ps, p.ann = none → U p.id) : Works ext U (fun K => GenericEq K c ps cons ret) (fixGeneric ext c ps) (fun K => ∀ p ∈ ps, FirstClass (K p.id)) (fun d => d = c ∨ ∃ p ∈ ps, d = p.id) := by
  refine ((Works.each ps (fun p hp => (fixParam_works p (hU p hp)).weaken (fun K h a ha => h.2 p hp a ha))).seq ((fixKindOf_works c).weaken ?_)).congr (by simp) (fun d h => h.symm)
  rintro K ⟨⟨h1, -⟩, h2⟩
  rw [h1]
  refine arrow_noError (fun a ha => ?_) hret
  rcases List.mem_append.1 ha with ha | ha
  · obtain ⟨p, hp, rfl⟩ := List.mem_map.1 ha
    exact FirstClass.noError _ (h2 p hp)
  · rw [List.eq_of_mem_replicate ha]; rfl

end Verif.KindInfer
