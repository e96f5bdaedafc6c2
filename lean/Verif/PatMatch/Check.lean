import Verif.PatMatch.Lemmas
/-!
# Exactness of `compute_usefulness` and `compute_missing`
-/
namespace Verif.PatMatch

open Spec

variable {Ty Lit : Type} {cmp : Tag → Tag → Ordering} [Std.TransCmp cmp] [Std.LawfulEqCmp cmp]

/-- If a row is not useful, every value it matches is matched by the matrix. -/
theorem useful_sound {S : Sig Ty Lit} (hS : SigOk S) (m : Matrix) (row : Row) {τs : List Ty} (hm : PTypedM S τs m) (hr : PTypedL S τs row)
    (hu : useful cmp m row = false) {vs : List (Value Lit)} (hv : HasTys S vs τs) (h : PMatchesL S τs row vs) :
    ∃ q ∈ m, PMatchesL S τs q vs := by
  fun_induction useful cmp m row generalizing τs vs with
  | case1 => cases hu
  | case2 m hne =>
    cases hr; cases h
    match m, hne with
    | q :: m, _ =>
      have := hm q (by simp)
      cases this
      exact ⟨[], by simp, .nil⟩
  | case3 m hne t ps row ih =>
    match τs, vs, hr, hv, h with
    | τ :: τs, v :: vs, .cons (.con ht hp) hrs, .cons hv hvs, .cons h hs =>
      obtain ⟨args, hb, ha, hmat⟩ := match_con hS ht hv h
      obtain ⟨q, hq, hmq⟩ := ih (specialize_typed hS ht hm) (hp.append hrs) hu (ha.append hvs) (hmat.append hs)
      exact specialize_back hS ht hm hb ha.length hq hmq
  | case4 m hne row hc ih =>
    match τs, vs, hr, hv, h with
    | τ :: τs, v :: vs, .cons _ hrs, .cons hv hvs, .cons h hs =>
      obtain ⟨t, htm, τt, args, ht, hb, ha⟩ := complete_built (cmp := cmp) hm hc hv
      have hu' : useful cmp (specialize m t) (List.replicate t.arity .wild ++ row) = false := by
        rw [List.any_eq_false] at hu
        have := hu ⟨t, htm⟩ (List.mem_attach _ _)
        simpa using this
      have har := ht.arity hS
      obtain ⟨q, hq, hmq⟩ := ih t htm (specialize_typed hS ht hm) (by rw [har]; exact (PTypedL.wild τt).append hrs) hu' (ha.append hvs)
        (by rw [har]; exact (PMatchesL.wild ha.length).append hs)
      exact specialize_back hS ht hm hb ha.length hq hmq
  | case5 m hne row hc ih =>
    match τs, vs, hr, hv, h with
    | τ :: τs, v :: vs, .cons _ hrs, .cons hv hvs, .cons h hs =>
      obtain ⟨q, hq, hmq⟩ := ih (defaults_typed hm) hrs hu hvs hs
      exact defaults_back hq hmq

/-- If a row is useful, it matches a value the matrix does not match. -/
theorem useful_complete {S : Sig Ty Lit} (hS : SigOk S) (hi : S.Inhabited) {cs : List Const} (hro : S.Roomy cs) (hd : S.Distinct cs)
    (m : Matrix) (row : Row) {τs : List Ty} (hm : PTypedM S τs m) (hr : PTypedL S τs row) (hcm : ∀ c ∈ constsM m, c ∈ cs)
    (hcr : ∀ c ∈ constsL row, c ∈ cs) (hu : useful cmp m row = true) :
    ∃ vs, HasTys S vs τs ∧ PMatchesL S τs row vs ∧ ∀ q ∈ m, ¬ PMatchesL S τs q vs := by
  fun_induction useful cmp m row generalizing τs with
  | case1 m row he =>
    obtain ⟨vs, h1, h2⟩ := exists_matchL hi row τs hr
    refine ⟨vs, h1, h2, ?_⟩
    simp only [List.isEmpty_iff] at he
    subst he
    exact fun _ h => by cases h
  | case2 => cases hu
  | case3 m hne t ps row ih =>
    match τs, hr with
    | τ :: τs, .cons (.con (τs := τt) ht hp) hrs =>
      have hct : ∀ c, t = .const c → c ∈ cs := by rintro c rfl; exact hcr c (by simp [constsL, Pat.consts])
      obtain ⟨w, hw, hmw, hno⟩ := ih (specialize_typed hS ht hm) (hp.append hrs) (fun c h => hcm c (constsM_specialize h)) (by
        intro c h
        refine hcr c ?_
        rw [constsL_append] at h
        cases t with
        | const c' => simp only [constsL, Pat.consts, List.mem_append, List.mem_cons] at h ⊢; rcases h with h | h <;> simp [h]
        | finite _ _ => simpa [constsL, Pat.consts] using h) hu
      obtain ⟨args, vs, rfl, ha, hvs⟩ := hw.split
      obtain ⟨v, hv, hb⟩ := ht.build ha
      have hsp := hmw.split hp.length ha.length
      refine ⟨v :: vs, .cons hv hvs, .cons ((match_built hS ht hp hb).2 hsp.1) hsp.2, ?_⟩
      intro q hq hmq
      obtain ⟨r, hr, hmr⟩ := specialize_forth hS hd ht hm hct hcm hb ha.length hq hmq
      exact hno r hr hmr
  | case4 m hne row hc ih =>
    match τs, hr with
    | τ :: τs, .cons _ hrs =>
      rw [List.any_eq_true] at hu
      obtain ⟨⟨t, htm⟩, _, hu⟩ := hu
      obtain ⟨τt, ht⟩ := headTag_typed (cmp := cmp) hm htm
      have har := ht.arity hS
      have hct : ∀ c, t = .const c → c ∈ cs := by
        rintro c rfl
        obtain ⟨ps, r, h⟩ := mem_headTags.1 htm
        exact hcm c (mem_constsM.2 ⟨_, h, by simp [constsL, Pat.consts]⟩)
      obtain ⟨w, hw, hmw, hno⟩ := ih t htm (specialize_typed hS ht hm) (by rw [har]; exact (PTypedL.wild τt).append hrs)
        (fun c h => hcm c (constsM_specialize h)) (by
          intro c h
          rw [constsL_append, constsL_wild] at h
          exact hcr c (by simpa [constsL, Pat.consts] using h)) hu
      obtain ⟨args, vs, rfl, ha, hvs⟩ := hw.split
      obtain ⟨v, hv, hb⟩ := ht.build ha
      have hsp := hmw.split (by simp [har]) ha.length
      refine ⟨v :: vs, .cons hv hvs, .cons .wild hsp.2, ?_⟩
      intro q hq hmq
      obtain ⟨r, hr, hmr⟩ := specialize_forth hS hd ht hm hct hcm hb ha.length hq hmq
      exact hno r hr hmr
  | case5 m hne row hc ih =>
    match τs, hr with
    | τ :: τs, .cons _ hrs =>
      obtain ⟨vs, hvs, hmv, hno⟩ := ih (defaults_typed hm) hrs (fun c h => hcm c (constsM_defaults h))
        (fun c h => hcr c (by simpa [constsL, Pat.consts] using h)) hu
      have hc : isComplete (headTags cmp m) = false := by simpa using hc
      obtain ⟨p, ps, hps⟩ := List.exists_cons_of_ne_nil (missingHeads_ne_nil hS hm hc)
      obtain ⟨_, v, hv, _, hesc⟩ := incomplete_escape hS hi hro hm hcm hc (p := p) (by rw [hps]; simp)
      refine ⟨v :: vs, .cons hv hvs, .cons .wild hmv, ?_⟩
      intro q hq hmq
      obtain ⟨r, hr, hmr⟩ := defaults_forth hesc hq hmq
      exact hno r hr hmr

/-- If nothing is missing, every value is matched. -/
theorem missing_sound {S : Sig Ty Lit} (hS : SigOk S) (m : Matrix) (n : Nat) {τs : List Ty} (hn : n = τs.length) (hm : PTypedM S τs m)
    (hu : missing cmp m n = []) {vs : List (Value Lit)} (hv : HasTys S vs τs) : ∃ q ∈ m, PMatchesL S τs q vs := by
  fun_induction missing cmp m n generalizing τs vs with
  | case1 => cases hu
  | case2 n m =>
    have := hm [] (by simp)
    cases this
    cases hv
    exact ⟨[], by simp, .nil⟩
  | case3 n p r m' hc ih =>
    have h1 := hm (p :: r) (by simp)
    rw [List.flatMap_eq_nil_iff] at hu
    have hu2 : ∀ t ∈ headTags cmp ((p :: r) :: m'), missing cmp (specialize ((p :: r) :: m') t) (n + t.arity - 1) = [] := by
      intro t htm
      have := hu ⟨t, htm⟩ (List.mem_attach _ _)
      simpa using this
    clear hu
    generalize (p :: r) :: m' = m at *
    match τs, vs, h1, hv with
    | τ :: τs, v :: vs, .cons _ _, .cons hv hvs =>
      obtain ⟨t, htm, τt, args, ht, hb, ha⟩ := complete_built (cmp := cmp) hm hc hv
      have hu' := hu2 t htm
      have har := ht.arity hS
      obtain ⟨q, hq, hmq⟩ := ih t htm (τs := τt ++ τs) (by simp [hn, har]; omega) (specialize_typed hS ht hm) hu' (ha.append hvs)
      exact specialize_back hS ht hm hb ha.length hq hmq
  | case4 p r m' hc =>
    have h1 := hm (p :: r) (by simp)
    generalize (p :: r) :: m' = m at *
    cases h1
    cases hn
  | case5 p r m' hc n ih =>
    have h1 := hm (p :: r) (by simp)
    generalize (p :: r) :: m' = m at *
    match τs, vs, h1, hv with
    | τ :: τs, v :: vs, .cons _ _, .cons hv hvs =>
      have hc : isComplete (headTags cmp m) = false := by simpa using hc
      have hne := missingHeads_ne_nil hS hm hc
      have hu' : missing cmp (defaults m) n = [] := by
        rw [List.flatMap_eq_nil_iff] at hu
        match hx : missing cmp (defaults m) n with
        | [] => rfl
        | x :: xs =>
          have := hu x (by rw [hx]; simp)
          rw [List.map_eq_nil_iff] at this
          exact absurd this hne
      obtain ⟨q, hq, hmq⟩ := ih (τs := τs) (by simpa using hn) (defaults_typed hm) hu' hvs
      exact defaults_back hq hmq

/-- Every missing row matches a value that is not matched. -/
theorem missing_complete {S : Sig Ty Lit} (hS : SigOk S) (hi : S.Inhabited) {cs : List Const} (hro : S.Roomy cs) (m : Matrix) (n : Nat) {τs : List Ty}
    (hn : n = τs.length) (hm : PTypedM S τs m) (hcm : ∀ c ∈ constsM m, c ∈ cs) {row : Row} (hrow : row ∈ missing cmp m n) :
    PTypedL S τs row ∧ ∃ vs, HasTys S vs τs ∧ PMatchesL S τs row vs ∧ ∀ q ∈ m, ¬ PMatchesL S τs q vs := by
  fun_induction missing cmp m n generalizing τs row with
  | case1 n =>
    simp only [List.mem_singleton] at hrow
    subst hrow; subst hn
    obtain ⟨vs, hv⟩ := exists_values hi τs
    exact ⟨PTypedL.wild τs, vs, hv, PMatchesL.wild hv.length, fun _ h => by cases h⟩
  | case2 => cases hrow
  | case3 n p r m' hc ih =>
    have h1 := hm (p :: r) (by simp)
    obtain ⟨⟨t, htm⟩, hatt, hrow2⟩ := List.mem_flatMap.1 hrow
    obtain ⟨row', hrow', hreq⟩ := List.mem_map.1 hrow2
    clear hrow hrow2 hatt
    subst hreq
    generalize (p :: r) :: m' = m at *
    match τs, h1 with
    | τ :: τs, .cons _ _ =>
      obtain ⟨τt, ht⟩ := headTag_typed (cmp := cmp) hm htm
      have har := ht.arity hS
      obtain ⟨hty, w, hw, hmw, hno⟩ := ih t htm (τs := τt ++ τs) (by simp [hn, har]; omega) (specialize_typed hS ht hm)
        (fun c h => hcm c (constsM_specialize h)) hrow'
      obtain ⟨args, vs, rfl, ha, hvs⟩ := hw.split
      obtain ⟨v, hv, hb⟩ := ht.build ha
      have hsplit := hty.split
      rw [Row.restore, har]
      have hmw' : PMatchesL S (τt ++ τs) (row'.take τt.length ++ row'.drop τt.length) (args ++ vs) := by
        rw [List.take_append_drop]; exact hmw
      have hsp := hmw'.split hsplit.1.length ha.length
      refine ⟨.cons (.con ht hsplit.1) hsplit.2, v :: vs, .cons hv hvs, .cons ((match_built hS ht hsplit.1 hb).2 hsp.1) hsp.2, ?_⟩
      intro q hq hmq
      have hfin : ∀ c, t ≠ .const c := by
        rintro c rfl
        have hsub := fun t h => headTag_typed (cmp := cmp) hm (t := t) h
        have hmem : Tag.const c ∈ headTags cmp m := htm
        have hc' : isComplete (headTags cmp m) = true := hc
        generalize headTags cmp m = ts at hmem hc' hsub
        cases ht with
        | const hs _ _ =>
          match ts with
          | [] => cases hc'
          | u :: ts =>
            obtain ⟨τu, hu⟩ := hsub u (by simp)
            cases hu with
            | const => simp [isComplete, Tag.siblingCount] at hc'
            | finite hs' _ => rw [hs] at hs'; cases hs'
      have hsame : ∀ u ps r', (.con u ps :: r') ∈ m → ∀ c, u ≠ .const c := by
        rintro u ps r' hin c rfl
        have hty' := hm _ hin
        cases hty' with
        | cons hcon _ =>
          cases hcon with
          | con hu _ =>
            cases hu with
            | const hs _ _ =>
              cases ht with
              | const => exact hfin _ rfl
              | finite hs' _ => rw [hs] at hs'; cases hs'
      -- no literals in this column, so distinctness of literals is not needed here
      have hforth : ∃ r ∈ specialize m t, PMatchesL S (τt ++ τs) r (args ++ vs) := by
        have hqt := hm q hq
        match q, hqt, hmq with
        | .wild :: q, .cons _ hs, .cons _ h =>
          refine ⟨_, List.mem_filterMap.2 ⟨_, hq, rfl⟩, ?_⟩
          rw [ht.arity hS]
          exact (PMatchesL.wild ha.length).append h
        | .con u ps :: q, .cons (.con hu hp) hs, .cons h1 h =>
          by_cases hut : u = t
          · subst hut
            have := hu.unique hS ht
            subst this
            refine ⟨_, List.mem_filterMap.2 ⟨_, hq, by rw [Row.specialize, if_pos rfl]⟩, ?_⟩
            exact ((match_built hS ht hp hb).1 h1).append h
          · exact absurd h1 (match_other hS (cs := []) (fun _ _ _ _ _ hc => by cases hc) hu hut (fun c h => absurd h (hfin c))
              (fun c h => absurd h (hsame u ps q hq c)) hb)
      obtain ⟨r, hr, hmr⟩ := hforth
      exact hno r hr hmr
  | case4 p r m' hc =>
    have h1 := hm (p :: r) (by simp)
    generalize (p :: r) :: m' = m at *
    cases h1
    cases hn
  | case5 p r m' hc n ih =>
    have h1 := hm (p :: r) (by simp)
    generalize (p :: r) :: m' = m at *
    match τs, h1 with
    | τ :: τs, .cons _ _ =>
      obtain ⟨tail, htail, hrow⟩ := List.mem_flatMap.1 hrow
      obtain ⟨head, hhead, rfl⟩ := List.mem_map.1 hrow
      have hc : isComplete (headTags cmp m) = false := by simpa using hc
      obtain ⟨hpt, v, hv, hvm, hesc⟩ := incomplete_escape hS hi hro hm hcm hc hhead
      obtain ⟨hty, vs, hvs, hmv, hno⟩ := ih (τs := τs) (by simpa using hn) (defaults_typed hm) (fun c h => hcm c (constsM_defaults h)) htail
      refine ⟨.cons hpt hty, v :: vs, .cons hv hvs, .cons hvm hmv, ?_⟩
      intro q hq hmq
      obtain ⟨r, hr, hmr⟩ := defaults_forth hesc hq hmq
      exact hno r hr hmr

/-- Without literals, no value a missing row matches is matched. -/
theorem missing_disjoint {S : Sig Ty Lit} (hS : SigOk S) (m : Matrix) (n : Nat) {τs : List Ty}
    (hn : n = τs.length) (hm : PTypedM S τs m) (hcm : constsM m = []) {row : Row} (hrow : row ∈ missing cmp m n)
    {vs : List (Value Lit)} (hv : HasTys S vs τs) (h : PMatchesL S τs row vs) : ∀ q ∈ m, ¬ PMatchesL S τs q vs := by
  fun_induction missing cmp m n generalizing τs row vs with
  | case1 n => exact fun _ h => by cases h
  | case2 => cases hrow
  | case3 n p r m' hc ih =>
    have h1 := hm (p :: r) (by simp)
    obtain ⟨⟨t, htm⟩, hatt, hrow2⟩ := List.mem_flatMap.1 hrow
    obtain ⟨row', hrow', hreq⟩ := List.mem_map.1 hrow2
    clear hrow hrow2 hatt
    subst hreq
    generalize (p :: r) :: m' = m at *
    match τs, vs, h1, hv, h with
    | τ :: τs, v :: vs, .cons _ _, .cons hv hvs, .cons h hs =>
      obtain ⟨τt, ht⟩ := headTag_typed (cmp := cmp) hm htm
      have har := ht.arity hS
      obtain ⟨args, hb, ha, hmat⟩ := match_con hS ht hv h
      have hfree : constsM (specialize m t) = [] := List.eq_nil_iff_forall_not_mem.2 fun c hc => by
        have := constsM_specialize hc
        rw [hcm] at this; cases this
      have hw := hmat.append hs
      rw [List.take_append_drop] at hw
      have hno := ih t htm (τs := τt ++ τs) (by simp [hn, har]; omega) (specialize_typed hS ht hm) hfree hrow' (ha.append hvs) hw
      intro q hq hmq
      have hct : ∀ c, t = .const c → c ∈ ([] : List Const) := by
        rintro c rfl
        obtain ⟨ps, r, h⟩ := mem_headTags.1 htm
        rw [← hcm]
        exact mem_constsM.2 ⟨_, h, by simp [constsL, Pat.consts]⟩
      obtain ⟨r, hr, hmr⟩ := specialize_forth hS (cs := []) (fun _ _ _ _ _ hc => by cases hc) ht hm hct (by rw [hcm]; exact fun _ h => h) hb ha.length hq hmq
      exact hno r hr hmr
  | case4 p r m' hc =>
    have h1 := hm (p :: r) (by simp)
    cases h1
    cases hn
  | case5 p r m' hc n ih =>
    have h1 := hm (p :: r) (by simp)
    generalize (p :: r) :: m' = m at *
    match τs, vs, h1, hv, h with
    | τ :: τs, v :: vs, .cons _ _, .cons hv hvs, h =>
      obtain ⟨tail, htail, hrow⟩ := List.mem_flatMap.1 hrow
      obtain ⟨head, hhead, rfl⟩ := List.mem_map.1 hrow
      cases h with
      | cons h hs =>
      have hfree : constsM (defaults m) = [] := List.eq_nil_iff_forall_not_mem.2 fun c hc => by
        have := constsM_defaults hc
        rw [hcm] at this; cases this
      have hno := ih (τs := τs) (by simpa using hn) (defaults_typed hm) hfree htail hvs hs
      intro q hq hmq
      have hesc : ∀ t ps r, (.con t ps :: r) ∈ m → ¬ PMatches S τ (.con t ps) v := by
        intro u ps r hin hmat
        have hut : u ∈ headTags cmp m := mem_headTags.2 ⟨ps, r, hin⟩
        have hcu : ∀ c, u = .const c → c ∈ ([] : List Const) := by
          rintro c rfl
          rw [← hcm]
          exact mem_constsM.2 ⟨_, hin, by simp [constsL, Pat.consts]⟩
        have hty := fun t h => headTag_typed (cmp := cmp) hm (t := t) h
        obtain ⟨τu, hu⟩ := hty u hut
        generalize hts : headTags cmp m = ts at hhead hut hty
        match ts, hut with
        | t :: ts, hut =>
          obtain ⟨τt, ht⟩ := hty t (by simp)
          cases hu with
          | const => exact absurd (hcu _ rfl) (by simp)
          | @finite cons c _ hs hc =>
            cases ht with
            | const hs' => rw [hs] at hs'; cases hs'
            | finite hs' hc' =>
              rw [hs] at hs'
              injection hs' with hs'
              subst hs'
              simp only [missingHeads, Tag.siblings] at hhead
              obtain ⟨s, hsf, rfl⟩ := List.mem_map.1 hhead
              obtain ⟨hsib, hnot⟩ := List.mem_filter.1 hsf
              obtain ⟨c', hcm', rfl⟩ := List.mem_map.1 hsib
              obtain ⟨⟨c', τc⟩, hc'', rfl⟩ := List.mem_map.1 hcm'
              have htt : TagTy S τ (.finite c' (cons.map (·.1))) τc := .finite hs hc''
              obtain ⟨args, hb, _, _⟩ := match_con hS htt hv h
              simp only [List.contains_eq_mem, Bool.not_eq_true', decide_eq_false_iff_not] at hnot
              exact match_other hS (cs := []) (fun _ _ _ _ _ hc => by cases hc) (.finite hs hc) (fun he => by rw [he] at hut; exact hnot hut)
                (fun _ h => by cases h) (fun _ h => by cases h) hb hmat
      obtain ⟨r, hr, hmr⟩ := defaults_forth hesc hq hmq
      exact hno r hr hmr

/-! ## The loop over the clauses -/

mutual
/-- Incompatible patterns match no value in common, if literals denote different values. -/
theorem incompatible_disjoint {S : Sig Ty Lit} (hS : SigOk S) {cs : List Const} (hd : S.Distinct cs) :
    (p q : Pat) → (τ : Ty) → PTyped S τ p → PTyped S τ q → (∀ c ∈ p.consts, c ∈ cs) → (∀ c ∈ q.consts, c ∈ cs) → p.incompatible q = true →
    (v : Value Lit) → HasTy S v τ → PMatches S τ p v → ¬ PMatches S τ q v
  | .wild, _, _, _, _, _, _, h, _, _, _ => by simp [Pat.incompatible] at h
  | .con _ _, .wild, _, _, _, _, _, h, _, _, _ => by simp [Pat.incompatible] at h
  | .con t ps, .con u qs, τ, .con ht hp, .con hu hq, hcp, hcq, h, v, hv, hm => by
    intro hm'
    obtain ⟨args, hb, ha, hma⟩ := match_con hS ht hv hm
    by_cases htu : u = t
    · subst htu
      have := hu.unique hS ht
      subst this
      have hmb := (match_built hS ht hq hb).1 hm'
      simp only [Pat.incompatible, bne_self_eq_false, Bool.false_or] at h
      refine incompatibleL_disjoint hS hd ps qs _ hp hq (fun c hc => hcp c ?_) (fun c hc => hcq c ?_) h args ha hma hmb
      · cases u <;> simp [Pat.consts, hc]
      · cases u <;> simp [Pat.consts, hc]
    · refine match_other hS hd hu htu ?_ ?_ hb hm'
      · rintro c rfl; exact hcp c (by simp [Pat.consts])
      · rintro c rfl; exact hcq c (by simp [Pat.consts])
theorem incompatibleL_disjoint {S : Sig Ty Lit} (hS : SigOk S) {cs : List Const} (hd : S.Distinct cs) :
    (p q : List Pat) → (τs : List Ty) → PTypedL S τs p → PTypedL S τs q → (∀ c ∈ constsL p, c ∈ cs) → (∀ c ∈ constsL q, c ∈ cs) →
    incompatibleL p q = true → (vs : List (Value Lit)) → HasTys S vs τs → PMatchesL S τs p vs → ¬ PMatchesL S τs q vs
  | [], _, _, _, _, _, _, h, _, _, _ => by simp [incompatibleL] at h
  | _ :: _, [], _, _, _, _, _, h, _, _, _ => by simp [incompatibleL] at h
  | p :: ps, q :: qs, τ :: τs, .cons hp hps, .cons hq hqs, hcp, hcq, h, v :: vs, .cons hv hvs, .cons hm hms => by
    intro hm'
    cases hm' with
    | cons hm1 hm2 =>
    simp only [incompatibleL, Bool.or_eq_true] at h
    rcases h with h | h
    · exact incompatible_disjoint hS hd p q τ hp hq (fun c hc => hcp c (by simp [constsL, hc])) (fun c hc => hcq c (by simp [constsL, hc])) h v hv hm hm1
    · exact incompatibleL_disjoint hS hd ps qs τs hps hqs (fun c hc => hcp c (by simp [constsL, hc])) (fun c hc => hcq c (by simp [constsL, hc])) h vs hvs hms hm2
end

/-- The matrix kept by `check` matches the same values as the clauses seen. -/
structure Covers (S : Sig Ty Lit) (τs : List Ty) (m : Matrix) (rows : List Row) : Prop where
  sub : ∀ q ∈ m, q ∈ rows
  cover : ∀ vs, HasTys S vs τs → ∀ r ∈ rows, PMatchesL S τs r vs → ∃ q ∈ m, PMatchesL S τs q vs

theorem uselessCheck_ok {S : Sig Ty Lit} (hS : SigOk S) {τs : List Ty} {m m' : Matrix} {rows : List Row} {row : Row}
    (ht : PTypedM S τs rows) (hr : PTypedL S τs row) (hc : Covers S τs m rows) (h : uselessCheck cmp m row = .ok m') :
    Covers S τs m' (rows ++ [row]) := by
  simp only [uselessCheck] at h
  split at h
  · simp only [Except.ok.injEq] at h
    subst h
    constructor
    · intro q hq
      rcases List.mem_append.1 hq with hq | hq
      · exact List.mem_append.2 (.inl (hc.sub q (List.mem_filter.1 hq).1))
      · exact List.mem_append.2 (.inr hq)
    · intro vs hv r hrin hmr
      have hrow : PMatchesL S τs row vs → ∃ q ∈ m.filter (fun r => useful cmp [row] r) ++ [row], PMatchesL S τs q vs :=
        fun h => ⟨row, by simp, h⟩
      rcases List.mem_append.1 hrin with hrin | hrin
      · obtain ⟨q, hq, hmq⟩ := hc.cover vs hv r hrin hmr
        by_cases hu : useful cmp [row] q = true
        · exact ⟨q, List.mem_append.2 (.inl (List.mem_filter.2 ⟨hq, hu⟩)), hmq⟩
        · obtain ⟨x, hx, hmx⟩ := useful_sound (cmp := cmp) hS [row] q (τs := τs) (fun r h => by simp only [List.mem_singleton] at h; subst h; exact hr)
            (ht q (hc.sub q hq)) (by simpa using hu) hv hmq
          simp only [List.mem_singleton] at hx
          subst hx
          exact hrow hmx
      · simp only [List.mem_singleton] at hrin
        subst hrin
        exact hrow hmr
  · cases h

/-- A clause found useless matches nothing new. -/
theorem uselessCheck_error {S : Sig Ty Lit} (hS : SigOk S) {τs : List Ty} {m : Matrix} {rows : List Row} {row r : Row}
    (ht : PTypedM S τs rows) (hr : PTypedL S τs row) (hc : Covers S τs m rows) (h : uselessCheck cmp m row = .error r) :
    r = row ∧ ∀ vs, HasTys S vs τs → PMatchesL S τs row vs → ∃ q ∈ rows, PMatchesL S τs q vs := by
  simp only [uselessCheck] at h
  split at h
  · cases h
  · next hu =>
    simp only [Except.error.injEq] at h
    refine ⟨h.symm, ?_⟩
    intro vs hv hm
    obtain ⟨q, hq, hmq⟩ := useful_sound (cmp := cmp) hS _ row (fun r h => ht r (hc.sub r (List.mem_filter.1 h).1)) hr (by simpa using hu) hv hm
    exact ⟨q, hc.sub q (List.mem_filter.1 hq).1, hmq⟩

theorem uselessCheck_useful {S : Sig Ty Lit} (hS : SigOk S) (hi : S.Inhabited) {cs : List Const} (hro : S.Roomy cs) (hd : S.Distinct cs)
    {τs : List Ty} {m m' : Matrix} {rows : List Row} {row : Row} (ht : PTypedM S τs rows) (hr : PTypedL S τs row) (hc : Covers S τs m rows)
    (hcm : ∀ c ∈ constsM rows, c ∈ cs) (hcr : ∀ c ∈ constsL row, c ∈ cs) (h : uselessCheck cmp m row = .ok m') :
    ∃ vs, HasTys S vs τs ∧ PMatchesL S τs row vs ∧ ∀ q ∈ rows, ¬ PMatchesL S τs q vs := by
  simp only [uselessCheck] at h
  split at h
  · next hu =>
    have hcq : ∀ q ∈ m, ∀ c ∈ constsL q, c ∈ cs := fun q hq c hc' => hcm c (mem_constsM.2 ⟨q, hc.sub q hq, hc'⟩)
    obtain ⟨vs, hv, hmv, hno⟩ := useful_complete (cmp := cmp) hS hi hro hd _ row (fun r h => ht r (hc.sub r (List.mem_filter.1 h).1)) hr (by
      intro c hc'
      obtain ⟨q, hq, hcq'⟩ := mem_constsM.1 hc'
      exact hcq q (List.mem_filter.1 hq).1 c hcq') hcr hu
    refine ⟨vs, hv, hmv, ?_⟩
    intro r hrin hmr
    obtain ⟨q, hq, hmq⟩ := hc.cover vs hv r hrin hmr
    by_cases hin : incompatibleL q row = true
    · exact incompatibleL_disjoint hS hd q row τs (ht q (hc.sub q hq)) hr (hcq q hq) hcr hin vs hv hmq hmv
    · exact hno q (List.mem_filter.2 ⟨hq, by simpa using hin⟩) hmq
  · cases h

/-- Some value is matched by the row but by none of the rows before. -/
def Fresh (S : Sig Ty Lit) (τs : List Ty) (pre : List Row) (row : Row) : Prop :=
  ∃ vs, HasTys S vs τs ∧ PMatchesL S τs row vs ∧ ∀ q ∈ pre, ¬ PMatchesL S τs q vs

theorem checkRows_spec {S : Sig Ty Lit} (hS : SigOk S) {τs : List Ty} {pre : List Row} {m : Matrix} (hc : Covers S τs m pre) (rows : List Row)
    (ht : PTypedM S τs (pre ++ rows)) :
    (∀ m', checkRows cmp m rows = .ok m' → Covers S τs m' (pre ++ rows)) ∧
    (∀ r, checkRows cmp m rows = .error r → ∃ a b, rows = a ++ r :: b ∧
      ∀ vs, HasTys S vs τs → PMatchesL S τs r vs → ∃ q ∈ pre ++ a, PMatchesL S τs q vs) := by
  induction rows generalizing pre m with
  | nil => exact ⟨fun m' h => by simp only [checkRows, Except.ok.injEq] at h; subst h; simpa using hc, fun r h => by cases h⟩
  | cons x rows ih =>
    simp only [checkRows]
    have hx : PTypedL S τs x := ht x (by simp)
    have hpre : PTypedM S τs pre := fun r h => ht r (by simp [h])
    cases hu : uselessCheck cmp m x with
    | error r =>
      refine ⟨fun m' h => (by cases h), fun r' h => ?_⟩
      simp only [Except.error.injEq] at h
      subst h
      obtain ⟨rfl, h⟩ := uselessCheck_error hS hpre hx hc hu
      exact ⟨[], rows, rfl, by simpa using h⟩
    | ok m1 =>
      have ih := ih (uselessCheck_ok hS hpre hx hc hu) (by simpa using ht)
      refine ⟨fun m' h => (by simpa using ih.1 m' h), fun r h => ?_⟩
      obtain ⟨a, b, rfl, h2⟩ := ih.2 r h
      exact ⟨x :: a, b, rfl, by simpa using h2⟩

theorem checkRows_fresh {S : Sig Ty Lit} (hS : SigOk S) (hi : S.Inhabited) {cs : List Const} (hro : S.Roomy cs) (hd : S.Distinct cs) {τs : List Ty}
    {pre : List Row} {m : Matrix} (hc : Covers S τs m pre) (rows : List Row) (ht : PTypedM S τs (pre ++ rows))
    (hcs : ∀ c ∈ constsM (pre ++ rows), c ∈ cs) :
    (∀ m', checkRows cmp m rows = .ok m' → ∀ a r b, rows = a ++ r :: b → Fresh S τs (pre ++ a) r) ∧
    (∀ r, checkRows cmp m rows = .error r → ∃ a b, rows = a ++ r :: b ∧ (∀ a' r' b', a = a' ++ r' :: b' → Fresh S τs (pre ++ a') r') ∧
      ∀ vs, HasTys S vs τs → PMatchesL S τs r vs → ∃ q ∈ pre ++ a, PMatchesL S τs q vs) := by
  induction rows generalizing pre m with
  | nil => exact ⟨fun m' h a r b hab => by simp at hab, fun r h => by cases h⟩
  | cons x rows ih =>
    simp only [checkRows]
    have hx : PTypedL S τs x := ht x (by simp)
    have hpre : PTypedM S τs pre := fun r h => ht r (by simp [h])
    have hcx : ∀ c ∈ constsL x, c ∈ cs := fun c h => hcs c (mem_constsM.2 ⟨x, by simp, h⟩)
    have hcp : ∀ c ∈ constsM pre, c ∈ cs := fun c h => by
      obtain ⟨r, hr, h⟩ := mem_constsM.1 h
      exact hcs c (mem_constsM.2 ⟨r, by simp [hr], h⟩)
    cases hu : uselessCheck cmp m x with
    | error r =>
      refine ⟨fun m' h => (by cases h), fun r' h => ?_⟩
      simp only [Except.error.injEq] at h
      subst h
      obtain ⟨rfl, h⟩ := uselessCheck_error hS hpre hx hc hu
      exact ⟨[], rows, rfl, fun a' r' b' h => by simp at h, by simpa using h⟩
    | ok m1 =>
      have hf : Fresh S τs pre x := uselessCheck_useful hS hi hro hd hpre hx hc hcp hcx hu
      have ih := ih (uselessCheck_ok hS hpre hx hc hu) (by simpa using ht) (by simpa using hcs)
      constructor
      · intro m' h a r b hab
        cases a with
        | nil =>
          obtain ⟨rfl, rfl⟩ := List.cons.inj hab
          simpa using hf
        | cons y a =>
          obtain ⟨rfl, rfl⟩ := List.cons.inj hab
          simpa using ih.1 m' h a r b rfl
      · intro r h
        obtain ⟨a, b, rfl, hfr, hcov⟩ := ih.2 r h
        refine ⟨x :: a, b, rfl, ?_, by simpa using hcov⟩
        intro a' r' b' hab
        cases a' with
        | nil =>
          obtain ⟨rfl, rfl⟩ := List.cons.inj hab
          simpa using hf
        | cons y a' =>
          obtain ⟨rfl, rfl⟩ := List.cons.inj hab
          simpa using hfr a' r' b' rfl

end Verif.PatMatch
