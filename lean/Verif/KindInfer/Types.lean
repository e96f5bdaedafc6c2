import Verif.KindInfer.Logic

/-! # What inference demands of types, constraints and declarations -/
namespace Verif.KindInfer
open Verif Verif.KindUnify Verif.Unify Verif.Unify.Cell

variable {ext : Id → Option SrcKind} {U : Id → Prop}

theorem arrow_inj {ks : List AKind} {k k' : AKind} (h : arrow ks k = arrow ks k') : k = k' := by
  unfold arrow at h
  split at h
  · exact h
  · cases h; rfl

mutual
/-- A type has at most one kind. -/
theorem HasKind.unique {K : Id → AKind} : ∀ (t : Ty) {k k' : AKind}, HasKind K t k → HasKind K t k' → k = k'
  | .con c, _, _, .con _, .con _ => rfl
  | .gen p, _, _, .gen _, .gen _ => rfl
  | .app t ts, _, _, .app h1 h2, .app h3 h4 => by
    have e2 := HasKinds.unique ts h2 h4
    subst e2
    exact arrow_inj (HasKind.unique t h1 h3)
theorem HasKinds.unique {K : Id → AKind} : ∀ (ts : List Ty) {ks ks' : List AKind}, HasKinds K ts ks → HasKinds K ts ks' → ks = ks'
  | [], _, _, .nil, .nil => rfl
  | t :: ts, _, _, .cons h1 h2, .cons h3 h4 => by rw [HasKind.unique t h1 h3, HasKinds.unique ts h2 h4]
end

/-- Applying a type constructor of kind `c` to arguments of kinds `args`. -/
def appTail (c : Kind) (args : List Kind) : M Kind := do
  let ret ← newVarM
  let fn ← newFunM args ret
  unifyM c fn
  pure ret

theorem appTail_does {s : St} (hs : Valid ext s) {c : Kind} (hc : Good s.pool c ∧ c.Proper) {args : List Kind} (ha : ∀ k ∈ args, Good s.pool k ∧ k.Proper)
    {D : (Id → AKind) → Prop} (hD : ∀ (σ : Assign) K, Sol s.pool σ → Agree s σ K → (D K ↔ ∃ k, c.sem σ = arrow (args.map (Kind.sem σ)) k)) :
    Does ext U (appTail c args) s D (fun _ => False) (fun k s' => (Good s'.pool k ∧ k.Proper) ∧
      ∀ σ : Assign, Sol s'.pool σ → c.sem σ = arrow (args.map (Kind.sem σ)) (k.sem σ)) := by
  obtain ⟨h1, h2, h3⟩ := newVar_spec hs.inv
  have hs1 := hs.grown h1
  have hgr : Good (newVar s.pool).2 (newVar s.pool).1 := by
    rw [h3]; intro j hj; simp [h2, refs, asVar] at hj; simp [hj]
  obtain ⟨g1, g2, g3, g4⟩ := newFun_spec hs1.inv (args := args) (ret := (newVar s.pool).1) (fun k hk => h1.good (ha k hk).1) (fun k hk => (ha k hk).2)
    hgr trivial
  have hs2 : Valid ext { s with pool := (newFun args (newVar s.pool).1 (newVar s.pool).2).2 } := hs1.grown g1
  obtain ⟨res, p', n0, u1, u2⟩ := unify_works hs2 (a := c) (b := (newFun args (newVar s.pool).1 (newVar s.pool).2).1)
    ⟨g1.good (h1.good hc.1), hc.2⟩ ⟨g2, g3⟩
  have hsem : ∀ σ : Assign, Sol (newFun args (newVar s.pool).1 (newVar s.pool).2).2 σ →
      (newFun args (newVar s.pool).1 (newVar s.pool).2).1.sem σ = arrow (args.map (Kind.sem σ)) ((newVar s.pool).1.sem σ) := fun σ hσ => by
    rw [← fun_arrow]; exact g4 σ hσ
  -- a solution with any kind for the result
  have hext : ∀ (σ : Assign) (k : AKind), Sol s.pool σ → c.sem σ = arrow (args.map (Kind.sem σ)) k →
      ∃ σ' : Assign, Sol (newFun args (newVar s.pool).1 (newVar s.pool).2).2 σ' ∧ (∀ i, i < s.pool.length → σ' i = σ i) ∧
        c.sem σ' = (newFun args (newVar s.pool).1 (newVar s.pool).2).1.sem σ' := by
    intro σ k hσ hk
    obtain ⟨r, hw⟩ := hs.inv.wf
    obtain ⟨σ1, e1, e2, e3⟩ := append_root_extend (T := AKind) hw (k := Kind.var s.pool.length) rfl k hσ
    obtain ⟨σ2, e4, e5⟩ := g1.extend σ1 e1
    have hlow : ∀ i, i < s.pool.length → σ2 i = σ i := fun i hi => by
      rw [e5 i (by have := h1.le; exact Nat.lt_of_lt_of_le hi this), e2 i hi]
    refine ⟨σ2, e4, hlow, ?_⟩
    rw [hsem σ2 e4]
    have hc' : c.sem σ2 = c.sem σ := sem_agree (T := AKind) hc.1 hlow
    have ha' : args.map (Kind.sem σ2) = args.map (Kind.sem σ) := List.map_congr_left (fun k hk => sem_agree (T := AKind) (ha k hk).1 hlow)
    rw [hc', ha', hk]
    congr 1
    show _ = σ2 s.pool.length
    rw [e5 s.pool.length (by show _ < (newVar s.pool).2.length; rw [h3]; simp), e3]
  have hrun : ∀ n, n0 ≤ n → KindInfer.appTail c args n s = match res with
      | .ok _ => some (.ok (newVar s.pool).1, { s with pool := p' })
      | .error e => some (.error (.cannotUnify e), { s with pool := p' }) := by
    intro n hn
    have := u1 n hn
    simp only [KindInfer.appTail, Bind.bind, newVarM, newFunM, unifyM, Pure.pure, this]
    cases res <;> rfl
  cases res with
  | error e =>
    refine ⟨n0, .error (.cannotUnify e), _, hrun, fun _ _ h => h, fun σ K hσ hag _ _ hd => ?_⟩
    obtain ⟨k, hk⟩ := (hD σ K hσ hag).1 hd
    obtain ⟨σ', e1, -, e3⟩ := hext σ k hσ hk
    exact u2.err e rfl σ' e1 e3
  | ok u =>
    refine ⟨n0, .ok (newVar s.pool).1, _, hrun, ⟨hs2.unified u2, ?_, fun _ _ h => h, fun _ _ h => h, fun σ hσ => h1.sol (g1.sol (u2.sub σ hσ)),
      fun σ K hσ hag => ?_, fun σ K hσ hag _ _ hd => ?_, fun _ h => h.elim⟩, ⟨?_, trivial⟩, fun σ hσ => ?_⟩
    · show s.pool.length ≤ p'.length
      rw [u2.len]
      exact Nat.le_trans h1.le g1.le
    · obtain ⟨e1, e2⟩ := (u2.ok rfl σ).1 hσ
      exact (hD σ K (h1.sol (g1.sol e1)) hag).2 ⟨_, by rw [← hsem σ e1]; exact e2⟩
    · obtain ⟨k, hk⟩ := (hD σ K hσ hag).1 hd
      obtain ⟨σ', e1, e2, e3⟩ := hext σ k hσ hk
      exact ⟨σ', (u2.ok rfl σ').2 ⟨e1, e3⟩, agree_extend hs hag e2, e2⟩
    · exact u2.good (g1.good hgr)
    · obtain ⟨e1, e2⟩ := (u2.ok rfl σ).1 hσ
      rw [← hsem σ e1]; exact e2

/-- A handle for the kind of a type. -/
def KindOfTy (t : Ty) (k : Kind) (s : St) : Prop :=
  (Good s.pool k ∧ k.Proper) ∧ ∀ (σ : Assign) K, Sol s.pool σ → Agree s σ K → HasKind K t (k.sem σ)

def KindsOfTys (ts : List Ty) (ks : List Kind) (s : St) : Prop :=
  (∀ k ∈ ks, Good s.pool k ∧ k.Proper) ∧ ∀ (σ : Assign) K, Sol s.pool σ → Agree s σ K → HasKinds K ts (ks.map (Kind.sem σ))

theorem KindOfTy.later {t : Ty} {k : Kind} {s s' : St} {D R} (h : KindOfTy t k s) (hr : Res ext U s D R s') : KindOfTy t k s' :=
  ⟨⟨hr.good h.1.1, h.1.2⟩, fun σ K hσ ha => h.2 σ K (hr.sol σ hσ) (hr.agree ha)⟩

mutual
theorem inferTy_does : ∀ (t : Ty) (s : St), Valid ext s →
    Does ext U (inferTy ext t) s (fun K => ∃ k, HasKind K t k) (fun _ => False) (KindOfTy t)
  | .con c, s, hs => by
    unfold inferTy
    refine (Does.kindOf hs c).congr (fun K => ⟨fun _ => ⟨_, .con c⟩, fun _ => trivial⟩) (fun _ h => h) (fun k s' hr hk => ⟨hr.valid.good c k hk, fun σ K _ ha => ?_⟩)
    rw [ha c k hk]; exact .con c
  | .gen p, s, hs => by
    unfold inferTy
    refine (Does.kindOf hs p).congr (fun K => ⟨fun _ => ⟨_, .gen p⟩, fun _ => trivial⟩) (fun _ h => h) (fun k s' hr hk => ⟨hr.valid.good p k hk, fun σ K _ ha => ?_⟩)
    rw [ha p k hk]; exact .gen p
  | .app t ts, s, hs => by
    unfold inferTy
    refine ((inferTy_does t s hs).bind (R2 := fun _ => False) (W := KindOfTy (.app t ts))
      (D2 := fun K => (∃ ks, HasKinds K ts ks) ∧ ∃ k, HasKind K (.app t ts) k) (fun c s1 hr hc => ?_)).congr
      (fun K => ⟨fun h => h.2.2, ?_⟩) (by simp) (fun _ _ _ h => h)
    · refine ((inferTys_does ts s1 hr.valid).bind (R2 := fun _ => False) (W := KindOfTy (.app t ts)) (D2 := fun K => ∃ k, HasKind K (.app t ts) k)
        (fun args s2 hr2 ha => ?_)).congr (fun K => Iff.rfl) (by simp) (fun _ _ _ h => h)
      have hc2 := hc.later hr2
      refine (appTail_does hr2.valid hc2.1 ha.1 (fun σ K hσ hag => ?_)).congr (fun K => Iff.rfl) (fun _ h => h) (fun k s' hr3 hk => ⟨hk.1, fun σ K hσ hag => ?_⟩)
      · constructor
        · rintro ⟨k, hk⟩
          cases hk with
          | app h1 h2 =>
            rw [HasKinds.unique ts (ha.2 σ K hσ hag) h2]
            exact ⟨k, HasKind.unique t (hc2.2 σ K hσ hag) h1⟩
        · rintro ⟨k, hk⟩
          exact ⟨k, .app (by rw [← hk]; exact hc2.2 σ K hσ hag) (ha.2 σ K hσ hag)⟩
      · refine .app ?_ (ha.2 σ K (hr3.sol σ hσ) (hr3.agree hag))
        rw [← hk.2 σ hσ]
        exact hc2.2 σ K (hr3.sol σ hσ) (hr3.agree hag)
    · rintro ⟨k, hk⟩
      cases hk with
      | app h1 h2 => exact ⟨⟨_, h1⟩, ⟨_, h2⟩, _, .app h1 h2⟩
theorem inferTys_does : ∀ (ts : List Ty) (s : St), Valid ext s →
    Does ext U (inferTys ext ts) s (fun K => ∃ ks, HasKinds K ts ks) (fun _ => False) (KindsOfTys ts)
  | [], s, hs => by
    unfold inferTys
    exact (Does.pure (a := ([] : List Kind)) hs (V := KindsOfTys []) ⟨by simp, fun _ _ _ _ => .nil⟩).congr
      (fun K => ⟨fun _ => ⟨_, .nil⟩, fun _ => trivial⟩) (fun _ h => h) (fun _ _ _ h => h)
  | t :: ts, s, hs => by
    unfold inferTys
    refine ((inferTy_does t s hs).bind (R2 := fun _ => False) (W := KindsOfTys (t :: ts)) (D2 := fun K => ∃ ks, HasKinds K ts ks) (fun k s1 hr hk => ?_)).congr
      (fun K => ⟨?_, ?_⟩) (by simp) (fun _ _ _ h => h)
    · refine ((inferTys_does ts s1 hr.valid).bind (R2 := fun _ => False) (W := KindsOfTys (t :: ts)) (D2 := fun _ => True) (fun ks s2 hr2 hks =>
        Does.pure (a := k :: ks) hr2.valid (V := KindsOfTys (t :: ts)) ⟨?_, fun σ K hσ ha => .cons ((hk.later hr2).2 σ K hσ ha) (hks.2 σ K hσ ha)⟩)).congr (by simp) (by simp) (fun _ _ _ h => h)
      intro k' hk'
      rcases List.mem_cons.1 hk' with rfl | hk'
      · exact (hk.later hr2).1
      · exact hks.1 k' hk'
    · rintro ⟨⟨k, h1⟩, ks, h2⟩
      exact ⟨_, .cons h1 h2⟩
    · rintro ⟨ks, h⟩
      cases h with
      | cons h1 h2 => exact ⟨⟨_, h1⟩, _, h2⟩
end

theorem const_good {s : St} {k : Kind} (h : constant k = true) : Good s.pool k ∧ k.Proper := by
  cases k <;> simp_all [constant, Good, refs, asVar, children, Kind.Proper]

theorem inferType_works {Q : (Id → AKind) → Prop} (t : Ty) : Works ext U Q (inferType ext t) (fun K => IsType K t) (fun _ => False) := by
  intro s hs _
  refine ((inferTy_does t s hs).bind (R2 := fun _ => False) (D2 := fun K => IsType K t) (fun k s1 hr hk =>
    Does.unify hr.valid hk.1 (const_good rfl) (fun σ K hσ ha => ?_))).congr (fun K => ⟨fun h => h.2, fun h => ⟨⟨_, h⟩, h⟩⟩) (by simp) (fun _ _ _ h => h)
  have h1 := hk.2 σ K hσ ha
  constructor
  · intro h; rw [h] at h1; exact h1
  · intro h; exact HasKind.unique t h1 h

theorem inferCon_works {Q : (Id → AKind) → Prop} (c : Con) : Works ext U Q (inferCon ext c) (fun K => ConOk K c) (fun _ => False) := by
  intro s hs _
  unfold inferCon
  refine ((Does.kindOf hs c.cls).bind (R2 := fun _ => False) (D2 := fun K => (∃ ks, HasKinds K c.args ks) ∧ True ∧ ConOk K c) (W := fun _ _ => True)
    (fun con s1 hr1 hc => ?_)).congr (fun K => ⟨fun h => h.2.2.2, fun h => ⟨trivial, ?_, trivial, h⟩⟩) (by simp) (fun _ _ _ h => h)
  · refine ((inferTys_does c.args s1 hr1.valid).bind (R2 := fun _ => False) (D2 := fun K => True ∧ ConOk K c) (W := fun _ _ => True) (fun args s2 hr2 ha => ?_)).congr
      (fun K => Iff.rfl) (by simp) (fun _ _ _ h => h)
    refine ((Does.newFun hr2.valid ha.1 (const_good rfl)).bind (R2 := fun _ => False) (D2 := fun K => ConOk K c) (W := fun _ _ => True) (fun k s3 hr3 hk => ?_)).congr
      (fun K => Iff.rfl) (by simp) (fun _ _ _ h => h)
    have hc3 := hr3.kinds _ _ (hr2.kinds _ _ hc)
    refine Does.unify hr3.valid hk.1 (hr3.valid.good _ _ hc3) (fun σ K hσ hag => ?_)
    rw [hag _ _ hc3, hk.2 σ hσ]
    have h1 := ha.2 σ K (hr3.sol σ hσ) (hr3.agree hag)
    constructor
    · intro h; exact ⟨_, h1, h.symm⟩
    · rintro ⟨ks, h2, h3⟩
      rw [HasKinds.unique c.args h1 h2, h3]; rfl
  · obtain ⟨ks, h1, -⟩ := h
    exact ⟨ks, h1⟩

theorem inferScheme_works {Q : (Id → AKind) → Prop} (s : Scheme) : Works ext U Q (inferScheme ext s) (fun K => SchemeOk K s) (fun _ => False) :=
  ((Works.each s.cons (fun c _ => inferCon_works c)).seq (inferType_works s.body)).congr (fun _ => Iff.rfl) (by simp)

/-! ## Declarations -/

def AnnEq (K : Id → AKind) (p : TParam) : Prop := ∀ a, p.ann = some a → K p.id = written a.1

theorem setupParam_does (p : TParam) (s : St) (hs : Valid ext s) :
    Does ext U (setupParam ext p) s (fun K => AnnEq K p) (fun _ => False) (fun k s' => s'.kinds p.id = some k) := by
  unfold setupParam
  refine ((Does.kindOf hs p.id).bind (R2 := fun _ => False) (D2 := fun K => AnnEq K p) (W := fun k s' => s'.kinds p.id = some k) (fun k s1 hr1 hk => ?_)).congr
    (by simp) (by simp) (fun _ _ _ h => h)
  cases hp : p.ann with
  | none => exact (Does.pure hr1.valid (V := fun (k : Kind) s' => s'.kinds p.id = some k) hk).congr (fun K => ⟨fun _ => (by intro a ha; rw [hp] at ha; cases ha), fun _ => trivial⟩) (fun _ h => h) (fun _ _ _ h => h)
  | some a =>
    refine ((Does.importKind hr1.valid a).bind (R2 := fun _ => False) (D2 := fun K => AnnEq K p ∧ True) (W := fun k s' => s'.kinds p.id = some k) (fun b s2 hr2 hb => ?_)).congr
      (by simp) (by simp) (fun _ _ _ h => h)
    have hk2 := hr2.kinds _ _ hk
    refine ((Does.unify hr2.valid (hr2.valid.good _ _ hk2) hb.1 (D := fun K => AnnEq K p) (fun σ K hσ hag => ?_)).bind (R2 := fun _ => False) (D2 := fun _ => True) (fun _ s3 hr3 _ =>
      Does.pure hr3.valid (hr3.kinds _ _ hk2))).congr (fun K => Iff.rfl) (by simp) (fun _ _ _ h => h)
    rw [hag _ _ hk2, hb.2 σ hσ]
    constructor
    · intro h a' ha'; rw [hp] at ha'; cases ha'; exact h
    · intro h; exact h a hp

theorem setupParams_does : ∀ (ps : List TParam) (s : St), Valid ext s →
    Does ext U (setupParams ext ps) s (fun K => ∀ p ∈ ps, AnnEq K p) (fun _ => False) (fun (ks : List Kind) s' => ps.map (fun p => s'.kinds p.id) = ks.map some)
  | [], s, hs => (Does.pure hs (V := fun (ks : List Kind) s' => ([] : List TParam).map (fun p => s'.kinds p.id) = ks.map some) rfl).congr (by simp) (fun _ h => h) (fun _ _ _ h => h)
  | p :: ps, s, hs => by
    unfold setupParams
    refine ((setupParam_does p s hs).bind (R2 := fun _ => False) (D2 := fun K => (∀ p ∈ ps, AnnEq K p) ∧ True) (fun k s1 hr1 hk =>
      ((setupParams_does ps s1 hr1.valid).bind (R2 := fun _ => False) (D2 := fun _ => True) (fun ks s2 hr2 hks => Does.pure hr2.valid
        (V := fun (ks : List Kind) s' => (p :: ps).map (fun p => s'.kinds p.id) = ks.map some) ?_)).congr (fun K => Iff.rfl)
        (by simp) (fun _ _ _ h => h))).congr (by simp) (by simp) (fun _ _ _ h => h)
    simp only [List.map_cons, hr2.kinds _ _ hk, hks]

theorem params_handles {ps : List TParam} {ks : List Kind} {s : St} (hs : Valid ext s) (h : ps.map (fun p => s.kinds p.id) = ks.map some) :
    (∀ k ∈ ks, Good s.pool k ∧ k.Proper) ∧ ∀ (σ : Assign) K, Agree s σ K → ks.map (Kind.sem σ) = ps.map (fun p => K p.id) := by
  induction ps generalizing ks with
  | nil => cases ks <;> simp_all
  | cons p ps ih =>
    cases ks with
    | nil => simp at h
    | cons k ks =>
      simp only [List.map_cons, List.cons.injEq] at h
      obtain ⟨h1, h2⟩ := ih h.2
      refine ⟨fun k' hk' => ?_, fun σ K ha => by simp [ha _ _ h.1, h2 σ K ha]⟩
      rcases List.mem_cons.1 hk' with rfl | hk'
      · exact hs.good _ _ h.1
      · exact h1 k' hk'

theorem genericKind_does (ps : List TParam) (cons : Nat) (ret : Kind) (hret : constant ret = true) (s : St) (hs : Valid ext s) :
    Does ext U (genericKind ext ps cons ret) s (fun K => ∀ p ∈ ps, AnnEq K p) (fun _ => False) (fun k s' => (Good s'.pool k ∧ k.Proper) ∧
      ∀ (σ : Assign) K, Sol s'.pool σ → Agree s' σ K → k.sem σ = arrow (ps.map (fun p => K p.id) ++ List.replicate cons .satisfaction) (ret.sem σ)) := by
  unfold genericKind
  split
  · next h =>
    simp only [Bool.and_eq_true, List.isEmpty_iff, beq_iff_eq] at h
    obtain ⟨rfl, rfl⟩ := h
    exact (Does.pure hs (V := fun (k : Kind) s' => (Good s'.pool k ∧ k.Proper) ∧ ∀ (σ : Assign) K, Sol s'.pool σ → Agree s' σ K →
      k.sem σ = arrow (([] : List TParam).map (fun p => K p.id) ++ List.replicate 0 .satisfaction) (ret.sem σ)) ⟨const_good hret, fun _ _ _ _ => by simp [arrow]⟩).congr
      (by simp) (fun _ h => h) (fun _ _ _ h => h)
  · refine ((setupParams_does ps s hs).bind (R2 := fun _ => False) (D2 := fun _ => True) (W := fun k s' => (Good s'.pool k ∧ k.Proper) ∧
      ∀ (σ : Assign) K, Sol s'.pool σ → Agree s' σ K → k.sem σ = arrow (ps.map (fun p => K p.id) ++ List.replicate cons .satisfaction) (ret.sem σ))
      (fun ks s1 hr1 hks => ?_)).congr (by simp) (by simp) (fun _ _ _ h => h)
    obtain ⟨h1, h2⟩ := params_handles hr1.valid hks
    have hgood : ∀ k ∈ ks ++ List.replicate cons .satisfaction, Good s1.pool k ∧ k.Proper := fun k hk => by
      rcases List.mem_append.1 hk with hk | hk
      · exact h1 k hk
      · rw [List.eq_of_mem_replicate hk]; exact const_good rfl
    refine Does.congr (Does.newFun hr1.valid hgood (const_good hret)) (fun _ => Iff.rfl) (fun _ h => h) (fun k s2 hr2 hk => ?_)
    refine ⟨hk.1, fun σ K hσ ha => ?_⟩
    · rw [hk.2 σ hσ, List.map_append, h2 σ K (hr2.agree ha), List.map_replicate]
      rfl

/-- The kind a declaration ends in. -/
def retOf : Kind → AKind
  | .constraint => .constraint
  | .satisfaction => .satisfaction
  | .value => .value
  | .mac => .mac
  | _ => .type

theorem retOf_sem {k : Kind} (h : constant k = true) (σ : Assign) : k.sem σ = retOf k := by
  cases k <;> simp_all [constant, Kind.sem, retOf]

theorem setupGeneric_works {Q : (Id → AKind) → Prop} (c : Id) (ps : List TParam) (cons : Nat) (ret : Kind) (hret : constant ret = true) :
    Works ext U Q (setupGeneric ext c ps cons ret) (fun K => GenericEq K c ps cons (retOf ret)) (fun _ => False) := by
  intro s hs _
  unfold setupGeneric
  refine ((Does.kindOf hs c).bind (R2 := fun _ => False) (D2 := fun K => (∀ p ∈ ps, AnnEq K p) ∧
    K c = arrow (ps.map (fun p => K p.id) ++ List.replicate cons .satisfaction) (retOf ret)) (W := fun _ _ => True) (fun a s1 hr1 ha => ?_)).congr
    (fun K => ⟨fun h => ⟨h.2.2, h.2.1⟩, fun h => ⟨trivial, h.2, h.1⟩⟩) (by simp) (fun _ _ _ h => h)
  refine ((genericKind_does ps cons ret hret s1 hr1.valid).bind (R2 := fun _ => False) (W := fun _ _ => True) (fun b s2 hr2 hb => ?_)).congr (fun K => Iff.rfl) (by simp) (fun _ _ _ h => h)
  have ha2 := hr2.kinds _ _ ha
  refine Does.unify hr2.valid (hr2.valid.good _ _ ha2) hb.1 (fun σ K hσ hag => ?_)
  rw [hag _ _ ha2, hb.2 σ K hσ hag, retOf_sem hret]

end Verif.KindInfer
