import Verif.TypeUnify.Unify

/-! # Histories of type contexts: building, exporting, and what the pool stands for -/
namespace Verif.TypeUnify
open Verif Verif.Unify Verif.Unify.Cell

variable {Kd : Type} {env : Env Kd} {κ κ' κ'' : Nat → Kd}

/-! ## Growing the pool -/

/-- The pool grew by cells that do not restrict the old unknowns. -/
structure Grown (env : Env Kd) (κ : Nat → Kd) (p : Pool Kd) (κ' : Nat → Kd) (p' : Pool Kd) : Prop where
  le : p.length ≤ p'.length
  wf : ∃ r, WF r p'
  kinded : Kinded env κ' p'
  agree : ∀ i, i < p.length → κ' i = κ i
  sub : ∀ σ : Assign Kd, RSol env p' σ → RSol env p σ
  extend : ∀ σ : Assign Kd, RSol env p σ → ∃ σ' : Assign Kd, RSol env p' σ' ∧ ∀ i, i < p.length → σ' i = σ i

theorem cellKind_agree {p : Pool Kd} (h : ∀ i, i < p.length → κ' i = κ i) {t : Ty Kd} (hg : Good p t) :
    cellKind env κ' t = cellKind env κ t := by
  cases t with
  | var v k l => simp [cellKind, h v (hg v (by simp [refs, asVar]))]
  | con c => rfl
  | gen g l => rfl
  | app c lo hi => simp [cellKind, h c (hg c (by simp [refs, asVar, children]))]

theorem append_kinded {r : Nat → Nat} {p ks : Pool Kd} (hw : WF r p) (hk : Kinded env κ p) (h : ∀ i, i < p.length → κ' i = κ i)
    (hks : ∀ (i : Nat) (t : Ty Kd), ks[i]? = some t → cellKind env κ' t = some (κ' (p.length + i)) ∧ t.Proper ∧
      ∀ k lv, t = .var (p.length + i) k lv → κ' (p.length + i) = k) : Kinded env κ' (p ++ ks) := by
  refine ⟨fun i t hi => ?_, fun i k lv hi => ?_, fun i t hi => ?_⟩
  all_goals rcases get_append hi with ⟨h1, h2⟩ | ⟨h1, h2⟩
  · rw [cellKind_agree h (fun j hj => hw.closed i t h2 j hj), hk.cell i t h2, h i h1]
  · have := (hks _ t h2).1
    rwa [Nat.add_sub_cancel' h1] at this
  · rw [h i h1]; exact hk.root i k lv h2
  · have := (hks _ _ h2).2.2 k lv (by rw [Nat.add_sub_cancel' h1])
    rwa [Nat.add_sub_cancel' h1] at this
  · exact hk.proper i t h2
  · exact (hks _ t h2).2.1

theorem Grown.good {p p' : Pool Kd} (h : Grown env κ p κ' p') {k : Ty Kd} (hg : Good p k) : Good p' k := fun j hj => by
  have := hg j hj; have := h.le; omega

theorem Grown.ok {p p' : Pool Kd} (h : Grown env κ p κ' p') {t : Ty Kd} (ho : Ok env κ p t) : Ok env κ' p' t :=
  ⟨h.good ho.good, by rw [cellKind_agree h.agree ho.good]; exact ho.kind, ho.proper⟩

theorem Grown.refl {r : Nat → Nat} {p : Pool Kd} (h : WF r p) (hk : Kinded env κ p) : Grown env κ p κ p :=
  ⟨Nat.le_refl _, ⟨r, h⟩, hk, fun _ _ => rfl, fun _ h => h, fun σ hs => ⟨σ, hs, fun _ _ => rfl⟩⟩

theorem Grown.compress {r : Nat → Nat} {p p' : Pool Kd} (h : WF r p) (hk : Kinded env κ p) (hc : Compress p p') : Grown env κ p κ p' :=
  ⟨Nat.le_of_eq hc.length.symm, ⟨r, hc.wf h⟩, hk.compress h hc, fun _ _ => rfl, fun σ => (RSol.compress h hc σ).1,
    fun σ hs => ⟨σ, (RSol.compress h hc σ).2 hs, fun _ _ => rfl⟩⟩

theorem Grown.trans {p q s : Pool Kd} (h1 : Grown env κ p κ' q) (h2 : Grown env κ' q κ'' s) : Grown env κ p κ'' s where
  le := Nat.le_trans h1.le h2.le
  wf := h2.wf
  kinded := h2.kinded
  agree := fun i hi => by rw [h2.agree i (by have := h1.le; omega), h1.agree i hi]
  sub := fun σ hs => h1.sub σ (h2.sub σ hs)
  extend := fun σ hs => by
    obtain ⟨σ1, e1, e2⟩ := h1.extend σ hs
    obtain ⟨σ2, e3, e4⟩ := h2.extend σ1 e1
    exact ⟨σ2, e3, fun i hi => by rw [e4 i (by have := h1.le; omega), e2 i hi]⟩

theorem grown_append {r : Nat → Nat} {p : Pool Kd} (hw : WF r p) (hk : Kinded env κ p) {ks : List (Ty Kd)} (ho : ∀ k ∈ ks, Ok env κ p k) :
    ∃ κ', Grown env κ p κ' (p ++ ks) := by
  let κ' : Nat → Kd := fun i => if i < p.length then κ i else
        match ks[i - p.length]? with | some t => (cellKind env κ t).getD (κ i) | none => κ i
  have h : ∀ i, i < p.length → κ' i = κ i := fun i hi => by simp [κ', hi]
  obtain ⟨r', hw', -⟩ := append_wf hw (ks := ks) (fun i k hk => .inl (ho k (List.mem_of_getElem? hk)).good)
  refine ⟨κ', by simp, ⟨r', hw'⟩, append_kinded hw hk h (fun i t ht => ?_), h, fun σ hs => ?_, fun σ hs => ?_⟩
  · have hot := ho t (List.mem_of_getElem? ht)
    refine ⟨?_, hot.proper, fun k lv he => ?_⟩
    · obtain ⟨k', hk'⟩ := hot.kind
      rw [cellKind_agree h hot.good, hk']
      have : ¬ p.length + i < p.length := by omega
      simp only [κ', if_neg this, Nat.add_sub_cancel_left, ht, hk', Option.getD_some]
    · have := hot.good (p.length + i) (by rw [he]; simp [refs, asVar])
      omega
  · refine ⟨(append_sol hs.sol).1, fun i k lv hi => hs.kind i k lv ?_, fun i k lv hi => hs.level i k lv ?_⟩ <;>
      (rw [List.getElem?_append_left (lt_of_get hi)]; exact hi)
  · obtain ⟨σ', h1, h2⟩ := append_extend hw (fun k hk => (ho k hk).good) hs.sol
    have hroot : ∀ (i : Nat) (k : Kd) (lv : Nat), (p ++ ks)[i]? = some (.var i k lv) → p[i]? = some (.var i k lv) := by
      intro i k lv hi
      rcases get_append hi with ⟨-, e⟩ | ⟨e1, e2⟩
      · exact e
      · have := (ho _ (List.mem_of_getElem? e2)).good i (by simp [refs, asVar])
        omega
    refine ⟨σ', ⟨h1, fun i k lv hi => ?_, fun i k lv hi => ?_⟩, h2⟩
    · have := hroot i k lv hi; rw [h2 i (lt_of_get this)]; exact hs.kind i k lv this
    · have := hroot i k lv hi; rw [h2 i (lt_of_get this)]; exact hs.level i k lv this

theorem allocBind_spec {r : Nat → Nat} {p : Pool Kd} (hw : WF r p) (hk : Kinded env κ p) {t : Ty Kd} (ho : Ok env κ p t) :
    (∃ κ', Grown env κ p κ' (allocBind t p).2) ∧ (allocBind t p).1 < (allocBind t p).2.length ∧
      (∀ σ : Assign Kd, Sol (allocBind t p).2 σ → σ (allocBind t p).1 = t.sem σ) ∧
      ∀ κ', Kinded env κ' (allocBind t p).2 → cellKind env κ' t = some (κ' (allocBind t p).1) := by
  have happ : asVar t = none → (∃ κ', Grown env κ p κ' (p ++ [t])) ∧ p.length < (p ++ [t]).length ∧
      (∀ σ : Assign Kd, Sol (p ++ [t]) σ → σ p.length = t.sem σ) ∧ ∀ κ', Kinded env κ' (p ++ [t]) → cellKind env κ' t = some (κ' p.length) := fun _ =>
    ⟨grown_append hw hk (by simpa using ho), by simp,
      fun σ hs => hs p.length t (by simp), fun κ hk => hk.cell p.length t (by simp)⟩
  cases t with
  | var v k l => exact ⟨⟨κ, .refl hw hk⟩, ho.good v (by simp [refs, asVar]), fun σ _ => rfl, fun κ _ => rfl⟩
  | con c => exact happ rfl
  | gen g l => exact happ rfl
  | app c lo hi => exact happ rfl

theorem vars_one (v : Nat) : vars v (v + 1) = [v] := by simp [vars]

theorem map_vars {σ : Assign Kd} {lo : Nat} : ∀ {ks : List (Ty Kd)}, (∀ (i : Nat) (k : Ty Kd), ks[i]? = some k → σ (lo + i) = k.sem σ) →
    (List.range' lo ks.length).map σ = ks.map (Ty.sem σ)
  | [], _ => rfl
  | k :: ks, h => by
    rw [List.length_cons, List.range'_succ, List.map_cons, List.map_cons, ← map_vars (lo := lo + 1) (fun i k' hk => by
      have := h (i + 1) k' (by simpa using hk)
      rw [← this]; congr 1; omega)]
    have := h 0 k rfl
    rw [← this]; rfl

theorem allocBinds_spec {r : Nat → Nat} {p : Pool Kd} (hw : WF r p) (hk : Kinded env κ p) {ks : List (Ty Kd)} (hne : ks ≠ []) (ho : ∀ k ∈ ks, Ok env κ p k) :
    (∃ κ', Grown env κ p κ' (allocBinds ks p).2) ∧ (allocBinds ks p).1.1 < (allocBinds ks p).1.2 ∧ (allocBinds ks p).1.2 ≤ (allocBinds ks p).2.length ∧
      ∀ σ : Assign Kd, Sol (allocBinds ks p).2 σ → (vars (allocBinds ks p).1.1 (allocBinds ks p).1.2).map σ = ks.map (Ty.sem σ) := by
  have hl : ks.length ≠ 0 := by simpa using hne
  unfold allocBinds
  split
  · next k =>
    obtain ⟨h1, h2, h3, -⟩ := allocBind_spec hw hk (ho k (by simp))
    refine ⟨h1, ?_, ?_, fun σ hs => ?_⟩ <;> simp only [fromIndexCount, Nat.one_ne_zero, if_false]
    · omega
    · omega
    · rw [vars_one]; simp [h3 σ hs]
  · refine ⟨grown_append hw hk ho, ?_, ?_, fun σ hs => ?_⟩ <;> simp only [fromIndexCount, hl, if_false]
    · omega
    · simp
    · rw [vars, Nat.add_sub_cancel_left]
      exact map_vars (append_sol hs).2

/-- `new_app` makes the application, when the callee has the kind of a function. -/
theorem newApp_spec {r : Nat → Nat} {p : Pool Kd} (hw : WF r p) (hk : Kinded env κ p) {callee : Ty Kd} {args : List (Ty Kd)} (hne : args ≠ [])
    (hc : Ok env κ p callee) (hargs : ∀ a ∈ args, Ok env κ p a) {k k' : Kd} (hck : cellKind env κ callee = some k) (hret : env.ret k = some k') :
    (∃ κ', Grown env κ p κ' (newApp callee args p).2 ∧ Ok env κ' (newApp callee args p).2 (newApp callee args p).1) ∧
      ∀ σ : Assign Kd, RSol env (newApp callee args p).2 σ → (newApp callee args p).1.sem σ = .app (callee.sem σ) (args.map (Ty.sem σ)) := by
  unfold newApp
  rw [if_neg (by simpa using hne)]
  obtain ⟨⟨κ1, h1⟩, h2, h3, h4⟩ := allocBind_spec hw hk hc
  obtain ⟨r1, hw1⟩ := h1.wf
  obtain ⟨⟨κ2, e1⟩, e2, e3, e4⟩ := allocBinds_spec hw1 h1.kinded hne (fun a ha => h1.ok (hargs a ha))
  have hk1 : κ1 (allocBind callee p).1 = k := by
    have := h4 κ1 h1.kinded
    rw [cellKind_agree h1.agree hc.good, hck] at this
    exact (Option.some.inj this).symm
  refine ⟨⟨κ2, h1.trans e1, ⟨fun j hj => ?_, ⟨k', ?_⟩, e2⟩⟩, fun σ hs => ?_⟩
  · simp only [refs, asVar, children, List.mem_cons, mem_vars] at hj
    have := e1.le
    show j < (allocBinds args (allocBind callee p).2).2.length
    rcases hj with hj | hj
    · omega
    · omega
  · show env.ret (κ2 (allocBind callee p).1) = some k'
    rw [e1.agree _ h2, hk1, hret]
  · have hs' : RSol env (allocBinds args (allocBind callee p).2).2 σ := hs
    show AType.app (σ (allocBind callee p).1) ((vars (allocBinds args (allocBind callee p).2).1.1 (allocBinds args (allocBind callee p).2).1.2).map σ) = _
    rw [h3 σ (e1.sub σ hs').sol, e4 σ hs'.sol]

/-- A new unknown. -/
theorem newVar_spec {r : Nat → Nat} {p : Pool Kd} (hw : WF r p) (hk : Kinded env κ p) (k : Kd) (lv : Nat) :
    (∃ r', WF r' (newVar k lv p).2) ∧ (∃ κ', Kinded env κ' (newVar k lv p).2 ∧ (∀ i, i < p.length → κ' i = κ i) ∧ κ' p.length = k) ∧
      (∀ σ : Assign Kd, RSol env (newVar k lv p).2 σ ↔ RSol env p σ ∧ (σ p.length).kindOf env = some k ∧ (σ p.length).maxLevel ≤ lv) := by
  refine ⟨?_, ?_, fun σ => ?_⟩
  · obtain ⟨r', hw', -⟩ := append_wf hw (ks := [Ty.var p.length k lv]) (fun i t ht => .inr (by
      have h0 : i = 0 := by have := lt_of_get ht; simpa using this
      subst h0; simp at ht; subst ht; rfl))
    exact ⟨r', hw'⟩
  · refine ⟨fun i => if i < p.length then κ i else k, append_kinded hw hk (fun i hi => by simp [hi]) (fun i t ht => ?_), fun i hi => by simp [hi], by simp⟩
    have h0 : i = 0 := by have := lt_of_get ht; simpa using this
    subst h0; simp at ht; subst ht
    refine ⟨by simp [cellKind], trivial, fun k' lv' he => ?_⟩
    simp only [Ty.var.injEq] at he
    simp [he.2.1]
  · have hget : ∀ {i : Nat} {t : Ty Kd}, (p ++ [Ty.var p.length k lv])[i]? = some t ↔ p[i]? = some t ∨ (i = p.length ∧ t = .var p.length k lv) := by
      intro i t
      constructor
      · intro h
        rcases get_append h with ⟨-, e⟩ | ⟨e1, e2⟩
        · exact .inl e
        · have h0 : i - p.length = 0 := by have := lt_of_get e2; simpa using this
          rw [h0] at e2; simp at e2
          exact .inr ⟨by omega, e2.symm⟩
      · rintro (h | ⟨rfl, rfl⟩)
        · rw [List.getElem?_append_left (lt_of_get h)]; exact h
        · simp
    show RSol env (p ++ [_]) σ ↔ _
    constructor
    · intro hs
      exact ⟨⟨fun i t hi => hs.sol i t (hget.2 (.inl hi)), fun i k lv hi => hs.kind i k lv (hget.2 (.inl hi)),
        fun i k lv hi => hs.level i k lv (hget.2 (.inl hi))⟩, hs.kind _ k lv (hget.2 (.inr ⟨rfl, rfl⟩)), hs.level _ k lv (hget.2 (.inr ⟨rfl, rfl⟩))⟩
    · rintro ⟨hs, h1, h2⟩
      refine ⟨fun i t hi => ?_, fun i k' lv' hi => ?_, fun i k' lv' hi => ?_⟩ <;> rcases hget.1 hi with h | ⟨rfl, h⟩
      · exact hs.sol i t h
      · subst h; rfl
      · exact hs.kind i k' lv' h
      · cases h; exact h1
      · exact hs.level i k' lv' h
      · cases h; exact h2

/-! ## Exporting -/

/-- The most general solution: every unknown stands for itself. -/
def Principal (env : Env Kd) (p : Pool Kd) (σ : Assign Kd) : Prop :=
  RSol env p σ ∧ ∀ (i : Nat) (k : Kd) (lv : Nat), p[i]? = some (.var i k lv) → σ i = .unknown i k lv

theorem exists_principal {p : Pool Kd} (h : ∃ r, WF r p) : ∃ σ, Principal env p σ := by
  obtain ⟨r, hw⟩ := h
  obtain ⟨σ, h1, h2⟩ := exists_named (env := env) hw 0
  exact ⟨σ, h1, h2⟩

theorem Principal.compress {r : Nat → Nat} {p p' : Pool Kd} (hw : WF r p) (hc : Compress p p') {σ : Assign Kd} (h : Principal env p σ) : Principal env p' σ :=
  ⟨(RSol.compress hw hc σ).2 h.1, fun i k lv hi => h.2 i k lv ((hc.root hw rfl).1 hi)⟩

theorem substs_map (ρ : Nat → AType Kd) (as : List (AType Kd)) : AType.substs ρ as = as.map (AType.subst ρ) := by
  induction as with
  | nil => rfl
  | cons a as ih => simp [AType.substs, ih]

theorem sem_subst (ρ : Nat → AType Kd) (σ : Assign Kd) (t : Ty Kd) : (t.sem σ).subst ρ = t.sem (fun i => (σ i).subst ρ) := by
  cases t <;> simp [Ty.sem, AType.subst, substs_map, Function.comp_def]

/-- Every solution is an instance of the most general one. -/
theorem Principal.instance {r : Nat → Nat} {p : Pool Kd} (hw : WF r p) {σ τ : Assign Kd} (h : Principal env p σ) (ht : Sol p τ) {t : Ty Kd} (hg : Good p t) :
    t.sem τ = (t.sem σ).subst τ := by
  rw [sem_subst]
  refine sem_agree (p := p) (T := AType Kd) hg (fun i hi => ?_)
  refine sol_unique (τ := fun i => (σ i).subst τ) hw ht (fun i k hk => ?_) (fun i hi => ?_) i hi
  · show (σ i).subst τ = _
    rw [h.1.sol i k hk]
    exact sem_subst τ σ k
  · show _ = (σ i).subst τ
    obtain ⟨c, h1, h2⟩ := hi
    cases c with
    | var v k lv => cases h2; rw [h.2 i k lv h1, AType.subst]
    | _ => cases h2

theorem erases_map (as : List (AType Kd)) : AType.erases as = as.map AType.erase := by
  induction as with
  | nil => rfl
  | cons a as ih => simp [AType.erases, ih]

theorem mapAll_spec {α : Type} {r : Nat → Nat} {R : Nat} {σ : Assign Kd} (g : AType Kd → α) (f : Nat → Nat → Pool Kd → Option (α × Pool Kd))
    (hf : ∀ c p, r c + 1 < R → WF r p → c < p.length → Kinded env κ p → Principal env p σ →
      ∃ p', (∀ n, R ≤ n → f n c p = some (g (σ c), p')) ∧ Compress p p') :
    ∀ (cs : List Nat) (p : Pool Kd), (∀ c ∈ cs, r c + 1 < R ∧ c < p.length) → WF r p → Kinded env κ p → Principal env p σ →
      ∃ p', (∀ n, R ≤ n → mapAll (f n) cs p = some (cs.map (fun c => g (σ c)), p')) ∧ Compress p p' := by
  intro cs
  induction cs with
  | nil => intro p _ _ _ _; exact ⟨p, fun _ _ => rfl, .refl⟩
  | cons c cs ih =>
    intro p hc hw hk hσ
    obtain ⟨p1, h1, h2⟩ := hf c p (hc c (by simp)).1 hw (hc c (by simp)).2 hk hσ
    obtain ⟨p2, h3, h4⟩ := ih p1 (fun d hd => by rw [h2.length]; exact hc d (by simp [hd])) (h2.wf hw) (hk.compress hw h2) (hσ.compress hw h2)
    exact ⟨p2, fun n hn => by simp only [mapAll, h1 n hn, h3 n hn, List.map_cons], h2.trans h4⟩

/-- Exporting a type gives its most general solution. -/
theorem exportType_spec {r : Nat → Nat} {σ : Assign Kd} : ∀ (R : Nat) (t : Ty Kd) (p : Pool Kd), Low r R t → WF r p → Kinded env κ p → Ok env κ p t →
    Principal env p σ → ∃ p', (∀ n, R < n → exportType env n t p = some ((t.sem σ).erase, p')) ∧ Compress p p' := by
  intro R
  induction R using Nat.strongRecOn with
  | ind R ih =>
    intro t p hL hw hk ho hσ
    obtain ⟨t', p1, h1, h2, h3, h4, h5, h6, -, h8⟩ := resolve_spec hw ho.good hL.rankLt
    have hw1 := h2.wf hw
    have hk1 := hk.compress hw h2
    have hσ1 := hσ.compress hw h2
    have hsem : t.sem σ = t'.sem σ := sem_resolved hw h2 h8 hσ.1.sol
    have ho' := resolved_ok hw hk h2 h4 h8 ho
    rw [hsem]
    have hsimple : ∀ a : SType, (∀ n, R < n + 1 → exportType env (n + 1) t p = some (a, p1)) → a = (t'.sem σ).erase →
        ∃ p', (∀ n, R < n → exportType env n t p = some ((t'.sem σ).erase, p')) ∧ Compress p p' := by
      rintro a h rfl
      refine ⟨p1, fun n hn => ?_, h2⟩
      obtain ⟨n, rfl⟩ : ∃ m, n = m + 1 := ⟨n - 1, by omega⟩
      exact h n hn
    cases t' with
    | var v k l =>
      exact hsimple (.error v) (fun n hn => by simp only [exportType, h1 n (by omega)]) (by simp only [Ty.sem, hσ1.2 v k l (h3 v rfl), AType.erase])
    | con c => exact hsimple (.con c) (fun n hn => by simp only [exportType, h1 n (by omega)]) rfl
    | gen g l => exact hsimple (.gen g) (fun n hn => by simp only [exportType, h1 n (by omega)]) rfl
    | app callee lo hi =>
      have hchild : ∀ c ∈ children (Ty.app (Kd := Kd) callee lo hi), r c + 1 < R ∧ c < p1.length := fun c hm => ⟨hL.resolved h8 c hm, h4 c hm⟩
      have hone : ∀ c q, r c + 1 < R → WF r q → c < q.length → Kinded env κ q → Principal env q σ →
          ∃ p', (∀ n, R ≤ n → exportType env n (ref env c) q = some ((σ c).erase, p')) ∧ Compress q p' := by
        intro c q hc hwq hcq hkq hσq
        obtain ⟨p', e1, e2⟩ := ih (r c + 1) hc (ref env c) q ⟨fun v hv => by cases hv; omega, fun j hj => by simp [ref, children] at hj⟩ hwq hkq
          (ok_ref hcq) hσq
        exact ⟨p', fun n hn => e1 n (by omega), e2⟩
      obtain ⟨hr1, hr2⟩ := hchild callee (by simp [children])
      obtain ⟨p2, e1, e2⟩ := hone callee p1 hr1 hw1 hr2 hk1 hσ1
      obtain ⟨p3, e3, e4⟩ := mapAll_spec (env := env) (κ := κ) AType.erase (fun n c => exportType env n (ref env c)) hone (vars lo hi) p2
        (fun c hc => by rw [e2.length]; exact hchild c (by simp [children, hc])) (e2.wf hw1) (hk1.compress hw1 e2) (hσ1.compress hw1 e2)
      refine ⟨p3, fun n hn => ?_, h2.trans (e2.trans e4)⟩
      obtain ⟨n, rfl⟩ : ∃ m, n = m + 1 := ⟨n - 1, by omega⟩
      simp only [exportType, h1 n (by omega), e1 n (by omega), e3 n (by omega), SType.app_, Ty.sem, AType.erase, erases_map, List.map_map, Function.comp_def]
      have hv : (vars lo hi).map (fun c => (σ c).erase) ≠ [] := by
        have hk2 : lo < hi := ho'.proper
        simp [vars]; omega
      rw [if_neg (by simpa using hv)]

/-! ## Histories -/

mutual
/-- A term mentions only unknowns below `n`. -/
def Term.Below (n : Nat) : Term → Prop
  | .unknown m => m < n
  | .con _ => True
  | .app callee args => callee.Below n ∧ Term.Belows n args
  | .gen _ _ => True
def Term.Belows (n : Nat) : List Term → Prop
  | [] => True
  | a :: as => a.Below n ∧ Term.Belows n as
end

mutual
theorem eval_congr {n : Nat} {τ τ' : Nat → AType Kd} (h : ∀ i, i < n → τ i = τ' i) : ∀ t : Term, t.Below n → t.eval τ = t.eval τ'
  | .unknown m, hb => h m hb
  | .con _, _ => rfl
  | .gen _ _, _ => rfl
  | .app callee [], hb => by simp only [Term.eval]; exact eval_congr h callee hb.1
  | .app callee (a :: as), hb => by
    have h2 : a.Below n ∧ Term.Belows n as := hb.2
    simp only [Term.eval]
    rw [eval_congr h callee hb.1, eval_congr h a h2.1, evals_congr h as h2.2]
theorem evals_congr {n : Nat} {τ τ' : Nat → AType Kd} (h : ∀ i, i < n → τ i = τ' i) : ∀ ts : List Term, Term.Belows n ts →
    Term.evals τ ts = Term.evals τ' ts
  | [], _ => rfl
  | a :: as, hb => by
    have h2 : a.Below n ∧ Term.Belows n as := hb
    simp only [Term.evals]; rw [eval_congr h a h2.1, evals_congr h as h2.2]
end

mutual
theorem below_mono {n m : Nat} (h : n ≤ m) : ∀ t : Term, t.Below n → t.Below m
  | .unknown _, hb => Nat.lt_of_lt_of_le hb h
  | .con _, _ => trivial
  | .gen _ _, _ => trivial
  | .app callee args, hb => ⟨below_mono h callee hb.1, belows_mono h args hb.2⟩
theorem belows_mono {n m : Nat} (h : n ≤ m) : ∀ ts : List Term, Term.Belows n ts → Term.Belows m ts
  | [], _ => trivial
  | a :: as, hb => ⟨below_mono h a hb.1, belows_mono h as hb.2⟩
end

/-- What a context is after a history: the pool represents exactly the solutions of the equations so far, and every returned type stands for its term. -/
structure Rep (env : Env Kd) (p : Pool Kd) (hs : List (Ty Kd × Term)) (a : Abs Kd) : Prop where
  wf : ∃ r, WF r p
  kinded : ∃ κ, Kinded env κ p ∧ ∀ h ∈ hs, Ok env κ p h.1
  below : ∀ h ∈ hs, h.2.Below a.unknowns.length
  eqBelow : ∀ e ∈ a.eqs, e.1.Below a.unknowns.length ∧ e.2.Below a.unknowns.length
  terms : a.terms = hs.map (·.2)
  fwd : ∀ σ : Assign Kd, RSol env p σ → ∃ τ, Solves env a τ ∧ ∀ h ∈ hs, h.2.eval τ = h.1.sem σ
  bwd : ∀ τ, Solves env a τ → ∃ σ : Assign Kd, RSol env p σ ∧ ∀ h ∈ hs, h.1.sem σ = h.2.eval τ

/-- A change of the pool that does not change what it stands for, with more types returned. -/
theorem Rep.grow {p p' : Pool Kd} {hs : List (Ty Kd × Term)} {a : Abs Kd} (h : Rep env p hs a) {κ κ' : Nat → Kd}
    (ho : ∀ h ∈ hs, Ok env κ p h.1) (hg : Grown env κ p κ' p') : Rep env p' hs a where
  wf := hg.wf
  kinded := ⟨κ', hg.kinded, fun x hx => hg.ok (ho x hx)⟩
  below := h.below
  eqBelow := h.eqBelow
  terms := h.terms
  fwd := fun σ hσ => h.fwd σ (hg.sub σ hσ)
  bwd := fun τ hτ => by
    obtain ⟨σ, h1, h2⟩ := h.bwd τ hτ
    obtain ⟨σ', h3, h4⟩ := hg.extend σ h1
    refine ⟨σ', h3, fun x hx => ?_⟩
    rw [← h2 x hx]
    exact sem_agree (p := p) (T := AType Kd) (ho x hx).good (fun i hi => h4 i hi)

/-- Returning a further type. -/
theorem Rep.add {p : Pool Kd} {hs : List (Ty Kd × Term)} {a : Abs Kd} (h : Rep env p hs a) {κ : Nat → Kd} (hk : Kinded env κ p)
    (ho : ∀ h ∈ hs, Ok env κ p h.1) {t : Ty Kd} {e : Term} (ht : Ok env κ p t) (he : e.Below a.unknowns.length)
    (hsem : ∀ (σ : Assign Kd) (τ : Nat → AType Kd), RSol env p σ → (∀ h ∈ hs, h.2.eval τ = h.1.sem σ) → e.eval τ = t.sem σ) :
    Rep env p (hs ++ [(t, e)]) { a with terms := a.terms ++ [e] } where
  wf := h.wf
  kinded := ⟨κ, hk, fun x hx => by
    rcases List.mem_append.1 hx with hx | hx
    · exact ho x hx
    · simp at hx; subst hx; exact ht⟩
  below := fun x hx => by
    rcases List.mem_append.1 hx with hx | hx
    · exact h.below x hx
    · simp at hx; subst hx; exact he
  eqBelow := h.eqBelow
  terms := by simp [h.terms]
  fwd := fun σ hσ => by
    obtain ⟨τ, h1, h2⟩ := h.fwd σ hσ
    refine ⟨τ, ⟨h1.kind, h1.level, h1.eqs⟩, fun x hx => ?_⟩
    rcases List.mem_append.1 hx with hx | hx
    · exact h2 x hx
    · simp at hx; subst hx; exact hsem σ τ hσ h2
  bwd := fun τ hτ => by
    obtain ⟨σ, h1, h2⟩ := h.bwd τ ⟨hτ.kind, hτ.level, hτ.eqs⟩
    refine ⟨σ, h1, fun x hx => ?_⟩
    rcases List.mem_append.1 hx with hx | hx
    · exact h2 x hx
    · simp at hx; subst hx; exact (hsem σ τ h1 (fun y hy => (h2 y hy).symm)).symm

theorem Rep.newVar {p : Pool Kd} {hs : List (Ty Kd × Term)} {a : Abs Kd} (h : Rep env p hs a) (k : Kd) (lv : Nat) :
    Rep env (newVar k lv p).2 (hs ++ [((newVar k lv p).1, .unknown a.unknowns.length)])
      { a with unknowns := a.unknowns ++ [(k, lv)], terms := a.terms ++ [.unknown a.unknowns.length] } := by
  obtain ⟨r, hw⟩ := h.wf
  obtain ⟨κ, hk, ho⟩ := h.kinded
  obtain ⟨h1, ⟨κ', h2, h3, h4⟩, h5⟩ := newVar_spec hw hk k lv
  have hlen : (TypeUnify.newVar k lv p).2.length = p.length + 1 := by simp [TypeUnify.newVar]
  have hsemc : ∀ (σ σ' : Assign Kd), (∀ i, i < p.length → σ' i = σ i) → ∀ x ∈ hs, x.1.sem σ' = x.1.sem σ := fun σ σ' he x hx =>
    sem_agree (p := p) (T := AType Kd) (ho x hx).good he
  refine ⟨h1, ⟨κ', h2, fun x hx => ?_⟩, fun x hx => ?_, fun e he => ?_, by simp [h.terms], fun σ hσ => ?_, fun τ hτ => ?_⟩
  · rcases List.mem_append.1 hx with hx | hx
    · refine ⟨fun j hj => ?_, ?_, (ho x hx).proper⟩
      · have := (ho x hx).good j hj; omega
      · rw [cellKind_agree h3 (ho x hx).good]; exact (ho x hx).kind
    · simp at hx; subst hx
      refine ⟨fun j hj => ?_, ⟨_, rfl⟩, trivial⟩
      simp [TypeUnify.newVar, refs, asVar] at hj
      omega
  · simp only [List.length_append, List.length_singleton]
    rcases List.mem_append.1 hx with hx | hx
    · exact below_mono (by omega) _ (h.below x hx)
    · simp at hx; subst hx; exact Nat.lt_succ_self _
  · simp only [List.length_append, List.length_singleton]
    exact ⟨below_mono (by omega) _ (h.eqBelow e he).1, below_mono (by omega) _ (h.eqBelow e he).2⟩
  · obtain ⟨e1, e2, e3⟩ := (h5 σ).1 hσ
    obtain ⟨τ, g1, g2⟩ := h.fwd σ e1
    let τ' : Nat → AType Kd := fun i => if i < a.unknowns.length then τ i else σ p.length
    have hτ' : ∀ i, i < a.unknowns.length → τ' i = τ i := fun i hi => by simp [τ', hi]
    have hget : ∀ (n : Nat) (x : Kd × Nat), (a.unknowns ++ [(k, lv)])[n]? = some x → a.unknowns[n]? = some x ∧ n < a.unknowns.length ∨
        n = a.unknowns.length ∧ x = (k, lv) := by
      intro n x hn
      by_cases hlt : n < a.unknowns.length
      · rw [List.getElem?_append_left hlt] at hn; exact .inl ⟨hn, hlt⟩
      · rw [List.getElem?_append_right (by omega)] at hn
        have h0 : n - a.unknowns.length = 0 := by
          have := (List.getElem?_eq_some_iff.1 hn).1
          simpa using this
        rw [h0] at hn; simp at hn
        exact .inr ⟨by omega, hn.symm⟩
    refine ⟨τ', ⟨fun n k' l hn => ?_, fun n k' l hn => ?_, fun e he => ?_⟩, fun x hx => ?_⟩
    · rcases hget n _ hn with ⟨e, hlt⟩ | ⟨rfl, e⟩
      · rw [hτ' n hlt]; exact g1.kind n k' l e
      · cases e; simpa [τ'] using e2
    · rcases hget n _ hn with ⟨e, hlt⟩ | ⟨rfl, e⟩
      · rw [hτ' n hlt]; exact g1.level n k' l e
      · cases e; simpa [τ'] using e3
    · rw [eval_congr hτ' _ (h.eqBelow e he).1, eval_congr hτ' _ (h.eqBelow e he).2]; exact g1.eqs e he
    · rcases List.mem_append.1 hx with hx | hx
      · rw [eval_congr hτ' _ (h.below x hx)]; exact g2 x hx
      · simp at hx; subst hx; simp [Term.eval, τ', TypeUnify.newVar, Ty.sem]
  · have hsub : Solves env a τ := by
      have hget : ∀ (n : Nat) (x : Kd × Nat), a.unknowns[n]? = some x → (a.unknowns ++ [(k, lv)])[n]? = some x := fun n x hn => by
        rw [List.getElem?_append_left (List.getElem?_eq_some_iff.1 hn).1]; exact hn
      exact ⟨fun n k' l hn => hτ.kind n k' l (hget n _ hn), fun n k' l hn => hτ.level n k' l (hget n _ hn), hτ.eqs⟩
    obtain ⟨σ, g1, g2⟩ := h.bwd τ hsub
    let σ' : Assign Kd := fun i => if i < p.length then σ i else τ a.unknowns.length
    have hσ' : ∀ i, i < p.length → σ' i = σ i := fun i hi => by simp [σ', hi]
    have hlast : (a.unknowns ++ [(k, lv)])[a.unknowns.length]? = some (k, lv) := by simp
    refine ⟨σ', (h5 σ').2 ⟨⟨fun i t hi => ?_, fun i k' l hi => ?_, fun i k' l hi => ?_⟩, ?_, ?_⟩, fun x hx => ?_⟩
    · rw [hσ' i (lt_of_get hi), g1.sol i t hi]
      exact sem_agree (p := p) (T := AType Kd) (fun j hj => hw.closed i t hi j hj) (fun i hi => (hσ' i hi).symm)
    · rw [hσ' i (lt_of_get hi)]; exact g1.kind i k' l hi
    · rw [hσ' i (lt_of_get hi)]; exact g1.level i k' l hi
    · simpa [σ'] using hτ.kind _ k lv hlast
    · simpa [σ'] using hτ.level _ k lv hlast
    · rcases List.mem_append.1 hx with hx | hx
      · rw [hsemc σ σ' hσ' x hx]; exact g2 x hx
      · simp at hx; subst hx; simp [Term.eval, σ', TypeUnify.newVar, Ty.sem]

/-- An equation was added. -/
theorem Rep.unified {p p' : Pool Kd} {hs : List (Ty Kd × Term)} {a : Abs Kd} (h : Rep env p hs a) {κ : Nat → Kd} (ho : ∀ h ∈ hs, Ok env κ p h.1)
    {x y : Ty Kd × Term} (hx : x ∈ hs) (hy : y ∈ hs) {G : Prop} (hu : Unified env κ p (fun σ => x.1.sem σ = y.1.sem σ) G (.ok ()) p') :
    Rep env p' hs { a with eqs := a.eqs ++ [(x.2, y.2)] } where
  wf := hu.wf
  kinded := ⟨κ, hu.kinded, fun z hz => ⟨hu.good (ho z hz).good, (ho z hz).kind, (ho z hz).proper⟩⟩
  below := h.below
  eqBelow := fun e he => by
    rcases List.mem_append.1 he with he | he
    · exact h.eqBelow e he
    · simp at he; subst he; exact ⟨h.below x hx, h.below y hy⟩
  terms := h.terms
  fwd := fun σ hσ => by
    obtain ⟨h1, h2⟩ := (hu.ok rfl σ).1 hσ
    obtain ⟨τ, h3, h4⟩ := h.fwd σ h1
    refine ⟨τ, ⟨h3.kind, h3.level, fun e he => ?_⟩, h4⟩
    rcases List.mem_append.1 he with he | he
    · exact h3.eqs e he
    · simp at he; subst he
      show x.2.eval τ = y.2.eval τ
      rw [h4 x hx, h4 y hy, h2]
  bwd := fun τ hτ => by
    obtain ⟨σ, h1, h2⟩ := h.bwd τ ⟨hτ.kind, hτ.level, fun e he => hτ.eqs e (by simp [he])⟩
    refine ⟨σ, (hu.ok rfl σ).2 ⟨h1, ?_⟩, h2⟩
    rw [h2 x hx, h2 y hy]
    exact hτ.eqs (x.2, y.2) (by simp)

theorem Rep.refuted {p p' : Pool Kd} {hs : List (Ty Kd × Term)} {a : Abs Kd} (h : Rep env p hs a) {κ : Nat → Kd}
    {x y : Ty Kd × Term} (hx : x ∈ hs) (hy : y ∈ hs) {G : Prop} {e : Error} (hu : Unified env κ p (fun σ => x.1.sem σ = y.1.sem σ) G (.error e) p')
    (hG : G) : ¬ ∃ τ, Solves env { a with eqs := a.eqs ++ [(x.2, y.2)] } τ := by
  rintro ⟨τ, hτ⟩
  obtain ⟨σ, h1, h2⟩ := h.bwd τ ⟨hτ.kind, hτ.level, fun e he => hτ.eqs e (by simp [he])⟩
  refine hu.err e rfl hG σ h1 ?_
  rw [h2 x hx, h2 y hy]
  exact hτ.eqs (x.2, y.2) (by simp)

/-- Every history leaves a most general solution, and it is what `export` shows. -/
theorem Rep.principal {p : Pool Kd} {hs : List (Ty Kd × Term)} {a : Abs Kd} (h : Rep env p hs a) :
    ∃ τ₀, MostGeneral env a τ₀ ∧ ∀ x ∈ hs, ∃ p' n0, ∀ n, n0 ≤ n → exportType env n x.1 p = some ((x.2.eval τ₀).erase, p') := by
  obtain ⟨r, hw⟩ := h.wf
  obtain ⟨κ, hk, ho⟩ := h.kinded
  obtain ⟨σ, hσ⟩ := exists_principal (env := env) h.wf
  obtain ⟨τ₀, h1, h2⟩ := h.fwd σ hσ.1
  refine ⟨τ₀, ⟨h1, fun τ hτ => ?_⟩, fun x hx => ?_⟩
  · obtain ⟨σ', h3, h4⟩ := h.bwd τ hτ
    refine ⟨σ', fun t ht => ?_⟩
    rw [h.terms] at ht
    obtain ⟨x, hx, rfl⟩ := List.mem_map.1 ht
    rw [← h4 x hx, h2 x hx]
    exact hσ.instance hw h3.sol (ho x hx).good
  · obtain ⟨R, hR⟩ := exists_low r x.1
    obtain ⟨p', e1, -⟩ := exportType_spec R x.1 p hR hw hk (ho x hx) hσ
    exact ⟨p', R + 1, fun n hn => by rw [h2 x hx]; exact e1 n (by omega)⟩

end Verif.TypeUnify
