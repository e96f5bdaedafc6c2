import Verif.KindUnify.Build

/-! # Exporting and defaulting kinds -/
namespace Verif.KindUnify
open Verif Verif.Unify Verif.Unify.Cell

/-- The most general solution of a pool: every unknown stands for itself. -/
def Principal (p : Pool) (σ : Assign) : Prop := Sol p σ ∧ ∀ i, IsRoot p i → σ i = .error i

theorem exists_principal {p : Pool} (h : ∃ r, WF r p) : ∃ σ, Principal p σ := by
  obtain ⟨r, hw⟩ := h
  obtain ⟨σ, h1, h2, -⟩ := exists_sol (K := Kind) hw (fun i => AKind.error i)
  exact ⟨σ, h1, h2⟩

theorem Principal.compress {r : Nat → Nat} {p p' : Pool} (hw : WF r p) (hc : Compress p p') {σ : Assign} (h : Principal p σ) : Principal p' σ :=
  ⟨(hc.sol hw σ).2 h.1, fun i hi => h.2 i ((hc.isRoot hw i).1 hi)⟩

theorem substs_map (ρ : Nat → AKind) (as : List AKind) : AKind.substs ρ as = as.map (AKind.subst ρ) := by
  induction as with
  | nil => rfl
  | cons a as ih => simp [AKind.substs, ih]

theorem sem_subst (ρ : Nat → AKind) (σ : Assign) (k : Kind) : (k.sem σ).subst ρ = k.sem (fun i => (σ i).subst ρ) := by
  cases k <;> simp [Kind.sem, AKind.subst, substs_map, Function.comp_def]

/-- Every solution is an instance of the most general one. -/
theorem Principal.instance {r : Nat → Nat} {p : Pool} (hw : WF r p) {σ τ : Assign} (h : Principal p σ) (ht : Sol p τ) {k : Kind} (hg : Good p k) :
    k.sem τ = (k.sem σ).subst τ := by
  rw [sem_subst]
  refine sem_agree (p := p) (T := AKind) hg (fun i hi => ?_)
  refine sol_unique (τ := fun i => (σ i).subst τ) hw ht (fun i k hk => ?_) (fun i hi => ?_) i hi
  · show (σ i).subst τ = _
    rw [h.1 i k hk]
    exact sem_subst τ σ k
  · show _ = (σ i).subst τ
    rw [h.2 i hi, AKind.subst]

theorem exportAll_spec {r : Nat → Nat} {R : Nat} {σ : Assign} (f : Nat → Nat → Pool → Option (AKind × Pool))
    (hf : ∀ c p, r c + 1 < R → WF r p → c < p.length → AllProper p → Principal p σ →
      ∃ p', (∀ n, R ≤ n → f n c p = some (σ c, p')) ∧ Compress p p') :
    ∀ (cs : List Nat) (p : Pool), (∀ c ∈ cs, r c + 1 < R ∧ c < p.length) → WF r p → AllProper p → Principal p σ →
      ∃ p', (∀ n, R ≤ n → exportAll (f n) cs p = some (cs.map σ, p')) ∧ Compress p p' := by
  intro cs
  induction cs with
  | nil => intro p _ _ _ _; exact ⟨p, fun _ _ => rfl, .refl⟩
  | cons c cs ih =>
    intro p hc hw hpr hσ
    obtain ⟨p1, h1, h2⟩ := hf c p (hc c (by simp)).1 hw (hc c (by simp)).2 hpr hσ
    obtain ⟨p2, h3, h4⟩ := ih p1 (fun d hd => by rw [h2.length]; exact hc d (by simp [hd])) (h2.wf hw) (fun k hk => hpr k (h2.cells k hk))
      (hσ.compress hw h2)
    exact ⟨p2, fun n hn => by simp only [exportAll, h1 n hn, h3 n hn, List.map_cons], h2.trans h4⟩

/-- Exporting a kind gives its most general solution. -/
theorem exportKind_spec {r : Nat → Nat} {σ : Assign} : ∀ (R : Nat) (k : Kind) (p : Pool), Low r R k → WF r p → Good p k → k.Proper → AllProper p →
    Principal p σ → ∃ p', (∀ n, R < n → exportKind n k p = some (k.sem σ, p')) ∧ Compress p p' := by
  intro R
  induction R using Nat.strongRecOn with
  | ind R ih =>
    intro k p hL hw hg hk hpr hσ
    obtain ⟨k', p1, h1, h2, h3, h4, h5, h6, -, h8⟩ := resolve_spec hw hg hL.rankLt
    have hw1 := h2.wf hw
    have hpr1 : AllProper p1 := fun k hk => hpr k (h2.cells k hk)
    have hσ1 := hσ.compress hw h2
    have hsem : k.sem σ = k'.sem σ := sem_resolved hw h2 h8 hσ.1
    have hk' : k'.Proper := by
      rcases h8 with ⟨v, -, h, -⟩ | ⟨-, rfl, -⟩
      · exact hpr1 _ (List.mem_of_getElem? h)
      · exact hk
    rw [hsem]
    have hsimple : ∀ a : AKind, (∀ n, R < n + 1 → exportKind (n + 1) k p = some (a, p1)) → a = k'.sem σ →
        ∃ p', (∀ n, R < n → exportKind n k p = some (k'.sem σ, p')) ∧ Compress p p' := by
      rintro a h rfl
      refine ⟨p1, fun n hn => ?_, h2⟩
      obtain ⟨n, rfl⟩ : ∃ m, n = m + 1 := ⟨n - 1, by omega⟩
      exact h n hn
    cases k' with
    | var v => exact hsimple (.error v) (fun n hn => by simp only [exportKind, h1 n (by omega)]) (hσ1.2 v ⟨_, h3 v rfl, rfl⟩).symm
    | type => exact hsimple .type (fun n hn => by simp only [exportKind, h1 n (by omega)]) rfl
    | constraint => exact hsimple .constraint (fun n hn => by simp only [exportKind, h1 n (by omega)]) rfl
    | satisfaction => exact hsimple .satisfaction (fun n hn => by simp only [exportKind, h1 n (by omega)]) rfl
    | value => exact hsimple .value (fun n hn => by simp only [exportKind, h1 n (by omega)]) rfl
    | mac => exact hsimple .mac (fun n hn => by simp only [exportKind, h1 n (by omega)]) rfl
    | func lo hi ret =>
      have hlow := hL.resolved h8
      have hchild : ∀ c, c ∈ vars lo hi ∨ c = ret → r c + 1 < R ∧ c < p1.length := by
        intro c hc
        have hm : c ∈ children (Kind.func lo hi ret) := by simpa [children] using hc
        exact ⟨hlow c hm, h4 c hm⟩
      have hone : ∀ c q, r c + 1 < R → WF r q → c < q.length → AllProper q → Principal q σ →
          ∃ p', (∀ n, R ≤ n → exportKind n (.var c) q = some (σ c, p')) ∧ Compress q p' := by
        intro c q hc hwq hcq hpq hσq
        obtain ⟨p', e1, e2⟩ := ih (r c + 1) hc (.var c) q ⟨fun v hv => by cases hv; omega, fun j hj => by simp [children] at hj⟩ hwq
          (fun j hj => by simp [refs, asVar] at hj; subst hj; exact hcq) trivial hpq hσq
        exact ⟨p', fun n hn => e1 n (by omega), e2⟩
      obtain ⟨p2, e1, e2⟩ := exportAll_spec (fun n c => exportKind n (.var c)) hone (vars lo hi) p1 (fun c hc => hchild c (.inl hc)) hw1 hpr1 hσ1
      obtain ⟨hr1, hr2⟩ := hchild ret (.inr rfl)
      obtain ⟨p3, e3, e4⟩ := hone ret p2 hr1 (e2.wf hw1) (by rw [e2.length]; exact hr2) (fun k hk => hpr1 k (e2.cells k hk))
        (hσ1.compress hw1 e2)
      refine ⟨p3, fun n hn => ?_, h2.trans (e2.trans e4)⟩
      obtain ⟨n, rfl⟩ : ∃ m, n = m + 1 := ⟨n - 1, by omega⟩
      simp only [exportKind, h1 n (by omega), e1 n (by omega), e3 n (by omega), AKind.fun_, Kind.sem]
      have hv : (vars lo hi).map σ ≠ [] := by
        have hk2 : lo < hi := hk'
        simp [vars]; omega
      rw [if_neg (by simpa using hv)]

/-! ## Defaulting -/

/-- The constant kinds. -/
def Kind.Const (d : Kind) : Prop := asVar d = none ∧ children d = []

theorem const_sem {d : Kind} (hd : d.Const) (σ τ : Assign) : d.sem σ = d.sem τ := by
  cases d <;> simp_all [Kind.Const, asVar, children, Kind.sem]

theorem const_subst {d : Kind} (hd : d.Const) (σ ρ : Assign) : (d.sem σ).subst ρ = d.sem σ := by
  rw [sem_subst]; exact const_sem hd _ _

/-- Some unknowns of `p` became the constant `c`, nothing else happened. -/
structure Defaulted (c : AKind) (p q : Pool) : Prop where
  len : q.length = p.length
  wf : ∃ r, WF r q
  sub : ∀ σ : Assign, Sol q σ → Sol p σ
  roots : ∀ i, IsRoot q i → IsRoot p i
  bound : ∀ i, IsRoot p i → IsRoot q i ∨ ∀ σ : Assign, Sol q σ → σ i = c
  conv : ∀ σ : Assign, Sol p σ → (∀ i, IsRoot p i → ¬ IsRoot q i → σ i = c) → Sol q σ
  nodes : ∀ (i : Nat) (k : Kind), asVar k = none → p[i]? = some k → q[i]? = some k
  proper : AllProper p → AllProper q
  measure : numRoots q < numRoots p ∨ Compress p q

theorem Defaulted.of_compress {c : AKind} {r : Nat → Nat} {p q : Pool} (hw : WF r p) (h : Compress p q) : Defaulted c p q where
  len := h.length
  wf := ⟨r, h.wf hw⟩
  sub := fun σ => (h.sol hw σ).1
  roots := fun i => (h.isRoot hw i).1
  bound := fun i hi => .inl ((h.isRoot hw i).2 hi)
  conv := fun σ hs _ => (h.sol hw σ).2 hs
  nodes := fun _ _ hk hi => h.node hk hi
  proper := fun hp k hk => hp k (h.cells k hk)
  measure := .inr h

theorem Defaulted.trans {c : AKind} {r : Nat → Nat} {p q s : Pool} (hw : WF r p) (h1 : Defaulted c p q) (h2 : Defaulted c q s) : Defaulted c p s where
  len := by rw [h2.len, h1.len]
  wf := h2.wf
  sub := fun σ hs => h1.sub σ (h2.sub σ hs)
  roots := fun i hi => h1.roots i (h2.roots i hi)
  bound := fun i hi => by
    rcases h1.bound i hi with h | h
    · exact h2.bound i h
    · exact .inr (fun σ hs => h σ (h2.sub σ hs))
  conv := fun σ hs h => h2.conv σ (h1.conv σ hs (fun i hi hn => h i hi (fun h' => hn (h2.roots i h')))) (fun i hi hn => h i (h1.roots i hi) hn)
  nodes := fun i k hk hi => h2.nodes i k hk (h1.nodes i k hk hi)
  proper := fun hp => h2.proper (h1.proper hp)
  measure := by
    obtain ⟨r1, hw1⟩ := h1.wf
    rcases h1.measure with hm1 | hm1 <;> rcases h2.measure with hm2 | hm2
    · exact .inl (by omega)
    · exact .inl (by rw [hm2.numRoots hw1]; exact hm1)
    · rw [hm1.numRoots hw] at hm2; exact .inl hm2
    · exact .inr (hm1.trans hm2)

/-- Replacing all unknowns by the constant gives the same before and after. -/
theorem Defaulted.subst {c : AKind} {r : Nat → Nat} {p q : Pool} (hw : WF r p) (h : Defaulted c p q) {σ τ : Assign} (hσ : Principal p σ)
    (hτ : Principal q τ) (hcs : ∀ ρ, c.subst ρ = c) {k : Kind} (hg : Good p k) : (k.sem τ).subst (fun _ => c) = (k.sem σ).subst (fun _ => c) := by
  rw [sem_subst, sem_subst]
  refine sem_agree (p := p) (T := AKind) hg (fun i hi => ?_)
  obtain ⟨rq, hwq⟩ := h.wf
  refine sol_unique (σ := fun i => (τ i).subst (fun _ => c)) (τ := fun i => (σ i).subst (fun _ => c)) hw (fun i k hk => ?_) (fun i k hk => ?_) (fun i hi => ?_) i hi
  · show (τ i).subst _ = _
    rw [h.sub τ hτ.1 i k hk]
    exact sem_subst _ τ k
  · show (σ i).subst _ = _
    rw [hσ.1 i k hk]
    exact sem_subst _ σ k
  · show (τ i).subst _ = (σ i).subst _
    rw [hσ.2 i hi, AKind.subst]
    rcases h.bound i hi with h' | h'
    · rw [hτ.2 i h', AKind.subst]
    · rw [h' τ hτ.1, hcs]

theorem forEach_default {c : AKind} {r : Nat → Nat} {p : Pool} (hw : WF r p) {f : Nat → Nat → Pool → Option (Except Error Unit × Pool)} :
    ∀ (cs : List Nat),
    (∀ x ∈ cs, ∀ q, Defaulted c p q → ∃ q' n0, (∀ n, n0 ≤ n → f n x q = some (.ok (), q')) ∧ Defaulted c q q' ∧
      (∀ τ, Sol q' τ → ∀ σ, Principal q σ → τ x = (σ x).subst (fun _ => c)) ∧
      ∀ τ : Assign, Sol q τ → (∀ σ, Principal q σ → τ x = (σ x).subst (fun _ => c)) → Sol q' τ) →
    ∀ q, Defaulted c p q → ∃ q' n0, (∀ n, n0 ≤ n → forEach (fun x _ => f n x) cs () q = some (.ok (), q')) ∧ Defaulted c q q' ∧
      (∀ x ∈ cs, ∀ τ, Sol q' τ → ∃ q1, Defaulted c p q1 ∧ ∀ σ, Principal q1 σ → τ x = (σ x).subst (fun _ => c)) ∧
      ∀ τ : Assign, Sol q τ → (∀ x ∈ cs, ∀ q1, Defaulted c p q1 → ∀ σ, Principal q1 σ → τ x = (σ x).subst (fun _ => c)) → Sol q' τ := by
  intro cs
  induction cs with
  | nil =>
    intro _ q hq
    obtain ⟨r', hw'⟩ := hq.wf
    exact ⟨q, 0, fun n _ => rfl, .of_compress hw' .refl, by simp, fun _ h _ => h⟩
  | cons x cs ih =>
    intro hl q hq
    obtain ⟨r', hw'⟩ := hq.wf
    obtain ⟨q1, n1, h1, h2, h3, h3'⟩ := hl x (by simp) q hq
    obtain ⟨q2, n2, h4, h5, h6, h6'⟩ := ih (fun y hy => hl y (by simp [hy])) q1 (hq.trans hw h2)
    refine ⟨q2, max n1 n2, fun n hn => by simp only [forEach, h1 n (by omega), h4 n (by omega)], h2.trans hw' h5, fun y hy τ hτ => ?_,
      fun τ hτ hx => h6' τ (h3' τ hτ (hx x (by simp) q hq)) (fun y hy => hx y (by simp [hy]))⟩
    rcases List.mem_cons.1 hy with rfl | hy
    · exact ⟨q, hq, fun σ hσ => h3 τ (h5.sub τ hτ) σ hσ⟩
    · exact h6 y hy τ hτ

/-- Defaulting with a constant always succeeds, and makes the kind what it was with every unknown replaced by the constant. -/
theorem defaultVars_spec {d : Kind} (hd : d.Const) (c : AKind) (hc : ∀ σ, d.sem σ = c) : ∀ (N R : Nat) (r : Nat → Nat) (p : Pool) (k : Kind), WF r p →
    numRoots p ≤ N → Low r R k → Good p k → k.Proper →
    ∃ p' n0, (∀ n, n0 ≤ n → defaultVars d n k p = some (.ok (), p')) ∧ Defaulted c p p' ∧
      (∀ τ, Sol p' τ → ∀ σ, Principal p σ → k.sem τ = (k.sem σ).subst (fun _ => c)) ∧
      ∀ τ : Assign, Sol p τ → (∀ σ, Principal p σ → k.sem τ = (k.sem σ).subst (fun _ => c)) → Sol p' τ := by
  have hcs : ∀ ρ, c.subst ρ = c := fun ρ => by rw [← hc (fun _ => .type)]; exact const_subst hd _ ρ
  have hdp : d.Proper := by cases d <;> simp_all [Kind.Const, Kind.Proper, children]
  intro N
  induction N using Nat.strongRecOn with
  | ind N ihN =>
    intro R
    induction R using Nat.strongRecOn with
    | ind R ihR =>
      intro r p k hw hN hL hg hk
      obtain ⟨k', p1, h1, h2, h3, h4, h5, h6, -, h8⟩ := resolve_spec hw hg hL.rankLt
      have hw1 := h2.wf hw
      have hsem : ∀ σ : Assign, Sol p σ → k.sem σ = k'.sem σ := fun σ hs => sem_resolved hw h2 h8 hs
      suffices hmain : ∃ p' n0, (∀ n, n0 ≤ n → (match (k', p1) with
          | (.var v, p) => unify n (.var v) d p
          | (.func lo hi ret, p) =>
            match forEach (fun c _ => defaultVars d n (.var c)) (vars lo hi) () p with
            | none => none
            | some (.error e, p) => some (.error e, p)
            | some (.ok (), p) => defaultVars d n (.var ret) p
          | (_, p) => some (.ok (), p)) = some (Except.ok (), p')) ∧ Defaulted c p1 p' ∧
          (∀ τ, Sol p' τ → ∀ σ, Principal p1 σ → k'.sem τ = (k'.sem σ).subst (fun _ => c)) ∧
          ∀ τ : Assign, Sol p1 τ → (∀ σ, Principal p1 σ → k'.sem τ = (k'.sem σ).subst (fun _ => c)) → Sol p' τ by
        obtain ⟨p', n0, e1, e2, e3, e3'⟩ := hmain
        refine ⟨p', max n0 R + 1, fun n hn => ?_, (Defaulted.of_compress hw h2).trans hw e2, fun τ hτ σ hσ => ?_,
          fun τ hτ h => e3' τ ((h2.sol hw τ).2 hτ) (fun σ hσ => ?_)⟩
        · obtain ⟨n, rfl⟩ : ∃ m, n = m + 1 := ⟨n - 1, by omega⟩
          rw [defaultVars]
          simp only [h1 n (by omega)]
          have := e1 n (by omega)
          cases k' <;> exact this
        · rw [hsem τ ((h2.sol hw τ).1 (e2.sub τ hτ)), hsem σ hσ.1]
          exact e3 τ hτ σ (hσ.compress hw h2)
        · have hσ' : Principal p σ := ⟨(h2.sol hw σ).1 hσ.1, fun i hi => hσ.2 i ((h2.isRoot hw i).2 hi)⟩
          rw [← hsem τ hτ, ← hsem σ hσ'.1]
          exact h σ hσ'
      have hconst : ∀ k'' : Kind, k''.Const → ∃ p' n0, (∀ n, n0 ≤ n → some ((Except.ok () : Except Error Unit), p1) = some (Except.ok (), p')) ∧
          Defaulted c p1 p' ∧ (∀ τ, Sol p' τ → ∀ σ, Principal p1 σ → k''.sem τ = (k''.sem σ).subst (fun _ => c)) ∧
          ∀ τ : Assign, Sol p1 τ → (∀ σ, Principal p1 σ → k''.sem τ = (k''.sem σ).subst (fun _ => c)) → Sol p' τ := fun k'' hk'' =>
        ⟨p1, 0, fun _ _ => rfl, .of_compress hw1 .refl, fun τ _ σ _ => by rw [const_subst hk'']; exact const_sem hk'' _ _, fun _ h _ => h⟩
      cases k' with
      | var v =>
        have hv : p1[v]? = some (.var v) := h3 v rfl
        have hroot : IsRoot p1 v := ⟨_, hv, rfl⟩
        obtain ⟨R', hR'⟩ := exists_low r (Kind.var v)
        have hgd : Good p1 d := fun j hj => by rw [refs_node hd.1, hd.2] at hj; simp at hj
        obtain ⟨res, p2, n0, e1, e2⟩ := unify_spec (numRoots p1) R' r p1 (.var v) d hw1 (Nat.le_refl _) hR' h4 hgd trivial hdp
        obtain ⟨σ0, s1, s2, -⟩ := exists_sol (K := Kind) hw1 (fun _ => c)
        have hres : res = .ok () := by
          cases res with
          | ok u => rfl
          | error e => exact absurd (by show Kind.sem σ0 (.var v) = d.sem σ0; rw [hc, Kind.sem, s2 v hroot]) (e2.err e rfl σ0 s1)
        subst hres
        have hvc : ∀ σ : Assign, Sol p2 σ → σ v = c := fun σ hs => by
          have := ((e2.ok rfl σ).1 hs).2
          rw [hc] at this; exact this
        refine ⟨p2, n0, fun n hn => by simpa using e1 n hn, ?_, fun τ hτ σ hσ => ?_, fun τ hτ h => ?_⟩
        · -- unknowns other than `v` stay: the solution set says so
          have hother : ∀ i, IsRoot p1 i → i ≠ v → IsRoot p2 i := by
            intro i hi hne
            obtain ⟨rq, hwq⟩ := e2.wf
            by_cases hb : IsRoot p2 i
            · exact hb
            · exfalso
              -- two solutions of `p1` with `v = c` that differ only in `i` are solutions of `p2`
              obtain ⟨σ1, t1, t2, -⟩ := exists_sol (K := Kind) hw1 (fun j => if j = v then c else if j = i then AKind.func [] c else AKind.error j)
              obtain ⟨σ2, u1, u2, -⟩ := exists_sol (K := Kind) hw1 (fun j => if j = v then c else if j = i then AKind.func [] (AKind.func [] c) else AKind.error j)
              have hσ1 : Sol p2 σ1 := (e2.ok rfl σ1).2 ⟨t1, by rw [hc, Kind.sem, t2 v hroot]; simp⟩
              have hσ2 : Sol p2 σ2 := (e2.ok rfl σ2).2 ⟨u1, by rw [hc, Kind.sem, u2 v hroot]; simp⟩
              have hil : i < p2.length := by
                rw [e2.len]; obtain ⟨x, hx, -⟩ := hi; exact lt_of_get hx
              have : σ1 i = σ2 i := by
                refine sol_unique hwq hσ1 hσ2 (fun j hj => ?_) i hil
                have hji : j ≠ i := fun h => hb (h ▸ hj)
                have hj1 := e2.roots j hj
                rw [t2 j hj1, u2 j hj1]
                simp [hji]
              rw [t2 i hi, u2 i hi] at this
              simp [hne] at this
              have hsz := congrArg AKind.size this
              simp [AKind.size, AKind.sizes] at hsz
          have hnot : ¬ IsRoot p2 v := by
            intro hb
            obtain ⟨rq, hwq⟩ := e2.wf
            obtain ⟨σ1, t1, t2, -⟩ := exists_sol (K := Kind) hwq (fun _ => AKind.func [] c)
            have h1' := hvc σ1 t1
            rw [t2 v hb] at h1'
            have hsz := congrArg AKind.size h1'
            simp [AKind.size, AKind.sizes] at hsz
          exact {
            len := e2.len
            wf := e2.wf
            sub := e2.sub
            roots := e2.roots
            bound := fun i hi => by
              by_cases hiv : i = v
              · subst hiv; exact .inr hvc
              · exact .inl (hother i hi hiv)
            conv := fun σ hs h => (e2.ok rfl σ).2 ⟨hs, by rw [hc]; exact h v hroot hnot⟩
            nodes := e2.nodes
            proper := e2.proper
            measure := e2.measure }
        · rw [Kind.sem, Kind.sem, hvc τ hτ, hσ.2 v hroot, AKind.subst]
        · obtain ⟨σ, hσ⟩ := exists_principal ⟨r, hw1⟩
          have := h σ hσ
          simp only [Kind.sem, hσ.2 v hroot, AKind.subst] at this
          exact (e2.ok rfl τ).2 ⟨hτ, by rw [hc]; exact this⟩
      | type => exact hconst .type ⟨rfl, rfl⟩
      | constraint => exact hconst .constraint ⟨rfl, rfl⟩
      | satisfaction => exact hconst .satisfaction ⟨rfl, rfl⟩
      | value => exact hconst .value ⟨rfl, rfl⟩
      | mac => exact hconst .mac ⟨rfl, rfl⟩
      | func lo hi ret =>
        have hlow := hL.resolved h8
        have hchild : ∀ x, x ∈ vars lo hi ∨ x = ret → r x + 1 < R ∧ x < p1.length := by
          intro x hx
          have hm : x ∈ children (Kind.func lo hi ret) := by simpa [children] using hx
          exact ⟨hlow x hm, h4 x hm⟩
        have hN1 : numRoots p1 ≤ N := by rw [h2.numRoots hw]; exact hN
        have hone : ∀ x q, (x ∈ vars lo hi ∨ x = ret) → Defaulted c p1 q → ∃ q' n0, (∀ n, n0 ≤ n → defaultVars d n (.var x) q = some (.ok (), q')) ∧
            Defaulted c q q' ∧ (∀ τ, Sol q' τ → ∀ σ, Principal q σ → τ x = (σ x).subst (fun _ => c)) ∧
            ∀ τ : Assign, Sol q τ → (∀ σ, Principal q σ → τ x = (σ x).subst (fun _ => c)) → Sol q' τ := by
          intro x q hx hq
          have hx' := hchild x hx
          have hgx : Good q (Kind.var x) := fun j hj => by
            simp [refs, asVar] at hj; subst hj; rw [hq.len]; exact hx'.2
          rcases hq.measure with hm | hm
          · obtain ⟨r', hw'⟩ := hq.wf
            obtain ⟨R', hR'⟩ := exists_low r' (Kind.var x)
            exact ihN (numRoots q) (by omega) R' r' q (.var x) hw' (Nat.le_refl _) hR' hgx trivial
          · exact ihR (r x + 1) hx'.1 r q (.var x) (hm.wf hw1) (by rw [hm.numRoots hw1]; exact hN1)
              ⟨fun v hv => by cases hv; omega, fun j hj => by simp [children] at hj⟩ hgx trivial
        obtain ⟨p2, n1, e1, e2, e3, e3'⟩ := forEach_default hw1 (f := fun n x => defaultVars d n (.var x)) (vars lo hi)
          (fun x hx q hq => hone x q (.inl hx) hq) p1 (.of_compress hw1 .refl)
        obtain ⟨p3, n2, e4, e5, e6, e6'⟩ := hone ret p2 (.inr rfl) e2
        refine ⟨p3, max n1 n2, fun n hn => by simp only [e1 n (by omega), e4 n (by omega)], e2.trans hw1 e5, fun τ hτ σ hσ => ?_, fun τ hτ h => ?_⟩
        rotate_left
        · obtain ⟨σ, hσ⟩ := exists_principal ⟨r, hw1⟩
          have heq := h σ hσ
          simp only [Kind.sem, AKind.subst, substs_map, List.map_map, AKind.func.injEq] at heq
          have hall : ∀ x, x ∈ vars lo hi ∨ x = ret → ∀ q, Defaulted c p1 q → ∀ σq, Principal q σq → τ x = (σq x).subst (fun _ => c) := by
            intro x hx q hq σq hσq
            have hgx : Good p1 (Kind.var x) := fun j hj => by simp [refs, asVar] at hj; rw [hj]; exact (hchild x hx).2
            have h1 : (σq x).subst (fun _ => c) = (σ x).subst (fun _ => c) := hq.subst hw1 hσ hσq hcs hgx
            rw [h1]
            rcases hx with hx | rfl
            · exact (List.map_inj_left.1 heq.1) x hx
            · exact heq.2
          exact e6' τ (e3' τ hτ (fun x hx q1 hq1 => hall x (.inl hx) q1 hq1)) (fun σq hσq => hall ret (.inr rfl) p2 e2 σq hσq)
        have hkey : ∀ x, x < p1.length → ∀ q, Defaulted c p1 q → (∀ σ, Principal q σ → τ x = (σ x).subst (fun _ => c)) →
            τ x = (σ x).subst (fun _ => c) := by
          intro x hx q hq h
          obtain ⟨σq, hσq⟩ := exists_principal hq.wf
          have hgx : Good p1 (Kind.var x) := fun j hj => by simp [refs, asVar] at hj; subst hj; exact hx
          have := hq.subst hw1 hσ hσq hcs hgx
          rw [h σq hσq]; exact this
        simp only [Kind.sem, AKind.subst, substs_map, List.map_map, AKind.func.injEq]
        constructor
        · apply List.map_congr_left
          intro x hx
          obtain ⟨q1, g1, g2⟩ := e3 x hx τ (e5.sub τ hτ)
          exact hkey x (hchild x (.inl hx)).2 q1 g1 g2
        · exact hkey ret (hchild ret (.inr rfl)).2 p2 e2 (fun σ hσ => e6 τ hτ σ hσ)

end Verif.KindUnify
