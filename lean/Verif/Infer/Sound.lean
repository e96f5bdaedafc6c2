import Verif.Infer.Steps

/-! # Type inference gives types that the program has -/
namespace Verif.Infer

theorem bind_some {α β : Type} {o : Option α} {f : α → Option β} {b : β} (h : o.bind f = some b) : ∃ a, o = some a ∧ f a = some b := Option.bind_eq_some_iff.1 h

/-! ### Environments -/

def In (Γ : Env) (R : Roots) : Prop := ∀ x sc, Γ x = some sc → R sc

def RetIn (ret : Option Ty) (R : Roots) : Prop := ∀ t, ret = some t → R (mono t)

theorem In.le {Γ : Env} {R R' : Roots} (h : In Γ R) (hr : ∀ sc, R sc → R' sc) : In Γ R' := fun x sc hx => hr sc (h x sc hx)

theorem RetIn.le {ret : Option Ty} {R R' : Roots} (h : RetIn ret R) (hr : ∀ sc, R sc → R' sc) : RetIn ret R' := fun t ht => hr _ (h t ht)

theorem In.set {Γ : Env} {R : Roots} {x : Nat} {sc : Sch} (h : In Γ R) (hs : R sc) : In (Γ.set x sc) R := by
  intro y sc' hy
  unfold Env.set at hy
  split at hy
  · cases hy; exact hs
  · exact h y sc' hy

theorem In.params {R : Roots} : ∀ {ps : Option (List Nat)} {ts : List Ty} {Γ : Env}, In Γ R → (∀ t ∈ ts, R (mono t)) → In (Γ.params ps ts) R
  | none, ts, Γ, h, _ => by cases ts <;> exact h
  | some [], ts, Γ, h, _ => by cases ts <;> exact h
  | some (x :: xs), [], Γ, h, _ => h
  | some (x :: xs), t :: ts, Γ, h, ht => In.params (ps := some xs) (h.set (ht t (.head _))) fun u hu => ht u (.tail _ hu)

theorem In.funs {R : Roots} {qs : List Nat} : ∀ {fs : Funs} {tys : List (List Ty × Ty)} {Γ : Env}, In Γ R → (∀ t ∈ funTys fs tys, R ⟨qs, t⟩) → In (Γ.funs qs fs tys) R
  | .nil, tys, Γ, h, _ => by cases tys <;> exact h
  | .cons _ _ _ _, [], Γ, h, _ => h
  | .cons f ps _ fs, (ts, r) :: tys, Γ, h, ht => In.funs (fs := fs) (h.set (ht _ (.head _))) fun u hu => ht u (.tail _ hu)

theorem export_set (Γ : Env) (x : Nat) (sc : Sch) (s : St) : (Γ.set x sc).export s = (Γ.export s).set x ⟨sc.gs, sc.t.subst s.σ⟩ := by
  funext y
  unfold Env.export Env.set
  by_cases e : y = x
  · rw [if_pos e, if_pos e]; rfl
  · rw [if_neg e, if_neg e]

theorem export_params (s : St) : ∀ (ps : Option (List Nat)) (ts : List Ty) (Γ : Env), (Γ.params ps ts).export s = (Γ.export s).params ps (ts.map (Ty.subst s.σ))
  | none, ts, Γ => by cases ts <;> rfl
  | some [], ts, Γ => by cases ts <;> rfl
  | some (x :: xs), [], Γ => rfl
  | some (x :: xs), t :: ts, Γ => by
    show ((Γ.set x (mono t)).params (some xs) ts).export s = ((Γ.export s).set x (mono (t.subst s.σ))).params (some xs) (ts.map (Ty.subst s.σ))
    rw [export_params s (some xs) ts, export_set]
    rfl

/-- The types of the functions of a group in the end. -/
def finals (s : St) (tys : List (List Ty × Ty)) : List (List Ty × Ty) := tys.map fun p => (p.1.map (Ty.subst s.σ), p.2.subst s.σ)

theorem export_funs (s : St) (qs : List Nat) : ∀ (fs : Funs) (tys : List (List Ty × Ty)) (Γ : Env), (Γ.funs qs fs tys).export s = (Γ.export s).funs qs fs (finals s tys)
  | .nil, tys, Γ => by cases tys <;> rfl
  | .cons _ _ _ _, [], Γ => rfl
  | .cons f ps _ fs, (ts, r) :: tys, Γ => by
    show ((Γ.set f ⟨qs, funTy ps ts r⟩).funs qs fs tys).export s = ((Γ.export s).set f ⟨qs, funTy ps (ts.map (Ty.subst s.σ)) (r.subst s.σ)⟩).funs qs fs (finals s tys)
    rw [export_funs s qs fs tys, export_set, ← funTy_subst]

/-- The versions of the type parameters in scope. -/
structure RV (B : Nat) (ρ : Vers) (K : Nat) (D : Nat → Prop) : Prop where
  dom : ∀ g l, ρ g = some l → g < B ∧ l < K
  cov : ∀ g, D g → ∃ l, ρ g = some l

theorem RV.lift {B : Nat} {ρ : Vers} {K K' : Nat} {D : Nat → Prop} (h : RV B ρ K D) (hk : K ≤ K') : RV B ρ K' D :=
  ⟨fun g l e => ⟨(h.dom g l e).1, Nat.lt_of_lt_of_le (h.dom g l e).2 hk⟩, h.cov⟩

theorem RV.set {B : Nat} {ρ : Vers} {K : Nat} {D : Nat → Prop} {gs : List Nat} (h : RV B ρ K D) (hg : ∀ g ∈ gs, g < B) : RV B (ρ.set gs K) (K + 1) fun g => D g ∨ g ∈ gs := by
  constructor
  · intro g l e
    unfold Vers.set at e
    split at e
    · rename_i hm
      cases e
      exact ⟨hg g hm, by omega⟩
    · have := h.dom g l e
      exact ⟨this.1, by omega⟩
  · intro g hd
    unfold Vers.set
    by_cases hm : g ∈ gs
    · exact ⟨K, if_pos hm⟩
    · obtain ⟨l, e⟩ := h.cov g (hd.resolve_right hm)
      exact ⟨l, by rw [if_neg hm, e]⟩

theorem RV.at {B : Nat} {ρ : Vers} {K : Nat} {D : Nat → Prop} {a : Ty} (h : RV B ρ K D) (ha : Written D a) : (a.at ρ).All (fun _ => False) fun g l => g < B ∧ l < K ∧ ¬ others K ρ g l := by
  unfold Ty.at
  refine (Ty.all_inst _ _ _ _).2 (Ty.All.imp (fun _ h => h) (fun g l hd => ?_) ha)
  obtain ⟨l', e⟩ := h.cov g hd
  rw [e]
  exact ⟨(h.dom g l' e).1, (h.dom g l' e).2, fun h => h.2 e⟩

theorem RV.at_subst {B : Nat} {ρ : Vers} {K : Nat} {D : Nat → Prop} {a : Ty} (h : RV B ρ K D) (ha : Written D a) (σ : Nat → Ty) : (a.at ρ).subst σ = a.at ρ := Ty.subst_none (h.at ha)

/-- The annotated functions come into use. -/
theorem Ok.expl {B K : Nat} {ρ : Vers} {D : Nat → Prop} (hρ : RV B ρ K D) : ∀ (es : EFuns) {Γ : Env} {R : Roots} {s : St}, es.OK B D → Inv B K R s → In Γ R →
    ∃ R', In (Γ.expl ρ es) R' ∧ Ok B (others K ρ) K R s R' s fun sf => (Γ.expl ρ es).export sf = (Γ.export sf).expl ρ es
  | .nil, Γ, R, s, _, hi, hΓ => ⟨R, hΓ, (Ok.refl hi).imp fun _ _ => rfl⟩
  | .cons f gs t ps b es, Γ, R, s, ho, hi, hΓ => by
    have key : (t.at ρ).All (fun _ => False) fun g l => g < B ∧ (g ∈ gs ∨ (l < K ∧ ¬ others K ρ g l)) := by
      unfold Ty.at
      refine (Ty.all_inst _ _ _ _).2 (Ty.All.imp (fun _ h => h) (fun g l hd => ?_) ho.2.1)
      cases e : ρ g with
      | some l' => exact ⟨(hρ.dom g l' e).1, .inr ⟨(hρ.dom g l' e).2, fun h => h.2 e⟩⟩
      | none =>
        have hm : g ∈ gs := hd.resolve_left fun hd => by obtain ⟨l', e'⟩ := hρ.cov g hd; rw [e] at e'; cases e'
        exact ⟨ho.1 g hm, .inl hm⟩
    have o1 := Ok.scheme (A := others K ρ) (sc := ⟨gs, t.at ρ⟩) hi ho.1 key
    obtain ⟨R', h1, o2⟩ := Ok.expl hρ es (Γ := Γ.set f ⟨gs, t.at ρ⟩) ho.2.2.2 o1.inv ((hΓ.le o1.sub).set (.inl rfl))
    refine ⟨R', h1, (o1.bind o2).imp fun sf h => ?_⟩
    show ((Γ.set f ⟨gs, t.at ρ⟩).expl ρ es).export sf = ((Γ.export sf).set f ⟨gs, t.at ρ⟩).expl ρ es
    rw [h.2, export_set]
    simp only [Ty.subst_none key]

/-! ### Patterns -/

theorem inferPat_as (k lv x : Nat) (p : Pat) (Γ : Env) (s : St) : inferPat k lv (.as_ x p) Γ s =
    (inferPat k lv p (Γ.set x (mono (newVar lv s).1)) (newVar lv s).2).bind fun q => (unify k (newVar lv s).1 q.1 q.2.2).bind fun s' => some ((newVar lv s).1, q.2.1, s') := by
  simp only [inferPat]; rfl

theorem inferPat_decon (k lv c : Nat) (ps : List Pat) (Γ : Env) (s : St) : inferPat k lv (.decon c ps) Γ s =
    (Γ c).bind fun sc => (inferPats k lv ps Γ (inferUse lv sc s).2).bind fun q =>
      (unify k (inferUse lv sc s).1 (arrow q.1 (newVar lv q.2.2).1) (newVar lv q.2.2).2).bind fun s' => some ((newVar lv q.2.2).1, q.2.1, s') := by
  simp only [inferPat]; rfl

theorem inferPats_cons (k lv : Nat) (p : Pat) (ps : List Pat) (Γ : Env) (s : St) : inferPats k lv (p :: ps) Γ s =
    (inferPat k lv p Γ s).bind fun q => (inferPats k lv ps q.2.1 q.2.2).bind fun q' => some (q.1 :: q'.1, q'.2.1, q'.2.2) := by
  simp only [inferPats]; rfl

mutual
theorem inferPat_ok {B K k lv : Nat} {A : Nat → Nat → Prop} (hk : lv + 1 ≤ K) : ∀ (p : Pat) {Γ Γ' : Env} {R : Roots} {s s' : St} {t : Ty}, inferPat k lv p Γ s = some (t, Γ', s') →
    p.OK → Inv B K R s → In Γ R →
    ∃ R', In Γ' R' ∧ R' (mono t) ∧ Ok B A K R s R' s' fun sf => PatTy p (t.subst sf.σ) (Γ.export sf) (Γ'.export sf)
  | .wild, Γ, Γ', R, s, s', t, h, _, hi, hΓ => by
    simp only [inferPat, Option.some.injEq, Prod.mk.injEq] at h
    obtain ⟨rfl, rfl, rfl⟩ := h
    have o := Ok.new (A := A) hi hk
    exact ⟨_, hΓ.le o.sub, .inl rfl, o.imp fun _ _ => rfl⟩
  | .num, Γ, Γ', R, s, s', t, h, _, hi, hΓ => by
    simp only [inferPat, Option.some.injEq, Prod.mk.injEq] at h
    obtain ⟨rfl, rfl, rfl⟩ := h
    have o := Ok.new (A := A) hi hk
    exact ⟨_, hΓ.le o.sub, .inl rfl, o.imp fun _ _ => rfl⟩
  | .var x, Γ, Γ', R, s, s', t, h, _, hi, hΓ => by
    simp only [inferPat, Option.some.injEq, Prod.mk.injEq] at h
    obtain ⟨rfl, rfl, rfl⟩ := h
    have o := Ok.new (A := A) hi hk
    exact ⟨_, (hΓ.le o.sub).set (.inl rfl), .inl rfl, o.imp fun sf _ => export_set _ _ _ _⟩
  | .const c, Γ, Γ', R, s, s', t, h, hc, hi, hΓ => by
    simp only [inferPat, Option.some.injEq, Prod.mk.injEq] at h
    obtain ⟨rfl, rfl, rfl⟩ := h
    have o := Ok.made (A := A) hi (.const hi.base hc)
    exact ⟨_, hΓ.le o.sub, .inl rfl, o.imp fun sf _ => ⟨rfl, Ty.subst_none hc⟩⟩
  | .con c, Γ, Γ', R, s, s', t, h, _, hi, hΓ => by
    unfold inferPat at h
    obtain ⟨sc, hc, h⟩ := bind_some h
    simp only [Option.some.injEq, Prod.mk.injEq] at h
    obtain ⟨rfl, rfl, rfl⟩ := h
    have o := Ok.use (A := A) hi hk (hΓ c sc hc)
    refine ⟨_, hΓ.le o.sub, .inl rfl, o.imp fun sf ⟨m, e⟩ => ⟨rfl, _, m, ?_, e⟩⟩
    unfold Env.export
    rw [hc]
    rfl
  | .as_ x p, Γ, Γ', R, s, s', t, h, ho, hi, hΓ => by
    rw [inferPat_as] at h
    obtain ⟨⟨u, Γ1, s1⟩, h1, h⟩ := bind_some h
    obtain ⟨s2, h2, h⟩ := bind_some h
    simp only [Option.some.injEq, Prod.mk.injEq] at h
    obtain ⟨rfl, rfl, rfl⟩ := h
    have o0 := Ok.new (A := A) hi hk
    obtain ⟨R1, hΓ1, hu, o1⟩ := inferPat_ok (A := A) hk p h1 ho o0.inv ((hΓ.le o0.sub).set (.inl rfl))
    have ht := o1.sub _ (.inl rfl)
    have o2 := Ok.unify (A := A) o1.inv h2 (.root o1.inv ht) (.root o1.inv hu)
    refine ⟨R1, hΓ1, ht, ((o0.bind o1).bind o2).imp fun sf ⟨⟨_, h1⟩, e⟩ => ?_⟩
    rw [export_set] at h1
    show PatTy p _ ((Γ.export sf).set x (mono _)) _
    rw [e]
    have h1' : PatTy p (u.subst sf.σ) ((Γ.export sf).set x (mono ((newVar lv s).1.subst sf.σ))) (Γ1.export sf) := h1
    rwa [e] at h1'
  | .decon c ps, Γ, Γ', R, s, s', t, h, ho, hi, hΓ => by
    rw [inferPat_decon] at h
    obtain ⟨sc, hc, h⟩ := bind_some h
    obtain ⟨⟨ts, Γ1, s1⟩, h1, h⟩ := bind_some h
    obtain ⟨s2, h2, h⟩ := bind_some h
    simp only [Option.some.injEq, Prod.mk.injEq] at h
    obtain ⟨rfl, rfl, rfl⟩ := h
    have o0 := Ok.use (A := A) hi hk (hΓ c sc hc)
    obtain ⟨R1, hΓ1, hts, o1⟩ := inferPats_ok (A := A) hk ps h1 ho o0.inv (hΓ.le o0.sub)
    have o2 := Ok.new (A := A) o1.inv hk
    have o3 := Ok.unify (A := A) o2.inv h2 (.root o2.inv (.inr (o1.sub _ (.inl rfl)))) (.arrow (fun u hu => .root o2.inv (.inr (hts u hu))) (.root o2.inv (.inl rfl)))
    refine ⟨_, hΓ1.le o2.sub, .inl rfl, (((o0.bind o1).bind o2).bind o3).imp fun sf ⟨⟨⟨⟨m, e1⟩, hp⟩, _⟩, e⟩ => ⟨⟨sc.gs, sc.t.subst sf.σ⟩, m, _, ?_, ?_, hp⟩⟩
    · unfold Env.export
      rw [hc]
      rfl
    · rw [← e1, e, arrow_subst]
theorem inferPats_ok {B K k lv : Nat} {A : Nat → Nat → Prop} (hk : lv + 1 ≤ K) : ∀ (ps : List Pat) {Γ Γ' : Env} {R : Roots} {s s' : St} {ts : List Ty},
    inferPats k lv ps Γ s = some (ts, Γ', s') → Pat.OKs ps → Inv B K R s → In Γ R →
    ∃ R', In Γ' R' ∧ (∀ t ∈ ts, R' (mono t)) ∧ Ok B A K R s R' s' fun sf => PatTys ps (ts.map (Ty.subst sf.σ)) (Γ.export sf) (Γ'.export sf)
  | [], Γ, Γ', R, s, s', ts, h, _, hi, hΓ => by
    simp only [inferPats, Option.some.injEq, Prod.mk.injEq] at h
    obtain ⟨rfl, rfl, rfl⟩ := h
    exact ⟨R, hΓ, fun t ht => (by cases ht), (Ok.refl hi).imp fun _ _ => ⟨rfl, rfl⟩⟩
  | p :: ps, Γ, Γ', R, s, s', ts, h, ho, hi, hΓ => by
    rw [inferPats_cons] at h
    obtain ⟨⟨t, Γ1, s1⟩, h1, h⟩ := bind_some h
    obtain ⟨⟨ts', Γ2, s2⟩, h2, h⟩ := bind_some h
    simp only [Option.some.injEq, Prod.mk.injEq] at h
    obtain ⟨rfl, rfl, rfl⟩ := h
    obtain ⟨R1, hΓ1, ht, o1⟩ := inferPat_ok (A := A) hk p h1 ho.1 hi hΓ
    obtain ⟨R2, hΓ2, hts, o2⟩ := inferPats_ok (A := A) hk ps h2 ho.2 o1.inv hΓ1
    exact ⟨R2, hΓ2, List.forall_mem_cons.2 ⟨o2.sub _ ht, hts⟩, (o1.bind o2).imp fun sf h => ⟨_, _, _, rfl, h.1, h.2⟩⟩
end

/-! ### Functions of a group, before their bodies -/

/-- The types of the parameters and results of the functions are in use. -/
def Pre (R : Roots) : Funs → List (List Ty × Ty) → Prop
  | .nil, tys => tys = []
  | .cons _ ps _ fs, tys => ∃ ts r tys', tys = (ts, r) :: tys' ∧ ts.length = arity ps ∧ (∀ t ∈ ts, R (mono t)) ∧ R (mono r) ∧ R (mono (funTy ps ts r)) ∧ Pre R fs tys'

theorem Pre.le {R R' : Roots} (hr : ∀ sc, R sc → R' sc) : ∀ {fs : Funs} {tys : List (List Ty × Ty)}, Pre R fs tys → Pre R' fs tys
  | .nil, _, h => h
  | .cons _ _ _ _, _, ⟨ts, r, tys', e, h1, h2, h3, h4, h5⟩ => ⟨ts, r, tys', e, h1, fun t ht => hr _ (h2 t ht), hr _ h3, hr _ h4, Pre.le hr h5⟩

theorem Pre.funTys {R : Roots} : ∀ {fs : Funs} {tys : List (List Ty × Ty)}, Pre R fs tys → ∀ t ∈ funTys fs tys, R (mono t)
  | .nil, tys, h, t, ht => by cases tys <;> cases ht
  | .cons _ _ _ _, _, ⟨ts, r, tys', e, _, _, _, h4, h5⟩, t, ht => by
    subst e
    rcases List.mem_cons.1 ht with rfl | ht
    · exact h4
    · exact Pre.funTys h5 t ht

theorem prepare_cons (k lv f : Nat) (ps : Option (List Nat)) (b : Expr) (fs : Funs) (s : St) : prepare k lv (.cons f ps b fs) s =
    (withParams k ps (newVar lv s).1 (newVar lv s).2).bind fun q => (prepare k lv fs q.2).bind fun q' => some (q.1 :: q'.1, q'.2) := by
  simp only [prepare]; rfl

theorem prepare_ok {B K k lv : Nat} {A : Nat → Nat → Prop} (hk : lv + 1 ≤ K) : ∀ (fs : Funs) {R : Roots} {s s' : St} {tys : List (List Ty × Ty)}, prepare k lv fs s = some (tys, s') → Inv B K R s →
    ∃ R', Pre R' fs tys ∧ Ok B A K R s R' s' fun _ => True
  | .nil, R, s, s', tys, h, hi => by
    simp only [prepare, Option.some.injEq, Prod.mk.injEq] at h
    obtain ⟨rfl, rfl⟩ := h
    exact ⟨R, rfl, Ok.refl hi⟩
  | .cons f ps b fs, R, s, s', tys, h, hi => by
    rw [prepare_cons] at h
    obtain ⟨⟨⟨ts, r⟩, s1⟩, h1, h⟩ := bind_some h
    obtain ⟨⟨tys', s2⟩, h2, h⟩ := bind_some h
    simp only [Option.some.injEq, Prod.mk.injEq] at h
    obtain ⟨rfl, rfl⟩ := h
    have o0 := Ok.new (A := A) hi hk
    obtain ⟨hl, R1, hts, hr, hf, o1⟩ := Ok.params (A := A) h1 o0.inv (.root o0.inv (.inl rfl))
    obtain ⟨R2, hp, o2⟩ := prepare_ok (A := A) hk fs h2 o1.inv
    exact ⟨R2, ⟨ts, r, tys', rfl, hl, fun t ht => o2.sub _ (hts t ht), o2.sub _ hr, o2.sub _ hf, hp⟩, ((o0.bind o1).bind o2).imp fun _ _ => trivial⟩

/-! ### Expressions -/

section eqns
variable (fx : Bool) (k lv : Nat) (ρ : Vers) (Γ : Env) (ret : Option Ty) (s : St)

theorem infer_app (f : Expr) (args : Exprs) : infer fx k lv ρ Γ ret (.app f args) s =
    (infer fx k lv ρ Γ ret f s).bind fun p => (inferList fx k lv ρ Γ ret args p.2).bind fun q =>
      (unify k p.1 (arrow q.1 (newVar lv q.2).1) (newVar lv q.2).2).bind fun s' => some ((newVar lv q.2).1, s') := by
  simp only [infer]; rfl

theorem infer_ann (e : Expr) (a : Ty) : infer fx k lv ρ Γ ret (.ann e a) s =
    (infer fx k lv ρ Γ ret e s).bind fun p => (unify k p.1 (a.at ρ) p.2).bind fun s' => some (p.1, s') := by
  simp only [infer]; rfl

theorem infer_let (es : EFuns) (gs : Groups) (vs : Vars) (b : Expr) : infer fx k lv ρ Γ ret (.let_ es gs vs b) s =
    (inferGroups fx k (lv + 1) ρ (Γ.expl ρ es) gs s).bind fun p => (inferExpl fx k (lv + 1) ρ p.1 es p.2).bind fun s' =>
      (inferVars fx k lv ρ p.1 ret vs s').bind fun q => infer fx k lv ρ q.1 ret b q.2 := by
  simp only [infer]; rfl

theorem infer_seq (e b : Expr) : infer fx k lv ρ Γ ret (.seq e b) s = (infer fx k lv ρ Γ ret e s).bind fun p => infer fx k lv ρ Γ ret b p.2 := by
  simp only [infer]; rfl

theorem infer_ite (c a b : Expr) : infer fx k lv ρ Γ ret (.ite c a b) s =
    (infer fx k lv ρ Γ ret c s).bind fun p => (unify k p.1 boolTy p.2).bind fun s' => (infer fx k lv ρ Γ ret a s').bind fun q =>
      (infer fx k lv ρ Γ ret b q.2).bind fun q' => (unify k q.1 q'.1 q'.2).bind fun s' => some (q.1, s') := by
  simp only [infer]; rfl

theorem infer_while (c b : Expr) : infer fx k lv ρ Γ ret (.while c b) s =
    (infer fx k lv ρ Γ ret c s).bind fun p => (unify k p.1 boolTy p.2).bind fun s' => (infer fx k lv ρ Γ ret b s').bind fun q => some (unitTy, q.2) := by
  simp only [infer]; rfl

theorem infer_match (e : Expr) (cs : Clauses) : infer fx k lv ρ Γ ret (.match_ e cs) s =
    (infer fx k lv ρ Γ ret e s).bind fun p => (inferClauses fx k lv ρ Γ ret cs p.1 (newVar lv p.2).1 (newVar lv p.2).2).bind fun s' => some ((newVar lv p.2).1, s') := by
  simp only [infer]; rfl

theorem infer_ret (e : Expr) : infer fx k lv ρ Γ ret (.ret e) s =
    ret.bind fun r => (infer fx k lv ρ Γ ret e s).bind fun p => (unify k r p.1 p.2).bind fun s' => some (newVar lv s') := by
  simp only [infer]; rfl

theorem infer_retUnit : infer fx k lv ρ Γ ret .retUnit s = ret.bind fun r => (unify k r unitTy s).bind fun s' => some (newVar lv s') := by
  simp only [infer]; rfl

theorem inferList_cons (e : Expr) (es : Exprs) : inferList fx k lv ρ Γ ret (.cons e es) s =
    (infer fx k lv ρ Γ ret e s).bind fun p => (inferList fx k lv ρ Γ ret es p.2).bind fun q => some (p.1 :: q.1, q.2) := by
  simp only [inferList]; rfl

theorem inferClauses_cons (p : Pat) (b : Expr) (cs : Clauses) (u r : Ty) : inferClauses fx k lv ρ Γ ret (.cons p b cs) u r s =
    (inferPat k lv p Γ s).bind fun q => (unify k u q.1 q.2.2).bind fun s' => (infer fx k lv ρ q.2.1 ret b s').bind fun q' => (unify k r q'.1 q'.2).bind fun s' =>
      inferClauses fx k lv ρ Γ ret cs u r s' := by
  simp only [inferClauses]; rfl

theorem inferVars_some (x : Nat) (e : Expr) (a : Ty) (vs : Vars) : inferVars fx k lv ρ Γ ret (.cons x e (some a) vs) s =
    (infer fx k lv ρ Γ ret e s).bind fun p => (unify k p.1 (a.at ρ) p.2).bind fun s' => inferVars fx k lv ρ (Γ.set x (mono p.1)) ret vs s' := by
  simp only [inferVars]; rfl

theorem inferVars_none (x : Nat) (e : Expr) (vs : Vars) : inferVars fx k lv ρ Γ ret (.cons x e none vs) s =
    (infer fx k lv ρ Γ ret e s).bind fun p => inferVars fx k lv ρ (Γ.set x (mono p.1)) ret vs p.2 := by
  simp only [inferVars]; rfl

theorem inferExpl_cons (f : Nat) (gs : List Nat) (t : Ty) (ps : Option (List Nat)) (b : Expr) (es : EFuns) : inferExpl fx k lv ρ Γ (.cons f gs t ps b es) s =
    (withParams k ps (t.at (ρ.set gs lv)) s).bind fun p => (infer fx k lv (ρ.set gs lv) (Γ.params ps p.1.1) (some p.1.2) b p.2).bind fun q =>
      (unify k p.1.2 q.1 q.2).bind fun s' => inferExpl fx k lv ρ Γ es s' := by
  simp only [inferExpl]; rfl

theorem inferBodies_cons (f : Nat) (ps : Option (List Nat)) (b : Expr) (fs : Funs) (p : List Ty × Ty) (tys : List (List Ty × Ty)) :
    inferBodies fx k lv ρ Γ (.cons f ps b fs) (p :: tys) s =
    (infer fx k lv ρ (Γ.params ps p.1) (some p.2) b s).bind fun q => (unify k p.2 q.1 q.2).bind fun s' => inferBodies fx k lv ρ Γ fs tys s' := by
  simp only [inferBodies]; rfl

theorem inferGroups_cons (fs : Funs) (gs : Groups) : inferGroups fx k lv ρ Γ (.cons fs gs) s =
    (prepare k lv fs s).bind fun p => (inferBodies fx k lv ρ (Γ.funs [] fs p.1) fs p.1 p.2).bind fun s' =>
      inferGroups fx k lv ρ (Γ.funs (quantify (commonVars fx lv s' (funTys fs p.1)) s').1 fs p.1) gs (quantify (commonVars fx lv s' (funTys fs p.1)) s').2 := by
  simp only [inferGroups]; rfl

end eqns

theorem mem_of_export {Γ : Env} {s : St} {x : Nat} {sc : Sch} (h : Γ x = some sc) : Γ.export s x = some ⟨sc.gs, sc.t.subst s.σ⟩ := by
  unfold Env.export; rw [h]; rfl

theorem of_export {Γ : Env} {s : St} {x : Nat} {sc : Sch} (h : Γ.export s x = some sc) : ∃ sc', Γ x = some sc' ∧ sc = ⟨sc'.gs, sc'.t.subst s.σ⟩ := by
  unfold Env.export at h
  obtain ⟨sc', h1, h2⟩ := Option.map_eq_some_iff.1 h
  exact ⟨sc', h1, h2.symm⟩

mutual
theorem infer_ok {fx : Bool} {B k : Nat} : ∀ (e : Expr) {lv : Nat} {ρ : Vers} {D : Nat → Prop} {Γ : Env} {ret : Option Ty} {R : Roots} {s s' : St} {t : Ty},
    infer fx k lv ρ Γ ret e s = some (t, s') → fx = true ∨ e.Single → e.OK B D → RV B ρ (lv + 1) D → Inv B (lv + 1) R s → In Γ R → RetIn ret R →
    Ok B (others (lv + 1) ρ) (lv + 1) R s (R.add (mono t)) s' fun sf => HasTy ρ (Γ.export sf) (ret.map (Ty.subst sf.σ)) e (t.subst sf.σ)
  | .use x, lv, ρ, D, Γ, ret, R, s, s', t, h, hf, ho, hρ, hi, hΓ, hr => by
    unfold infer at h
    obtain ⟨sc, hx, h⟩ := bind_some h
    obtain ⟨rfl, rfl⟩ := Prod.mk.inj (Option.some.inj h)
    exact (Ok.use hi (Nat.le_refl _) (hΓ x sc hx)).imp fun sf ⟨m, e⟩ => ⟨_, m, mem_of_export hx, e⟩
  | .const c, lv, ρ, D, Γ, ret, R, s, s', t, h, hf, ho, hρ, hi, hΓ, hr => by
    simp only [infer, Option.some.injEq, Prod.mk.injEq] at h
    obtain ⟨rfl, rfl⟩ := h
    exact (Ok.made hi (.const hi.base ho)).imp fun sf _ => Ty.subst_none ho
  | .num, lv, ρ, D, Γ, ret, R, s, s', t, h, hf, ho, hρ, hi, hΓ, hr => by
    unfold infer at h
    obtain ⟨rfl, rfl⟩ := Prod.mk.inj (Option.some.inj h)
    exact (Ok.new hi (Nat.le_refl _)).imp fun sf _ => trivial
  | .app f args, lv, ρ, D, Γ, ret, R, s, s', t, h, hf, ho, hρ, hi, hΓ, hr => by
    rw [infer_app] at h
    obtain ⟨⟨t1, s1⟩, h1, h⟩ := bind_some h
    obtain ⟨⟨ts, s2⟩, h2, h⟩ := bind_some h
    obtain ⟨s3, h3, h⟩ := bind_some h
    obtain ⟨rfl, rfl⟩ := Prod.mk.inj (Option.some.inj h)
    have o1 := infer_ok f h1 (hf.imp_right fun h => h.1) ho.1 hρ hi hΓ hr
    obtain ⟨R2, hts, o2⟩ := inferList_ok args h2 (hf.imp_right fun h => h.2) ho.2 hρ o1.inv (hΓ.le o1.sub) (hr.le o1.sub)
    have o3 := Ok.new (A := others (lv + 1) ρ) o2.inv (Nat.le_refl _)
    have o4 := Ok.unify (A := others (lv + 1) ρ) o3.inv h3 (.root o3.inv (.inr (o2.sub _ (.inl rfl)))) (.arrow (fun u hu => .root o3.inv (.inr (hts u hu))) (.root o3.inv (.inl rfl)))
    refine ((((o1.bind o2).bind o3).bind o4).drop (fun _ h => .inr h) fun sc h => h.imp_right fun h => o2.sub _ (o1.sub _ h)).imp fun sf ⟨⟨⟨a1, a2⟩, _⟩, e⟩ => ⟨_, ?_, a2⟩
    rw [arrow_subst] at e
    rwa [← e]
  | .ann e a, lv, ρ, D, Γ, ret, R, s, s', t, h, hf, ho, hρ, hi, hΓ, hr => by
    rw [infer_ann] at h
    obtain ⟨⟨t1, s1⟩, h1, h⟩ := bind_some h
    obtain ⟨s3, h3, h⟩ := bind_some h
    obtain ⟨rfl, rfl⟩ := Prod.mk.inj (Option.some.inj h)
    have o1 := infer_ok e h1 hf ho.1 hρ hi hΓ hr
    have o2 := Ok.unify (A := others (lv + 1) ρ) o1.inv h3 (.root o1.inv (.inl rfl)) (.closed o1.inv.base (hρ.at ho.2))
    exact (o1.bind o2).imp fun sf ⟨a1, e⟩ => ⟨e.trans (hρ.at_subst ho.2 _), a1⟩
  | .let_ es gs vs b, lv, ρ, D, Γ, ret, R, s, s', t, h, hf, ho, hρ, hi, hΓ, hr => by
    rw [infer_let] at h
    obtain ⟨⟨Γ1, s1⟩, h1, h⟩ := bind_some h
    obtain ⟨s2, h2, h⟩ := bind_some h
    obtain ⟨⟨Γ2, s3⟩, h3, h⟩ := bind_some h
    obtain ⟨R0, hΓ0, o0⟩ := Ok.expl hρ es ho.1 hi hΓ
    obtain ⟨R1, hΓ1, o1⟩ := inferGroups_ok gs h1 (hf.imp_right fun h => h.2.1) ho.2.1 hρ o0.inv hΓ0
    have o2 := inferExpl_ok es h2 (hf.imp_right fun h => h.1) ho.1 hρ o1.inv hΓ1
    obtain ⟨R3, hΓ3, o3⟩ := inferVars_ok vs h3 (hf.imp_right fun h => h.2.2.1) ho.2.2.1 hρ o2.inv hΓ1 (hr.le fun sc h => o1.sub _ (o0.sub _ h))
    have o4 := infer_ok b h (hf.imp_right fun h => h.2.2.2) ho.2.2.2 hρ o3.inv hΓ3 (hr.le fun sc h => o3.sub _ (o1.sub _ (o0.sub _ h)))
    refine (((((o0.bind (o1.less fun g l h => ⟨Nat.lt_succ_of_lt h.1, h.2⟩)).bind o2).bind o3).bind o4).drop (fun _ h => .inr h)
      fun sc h => h.imp_right fun h => o3.sub _ (o1.sub _ (o0.sub _ h))).imp fun sf ⟨⟨⟨⟨e, a1⟩, a2⟩, a3⟩, a4⟩ => ⟨_, _, e ▸ a1, a2, a3, a4⟩
  | .seq e b, lv, ρ, D, Γ, ret, R, s, s', t, h, hf, ho, hρ, hi, hΓ, hr => by
    rw [infer_seq] at h
    obtain ⟨⟨t1, s1⟩, h1, h⟩ := bind_some h
    have o1 := infer_ok e h1 (hf.imp_right fun h => h.1) ho.1 hρ hi hΓ hr
    have o2 := infer_ok b h (hf.imp_right fun h => h.2) ho.2 hρ o1.inv (hΓ.le o1.sub) (hr.le o1.sub)
    exact ((o1.bind o2).drop (fun _ h => .inr h) fun sc h => h.imp_right fun h => .inr h).imp fun sf ⟨a1, a2⟩ => ⟨⟨_, a1⟩, a2⟩
  | .ite c a b, lv, ρ, D, Γ, ret, R, s, s', t, h, hf, ho, hρ, hi, hΓ, hr => by
    rw [infer_ite] at h
    obtain ⟨⟨t1, s1⟩, h1, h⟩ := bind_some h
    obtain ⟨s2, h2, h⟩ := bind_some h
    obtain ⟨⟨t3, s3⟩, h3, h⟩ := bind_some h
    obtain ⟨⟨t4, s4⟩, h4, h⟩ := bind_some h
    obtain ⟨s5, h5, h⟩ := bind_some h
    obtain ⟨rfl, rfl⟩ := Prod.mk.inj (Option.some.inj h)
    have o1 := infer_ok c h1 (hf.imp_right fun h => h.1) ho.1 hρ hi hΓ hr
    have o2 := Ok.unify (A := others (lv + 1) ρ) o1.inv h2 (.root o1.inv (.inl rfl)) (.const o1.inv.base trivial)
    have o3 := infer_ok a h3 (hf.imp_right fun h => h.2.1) ho.2.1 hρ o2.inv (hΓ.le o1.sub) (hr.le o1.sub)
    have o4 := infer_ok b h4 (hf.imp_right fun h => h.2.2) ho.2.2 hρ o3.inv (hΓ.le fun _ h => .inr (.inr h)) (hr.le fun _ h => .inr (.inr h))
    have o5 := Ok.unify (A := others (lv + 1) ρ) o4.inv h5 (.root o4.inv (.inr (.inl rfl))) (.root o4.inv (.inl rfl))
    refine (((((o1.bind o2).bind o3).bind o4).bind o5).drop (fun _ h => .inr h) fun sc h => .inr (h.imp_right fun h => .inr h)).imp
      fun sf ⟨⟨⟨⟨a1, a2⟩, a3⟩, a4⟩, a5⟩ => ⟨?_, a3, ?_⟩
    · rw [a2] at a1; exact a1
    · rw [a5]; exact a4
  | .while c b, lv, ρ, D, Γ, ret, R, s, s', t, h, hf, ho, hρ, hi, hΓ, hr => by
    rw [infer_while] at h
    obtain ⟨⟨t1, s1⟩, h1, h⟩ := bind_some h
    obtain ⟨s2, h2, h⟩ := bind_some h
    obtain ⟨⟨t3, s3⟩, h3, h⟩ := bind_some h
    obtain ⟨rfl, rfl⟩ := Prod.mk.inj (Option.some.inj h)
    have o1 := infer_ok c h1 (hf.imp_right fun h => h.1) ho.1 hρ hi hΓ hr
    have o2 := Ok.unify (A := others (lv + 1) ρ) o1.inv h2 (.root o1.inv (.inl rfl)) (.const o1.inv.base trivial)
    have o3 := infer_ok b h3 (hf.imp_right fun h => h.2) ho.2 hρ o2.inv (hΓ.le o1.sub) (hr.le o1.sub)
    have o4 := Ok.made (A := others (lv + 1) ρ) o3.inv (t := unitTy) (.const o3.inv.base trivial)
    refine ((((o1.bind o2).bind o3).bind o4).drop (fun _ h => .inr h) fun sc h => h.imp_right fun h => .inr (.inr h)).imp
      fun sf ⟨⟨⟨a1, a2⟩, a3⟩, _⟩ => ⟨rfl, ?_, _, a3⟩
    rw [a2] at a1; exact a1
  | .match_ e cs, lv, ρ, D, Γ, ret, R, s, s', t, h, hf, ho, hρ, hi, hΓ, hr => by
    rw [infer_match] at h
    obtain ⟨⟨t1, s1⟩, h1, h⟩ := bind_some h
    obtain ⟨s2, h2, h⟩ := bind_some h
    obtain ⟨rfl, rfl⟩ := Prod.mk.inj (Option.some.inj h)
    have o1 := infer_ok e h1 (hf.imp_right fun h => h.1) ho.1 hρ hi hΓ hr
    have o2 := Ok.new (A := others (lv + 1) ρ) o1.inv (Nat.le_refl _)
    have o3 := inferClauses_ok cs h2 (hf.imp_right fun h => h.2) ho.2 hρ o2.inv (hΓ.le fun _ h => .inr (.inr h)) (hr.le fun _ h => .inr (.inr h)) (.inr (.inl rfl)) (.inl rfl)
    exact (((o1.bind o2).bind o3).drop (fun _ h => .inr h) fun sc h => h.imp_right fun h => .inr h).imp fun sf ⟨⟨a1, _⟩, a3⟩ => ⟨_, a1, a3⟩
  | .ret e, lv, ρ, D, Γ, ret, R, s, s', t, h, hf, ho, hρ, hi, hΓ, hr => by
    rw [infer_ret] at h
    obtain ⟨r, h0, h⟩ := bind_some h
    obtain ⟨⟨t1, s1⟩, h1, h⟩ := bind_some h
    obtain ⟨s2, h2, h⟩ := bind_some h
    obtain ⟨rfl, rfl⟩ := Prod.mk.inj (Option.some.inj h)
    have o1 := infer_ok e h1 hf ho hρ hi hΓ hr
    have o2 := Ok.unify (A := others (lv + 1) ρ) o1.inv h2 (.root o1.inv (.inr (hr r h0))) (.root o1.inv (.inl rfl))
    have o3 := Ok.new (A := others (lv + 1) ρ) o2.inv (Nat.le_refl _)
    refine (((o1.bind o2).bind o3).drop (fun _ h => .inr h) fun sc h => h.imp_right fun h => .inr h).imp fun sf ⟨⟨a1, a2⟩, _⟩ => ⟨r.subst sf.σ, by rw [h0]; rfl, ?_⟩
    rw [a2]; exact a1
  | .retUnit, lv, ρ, D, Γ, ret, R, s, s', t, h, hf, ho, hρ, hi, hΓ, hr => by
    rw [infer_retUnit] at h
    obtain ⟨r, h0, h⟩ := bind_some h
    obtain ⟨s2, h2, h⟩ := bind_some h
    obtain ⟨rfl, rfl⟩ := Prod.mk.inj (Option.some.inj h)
    have o2 := Ok.unify (A := others (lv + 1) ρ) hi h2 (.root hi (hr r h0)) (.const hi.base trivial)
    have o3 := Ok.new (A := others (lv + 1) ρ) o2.inv (Nat.le_refl _)
    refine (o2.bind o3).imp fun sf ⟨a2, _⟩ => ?_
    show ret.map (Ty.subst sf.σ) = some unitTy
    rw [h0]
    exact congrArg some a2
theorem inferList_ok {fx : Bool} {B k : Nat} : ∀ (es : Exprs) {lv : Nat} {ρ : Vers} {D : Nat → Prop} {Γ : Env} {ret : Option Ty} {R : Roots} {s s' : St} {ts : List Ty},
    inferList fx k lv ρ Γ ret es s = some (ts, s') → fx = true ∨ es.Single → es.OK B D → RV B ρ (lv + 1) D → Inv B (lv + 1) R s → In Γ R → RetIn ret R →
    ∃ R', (∀ t ∈ ts, R' (mono t)) ∧ Ok B (others (lv + 1) ρ) (lv + 1) R s R' s' fun sf => HasTys ρ (Γ.export sf) (ret.map (Ty.subst sf.σ)) es (ts.map (Ty.subst sf.σ))
  | .nil, lv, ρ, D, Γ, ret, R, s, s', ts, h, hf, ho, hρ, hi, hΓ, hr => by
    simp only [inferList, Option.some.injEq, Prod.mk.injEq] at h
    obtain ⟨rfl, rfl⟩ := h
    exact ⟨R, fun t ht => (by cases ht), (Ok.refl hi).imp fun _ _ => rfl⟩
  | .cons e es, lv, ρ, D, Γ, ret, R, s, s', ts, h, hf, ho, hρ, hi, hΓ, hr => by
    rw [inferList_cons] at h
    obtain ⟨⟨t1, s1⟩, h1, h⟩ := bind_some h
    obtain ⟨⟨ts', s2⟩, h2, h⟩ := bind_some h
    obtain ⟨rfl, rfl⟩ := Prod.mk.inj (Option.some.inj h)
    have o1 := infer_ok e h1 (hf.imp_right fun h => h.1) ho.1 hρ hi hΓ hr
    obtain ⟨R2, hts, o2⟩ := inferList_ok es h2 (hf.imp_right fun h => h.2) ho.2 hρ o1.inv (hΓ.le o1.sub) (hr.le o1.sub)
    exact ⟨R2, List.forall_mem_cons.2 ⟨o2.sub _ (.inl rfl), hts⟩, (o1.bind o2).imp fun sf ⟨a1, a2⟩ => ⟨_, _, rfl, a1, a2⟩⟩
theorem inferClauses_ok {fx : Bool} {B k : Nat} : ∀ (cs : Clauses) {lv : Nat} {ρ : Vers} {D : Nat → Prop} {Γ : Env} {ret : Option Ty} {R : Roots} {s s' : St} {u r : Ty},
    inferClauses fx k lv ρ Γ ret cs u r s = some s' → fx = true ∨ cs.Single → cs.OK B D → RV B ρ (lv + 1) D → Inv B (lv + 1) R s → In Γ R → RetIn ret R → R (mono u) → R (mono r) →
    Ok B (others (lv + 1) ρ) (lv + 1) R s R s' fun sf => ClausesTy ρ (Γ.export sf) (ret.map (Ty.subst sf.σ)) cs (u.subst sf.σ) (r.subst sf.σ)
  | .nil, lv, ρ, D, Γ, ret, R, s, s', u, r, h, hf, ho, hρ, hi, hΓ, hr, hu, hr' => by
    simp only [inferClauses, Option.some.injEq] at h
    obtain rfl := h
    exact (Ok.refl hi).imp fun _ _ => trivial
  | .cons p b cs, lv, ρ, D, Γ, ret, R, s, s', u, r, h, hf, ho, hρ, hi, hΓ, hr, hu, hr' => by
    rw [inferClauses_cons] at h
    obtain ⟨⟨t1, Γ1, s1⟩, h1, h⟩ := bind_some h
    obtain ⟨s2, h2, h⟩ := bind_some h
    obtain ⟨⟨t3, s3⟩, h3, h⟩ := bind_some h
    obtain ⟨s4, h4, h⟩ := bind_some h
    obtain ⟨R1, hΓ1, ht, o1⟩ := inferPat_ok (A := others (lv + 1) ρ) (Nat.le_refl _) p h1 ho.1 hi hΓ
    have o2 := Ok.unify (A := others (lv + 1) ρ) o1.inv h2 (.root o1.inv (o1.sub _ hu)) (.root o1.inv ht)
    have o3 := infer_ok b h3 (hf.imp_right fun h => h.1) ho.2.1 hρ o2.inv hΓ1 (hr.le o1.sub)
    have o4 := Ok.unify (A := others (lv + 1) ρ) o3.inv h4 (.root o3.inv (.inr (o1.sub _ hr'))) (.root o3.inv (.inl rfl))
    have o := (((o1.bind o2).bind o3).bind o4).drop (R2 := R) (fun _ h => h) fun sc h => .inr (o1.sub _ h)
    have o5 := inferClauses_ok cs h (hf.imp_right fun h => h.2) ho.2.2 hρ o.inv hΓ hr hu hr'
    refine (o.bind o5).imp fun sf ⟨⟨⟨⟨a1, a2⟩, a3⟩, a4⟩, a5⟩ => ⟨⟨Γ1.export sf, ?_, ?_⟩, a5⟩
    · rw [a2]; exact a1
    · rw [a4]; exact a3
theorem inferVars_ok {fx : Bool} {B k : Nat} : ∀ (vs : Vars) {lv : Nat} {ρ : Vers} {D : Nat → Prop} {Γ Γ' : Env} {ret : Option Ty} {R : Roots} {s s' : St},
    inferVars fx k lv ρ Γ ret vs s = some (Γ', s') → fx = true ∨ vs.Single → vs.OK B D → RV B ρ (lv + 1) D → Inv B (lv + 1) R s → In Γ R → RetIn ret R →
    ∃ R', In Γ' R' ∧ Ok B (others (lv + 1) ρ) (lv + 1) R s R' s' fun sf => VarsTy ρ (Γ.export sf) (ret.map (Ty.subst sf.σ)) vs (Γ'.export sf)
  | .nil, lv, ρ, D, Γ, Γ', ret, R, s, s', h, hf, ho, hρ, hi, hΓ, hr => by
    simp only [inferVars, Option.some.injEq, Prod.mk.injEq] at h
    obtain ⟨rfl, rfl⟩ := h
    exact ⟨R, hΓ, (Ok.refl hi).imp fun _ _ => rfl⟩
  | .cons x e none vs, lv, ρ, D, Γ, Γ', ret, R, s, s', h, hf, ho, hρ, hi, hΓ, hr => by
    rw [inferVars_none] at h
    obtain ⟨⟨t1, s1⟩, h1, h⟩ := bind_some h
    have o1 := infer_ok e h1 (hf.imp_right fun h => h.1) ho.1 hρ hi hΓ hr
    obtain ⟨R2, hΓ2, o2⟩ := inferVars_ok vs h (hf.imp_right fun h => h.2) ho.2.2 hρ o1.inv ((hΓ.le o1.sub).set (.inl rfl)) (hr.le o1.sub)
    refine ⟨R2, hΓ2, (o1.bind o2).imp fun sf ⟨a1, a2⟩ => ⟨_, a1, fun _ h => (by cases h), ?_⟩⟩
    rw [export_set] at a2
    exact a2
  | .cons x e (some a) vs, lv, ρ, D, Γ, Γ', ret, R, s, s', h, hf, ho, hρ, hi, hΓ, hr => by
    rw [inferVars_some] at h
    obtain ⟨⟨t1, s1⟩, h1, h⟩ := bind_some h
    obtain ⟨s2, h2, h⟩ := bind_some h
    have o1 := infer_ok e h1 (hf.imp_right fun h => h.1) ho.1 hρ hi hΓ hr
    have ha := ho.2.1 a rfl
    have o2 := Ok.unify (A := others (lv + 1) ρ) o1.inv h2 (.root o1.inv (.inl rfl)) (.closed o1.inv.base (hρ.at ha))
    obtain ⟨R3, hΓ3, o3⟩ := inferVars_ok vs h (hf.imp_right fun h => h.2) ho.2.2 hρ o2.inv ((hΓ.le o1.sub).set (.inl rfl)) (hr.le o1.sub)
    refine ⟨R3, hΓ3, ((o1.bind o2).bind o3).imp fun sf ⟨⟨a1, a2⟩, a3⟩ => ⟨_, a1, fun _ h => ?_, ?_⟩⟩
    · cases h
      exact a2.trans (hρ.at_subst ha _)
    · rw [export_set] at a3
      exact a3
theorem inferExpl_ok {fx : Bool} {B k : Nat} : ∀ (es : EFuns) {M : Nat} {ρ : Vers} {D : Nat → Prop} {Γ : Env} {R : Roots} {s s' : St},
    inferExpl fx k M ρ Γ es s = some s' → fx = true ∨ es.Single → es.OK B D → RV B ρ M D → Inv B M R s → In Γ R →
    Ok B (others M ρ) M R s R s' fun sf => ExplTy ρ (Γ.export sf) es
  | .nil, M, ρ, D, Γ, R, s, s', h, hf, ho, hρ, hi, hΓ => by
    simp only [inferExpl, Option.some.injEq] at h
    obtain rfl := h
    exact (Ok.refl hi).imp fun _ _ => trivial
  | .cons f gs t ps b es, M, ρ, D, Γ, R, s, s', h, hf, ho, hρ, hi, hΓ => by
    rw [inferExpl_cons] at h
    obtain ⟨⟨⟨ts, r⟩, s1⟩, h1, h⟩ := bind_some h
    obtain ⟨⟨t2, s2⟩, h2, h⟩ := bind_some h
    obtain ⟨s3, h3, h⟩ := bind_some h
    have hρ' := hρ.set ho.1
    have hi' := hi.lift (Nat.le_succ M)
    obtain ⟨hl, R1, hts, hr, _, o1⟩ := Ok.params (A := others (M + 1) (ρ.set gs M)) h1 hi' (.closed hi'.base (hρ'.at ho.2.1))
    have o2 := infer_ok b h2 (hf.imp_right fun h => h.1) ho.2.2.1 hρ' o1.inv ((hΓ.le o1.sub).params hts) (fun _ h => by cases h; exact hr)
    have o3 := Ok.unify (A := others (M + 1) (ρ.set gs M)) o2.inv h3 (.root o2.inv (.inr hr)) (.root o2.inv (.inl rfl))
    have o := ((o1.bind o2).bind o3).lower (A := others M ρ) hi fun g l h => ⟨Nat.lt_succ_of_lt h.1, fun e => by
      unfold Vers.set at e
      split at e
      · cases e; exact Nat.lt_irrefl _ h.1
      · exact h.2 e⟩
    have o4 := inferExpl_ok es h (hf.imp_right fun h => h.2) ho.2.2.2 hρ o.inv hΓ
    refine (o.bind o4).with fun sf gf ⟨⟨⟨a1, a2⟩, a3⟩, a4⟩ => ⟨⟨M, ts.map (Ty.subst sf.σ), r.subst sf.σ, ?_, ?_, ?_, ?_⟩, a4⟩
    · intro g hg x sc hx hn
      obtain ⟨sc', hx', rfl⟩ := of_export hx
      refine Ty.All.imp (fun _ _ => trivial) (fun g' l hl he hM => ?_) (gf.fit _ _ _ (o4.inv.fit sc' (hΓ x sc' hx')))
      subst he
      have := ho.1 g' hg
      rcases hl.2 with h | h | h
      · exact hn h
      · omega
      · omega
    · rw [← funTy_subst, ← a1]
      exact (hρ'.at_subst ho.2.1 _).symm
    · rw [List.length_map]; exact hl
    · rw [export_params] at a2
      rw [← a3] at a2
      exact a2
theorem inferBodies_ok {fx : Bool} {B k : Nat} : ∀ (fs : Funs) {M : Nat} {ρ : Vers} {D : Nat → Prop} {Γ : Env} {R : Roots} {s s' : St} {tys : List (List Ty × Ty)},
    inferBodies fx k M ρ Γ fs tys s = some s' → fx = true ∨ fs.Single → fs.OK B D → RV B ρ M D → Inv B (M + 1) R s → In Γ R → Pre R fs tys →
    Ok B (others (M + 1) ρ) (M + 1) R s R s' fun sf => BodiesTy ρ (Γ.export sf) fs (finals sf tys)
  | .nil, M, ρ, D, Γ, R, s, s', tys, h, hf, ho, hρ, hi, hΓ, hp => by
    cases hp
    simp only [inferBodies, Option.some.injEq] at h
    obtain rfl := h
    exact (Ok.refl hi).imp fun _ _ => rfl
  | .cons f ps b fs, M, ρ, D, Γ, R, s, s', tys, h, hf, ho, hρ, hi, hΓ, hp => by
    obtain ⟨ts, r, tys', rfl, hl, hts, hr, _, hp⟩ := hp
    rw [inferBodies_cons] at h
    obtain ⟨⟨t1, s1⟩, h1, h⟩ := bind_some h
    obtain ⟨s2, h2, h⟩ := bind_some h
    have o1 := infer_ok b h1 (hf.imp_right fun h => h.1) ho.1 (hρ.lift (Nat.le_succ M)) hi (hΓ.params hts) (fun _ h => by cases h; exact hr)
    have o2 := Ok.unify (A := others (M + 1) ρ) o1.inv h2 (.root o1.inv (.inr hr)) (.root o1.inv (.inl rfl))
    have o := (o1.bind o2).drop (R2 := R) (fun _ h => h) fun sc h => .inr h
    have o3 := inferBodies_ok fs h (hf.imp_right fun h => by rw [h.2]; trivial) ho.2 hρ o.inv hΓ hp
    refine (o.bind o3).imp fun sf ⟨⟨a1, a2⟩, a3⟩ => ⟨_, _, _, rfl, by rw [List.length_map]; exact hl, ?_, a3⟩
    rw [export_params] at a1
    rw [← a2] at a1
    exact a1
theorem inferGroups_ok {fx : Bool} {B k : Nat} : ∀ (gs : Groups) {M : Nat} {ρ : Vers} {D : Nat → Prop} {Γ Γ' : Env} {R : Roots} {s s' : St},
    inferGroups fx k M ρ Γ gs s = some (Γ', s') → fx = true ∨ gs.Single → gs.OK B D → RV B ρ M D → Inv B M R s → In Γ R →
    ∃ R', In Γ' R' ∧ Ok B (others (M + 1) ρ) M R s R' s' fun sf => GroupsTy ρ (Γ.export sf) gs (Γ'.export sf)
  | .nil, M, ρ, D, Γ, Γ', R, s, s', h, hf, ho, hρ, hi, hΓ => by
    simp only [inferGroups, Option.some.injEq, Prod.mk.injEq] at h
    obtain ⟨rfl, rfl⟩ := h
    exact ⟨R, hΓ, (Ok.refl hi).imp fun _ _ => rfl⟩
  | .cons fs gs, M, ρ, D, Γ, Γ', R, s, s', h, hf, ho, hρ, hi, hΓ => by
    rw [inferGroups_cons] at h
    obtain ⟨⟨tys, s1⟩, h1, h⟩ := bind_some h
    obtain ⟨s2, h2, h⟩ := bind_some h
    obtain ⟨R1, hp, o1⟩ := prepare_ok (A := others (M + 1) ρ) (Nat.le_refl _) fs h1 (hi.lift (Nat.le_succ M))
    have o2 := inferBodies_ok fs h2 (hf.imp_right fun h => h.1) ho.1 hρ o1.inv ((hΓ.le o1.sub).funs hp.funTys) hp
    have hc : fx = true ∨ (funTys fs tys).length ≤ 1 := hf.imp_right fun hs => by
      cases fs with
      | nil => cases tys <;> exact Nat.zero_le _
      | cons f ps b fs =>
        obtain ⟨ts, r, tys', rfl, -⟩ := hp
        obtain rfl := hs.1.2
        cases tys' <;> exact Nat.le_refl _
    have o := Ok.group hi (fun g l e => (hρ.dom g l e).2) (o1.bind o2) hp.funTys hc
    obtain ⟨R3, hΓ3, o3⟩ := inferGroups_ok gs h (hf.imp_right fun h => h.2) ho.2 hρ o.inv ((hΓ.le o.sub).funs fun t ht => .inr ⟨t, ht, rfl⟩)
    refine ⟨R3, hΓ3, (o.bind o3).imp fun sf ⟨⟨⟨_, a1⟩, a2⟩, a3⟩ => ⟨finals sf tys, (quantify (commonVars fx M s2 (funTys fs tys)) s2).1, ?_, ?_, ?_⟩⟩
    · rw [export_funs] at a1
      exact a1
    · intro q hq
      constructor
      · cases e : ρ q with
        | none => rfl
        | some l =>
          have h1 := (hρ.dom q l e).1
          rw [quantify_eq] at hq
          have h2 := (List.mem_range'_1.1 hq).1
          have h3 := o2.inv.base
          omega
      · intro x sc hx hn
        obtain ⟨sc', hx', rfl⟩ := of_export hx
        exact Ty.All.imp (fun _ _ => trivial) (fun g' l hl (he : g' = q) _ => hl (he ▸ ⟨hq, hn⟩)) (a2 sc' (hΓ x sc' hx'))
    · rw [export_funs] at a3
      exact a3
end

end Verif.Infer
