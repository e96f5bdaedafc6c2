import Verif.Closure.Norm

/-!
# The result of normalisation is a conversion of the program
-/
namespace Verif.Closure

mutual
def Expr.size : Expr → Nat
  | .var _ => 1
  | .lfun _ => 2
  | .sfun _ => 2
  | .sfunEnv _ e => 1 + e.size
  | .int _ => 1
  | .call f as => 1 + f.size + as.size
  | .prim _ as => 1 + as.size
  | .seq a b => 1 + a.size + b.size
  | .ite c t e => 1 + c.size + t.size + e.size
  | .while c b => 1 + c.size + b.size
  | .case e cs => 1 + e.size + cs.size
  | .ret e => 1 + e.size
  | .never => 1
  | .letVar _ e b => 1 + e.size + b.size
  | .letFun fs b => 1 + fs.size + b.size
def Exprs.size : Exprs → Nat
  | .nil => 1
  | .cons e es => 1 + e.size + es.size
def Clauses.size : Clauses → Nat
  | .nil => 1
  | .cons _ b cs => 1 + b.size + cs.size
def Funs.size : Funs → Nat
  | .nil => 1
  | .cons _ _ b fs => 1 + b.size + fs.size
end

section
variable (r : List (Id × Id)) (l : List (Id × Ct)) (ee : Option Id)
mutual
theorem size_cc : ∀ e, (cc r l ee e).size = e.size
  | .var x => rfl
  | .lfun f => by
    simp only [cc]
    split
    · split <;> rfl
    · rfl
  | .sfun _ => rfl
  | .sfunEnv _ e => by simp [cc, Expr.size, size_cc e]
  | .int _ => rfl
  | .call f as => by simp [cc, Expr.size, size_cc f, size_ccs as]
  | .prim _ as => by simp [cc, Expr.size, size_ccs as]
  | .seq a b => by simp [cc, Expr.size, size_cc a, size_cc b]
  | .ite c t e => by simp [cc, Expr.size, size_cc c, size_cc t, size_cc e]
  | .while c b => by simp [cc, Expr.size, size_cc c, size_cc b]
  | .case e cs => by simp [cc, Expr.size, size_cc e, size_ccClauses cs]
  | .ret e => by simp [cc, Expr.size, size_cc e]
  | .never => rfl
  | .letVar x e b => by simp [cc, Expr.size, size_cc e, size_cc b]
  | .letFun fs b => by simp [cc, Expr.size, size_ccFuns fs, size_cc b]
theorem size_ccs : ∀ es, (ccs r l ee es).size = es.size
  | .nil => rfl
  | .cons e es => by simp [ccs, Exprs.size, size_cc e, size_ccs es]
theorem size_ccClauses : ∀ cs, (ccClauses r l ee cs).size = cs.size
  | .nil => rfl
  | .cons p b cs => by simp [ccClauses, Clauses.size, size_cc b, size_ccClauses cs]
theorem size_ccFuns : ∀ fs, (ccFuns r l ee fs).size = fs.size
  | .nil => rfl
  | .cons f ps b fs => by simp [ccFuns, Funs.size, size_cc b, size_ccFuns fs]
end
end

/-- Every variable in scope is itself. -/
def idOn (V : List Id) : SMap := fun z => if z ∈ V then some z else none

theorem idOn_some {V : List Id} {z w : Id} : idOn V z = some w ↔ z ∈ V ∧ w = z := by
  simp only [idOn]
  split
  · rename_i h; simp [h, eq_comm]
  · rename_i h; simp [h]

theorem idOn_congr {V W : List Id} (h : ∀ x, x ∈ V ↔ x ∈ W) : idOn V = idOn W := by
  funext z; simp only [idOn, h]

theorem idOn_bind (V : List Id) (x : Id) : SMap.bind x (idOn V) = idOn (x :: V) := by
  funext z
  simp only [SMap.bind, SMap.hide, idOn, List.mem_cons]
  by_cases hz : z = x
  · simp [hz]
  · by_cases hv : z ∈ V <;> simp [hz, hv]

theorem idOn_bindAll : ∀ (xs V : List Id), SMap.bindAll xs (idOn V) = idOn (xs ++ V)
  | [], _ => rfl
  | x :: xs, V => by
    rw [SMap.bindAll, idOn_bind, idOn_bindAll xs (x :: V)]
    apply idOn_congr
    intro z
    simp only [List.mem_append, List.mem_cons]
    exact ⟨fun h => by rcases h with h | h | h <;> simp [h], fun h => by rcases h with (h | h) | h <;> simp [h]⟩

theorem bindAll_self {x : Id} : ∀ {xs : List Id} {σ : SMap}, σ x = some x → SMap.bindAll xs σ x = some x
  | [], _, h => h
  | y :: ys, σ, h => by
    rw [SMap.bindAll]
    apply bindAll_self
    simp only [SMap.bind]
    split
    · rename_i e; rw [e]
    · rename_i e; exact hideS_some.2 ⟨h, e⟩

theorem bindAll_mem {x : Id} : ∀ {xs : List Id} {σ : SMap}, x ∈ xs → SMap.bindAll xs σ x = some x
  | y :: ys, σ, h => by
    rw [SMap.bindAll]
    by_cases e : x = y
    · subst e
      exact bindAll_self (by simp [SMap.bind])
    · exact bindAll_mem ((List.mem_cons.1 h).resolve_left e)

theorem bindAll_other {x w : Id} : ∀ {xs : List Id} {σ : SMap}, x ∉ xs → w ∉ xs → σ x = some w → SMap.bindAll xs σ x = some w
  | [], _, _, _, h => h
  | y :: ys, σ, h1, h2, h => by
    rw [SMap.bindAll]
    refine bindAll_other (fun m => h1 (List.mem_cons_of_mem _ m)) (fun m => h2 (List.mem_cons_of_mem _ m)) ?_
    simp only [SMap.bind]
    rw [if_neg (by rintro rfl; exact h1 List.mem_cons_self)]
    exact hideS_some.2 ⟨h, by rintro rfl; exact h2 List.mem_cons_self⟩

theorem hideAll_other {g : Id} {q : Ct × Option Id} : ∀ {xs : List Id} {φ : FMap}, (∀ x ∈ xs, q.2 ≠ some x) → φ g = some q →
    FMap.hideAll xs φ g = some q
  | [], _, _, h => h
  | x :: xs, φ, h1, h => by
    rw [FMap.hideAll]
    exact hideAll_other (fun y hy => h1 y (List.mem_cons_of_mem _ hy)) (hide_some.2 ⟨h, h1 x List.mem_cons_self⟩)

/-- Definitions that are all normalised. -/
def Closed (order : List Id → List Id) (P' : Prog) (Q : Ct × Def → Prop) : Prop :=
  ∀ q, Q q → ∃ n s b' s2, norm order n q.2.body s = some (b', s2) ∧ P' q.1 = some { q.2 with body := b' } ∧ (∀ p ∈ s2.queue, Q p) ∧ WF s.rt q.2

theorem norm_vars {order : List Id → List Id} : ∀ {ys : List Id} {n : Nat} {s : S} {es : Exprs} {s' : S}, norms order n (varsOf ys) s = some (es, s') →
    es = varsOf ys ∧ s' = s
  | _, 0, _, _, _, h => by simp [norms] at h
  | [], n + 1, s, es, s', h => by simp only [varsOf, norms, Option.some.injEq, Prod.mk.injEq] at h; exact ⟨h.1.symm, h.2.symm⟩
  | y :: ys, n + 1, s, es, s', h => by
    simp only [varsOf, norms, Option.bind_eq_bind, Option.bind_eq_some_iff, Prod.exists, Option.some.injEq, Prod.mk.injEq] at h
    obtain ⟨e1, s1, h1, e2, s2, h2, rfl, rfl⟩ := h
    cases n with
    | zero => simp [norm] at h1
    | succ n =>
      simp only [norm, Option.some.injEq, Prod.mk.injEq] at h1
      obtain ⟨rfl, rfl⟩ := h1
      obtain ⟨rfl, rfl⟩ := norm_vars h2
      exact ⟨rfl, rfl⟩

theorem Grow.sub {s s' : S} (h : Grow s s') {Q : Ct × Def → Prop} (hq : ∀ p ∈ s'.queue, Q p) : ∀ p ∈ s.queue, Q p := by
  obtain ⟨new, e, _⟩ := h.queue
  rw [e] at hq
  exact fun p hp => hq p (List.mem_append_left _ hp)

section
variable {order : List Id → List Id} {P' : Prog} {Q : Ct × Def → Prop}

/-- The functions of a group, from what is known of their bodies. -/
theorem ccf_lift {fs : Funs} {s : S} {c : Conv} {s1 : S} {V : List Id} (hcv : ConvOK fs s c s1) (h3 : OKf V (fs.names ++ []) fs)
    (hN : ∀ x ∈ fs.defs, x < s.rt) (hVN : ∀ x ∈ V, x < s.rt)
    (hQ : Closed order P' Q)
    (ih : ∀ (e : Expr), e.size ≤ fs.size → ∀ n s e' s' V, norm order n e s = some (e', s') → OK V [] e → Bnd s.rt V e.defs → (∀ p ∈ s'.queue, Q p) →
      CC P' V (idOn V) (fun _ => none) e e') :
    ∀ gs : Funs, OKf V (fs.names ++ []) gs → gs.size ≤ fs.size → (∀ x ∈ gs.uses, x ∈ fs.uses) → (∀ x ∈ gs.inner, x ∈ fs.inner) →
      (∀ x ∈ gs.names, x ∈ fs.names) → (∀ q ∈ lift c gs, Q q) →
      CCf P' c.outer ((idOn V).inside c.caps) (FMap.own c.lifted c.env (FMap.inside c.caps fun _ => none)) (c.caps.map (·.2)) c.lifted c.env gs
  | .nil, _, _, _, _, _, _ => trivial
  | .cons f ps b gs, hok, hsz, hu, hi, hn, hq => by
    have hsz' : 1 + b.size + gs.size ≤ fs.size := hsz
    have hi0 := okf_inner h3
    simp only [Funs.uses, Funs.inner, Funs.names, List.mem_append, List.mem_cons] at hu hi hn
    refine ⟨?_, ccf_lift hcv h3 hN hVN hQ ih gs hok.2.2 (by omega) (fun x hx => hu x (.inr hx)) (fun x hx => hi x (.inr (.inr hx)))
      (fun x hx => hn x (.inr hx)) (fun q hq' => hq q (List.mem_cons_of_mem _ hq'))⟩
    obtain ⟨ct, hct⟩ := Option.isSome_iff_exists.1 (hcv.lifted_dom.2 (hn f (.inl rfl)))
    obtain ⟨n, sq, b', s2, h1, h2, h4, h5⟩ := hQ _ (hq _ List.mem_cons_self)
    rw [hct] at h2
    refine ⟨ct, b', hct, h2, ?_⟩
    have hps : ∀ x ∈ ps, x ∈ fs.inner := fun x hx => hi x (.inl hx)
    have hb : ∀ x ∈ b.defs, x ∈ fs.inner := fun x hx => hi x (.inr (.inl hx))
    have key := ih _ (by rw [size_cc]; omega) n sq b' s2 (ps ++ c.outer) h1 (by have := h5.ok; rwa [lift_scope (f := f)] at this)
      ⟨by have := h5.scope; rwa [lift_scope (f := f)] at this, h5.defs⟩ h4
    have hlt : ∀ x ∈ ps, x < s.rt := fun x hx => hN x (mem_defs.2 (.inr (hps x hx)))
    refine cc_pre (N := s.rt) b key ⟨?_, ?_, ?_, ?_⟩ ?_ fun x hx => hcv.bd hi0 hN (hb x hx)
    · intro z w hz hw
      obtain ⟨hm, rfl⟩ := idOn_some.1 hw
      rw [rename] at hm ⊢
      cases hr : look c.caps z with
      | none =>
        rw [hr] at hm
        rcases List.mem_append.1 hm with hm | hm
        · exact bindAll_mem hm
        · exact absurd (hcv.outer_range hm).1 (Nat.not_le.2 hz)
      | some z' =>
        have hzc := (hcv.dom z).1 ((look_isSome (r := c.caps)).1 (by rw [hr]; rfl))
        have hzc' := mem_captured.1 hzc
        have hz' := (hcv.range z' (hcv.look_range hr)).1
        refine bindAll_other (fun m => hzc'.2 (mem_defs.2 (.inr (hps z m)))) (fun m => absurd hz' (Nat.not_le.2 (hlt z' m))) ?_
        have hzV : z ∈ V := by
          rcases usesf_scope fs h3 hzc'.1 with m | m | m
          · exact m
          · exact absurd (mem_defs.2 (.inl (by simpa using m))) hzc'.2
          · exact absurd (mem_defs.2 (.inr m)) hzc'.2
        simp only [SMap.inside, idOn, if_pos hzV, Option.bind_some, hr, Option.getD_some]
    · intro he g c0 hg
      refine hideAll_other (fun x hx => by simp) ?_
      simp only [FMap.own, hg, he]
    · intro e y he hy g c0 hg
      obtain ⟨_, rfl⟩ := idOn_some.1 hy
      refine hideAll_other (fun x hx => ?_) ?_
      · rintro ⟨⟩
        exact absurd (hcv.env _ he).1 (Nat.not_le.2 (hlt _ hx))
      · simp only [FMap.own, hg, he]
    · intro g q hg hq'; cases hq'
    · intro x hx
      by_cases hd : x ∈ fs.defs
      · exact hN x hd
      · rcases uses_scope b hok.2.1 hx with m | m | m
        · rcases List.mem_append.1 m with m | m
          · exact hlt x m
          · exact hVN x m
        · exact absurd (mem_defs.2 (.inl (by simpa using m))) hd
        · exact absurd (mem_defs.2 (.inr (hb x m))) hd

/-- What is made of an expression is its conversion. -/
theorem norm_cc (ho : ∀ l, (order l).Perm l) (hQ : Closed order P' Q) : ∀ m,
    (∀ e, Expr.size e ≤ m → ∀ n s e' s' V, norm order n e s = some (e', s') → OK V [] e → Bnd s.rt V e.defs → (∀ p ∈ s'.queue, Q p) →
      CC P' V (idOn V) (fun _ => none) e e') ∧
    (∀ e, Exprs.size e ≤ m → ∀ n s e' s' V, norms order n e s = some (e', s') → OKs V [] e → Bnd s.rt V e.defs → (∀ p ∈ s'.queue, Q p) →
      CCs P' V (idOn V) (fun _ => none) e e') ∧
    (∀ e, Clauses.size e ≤ m → ∀ n s e' s' V, normClauses order n e s = some (e', s') → OKc V [] e → Bnd s.rt V e.defs → (∀ p ∈ s'.queue, Q p) →
      CCc P' V (idOn V) (fun _ => none) e e')
  | 0 => ⟨by intro e h; cases e <;> simp [Expr.size] at h <;> omega, by intro e h; cases e <;> simp [Exprs.size] at h <;> omega,
      by intro e h; cases e <;> simp [Clauses.size] at h <;> omega⟩
  | m + 1 => by
    obtain ⟨ih1, ih2, ih3⟩ := norm_cc ho hQ m
    refine ⟨?_, ?_, ?_⟩
    · intro e hs n s e' s' V h hok hb hq
      cases n with
      | zero => simp [norm] at h
      | succ n =>
      have G := fun e s e' s' V => (norm_grow ho n).1 e s e' s' V
      have Gs := fun e s e' s' V => (norm_grow ho n).2.1 e s e' s' V
      have Gc := fun e s e' s' V => (norm_grow ho n).2.2 e s e' s' V
      cases e with
      | var x => simp only [norm, Option.some.injEq, Prod.mk.injEq] at h; obtain ⟨rfl, rfl⟩ := h; exact ⟨x, idOn_some.2 ⟨hok, rfl⟩, rfl⟩
      | lfun f => exact absurd hok List.not_mem_nil
      | sfun c => simp only [norm, Option.some.injEq, Prod.mk.injEq] at h; obtain ⟨rfl, rfl⟩ := h; exact rfl
      | int c => simp only [norm, Option.some.injEq, Prod.mk.injEq] at h; obtain ⟨rfl, rfl⟩ := h; exact rfl
      | never => simp only [norm, Option.some.injEq, Prod.mk.injEq] at h; obtain ⟨rfl, rfl⟩ := h; exact rfl
      | sfunEnv c e =>
        simp only [norm, Option.bind_eq_bind, Option.bind_eq_some_iff, Prod.exists, Option.some.injEq, Prod.mk.injEq] at h
        obtain ⟨e1, s1, h1, rfl, rfl⟩ := h
        simp only [Expr.size] at hs
        exact ⟨e1, ih1 e (by omega) n s e1 _ V h1 hok hb hq, rfl⟩
      | ret e =>
        simp only [norm, Option.bind_eq_bind, Option.bind_eq_some_iff, Prod.exists, Option.some.injEq, Prod.mk.injEq] at h
        obtain ⟨e1, s1, h1, rfl, rfl⟩ := h
        simp only [Expr.size] at hs
        exact ⟨e1, ih1 e (by omega) n s e1 _ V h1 hok hb hq, rfl⟩
      | prim p as =>
        simp only [norm, Option.bind_eq_bind, Option.bind_eq_some_iff, Prod.exists, Option.some.injEq, Prod.mk.injEq] at h
        obtain ⟨e1, s1, h1, rfl, rfl⟩ := h
        simp only [Expr.size] at hs
        exact ⟨e1, ih2 as (by omega) n s e1 _ V h1 hok hb hq, rfl⟩
      | call a b =>
        simp only [norm, Option.bind_eq_bind, Option.bind_eq_some_iff, Prod.exists, Option.some.injEq, Prod.mk.injEq] at h
        obtain ⟨e1, s1, h1, e2, s2, h2, rfl, rfl⟩ := h
        simp only [Expr.size] at hs
        have b1 : Bnd s.rt V a.defs := hb.mono (Nat.le_refl _) fun x hx => by simp [Expr.defs, hx]
        have g1 := (G _ _ _ _ _ h1 hok.1 b1).1
        have b2 : Bnd s1.rt V b.defs := hb.mono g1.rt fun x hx => by simp [Expr.defs, hx]
        have g2 := (Gs _ _ _ _ _ h2 hok.2 b2).1
        exact ⟨e1, e2, ih1 a (by omega) n s e1 _ V h1 hok.1 b1 (g2.sub hq), ih2 b (by omega) n s1 e2 _ V h2 hok.2 b2 hq, rfl⟩
      | seq a b =>
        simp only [norm, Option.bind_eq_bind, Option.bind_eq_some_iff, Prod.exists, Option.some.injEq, Prod.mk.injEq] at h
        obtain ⟨e1, s1, h1, e2, s2, h2, rfl, rfl⟩ := h
        simp only [Expr.size] at hs
        have b1 : Bnd s.rt V a.defs := hb.mono (Nat.le_refl _) fun x hx => by simp [Expr.defs, hx]
        have g1 := (G _ _ _ _ _ h1 hok.1 b1).1
        have b2 : Bnd s1.rt V b.defs := hb.mono g1.rt fun x hx => by simp [Expr.defs, hx]
        have g2 := (G _ _ _ _ _ h2 hok.2 b2).1
        exact ⟨e1, e2, ih1 a (by omega) n s e1 _ V h1 hok.1 b1 (g2.sub hq), ih1 b (by omega) n s1 e2 _ V h2 hok.2 b2 hq, rfl⟩
      | «while» a b =>
        simp only [norm, Option.bind_eq_bind, Option.bind_eq_some_iff, Prod.exists, Option.some.injEq, Prod.mk.injEq] at h
        obtain ⟨e1, s1, h1, e2, s2, h2, rfl, rfl⟩ := h
        simp only [Expr.size] at hs
        have b1 : Bnd s.rt V a.defs := hb.mono (Nat.le_refl _) fun x hx => by simp [Expr.defs, hx]
        have g1 := (G _ _ _ _ _ h1 hok.1 b1).1
        have b2 : Bnd s1.rt V b.defs := hb.mono g1.rt fun x hx => by simp [Expr.defs, hx]
        have g2 := (G _ _ _ _ _ h2 hok.2 b2).1
        exact ⟨e1, e2, ih1 a (by omega) n s e1 _ V h1 hok.1 b1 (g2.sub hq), ih1 b (by omega) n s1 e2 _ V h2 hok.2 b2 hq, rfl⟩
      | case a b =>
        simp only [norm, Option.bind_eq_bind, Option.bind_eq_some_iff, Prod.exists, Option.some.injEq, Prod.mk.injEq] at h
        obtain ⟨e1, s1, h1, e2, s2, h2, rfl, rfl⟩ := h
        simp only [Expr.size] at hs
        have b1 : Bnd s.rt V a.defs := hb.mono (Nat.le_refl _) fun x hx => by simp [Expr.defs, hx]
        have g1 := (G _ _ _ _ _ h1 hok.1 b1).1
        have b2 : Bnd s1.rt V b.defs := hb.mono g1.rt fun x hx => by simp [Expr.defs, hx]
        have g2 := (Gc _ _ _ _ _ h2 hok.2 b2).1
        exact ⟨e1, e2, ih1 a (by omega) n s e1 _ V h1 hok.1 b1 (g2.sub hq), ih3 b (by omega) n s1 e2 _ V h2 hok.2 b2 hq, rfl⟩
      | ite a b c =>
        simp only [norm, Option.bind_eq_bind, Option.bind_eq_some_iff, Prod.exists, Option.some.injEq, Prod.mk.injEq] at h
        obtain ⟨e1, s1, h1, e2, s2, h2, e3, s3, h3, rfl, rfl⟩ := h
        simp only [Expr.size] at hs
        have b1 : Bnd s.rt V a.defs := hb.mono (Nat.le_refl _) fun x hx => by simp [Expr.defs, hx]
        have g1 := (G _ _ _ _ _ h1 hok.1 b1).1
        have b2 : Bnd s1.rt V b.defs := hb.mono g1.rt fun x hx => by simp [Expr.defs, hx]
        have g2 := (G _ _ _ _ _ h2 hok.2.1 b2).1
        have b3 : Bnd s2.rt V c.defs := hb.mono (g1.trans g2).rt fun x hx => by simp [Expr.defs, hx]
        have g3 := (G _ _ _ _ _ h3 hok.2.2 b3).1
        exact ⟨e1, e2, e3, ih1 a (by omega) n s e1 _ V h1 hok.1 b1 ((g2.trans g3).sub hq), ih1 b (by omega) n s1 e2 _ V h2 hok.2.1 b2 (g3.sub hq),
          ih1 c (by omega) n s2 e3 _ V h3 hok.2.2 b3 hq, rfl⟩
      | letVar x a b =>
        simp only [norm, Option.bind_eq_bind, Option.bind_eq_some_iff, Prod.exists, Option.some.injEq, Prod.mk.injEq] at h
        obtain ⟨e1, s1, h1, e2, s2, h2, rfl, rfl⟩ := h
        simp only [Expr.size] at hs
        have b1 : Bnd s.rt V a.defs := hb.mono (Nat.le_refl _) fun x hx => by simp [Expr.defs, hx]
        have g1 := (G _ _ _ _ _ h1 hok.1 b1).1
        have b2 : Bnd s1.rt (x :: V) b.defs := hb.bind g1.rt [x] (fun x hx => by simp_all [Expr.defs]) fun x hx => by simp [Expr.defs, hx]
        have g2 := (G _ _ _ _ _ h2 hok.2.2 b2).1
        refine ⟨e1, e2, ih1 a (by omega) n s e1 _ V h1 hok.1 b1 (g2.sub hq), ?_, rfl⟩
        rw [idOn_bind]
        exact ih1 b (by omega) n s1 e2 _ (x :: V) h2 hok.2.2 b2 hq
      | letFun fs b =>
        simp only [Expr.size] at hs
        simp only [norm] at h
        generalize hc : newConv order fs s = cs at h
        obtain ⟨c, s1⟩ := cs
        obtain ⟨g1, okg, bg⟩ := step_grow ho hok hb hc
        have g2 := (G _ _ _ _ _ h okg bg).1
        have hcv := newConv_ok ho fs s
        rw [hc] at hcv
        obtain ⟨h1, h2, h3, h4⟩ := hok
        have hN : ∀ x ∈ fs.defs, x < s.rt := fun x hx => hb.d x (List.mem_append_left _ hx)
        have hNb : ∀ x ∈ b.defs, x < s.rt := fun x hx => hb.d x (List.mem_append_right _ hx)
        have hlq : ∀ q ∈ lift c fs, Q q := fun q hq' => g2.sub hq q (List.mem_append_right _ hq')
        have F := ccf_lift hcv h3 hN hb.v hQ (fun e he => ih1 e (by omega)) fs h3 (Nat.le_refl _) (fun _ => id) (fun _ => id) (fun _ => id) hlq
        have hub : ∀ x ∈ b.uses, x < s.rt := by
          intro x hx
          rcases uses_scope b h4 hx with m | m | m
          · exact hb.v x m
          · exact hN x (mem_defs.2 (.inl (by simpa using m)))
          · exact hNb x m
        have hdom : ∀ g, (look c.lifted g).isSome = (fs.find g).isSome := by
          intro g
          rw [Bool.eq_iff_iff, hcv.lifted_dom, find_names]
        have hbd : ∀ x ∈ b.defs, Bd [] c.lifted c.env x := by
          intro x hx
          refine ⟨rfl, nofun, fun he => ?_, hcv.lifted_none.2 fun m => (defs_new b h4 hx).2 (by simpa using m)⟩
          exact absurd (hcv.env x he).1 (Nat.not_le.2 (hNb x hx))
        have hfst : ∀ y ∈ c.caps.map (·.1), y ∈ V := by
          intro y hy
          have := mem_captured.1 ((hcv.dom y).1 hy)
          rcases usesf_scope fs h3 this.1 with m | m | m
          · exact m
          · exact absurd (mem_defs.2 (.inl (by simpa using m))) this.2
          · exact absurd (mem_defs.2 (.inr m)) this.2
        cases he : c.env with
        | none =>
          have hg : group c b = cc [] c.lifted none b := by simp only [group, he]
          rw [hg] at h okg bg
          have key := ih1 _ (by rw [size_cc]; omega) n _ e' s' V h okg bg hq
          have hcaps := hcv.noenv he
          refine ⟨c.caps, c.lifted, c.env, e', hcv.nodup, hfst, hdom, F, ?_⟩
          simp only [he]
          refine ⟨hcaps, ?_, trivial⟩
          refine cc_pre (N := s.rt) b key ⟨?_, ?_, ?_, ?_⟩ hub (by rw [he] at hbd; exact hbd)
          · intro z w _ hw; exact hw
          · intro _ g c0 hg; simp only [FMap.own, hg]
          · intro e0 y h0; cases h0
          · intro g q _ hq'; cases hq'
        | some e0 =>
          have hg : group c b = .letVar e0 (.prim .env (varsOf (c.caps.map (·.1)))) (cc [] c.lifted (some e0) b) := by simp only [group, he]
          rw [hg] at h okg bg
          cases n with
          | zero => simp [norm] at h
          | succ n =>
          simp only [norm, Option.bind_eq_bind, Option.bind_eq_some_iff, Prod.exists, Option.some.injEq, Prod.mk.injEq] at h
          obtain ⟨p1, sp, hp, b1, s2, hb1, rfl, rfl⟩ := h
          cases n with
          | zero => simp [norm] at hp
          | succ n =>
          simp only [norm, Option.bind_eq_bind, Option.bind_eq_some_iff, Prod.exists, Option.some.injEq, Prod.mk.injEq] at hp
          obtain ⟨vs, sv, hv, rfl, rfl⟩ := hp
          obtain ⟨rfl, rfl⟩ := norm_vars hv
          have key := ih1 _ (by rw [size_cc]; omega) _ _ b1 s2 (e0 :: V) hb1 okg.2.2
            (bg.bind (Nat.le_refl _) [e0] (fun x hx => by simp_all [Expr.defs]) fun x hx => by simp [Expr.defs, hx]) hq
          refine ⟨c.caps, c.lifted, c.env, b1, hcv.nodup, hfst, hdom, F, ?_⟩
          simp only [he]
          refine ⟨(hcv.env e0 he).2.2, ?_, trivial⟩
          refine cc_pre (N := s.rt) b key ⟨?_, ?_, ?_, ?_⟩ hub (by rw [he] at hbd; exact hbd)
          · intro z w hz hw
            obtain ⟨hm, hwz⟩ := idOn_some.1 hw
            replace hm : z ∈ e0 :: V := hm
            replace hwz : w = z := hwz
            have hne : z ≠ e0 := by
              rintro rfl; exact absurd (hcv.env _ he).1 (Nat.not_le.2 hz)
            exact hideS_some.2 ⟨idOn_some.2 ⟨(List.mem_cons.1 hm).resolve_left hne, hwz⟩, hwz ▸ hne⟩
          · intro h0; cases h0
          · intro e1 y h0 hy g c0 hg
            cases h0
            obtain ⟨_, hye⟩ := idOn_some.1 hy
            simp only [FMap.own, hg, hye]
          · intro g q _ hq'; cases hq'
    · intro e hs n s e' s' V h hok hb hq
      cases n with
      | zero => simp [norms] at h
      | succ n =>
      cases e with
      | nil => simp only [norms, Option.some.injEq, Prod.mk.injEq] at h; obtain ⟨rfl, rfl⟩ := h; exact rfl
      | cons a b =>
        simp only [norms, Option.bind_eq_bind, Option.bind_eq_some_iff, Prod.exists, Option.some.injEq, Prod.mk.injEq] at h
        obtain ⟨e1, s1, h1, e2, s2, h2, rfl, rfl⟩ := h
        simp only [Exprs.size] at hs
        have b1 : Bnd s.rt V a.defs := hb.mono (Nat.le_refl _) fun x hx => by simp [Exprs.defs, hx]
        have g1 := ((norm_grow ho n).1 _ _ _ _ _ h1 hok.1 b1).1
        have b2 : Bnd s1.rt V b.defs := hb.mono g1.rt fun x hx => by simp [Exprs.defs, hx]
        have g2 := ((norm_grow ho n).2.1 _ _ _ _ _ h2 hok.2 b2).1
        exact ⟨e1, e2, ih1 a (by omega) n s e1 _ V h1 hok.1 b1 (g2.sub hq), ih2 b (by omega) n s1 e2 _ V h2 hok.2 b2 hq, rfl⟩
    · intro e hs n s e' s' V h hok hb hq
      cases n with
      | zero => simp [normClauses] at h
      | succ n =>
      cases e with
      | nil => simp only [normClauses, Option.some.injEq, Prod.mk.injEq] at h; obtain ⟨rfl, rfl⟩ := h; exact rfl
      | cons p a b =>
        simp only [normClauses, Option.bind_eq_bind, Option.bind_eq_some_iff, Prod.exists, Option.some.injEq, Prod.mk.injEq] at h
        obtain ⟨e1, s1, h1, e2, s2, h2, rfl, rfl⟩ := h
        simp only [Clauses.size] at hs
        have b1 : Bnd s.rt (p.vars ++ V) a.defs :=
          hb.bind (Nat.le_refl _) p.vars (fun x hx => by simp [Clauses.defs, hx]) fun x hx => by simp [Clauses.defs, hx]
        have g1 := ((norm_grow ho n).1 _ _ _ _ _ h1 hok.2.1 b1).1
        have b2 : Bnd s1.rt V b.defs := hb.mono g1.rt fun x hx => by simp [Clauses.defs, hx]
        have g2 := ((norm_grow ho n).2.2 _ _ _ _ _ h2 hok.2.2 b2).1
        refine ⟨e1, e2, ?_, ih3 b (by omega) n s1 e2 _ V h2 hok.2.2 b2 hq, rfl⟩
        rw [idOn_bindAll, hideAll_none]
        exact ih1 a (by omega) n s e1 _ (p.vars ++ V) h1 hok.2.1 b1 (g2.sub hq)
end

end Verif.Closure
