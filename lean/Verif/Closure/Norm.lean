import Verif.Closure.Algo

/-!
# The invariants of normalisation
-/
namespace Verif.Closure

mutual
/-- Without local functions. -/
def Flat : Expr → Prop
  | .var _ => True
  | .lfun _ => False
  | .sfun _ => True
  | .sfunEnv _ e => Flat e
  | .int _ => True
  | .call f as => Flat f ∧ Flats as
  | .prim _ as => Flats as
  | .seq a b => Flat a ∧ Flat b
  | .ite c t e => Flat c ∧ Flat t ∧ Flat e
  | .while c b => Flat c ∧ Flat b
  | .case e cs => Flat e ∧ Flatc cs
  | .ret e => Flat e
  | .never => True
  | .letVar _ e b => Flat e ∧ Flat b
  | .letFun _ _ => False
def Flats : Exprs → Prop
  | .nil => True
  | .cons e es => Flat e ∧ Flats es
def Flatc : Clauses → Prop
  | .nil => True
  | .cons _ b cs => Flat b ∧ Flatc cs
end

/-- What a step adds. -/
structure Grow (s s' : S) : Prop where
  rt : s.rt ≤ s'.rt
  ct : s.ct ≤ s'.ct
  queue : ∃ new, s'.queue = s.queue ++ new ∧ (new.map (·.1)).Nodup ∧ ∀ q ∈ new, s.ct ≤ q.1 ∧ q.1 < s'.ct ∧ WF s'.rt q.2

theorem Grow.refl (s : S) : Grow s s := ⟨Nat.le_refl _, Nat.le_refl _, [], by simp, .nil, nofun⟩

theorem Grow.trans {a b c : S} (h1 : Grow a b) (h2 : Grow b c) : Grow a c := by
  obtain ⟨n1, e1, d1, q1⟩ := h1.queue
  obtain ⟨n2, e2, d2, q2⟩ := h2.queue
  refine ⟨Nat.le_trans h1.rt h2.rt, Nat.le_trans h1.ct h2.ct, n1 ++ n2, by rw [e2, e1, List.append_assoc], ?_, ?_⟩
  · rw [List.map_append, List.nodup_append]
    refine ⟨d1, d2, ?_⟩
    intro x hx y hy e
    obtain ⟨p, hp, rfl⟩ := List.mem_map.1 hx
    obtain ⟨q, hq, rfl⟩ := List.mem_map.1 hy
    have a := (q1 p hp).2.1
    have b := (q2 q hq).1
    rw [e] at a
    exact Nat.lt_irrefl _ (Nat.lt_of_lt_of_le a b)
  · intro q hq
    rcases List.mem_append.1 hq with hq | hq
    · have := q1 q hq
      exact ⟨this.1, Nat.lt_of_lt_of_le this.2.1 h2.ct, this.2.2.mono h2.rt⟩
    · have := q2 q hq
      exact ⟨Nat.le_trans h1.ct this.1, this.2⟩

theorem look_zip : ∀ {xs : List Id} {ys : List Nat}, xs.Nodup → xs.length = ys.length → xs.map (fun x => (look (xs.zip ys) x).getD 0) = ys
  | [], [], _, _ => rfl
  | x :: xs, y :: ys, hn, hl => by
    have hn' := List.nodup_cons.1 hn
    simp only [List.zip_cons_cons, List.map_cons, look, if_true, Option.getD_some, List.cons.injEq, true_and]
    refine Eq.trans ?_ (look_zip hn'.2 (Nat.succ.inj hl))
    apply List.map_congr_left
    intro z hz
    rw [if_neg]
    rintro rfl
    exact hn'.1 hz

theorem lift_keys (c : Conv) : ∀ fs : Funs, (lift c fs).map (·.1) = fs.names.map fun f => (look c.lifted f).getD 0
  | .nil => rfl
  | .cons f ps b fs => by simp [lift, Funs.names, lift_keys c fs]

theorem okf_inner {V F : List Id} {fs : Funs} (h : OKf V (fs.names ++ F) fs) : ∀ f ∈ fs.names, f ∉ fs.inner :=
  fun _ hf hi => (defsf_new fs h hi).2 (List.mem_append_left _ hf)

/-- Bounds on names. -/
structure Bnd (N : Nat) (V D : List Id) : Prop where
  v : ∀ x ∈ V, x < N
  d : ∀ x ∈ D, x < N

theorem Bnd.mono {N M : Nat} {V D D' : List Id} (h : Bnd N V D) (hN : N ≤ M) (hD : ∀ x ∈ D', x ∈ D) : Bnd M V D' :=
  ⟨fun x hx => Nat.lt_of_lt_of_le (h.v x hx) hN, fun x hx => Nat.lt_of_lt_of_le (h.d x (hD x hx)) hN⟩

theorem Bnd.bind {N M : Nat} {V D D' : List Id} (h : Bnd N V D) (hN : N ≤ M) (xs : List Id) (hx : ∀ x ∈ xs, x ∈ D) (hD : ∀ x ∈ D', x ∈ D) :
    Bnd M (xs ++ V) D' := by
  refine ⟨fun x m => ?_, (h.mono hN hD).d⟩
  rcases List.mem_append.1 m with m | m
  · exact Nat.lt_of_lt_of_le (h.d x (hx x m)) hN
  · exact (h.mono hN hD).v x m

/-- The step at a group. -/
theorem step_grow {order : List Id → List Id} (ho : ∀ l, (order l).Perm l) {fs : Funs} {b : Expr} {V : List Id} {s : S} (h : OK V [] (.letFun fs b))
    (hb : Bnd s.rt V (Expr.letFun fs b).defs) {c : Conv} {s1 : S} (hc : newConv order fs s = (c, s1)) :
    Grow s { s1 with queue := s1.queue ++ lift c fs } ∧ OK V [] (group c b) ∧ Bnd s1.rt V (group c b).defs := by
  have hcv := newConv_ok ho fs s
  rw [hc] at hcv
  obtain ⟨h1, h2, h3, h4⟩ := h
  have hN : ∀ x ∈ fs.defs, x < s.rt := fun x hx => hb.d x (List.mem_append_left _ hx)
  have hi := okf_inner h3
  have hV : ∀ x ∈ V, x ∉ fs.defs := by
    intro x hx hd
    rcases mem_defs.1 hd with hd | hd
    · exact (h1 x hd).1 hx
    · exact (defsf_new fs h3 hd).1 hx
  have hk : (lift c fs).map (·.1) = fresh s.ct fs.names.length := by
    rw [lift_keys, hcv.lifted]; exact look_zip h2 (fresh_length _ _).symm
  refine ⟨⟨hcv.rt, ?_, lift c fs, ?_, ?_, ?_⟩, ?_, ?_⟩
  · show s.ct ≤ s1.ct
    rw [hcv.ct]; exact Nat.le_add_right _ _
  · show s1.queue ++ _ = _
    rw [hcv.queue]
  · rw [hk]; exact fresh_nodup _ _
  · intro q hq
    have : q.1 ∈ fresh s.ct fs.names.length := hk ▸ List.mem_map.2 ⟨q, hq, rfl⟩
    have := mem_fresh.1 this
    refine ⟨this.1, ?_, hcv.lift_wf hi hN hV fs h3 (fun _ => id) (fun _ => id) q hq⟩
    show q.1 < s1.ct
    rw [hcv.ct]; exact this.2
  · have := hcv.rest_ok h4 fun x hx => hb.d x (List.mem_append_right _ hx)
    simp only [group]
    cases he : c.env with
    | none => rw [he] at this; exact this
    | some e =>
      rw [he] at this
      refine ⟨?_, ⟨fun m => ?_, List.not_mem_nil⟩, this⟩
      · have hy : ∀ y ∈ c.caps.map (·.1), y ∈ V := by
          intro y hy
          have := mem_captured.1 ((hcv.dom y).1 hy)
          rcases usesf_scope fs h3 this.1 with m | m | m
          · exact m
          · exact absurd (mem_defs.2 (.inl (by simpa using m))) this.2
          · exact absurd (mem_defs.2 (.inr m)) this.2
        show OKs V [] (varsOf (c.caps.map (·.1)))
        revert hy
        generalize c.caps.map (·.1) = ys
        intro hy
        induction ys with
        | nil => exact trivial
        | cons y ys ih => exact ⟨hy y List.mem_cons_self, ih fun z hz => hy z (List.mem_cons_of_mem _ hz)⟩
      · exact Nat.lt_irrefl _ (Nat.lt_of_lt_of_le (hb.v e m) (hcv.env e he).1)
  · have hvars : ∀ ys, (varsOf ys).defs = [] := by
      intro ys; induction ys with
      | nil => rfl
      | cons y ys ih => simp [varsOf, Exprs.defs, Expr.defs, ih]
    refine ⟨fun x hx => Nat.lt_of_lt_of_le (hb.v x hx) hcv.rt, ?_⟩
    have hd : ∀ x ∈ b.defs, x < s1.rt := fun x hx => Nat.lt_of_lt_of_le (hb.d x (List.mem_append_right _ hx)) hcv.rt
    simp only [group]
    cases he : c.env with
    | none => simp only [defs_cc]; exact hd
    | some e =>
      simp only [Expr.defs, hvars, defs_cc, List.nil_append]
      intro x hx
      rcases List.mem_cons.1 hx with rfl | hx
      · exact (hcv.env _ he).2.1
      · exact hd x hx

theorem norm_grow {order : List Id → List Id} (ho : ∀ l, (order l).Perm l) : ∀ n,
    (∀ e s e' s' V, norm order n e s = some (e', s') → OK V [] e → Bnd s.rt V e.defs → Grow s s' ∧ Flat e') ∧
    (∀ e s e' s' V, norms order n e s = some (e', s') → OKs V [] e → Bnd s.rt V e.defs → Grow s s' ∧ Flats e') ∧
    (∀ e s e' s' V, normClauses order n e s = some (e', s') → OKc V [] e → Bnd s.rt V e.defs → Grow s s' ∧ Flatc e')
  | 0 => ⟨by intro e s e' s' V h; simp [norm] at h, by intro e s e' s' V h; simp [norms] at h, by intro e s e' s' V h; simp [normClauses] at h⟩
  | n + 1 => by
    obtain ⟨ih1, ih2, ih3⟩ := norm_grow ho n
    refine ⟨?_, ?_, ?_⟩
    · intro e s e' s' V h hok hb
      cases e with
      | var x => simp only [norm, Option.some.injEq, Prod.mk.injEq] at h; obtain ⟨rfl, rfl⟩ := h; exact ⟨.refl _, trivial⟩
      | lfun f => exact absurd hok List.not_mem_nil
      | sfun c => simp only [norm, Option.some.injEq, Prod.mk.injEq] at h; obtain ⟨rfl, rfl⟩ := h; exact ⟨.refl _, trivial⟩
      | int c => simp only [norm, Option.some.injEq, Prod.mk.injEq] at h; obtain ⟨rfl, rfl⟩ := h; exact ⟨.refl _, trivial⟩
      | never => simp only [norm, Option.some.injEq, Prod.mk.injEq] at h; obtain ⟨rfl, rfl⟩ := h; exact ⟨.refl _, trivial⟩
      | sfunEnv c e =>
        simp only [norm, Option.bind_eq_bind, Option.bind_eq_some_iff, Prod.exists, Option.some.injEq, Prod.mk.injEq] at h
        obtain ⟨e1, s1, h1, rfl, rfl⟩ := h
        exact (ih1 e s e1 _ V h1 hok hb :)
      | ret e =>
        simp only [norm, Option.bind_eq_bind, Option.bind_eq_some_iff, Prod.exists, Option.some.injEq, Prod.mk.injEq] at h
        obtain ⟨e1, s1, h1, rfl, rfl⟩ := h
        exact (ih1 e s e1 _ V h1 hok hb :)
      | prim p as =>
        simp only [norm, Option.bind_eq_bind, Option.bind_eq_some_iff, Prod.exists, Option.some.injEq, Prod.mk.injEq] at h
        obtain ⟨e1, s1, h1, rfl, rfl⟩ := h
        exact ih2 _ _ _ _ _ h1 hok hb
      | call a b =>
        simp only [norm, Option.bind_eq_bind, Option.bind_eq_some_iff, Prod.exists, Option.some.injEq, Prod.mk.injEq] at h
        obtain ⟨e1, s1, h1, e2, s2, h2, rfl, rfl⟩ := h
        obtain ⟨g1, f1⟩ := ih1 _ _ _ _ _ h1 hok.1 (hb.mono (Nat.le_refl _) fun x hx => by simp [Expr.defs, hx])
        obtain ⟨g2, f2⟩ := ih2 _ _ _ _ _ h2 hok.2 (hb.mono g1.rt fun x hx => by simp [Expr.defs, hx])
        exact ⟨g1.trans g2, f1, f2⟩
      | seq a b =>
        simp only [norm, Option.bind_eq_bind, Option.bind_eq_some_iff, Prod.exists, Option.some.injEq, Prod.mk.injEq] at h
        obtain ⟨e1, s1, h1, e2, s2, h2, rfl, rfl⟩ := h
        obtain ⟨g1, f1⟩ := ih1 _ _ _ _ _ h1 hok.1 (hb.mono (Nat.le_refl _) fun x hx => by simp [Expr.defs, hx])
        obtain ⟨g2, f2⟩ := ih1 _ _ _ _ _ h2 hok.2 (hb.mono g1.rt fun x hx => by simp [Expr.defs, hx])
        exact ⟨g1.trans g2, f1, f2⟩
      | «while» a b =>
        simp only [norm, Option.bind_eq_bind, Option.bind_eq_some_iff, Prod.exists, Option.some.injEq, Prod.mk.injEq] at h
        obtain ⟨e1, s1, h1, e2, s2, h2, rfl, rfl⟩ := h
        obtain ⟨g1, f1⟩ := ih1 _ _ _ _ _ h1 hok.1 (hb.mono (Nat.le_refl _) fun x hx => by simp [Expr.defs, hx])
        obtain ⟨g2, f2⟩ := ih1 _ _ _ _ _ h2 hok.2 (hb.mono g1.rt fun x hx => by simp [Expr.defs, hx])
        exact ⟨g1.trans g2, f1, f2⟩
      | case a b =>
        simp only [norm, Option.bind_eq_bind, Option.bind_eq_some_iff, Prod.exists, Option.some.injEq, Prod.mk.injEq] at h
        obtain ⟨e1, s1, h1, e2, s2, h2, rfl, rfl⟩ := h
        obtain ⟨g1, f1⟩ := ih1 _ _ _ _ _ h1 hok.1 (hb.mono (Nat.le_refl _) fun x hx => by simp [Expr.defs, hx])
        obtain ⟨g2, f2⟩ := ih3 _ _ _ _ _ h2 hok.2 (hb.mono g1.rt fun x hx => by simp [Expr.defs, hx])
        exact ⟨g1.trans g2, f1, f2⟩
      | ite a b c =>
        simp only [norm, Option.bind_eq_bind, Option.bind_eq_some_iff, Prod.exists, Option.some.injEq, Prod.mk.injEq] at h
        obtain ⟨e1, s1, h1, e2, s2, h2, e3, s3, h3, rfl, rfl⟩ := h
        obtain ⟨g1, f1⟩ := ih1 _ _ _ _ _ h1 hok.1 (hb.mono (Nat.le_refl _) fun x hx => by simp [Expr.defs, hx])
        obtain ⟨g2, f2⟩ := ih1 _ _ _ _ _ h2 hok.2.1 (hb.mono g1.rt fun x hx => by simp [Expr.defs, hx])
        obtain ⟨g3, f3⟩ := ih1 _ _ _ _ _ h3 hok.2.2 (hb.mono (g1.trans g2).rt fun x hx => by simp [Expr.defs, hx])
        exact ⟨(g1.trans g2).trans g3, f1, f2, f3⟩
      | letVar x a b =>
        simp only [norm, Option.bind_eq_bind, Option.bind_eq_some_iff, Prod.exists, Option.some.injEq, Prod.mk.injEq] at h
        obtain ⟨e1, s1, h1, e2, s2, h2, rfl, rfl⟩ := h
        obtain ⟨g1, f1⟩ := ih1 _ _ _ _ _ h1 hok.1 (hb.mono (Nat.le_refl _) fun x hx => by simp [Expr.defs, hx])
        obtain ⟨g2, f2⟩ := ih1 _ _ _ _ _ h2 hok.2.2 (hb.bind g1.rt [x] (fun x hx => by simp_all [Expr.defs]) fun x hx => by simp [Expr.defs, hx])
        exact ⟨g1.trans g2, f1, f2⟩
      | letFun fs b =>
        simp only [norm] at h
        generalize hc : newConv order fs s = cs at h
        obtain ⟨c, s1⟩ := cs
        obtain ⟨g1, ok1, b1⟩ := step_grow ho hok hb hc
        obtain ⟨g2, f2⟩ := ih1 _ _ _ _ _ h ok1 b1
        exact ⟨g1.trans g2, f2⟩
    · intro e s e' s' V h hok hb
      cases e with
      | nil => simp only [norms, Option.some.injEq, Prod.mk.injEq] at h; obtain ⟨rfl, rfl⟩ := h; exact ⟨.refl _, trivial⟩
      | cons a b =>
        simp only [norms, Option.bind_eq_bind, Option.bind_eq_some_iff, Prod.exists, Option.some.injEq, Prod.mk.injEq] at h
        obtain ⟨e1, s1, h1, e2, s2, h2, rfl, rfl⟩ := h
        obtain ⟨g1, f1⟩ := ih1 _ _ _ _ _ h1 hok.1 (hb.mono (Nat.le_refl _) fun x hx => by simp [Exprs.defs, hx])
        obtain ⟨g2, f2⟩ := ih2 _ _ _ _ _ h2 hok.2 (hb.mono g1.rt fun x hx => by simp [Exprs.defs, hx])
        exact ⟨g1.trans g2, f1, f2⟩
    · intro e s e' s' V h hok hb
      cases e with
      | nil => simp only [normClauses, Option.some.injEq, Prod.mk.injEq] at h; obtain ⟨rfl, rfl⟩ := h; exact ⟨.refl _, trivial⟩
      | cons p a b =>
        simp only [normClauses, Option.bind_eq_bind, Option.bind_eq_some_iff, Prod.exists, Option.some.injEq, Prod.mk.injEq] at h
        obtain ⟨e1, s1, h1, e2, s2, h2, rfl, rfl⟩ := h
        obtain ⟨g1, f1⟩ := ih1 _ _ _ _ _ h1 hok.2.1 (hb.bind (Nat.le_refl _) p.vars (fun x hx => by simp [Clauses.defs, hx]) fun x hx => by simp [Clauses.defs, hx])
        obtain ⟨g2, f2⟩ := ih3 _ _ _ _ _ h2 hok.2.2 (hb.mono g1.rt fun x hx => by simp [Clauses.defs, hx])
        exact ⟨g1.trans g2, f1, f2⟩

end Verif.Closure
