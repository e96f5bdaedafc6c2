import Verif.Closure.Correct

/-!
# The whole program
-/
namespace Verif.Closure

/-! ## Values that behave alike look alike -/

mutual
theorem VR.see {P' : Prog} : ∀ {v v' : Val}, VR P' v v' → v.see = v'.see
  | _, _, .int _ => rfl
  | _, _, .data t h => by simp only [Val.see, VsR.see h]
  | _, _, .ptr _ => rfl
  | _, _, .env h => by simp only [Val.see, VsR.see h]
  | _, _, .sclos _ => rfl
  | _, _, .sclosEnv _ _ => rfl
  | _, _, .lclos (ee := ee) (ht := ht) .. => by
    rw [ht]
    cases ee <;> rfl
theorem VsR.see {P' : Prog} : ∀ {v v' : Vals}, VsR P' v v' → v.see = v'.see
  | _, _, .nil => rfl
  | _, _, .cons h hs => by simp only [Vals.see, VR.see h, VsR.see hs]
end

theorem SR.see {P' : Prog} {s s' : St} (h : SR P' s s') : s.mem.map Val.see = s'.mem.map Val.see := by
  apply List.ext_getElem?
  intro i
  rw [List.getElem?_map, List.getElem?_map]
  cases e : s.mem[i]? with
  | none =>
    have : s'.mem[i]? = none := by rw [List.getElem?_eq_none_iff] at e ⊢; rw [← h.len]; exact e
    rw [this]
  | some v =>
    have : ∃ v', s'.mem[i]? = some v' := by
      have hi := (List.getElem?_eq_some_iff.1 e).1
      rw [h.len] at hi
      exact ⟨_, List.getElem?_eq_getElem hi⟩
    obtain ⟨v', e'⟩ := this
    rw [e']
    exact congrArg some (h.mem i v v' e e').see

/-! ## Driving -/

theorem look_of_mem {α : Type} {x : Id} {a : α} : ∀ {r : List (Id × α)}, (r.map (·.1)).Nodup → (x, a) ∈ r → look r x = some a
  | (y, b) :: r, hn, h => by
    have hn' := List.nodup_cons.1 hn
    simp only [look]
    rcases List.mem_cons.1 h with h | h
    · cases h; simp
    · rw [if_neg]
      · exact look_of_mem hn'.2 h
      · rintro rfl
        exact hn'.1 (List.mem_map.2 ⟨_, h, rfl⟩)

theorem drive_spec {order : List Id → List Id} (ho : ∀ l, (order l).Perm l) : ∀ (n : Nat) (s : S) (done D : List (Ct × Def)),
    drive order n s done = some D → (∀ q ∈ s.queue, WF s.rt q.2) → ((done ++ s.queue).map (·.1)).Nodup → (∀ q ∈ done ++ s.queue, q.1 < s.ct) →
    (∀ q ∈ done, Flat q.2.body) →
    (D.map (·.1)).Nodup ∧ (∀ q ∈ done, q ∈ D) ∧ (∀ q ∈ D, Flat q.2.body) ∧
    ∃ A : List (Ct × Def), (∀ q ∈ s.queue, q ∈ A) ∧ ∀ q ∈ A, ∃ n s b' s2, norm order n q.2.body s = some (b', s2) ∧
      (q.1, { q.2 with body := b' }) ∈ D ∧ (∀ p ∈ s2.queue, p ∈ A) ∧ WF s.rt q.2
  | 0, _, _, _, h, _, _, _, _ => by simp [drive] at h
  | n + 1, s, done, D, h, hw, hn, hc, hf => by
    simp only [drive] at h
    cases hq : s.queue with
    | nil =>
      rw [hq] at h hn
      simp only [Option.some.injEq] at h
      subst h
      exact ⟨by simpa using hn, fun _ => id, hf, [], nofun, nofun⟩
    | cons p q =>
      obtain ⟨c, d⟩ := p
      rw [hq] at h hw hn hc
      simp only [Option.bind_eq_bind, Option.bind_eq_some_iff, Prod.exists] at h
      obtain ⟨b, s1, h1, h2⟩ := h
      have hd := hw _ List.mem_cons_self
      obtain ⟨g, fl⟩ := (norm_grow ho n).1 _ _ _ _ _ h1 hd.ok ⟨hd.scope, hd.defs⟩
      obtain ⟨new, e, nn, nq⟩ := g.queue
      replace e : s1.queue = q ++ new := e
      have hct : s.ct ≤ s1.ct := g.ct
      have k0 : ∀ q ∈ s1.queue, WF s1.rt q.2 := by
        intro x hx
        rw [e] at hx
        rcases List.mem_append.1 hx with hx | hx
        · exact (hw x (List.mem_cons_of_mem _ hx)).mono g.rt
        · exact (nq x hx).2.2
      have k1 : (List.map (fun p : Ct × Def => p.1) (done ++ [(c, { d with body := b })] ++ s1.queue)).Nodup := by
        rw [e]
        have eq : List.map (fun p : Ct × Def => p.1) (done ++ [(c, { d with body := b })] ++ (q ++ new)) =
            List.map (fun p : Ct × Def => p.1) (done ++ (c, d) :: q) ++ List.map (fun p : Ct × Def => p.1) new := by simp
        rw [eq, List.nodup_append]
        refine ⟨hn, nn, ?_⟩
        intro x hx y hy exy
        obtain ⟨p1, hp1, rfl⟩ := List.mem_map.1 hx
        obtain ⟨p2, hp2, rfl⟩ := List.mem_map.1 hy
        have l1 := hc p1 hp1
        have l2 : s.ct ≤ p2.1 := (nq p2 hp2).1
        rw [exy] at l1
        exact Nat.lt_irrefl _ (Nat.lt_of_lt_of_le l1 l2)
      have k2 : ∀ q ∈ done ++ [(c, { d with body := b })] ++ s1.queue, q.1 < s1.ct := by
        intro x hx
        rw [e] at hx
        rcases List.mem_append.1 hx with hx | hx
        · rcases List.mem_append.1 hx with hx | hx
          · exact Nat.lt_of_lt_of_le (hc x (List.mem_append_left _ hx)) hct
          · rw [List.mem_singleton] at hx
            subst hx
            exact Nat.lt_of_lt_of_le (hc (c, d) (List.mem_append_right _ List.mem_cons_self)) hct
        · rcases List.mem_append.1 hx with hx | hx
          · exact Nat.lt_of_lt_of_le (hc x (List.mem_append_right _ (List.mem_cons_of_mem _ hx))) hct
          · exact (nq x hx).2.1
      have k3 : ∀ q ∈ done ++ [(c, { d with body := b })], Flat q.2.body := by
        intro x hx
        rcases List.mem_append.1 hx with hx | hx
        · exact hf x hx
        · rw [List.mem_singleton] at hx
          subst hx
          exact fl
      obtain ⟨r1, r2, r3, A, a1, a2⟩ := drive_spec ho n s1 _ D h2 k0 k1 k2 k3
      refine ⟨r1, fun x hx => r2 x (List.mem_append_left _ hx), r3, (c, d) :: A, ?_, ?_⟩
      · intro x hx
        rcases List.mem_cons.1 hx with rfl | hx
        · exact List.mem_cons_self
        · exact List.mem_cons_of_mem _ (a1 x (e ▸ List.mem_append_left _ hx))
      · intro x hx
        rcases List.mem_cons.1 hx with rfl | hx
        · exact ⟨n, _, b, s1, h1, r2 _ (List.mem_append_right _ List.mem_cons_self), fun p hp => List.mem_cons_of_mem _ (a1 p hp), hd⟩
        · obtain ⟨n', s', b', s2, w1, w2, w3, w4⟩ := a2 x hx
          exact ⟨n', s', b', s2, w1, w2, fun p hp => List.mem_cons_of_mem _ (w3 p hp), w4⟩

/-- A program whose names are below `rt` and `ct`, every variable in scope, no name defined where it is in scope. -/
structure Program.WF (rt ct : Nat) (P : Program) : Prop where
  keys : (P.defs.map (·.1)).Nodup
  below : ∀ q ∈ P.defs, q.1 < ct
  defs : ∀ q ∈ P.defs, Closure.WF rt q.2
  main : OK [] [] P.main
  names : ∀ x ∈ P.main.defs, x < rt

def Program.fn (P : Program) : Prog := look P.defs

theorem scope_idOn (d : Def) : SMap.bindAll d.params (match d.env with | some (e, ys) => SMap.bindAll ys (SMap.bind e fun _ => none) | none => fun _ => none) =
    idOn d.scope := by
  have h0 : (fun _ => none : SMap) = idOn [] := by funext z; simp [idOn]
  simp only [Def.scope]
  cases d.env with
  | none => simp only [h0, idOn_bindAll]
  | some q =>
    simp only [h0, idOn_bind, idOn_bindAll]
    apply idOn_congr
    intro z
    simp [or_comm]

theorem normalize_parts {order : List Id → List Id} (ho : ∀ l, (order l).Perm l) {n rt ct : Nat} {P P' : Program} (hP : P.WF rt ct)
    (h : normalize order n rt ct P = some P') :
    PR P.fn P'.fn ∧ CC P'.fn [] (fun _ => none) (fun _ => none) P.main P'.main ∧ Flat P'.main ∧ ∀ q ∈ P'.defs, Flat q.2.body := by
  simp only [normalize, Option.bind_eq_bind, Option.bind_eq_some_iff, Prod.exists, Option.some.injEq] at h
  obtain ⟨main, s, h1, D, h2, rfl⟩ := h
  obtain ⟨g, fl⟩ := (norm_grow ho n).1 _ _ _ _ [] h1 hP.main ⟨nofun, hP.names⟩
  obtain ⟨new, e, nn, nq⟩ := g.queue
  replace e : s.queue = P.defs ++ new := e
  have k0 : ∀ q ∈ s.queue, Closure.WF s.rt q.2 := by
    intro q hq
    rw [e] at hq
    rcases List.mem_append.1 hq with hq | hq
    · exact (hP.defs q hq).mono g.rt
    · exact (nq q hq).2.2
  have k1 : (List.map (fun p : Ct × Def => p.1) ([] ++ s.queue)).Nodup := by
    rw [List.nil_append, e, List.map_append, List.nodup_append]
    refine ⟨hP.keys, nn, ?_⟩
    intro x hx y hy exy
    obtain ⟨p1, hp1, rfl⟩ := List.mem_map.1 hx
    obtain ⟨p2, hp2, rfl⟩ := List.mem_map.1 hy
    have l1 := hP.below p1 hp1
    have l2 : ct ≤ p2.1 := (nq p2 hp2).1
    rw [exy] at l1
    exact Nat.lt_irrefl _ (Nat.lt_of_lt_of_le l1 l2)
  have k2 : ∀ q ∈ [] ++ s.queue, q.1 < s.ct := by
    intro q hq
    rw [List.nil_append, e] at hq
    rcases List.mem_append.1 hq with hq | hq
    · exact Nat.lt_of_lt_of_le (hP.below q hq) g.ct
    · exact (nq q hq).2.1
  obtain ⟨r1, _, r3, A, a1, a2⟩ := drive_spec ho n s [] D h2 k0 k1 k2 nofun
  have hQ : Closed order (look D) (· ∈ A) := by
    intro q hq
    obtain ⟨n', s', b', s2, w1, w2, w3, w4⟩ := a2 q hq
    exact ⟨n', s', b', s2, w1, look_of_mem r1 w2, w3, w4⟩
  refine ⟨?_, ?_, fl, r3⟩
  · intro c d hd
    have hm : (c, d) ∈ A := a1 _ (e ▸ List.mem_append_left _ (look_mem hd))
    obtain ⟨n', s', b', s2, w1, w2, w3, w4⟩ := hQ _ hm
    refine ⟨b', w2, ?_⟩
    refine (scope_idOn d).symm ▸ ?_
    exact (norm_cc ho hQ _).1 _ (Nat.le_refl _) n' s' b' s2 d.scope w1 w4.ok ⟨w4.scope, w4.defs⟩ w3
  · have h0 : (fun _ => none : SMap) = idOn [] := by funext z; simp [idOn]
    have := (norm_cc ho hQ _).1 P.main (Nat.le_refl _) n _ main s [] h1 hP.main ⟨nofun, hP.names⟩ a1
    rw [← h0] at this
    exact this

/-! ## Fuel -/

mutual
def Expr.cost : Expr → Nat
  | .var _ => 1
  | .lfun _ => 2
  | .sfun _ => 2
  | .sfunEnv _ e => 1 + e.cost
  | .int _ => 1
  | .call f as => 1 + f.cost + as.cost
  | .prim _ as => 1 + as.cost
  | .seq a b => 1 + a.cost + b.cost
  | .ite c t e => 1 + c.cost + t.cost + e.cost
  | .while c b => 1 + c.cost + b.cost
  | .case e cs => 1 + e.cost + cs.cost
  | .ret e => 1 + e.cost
  | .never => 1
  | .letVar _ e b => 1 + e.cost + b.cost
  | .letFun fs b => 4 + 2 * fs.uses.length + fs.cost + b.cost
def Exprs.cost : Exprs → Nat
  | .nil => 1
  | .cons e es => 1 + e.cost + es.cost
def Clauses.cost : Clauses → Nat
  | .nil => 1
  | .cons _ b cs => 1 + b.cost + cs.cost
def Funs.cost : Funs → Nat
  | .nil => 0
  | .cons _ _ b fs => 1 + b.cost + fs.cost
end

section
variable (r : List (Id × Id)) (l : List (Id × Ct)) (ee : Option Id)
mutual
theorem cost_cc : ∀ e, (cc r l ee e).cost ≤ e.cost ∧ (cc r l ee e).uses.length ≤ e.uses.length
  | .var x => ⟨Nat.le_refl _, Nat.le_refl _⟩
  | .lfun f => by
    simp only [cc]
    split
    · split <;> simp [Expr.cost, Expr.uses]
    · simp
  | .sfun _ => ⟨Nat.le_refl _, Nat.le_refl _⟩
  | .sfunEnv _ e => by have := cost_cc e; simp only [cc, Expr.cost, Expr.uses]; omega
  | .int _ => ⟨Nat.le_refl _, Nat.le_refl _⟩
  | .call f as => by have := cost_cc f; have := cost_ccs as; simp only [cc, Expr.cost, Expr.uses, List.length_append]; omega
  | .prim _ as => by have := cost_ccs as; simp only [cc, Expr.cost, Expr.uses]; omega
  | .seq a b => by have := cost_cc a; have := cost_cc b; simp only [cc, Expr.cost, Expr.uses, List.length_append]; omega
  | .ite c t e => by have := cost_cc c; have := cost_cc t; have := cost_cc e; simp only [cc, Expr.cost, Expr.uses, List.length_append]; omega
  | .while a b => by have := cost_cc a; have := cost_cc b; simp only [cc, Expr.cost, Expr.uses, List.length_append]; omega
  | .case e cs => by have := cost_cc e; have := cost_ccClauses cs; simp only [cc, Expr.cost, Expr.uses, List.length_append]; omega
  | .ret e => by have := cost_cc e; simp only [cc, Expr.cost, Expr.uses]; omega
  | .never => ⟨Nat.le_refl _, Nat.le_refl _⟩
  | .letVar x a b => by have := cost_cc a; have := cost_cc b; simp only [cc, Expr.cost, Expr.uses, List.length_append]; omega
  | .letFun fs b => by have := cost_ccFuns fs; have := cost_cc b; simp only [cc, Expr.cost, Expr.uses, List.length_append]; omega
theorem cost_ccs : ∀ es, (ccs r l ee es).cost ≤ es.cost ∧ (ccs r l ee es).uses.length ≤ es.uses.length
  | .nil => ⟨Nat.le_refl _, Nat.le_refl _⟩
  | .cons a b => by have := cost_cc a; have := cost_ccs b; simp only [ccs, Exprs.cost, Exprs.uses, List.length_append]; omega
theorem cost_ccClauses : ∀ es, (ccClauses r l ee es).cost ≤ es.cost ∧ (ccClauses r l ee es).uses.length ≤ es.uses.length
  | .nil => ⟨Nat.le_refl _, Nat.le_refl _⟩
  | .cons p a b => by have := cost_cc a; have := cost_ccClauses b; simp only [ccClauses, Clauses.cost, Clauses.uses, List.length_append]; omega
theorem cost_ccFuns : ∀ es, (ccFuns r l ee es).cost ≤ es.cost ∧ (ccFuns r l ee es).uses.length ≤ es.uses.length
  | .nil => ⟨Nat.le_refl _, Nat.le_refl _⟩
  | .cons f ps a b => by have := cost_cc a; have := cost_ccFuns b; simp only [ccFuns, Funs.cost, Funs.uses, List.length_append]; omega
end
end

def qcost : List (Ct × Def) → Nat
  | [] => 0
  | q :: qs => 1 + q.2.body.cost + qcost qs

theorem qcost_append : ∀ a b, qcost (a ++ b) = qcost a + qcost b
  | [], b => by simp [qcost]
  | x :: a, b => by simp only [List.cons_append, qcost, qcost_append a b]; omega

theorem lift_cost (c : Conv) : ∀ fs, qcost (lift c fs) ≤ fs.cost
  | .nil => Nat.le_refl _
  | .cons f ps b fs => by
    have := lift_cost c fs
    have := (cost_cc c.caps c.lifted c.env b).1
    simp only [lift, qcost, Funs.cost]; omega

theorem dedup_length : ∀ xs, (dedup xs).length ≤ xs.length
  | [] => Nat.le_refl _
  | x :: xs => by
    have := dedup_length xs
    simp only [dedup]
    split
    · simp only [List.length_cons]; omega
    · simp only [List.length_cons]; omega

theorem varsOf_cost : ∀ ys, (varsOf ys).cost = 1 + 2 * ys.length
  | [] => rfl
  | y :: ys => by simp only [varsOf, Exprs.cost, Expr.cost, varsOf_cost ys, List.length_cons]; omega

theorem group_cost {order : List Id → List Id} (ho : ∀ l, (order l).Perm l) (fs : Funs) (b : Expr) (s : S) :
    (group (newConv order fs s).1 b).cost ≤ 3 + 2 * fs.uses.length + b.cost := by
  have hl : ((newConv order fs s).1.caps.map (·.1)).length ≤ fs.uses.length := by
    show ((sort ((order (captured fs)).zip (fresh s.rt (order (captured fs)).length))).map (·.1)).length ≤ _
    rw [((sort_perm _).map (·.1)).length_eq, zip_fst (fresh_length _ _).symm, (ho _).length_eq]
    exact Nat.le_trans (dedup_length _) (List.length_filter_le _ _)
  generalize (newConv order fs s).1 = c at hl ⊢
  have := (cost_cc [] c.lifted c.env b).1
  simp only [group]
  cases h : c.env with
  | none => rw [h] at this; simp only; omega
  | some e => rw [h] at this; simp only [Expr.cost, varsOf_cost]; omega

theorem norm_total {order : List Id → List Id} (ho : ∀ l, (order l).Perm l) : ∀ n,
    (∀ e s, Expr.cost e ≤ n → ∃ e' s', norm order n e s = some (e', s') ∧ qcost s'.queue ≤ qcost s.queue + e.cost) ∧
    (∀ e s, Exprs.cost e ≤ n → ∃ e' s', norms order n e s = some (e', s') ∧ qcost s'.queue ≤ qcost s.queue + e.cost) ∧
    (∀ e s, Clauses.cost e ≤ n → ∃ e' s', normClauses order n e s = some (e', s') ∧ qcost s'.queue ≤ qcost s.queue + e.cost)
  | 0 => ⟨by intro e s h; cases e <;> simp only [Expr.cost] at h <;> omega, by intro e s h; cases e <;> simp only [Exprs.cost] at h <;> omega,
      by intro e s h; cases e <;> simp only [Clauses.cost] at h <;> omega⟩
  | n + 1 => by
    obtain ⟨ih1, ih2, ih3⟩ := norm_total ho n
    refine ⟨?_, ?_, ?_⟩
    · intro e s h
      cases e with
      | var x => exact ⟨_, _, rfl, Nat.le_add_right _ _⟩
      | lfun x => exact ⟨_, _, rfl, Nat.le_add_right _ _⟩
      | sfun x => exact ⟨_, _, rfl, Nat.le_add_right _ _⟩
      | int x => exact ⟨_, _, rfl, Nat.le_add_right _ _⟩
      | never => exact ⟨_, _, rfl, Nat.le_add_right _ _⟩
      | sfunEnv c a =>
        simp only [Expr.cost] at h ⊢
        obtain ⟨e1, s1, h1, q1⟩ := ih1 a s (by omega)
        exact ⟨_, s1, by simp only [norm, h1, Option.bind_eq_bind, Option.bind_some]; rfl, by omega⟩
      | ret a =>
        simp only [Expr.cost] at h ⊢
        obtain ⟨e1, s1, h1, q1⟩ := ih1 a s (by omega)
        exact ⟨_, s1, by simp only [norm, h1, Option.bind_eq_bind, Option.bind_some]; rfl, by omega⟩
      | prim p a =>
        simp only [Expr.cost] at h ⊢
        obtain ⟨e1, s1, h1, q1⟩ := ih2 a s (by omega)
        exact ⟨_, s1, by simp only [norm, h1, Option.bind_eq_bind, Option.bind_some]; rfl, by omega⟩
      | call a b =>
        simp only [Expr.cost] at h ⊢
        obtain ⟨e1, s1, h1, q1⟩ := ih1 a s (by omega)
        obtain ⟨e2, s2, h2, q2⟩ := ih2 b s1 (by omega)
        exact ⟨_, s2, by simp only [norm, h1, h2, Option.bind_eq_bind, Option.bind_some]; rfl, by omega⟩
      | seq a b =>
        simp only [Expr.cost] at h ⊢
        obtain ⟨e1, s1, h1, q1⟩ := ih1 a s (by omega)
        obtain ⟨e2, s2, h2, q2⟩ := ih1 b s1 (by omega)
        exact ⟨_, s2, by simp only [norm, h1, h2, Option.bind_eq_bind, Option.bind_some]; rfl, by omega⟩
      | «while» a b =>
        simp only [Expr.cost] at h ⊢
        obtain ⟨e1, s1, h1, q1⟩ := ih1 a s (by omega)
        obtain ⟨e2, s2, h2, q2⟩ := ih1 b s1 (by omega)
        exact ⟨_, s2, by simp only [norm, h1, h2, Option.bind_eq_bind, Option.bind_some]; rfl, by omega⟩
      | case a b =>
        simp only [Expr.cost] at h ⊢
        obtain ⟨e1, s1, h1, q1⟩ := ih1 a s (by omega)
        obtain ⟨e2, s2, h2, q2⟩ := ih3 b s1 (by omega)
        exact ⟨_, s2, by simp only [norm, h1, h2, Option.bind_eq_bind, Option.bind_some]; rfl, by omega⟩
      | ite a b c =>
        simp only [Expr.cost] at h ⊢
        obtain ⟨e1, s1, h1, q1⟩ := ih1 a s (by omega)
        obtain ⟨e2, s2, h2, q2⟩ := ih1 b s1 (by omega)
        obtain ⟨e3, s3, h3, q3⟩ := ih1 c s2 (by omega)
        exact ⟨_, s3, by simp only [norm, h1, h2, h3, Option.bind_eq_bind, Option.bind_some]; rfl, by omega⟩
      | letVar x a b =>
        simp only [Expr.cost] at h ⊢
        obtain ⟨e1, s1, h1, q1⟩ := ih1 a s (by omega)
        obtain ⟨e2, s2, h2, q2⟩ := ih1 b s1 (by omega)
        exact ⟨_, s2, by simp only [norm, h1, h2, Option.bind_eq_bind, Option.bind_some]; rfl, by omega⟩
      | letFun fs b =>
        simp only [Expr.cost] at h ⊢
        have hg := group_cost ho fs b s
        have hl := lift_cost (newConv order fs s).1 fs
        obtain ⟨e1, s1, h1, q1⟩ := ih1 (group (newConv order fs s).1 b)
          { (newConv order fs s).2 with queue := (newConv order fs s).2.queue ++ lift (newConv order fs s).1 fs } (by omega)
        refine ⟨e1, s1, by simp only [norm]; exact h1, ?_⟩
        simp only [qcost_append] at q1
        have : (newConv order fs s).2.queue = s.queue := rfl
        rw [this] at q1
        omega
    · intro e s h
      cases e with
      | nil => exact ⟨_, _, rfl, Nat.le_add_right _ _⟩
      | cons a b =>
        simp only [Exprs.cost] at h ⊢
        obtain ⟨e1, s1, h1, q1⟩ := ih1 a s (by omega)
        obtain ⟨e2, s2, h2, q2⟩ := ih2 b s1 (by omega)
        exact ⟨_, s2, by simp only [norms, h1, h2, Option.bind_eq_bind, Option.bind_some]; rfl, by omega⟩
    · intro e s h
      cases e with
      | nil => exact ⟨_, _, rfl, Nat.le_add_right _ _⟩
      | cons p a b =>
        simp only [Clauses.cost] at h ⊢
        obtain ⟨e1, s1, h1, q1⟩ := ih1 a s (by omega)
        obtain ⟨e2, s2, h2, q2⟩ := ih3 b s1 (by omega)
        exact ⟨_, s2, by simp only [normClauses, h1, h2, Option.bind_eq_bind, Option.bind_some]; rfl, by omega⟩

theorem drive_total {order : List Id → List Id} (ho : ∀ l, (order l).Perm l) : ∀ (n : Nat) (s : S) (done : List (Ct × Def)), qcost s.queue < n →
    ∃ D, drive order n s done = some D
  | 0, _, _, h => absurd h (Nat.not_lt_zero _)
  | n + 1, s, done, h => by
    cases hq : s.queue with
    | nil => exact ⟨done, by simp only [drive, hq]⟩
    | cons p q =>
      obtain ⟨c, d⟩ := p
      rw [hq] at h
      simp only [qcost] at h
      obtain ⟨b, s1, h1, q1⟩ := (norm_total ho n).1 d.body { s with queue := q } (by omega)
      simp only at q1
      obtain ⟨D, hD⟩ := drive_total ho n s1 (done ++ [(c, { d with body := b })]) (by omega)
      exact ⟨D, by simp only [drive, hq, h1, Option.bind_eq_bind, Option.bind_some]; exact hD⟩

theorem normalize_total {order : List Id → List Id} (ho : ∀ l, (order l).Perm l) (rt ct : Nat) (P : Program) (n : Nat)
    (hn : qcost P.defs + P.main.cost < n) : ∃ P', normalize order n rt ct P = some P' := by
  obtain ⟨m, s, h1, q1⟩ := (norm_total ho n).1 P.main ⟨rt, ct, P.defs⟩ (by omega)
  simp only at q1
  obtain ⟨D, hD⟩ := drive_total ho n s [] (by omega)
  exact ⟨⟨D, m⟩, by simp only [normalize, h1, Option.bind_eq_bind, Option.bind_some, hD]⟩

end Verif.Closure
