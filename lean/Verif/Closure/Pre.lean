import Verif.Closure.Scope

/-!
# A conversion before a conversion is one conversion
-/
namespace Verif.Closure

/-- What `σ` and `φ` say after the names are replaced, `σ2` and `φ2` say before. -/
structure Pre (N : Nat) (r : List (Id × Id)) (l : List (Id × Ct)) (ee : Option Id) (σ : SMap) (φ : FMap) (σ2 : SMap) (φ2 : FMap) : Prop where
  vars : ∀ z w, z < N → σ (rename r z) = some w → σ2 z = some w
  fs0 : ee = none → ∀ g c, look l g = some c → φ2 g = some (c, none)
  fs1 : ∀ e y, ee = some e → σ e = some y → ∀ g c, look l g = some c → φ2 g = some (c, some y)
  rest : ∀ g q, look l g = none → φ g = some q → φ2 g = some q

/-- A variable that has nothing to do with the replacement. -/
structure Bd (r : List (Id × Id)) (l : List (Id × Ct)) (ee : Option Id) (x : Id) : Prop where
  dom : look r x = none
  range : ∀ z, look r z ≠ some x
  env : ee ≠ some x
  fn : look l x = none

theorem hide_some {φ : FMap} {x g : Id} {q : Ct × Option Id} : φ.hide x g = some q ↔ φ g = some q ∧ q.2 ≠ some x := by
  simp only [FMap.hide]
  cases h : φ g with
  | none => simp
  | some p =>
    obtain ⟨c, y⟩ := p
    cases y with
    | none => simp only [Option.some.injEq]; constructor
              · rintro rfl; simp
              · exact And.left
    | some y =>
      simp only [Option.some.injEq]
      split
      · rename_i hy; subst hy
        simp only [reduceCtorEq, false_iff, not_and]
        rintro rfl; simp
      · rename_i hy
        simp only [Option.some.injEq]
        constructor
        · rintro rfl; exact ⟨rfl, by simpa using hy⟩
        · exact And.left

theorem hideS_some {σ : SMap} {x z w : Id} : σ.hide x z = some w ↔ σ z = some w ∧ w ≠ x := by
  simp only [SMap.hide]
  split
  · rename_i h; rw [h]; simp only [reduceCtorEq, Option.some.injEq, false_iff, not_and]
    rintro rfl; simp
  · rename_i h
    constructor
    · intro hw; refine ⟨hw, ?_⟩; rintro rfl; exact h hw
    · exact And.left

theorem inside_some {φ : FMap} {r : List (Id × Id)} {g : Id} {q : Ct × Option Id} :
    φ.inside r g = some q ↔ (φ g = some q ∧ q.2 = none) ∨ ∃ y y', φ g = some (q.1, some y) ∧ look r y = some y' ∧ q.2 = some y' := by
  simp only [FMap.inside]
  obtain ⟨qc, qy⟩ := q
  cases h : φ g with
  | none => simp
  | some p =>
    obtain ⟨c, y⟩ := p
    cases y with
    | none => simp only [Option.some.injEq, Prod.mk.injEq]; constructor
              · rintro ⟨rfl, rfl⟩; simp
              · rintro (⟨h, _⟩ | ⟨y, y', ⟨_, h⟩, _⟩)
                · exact h
                · simp at h
    | some y =>
      simp only [Option.map_eq_some_iff, Option.some.injEq, Prod.mk.injEq]
      constructor
      · rintro ⟨a, ha, rfl, rfl⟩
        exact .inr ⟨y, a, ⟨rfl, rfl⟩, ha, rfl⟩
      · rintro (⟨⟨rfl, h⟩, rfl⟩ | ⟨y1, y2, ⟨rfl, rfl⟩, h, rfl⟩)
        · simp at h
        · exact ⟨y2, h, rfl, rfl⟩

variable {N : Nat} {r : List (Id × Id)} {l : List (Id × Ct)} {ee : Option Id} {σ : SMap} {φ : FMap} {σ2 : SMap} {φ2 : FMap}

theorem Pre.hide (h : Pre N r l ee σ φ σ2 φ2) (x : Id) : Pre N r l ee (σ.hide x) (φ.hide x) (σ2.hide x) (φ2.hide x) := by
  refine ⟨?_, ?_, ?_, ?_⟩
  · intro z w hz hw
    rw [hideS_some] at hw ⊢
    exact ⟨h.vars z w hz hw.1, hw.2⟩
  · intro he g c hg
    rw [hide_some]; exact ⟨h.fs0 he g c hg, by simp⟩
  · intro e y he hy g c hg
    rw [hideS_some] at hy
    rw [hide_some]; exact ⟨h.fs1 e y he hy.1 g c hg, by simpa using hy.2⟩
  · intro g q hg hq
    rw [hide_some] at hq ⊢
    exact ⟨h.rest g q hg hq.1, hq.2⟩

theorem Pre.bind (h : Pre N r l ee σ φ σ2 φ2) {x : Id} (hx : Bd r l ee x) : Pre N r l ee (σ.bind x) (φ.hide x) (σ2.bind x) (φ2.hide x) := by
  have h' := h.hide x
  refine ⟨?_, h'.fs0, ?_, h'.rest⟩
  · intro z w hz hw
    simp only [SMap.bind] at hw ⊢
    by_cases e : z = x
    · subst e
      have : rename r z = z := by simp [rename, hx.dom]
      simpa [this] using hw
    · have : rename r z ≠ x := by
        simp only [rename]
        cases hr : look r z with
        | none => exact e
        | some z' => rintro rfl; exact hx.range z hr
      rw [if_neg this] at hw
      rw [if_neg e]
      exact h'.vars z w hz hw
  · intro e y he hy
    simp only [SMap.bind] at hy
    rw [if_neg (by rintro rfl; exact hx.env he)] at hy
    exact h'.fs1 e y he hy

theorem Pre.bindAll : ∀ {xs : List Id} {σ : SMap} {φ : FMap} {σ2 : SMap} {φ2 : FMap}, Pre N r l ee σ φ σ2 φ2 → (∀ x ∈ xs, Bd r l ee x) →
    Pre N r l ee (σ.bindAll xs) (φ.hideAll xs) (σ2.bindAll xs) (φ2.hideAll xs)
  | [], _, _, _, _, h, _ => h
  | x :: xs, _, _, _, _, h, hx => Pre.bindAll (xs := xs) (h.bind (hx x List.mem_cons_self)) fun y hy => hx y (List.mem_cons_of_mem _ hy)

theorem Pre.inside (h : Pre N r l ee σ φ σ2 φ2) (r' : List (Id × Id)) :
    Pre N r l ee (σ.inside r') (φ.inside r') (σ2.inside r') (φ2.inside r') := by
  refine ⟨?_, ?_, ?_, ?_⟩
  · intro z w hz hw
    simp only [SMap.inside, Option.bind_eq_some_iff] at hw ⊢
    obtain ⟨a, ha, hw⟩ := hw
    exact ⟨a, h.vars z a hz ha, hw⟩
  · intro he g c hg
    rw [inside_some]; exact .inl ⟨h.fs0 he g c hg, rfl⟩
  · intro e y he hy g c hg
    simp only [SMap.inside, Option.bind_eq_some_iff] at hy
    obtain ⟨a, ha, hy⟩ := hy
    rw [inside_some]; exact .inr ⟨a, y, h.fs1 e a he ha g c hg, hy, rfl⟩
  · intro g q hg hq
    rw [inside_some] at hq ⊢
    rcases hq with ⟨h1, h2⟩ | ⟨y, y', h1, h2⟩
    · exact .inl ⟨h.rest g q hg h1, h2⟩
    · exact .inr ⟨y, y', h.rest g _ hg h1, h2⟩

theorem Pre.own (h : Pre N r l ee σ φ σ2 φ2) {l' : List (Id × Ct)} (ee' : Option Id) (hl : ∀ g, (look l' g).isSome → look l g = none) :
    Pre N r l ee σ (φ.own l' ee') σ2 (φ2.own l' ee') := by
  have key : ∀ g c, look l g = some c → look l' g = none := by
    intro g c hg
    cases e : look l' g with
    | none => rfl
    | some c' => have := hl g (by simp [e]); simp [this] at hg
  refine ⟨h.vars, ?_, ?_, ?_⟩
  · intro he g c hg
    simp only [FMap.own, key g c hg]; exact h.fs0 he g c hg
  · intro e y he hy g c hg
    simp only [FMap.own, key g c hg]; exact h.fs1 e y he hy g c hg
  · intro g q hg hq
    simp only [FMap.own] at hq ⊢
    cases e : look l' g with
    | none => rw [e] at hq; exact h.rest g q hg hq
    | some c => rw [e] at hq; exact hq

variable {P' : Prog}

mutual
theorem cc_pre : ∀ (e : Expr) {e' : Expr} {T : List Id} {σ : SMap} {φ : FMap} {σ2 : SMap} {φ2 : FMap}, CC P' T σ φ (cc r l ee e) e' →
    Pre N r l ee σ φ σ2 φ2 → (∀ x ∈ e.uses, x < N) → (∀ x ∈ e.defs, Bd r l ee x) → CC P' T σ2 φ2 e e'
  | .var x, e', T, σ, φ, σ2, φ2, hc, hp, hu, hd => by
    obtain ⟨y, hy, rfl⟩ := hc
    exact ⟨y, hp.vars x y (hu x (by simp [Expr.uses])) hy, rfl⟩
  | .lfun f, e', T, σ, φ, σ2, φ2, hc, hp, hu, hd => by
    simp only [cc] at hc
    cases hl : look l f with
    | none =>
      rw [hl] at hc
      simp only [CC] at hc ⊢
      obtain ⟨c, ⟨h1, h2⟩ | ⟨y, h1, h2⟩⟩ := hc
      · exact ⟨c, .inl ⟨hp.rest _ _ hl h1, h2⟩⟩
      · exact ⟨c, .inr ⟨y, hp.rest _ _ hl h1, h2⟩⟩
    | some c =>
      rw [hl] at hc
      cases he : ee with
      | none =>
        rw [he] at hc
        exact ⟨c, .inl ⟨hp.fs0 he _ _ hl, hc⟩⟩
      | some e0 =>
        rw [he] at hc
        obtain ⟨e1, ⟨y, hy, rfl⟩, rfl⟩ := hc
        exact ⟨c, .inr ⟨y, hp.fs1 _ _ he hy _ _ hl, rfl⟩⟩
  | .sfun _, e', T, σ, φ, σ2, φ2, hc, hp, hu, hd => hc
  | .sfunEnv _ e, e', T, σ, φ, σ2, φ2, hc, hp, hu, hd => by
    obtain ⟨e1, h, rfl⟩ := hc
    exact ⟨e1, cc_pre e h hp hu hd, rfl⟩
  | .int _, e', T, σ, φ, σ2, φ2, hc, hp, hu, hd => hc
  | .call f as, e', T, σ, φ, σ2, φ2, hc, hp, hu, hd => by
    obtain ⟨f1, as1, h1, h2, rfl⟩ := hc
    simp only [Expr.uses, Expr.defs, List.mem_append] at hu hd
    exact ⟨f1, as1, cc_pre f h1 hp (fun x a => hu x (.inl a)) (fun x a => hd x (.inl a)),
      ccs_pre as h2 hp (fun x a => hu x (.inr a)) (fun x a => hd x (.inr a)), rfl⟩
  | .prim _ as, e', T, σ, φ, σ2, φ2, hc, hp, hu, hd => by
    obtain ⟨e1, h, rfl⟩ := hc
    exact ⟨e1, ccs_pre as h hp hu hd, rfl⟩
  | .seq f as, e', T, σ, φ, σ2, φ2, hc, hp, hu, hd => by
    obtain ⟨f1, as1, h1, h2, rfl⟩ := hc
    simp only [Expr.uses, Expr.defs, List.mem_append] at hu hd
    exact ⟨f1, as1, cc_pre f h1 hp (fun x a => hu x (.inl a)) (fun x a => hd x (.inl a)),
      cc_pre as h2 hp (fun x a => hu x (.inr a)) (fun x a => hd x (.inr a)), rfl⟩
  | .ite c t e, e', T, σ, φ, σ2, φ2, hc, hp, hu, hd => by
    obtain ⟨c1, t1, e1, h1, h2, h3, rfl⟩ := hc
    simp only [Expr.uses, Expr.defs, List.mem_append] at hu hd
    exact ⟨c1, t1, e1, cc_pre c h1 hp (fun x a => hu x (.inl a)) (fun x a => hd x (.inl a)),
      cc_pre t h2 hp (fun x a => hu x (.inr (.inl a))) (fun x a => hd x (.inr (.inl a))),
      cc_pre e h3 hp (fun x a => hu x (.inr (.inr a))) (fun x a => hd x (.inr (.inr a))), rfl⟩
  | .while f as, e', T, σ, φ, σ2, φ2, hc, hp, hu, hd => by
    obtain ⟨f1, as1, h1, h2, rfl⟩ := hc
    simp only [Expr.uses, Expr.defs, List.mem_append] at hu hd
    exact ⟨f1, as1, cc_pre f h1 hp (fun x a => hu x (.inl a)) (fun x a => hd x (.inl a)),
      cc_pre as h2 hp (fun x a => hu x (.inr a)) (fun x a => hd x (.inr a)), rfl⟩
  | .case e cs, e', T, σ, φ, σ2, φ2, hc, hp, hu, hd => by
    obtain ⟨f1, as1, h1, h2, rfl⟩ := hc
    simp only [Expr.uses, Expr.defs, List.mem_append] at hu hd
    exact ⟨f1, as1, cc_pre e h1 hp (fun x a => hu x (.inl a)) (fun x a => hd x (.inl a)),
      ccc_pre cs h2 hp (fun x a => hu x (.inr a)) (fun x a => hd x (.inr a)), rfl⟩
  | .ret e, e', T, σ, φ, σ2, φ2, hc, hp, hu, hd => by
    obtain ⟨e1, h, rfl⟩ := hc
    exact ⟨e1, cc_pre e h hp hu hd, rfl⟩
  | .never, e', T, σ, φ, σ2, φ2, hc, hp, hu, hd => hc
  | .letVar x e b, e', T, σ, φ, σ2, φ2, hc, hp, hu, hd => by
    obtain ⟨f1, as1, h1, h2, rfl⟩ := hc
    simp only [Expr.uses, Expr.defs, List.mem_append, List.mem_cons] at hu hd
    exact ⟨f1, as1, cc_pre e h1 hp (fun x a => hu x (.inl a)) (fun x a => hd x (.inr (.inl a))),
      cc_pre b h2 (hp.bind (hd x (.inl rfl))) (fun x a => hu x (.inr a)) (fun x a => hd x (.inr (.inr a))), rfl⟩
  | .letFun fs b, e', T, σ, φ, σ2, φ2, hc, hp, hu, hd => by
    obtain ⟨r', l', ee', b1, h1, h2, h3, h4, h5⟩ := hc
    simp only [Expr.uses, Expr.defs, List.mem_append] at hu hd
    have h3' : ∀ g, (look l' g).isSome = (fs.find g).isSome := fun g => by rw [h3, find_ccFuns]
    have hl : ∀ g, (look l' g).isSome → look l g = none := fun g hg =>
      (hd g (.inl (mem_defs.2 (.inl (find_names.1 (by rw [← h3']; exact hg)))))).fn
    refine ⟨r', l', ee', b1, h1, h2, h3', ?_, ?_⟩
    · exact ccf_pre fs h4 ((hp.inside r').own ee' hl) (fun x a => hu x (.inl a)) (fun x a => hd x (.inl (mem_defs.2 (.inr a))))
    · cases ee' with
      | none =>
        obtain ⟨h6, h7, h8⟩ := h5
        exact ⟨h6, cc_pre b h7 (hp.own none hl) (fun x a => hu x (.inr a)) (fun x a => hd x (.inr a)), h8⟩
      | some e0 =>
        obtain ⟨h6, h7, h8⟩ := h5
        exact ⟨h6, cc_pre b h7 ((hp.hide e0).own (some e0) hl) (fun x a => hu x (.inr a)) (fun x a => hd x (.inr a)), h8⟩
theorem ccs_pre : ∀ (es : Exprs) {es' : Exprs} {T : List Id} {σ : SMap} {φ : FMap} {σ2 : SMap} {φ2 : FMap}, CCs P' T σ φ (ccs r l ee es) es' →
    Pre N r l ee σ φ σ2 φ2 → (∀ x ∈ es.uses, x < N) → (∀ x ∈ es.defs, Bd r l ee x) → CCs P' T σ2 φ2 es es'
  | .nil, es', T, σ, φ, σ2, φ2, hc, hp, hu, hd => hc
  | .cons f as, es', T, σ, φ, σ2, φ2, hc, hp, hu, hd => by
    obtain ⟨f1, as1, h1, h2, rfl⟩ := hc
    simp only [Exprs.uses, Exprs.defs, List.mem_append] at hu hd
    exact ⟨f1, as1, cc_pre f h1 hp (fun x a => hu x (.inl a)) (fun x a => hd x (.inl a)),
      ccs_pre as h2 hp (fun x a => hu x (.inr a)) (fun x a => hd x (.inr a)), rfl⟩
theorem ccc_pre : ∀ (cs : Clauses) {cs' : Clauses} {T : List Id} {σ : SMap} {φ : FMap} {σ2 : SMap} {φ2 : FMap},
    CCc P' T σ φ (ccClauses r l ee cs) cs' → Pre N r l ee σ φ σ2 φ2 → (∀ x ∈ cs.uses, x < N) → (∀ x ∈ cs.defs, Bd r l ee x) → CCc P' T σ2 φ2 cs cs'
  | .nil, cs', T, σ, φ, σ2, φ2, hc, hp, hu, hd => hc
  | .cons p b cs, cs', T, σ, φ, σ2, φ2, hc, hp, hu, hd => by
    obtain ⟨f1, as1, h1, h2, rfl⟩ := hc
    simp only [Clauses.uses, Clauses.defs, List.mem_append] at hu hd
    exact ⟨f1, as1, cc_pre b h1 (hp.bindAll fun x a => hd x (.inl a)) (fun x a => hu x (.inl a)) (fun x a => hd x (.inr (.inl a))),
      ccc_pre cs h2 hp (fun x a => hu x (.inr a)) (fun x a => hd x (.inr (.inr a))), rfl⟩
theorem ccf_pre : ∀ (fs : Funs) {ys : List Id} {l' : List (Id × Ct)} {ee' : Option Id} {T : List Id} {σ : SMap} {φ : FMap} {σ2 : SMap} {φ2 : FMap},
    CCf P' T σ φ ys l' ee' (ccFuns r l ee fs) → Pre N r l ee σ φ σ2 φ2 → (∀ x ∈ fs.uses, x < N) → (∀ x ∈ fs.inner, Bd r l ee x) →
    CCf P' T σ2 φ2 ys l' ee' fs
  | .nil, ys, l', ee', T, σ, φ, σ2, φ2, hc, hp, hu, hd => trivial
  | .cons f ps b fs, ys, l', ee', T, σ, φ, σ2, φ2, hc, hp, hu, hd => by
    obtain ⟨⟨c, b1, h1, h2, h3⟩, h4⟩ := hc
    simp only [Funs.uses, Funs.inner, List.mem_append] at hu hd
    exact ⟨⟨c, b1, h1, h2, cc_pre b h3 (hp.bindAll fun x a => hd x (.inl a)) (fun x a => hu x (.inl a)) (fun x a => hd x (.inr (.inl a)))⟩,
      ccf_pre fs h4 hp (fun x a => hu x (.inr a)) (fun x a => hd x (.inr (.inr a)))⟩
end

end Verif.Closure
