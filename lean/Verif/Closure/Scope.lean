import Verif.Closure.Sim

/-!
# Scopes: what the conversion of one group does to an expression
-/
namespace Verif.Closure

/-- The variables defined in the functions of a group. -/
def Funs.inner : Funs → List Id
  | .nil => []
  | .cons _ ps b fs => ps ++ (b.defs ++ fs.inner)

mutual
/-- Well-scoped without shadowing: `V` the variables, `F` the local functions in scope. -/
def OK : List Id → List Id → Expr → Prop
  | V, _, .var x => x ∈ V
  | _, F, .lfun f => f ∈ F
  | _, _, .sfun _ => True
  | V, F, .sfunEnv _ e => OK V F e
  | _, _, .int _ => True
  | V, F, .call f as => OK V F f ∧ OKs V F as
  | V, F, .prim _ as => OKs V F as
  | V, F, .seq a b => OK V F a ∧ OK V F b
  | V, F, .ite c t e => OK V F c ∧ OK V F t ∧ OK V F e
  | V, F, .while c b => OK V F c ∧ OK V F b
  | V, F, .case e cs => OK V F e ∧ OKc V F cs
  | V, F, .ret e => OK V F e
  | _, _, .never => True
  | V, F, .letVar x e b => OK V F e ∧ (x ∉ V ∧ x ∉ F) ∧ OK (x :: V) F b
  | V, F, .letFun fs b => (∀ f ∈ fs.names, f ∉ V ∧ f ∉ F) ∧ fs.names.Nodup ∧ OKf V (fs.names ++ F) fs ∧ OK V (fs.names ++ F) b
def OKs : List Id → List Id → Exprs → Prop
  | _, _, .nil => True
  | V, F, .cons e es => OK V F e ∧ OKs V F es
def OKc : List Id → List Id → Clauses → Prop
  | _, _, .nil => True
  | V, F, .cons p b cs => (∀ x ∈ p.vars, x ∉ V ∧ x ∉ F) ∧ OK (p.vars ++ V) F b ∧ OKc V F cs
def OKf : List Id → List Id → Funs → Prop
  | _, _, .nil => True
  | V, F, .cons _ ps b fs => (∀ x ∈ ps, x ∉ V ∧ x ∉ F) ∧ OK (ps ++ V) F b ∧ OKf V F fs
end

theorem mem_defs {x : Id} : ∀ {fs : Funs}, x ∈ fs.defs ↔ x ∈ fs.names ∨ x ∈ fs.inner
  | .nil => by simp [Funs.defs, Funs.names, Funs.inner]
  | .cons f ps b fs => by
    have := mem_defs (x := x) (fs := fs)
    simp only [Funs.defs, Funs.names, Funs.inner, List.mem_append, List.mem_cons]
    rw [this]
    constructor
    · rintro (h | h | h | h | h) <;> simp [h]
    · rintro ((h | h) | h | h | h) <;> simp [h]

/-! ## Uses and definitions -/

mutual
theorem uses_scope {x : Id} : ∀ (e : Expr) {V F : List Id}, OK V F e → x ∈ e.uses → x ∈ V ∨ x ∈ F ∨ x ∈ e.defs
  | .var y, V, F, h, hx => by simp only [Expr.uses, List.mem_singleton] at hx; subst hx; exact .inl h
  | .lfun y, V, F, h, hx => by simp only [Expr.uses, List.mem_singleton] at hx; subst hx; exact .inr (.inl h)
  | .sfun _, V, F, h, hx => by simp [Expr.uses] at hx
  | .sfunEnv _ e, V, F, h, hx => uses_scope e h hx
  | .int _, V, F, h, hx => by simp [Expr.uses] at hx
  | .call f as, V, F, h, hx => by
    simp only [Expr.uses, Expr.defs, List.mem_append] at hx ⊢
    rcases hx with hx | hx
    · rcases uses_scope f h.1 hx with h | h | h <;> simp [h]
    · rcases usess_scope as h.2 hx with h | h | h <;> simp [h]
  | .prim _ as, V, F, h, hx => usess_scope as h hx
  | .seq a b, V, F, h, hx => by
    simp only [Expr.uses, Expr.defs, List.mem_append] at hx ⊢
    rcases hx with hx | hx
    · rcases uses_scope a h.1 hx with h | h | h <;> simp [h]
    · rcases uses_scope b h.2 hx with h | h | h <;> simp [h]
  | .ite c t e, V, F, h, hx => by
    simp only [Expr.uses, Expr.defs, List.mem_append] at hx ⊢
    rcases hx with hx | hx | hx
    · rcases uses_scope c h.1 hx with h | h | h <;> simp [h]
    · rcases uses_scope t h.2.1 hx with h | h | h <;> simp [h]
    · rcases uses_scope e h.2.2 hx with h | h | h <;> simp [h]
  | .while c b, V, F, h, hx => by
    simp only [Expr.uses, Expr.defs, List.mem_append] at hx ⊢
    rcases hx with hx | hx
    · rcases uses_scope c h.1 hx with h | h | h <;> simp [h]
    · rcases uses_scope b h.2 hx with h | h | h <;> simp [h]
  | .case e cs, V, F, h, hx => by
    simp only [Expr.uses, Expr.defs, List.mem_append] at hx ⊢
    rcases hx with hx | hx
    · rcases uses_scope e h.1 hx with h | h | h <;> simp [h]
    · rcases usesc_scope cs h.2 hx with h | h | h <;> simp [h]
  | .ret e, V, F, h, hx => uses_scope e h hx
  | .never, V, F, h, hx => by simp [Expr.uses] at hx
  | .letVar y e b, V, F, h, hx => by
    simp only [Expr.uses, Expr.defs, List.mem_append, List.mem_cons] at hx ⊢
    rcases hx with hx | hx
    · rcases uses_scope e h.1 hx with h | h | h <;> simp [h]
    · rcases uses_scope b h.2.2 hx with h | h | h
      · rcases List.mem_cons.1 h with h | h <;> simp [h]
      · simp [h]
      · simp [h]
  | .letFun fs b, V, F, h, hx => by
    simp only [Expr.uses, Expr.defs, List.mem_append] at hx ⊢
    rcases hx with hx | hx
    · rcases usesf_scope fs h.2.2.1 hx with h | h | h
      · simp [h]
      · rcases List.mem_append.1 h with h | h
        · exact .inr (.inr (.inl (mem_defs.2 (.inl h))))
        · simp [h]
      · exact .inr (.inr (.inl (mem_defs.2 (.inr h))))
    · rcases uses_scope b h.2.2.2 hx with h | h | h
      · simp [h]
      · rcases List.mem_append.1 h with h | h
        · exact .inr (.inr (.inl (mem_defs.2 (.inl h))))
        · simp [h]
      · simp [h]
theorem usess_scope {x : Id} : ∀ (es : Exprs) {V F : List Id}, OKs V F es → x ∈ es.uses → x ∈ V ∨ x ∈ F ∨ x ∈ es.defs
  | .nil, V, F, h, hx => by simp [Exprs.uses] at hx
  | .cons e es, V, F, h, hx => by
    simp only [Exprs.uses, Exprs.defs, List.mem_append] at hx ⊢
    rcases hx with hx | hx
    · rcases uses_scope e h.1 hx with h | h | h <;> simp [h]
    · rcases usess_scope es h.2 hx with h | h | h <;> simp [h]
theorem usesc_scope {x : Id} : ∀ (cs : Clauses) {V F : List Id}, OKc V F cs → x ∈ cs.uses → x ∈ V ∨ x ∈ F ∨ x ∈ cs.defs
  | .nil, V, F, h, hx => by simp [Clauses.uses] at hx
  | .cons p b cs, V, F, h, hx => by
    simp only [Clauses.uses, Clauses.defs, List.mem_append] at hx ⊢
    rcases hx with hx | hx
    · rcases uses_scope b h.2.1 hx with h | h | h
      · rcases List.mem_append.1 h with h | h <;> simp [h]
      · simp [h]
      · simp [h]
    · rcases usesc_scope cs h.2.2 hx with h | h | h <;> simp [h]
theorem usesf_scope {x : Id} : ∀ (fs : Funs) {V F : List Id}, OKf V F fs → x ∈ fs.uses → x ∈ V ∨ x ∈ F ∨ x ∈ fs.inner
  | .nil, V, F, h, hx => by simp [Funs.uses] at hx
  | .cons f ps b fs, V, F, h, hx => by
    simp only [Funs.uses, Funs.inner, List.mem_append] at hx ⊢
    rcases hx with hx | hx
    · rcases uses_scope b h.2.1 hx with h | h | h
      · rcases List.mem_append.1 h with h | h <;> simp [h]
      · simp [h]
      · simp [h]
    · rcases usesf_scope fs h.2.2 hx with h | h | h <;> simp [h]
end

mutual
theorem defs_new {x : Id} : ∀ (e : Expr) {V F : List Id}, OK V F e → x ∈ e.defs → x ∉ V ∧ x ∉ F
  | .var y, V, F, h, hx => by simp [Expr.defs] at hx
  | .lfun y, V, F, h, hx => by simp [Expr.defs] at hx
  | .sfun _, V, F, h, hx => by simp [Expr.defs] at hx
  | .sfunEnv _ e, V, F, h, hx => defs_new e h hx
  | .int _, V, F, h, hx => by simp [Expr.defs] at hx
  | .call f as, V, F, h, hx => by
    simp only [Expr.defs, List.mem_append] at hx
    exact hx.elim (defs_new f h.1) (defss_new as h.2)
  | .prim _ as, V, F, h, hx => defss_new as h hx
  | .seq a b, V, F, h, hx => by
    simp only [Expr.defs, List.mem_append] at hx
    exact hx.elim (defs_new a h.1) (defs_new b h.2)
  | .ite c t e, V, F, h, hx => by
    simp only [Expr.defs, List.mem_append] at hx
    exact hx.elim (defs_new c h.1) fun hx => hx.elim (defs_new t h.2.1) (defs_new e h.2.2)
  | .while c b, V, F, h, hx => by
    simp only [Expr.defs, List.mem_append] at hx
    exact hx.elim (defs_new c h.1) (defs_new b h.2)
  | .case e cs, V, F, h, hx => by
    simp only [Expr.defs, List.mem_append] at hx
    exact hx.elim (defs_new e h.1) (defsc_new cs h.2)
  | .ret e, V, F, h, hx => defs_new e h hx
  | .never, V, F, h, hx => by simp [Expr.defs] at hx
  | .letVar y e b, V, F, h, hx => by
    simp only [Expr.defs, List.mem_append, List.mem_cons] at hx
    rcases hx with rfl | hx | hx
    · exact h.2.1
    · exact defs_new e h.1 hx
    · have := defs_new b h.2.2 hx
      exact ⟨fun m => this.1 (List.mem_cons_of_mem _ m), this.2⟩
  | .letFun fs b, V, F, h, hx => by
    simp only [Expr.defs, List.mem_append] at hx
    rcases hx with hx | hx
    · rcases mem_defs.1 hx with hx | hx
      · exact h.1 x hx
      · have := defsf_new fs h.2.2.1 hx
        exact ⟨this.1, fun m => this.2 (List.mem_append_right _ m)⟩
    · have := defs_new b h.2.2.2 hx
      exact ⟨this.1, fun m => this.2 (List.mem_append_right _ m)⟩
theorem defss_new {x : Id} : ∀ (es : Exprs) {V F : List Id}, OKs V F es → x ∈ es.defs → x ∉ V ∧ x ∉ F
  | .nil, V, F, h, hx => by simp [Exprs.defs] at hx
  | .cons e es, V, F, h, hx => by
    simp only [Exprs.defs, List.mem_append] at hx
    exact hx.elim (defs_new e h.1) (defss_new es h.2)
theorem defsc_new {x : Id} : ∀ (cs : Clauses) {V F : List Id}, OKc V F cs → x ∈ cs.defs → x ∉ V ∧ x ∉ F
  | .nil, V, F, h, hx => by simp [Clauses.defs] at hx
  | .cons p b cs, V, F, h, hx => by
    simp only [Clauses.defs, List.mem_append] at hx
    rcases hx with hx | hx | hx
    · exact h.1 x hx
    · have := defs_new b h.2.1 hx
      exact ⟨fun m => this.1 (List.mem_append_right _ m), this.2⟩
    · exact defsc_new cs h.2.2 hx
theorem defsf_new {x : Id} : ∀ (fs : Funs) {V F : List Id}, OKf V F fs → x ∈ fs.inner → x ∉ V ∧ x ∉ F
  | .nil, V, F, h, hx => by simp [Funs.inner] at hx
  | .cons f ps b fs, V, F, h, hx => by
    simp only [Funs.inner, List.mem_append] at hx
    rcases hx with hx | hx | hx
    · exact h.1 x hx
    · have := defs_new b h.2.1 hx
      exact ⟨fun m => this.1 (List.mem_append_right _ m), this.2⟩
    · exact defsf_new fs h.2.2 hx
end

/-! ## One conversion -/

section
variable (r : List (Id × Id)) (l : List (Id × Ct)) (ee : Option Id)

mutual
theorem defs_cc : ∀ e, (cc r l ee e).defs = e.defs
  | .var x => rfl
  | .lfun f => by
    simp only [cc]
    split
    · split <;> rfl
    · rfl
  | .sfun _ => rfl
  | .sfunEnv _ e => by simp [cc, Expr.defs, defs_cc e]
  | .int _ => rfl
  | .call f as => by simp [cc, Expr.defs, defs_cc f, defs_ccs as]
  | .prim _ as => by simp [cc, Expr.defs, defs_ccs as]
  | .seq a b => by simp [cc, Expr.defs, defs_cc a, defs_cc b]
  | .ite c t e => by simp [cc, Expr.defs, defs_cc c, defs_cc t, defs_cc e]
  | .while c b => by simp [cc, Expr.defs, defs_cc c, defs_cc b]
  | .case e cs => by simp [cc, Expr.defs, defs_cc e, defs_ccClauses cs]
  | .ret e => by simp [cc, Expr.defs, defs_cc e]
  | .never => rfl
  | .letVar x e b => by simp [cc, Expr.defs, defs_cc e, defs_cc b]
  | .letFun fs b => by simp [cc, Expr.defs, (defs_ccFuns fs).1, defs_cc b]
theorem defs_ccs : ∀ es, (ccs r l ee es).defs = es.defs
  | .nil => rfl
  | .cons e es => by simp [ccs, Exprs.defs, defs_cc e, defs_ccs es]
theorem defs_ccClauses : ∀ cs, (ccClauses r l ee cs).defs = cs.defs
  | .nil => rfl
  | .cons p b cs => by simp [ccClauses, Clauses.defs, defs_cc b, defs_ccClauses cs]
theorem defs_ccFuns : ∀ fs, (ccFuns r l ee fs).defs = fs.defs ∧ (ccFuns r l ee fs).names = fs.names
  | .nil => ⟨rfl, rfl⟩
  | .cons f ps b fs => by simp [ccFuns, Funs.defs, Funs.names, defs_cc b, defs_ccFuns fs]
end

theorem find_ccFuns (g : Id) : ∀ fs : Funs, ((ccFuns r l ee fs).find g).isSome = (fs.find g).isSome
  | .nil => rfl
  | .cons f ps b fs => by
    simp only [ccFuns, Funs.find]
    split
    · rfl
    · exact find_ccFuns g fs

theorem find_names {g : Id} : ∀ {fs : Funs}, (fs.find g).isSome ↔ g ∈ fs.names
  | .nil => by simp [Funs.find, Funs.names]
  | .cons f ps b fs => by
    simp only [Funs.find, Funs.names, List.mem_cons]
    split
    · simp_all
    · rename_i h
      rw [find_names]
      exact ⟨.inr, fun h' => h'.resolve_left fun e => h e.symm⟩

mutual
/-- The result is well-scoped where the new names are. -/
theorem ok_cc : ∀ (e : Expr) {V F V2 F2 : List Id}, OK V F e → (∀ x ∈ V, x ∈ e.uses → rename r x ∈ V2) → (∀ g ∈ F, look l g = none → g ∈ F2) →
    (∀ g ∈ F, (look l g).isSome → ∀ e0, ee = some e0 → e0 ∈ V2) →
    (∀ x ∈ e.defs, x ∉ V2 ∧ x ∉ F2 ∧ look r x = none ∧ look l x = none) → OK V2 F2 (cc r l ee e)
  | .var y, V, F, V2, F2, h, h1, h2, h3, h4 => h1 y h (by simp [Expr.uses])
  | .lfun g, V, F, V2, F2, h, h1, h2, h3, h4 => by
    simp only [cc]
    cases e : look l g with
    | none => exact h2 g h e
    | some c =>
      cases ee with
      | none => exact trivial
      | some e0 => exact h3 g h (by simp [e]) e0 rfl
  | .sfun _, V, F, V2, F2, h, h1, h2, h3, h4 => trivial
  | .sfunEnv _ e, V, F, V2, F2, h, h1, h2, h3, h4 => ok_cc e h h1 h2 h3 h4
  | .int _, V, F, V2, F2, h, h1, h2, h3, h4 => trivial
  | .call f as, V, F, V2, F2, h, h1, h2, h3, h4 => by
    simp only [Expr.uses, Expr.defs, List.mem_append] at h1 h4
    exact ⟨ok_cc f h.1 (fun x a b => h1 x a (.inl b)) h2 h3 (fun x a => h4 x (.inl a)),
      ok_ccs as h.2 (fun x a b => h1 x a (.inr b)) h2 h3 (fun x a => h4 x (.inr a))⟩
  | .prim _ as, V, F, V2, F2, h, h1, h2, h3, h4 => ok_ccs as h h1 h2 h3 h4
  | .seq f as, V, F, V2, F2, h, h1, h2, h3, h4 => by
    simp only [Expr.uses, Expr.defs, List.mem_append] at h1 h4
    exact ⟨ok_cc f h.1 (fun x a b => h1 x a (.inl b)) h2 h3 (fun x a => h4 x (.inl a)),
      ok_cc as h.2 (fun x a b => h1 x a (.inr b)) h2 h3 (fun x a => h4 x (.inr a))⟩
  | .ite c t e, V, F, V2, F2, h, h1, h2, h3, h4 => by
    simp only [Expr.uses, Expr.defs, List.mem_append] at h1 h4
    exact ⟨ok_cc c h.1 (fun x a b => h1 x a (.inl b)) h2 h3 (fun x a => h4 x (.inl a)),
      ok_cc t h.2.1 (fun x a b => h1 x a (.inr (.inl b))) h2 h3 (fun x a => h4 x (.inr (.inl a))),
      ok_cc e h.2.2 (fun x a b => h1 x a (.inr (.inr b))) h2 h3 (fun x a => h4 x (.inr (.inr a)))⟩
  | .while f as, V, F, V2, F2, h, h1, h2, h3, h4 => by
    simp only [Expr.uses, Expr.defs, List.mem_append] at h1 h4
    exact ⟨ok_cc f h.1 (fun x a b => h1 x a (.inl b)) h2 h3 (fun x a => h4 x (.inl a)),
      ok_cc as h.2 (fun x a b => h1 x a (.inr b)) h2 h3 (fun x a => h4 x (.inr a))⟩
  | .case e cs, V, F, V2, F2, h, h1, h2, h3, h4 => by
    simp only [Expr.uses, Expr.defs, List.mem_append] at h1 h4
    exact ⟨ok_cc e h.1 (fun x a b => h1 x a (.inl b)) h2 h3 (fun x a => h4 x (.inl a)),
      ok_ccClauses cs h.2 (fun x a b => h1 x a (.inr b)) h2 h3 (fun x a => h4 x (.inr a))⟩
  | .ret e, V, F, V2, F2, h, h1, h2, h3, h4 => ok_cc e h h1 h2 h3 h4
  | .never, V, F, V2, F2, h, h1, h2, h3, h4 => trivial
  | .letVar y e b, V, F, V2, F2, h, h1, h2, h3, h4 => by
    simp only [Expr.uses, Expr.defs, List.mem_append, List.mem_cons] at h1 h4
    have hy := h4 y (.inl rfl)
    refine ⟨ok_cc e h.1 (fun x a b => h1 x a (.inl b)) h2 h3 (fun x a => h4 x (.inr (.inl a))), ⟨hy.1, hy.2.1⟩, ?_⟩
    refine ok_cc b h.2.2 ?_ h2 (fun g a b e0 he => List.mem_cons_of_mem _ (h3 g a b e0 he)) ?_
    · intro x hx hu
      rcases List.mem_cons.1 hx with rfl | hx
      · rw [rename, hy.2.2.1]; exact List.mem_cons_self
      · exact List.mem_cons_of_mem _ (h1 x hx (.inr hu))
    · intro x hx
      have := h4 x (.inr (.inr hx))
      refine ⟨fun m => ?_, this.2⟩
      rcases List.mem_cons.1 m with rfl | m
      · exact (defs_new b h.2.2 hx).1 List.mem_cons_self
      · exact this.1 m
  | .letFun fs b, V, F, V2, F2, h, h1, h2, h3, h4 => by
    simp only [Expr.uses, Expr.defs, List.mem_append] at h1 h4
    have hn : ∀ f ∈ fs.names, f ∉ V2 ∧ f ∉ F2 ∧ look r f = none ∧ look l f = none := fun f hf => h4 f (.inl (mem_defs.2 (.inl hf)))
    have h2' : ∀ g ∈ fs.names ++ F, look l g = none → g ∈ fs.names ++ F2 := by
      intro g hg hl
      rcases List.mem_append.1 hg with hg | hg
      · exact List.mem_append_left _ hg
      · exact List.mem_append_right _ (h2 g hg hl)
    have h3' : ∀ g ∈ fs.names ++ F, (look l g).isSome → ∀ e0, ee = some e0 → e0 ∈ V2 := by
      intro g hg hl
      rcases List.mem_append.1 hg with hg | hg
      · rw [(hn g hg).2.2.2] at hl; cases hl
      · exact h3 g hg hl
    simp only [cc, OK]
    rw [(defs_ccFuns r l ee fs).2]
    refine ⟨fun f hf => ⟨(hn f hf).1, (hn f hf).2.1⟩, h.2.1, ?_, ?_⟩
    · refine ok_ccFuns fs h.2.2.1 (fun x a b => h1 x a (.inl b)) h2' h3' ?_
      intro x hx
      have := h4 x (.inl (mem_defs.2 (.inr hx)))
      refine ⟨this.1, fun m => ?_, this.2.2⟩
      rcases List.mem_append.1 m with m | m
      · exact (defsf_new fs h.2.2.1 hx).2 (List.mem_append_left _ m)
      · exact this.2.1 m
    · refine ok_cc b h.2.2.2 (fun x a b => h1 x a (.inr b)) h2' h3' ?_
      intro x hx
      have := h4 x (.inr hx)
      refine ⟨this.1, fun m => ?_, this.2.2⟩
      rcases List.mem_append.1 m with m | m
      · exact (defs_new b h.2.2.2 hx).2 (List.mem_append_left _ m)
      · exact this.2.1 m
theorem ok_ccs : ∀ (es : Exprs) {V F V2 F2 : List Id}, OKs V F es → (∀ x ∈ V, x ∈ es.uses → rename r x ∈ V2) → (∀ g ∈ F, look l g = none → g ∈ F2) →
    (∀ g ∈ F, (look l g).isSome → ∀ e0, ee = some e0 → e0 ∈ V2) →
    (∀ x ∈ es.defs, x ∉ V2 ∧ x ∉ F2 ∧ look r x = none ∧ look l x = none) → OKs V2 F2 (ccs r l ee es)
  | .nil, V, F, V2, F2, h, h1, h2, h3, h4 => trivial
  | .cons f as, V, F, V2, F2, h, h1, h2, h3, h4 => by
    simp only [Exprs.uses, Exprs.defs, List.mem_append] at h1 h4
    exact ⟨ok_cc f h.1 (fun x a b => h1 x a (.inl b)) h2 h3 (fun x a => h4 x (.inl a)),
      ok_ccs as h.2 (fun x a b => h1 x a (.inr b)) h2 h3 (fun x a => h4 x (.inr a))⟩
theorem ok_ccClauses : ∀ (cs : Clauses) {V F V2 F2 : List Id}, OKc V F cs → (∀ x ∈ V, x ∈ cs.uses → rename r x ∈ V2) →
    (∀ g ∈ F, look l g = none → g ∈ F2) → (∀ g ∈ F, (look l g).isSome → ∀ e0, ee = some e0 → e0 ∈ V2) →
    (∀ x ∈ cs.defs, x ∉ V2 ∧ x ∉ F2 ∧ look r x = none ∧ look l x = none) → OKc V2 F2 (ccClauses r l ee cs)
  | .nil, V, F, V2, F2, h, h1, h2, h3, h4 => trivial
  | .cons p b cs, V, F, V2, F2, h, h1, h2, h3, h4 => by
    simp only [Clauses.uses, Clauses.defs, List.mem_append] at h1 h4
    have hp := fun x (hx : x ∈ p.vars) => h4 x (.inl hx)
    refine ⟨fun x hx => ⟨(hp x hx).1, (hp x hx).2.1⟩, ?_, ok_ccClauses cs h.2.2 (fun x a b => h1 x a (.inr b)) h2 h3 (fun x a => h4 x (.inr (.inr a)))⟩
    refine ok_cc b h.2.1 ?_ h2 (fun g a b e0 he => List.mem_append_right _ (h3 g a b e0 he)) ?_
    · intro x hx hu
      rcases List.mem_append.1 hx with hx | hx
      · rw [rename, (hp x hx).2.2.1]; exact List.mem_append_left _ hx
      · exact List.mem_append_right _ (h1 x hx (.inl hu))
    · intro x hx
      have := h4 x (.inr (.inl hx))
      refine ⟨fun m => ?_, this.2⟩
      rcases List.mem_append.1 m with m | m
      · exact (defs_new b h.2.1 hx).1 (List.mem_append_left _ m)
      · exact this.1 m
theorem ok_ccFuns : ∀ (fs : Funs) {V F V2 F2 : List Id}, OKf V F fs → (∀ x ∈ V, x ∈ fs.uses → rename r x ∈ V2) →
    (∀ g ∈ F, look l g = none → g ∈ F2) → (∀ g ∈ F, (look l g).isSome → ∀ e0, ee = some e0 → e0 ∈ V2) →
    (∀ x ∈ fs.inner, x ∉ V2 ∧ x ∉ F2 ∧ look r x = none ∧ look l x = none) → OKf V2 F2 (ccFuns r l ee fs)
  | .nil, V, F, V2, F2, h, h1, h2, h3, h4 => trivial
  | .cons f ps b fs, V, F, V2, F2, h, h1, h2, h3, h4 => by
    simp only [Funs.uses, Funs.inner, List.mem_append] at h1 h4
    have hp := fun x (hx : x ∈ ps) => h4 x (.inl hx)
    refine ⟨fun x hx => ⟨(hp x hx).1, (hp x hx).2.1⟩, ?_, ok_ccFuns fs h.2.2 (fun x a b => h1 x a (.inr b)) h2 h3 (fun x a => h4 x (.inr (.inr a)))⟩
    refine ok_cc b h.2.1 ?_ h2 (fun g a b e0 he => List.mem_append_right _ (h3 g a b e0 he)) ?_
    · intro x hx hu
      rcases List.mem_append.1 hx with hx | hx
      · rw [rename, (hp x hx).2.2.1]; exact List.mem_append_left _ hx
      · exact List.mem_append_right _ (h1 x hx (.inl hu))
    · intro x hx
      have := h4 x (.inr (.inl hx))
      refine ⟨fun m => ?_, this.2⟩
      rcases List.mem_append.1 m with m | m
      · exact (defs_new b h.2.1 hx).1 (List.mem_append_left _ m)
      · exact this.1 m
end
end

end Verif.Closure
