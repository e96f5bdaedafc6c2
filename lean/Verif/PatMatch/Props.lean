import Verif.PatMatch.Check
/-!
# C07, C08: match validation is exact
-/
namespace Verif.PatMatch

open Spec

variable {Ty Lit : Type}

theorem ok_sigOk {S : Sig Ty Lit} {d : Decls} (h : S.Ok d) : SigOk S := ⟨h.names, h.arity⟩

theorem tagOf_ok {S : Sig Ty Lit} {d : Decls} (hok : S.Ok d) {τ : Ty} {cons : List (FiniteCon × List Ty)} {c : FiniteCon} {τs : List Ty}
    (hs : S.shape τ = .data cons) (hc : (c, τs) ∈ cons) : tagOf d c.use = some (.finite c (cons.map (·.1))) := by
  obtain ⟨tc, h1, h2⟩ := hok.decl hs hc
  simp only [tagOf, h1, h2, Option.bind_some]
  have hf : (cons.map (·.1)).find? (fun x => decide (x.use = c.use)) = some c := by
    cases hf : (cons.map (·.1)).find? (fun x => decide (x.use = c.use)) with
    | none =>
      have := List.find?_eq_none.1 hf c (List.mem_map.2 ⟨_, hc, rfl⟩)
      simp at this
    | some x =>
      have hx := List.find?_some hf
      simp only [decide_eq_true_eq] at hx
      obtain ⟨⟨x', τx⟩, hxm, rfl⟩ := List.mem_map.1 (List.mem_of_find?_eq_some hf)
      have := names_inj (hok.names hs) hxm hc hx
      injection this with h _
      rw [h]
  rw [hf]
  rfl

mutual
theorem simplify_ok {S : Sig Ty Lit} {d : Decls} (hok : S.Ok d) : (p : SPat) → (τ : Ty) → STyped S τ p →
    ∃ q, simplify d p = some q ∧ PTyped S τ q ∧ q.consts = sconsts p ∧ ∀ v, PMatches S τ q v ↔ SMatches S τ p v
  | .var _, τ, _ => ⟨.wild, rfl, .wild, rfl, fun v => ⟨fun _ => .var, fun _ => .wild⟩⟩
  | .wild, τ, _ => ⟨.wild, rfl, .wild, rfl, fun v => ⟨fun _ => .wild, fun _ => .wild⟩⟩
  | .as _ p, τ, .as h => by
    obtain ⟨q, h1, h2, h3, h4⟩ := simplify_ok hok p τ h
    refine ⟨q, by rw [simplify]; exact h1, h2, by rw [sconsts]; exact h3, fun v => (h4 v).trans ⟨.as, fun h => ?_⟩⟩
    cases h; assumption
  | .const c, τ, .const (x := x) hs hc hx => by
    refine ⟨.con (.const c) [], ?_, .con (.const hs hc hx) .nil, by simp [Pat.consts, constsL, sconsts], fun v => ⟨fun h => ?_, fun h => ?_⟩⟩
    · cases c with
      | syntaxSexp => rw [hok.quoted hs] at hc; cases hc
      | _ => rfl
    · cases h with | const hs' hc' => exact .const hs' hc'
    · cases h with | const hs' hc' => exact .const hs' hc'
  | .decon _ ps, τ, .decon (cons := cons) (c := c) (τs := τs) hs hc h => by
    obtain ⟨qs, h1, h2, h3, h4⟩ := simplifyL_ok hok ps τs h
    refine ⟨.con (.finite c (cons.map (·.1))) qs, ?_, .con (.finite hs hc) h2, by simp only [Pat.consts, sconsts]; exact h3, fun v => ⟨fun hm => ?_, fun hm => ?_⟩⟩
    · rw [simplify, h1]
      simp only [tagOf_ok hok hs hc, Option.map_some]
    · cases hm with
      | con hs' hc' hm =>
        have := hs.symm.trans hs'
        injection this with this
        subst this
        have := names_inj (hok.names hs) hc hc' rfl
        injection this with _ this
        subst this
        exact .decon hs hc ((h4 _).1 hm)
    · generalize hu : c.use = u at hm
      cases hm with
      | @decon _ cons' c' τs' _ vs hs' hc' hm =>
        have := hs.symm.trans hs'
        injection this with this
        subst this
        have := names_inj (hok.names hs) hc hc' hu
        injection this with h1 this
        subst this
        subst h1
        exact .con hs hc ((h4 _).2 hm)
theorem simplifyL_ok {S : Sig Ty Lit} {d : Decls} (hok : S.Ok d) : (ps : List SPat) → (τs : List Ty) → STypedL S τs ps →
    ∃ qs, simplifyL d ps = some qs ∧ PTypedL S τs qs ∧ constsL qs = sconstsL ps ∧ ∀ vs, PMatchesL S τs qs vs ↔ SMatchesL S τs ps vs
  | [], _, .nil => ⟨[], rfl, .nil, rfl, fun vs => ⟨fun h => by cases h; exact .nil, fun h => by cases h; exact .nil⟩⟩
  | p :: ps, _, .cons (τ := τ) (τs := τs) h hs => by
    obtain ⟨q, h1, h2, h3, h4⟩ := simplify_ok hok p τ h
    obtain ⟨qs, g1, g2, g3, g4⟩ := simplifyL_ok hok ps τs hs
    refine ⟨q :: qs, by simp only [simplifyL, h1, g1], .cons h2 g2, by simp only [constsL, sconstsL, h3, g3], fun vs => ⟨fun h => ?_, fun h => ?_⟩⟩
    · cases h with | cons ha hb => exact .cons ((h4 _).1 ha) ((g4 _).1 hb)
    · cases h with | cons ha hb => exact .cons ((h4 _).2 ha) ((g4 _).2 hb)
end

/-- Clause by clause relation between the source patterns and the rows checked. -/
inductive Rel (S : Sig Ty Lit) (τ : Ty) : List SPat → List Pat → Prop
  | nil : Rel S τ [] []
  | cons {p ps q qs} (ht : PTyped S τ q) (hm : ∀ v, PMatches S τ q v ↔ SMatches S τ p v) (h : Rel S τ ps qs) : Rel S τ (p :: ps) (q :: qs)

theorem simplify_clauses {S : Sig Ty Lit} {d : Decls} (hok : S.Ok d) {τ : Ty} (ps : List SPat) (h : ∀ p ∈ ps, STyped S τ p) :
    ∃ qs, simplifyL d ps = some qs ∧ Rel S τ ps qs ∧ constsL qs = sconstsL ps := by
  induction ps with
  | nil => exact ⟨[], rfl, .nil, rfl⟩
  | cons p ps ih =>
    obtain ⟨q, h1, h2, h3, h4⟩ := simplify_ok hok p τ (h p (by simp))
    obtain ⟨qs, g1, g2, g3⟩ := ih fun p hp => h p (by simp [hp])
    exact ⟨q :: qs, by simp only [simplifyL, h1, g1], .cons h2 h4 g2, by simp only [constsL, sconstsL, h3, g3]⟩

theorem Rel.left {S : Sig Ty Lit} {τ : Ty} {ps : List SPat} {qs : List Pat} (h : Rel S τ ps qs) {q : Pat} (hq : q ∈ qs) :
    PTyped S τ q ∧ ∃ p ∈ ps, ∀ v, PMatches S τ q v ↔ SMatches S τ p v := by
  induction h with
  | nil => cases hq
  | cons ht hm _ ih =>
    rcases List.mem_cons.1 hq with rfl | hq
    · exact ⟨ht, _, by simp, hm⟩
    · obtain ⟨h1, p, h2, h3⟩ := ih hq
      exact ⟨h1, p, by simp [h2], h3⟩

theorem Rel.right {S : Sig Ty Lit} {τ : Ty} {ps : List SPat} {qs : List Pat} (h : Rel S τ ps qs) {p : SPat} (hp : p ∈ ps) :
    ∃ q ∈ qs, ∀ v, PMatches S τ q v ↔ SMatches S τ p v := by
  induction h with
  | nil => cases hp
  | cons ht hm _ ih =>
    rcases List.mem_cons.1 hp with rfl | hp
    · exact ⟨_, by simp, hm⟩
    · obtain ⟨q, h2, h3⟩ := ih hp
      exact ⟨q, by simp [h2], h3⟩

theorem Rel.split {S : Sig Ty Lit} {τ : Ty} {ps : List SPat} {qa qb : List Pat} {q : Pat} (h : Rel S τ ps (qa ++ q :: qb)) :
    ∃ pa p pb, ps = pa ++ p :: pb ∧ Rel S τ pa qa ∧ ∀ v, PMatches S τ q v ↔ SMatches S τ p v := by
  induction qa generalizing ps with
  | nil => cases h with | cons ht hm h => exact ⟨[], _, _, rfl, .nil, hm⟩
  | cons x qa ih =>
    cases h with
    | cons ht hm h =>
      obtain ⟨pa, p, pb, rfl, h1, h2⟩ := ih h
      exact ⟨_ :: pa, p, pb, rfl, .cons ht hm h1, h2⟩

theorem Rel.split_left {S : Sig Ty Lit} {τ : Ty} {pa pb : List SPat} {p : SPat} {qs : List Pat} (h : Rel S τ (pa ++ p :: pb) qs) :
    ∃ qa q qb, qs = qa ++ q :: qb ∧ Rel S τ pa qa ∧ ∀ v, PMatches S τ q v ↔ SMatches S τ p v := by
  induction pa generalizing qs with
  | nil => cases h with | cons ht hm h => exact ⟨[], _, _, rfl, .nil, hm⟩
  | cons x pa ih =>
    cases h with
    | cons ht hm h =>
      obtain ⟨qa, q, qb, rfl, h1, h2⟩ := ih h
      exact ⟨_ :: qa, q, qb, rfl, .cons ht hm h1, h2⟩

theorem singles_typed {S : Sig Ty Lit} {τ : Ty} {ps : List SPat} {qs : List Pat} (h : Rel S τ ps qs) :
    PTypedM S [τ] (qs.map fun q => [q]) := by
  intro r hr
  obtain ⟨q, hq, rfl⟩ := List.mem_map.1 hr
  exact .cons (h.left hq).1 .nil

theorem single_match {S : Sig Ty Lit} {τ : Ty} {q : Pat} {v : Value Lit} : PMatchesL S [τ] [q] [v] ↔ PMatches S τ q v :=
  ⟨fun h => by cases h; assumption, fun h => .cons h .nil⟩

theorem consts_singles (qs : List Pat) : constsM (qs.map fun q => [q]) = constsL qs := by
  induction qs with
  | nil => rfl
  | cons q qs ih => simp [constsM, constsL, ih]

theorem heads_ok {S : Sig Ty Lit} {τ : Ty} {m : Matrix} (h : ∀ r ∈ m, ∃ p, r = [p]) :
    ∃ ps, heads m = some ps ∧ m = ps.map fun p => [p] := by
  induction m with
  | nil => exact ⟨[], rfl, rfl⟩
  | cons r m ih =>
    obtain ⟨p, rfl⟩ := h r (by simp)
    obtain ⟨ps, h1, h2⟩ := ih fun r hr => h r (by simp [hr])
    exact ⟨p :: ps, by simp [heads, h1], by simp [h2]⟩

section
variable {cmp : Tag → Tag → Ordering} [Std.TransCmp cmp] [Std.LawfulEqCmp cmp]

theorem covers_nil (S : Sig Ty Lit) (τs : List Ty) : Covers S τs [] [] := ⟨fun _ h => h, fun _ _ _ h => by cases h⟩

theorem missing_length {S : Sig Ty Lit} (hS : SigOk S) (m : Matrix) (n : Nat) {τs : List Ty} (hn : n = τs.length) (hm : PTypedM S τs m)
    {row : Row} (hrow : row ∈ missing cmp m n) : row.length = n := by
  fun_induction missing cmp m n generalizing τs row with
  | case1 n => simp only [List.mem_singleton] at hrow; subst hrow; simp
  | case2 => cases hrow
  | case3 n p r m' hc ih =>
    have h1 := hm (p :: r) (by simp)
    obtain ⟨⟨t, htm⟩, hatt, hrow2⟩ := List.mem_flatMap.1 hrow
    obtain ⟨row', hrow', hreq⟩ := List.mem_map.1 hrow2
    clear hrow hrow2 hatt
    subst hreq
    generalize (p :: r) :: m' = m at *
    match τs, h1 with
    | τ :: τs, .cons _ _ =>
      obtain ⟨τt, ht⟩ := headTag_typed (cmp := cmp) hm htm
      have har := ht.arity hS
      have := ih t htm (τs := τt ++ τs) (by simp [hn, har]; omega) (specialize_typed hS ht hm) hrow'
      simp only [Row.restore, List.length_cons, List.length_drop, this, hn]
      omega
  | case4 p r m' hc =>
    have h1 := hm (p :: r) (by simp)
    cases h1
    cases hn
  | case5 p r m' hc n ih =>
    have h1 := hm (p :: r) (by simp)
    generalize (p :: r) :: m' = m at *
    match τs, h1 with
    | τ :: τs, .cons _ _ =>
      obtain ⟨tail, htail, hrow⟩ := List.mem_flatMap.1 hrow
      obtain ⟨head, hhead, rfl⟩ := List.mem_map.1 hrow
      have := ih (τs := τs) (by simpa using hn) (defaults_typed hm) htail
      simp [this]

/-- What `validate_match` computed, given well-typed clauses. -/
theorem validate_cases {S : Sig Ty Lit} {d : Decls} (hok : S.Ok d) {τ : Ty} {clauses : List SPat} (ht : ∀ p ∈ clauses, STyped S τ p) :
    (clauses = [] ∧ validateMatch cmp d clauses = some (.error (.nonExhaustive [.wild]))) ∨
    ∃ qs, clauses ≠ [] ∧ Rel S τ clauses qs ∧ constsL qs = sconstsL clauses ∧
      ((∃ q, checkRows cmp [] (qs.map fun q => [q]) = .error [q] ∧ validateMatch cmp d clauses = some (.error (.useless q))) ∨
       (∃ m, checkRows cmp [] (qs.map fun q => [q]) = .ok m ∧ m ≠ [] ∧ missing cmp m 1 = [] ∧ validateMatch cmp d clauses = some (.ok ())) ∨
       (∃ m ms, checkRows cmp [] (qs.map fun q => [q]) = .ok m ∧ m ≠ [] ∧ missing cmp m 1 = ms.map (fun p => [p]) ∧ ms ≠ [] ∧
         validateMatch cmp d clauses = some (.error (.nonExhaustive ms)))) := by
  obtain ⟨qs, h1, h2, h3⟩ := simplify_clauses hok clauses ht
  cases h2 with
  | nil => exact .inl ⟨rfl, by simp [validateMatch, h1]⟩
  | @cons p ps q qs hq hm hrel =>
    have hrel' : Rel S τ (p :: ps) (q :: qs) := .cons hq hm hrel
    refine .inr ⟨q :: qs, by simp, hrel', h3, ?_⟩
    have hS := ok_sigOk hok
    have htm := singles_typed hrel'
    have hspec := checkRows_spec (cmp := cmp) hS (covers_nil S [τ]) ((q :: qs).map fun q => [q]) (by simpa using htm)
    simp only [validateMatch, h1, check]
    cases hc : checkRows cmp [] ((q :: qs).map fun q => [q]) with
    | error r =>
      obtain ⟨a, b, hab, _⟩ := hspec.2 r hc
      have hr : r ∈ (q :: qs).map fun q => [q] := by rw [hab]; simp
      obtain ⟨x, _, rfl⟩ := List.mem_map.1 hr
      exact .inl ⟨x, rfl, rfl⟩
    | ok m =>
      refine .inr ?_
      have hcov := hspec.1 m hc
      simp only [List.nil_append] at hcov
      have hmem : ∀ r ∈ m, ∃ p, r = [p] := fun r hr => by
        obtain ⟨x, _, rfl⟩ := List.mem_map.1 (hcov.sub r hr)
        exact ⟨x, rfl⟩
      have hmt : PTypedM S [τ] m := fun r hr => htm r (hcov.sub r hr)
      have hne : m ≠ [] := by
        rintro rfl
        -- the last clause is always kept
        have : ∀ (rows : List Row) (m0 : Matrix), checkRows cmp m0 rows = .ok [] → m0 = [] ∧ rows = [] := by
          intro rows
          induction rows with
          | nil => intro m0 h; simp only [checkRows, Except.ok.injEq] at h; exact ⟨h, rfl⟩
          | cons r rows ih =>
            intro m0 h
            simp only [checkRows] at h
            cases hu : uselessCheck cmp m0 r with
            | error _ => rw [hu] at h; cases h
            | ok m1 =>
              rw [hu] at h
              have := (ih m1 h).1
              subst this
              simp only [uselessCheck] at hu
              split at hu
              · simp at hu
              · cases hu
        have := (this _ _ hc).2
        simp at this
      have hlen : exhaustivenessCheck cmp m = missing cmp m 1 := by
        match m, hne, hmem with
        | r :: m, _, hmem =>
          obtain ⟨p, rfl⟩ := hmem r (by simp)
          rfl
      simp only [hlen]
      obtain ⟨ms, hms, hms'⟩ := heads_ok (S := S) (τ := τ) (m := missing cmp m 1) (fun r hr => by
        have := missing_length hS m 1 (τs := [τ]) rfl hmt hr
        match r, this with
        | [p], _ => exact ⟨p, rfl⟩)
      cases hmiss : missing cmp m 1 with
      | nil => exact .inl ⟨m, rfl, hne, hmiss, rfl⟩
      | cons x xs =>
        refine .inr ⟨m, ms, rfl, hne, hms', ?_, ?_⟩
        · rintro rfl
          rw [hmiss] at hms'
          cases hms'
        · simp only [← hmiss, hms]
          rfl

/-- Validation of well-typed clauses does not panic. -/
theorem validate_total {S : Sig Ty Lit} {d : Decls} (hok : S.Ok d) {τ : Ty} {clauses : List SPat} (ht : ∀ p ∈ clauses, STyped S τ p) :
    validateMatch cmp d clauses ≠ none := by
  rcases validate_cases (cmp := cmp) hok ht with ⟨_, h⟩ | ⟨_, _, _, _, ⟨_, _, h⟩ | ⟨_, _, _, _, h⟩ | ⟨_, _, _, _, _, _, h⟩⟩ <;> rw [h] <;> simp

/-- C07: if a match is accepted, every value of the type is matched by a clause.  No assumption on the types. -/
theorem accepted_covers {S : Sig Ty Lit} {d : Decls} (hok : S.Ok d) {τ : Ty} {clauses : List SPat} (ht : ∀ p ∈ clauses, STyped S τ p)
    (h : validateMatch cmp d clauses = some (.ok ())) {v : Value Lit} (hv : HasTy S v τ) : ∃ p ∈ clauses, SMatches S τ p v := by
  have hS := ok_sigOk hok
  rcases validate_cases (cmp := cmp) hok ht with ⟨_, h'⟩ | ⟨qs, _, hrel, _, ⟨_, _, h'⟩ | ⟨m, hc, hne, hmiss, h'⟩ | ⟨_, _, _, _, _, _, h'⟩⟩
  · rw [h'] at h; simp at h
  · rw [h'] at h; simp at h
  · have hcov := (checkRows_spec (cmp := cmp) hS (covers_nil S [τ]) _ (by simpa using singles_typed hrel)).1 m hc
    simp only [List.nil_append] at hcov
    have hmt : PTypedM S [τ] m := fun r hr => singles_typed hrel r (hcov.sub r hr)
    obtain ⟨q, hq, hmq⟩ := missing_sound (cmp := cmp) hS m 1 (τs := [τ]) rfl hmt hmiss (.cons hv .nil)
    obtain ⟨x, hx, rfl⟩ := List.mem_map.1 (hcov.sub q hq)
    obtain ⟨_, p, hp, hpm⟩ := hrel.left hx
    exact ⟨p, hp, (hpm v).1 (single_match.1 hmq)⟩
  · rw [h'] at h; simp at h

/-- C07: if a match is rejected as not exhaustive, patterns are reported, and each of them matches a value no clause matches.
Every type must have a value, and the literals of the clauses must not exhaust a type. -/
theorem rejected_missing {S : Sig Ty Lit} {d : Decls} (hok : S.Ok d) (hi : S.Inhabited) {τ : Ty} {clauses : List SPat} (ht : ∀ p ∈ clauses, STyped S τ p)
    (hro : S.Roomy (sconstsL clauses)) {ms : List Pat} (h : validateMatch cmp d clauses = some (.error (.nonExhaustive ms))) :
    ms ≠ [] ∧ ∀ m ∈ ms, ∃ v, HasTy S v τ ∧ PMatches S τ m v ∧ ∀ p ∈ clauses, ¬ SMatches S τ p v := by
  have hS := ok_sigOk hok
  rcases validate_cases (cmp := cmp) hok ht with ⟨he, h'⟩ | ⟨qs, _, hrel, hcs, ⟨_, _, h'⟩ | ⟨_, _, _, _, h'⟩ | ⟨m, ms', hc, hne, hmiss, hmne, h'⟩⟩
  · rw [h'] at h
    simp only [Option.some.injEq, Except.error.injEq, VError.nonExhaustive.injEq] at h
    subst h; subst he
    refine ⟨by simp, fun m hm => ?_⟩
    simp only [List.mem_singleton] at hm
    subst hm
    obtain ⟨v, hv⟩ := hi τ
    exact ⟨v, hv, .wild, fun _ h => by cases h⟩
  · rw [h'] at h; simp at h
  · rw [h'] at h; simp at h
  · rw [h'] at h
    simp only [Option.some.injEq, Except.error.injEq, VError.nonExhaustive.injEq] at h
    subst h
    refine ⟨hmne, fun p hp => ?_⟩
    have hcov := (checkRows_spec (cmp := cmp) hS (covers_nil S [τ]) _ (by simpa using singles_typed hrel)).1 m hc
    simp only [List.nil_append] at hcov
    have hmt : PTypedM S [τ] m := fun r hr => singles_typed hrel r (hcov.sub r hr)
    obtain ⟨_, w, hw, hmw, hno⟩ := missing_complete (cmp := cmp) hS hi hro m 1 (τs := [τ]) rfl hmt (by
      intro c hcm
      obtain ⟨r, hr, hcr⟩ := mem_constsM.1 hcm
      rw [← hcs, ← consts_singles]
      exact mem_constsM.2 ⟨r, hcov.sub r hr, hcr⟩) (row := [p]) (by rw [hmiss]; exact List.mem_map.2 ⟨p, hp, rfl⟩)
    match w, hw with
    | [v], .cons hv .nil =>
      refine ⟨v, hv, single_match.1 hmw, fun s hs hsm => ?_⟩
      obtain ⟨x, hx, hxm⟩ := hrel.right hs
      obtain ⟨q, hq, hmq⟩ := hcov.cover [v] (.cons hv .nil) [x] (List.mem_map.2 ⟨x, hx, rfl⟩) (single_match.2 ((hxm v).2 hsm))
      exact hno q hq hmq

/-- C07: if no clause contains a literal, no value matched by a reported pattern is matched by a clause. -/
theorem rejected_disjoint_partial {S : Sig Ty Lit} {d : Decls} (hok : S.Ok d) {τ : Ty} {clauses : List SPat} (ht : ∀ p ∈ clauses, STyped S τ p)
    (hlit : sconstsL clauses = []) {ms : List Pat} (h : validateMatch cmp d clauses = some (.error (.nonExhaustive ms)))
    {m : Pat} (hm : m ∈ ms) {v : Value Lit} (hv : HasTy S v τ) (hmv : PMatches S τ m v) : ∀ p ∈ clauses, ¬ SMatches S τ p v := by
  have hS := ok_sigOk hok
  rcases validate_cases (cmp := cmp) hok ht with ⟨he, h'⟩ | ⟨qs, _, hrel, hcs, ⟨_, _, h'⟩ | ⟨_, _, _, _, h'⟩ | ⟨mat, ms', hc, hne, hmiss, hmne, h'⟩⟩
  · subst he; exact fun _ h => by cases h
  · rw [h'] at h; simp at h
  · rw [h'] at h; simp at h
  · rw [h'] at h
    simp only [Option.some.injEq, Except.error.injEq, VError.nonExhaustive.injEq] at h
    subst h
    have hcov := (checkRows_spec (cmp := cmp) hS (covers_nil S [τ]) _ (by simpa using singles_typed hrel)).1 mat hc
    simp only [List.nil_append] at hcov
    have hmt : PTypedM S [τ] mat := fun r hr => singles_typed hrel r (hcov.sub r hr)
    intro s hs hsm
    obtain ⟨x, hx, hxm⟩ := hrel.right hs
    obtain ⟨q, hq, hmq⟩ := hcov.cover [v] (.cons hv .nil) [x] (List.mem_map.2 ⟨x, hx, rfl⟩) (single_match.2 ((hxm v).2 hsm))
    refine missing_disjoint (cmp := cmp) hS mat 1 (τs := [τ]) rfl hmt ?_ (row := [m]) (by rw [hmiss]; exact List.mem_map.2 ⟨m, hm, rfl⟩)
      (.cons hv .nil) (single_match.2 hmv) q hq hmq
    refine List.eq_nil_iff_forall_not_mem.2 fun c hcm => ?_
    obtain ⟨r, hr, hcr⟩ := mem_constsM.1 hcm
    have : c ∈ constsM (qs.map fun q => [q]) := mem_constsM.2 ⟨r, hcov.sub r hr, hcr⟩
    rw [consts_singles, hcs, hlit] at this
    cases this

/-- The clause `p`, coming after the clauses `pre`, is the first to match some value. -/
def Needed (S : Sig Ty Lit) (τ : Ty) (pre : List SPat) (p : SPat) : Prop :=
  ∃ v, HasTy S v τ ∧ SMatches S τ p v ∧ ∀ q ∈ pre, ¬ SMatches S τ q v

/-- C08: a clause is reported as useless only if every value it matches is matched by an earlier clause.  No assumption on the
types. -/
theorem useless_reported {S : Sig Ty Lit} {d : Decls} (hok : S.Ok d) {τ : Ty} {clauses : List SPat} (ht : ∀ p ∈ clauses, STyped S τ p)
    {q : Pat} (h : validateMatch cmp d clauses = some (.error (.useless q))) :
    ∃ pre p post, clauses = pre ++ p :: post ∧ (∀ v, PMatches S τ q v ↔ SMatches S τ p v) ∧ ¬ Needed S τ pre p := by
  have hS := ok_sigOk hok
  rcases validate_cases (cmp := cmp) hok ht with ⟨_, h'⟩ | ⟨qs, _, hrel, _, ⟨q', hc, h'⟩ | ⟨m, hc, hne, hmiss, h'⟩ | ⟨_, _, _, _, _, _, h'⟩⟩
  · rw [h'] at h; simp at h
  · rw [h'] at h
    simp only [Option.some.injEq, Except.error.injEq, VError.useless.injEq] at h
    subst h
    obtain ⟨a, b, hab, hcov⟩ := (checkRows_spec (cmp := cmp) hS (covers_nil S [τ]) _ (by simpa using singles_typed hrel)).2 _ hc
    obtain ⟨qa, qb', rfl, rfl, hq2⟩ := List.map_eq_append_iff.1 hab
    match qb', hq2 with
    | x :: qb, hq2 =>
      simp only [List.map_cons, List.cons.injEq, and_true] at hq2
      obtain ⟨rfl, _⟩ := hq2
      obtain ⟨pa, p, pb, rfl, hra, hpm⟩ := hrel.split
      refine ⟨pa, p, pb, rfl, hpm, ?_⟩
      rintro ⟨v, hv, hsm, hno⟩
      obtain ⟨r, hr, hmr⟩ := hcov [v] (.cons hv .nil) (single_match.2 ((hpm v).2 hsm))
      obtain ⟨y, hy, rfl⟩ := List.mem_map.1 (by simpa using hr : r ∈ qa.map fun q => [q])
      obtain ⟨_, p', hp', hm'⟩ := hra.left hy
      exact hno p' hp' ((hm' v).1 (single_match.1 hmr))
  · rw [h'] at h; simp at h
  · rw [h'] at h; simp at h

theorem fresh_needed {S : Sig Ty Lit} {τ : Ty} {pa : List SPat} {p : SPat} {qa : List Pat} {q : Pat} (hra : Rel S τ pa qa)
    (hpm : ∀ v, PMatches S τ q v ↔ SMatches S τ p v) (h : Fresh S [τ] (qa.map fun q => [q]) [q]) : Needed S τ pa p := by
  obtain ⟨w, hw, hm, hno⟩ := h
  match w, hw with
  | [v], .cons hv .nil =>
    refine ⟨v, hv, (hpm v).1 (single_match.1 hm), fun s hs hsm => ?_⟩
    obtain ⟨x, hx, hxm⟩ := hra.right hs
    exact hno [x] (List.mem_map.2 ⟨x, hx, rfl⟩) (single_match.2 ((hxm v).2 hsm))

/-- C08: if no clause is reported as useless, every clause is needed; if one is, every clause before it is needed.
Different literals must denote different values. -/
theorem needed_unless_reported_partial {S : Sig Ty Lit} {d : Decls} (hok : S.Ok d) (hi : S.Inhabited) {τ : Ty} {clauses : List SPat}
    (ht : ∀ p ∈ clauses, STyped S τ p) (hro : S.Roomy (sconstsL clauses)) (hd : S.Distinct (sconstsL clauses)) :
    ((∀ pre p post, clauses = pre ++ p :: post → Needed S τ pre p) ∧ ∀ q, validateMatch cmp d clauses ≠ some (.error (.useless q))) ∨
    ∃ pre p post q, clauses = pre ++ p :: post ∧ (∀ v, PMatches S τ q v ↔ SMatches S τ p v) ∧
      (∀ pre' p' post', pre = pre' ++ p' :: post' → Needed S τ pre' p') ∧ ¬ Needed S τ pre p ∧
      validateMatch cmp d clauses = some (.error (.useless q)) := by
  have hS := ok_sigOk hok
  have key : ∀ qs m, Rel S τ clauses qs → constsL qs = sconstsL clauses → checkRows cmp [] (qs.map fun q => [q]) = .ok m →
      ∀ pre p post, clauses = pre ++ p :: post → Needed S τ pre p := by
    intro qs m hrel hcs hc pre p post hcl
    subst hcl
    have hfr := (checkRows_fresh (cmp := cmp) hS hi hro hd (covers_nil S [τ]) _ (by simpa using singles_typed hrel)
      (by simp only [List.nil_append, consts_singles, hcs]; exact fun _ h => h)).1 m hc
    obtain ⟨qa, q, qb, rfl, hra, hpm⟩ := hrel.split_left
    have := hfr (qa.map fun q => [q]) [q] (qb.map fun q => [q]) (by simp)
    exact fresh_needed hra hpm (by simpa using this)
  rcases validate_cases (cmp := cmp) hok ht with ⟨he, h'⟩ | ⟨qs, _, hrel, hcs, ⟨q', hc, h'⟩ | ⟨m, hc, hne, hmiss, h'⟩ | ⟨m, _, hc, _, _, _, h'⟩⟩
  · left
    subst he
    exact ⟨fun pre p post h => by simp at h, fun q h => by rw [h'] at h; simp at h⟩
  · right
    obtain ⟨a, b, hab, hfr, hcov⟩ := (checkRows_fresh (cmp := cmp) hS hi hro hd (covers_nil S [τ]) _ (by simpa using singles_typed hrel)
      (by simp only [List.nil_append, consts_singles, hcs]; exact fun _ h => h)).2 _ hc
    obtain ⟨qa, qb', rfl, rfl, hq2⟩ := List.map_eq_append_iff.1 hab
    match qb', hq2 with
    | x :: qb, hq2 =>
      simp only [List.map_cons, List.cons.injEq, and_true] at hq2
      obtain ⟨rfl, _⟩ := hq2
      obtain ⟨pa, p, pb, rfl, hra, hpm⟩ := hrel.split
      refine ⟨pa, p, pb, _, rfl, hpm, ?_, ?_, h'⟩
      · intro pre' p' post' hpre
        subst hpre
        obtain ⟨qa', q', qb', rfl, hra', hpm'⟩ := hra.split_left
        have := hfr (qa'.map fun q => [q]) [q'] (qb'.map fun q => [q]) (by simp)
        exact fresh_needed hra' hpm' (by simpa using this)
      · rintro ⟨v, hv, hsm, hno⟩
        obtain ⟨r, hr, hmr⟩ := hcov [v] (.cons hv .nil) (single_match.2 ((hpm v).2 hsm))
        obtain ⟨y, hy, rfl⟩ := List.mem_map.1 (by simpa using hr : r ∈ qa.map fun q => [q])
        obtain ⟨_, p', hp', hm'⟩ := hra.left hy
        exact hno p' hp' ((hm' v).1 (single_match.1 hmr))
  · exact .inl ⟨key qs m hrel hcs hc, fun q h => by rw [h'] at h; simp at h⟩
  · exact .inl ⟨key qs m hrel hcs hc, fun q h => by rw [h'] at h; simp at h⟩

/-- C08: some clause is reported as useless iff some clause is not needed. -/
theorem useless_iff_partial {S : Sig Ty Lit} {d : Decls} (hok : S.Ok d) (hi : S.Inhabited) {τ : Ty} {clauses : List SPat}
    (ht : ∀ p ∈ clauses, STyped S τ p) (hro : S.Roomy (sconstsL clauses)) (hd : S.Distinct (sconstsL clauses)) :
    (∃ q, validateMatch cmp d clauses = some (.error (.useless q))) ↔ ∃ pre p post, clauses = pre ++ p :: post ∧ ¬ Needed S τ pre p := by
  constructor
  · rintro ⟨q, h⟩
    obtain ⟨pre, p, post, h1, _, h2⟩ := useless_reported hok ht h
    exact ⟨pre, p, post, h1, h2⟩
  · rintro ⟨pre, p, post, h1, h2⟩
    rcases needed_unless_reported_partial (cmp := cmp) hok hi ht hro hd with ⟨h, _⟩ | ⟨_, _, _, q, _, _, _, _, h⟩
    · exact absurd (h pre p post h1) h2
    · exact ⟨q, h⟩

/-- C07, C08: a match is accepted iff every clause is needed and every value of the type is matched. -/
theorem accepted_iff_partial {S : Sig Ty Lit} {d : Decls} (hok : S.Ok d) (hi : S.Inhabited) {τ : Ty} {clauses : List SPat}
    (ht : ∀ p ∈ clauses, STyped S τ p) (hro : S.Roomy (sconstsL clauses)) (hd : S.Distinct (sconstsL clauses)) :
    validateMatch cmp d clauses = some (.ok ()) ↔
      (∀ pre p post, clauses = pre ++ p :: post → Needed S τ pre p) ∧ ∀ v, HasTy S v τ → ∃ p ∈ clauses, SMatches S τ p v := by
  constructor
  · intro h
    refine ⟨?_, fun v hv => accepted_covers hok ht h hv⟩
    rcases needed_unless_reported_partial (cmp := cmp) hok hi ht hro hd with ⟨h', _⟩ | ⟨_, _, _, q, _, _, _, _, h'⟩
    · exact h'
    · rw [h] at h'; simp at h'
  · rintro ⟨hn, hall⟩
    match hr : validateMatch cmp d clauses with
    | none => exact absurd hr (validate_total hok ht)
    | some (.ok ()) => rfl
    | some (.error (.useless q)) =>
      obtain ⟨pre, p, post, h1, _, h2⟩ := useless_reported hok ht hr
      exact absurd (hn pre p post h1) h2
    | some (.error (.nonExhaustive ms)) =>
      obtain ⟨hne, h⟩ := rejected_missing hok hi ht hro hr
      match ms, hne with
      | m :: _, _ =>
        obtain ⟨v, hv, _, hno⟩ := h m (by simp)
        obtain ⟨p, hp, hpm⟩ := hall v hv
        exact absurd hpm (hno p hp)

end

end Verif.PatMatch
