import Verif.Inline.Sync

/-!
# Putting the body in place of a call gives a related expression
-/
namespace Verif.Inline

open Verif.Closure

/-! ## What `realloc_rts` does to its state -/

/-- Names go up, only the variables defined are entered. -/
def Step (s s' : RS) (D : List Id) : Prop := s.next ≤ s'.next ∧ ∀ z, z ∉ D → look s'.map z = look s.map z

theorem Step.refl (s : RS) (D : List Id) : Step s s D := ⟨Nat.le_refl _, fun _ _ => rfl⟩

theorem Step.trans {s s1 s2 : RS} {D D1 D2 : List Id} (h1 : Step s s1 D1) (h2 : Step s1 s2 D2) (hD : ∀ z, z ∈ D1 ∨ z ∈ D2 → z ∈ D) : Step s s2 D :=
  ⟨Nat.le_trans h1.1 h2.1, fun z hz => (h2.2 z fun m => hz (hD z (.inr m))).trans (h1.2 z fun m => hz (hD z (.inl m)))⟩

theorem defR_some {x y : Id} {s s' : RS} (h : defR x s = some (y, s')) : y = s.next ∧ s' = ⟨s.next + 1, (x, s.next) :: s.map⟩ ∧ look s.map x = none := by
  simp only [defR] at h
  split at h
  · cases h
  · rename_i hn
    cases h
    refine ⟨rfl, rfl, ?_⟩
    simpa using hn

theorem defR_step {x y : Id} {s s' : RS} (h : defR x s = some (y, s')) : Step s s' [x] := by
  obtain ⟨_, rfl, _⟩ := defR_some h
  refine ⟨Nat.le_succ _, fun z hz => ?_⟩
  simp only [look]
  rw [if_neg]
  rintro rfl
  exact hz (by simp)

mutual
theorem pat_step : ∀ (p : Pat) {p' : Pat} {s s' : RS}, reallocPat p s = some (p', s') → Step s s' p.vars
  | .wild, p', s, s', h => by simp only [reallocPat] at h; cases h; exact .refl _ _
  | .var x p, p', s, s', h => by
    simp only [reallocPat, Option.bind_eq_bind, Option.bind_eq_some_iff] at h
    obtain ⟨⟨y, s1⟩, h1, ⟨q, s2⟩, h2, h⟩ := h
    cases h
    exact (defR_step h1).trans (pat_step p h2) (by simp [Pat.vars])
  | .int n, p', s, s', h => by simp only [reallocPat] at h; cases h; exact .refl _ _
  | .data t ps, p', s, s', h => by
    simp only [reallocPat, Option.bind_eq_bind, Option.bind_eq_some_iff] at h
    obtain ⟨⟨q, s2⟩, h2, h⟩ := h
    cases h
    exact pats_step ps h2
  | .deref p, p', s, s', h => by
    simp only [reallocPat, Option.bind_eq_bind, Option.bind_eq_some_iff] at h
    obtain ⟨⟨q, s2⟩, h2, h⟩ := h
    cases h
    exact pat_step p h2
theorem pats_step : ∀ (ps : Pats) {ps' : Pats} {s s' : RS}, reallocPats ps s = some (ps', s') → Step s s' ps.vars
  | .nil, p', s, s', h => by simp only [reallocPats] at h; cases h; exact .refl _ _
  | .cons p ps, p', s, s', h => by
    simp only [reallocPats, Option.bind_eq_bind, Option.bind_eq_some_iff] at h
    obtain ⟨⟨y, s1⟩, h1, ⟨q, s2⟩, h2, h⟩ := h
    cases h
    exact (pat_step p h1).trans (pats_step ps h2) (by simp [Pats.vars])
end

mutual
theorem step : ∀ (e : Expr) {e' : Expr} {s s' : RS}, realloc e s = some (e', s') → Step s s' e.defs
  | .var x, e', s, s', h => by simp only [realloc] at h; cases h; exact .refl _ _
  | .sfun c, e', s, s', h => by simp only [realloc] at h; cases h; exact .refl _ _
  | .int n, e', s, s', h => by simp only [realloc] at h; cases h; exact .refl _ _
  | .never, e', s, s', h => by simp only [realloc] at h; cases h; exact .refl _ _
  | .lfun f, e', s, s', h => by simp only [realloc] at h; cases h
  | .letFun fs b, e', s, s', h => by simp only [realloc] at h; cases h
  | .sfunEnv c a, e', s, s', h => by
    simp only [realloc, Option.bind_eq_bind, Option.bind_eq_some_iff] at h
    obtain ⟨⟨q, s2⟩, h2, h⟩ := h
    cases h
    exact step a h2
  | .ret a, e', s, s', h => by
    simp only [realloc, Option.bind_eq_bind, Option.bind_eq_some_iff] at h
    obtain ⟨⟨q, s2⟩, h2, h⟩ := h
    cases h
    exact step a h2
  | .prim p as, e', s, s', h => by
    simp only [realloc, Option.bind_eq_bind, Option.bind_eq_some_iff] at h
    obtain ⟨⟨q, s2⟩, h2, h⟩ := h
    cases h
    exact steps as h2
  | .call a as, e', s, s', h => by
    simp only [realloc, Option.bind_eq_bind, Option.bind_eq_some_iff] at h
    obtain ⟨⟨y, s1⟩, h1, ⟨q, s2⟩, h2, h⟩ := h
    cases h
    exact (step a h1).trans (steps as h2) (by simp [Expr.defs])
  | .seq a b, e', s, s', h => by
    simp only [realloc, Option.bind_eq_bind, Option.bind_eq_some_iff] at h
    obtain ⟨⟨y, s1⟩, h1, ⟨q, s2⟩, h2, h⟩ := h
    cases h
    exact (step a h1).trans (step b h2) (by simp [Expr.defs])
  | .while a b, e', s, s', h => by
    simp only [realloc, Option.bind_eq_bind, Option.bind_eq_some_iff] at h
    obtain ⟨⟨y, s1⟩, h1, ⟨q, s2⟩, h2, h⟩ := h
    cases h
    exact (step a h1).trans (step b h2) (by simp [Expr.defs])
  | .case a cs, e', s, s', h => by
    simp only [realloc, Option.bind_eq_bind, Option.bind_eq_some_iff] at h
    obtain ⟨⟨y, s1⟩, h1, ⟨q, s2⟩, h2, h⟩ := h
    cases h
    exact (step a h1).trans (stepc cs h2) (by simp [Expr.defs])
  | .ite a b c, e', s, s', h => by
    simp only [realloc, Option.bind_eq_bind, Option.bind_eq_some_iff] at h
    obtain ⟨⟨y, s1⟩, h1, ⟨q, s2⟩, h2, ⟨r, s3⟩, h3, h⟩ := h
    cases h
    exact (step a h1).trans (Step.trans (D := b.defs ++ c.defs) (step b h2) (step c h3) (by simp)) (by simp [Expr.defs])
  | .letVar x a b, e', s, s', h => by
    simp only [realloc, Option.bind_eq_bind, Option.bind_eq_some_iff] at h
    obtain ⟨⟨y, s1⟩, h1, ⟨q, s2⟩, h2, ⟨r, s3⟩, h3, h⟩ := h
    cases h
    exact (defR_step h1).trans (Step.trans (D := a.defs ++ b.defs) (step a h2) (step b h3) (by simp)) (by simp [Expr.defs])
theorem steps : ∀ (es : Exprs) {es' : Exprs} {s s' : RS}, reallocs es s = some (es', s') → Step s s' es.defs
  | .nil, e', s, s', h => by simp only [reallocs] at h; cases h; exact .refl _ _
  | .cons a as, e', s, s', h => by
    simp only [reallocs, Option.bind_eq_bind, Option.bind_eq_some_iff] at h
    obtain ⟨⟨y, s1⟩, h1, ⟨q, s2⟩, h2, h⟩ := h
    cases h
    exact (step a h1).trans (steps as h2) (by simp [Exprs.defs])
theorem stepc : ∀ (cs : Clauses) {cs' : Clauses} {s s' : RS}, reallocc cs s = some (cs', s') → Step s s' cs.defs
  | .nil, e', s, s', h => by simp only [reallocc] at h; cases h; exact .refl _ _
  | .cons p b cs, e', s, s', h => by
    simp only [reallocc, Option.bind_eq_bind, Option.bind_eq_some_iff] at h
    obtain ⟨⟨y, s1⟩, h1, ⟨q, s2⟩, h2, ⟨r, s3⟩, h3, h⟩ := h
    cases h
    exact (pat_step p h1).trans (Step.trans (D := b.defs ++ cs.defs) (step b h2) (stepc cs h3) (by simp)) (by simp [Clauses.defs])
end

/-! ## Pure arguments -/

mutual
theorem pure_defs : ∀ (e : Expr), Pure e → e.defs = []
  | .var _, _ => rfl
  | .sfun _, _ => rfl
  | .sfunEnv _ e, h => pure_defs e h
  | .int _, _ => rfl
  | .prim (.data t) as, h => pures_defs as h
  | .prim .env as, h => pures_defs as h
  | .prim .add _, h => nomatch h
  | .prim .sub _, h => nomatch h
  | .prim .mul _, h => nomatch h
  | .prim .eq _, h => nomatch h
  | .prim .lt _, h => nomatch h
  | .prim .alloc _, h => nomatch h
  | .prim .load _, h => nomatch h
  | .prim .store _, h => nomatch h
  | .prim .print _, h => nomatch h
theorem pures_defs : ∀ (es : Exprs), Pures es → es.defs = []
  | .nil, _ => rfl
  | .cons e es, h => by simp [Exprs.defs, pure_defs e h.1, pures_defs es h.2]
end

mutual
/-- A pure expression does not define anything, and its variables stay what they are if none is defined elsewhere. -/
theorem pure_realloc {s : RS} : ∀ (e : Expr), Pure e → (∀ z ∈ e.uses, look s.map z = none) → realloc e s = some (e, s)
  | .var x, _, h => by simp [realloc, useR, rename, h x (by simp [Expr.uses])]
  | .sfun _, _, _ => rfl
  | .sfunEnv _ e, h, hz => by simp only [realloc, pure_realloc e h hz]; rfl
  | .int _, _, _ => rfl
  | .prim (.data t) as, h, hz => by simp only [realloc, pures_realloc as h hz]; rfl
  | .prim .env as, h, hz => by simp only [realloc, pures_realloc as h hz]; rfl
  | .prim .add _, h, _ => nomatch h
  | .prim .sub _, h, _ => nomatch h
  | .prim .mul _, h, _ => nomatch h
  | .prim .eq _, h, _ => nomatch h
  | .prim .lt _, h, _ => nomatch h
  | .prim .alloc _, h, _ => nomatch h
  | .prim .load _, h, _ => nomatch h
  | .prim .store _, h, _ => nomatch h
  | .prim .print _, h, _ => nomatch h
theorem pures_realloc {s : RS} : ∀ (es : Exprs), Pures es → (∀ z ∈ es.uses, look s.map z = none) → reallocs es s = some (es, s)
  | .nil, _, _ => rfl
  | .cons e es, h, hz => by
    simp only [Exprs.uses, List.mem_append] at hz
    have h1 := pure_realloc e h.1 fun z m => hz z (.inl m)
    have h2 := pures_realloc es h.2 fun z m => hz z (.inr m)
    simp only [reallocs, h1, Option.bind_eq_bind, Option.bind_some, h2]
end

section
variable {m : List (Id × Expr)} (hm : ∀ z a, look m z = some a → Pure a)
include hm

mutual
theorem defs_replace : ∀ (e : Expr), (replaceRt m e).defs = e.defs
  | .var x => by
    simp only [replaceRt]
    cases h : look m x with
    | none => rfl
    | some a => exact pure_defs a (hm x a h)
  | .lfun _ => rfl
  | .sfun _ => rfl
  | .sfunEnv _ e => defs_replace e
  | .int _ => rfl
  | .call f as => by simp only [replaceRt, Expr.defs, defs_replace f, defss_replace as]
  | .prim _ as => defss_replace as
  | .seq a b => by simp only [replaceRt, Expr.defs, defs_replace a, defs_replace b]
  | .ite a b c => by simp only [replaceRt, Expr.defs, defs_replace a, defs_replace b, defs_replace c]
  | .while a b => by simp only [replaceRt, Expr.defs, defs_replace a, defs_replace b]
  | .case e cs => by simp only [replaceRt, Expr.defs, defs_replace e, defsc_replace cs]
  | .ret e => defs_replace e
  | .never => rfl
  | .letVar x a b => by simp only [replaceRt, Expr.defs, defs_replace a, defs_replace b]
  | .letFun _ _ => rfl
theorem defss_replace : ∀ (es : Exprs), (replaceRts m es).defs = es.defs
  | .nil => rfl
  | .cons e es => by simp only [replaceRts, Exprs.defs, defs_replace e, defss_replace es]
theorem defsc_replace : ∀ (cs : Clauses), (replaceRtc m cs).defs = cs.defs
  | .nil => rfl
  | .cons p b cs => by simp only [replaceRtc, Clauses.defs, defs_replace b, defsc_replace cs]
end

end

/-! ## The relation -/

/-- What a variable of the body becomes. -/
def tr (m : List (Id × Expr)) (s : RS) (z : Id) : Expr := (look m z).getD (.var (rename s.map z))

/-- For the variables in scope the relation says what they become, and they use old names only. -/
structure Inv (m : List (Id × Expr)) (s : RS) (σ : Sig) (V : List Id) : Prop where
  sig : ∀ z ∈ V, σ z = some (tr m s z)
  old : ∀ z ∈ V, ∀ u ∈ (tr m s z).uses, u < s.next

/-- The arguments: pure, for parameters, and of variables not defined in the body. -/
structure ArgsOK (m : List (Id × Expr)) (D : List Id) : Prop where
  pure : ∀ z a, look m z = some a → Pure a
  par : ∀ z ∈ D, look m z = none
  away : ∀ z a, look m z = some a → ∀ u ∈ a.uses, u ∉ D

theorem tr_step {m : List (Id × Expr)} {s s' : RS} {D : List Id} (h : Step s s' D) {z : Id} (hz : z ∉ D) : tr m s' z = tr m s z := by
  simp only [tr, rename, h.2 z hz]

theorem Inv.step {m : List (Id × Expr)} {s s' : RS} {σ : Sig} {V D : List Id} (h : Inv m s σ V) (hs : Step s s' D) (hD : ∀ z ∈ V, z ∉ D) :
    Inv m s' σ V :=
  ⟨fun z hz => by rw [tr_step hs (hD z hz)]; exact h.sig z hz,
   fun z hz u hu => by
    rw [tr_step hs (hD z hz)] at hu
    exact Nat.lt_of_lt_of_le (h.old z hz u hu) hs.1⟩

theorem Inv.def {m : List (Id × Expr)} {s s' : RS} {σ : Sig} {V : List Id} {x y : Id} (h : Inv m s σ V) (hd : defR x s = some (y, s')) (hx : x ∉ V)
    (hp : look m x = none) : Inv m s' (σ.bind x y) (x :: V) := by
  have hs := defR_step hd
  obtain ⟨rfl, rfl, _⟩ := defR_some hd
  have hk := h.step hs (by rintro z hz hz'; simp at hz'; subst hz'; exact hx hz)
  have hx' : tr m ⟨s.next + 1, (x, s.next) :: s.map⟩ x = .var s.next := by simp [tr, hp, rename, look]
  refine ⟨fun z hz => ?_, fun z hz u hu => ?_⟩
  · by_cases e : z = x
    · subst e
      rw [hx']
      simp [Sig.bind]
    · have hz' : z ∈ V := (List.mem_cons.1 hz).resolve_left e
      have h1 := hk.sig z hz'
      simp only [Sig.bind, if_neg e, Sig.hide, h1]
      rw [if_neg]
      intro hu
      rw [tr_step hs (by simpa using e)] at hu
      exact Nat.lt_irrefl _ (h.old z hz' _ hu)
  · by_cases e : z = x
    · subst e
      rw [hx'] at hu
      simp only [Expr.uses, List.mem_singleton] at hu
      subst hu
      exact Nat.lt_succ_self _
    · exact hk.old z ((List.mem_cons.1 hz).resolve_left e) u hu

mutual
theorem pat_rel {m : List (Id × Expr)} {D : List Id} (hp : ∀ z ∈ D, look m z = none) : ∀ (p : Pat) {p' : Pat} {s s' : RS} {σ : Sig} {V : List Id},
    reallocPat p s = some (p', s') → Inv m s σ V → (∀ x ∈ p.vars, x ∉ V) → (∀ x ∈ p.vars, x ∈ D) → p.vars.Nodup →
    ∃ σ', PatR p p' σ σ' ∧ Inv m s' σ' (p.vars ++ V)
  | .wild, p', s, s', σ, V, h, hi, _, _, _ => by simp only [reallocPat] at h; cases h; exact ⟨σ, ⟨rfl, rfl⟩, hi⟩
  | .var x p, p', s, s', σ, V, h, hi, hV, hD, hn => by
    simp only [reallocPat, Option.bind_eq_bind, Option.bind_eq_some_iff] at h
    obtain ⟨⟨y, s1⟩, h1, ⟨q, s2⟩, h2, h⟩ := h
    cases h
    simp only [Pat.vars, List.mem_cons, forall_eq_or_imp] at hV hD
    have hn' := List.nodup_cons.1 hn
    obtain ⟨σ', k1, k2⟩ := pat_rel hp p h2 (hi.def h1 hV.1 (hp x hD.1))
      (fun z hz hz' => (List.mem_cons.1 hz').elim (fun e => hn'.1 (e ▸ hz)) (hV.2 z hz)) hD.2 hn'.2
    refine ⟨σ', ⟨y, q, rfl, k1⟩, ?_⟩
    have key : ∀ z, z ∈ Pat.vars (.var x p) ++ V → z ∈ p.vars ++ x :: V := by
      intro z hz
      simp only [Pat.vars, List.cons_append, List.mem_cons, List.mem_append] at hz ⊢
      rcases hz with h | h | h <;> simp [h]
    exact ⟨fun z hz => k2.sig z (key z hz), fun z hz => k2.old z (key z hz)⟩
  | .int n, p', s, s', σ, V, h, hi, _, _, _ => by simp only [reallocPat] at h; cases h; exact ⟨σ, ⟨rfl, rfl⟩, hi⟩
  | .data t ps, p', s, s', σ, V, h, hi, hV, hD, hn => by
    simp only [reallocPat, Option.bind_eq_bind, Option.bind_eq_some_iff] at h
    obtain ⟨⟨q, s2⟩, h2, h⟩ := h
    cases h
    obtain ⟨σ', k1, k2⟩ := pats_rel hp ps h2 hi hV hD hn
    exact ⟨σ', ⟨q, rfl, k1⟩, k2⟩
  | .deref p, p', s, s', σ, V, h, hi, hV, hD, hn => by
    simp only [reallocPat, Option.bind_eq_bind, Option.bind_eq_some_iff] at h
    obtain ⟨⟨q, s2⟩, h2, h⟩ := h
    cases h
    obtain ⟨σ', k1, k2⟩ := pat_rel hp p h2 hi hV hD hn
    exact ⟨σ', ⟨q, rfl, k1⟩, k2⟩
theorem pats_rel {m : List (Id × Expr)} {D : List Id} (hp : ∀ z ∈ D, look m z = none) : ∀ (ps : Pats) {ps' : Pats} {s s' : RS} {σ : Sig} {V : List Id},
    reallocPats ps s = some (ps', s') → Inv m s σ V → (∀ x ∈ ps.vars, x ∉ V) → (∀ x ∈ ps.vars, x ∈ D) → ps.vars.Nodup →
    ∃ σ', PatsR ps ps' σ σ' ∧ Inv m s' σ' (ps.vars ++ V)
  | .nil, p', s, s', σ, V, h, hi, _, _, _ => by simp only [reallocPats] at h; cases h; exact ⟨σ, ⟨rfl, rfl⟩, hi⟩
  | .cons p ps, p', s, s', σ, V, h, hi, hV, hD, hn => by
    simp only [reallocPats, Option.bind_eq_bind, Option.bind_eq_some_iff] at h
    obtain ⟨⟨q, s1⟩, h1, ⟨qs, s2⟩, h2, h⟩ := h
    cases h
    simp only [Pats.vars] at hV hD hn
    obtain ⟨hn1, hn2, hn3⟩ := List.nodup_append.1 hn
    obtain ⟨σ1, k1, k2⟩ := pat_rel hp p h1 hi (fun z hz => hV z (List.mem_append_left _ hz)) (fun z hz => hD z (List.mem_append_left _ hz)) hn1
    obtain ⟨σ2, k3, k4⟩ := pats_rel hp ps h2 k2
      (fun z hz hz' => (List.mem_append.1 hz').elim (fun m => hn3 z m z hz rfl) (hV z (List.mem_append_right _ hz)))
      (fun z hz => hD z (List.mem_append_right _ hz)) hn2
    refine ⟨σ2, ⟨q, qs, σ1, rfl, k1, k3⟩, ?_⟩
    have key : ∀ z, z ∈ Pats.vars (.cons p ps) ++ V → z ∈ ps.vars ++ (p.vars ++ V) := by
      intro z hz
      simp only [Pats.vars, List.mem_append] at hz ⊢
      rcases hz with (h | h) | h <;> simp [h]
    exact ⟨fun z hz => k4.sig z (key z hz), fun z hz => k4.old z (key z hz)⟩
end

theorem dom_step {s s' : RS} {D D' : List Id} (h : ∀ z, (look s.map z).isSome → z ∈ D) (hs : Step s s' D') (hD : ∀ z ∈ D', z ∈ D) :
    ∀ z, (look s'.map z).isSome → z ∈ D := by
  intro z hz
  by_cases e : z ∈ D'
  · exact hD z e
  · rw [hs.2 z e] at hz
    exact h z hz

mutual
theorem rel (P : Prog) {m : List (Id × Expr)} {D : List Id} (ha : ArgsOK m D) : ∀ (e : Expr) {e' : Expr} {s s' : RS} {σ : Sig} {V : List Id},
    realloc (replaceRt m e) s = some (e', s') → OK V [] e → (∀ z ∈ e.defs, z ∈ D) → e.defs.Nodup → (∀ z, (look s.map z).isSome → z ∈ D) → Inv m s σ V →
    R P σ e e'
  | .var x, e', s, s', σ, V, h, ho, hD, hn, hs, hi => by
    have key : realloc (replaceRt m (.var x)) s = some (tr m s x, s) := by
      simp only [replaceRt, tr]
      cases hl : look m x with
      | none => rfl
      | some a =>
        refine pure_realloc a (ha.pure x a hl) fun u hu => ?_
        cases hk : look s.map u with
        | none => rfl
        | some w => exact (ha.away x a hl u hu (hs u (by simp [hk]))).elim
    rw [key] at h
    cases h
    exact .var (hi.sig x ho)
  | .lfun f, e', s, s', σ, V, h, ho, hD, hn, hs, hi => by simp only [replaceRt, realloc] at h; cases h
  | .letFun fs b, e', s, s', σ, V, h, ho, hD, hn, hs, hi => by simp only [replaceRt, realloc] at h; cases h
  | .sfun c, e', s, s', σ, V, h, ho, hD, hn, hs, hi => by simp only [replaceRt, realloc] at h; cases h; exact .sfun c
  | .int c, e', s, s', σ, V, h, ho, hD, hn, hs, hi => by simp only [replaceRt, realloc] at h; cases h; exact .int c
  | .never, e', s, s', σ, V, h, ho, hD, hn, hs, hi => by simp only [replaceRt, realloc] at h; cases h; exact .never
  | .sfunEnv c a, e', s, s', σ, V, h, ho, hD, hn, hs, hi => by
    simp only [replaceRt, realloc, Option.bind_eq_bind, Option.bind_eq_some_iff] at h
    obtain ⟨⟨q, s2⟩, h2, h⟩ := h
    cases h
    exact .sfunEnv c (rel P ha a h2 ho hD hn hs hi)
  | .ret a, e', s, s', σ, V, h, ho, hD, hn, hs, hi => by
    simp only [replaceRt, realloc, Option.bind_eq_bind, Option.bind_eq_some_iff] at h
    obtain ⟨⟨q, s2⟩, h2, h⟩ := h
    cases h
    exact .ret (rel P ha a h2 ho hD hn hs hi)
  | .prim p as, e', s, s', σ, V, h, ho, hD, hn, hs, hi => by
    simp only [replaceRt, realloc, Option.bind_eq_bind, Option.bind_eq_some_iff] at h
    obtain ⟨⟨q, s2⟩, h2, h⟩ := h
    cases h
    exact .prim p (rels P ha as h2 ho hD hn hs hi)
  | .call a as, e', s, s', σ, V, h, ho, hD, hn, hs, hi => by
    simp only [replaceRt, realloc, Option.bind_eq_bind, Option.bind_eq_some_iff] at h
    obtain ⟨⟨y, s1⟩, h1, ⟨q, s2⟩, h2, h⟩ := h
    cases h
    simp only [Expr.defs] at hD hn
    obtain ⟨n1, n2, n3⟩ := List.nodup_append.1 hn
    have k1 := rel P ha a h1 ho.1 (fun z hz => hD z (List.mem_append_left _ hz)) n1 hs hi
    have k2 := step _ h1
    rw [defs_replace ha.pure] at k2
    have k3 := rels P ha as h2 ho.2 (fun z hz => hD z (List.mem_append_right _ hz)) n2
      (dom_step hs k2 fun z hz => hD z (List.mem_append_left _ hz)) (hi.step k2 fun z hz hz' => (defs_new a ho.1 hz').1 hz)
    exact .call k1 k3
  | .seq a b, e', s, s', σ, V, h, ho, hD, hn, hs, hi => by
    simp only [replaceRt, realloc, Option.bind_eq_bind, Option.bind_eq_some_iff] at h
    obtain ⟨⟨y, s1⟩, h1, ⟨q, s2⟩, h2, h⟩ := h
    cases h
    simp only [Expr.defs] at hD hn
    obtain ⟨n1, n2, n3⟩ := List.nodup_append.1 hn
    have k1 := rel P ha a h1 ho.1 (fun z hz => hD z (List.mem_append_left _ hz)) n1 hs hi
    have k2 := step _ h1
    rw [defs_replace ha.pure] at k2
    have k3 := rel P ha b h2 ho.2 (fun z hz => hD z (List.mem_append_right _ hz)) n2
      (dom_step hs k2 fun z hz => hD z (List.mem_append_left _ hz)) (hi.step k2 fun z hz hz' => (defs_new a ho.1 hz').1 hz)
    exact .seq k1 k3
  | .while a b, e', s, s', σ, V, h, ho, hD, hn, hs, hi => by
    simp only [replaceRt, realloc, Option.bind_eq_bind, Option.bind_eq_some_iff] at h
    obtain ⟨⟨y, s1⟩, h1, ⟨q, s2⟩, h2, h⟩ := h
    cases h
    simp only [Expr.defs] at hD hn
    obtain ⟨n1, n2, n3⟩ := List.nodup_append.1 hn
    have k1 := rel P ha a h1 ho.1 (fun z hz => hD z (List.mem_append_left _ hz)) n1 hs hi
    have k2 := step _ h1
    rw [defs_replace ha.pure] at k2
    have k3 := rel P ha b h2 ho.2 (fun z hz => hD z (List.mem_append_right _ hz)) n2
      (dom_step hs k2 fun z hz => hD z (List.mem_append_left _ hz)) (hi.step k2 fun z hz hz' => (defs_new a ho.1 hz').1 hz)
    exact .while k1 k3
  | .case a cs, e', s, s', σ, V, h, ho, hD, hn, hs, hi => by
    simp only [replaceRt, realloc, Option.bind_eq_bind, Option.bind_eq_some_iff] at h
    obtain ⟨⟨y, s1⟩, h1, ⟨q, s2⟩, h2, h⟩ := h
    cases h
    simp only [Expr.defs] at hD hn
    obtain ⟨n1, n2, n3⟩ := List.nodup_append.1 hn
    have k1 := rel P ha a h1 ho.1 (fun z hz => hD z (List.mem_append_left _ hz)) n1 hs hi
    have k2 := step _ h1
    rw [defs_replace ha.pure] at k2
    have k3 := relc P ha cs h2 ho.2 (fun z hz => hD z (List.mem_append_right _ hz)) n2
      (dom_step hs k2 fun z hz => hD z (List.mem_append_left _ hz)) (hi.step k2 fun z hz hz' => (defs_new a ho.1 hz').1 hz)
    exact .case k1 k3
  | .ite a b c, e', s, s', σ, V, h, ho, hD, hn, hs, hi => by
    simp only [replaceRt, realloc, Option.bind_eq_bind, Option.bind_eq_some_iff] at h
    obtain ⟨⟨y, s1⟩, h1, ⟨q, s2⟩, h2, ⟨r, s3⟩, h3, h⟩ := h
    cases h
    simp only [Expr.defs] at hD hn
    obtain ⟨n1, n2, n3⟩ := List.nodup_append.1 hn
    obtain ⟨n4, n5, n6⟩ := List.nodup_append.1 n2
    have k1 := rel P ha a h1 ho.1 (fun z hz => hD z (List.mem_append_left _ hz)) n1 hs hi
    have k2 := step _ h1
    rw [defs_replace ha.pure] at k2
    have d2 := dom_step hs k2 fun z hz => hD z (List.mem_append_left _ hz)
    have i2 := hi.step k2 fun z hz hz' => (defs_new a ho.1 hz').1 hz
    have hD2 : ∀ z ∈ b.defs ++ c.defs, z ∈ D := fun z hz => hD z (List.mem_append_right _ hz)
    have k3 := rel P ha b h2 ho.2.1 (fun z hz => hD2 z (List.mem_append_left _ hz)) n4 d2 i2
    have k4 := step _ h2
    rw [defs_replace ha.pure] at k4
    have k5 := rel P ha c h3 ho.2.2 (fun z hz => hD2 z (List.mem_append_right _ hz)) n5
      (dom_step d2 k4 fun z hz => hD2 z (List.mem_append_left _ hz)) (i2.step k4 fun z hz hz' => (defs_new b ho.2.1 hz').1 hz)
    exact .ite k1 k3 k5
  | .letVar x a b, e', s, s', σ, V, h, ho, hD, hn, hs, hi => by
    simp only [replaceRt, realloc, Option.bind_eq_bind, Option.bind_eq_some_iff] at h
    obtain ⟨⟨y, s1⟩, h1, ⟨q, s2⟩, h2, ⟨r, s3⟩, h3, h⟩ := h
    cases h
    simp only [Expr.defs] at hD hn
    obtain ⟨n0, hn⟩ := List.nodup_cons.1 hn
    obtain ⟨n4, n5, n6⟩ := List.nodup_append.1 hn
    have hD2 : ∀ z ∈ a.defs ++ b.defs, z ∈ D := fun z hz => hD z (List.mem_cons_of_mem _ hz)
    have hx := hD x List.mem_cons_self
    have k0 := defR_step h1
    have d1 := dom_step hs k0 fun z hz => by simp at hz; subst hz; exact hx
    have i1 := hi.step k0 fun z hz hz' => by simp at hz'; subst hz'; exact ho.2.1.1 hz
    have k3 := rel P ha a h2 ho.1 (fun z hz => hD2 z (List.mem_append_left _ hz)) n4 d1 i1
    have k4 := step _ h2
    rw [defs_replace ha.pure] at k4
    have i2 := (hi.def h1 ho.2.1.1 (ha.par x hx)).step k4 fun z hz hz' => by
      rcases List.mem_cons.1 hz with rfl | hz
      · exact n0 (List.mem_append_left _ hz')
      · exact (defs_new a ho.1 hz').1 hz
    have k5 := rel P ha b h3 ho.2.2 (fun z hz => hD2 z (List.mem_append_right _ hz)) n5
      (dom_step d1 k4 fun z hz => hD2 z (List.mem_append_left _ hz)) i2
    exact .letVar k3 k5
theorem rels (P : Prog) {m : List (Id × Expr)} {D : List Id} (ha : ArgsOK m D) : ∀ (es : Exprs) {es' : Exprs} {s s' : RS} {σ : Sig} {V : List Id},
    reallocs (replaceRts m es) s = some (es', s') → OKs V [] es → (∀ z ∈ es.defs, z ∈ D) → es.defs.Nodup → (∀ z, (look s.map z).isSome → z ∈ D) →
    Inv m s σ V → Rs P σ es es'
  | .nil, e', s, s', σ, V, h, ho, hD, hn, hs, hi => by simp only [replaceRts, reallocs] at h; cases h; exact .nil
  | .cons a as, e', s, s', σ, V, h, ho, hD, hn, hs, hi => by
    simp only [replaceRts, reallocs, Option.bind_eq_bind, Option.bind_eq_some_iff] at h
    obtain ⟨⟨y, s1⟩, h1, ⟨q, s2⟩, h2, h⟩ := h
    cases h
    simp only [Exprs.defs] at hD hn
    obtain ⟨n1, n2, n3⟩ := List.nodup_append.1 hn
    have k1 := rel P ha a h1 ho.1 (fun z hz => hD z (List.mem_append_left _ hz)) n1 hs hi
    have k2 := step _ h1
    rw [defs_replace ha.pure] at k2
    have k3 := rels P ha as h2 ho.2 (fun z hz => hD z (List.mem_append_right _ hz)) n2
      (dom_step hs k2 fun z hz => hD z (List.mem_append_left _ hz)) (hi.step k2 fun z hz hz' => (defs_new a ho.1 hz').1 hz)
    exact .cons k1 k3
theorem relc (P : Prog) {m : List (Id × Expr)} {D : List Id} (ha : ArgsOK m D) : ∀ (cs : Clauses) {cs' : Clauses} {s s' : RS} {σ : Sig} {V : List Id},
    reallocc (replaceRtc m cs) s = some (cs', s') → OKc V [] cs → (∀ z ∈ cs.defs, z ∈ D) → cs.defs.Nodup → (∀ z, (look s.map z).isSome → z ∈ D) →
    Inv m s σ V → Rc P σ cs cs'
  | .nil, e', s, s', σ, V, h, ho, hD, hn, hs, hi => by simp only [replaceRtc, reallocc] at h; cases h; exact .nil
  | .cons p b cs, e', s, s', σ, V, h, ho, hD, hn, hs, hi => by
    simp only [replaceRtc, reallocc, Option.bind_eq_bind, Option.bind_eq_some_iff] at h
    obtain ⟨⟨y, s1⟩, h1, ⟨q, s2⟩, h2, ⟨r, s3⟩, h3, h⟩ := h
    cases h
    simp only [Clauses.defs] at hD hn
    obtain ⟨n1, n2, n3⟩ := List.nodup_append.1 hn
    obtain ⟨n4, n5, n6⟩ := List.nodup_append.1 n2
    have hD1 : ∀ z ∈ p.vars, z ∈ D := fun z hz => hD z (List.mem_append_left _ hz)
    have hD2 : ∀ z ∈ b.defs ++ cs.defs, z ∈ D := fun z hz => hD z (List.mem_append_right _ hz)
    have k1 := pat_step _ h1
    obtain ⟨σ1, r1, i1⟩ := pat_rel ha.par p h1 hi (fun x hx => (ho.1 x hx).1) hD1 n1
    have d1 := dom_step hs k1 hD1
    have k2 := rel P ha b h2 ho.2.1 (fun z hz => hD2 z (List.mem_append_left _ hz)) n4 d1 i1
    have k3 := step _ h2
    rw [defs_replace ha.pure] at k3
    have i0 : Inv m s1 σ V := hi.step k1 fun z hz hz' => (ho.1 z hz').1 hz
    have i2 := i0.step k3 fun z hz hz' => (defs_new b ho.2.1 hz').1 (List.mem_append_right _ hz)
    have k4 := relc P ha cs h3 ho.2.2 (fun z hz => hD2 z (List.mem_append_right _ hz)) n5
      (dom_step d1 k3 fun z hz => hD2 z (List.mem_append_left _ hz)) i2
    exact .cons r1 k2 k4
end

end Verif.Inline
