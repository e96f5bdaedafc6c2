import Verif.Inline.Pass
import Verif.Closure.Norm

/-!
# `realloc_rts` does not panic when names are distinct
-/
namespace Verif.Inline

open Verif.Closure

theorem free_step {s s' : RS} {D D' : List Id} (hs : Step s s' D') (hf : ∀ z ∈ D, look s.map z = none) (hd : ∀ z ∈ D, z ∉ D') :
    ∀ z ∈ D, look s'.map z = none := fun z hz => (hs.2 z (hd z hz)).trans (hf z hz)

mutual
theorem pat_total : ∀ (p : Pat) {s : RS}, p.vars.Nodup → (∀ z ∈ p.vars, look s.map z = none) → ∃ q s', reallocPat p s = some (q, s')
  | .wild, s, _, _ => ⟨_, _, rfl⟩
  | .var x p, s, hn, hf => by
    simp only [Pat.vars, List.mem_cons, forall_eq_or_imp] at hf
    have hn' := List.nodup_cons.1 hn
    have h1 : defR x s = some (s.next, ⟨s.next + 1, (x, s.next) :: s.map⟩) := by simp [defR, hf.1]
    obtain ⟨q, s2, h2⟩ := pat_total p hn'.2 (free_step (defR_step h1) hf.2 fun z hz e => by simp at e; subst e; exact hn'.1 hz)
    exact ⟨_, _, by simp only [reallocPat, h1, Option.bind_eq_bind, Option.bind_some, h2]; rfl⟩
  | .int _, s, _, _ => ⟨_, _, rfl⟩
  | .data t ps, s, hn, hf => by
    obtain ⟨q, s2, h2⟩ := pats_total ps hn hf
    exact ⟨_, _, by simp only [reallocPat, Option.bind_eq_bind, h2, Option.bind_some]; rfl⟩
  | .deref p, s, hn, hf => by
    obtain ⟨q, s2, h2⟩ := pat_total p hn hf
    exact ⟨_, _, by simp only [reallocPat, Option.bind_eq_bind, h2, Option.bind_some]; rfl⟩
theorem pats_total : ∀ (ps : Pats) {s : RS}, ps.vars.Nodup → (∀ z ∈ ps.vars, look s.map z = none) → ∃ q s', reallocPats ps s = some (q, s')
  | .nil, s, _, _ => ⟨_, _, rfl⟩
  | .cons p ps, s, hn, hf => by
    simp only [Pats.vars, List.mem_append] at hf
    obtain ⟨n1, n2, n3⟩ := List.nodup_append.1 hn
    obtain ⟨q, s1, h1⟩ := pat_total p n1 fun z hz => hf z (.inl hz)
    obtain ⟨qs, s2, h2⟩ := pats_total ps n2 (free_step (pat_step p h1) (fun z hz => hf z (.inr hz)) fun z hz hz' => n3 z hz' z hz rfl)
    exact ⟨_, _, by simp only [reallocPats, h1, Option.bind_eq_bind, Option.bind_some, h2]; rfl⟩
end

mutual
theorem total : ∀ (e : Expr) {s : RS}, Flat e → e.defs.Nodup → (∀ z ∈ e.defs, look s.map z = none) → ∃ e' s', realloc e s = some (e', s')
  | .var _, s, _, _, _ => ⟨_, _, rfl⟩
  | .sfun _, s, _, _, _ => ⟨_, _, rfl⟩
  | .int _, s, _, _, _ => ⟨_, _, rfl⟩
  | .never, s, _, _, _ => ⟨_, _, rfl⟩
  | .sfunEnv _ e, s, h, hn, hf => by
    obtain ⟨q, s2, h2⟩ := total e h hn hf
    exact ⟨_, _, by simp only [realloc, Option.bind_eq_bind, h2, Option.bind_some]; rfl⟩
  | .ret e, s, h, hn, hf => by
    obtain ⟨q, s2, h2⟩ := total e h hn hf
    exact ⟨_, _, by simp only [realloc, Option.bind_eq_bind, h2, Option.bind_some]; rfl⟩
  | .prim _ as, s, h, hn, hf => by
    obtain ⟨q, s2, h2⟩ := totals as h hn hf
    exact ⟨_, _, by simp only [realloc, Option.bind_eq_bind, h2, Option.bind_some]; rfl⟩
  | .call a as, s, h, hn, hf => by
    simp only [Expr.defs, List.mem_append] at hf
    obtain ⟨n1, n2, n3⟩ := List.nodup_append.1 hn
    obtain ⟨q, s1, h1⟩ := total a h.1 n1 fun z hz => hf z (.inl hz)
    obtain ⟨qs, s2, h2⟩ := totals as h.2 n2 (free_step (step a h1) (fun z hz => hf z (.inr hz)) fun z hz hz' => n3 z hz' z hz rfl)
    exact ⟨_, _, by simp only [realloc, h1, Option.bind_eq_bind, Option.bind_some, h2]; rfl⟩
  | .seq a b, s, h, hn, hf => by
    simp only [Expr.defs, List.mem_append] at hf
    obtain ⟨n1, n2, n3⟩ := List.nodup_append.1 hn
    obtain ⟨q, s1, h1⟩ := total a h.1 n1 fun z hz => hf z (.inl hz)
    obtain ⟨qs, s2, h2⟩ := total b h.2 n2 (free_step (step a h1) (fun z hz => hf z (.inr hz)) fun z hz hz' => n3 z hz' z hz rfl)
    exact ⟨_, _, by simp only [realloc, h1, Option.bind_eq_bind, Option.bind_some, h2]; rfl⟩
  | .while a b, s, h, hn, hf => by
    simp only [Expr.defs, List.mem_append] at hf
    obtain ⟨n1, n2, n3⟩ := List.nodup_append.1 hn
    obtain ⟨q, s1, h1⟩ := total a h.1 n1 fun z hz => hf z (.inl hz)
    obtain ⟨qs, s2, h2⟩ := total b h.2 n2 (free_step (step a h1) (fun z hz => hf z (.inr hz)) fun z hz hz' => n3 z hz' z hz rfl)
    exact ⟨_, _, by simp only [realloc, h1, Option.bind_eq_bind, Option.bind_some, h2]; rfl⟩
  | .case a cs, s, h, hn, hf => by
    simp only [Expr.defs, List.mem_append] at hf
    obtain ⟨n1, n2, n3⟩ := List.nodup_append.1 hn
    obtain ⟨q, s1, h1⟩ := total a h.1 n1 fun z hz => hf z (.inl hz)
    obtain ⟨qs, s2, h2⟩ := totalc cs h.2 n2 (free_step (step a h1) (fun z hz => hf z (.inr hz)) fun z hz hz' => n3 z hz' z hz rfl)
    exact ⟨_, _, by simp only [realloc, h1, Option.bind_eq_bind, Option.bind_some, h2]; rfl⟩
  | .ite a b c, s, h, hn, hf => by
    simp only [Expr.defs, List.mem_append] at hf
    obtain ⟨n1, n2, n3⟩ := List.nodup_append.1 hn
    obtain ⟨n4, n5, n6⟩ := List.nodup_append.1 n2
    obtain ⟨q, s1, h1⟩ := total a h.1 n1 fun z hz => hf z (.inl hz)
    have f1 := free_step (D := b.defs ++ c.defs) (step a h1) (fun z hz => hf z (.inr (List.mem_append.1 hz))) fun z hz hz' => n3 z hz' z hz rfl
    obtain ⟨r, s2, h2⟩ := total b h.2.1 n4 fun z hz => f1 z (List.mem_append_left _ hz)
    obtain ⟨u, s3, h3⟩ := total c h.2.2 n5 (free_step (step b h2) (fun z hz => f1 z (List.mem_append_right _ hz)) fun z hz hz' => n6 z hz' z hz rfl)
    exact ⟨_, _, by simp only [realloc, h1, Option.bind_eq_bind, Option.bind_some, h2, h3]; rfl⟩
  | .letVar x a b, s, h, hn, hf => by
    simp only [Expr.defs] at hf hn
    obtain ⟨n0, hn⟩ := List.nodup_cons.1 hn
    obtain ⟨n4, n5, n6⟩ := List.nodup_append.1 hn
    have h1 : defR x s = some (s.next, ⟨s.next + 1, (x, s.next) :: s.map⟩) := by simp [defR, hf x List.mem_cons_self]
    have f1 := free_step (D := a.defs ++ b.defs) (defR_step h1) (fun z hz => hf z (List.mem_cons_of_mem _ hz)) fun z hz e => by
      simp at e; subst e; exact n0 hz
    obtain ⟨r, s2, h2⟩ := total a h.1 n4 fun z hz => f1 z (List.mem_append_left _ hz)
    obtain ⟨u, s3, h3⟩ := total b h.2 n5 (free_step (step a h2) (fun z hz => f1 z (List.mem_append_right _ hz)) fun z hz hz' => n6 z hz' z hz rfl)
    exact ⟨_, _, by simp only [realloc, h1, Option.bind_eq_bind, Option.bind_some, h2, h3]; rfl⟩
theorem totals : ∀ (es : Exprs) {s : RS}, Flats es → es.defs.Nodup → (∀ z ∈ es.defs, look s.map z = none) → ∃ e' s', reallocs es s = some (e', s')
  | .nil, s, _, _, _ => ⟨_, _, rfl⟩
  | .cons a as, s, h, hn, hf => by
    simp only [Exprs.defs, List.mem_append] at hf
    obtain ⟨n1, n2, n3⟩ := List.nodup_append.1 hn
    obtain ⟨q, s1, h1⟩ := total a h.1 n1 fun z hz => hf z (.inl hz)
    obtain ⟨qs, s2, h2⟩ := totals as h.2 n2 (free_step (step a h1) (fun z hz => hf z (.inr hz)) fun z hz hz' => n3 z hz' z hz rfl)
    exact ⟨_, _, by simp only [reallocs, h1, Option.bind_eq_bind, Option.bind_some, h2]; rfl⟩
theorem totalc : ∀ (cs : Clauses) {s : RS}, Flatc cs → cs.defs.Nodup → (∀ z ∈ cs.defs, look s.map z = none) → ∃ e' s', reallocc cs s = some (e', s')
  | .nil, s, _, _, _ => ⟨_, _, rfl⟩
  | .cons p b cs, s, h, hn, hf => by
    simp only [Clauses.defs, List.mem_append] at hf
    obtain ⟨n1, n2, n3⟩ := List.nodup_append.1 hn
    obtain ⟨n4, n5, n6⟩ := List.nodup_append.1 n2
    obtain ⟨q, s1, h1⟩ := pat_total p n1 fun z hz => hf z (.inl hz)
    have f1 := free_step (D := b.defs ++ cs.defs) (pat_step p h1) (fun z hz => hf z (.inr (List.mem_append.1 hz))) fun z hz hz' => n3 z hz' z hz rfl
    obtain ⟨r, s2, h2⟩ := total b h.1 n4 fun z hz => f1 z (List.mem_append_left _ hz)
    obtain ⟨u, s3, h3⟩ := totalc cs h.2 n5 (free_step (step b h2) (fun z hz => f1 z (List.mem_append_right _ hz)) fun z hz hz' => n6 z hz' z hz rfl)
    exact ⟨_, _, by simp only [reallocc, h1, Option.bind_eq_bind, Option.bind_some, h2, h3]; rfl⟩
end

mutual
theorem pure_flat : ∀ (e : Expr), Pure e → Flat e
  | .var _, _ => trivial
  | .sfun _, _ => trivial
  | .sfunEnv _ e, h => pure_flat e h
  | .int _, _ => trivial
  | .prim (.data t) as, h => pures_flat as h
  | .prim .env as, h => pures_flat as h
  | .prim .add _, h => nomatch h
  | .prim .sub _, h => nomatch h
  | .prim .mul _, h => nomatch h
  | .prim .eq _, h => nomatch h
  | .prim .lt _, h => nomatch h
  | .prim .alloc _, h => nomatch h
  | .prim .load _, h => nomatch h
  | .prim .store _, h => nomatch h
  | .prim .print _, h => nomatch h
theorem pures_flat : ∀ (es : Exprs), Pures es → Flats es
  | .nil, _ => trivial
  | .cons e es, h => ⟨pure_flat e h.1, pures_flat es h.2⟩
end

section
variable {m : List (Id × Expr)} (hm : ∀ z a, look m z = some a → Pure a)
include hm

mutual
theorem flat_replace : ∀ (e : Expr), Flat e → Flat (replaceRt m e)
  | .var x, _ => by
    simp only [replaceRt]
    cases h : look m x with
    | none => trivial
    | some a => exact pure_flat a (hm x a h)
  | .sfun _, _ => trivial
  | .sfunEnv _ e, h => flat_replace e h
  | .int _, _ => trivial
  | .call f as, h => ⟨flat_replace f h.1, flats_replace as h.2⟩
  | .prim _ as, h => flats_replace as h
  | .seq a b, h => ⟨flat_replace a h.1, flat_replace b h.2⟩
  | .ite a b c, h => ⟨flat_replace a h.1, flat_replace b h.2.1, flat_replace c h.2.2⟩
  | .while a b, h => ⟨flat_replace a h.1, flat_replace b h.2⟩
  | .case e cs, h => ⟨flat_replace e h.1, flatc_replace cs h.2⟩
  | .ret e, h => flat_replace e h
  | .never, _ => trivial
  | .letVar x a b, h => ⟨flat_replace a h.1, flat_replace b h.2⟩
theorem flats_replace : ∀ (es : Exprs), Flats es → Flats (replaceRts m es)
  | .nil, _ => trivial
  | .cons e es, h => ⟨flat_replace e h.1, flats_replace es h.2⟩
theorem flatc_replace : ∀ (cs : Clauses), Flatc cs → Flatc (replaceRtc m cs)
  | .nil, _ => trivial
  | .cons p b cs, h => ⟨flat_replace b h.1, flatc_replace cs h.2⟩
end

end

end Verif.Inline
