import Verif.Inline.Model
import Verif.Inline.Spec

/-!
# A call with pure arguments and the body in its place do the same
-/
namespace Verif.Inline

open Verif.Closure

/-! ## Pure expressions -/

mutual
/-- The value of an expression that reads and writes nothing, if it is one and not stuck. -/
def pval (ρ : Env) : Expr → Option Val
  | .var x => ρ.lookupVar x
  | .sfun c => some (.sclos c)
  | .sfunEnv c e => match pval ρ e with
    | some (.env vs) => some (.sclosEnv c vs)
    | _ => none
  | .int n => some (.int n)
  | .prim (.data t) as => (pvals ρ as).map (Val.data t)
  | .prim .env as => (pvals ρ as).map Val.env
  | _ => none
def pvals (ρ : Env) : Exprs → Option Vals
  | .nil => some .nil
  | .cons e es => match pval ρ e, pvals ρ es with
    | some v, some vs => some (.cons v vs)
    | _, _ => none
end

mutual
theorem pure_eval {app : Val → Vals → M Val} {k : Nat} {ρ : Env} : ∀ (e : Expr), Pure e → eval app k e ρ = M.of (pval ρ e)
  | .var x, _ => by simp only [eval, pval]
  | .sfun c, _ => by simp only [eval, pval, M.of]
  | .sfunEnv c e, h => by
    have := pure_eval (app := app) (k := k) (ρ := ρ) e h
    simp only [eval, pval, this]
    cases pval ρ e with
    | none => rfl
    | some v => cases v <;> rfl
  | .int n, _ => by simp only [eval, pval, M.of]
  | .prim (.data t) as, h => by
    have := pures_eval (app := app) (k := k) (ρ := ρ) as h
    simp only [eval, pval, this]
    cases pvals ρ as <;> rfl
  | .prim .env as, h => by
    have := pures_eval (app := app) (k := k) (ρ := ρ) as h
    simp only [eval, pval, this]
    cases pvals ρ as <;> rfl
  | .prim .add _, h => nomatch h
  | .prim .sub _, h => nomatch h
  | .prim .mul _, h => nomatch h
  | .prim .eq _, h => nomatch h
  | .prim .lt _, h => nomatch h
  | .prim .alloc _, h => nomatch h
  | .prim .load _, h => nomatch h
  | .prim .store _, h => nomatch h
  | .prim .print _, h => nomatch h
theorem pures_eval {app : Val → Vals → M Val} {k : Nat} {ρ : Env} : ∀ (es : Exprs), Pures es → evals app k es ρ = M.of (pvals ρ es)
  | .nil, _ => by simp only [evals, pvals, M.of]
  | .cons e es, h => by
    have h1 := pure_eval (app := app) (k := k) (ρ := ρ) e h.1
    have h2 := pures_eval (app := app) (k := k) (ρ := ρ) es h.2
    simp only [evals, pvals, h1, h2]
    cases pval ρ e with
    | none => rfl
    | some v => cases pvals ρ es <;> rfl
end

/-! ## The relation -/

/-- What a source variable is in the target. -/
abbrev Sig := Id → Option Expr

/-- What mentions a new variable is hidden by it. -/
def Sig.hide (y : Id) (σ : Sig) : Sig := fun z =>
  match σ z with
  | some a => if y ∈ a.uses then none else some a
  | none => none

def Sig.bind (x y : Id) (σ : Sig) : Sig := fun z => if z = x then some (.var y) else σ.hide y z

mutual
/-- Patterns alike but for the names; the third and fourth are what the variables are before and after. -/
def PatR : Pat → Pat → Sig → Sig → Prop
  | .wild, p', σ, σ' => p' = .wild ∧ σ' = σ
  | .var x p, p', σ, σ' => ∃ y q, p' = .var y q ∧ PatR p q (σ.bind x y) σ'
  | .int n, p', σ, σ' => p' = .int n ∧ σ' = σ
  | .data t ps, p', σ, σ' => ∃ qs, p' = .data t qs ∧ PatsR ps qs σ σ'
  | .deref p, p', σ, σ' => ∃ q, p' = .deref q ∧ PatR p q σ σ'
def PatsR : Pats → Pats → Sig → Sig → Prop
  | .nil, ps', σ, σ' => ps' = .nil ∧ σ' = σ
  | .cons p ps, ps', σ, σ' => ∃ q qs σ1, ps' = .cons q qs ∧ PatR p q σ σ1 ∧ PatsR ps qs σ1 σ'
end

/-- Parameters as arguments. -/
def ofParams (ps : List Id) (as : Exprs) : Sig := look (ps.zip (Exprs.toList as))

mutual
/-- The target is the source with calls replaced by bodies and with variables renamed. -/
inductive R (P : Prog) : Sig → Expr → Expr → Prop
  | var {σ : Sig} {x : Id} {a : Expr} (h : σ x = some a) : R P σ (.var x) a
  | sfun {σ : Sig} (c : Ct) : R P σ (.sfun c) (.sfun c)
  | sfunEnv {σ : Sig} (c : Ct) {e e' : Expr} (h : R P σ e e') : R P σ (.sfunEnv c e) (.sfunEnv c e')
  | int {σ : Sig} (n : Int) : R P σ (.int n) (.int n)
  | call {σ : Sig} {f f' : Expr} {as as' : Exprs} (h : R P σ f f') (hs : Rs P σ as as') : R P σ (.call f as) (.call f' as')
  | prim {σ : Sig} (p : Prim) {as as' : Exprs} (hs : Rs P σ as as') : R P σ (.prim p as) (.prim p as')
  | seq {σ : Sig} {a a' b b' : Expr} (h1 : R P σ a a') (h2 : R P σ b b') : R P σ (.seq a b) (.seq a' b')
  | ite {σ : Sig} {a a' b b' c c' : Expr} (h1 : R P σ a a') (h2 : R P σ b b') (h3 : R P σ c c') : R P σ (.ite a b c) (.ite a' b' c')
  | while {σ : Sig} {a a' b b' : Expr} (h1 : R P σ a a') (h2 : R P σ b b') : R P σ (.while a b) (.while a' b')
  | case {σ : Sig} {e e' : Expr} {cs cs' : Clauses} (h : R P σ e e') (hs : Rc P σ cs cs') : R P σ (.case e cs) (.case e' cs')
  | ret {σ : Sig} {e e' : Expr} (h : R P σ e e') : R P σ (.ret e) (.ret e')
  | never {σ : Sig} : R P σ .never .never
  | letVar {σ : Sig} {x y : Id} {a a' b b' : Expr} (h1 : R P σ a a') (h2 : R P (σ.bind x y) b b') : R P σ (.letVar x a b) (.letVar y a' b')
  /-- a call replaced -/
  | inline {σ : Sig} {c : Ct} {d : Def} {f : Expr} {as as' : Exprs} {b' : Expr} (hf : R P σ f (.sfun c)) (hd : P c = some d) (he : d.env = none)
      (hr : NoRet d.body) (hs : Rs P σ as as') (hp : Pures as') (hn : d.params.Nodup) (hl : d.params.length = (Exprs.toList as').length)
      (hb : R P (ofParams d.params as') d.body b') : R P σ (.call f as) b'
inductive Rs (P : Prog) : Sig → Exprs → Exprs → Prop
  | nil {σ : Sig} : Rs P σ .nil .nil
  | cons {σ : Sig} {e e' : Expr} {es es' : Exprs} (h : R P σ e e') (hs : Rs P σ es es') : Rs P σ (.cons e es) (.cons e' es')
inductive Rc (P : Prog) : Sig → Clauses → Clauses → Prop
  | nil {σ : Sig} : Rc P σ .nil .nil
  | cons {σ σ' : Sig} {p p' : Pat} {b b' : Expr} {cs cs' : Clauses} (hp : PatR p p' σ σ') (h : R P σ' b b') (hs : Rc P σ cs cs') :
      Rc P σ (.cons p b cs) (.cons p' b' cs')
end

/-- Environments alike. -/
def Agree (σ : Sig) (ρ ρ' : Env) : Prop := ∀ x a, σ x = some a → Pure a ∧ ∃ v, ρ.lookupVar x = some v ∧ pval ρ' a = some v

mutual
theorem pval_var {ρ : Env} {y : Id} {w : Val} : ∀ (e : Expr), y ∉ e.uses → pval (.var y w ρ) e = pval ρ e
  | .var x, h => by
    simp only [pval, Env.lookupVar]
    rw [if_neg]
    rintro rfl
    exact h (by simp [Expr.uses])
  | .sfun _, _ => rfl
  | .sfunEnv _ e, h => by simp only [pval, pval_var e h]
  | .int _, _ => rfl
  | .prim (.data t) as, h => by simp only [pval, pvals_var as h]
  | .prim .env as, h => by simp only [pval, pvals_var as h]
  | .prim .add _, _ => rfl
  | .prim .sub _, _ => rfl
  | .prim .mul _, _ => rfl
  | .prim .eq _, _ => rfl
  | .prim .lt _, _ => rfl
  | .prim .alloc _, _ => rfl
  | .prim .load _, _ => rfl
  | .prim .store _, _ => rfl
  | .prim .print _, _ => rfl
  | .lfun _, _ => rfl
  | .call _ _, _ => rfl
  | .seq _ _, _ => rfl
  | .ite _ _ _, _ => rfl
  | .while _ _, _ => rfl
  | .case _ _, _ => rfl
  | .ret _, _ => rfl
  | .never, _ => rfl
  | .letVar _ _ _, _ => rfl
  | .letFun _ _, _ => rfl
theorem pvals_var {ρ : Env} {y : Id} {w : Val} : ∀ (es : Exprs), y ∉ es.uses → pvals (.var y w ρ) es = pvals ρ es
  | .nil, _ => rfl
  | .cons e es, h => by
    simp only [Exprs.uses, List.mem_append, not_or] at h
    simp only [pvals, pval_var e h.1, pvals_var es h.2]
end

theorem Agree.bind {σ : Sig} {ρ ρ' : Env} (h : Agree σ ρ ρ') (x y : Id) (v : Val) : Agree (σ.bind x y) (.var x v ρ) (.var y v ρ') := by
  intro z a hz
  simp only [Sig.bind] at hz
  split at hz
  · rename_i e
    cases hz
    exact ⟨trivial, v, by simp [Env.lookupVar, e], by simp [pval, Env.lookupVar]⟩
  · rename_i e
    simp only [Sig.hide] at hz
    cases hσ : σ z with
    | none => rw [hσ] at hz; cases hz
    | some b =>
      rw [hσ] at hz
      simp only at hz
      split at hz
      · cases hz
      · rename_i hu
        cases hz
        obtain ⟨hp, w, h1, h2⟩ := h z a hσ
        refine ⟨hp, w, ?_, by rw [pval_var a hu]; exact h2⟩
        simp only [Env.lookupVar]
        rw [if_neg fun e' => e e'.symm]
        exact h1

/-- Matches alike. -/
def MatchR (σ : Sig) : Matched → Matched → Prop
  | .stuck, .stuck => True
  | .no, .no => True
  | .yes ρ, .yes ρ' => Agree σ ρ ρ'
  | _, _ => False

mutual
theorem pmatch_sim {mem : List Val} : ∀ (p p' : Pat) (v : Val) {σ σ' : Sig} {ρ ρ' : Env}, PatR p p' σ σ' → Agree σ ρ ρ' →
    MatchR σ' (pmatch mem p v ρ) (pmatch mem p' v ρ')
  | .wild, _, v, σ, σ', ρ, ρ', ⟨e1, e2⟩, h => by subst e1; subst e2; simp only [pmatch]; exact h
  | .var x p, _, v, σ, σ', ρ, ρ', ⟨y, q, rfl, hp⟩, h => by
    simp only [pmatch]
    exact pmatch_sim p q v hp (h.bind x y v)
  | .int n, _, v, σ, σ', ρ, ρ', ⟨e1, e2⟩, h => by
    subst e1; subst e2
    cases v <;> simp only [pmatch] <;> try trivial
    split
    · exact h
    · trivial
  | .data t ps, _, v, σ, σ', ρ, ρ', ⟨qs, rfl, hp⟩, h => by
    cases v <;> simp only [pmatch] <;> try trivial
    split
    · exact pmatchs_sim ps qs _ hp h
    · trivial
  | .deref p, _, v, σ, σ', ρ, ρ', ⟨q, rfl, hp⟩, h => by
    cases v <;> simp only [pmatch] <;> try trivial
    rename_i a
    cases mem[a]? with
    | none => trivial
    | some v => exact pmatch_sim p q v hp h
theorem pmatchs_sim {mem : List Val} : ∀ (ps ps' : Pats) (vs : Vals) {σ σ' : Sig} {ρ ρ' : Env}, PatsR ps ps' σ σ' → Agree σ ρ ρ' →
    MatchR σ' (pmatchs mem ps vs ρ) (pmatchs mem ps' vs ρ')
  | .nil, _, vs, σ, σ', ρ, ρ', ⟨e1, e2⟩, h => by
    subst e1; subst e2
    cases vs <;> simp only [pmatchs]
    · exact h
    · trivial
  | .cons p ps, _, vs, σ, σ', ρ, ρ', ⟨q, qs, σ1, rfl, hp, hps⟩, h => by
    cases vs with
    | nil => simp only [pmatchs]; trivial
    | cons v vs =>
      have h1 := pmatch_sim (mem := mem) p q v hp h
      simp only [pmatchs]
      generalize pmatch mem p v ρ = a at h1
      generalize pmatch mem q v ρ' = b at h1
      cases a <;> cases b <;> simp only [MatchR] at h1
      · trivial
      · trivial
      · exact pmatchs_sim ps qs vs hps h1
end

theorem agree_params : ∀ (ps : List Id) (as : Exprs) (vs : Vals) (ρ0 ρ1 ρ' : Env), Pures as → pvals ρ' as = some vs → ps.Nodup →
    ps.length = (Exprs.toList as).length → Env.bindAll ps vs ρ0 = some ρ1 →
    (∀ z, z ∉ ps → ρ1.lookupVar z = ρ0.lookupVar z) ∧ Agree (ofParams ps as) ρ1 ρ'
  | [], .nil, vs, ρ0, ρ1, ρ', _, hv, _, _, hb => by
    cases vs with
    | nil => cases hb; exact ⟨fun _ _ => rfl, nofun⟩
    | cons v vs => cases hv
  | p :: ps, .cons a as, vs, ρ0, ρ1, ρ', hp, hv, hn, hl, hb => by
    simp only [pvals] at hv
    cases ha : pval ρ' a with
    | none => rw [ha] at hv; cases hv
    | some v =>
      cases has : pvals ρ' as with
      | none => rw [ha, has] at hv; cases hv
      | some vs' =>
        rw [ha, has] at hv
        cases hv
        simp only [Env.bindAll] at hb
        have hn' := List.nodup_cons.1 hn
        obtain ⟨h1, h2⟩ := agree_params ps as vs' (.var p v ρ0) ρ1 ρ' hp.2 has hn'.2 (Nat.succ.inj hl) hb
        refine ⟨?_, ?_⟩
        · intro z hz
          rw [h1 z fun m => hz (List.mem_cons_of_mem _ m)]
          simp only [Env.lookupVar]
          rw [if_neg]
          rintro rfl
          exact hz List.mem_cons_self
        · intro x b hx
          simp only [ofParams, Exprs.toList, List.zip_cons_cons, look] at hx
          split at hx
          · rename_i e
            cases hx
            subst e
            refine ⟨hp.1, v, ?_, ha⟩
            rw [h1 _ hn'.1]
            simp [Env.lookupVar]
          · exact h2 x b hx

end Verif.Inline
