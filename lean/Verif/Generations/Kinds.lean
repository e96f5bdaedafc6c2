import Verif.Generations.Spec
import Verif.Mono.Lemmas

/-!
# Evaluation keeps kinds
-/

namespace Verif.Generations

open Verif.Mono

variable {Δ : Nat → Option Def} {K E : Nat → Kd}

mutual
theorem HasKind.bind {σ : Nat → Ct} (hs : ∀ c, HasKind K E (σ c) (K c)) :
    ∀ {t : Ct} {k : Kd}, HasKind K E t k → HasKind K E (t.bind σ) k
  | _, _, .id => hs _
  | _, _, .inst f as => .inst (HasKind.bind hs f) (HasKinds.bind hs as)
  | _, _, .get t => .get (HasKind.bind hs t)
  | _, _, .ptr t => .ptr (HasKind.bind hs t)
  | _, _, .clos as ha t => .clos (HasKinds.bind hs as) ha (HasKind.bind hs t)
  | _, _, .array t => .array (HasKind.bind hs t)
  | _, _, .syntax t => .syntax (HasKind.bind hs t)
  | _, _, .prim => .prim

theorem HasKinds.bind {σ : Nat → Ct} (hs : ∀ c, HasKind K E (σ c) (K c)) :
    ∀ {ts : List Ct} {ks : List Kd}, HasKinds K E ts ks → HasKinds K E (Ct.binds σ ts) ks
  | _, _, .nil => .nil
  | _, _, .cons t ts => .cons (HasKind.bind hs t) (HasKinds.bind hs ts)
end

theorem DefKind.bind {σ : Nat → Ct} (hs : ∀ c, HasKind K E (σ c) (K c)) {d : Def} {k : Kd}
    (h : DefKind K E d k) : DefKind K E (d.map (Ct.bind σ)) k := by
  have main : ∀ (ts : List Ct) (u : Ct), (∀ t ∈ ts, HasKind K E t .type) →
      u ∈ ts.map (Ct.bind σ) → HasKind K E u .type := by
    intro ts u h hu
    obtain ⟨t, ht, rfl⟩ := List.mem_map.1 hu
    exact (h t ht).bind hs
  induction h with
  | «alias» h => exact .alias (h.bind hs)
  | table h =>
    refine .table fun e he => ?_
    obtain ⟨e', he', rfl⟩ := List.mem_map.1 he
    exact (h e' he').bind hs
  | generic _ ih => exact .generic ih
  | data h =>
    refine .data fun l hl t ht => ?_
    obtain ⟨l', hl', rfl⟩ := List.mem_map.1 hl
    exact main l' t (h l' hl') ht
  | struct h => exact .struct fun t ht => main _ t h ht
  | union h => exact .union fun t ht => main _ t h ht
  | function h =>
    refine .function fun u hu => ?_
    obtain ⟨t, ht, rfl⟩ := List.mem_map.1 hu
    exact (h t ht).imp (·.bind hs) (·.bind hs)

theorem assign_kind {ps : List Nat} {vs : List Ct} (h : HasKinds K E vs (ps.map K)) (c : Nat) :
    HasKind K E (assign ps vs c) (K c) := by
  induction ps generalizing vs with
  | nil => exact .id
  | cons p ps ih =>
    cases h with
    | cons hv hvs =>
      have ih := ih hvs
      simp only [assign, List.zip_cons_cons, List.lookup] at ih ⊢
      by_cases hc : c = p
      · subst hc
        simpa using hv
      · have : (c == p) = false := by simpa using hc
        rw [this]
        exact ih

theorem id_kind {c : Nat} {k : Kd} (h : HasKind K E (.id c) k) : k = K c := by
  cases h
  rfl

/-- What an expression refers to has its kind. -/
theorem defOf_kind (hK : Kinded Δ K E) {r : Ct} {k : Kd} {d : Def} (h : HasKind K E r k)
    (hd : DefOf Δ r = some d) : DefKind K E d k := by
  cases h with
  | id => exact hK _ _ hd
  | @inst f as ks k hf ha =>
    cases f with
    | id g =>
      simp only [DefOf] at hd
      split at hd
      · rename_i ps e hg
        split at hd
        · cases hd
          have hg := hK g _ hg
          generalize hkg : K g = kg at hg
          rw [← id_kind hf] at hkg
          cases hkg
          cases hg with
          | generic he => exact he.bind (assign_kind ha)
        · cases hd
      · cases hd
    | _ => simp [DefOf] at hd
  | _ => simp [DefOf] at hd

theorem lookup_pair {m : List (Nat × Ct)} {k : Nat} {x : Ct} (h : m.lookup k = some x) :
    (k, x) ∈ m := by
  induction m with
  | nil => simp at h
  | cons e m ih =>
    obtain ⟨j, t⟩ := e
    simp only [List.lookup] at h
    cases hk : (k == j) with
    | true =>
      simp only [hk] at h
      cases h
      have : k = j := by simpa using hk
      subst this
      exact List.mem_cons_self
    | false =>
      simp only [hk] at h
      exact List.mem_cons_of_mem _ (ih h)

mutual
theorem eval_kind (hK : Kinded Δ K E) {U : Ct → Prop} : ∀ {t v : Ct} {k : Kd},
    Eval Δ U t v → HasKind K E t k → HasKind K E v k
  | _, _, _, .idAlias _ hx hv, h => by
    have := defOf_kind hK h (by simpa [DefOf] using hx)
    cases this with
    | «alias» hx => exact eval_kind hK hv hx
  | _, _, _, .idSelf _ _, h => h
  | _, _, _, .instAlias hf ha _ hx hv, h => by
    cases h with
    | inst kf ka =>
      have := defOf_kind hK (.inst (eval_kind hK hf kf) (evals_kind hK ha ka)) hx
      cases this with
      | «alias» hx => exact eval_kind hK hv hx
  | _, _, _, .instSelf hf ha _ _ _, h => by
    cases h with
    | inst kf ka => exact .inst (eval_kind hK hf kf) (evals_kind hK ha ka)
  | _, _, _, .get ht hm hx hv, h => by
    cases h with
    | get kt =>
      have := defOf_kind hK (eval_kind hK ht kt) hm
      cases this with
      | table he => exact eval_kind hK hv (he _ (lookup_pair hx))
  | _, _, _, .ptr ht, h => by
    cases h with | ptr k => exact .ptr (eval_kind hK ht k)
  | _, _, _, .clos ha ht, h => by
    cases h with | clos ka hk k => exact .clos (evals_kind hK ha ka) hk (eval_kind hK ht k)
  | _, _, _, .array ht, h => by
    cases h with | array k => exact .array (eval_kind hK ht k)
  | _, _, _, .syntax ht, h => by
    cases h with | «syntax» k => exact .syntax (eval_kind hK ht k)
  | _, _, _, .prim, h => h

theorem evals_kind (hK : Kinded Δ K E) {U : Ct → Prop} : ∀ {ts vs : List Ct} {ks : List Kd},
    Evals Δ U ts vs → HasKinds K E ts ks → HasKinds K E vs ks
  | _, _, _, .nil, h => h
  | _, _, _, .cons ht hts, h => by
    cases h with | cons k ks => exact .cons (eval_kind hK ht k) (evals_kind hK hts ks)
end

/-- The expression is a type or a value. -/
def Low (K E : Nat → Kd) (t : Ct) : Prop := ∃ k, k.Ground ∧ HasKind K E t k

theorem low_type {t : Ct} (h : HasKind K E t .type) : Low K E t := ⟨.type, .inl rfl, h⟩

mutual
/-- All identifiers that are left in a normalized type are types. -/
theorem low_all {σ : Nat → Ct} {P : Nat → Prop} : ∀ t : Ct, t.Normal P →
    Low K E (t.bind σ) → t.All fun c => Low K E (σ c)
  | .id _, _, h => h
  | .ptr t, hn, ⟨_, _, h⟩ => by
    cases h with | ptr h => exact low_all t hn (low_type h)
  | .clos as t, hn, ⟨_, _, h⟩ => by
    cases h with | clos ha hk h => exact ⟨low_alls as hn.1 ha hk, low_all t hn.2 (low_type h)⟩
  | .array t, hn, ⟨_, _, h⟩ => by
    cases h with | array h => exact low_all t hn (low_type h)
  | .syntax t, hn, ⟨_, _, h⟩ => by
    cases h with | «syntax» h => exact low_all t hn (low_type h)
  | .prim _, _, _ => trivial

theorem low_alls {σ : Nat → Ct} {P : Nat → Prop} : ∀ (ts : List Ct) {ks : List Kd},
    Ct.Normals P ts → HasKinds K E (Ct.binds σ ts) ks → (∀ k ∈ ks, k = .type) →
    Ct.Alls (fun c => Low K E (σ c)) ts
  | [], _, _, _, _ => trivial
  | t :: ts, _, hn, h, hk => by
    cases h with
    | @cons _ _ k ks h hs =>
      have := hk k List.mem_cons_self
      subst this
      exact ⟨low_all t hn.1 (low_type h),
        low_alls ts hn.2 hs fun k h => hk k (List.mem_cons_of_mem _ h)⟩
end

theorem evals_mem {U : Ct → Prop} {ts vs : List Ct} (h : Evals Δ U ts vs) {v : Ct}
    (hv : v ∈ vs) : ∃ t ∈ ts, Eval Δ U t v := by
  induction ts generalizing vs with
  | nil => cases h; cases hv
  | cons t ts ih =>
    cases h with
    | cons h hs =>
      rcases List.mem_cons.1 hv with rfl | hv
      · exact ⟨t, List.mem_cons_self, h⟩
      · obtain ⟨u, hu, e⟩ := ih hs hv
        exact ⟨u, List.mem_cons_of_mem _ hu, e⟩

theorem evals_low (hK : Kinded Δ K E) {U : Ct → Prop} {ts vs : List Ct} (h : Evals Δ U ts vs)
    (hl : ∀ t ∈ ts, Low K E t) : ∀ v ∈ vs, Low K E v := by
  intro v hv
  obtain ⟨t, ht, e⟩ := evals_mem h hv
  obtain ⟨k, hk, h⟩ := hl t ht
  exact ⟨k, hk, eval_kind hK e h⟩

/-- A definition of a type or a function has only types and functions in it. -/
theorem defEval_low (hK : Kinded Δ K E) {U : Ct → Prop} {D d : Def} {k : Kd}
    (hk : k.Ground) (hD : DefKind K E D k) (h : DefEval Δ U D d) :
    ∀ v ∈ d.terms, Low K E v := by
  cases h with
  | «alias» e =>
    cases hD with
    | «alias» h =>
      intro v hv
      have := List.mem_singleton.1 hv
      subst this
      exact ⟨k, hk, eval_kind hK e h⟩
  | table e => cases hD; rcases hk with h | h <;> cases h
  | data e =>
    cases hD with
    | data h =>
      intro v hv
      obtain ⟨l, hl, hw⟩ := List.mem_flatten.1 hv
      clear hv
      revert h
      induction e with
      | nil => cases hl
      | cons h1 _ ih =>
        intro h
        rcases List.mem_cons.1 hl with rfl | hl
        · exact evals_low hK h1 (fun t ht => low_type (h _ List.mem_cons_self t ht)) v hw
        · exact ih hl fun l' hl' => h l' (List.mem_cons_of_mem _ hl')
  | struct e => cases hD with | struct h => exact evals_low hK e fun t ht => low_type (h t ht)
  | union e => cases hD with | union h => exact evals_low hK e fun t ht => low_type (h t ht)
  | function e =>
    cases hD with
    | function h =>
      refine evals_low hK e fun t ht => ?_
      rcases h t ht with h | h
      · exact low_type h
      · exact ⟨.value, .inr rfl, h⟩

theorem low_defOf (hK : Kinded Δ K E) {r : Ct} {D : Def} (h : Low K E r)
    (hD : DefOf Δ r = some D) :
    ¬ D.IsGeneric ∧ (∀ m, D ≠ .table m) ∧ ∃ k, k.Ground ∧ DefKind K E D k := by
  obtain ⟨k, hk, h⟩ := h
  have hd := defOf_kind hK h hD
  refine ⟨?_, ?_, k, hk, hd⟩
  · intro hg
    cases hd with
    | generic _ => rcases hk with h | h <;> cases h
    | _ => exact hg
  · rintro m rfl
    cases hd
    rcases hk with h | h <;> cases h

end Verif.Generations
