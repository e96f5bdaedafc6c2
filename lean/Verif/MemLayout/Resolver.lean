import Verif.MemLayout.Lemmas
import Verif.Util.Lists

namespace Verif.MemLayout
open Layout Spec
open Verif (HMap)

variable {base : Layouts} {defs : Defs}

theorem getCt_prim (m m' : Layouts) {t : Ct} (h : ∀ n, t ≠ .id n) : m.getCt t = m'.getCt t := by
  cases t with
  | id n => exact absurd rfl (h n)
  | _ => rfl

theorem zip_unique {α β} {R : α → β → Prop} : ∀ (ts : List α) (ls ls' : List β), ts.length = ls.length → ts.length = ls'.length →
    (∀ p ∈ ts.zip ls, ∀ {b'}, R p.1 b' → p.2 = b') → (∀ p ∈ ts.zip ls', R p.1 p.2) → ls = ls' := by
  intro ts
  induction ts with
  | nil => intro ls ls' h h' _ _; rw [List.length_eq_zero_iff.1 h.symm, List.length_eq_zero_iff.1 h'.symm]
  | cons t ts ih =>
    intro ls ls' h h' hz hz'
    cases ls with
    | nil => simp at h
    | cons l ls =>
      cases ls' with
      | nil => simp at h'
      | cons l' ls' =>
        simp only [List.zip_cons_cons, List.mem_cons, forall_eq_or_imp, List.length_cons, Nat.add_right_cancel_iff] at *
        rw [hz.1 hz'.1, ih ls ls' h h' hz.2 hz'.2]

/-- A type has at most one layout. -/
theorem HasLayout.unique {t : Ct} {l l' : Layout} (h : HasLayout base defs t l) (h' : HasLayout base defs t l') : l = l' := by
  induction h generalizing l' with
  | prim hn hg =>
    cases h' with
    | prim _ hg' => rw [hg] at hg'; cases hg'; rfl
    | known _ => exact absurd rfl (hn _)
    | struct _ _ _ _ => exact absurd rfl (hn _)
    | union _ _ _ _ => exact absurd rfl (hn _)
  | known hk =>
    cases h' with
    | prim hn _ => exact absurd rfl (hn _)
    | known hk' => rw [hk] at hk'; cases hk'; rfl
    | struct hb _ _ _ => rw [hk] at hb; cases hb
    | union hb _ _ _ => rw [hk] at hb; cases hb
  | struct hb hd hl hz ih =>
    cases h' with
    | prim hn _ => exact absurd rfl (hn _)
    | known hk' => rw [hb] at hk'; cases hk'
    | struct _ hd' hl' hz' =>
      rw [hd] at hd'; cases hd'
      rw [zip_unique _ _ _ hl hl' ih hz']
    | union _ hd' _ _ => rw [hd] at hd'; cases hd'
  | union hb hd hl hz ih =>
    cases h' with
    | prim hn _ => exact absurd rfl (hn _)
    | known hk' => rw [hb] at hk'; cases hk'
    | struct _ hd' _ _ => rw [hd] at hd'; cases hd'
    | union _ hd' hl' hz' =>
      rw [hd] at hd'; cases hd'
      rw [zip_unique _ _ _ hl hl' ih hz']

theorem mem_zip_of_mem {α β} {ts : List α} {ls : List β} (h : ts.length = ls.length) {t : α} (ht : t ∈ ts) : ∃ l, (t, l) ∈ ts.zip ls := by
  induction ts generalizing ls with
  | nil => cases ht
  | cons x ts ih =>
    cases ls with
    | nil => simp at h
    | cons l ls =>
      rcases List.mem_cons.1 ht with rfl | ht
      · exact ⟨l, by simp⟩
      · obtain ⟨l', hl'⟩ := ih (by simpa using h) ht
        exact ⟨l', by simp [hl']⟩

/-- A type that has a layout is not contained in itself. -/
theorem HasLayout.acc {t : Ct} {l : Layout} (h : HasLayout base defs t l) : ∀ n, t = .id n → _root_.Acc (fun m k => Contains base defs k m) n := by
  induction h with
  | prim hn _ => intro n h; exact absurd h (hn n)
  | known hk =>
    intro n h; cases h
    refine ⟨_, fun m hm => ?_⟩
    rw [hm.1] at hk; cases hk
  | struct hb hd hl hz ih =>
    intro n h; cases h
    refine ⟨_, fun m hm => ?_⟩
    obtain ⟨-, ts, h1, h2⟩ := hm
    rw [hd] at h1
    rcases h1 with h1 | h1 <;> cases h1
    obtain ⟨l, hl⟩ := mem_zip_of_mem hl h2
    exact ih _ hl m rfl
  | union hb hd hl hz ih =>
    intro n h; cases h
    refine ⟨_, fun m hm => ?_⟩
    obtain ⟨-, ts, h1, h2⟩ := hm
    rw [hd] at h1
    rcases h1 with h1 | h1 <;> cases h1
    obtain ⟨l, hl⟩ := mem_zip_of_mem hl h2
    exact ih _ hl m rfl

theorem Spec.ContainsTrans.snoc {a b c : Nat} (h : ContainsTrans base defs a b) (h' : Contains base defs b c) : ContainsTrans base defs a c := by
  induction h with
  | one h => exact .step h (.one h')
  | step h _ ih => exact .step h (ih h')

theorem not_cyclic_of_acc {n : Nat} (h : _root_.Acc (fun m k => Contains base defs k m) n) : ¬ ContainsTrans base defs n n := by
  induction h with
  | intro n _ ih =>
    intro hm
    cases hm with
    | one h => exact ih n h (.one h)
    | step h1 h2 => exact ih _ h1 (h2.snoc h1)

/-- The state of the resolver: `P` are the types being visited. -/
structure Ok (base : Layouts) (defs : Defs) (m : Layouts) (P : List Nat) : Prop where
  progress : ∀ n, HMap.get m n = some none ↔ n ∈ P
  sound : ∀ n l, HMap.get m n = some (some l) → HasLayout base defs (.id n) l
  keep : ∀ n l, HMap.get base n = some (some l) → HMap.get m n = some (some l)

theorem Ok.base_none {m P} (h : Ok base defs m P) (hb : ∀ n, HMap.get base n ≠ some none) {n} (hn : HMap.get m n = none) : HMap.get base n = none := by
  cases hk : HMap.get base n with
  | none => rfl
  | some o =>
    cases o with
    | none => exact absurd hk (hb n)
    | some l => rw [h.keep n l hk] at hn; cases hn

theorem Ok.enter {m P} (h : Ok base defs m P) {n} (hn : HMap.get m n = none) : Ok base defs (HMap.insert m n none) (n :: P) := by
  refine ⟨fun k => ?_, fun k l hk => ?_, fun k l hk => ?_⟩
  · rw [HMap.get_insert]
    by_cases hkn : k = n
    · subst hkn; simp
    · rw [if_neg hkn, h.progress]; simp [hkn]
  · rw [HMap.get_insert] at hk
    split at hk
    · cases hk
    · exact h.sound k l hk
  · rw [HMap.get_insert]
    split
    · rename_i hh; subst hh; rw [h.keep _ l hk] at hn; cases hn
    · exact h.keep k l hk

theorem Ok.leave {m P n l} (h : Ok base defs m (n :: P)) (hn : n ∉ P) (hb : HMap.get base n = none) (hl : HasLayout base defs (.id n) l) :
    Ok base defs (HMap.insert m n (some l)) P := by
  refine ⟨fun k => ?_, fun k l' hk => ?_, fun k l' hk => ?_⟩
  · rw [HMap.get_insert]
    by_cases hkn : k = n
    · subst hkn; simp [hn]
    · rw [if_neg hkn, h.progress]; simp [hkn]
  · rw [HMap.get_insert] at hk
    split at hk
    · cases hk; rename_i hh; rw [hh]; exact hl
    · exact h.sound k l' hk
  · rw [HMap.get_insert]
    split
    · rename_i hh; subst hh; rw [hb] at hk; cases hk
    · exact h.keep k l' hk

mutual
theorem visit_sound (hb : ∀ n, HMap.get base n ≠ some none) : ∀ (fuel : Nat) (m : Layouts) (t : Ct) (P : List Nat), Ok base defs m P →
    ∀ l m', registerVisit defs fuel m t = .ok (l, m') →
      HasLayout base defs t l ∧ Ok base defs m' P ∧ (∀ n l, HMap.get m n = some (some l) → HMap.get m' n = some (some l)) ∧
      ∀ n, t = .id n → HMap.get m' n = some (some l)
  | 0, _, _, _, _ => by intro l m' h; simp [registerVisit] at h
  | fuel + 1, m, .id n, P, hok => by
    intro l m' h
    rw [registerVisit] at h
    cases hg : HMap.get m n with
    | some o =>
      cases o with
      | none => simp [hg] at h
      | some l0 =>
        simp only [hg, Except.ok.injEq, Prod.mk.injEq] at h
        obtain ⟨rfl, rfl⟩ := h
        exact ⟨hok.sound n _ hg, hok, fun _ _ h => h, fun k hk => by cases hk; exact hg⟩
    | none =>
      simp only [hg] at h
      have hnP : n ∉ P := fun hp => by rw [(hok.progress n).2 hp] at hg; cases hg
      have hbn := hok.base_none hb hg
      have hin := hok.enter hg
      have hkeep : ∀ k l, HMap.get m k = some (some l) → HMap.get (HMap.insert m n none) k = some (some l) := by
        intro k l hk
        rw [HMap.get_insert, if_neg (by rintro rfl; rw [hg] at hk; cases hk), hk]
      cases hd : HMap.get defs n with
      | none => simp [hd] at h
      | some d =>
        cases d with
        | other => simp [hd] at h
        | struct ts =>
          simp only [hd] at h
          cases hv : registerVisits defs fuel (HMap.insert m n none) ts with
          | error e => simp [hv] at h
          | ok r =>
            obtain ⟨ls, m1⟩ := r
            simp only [hv, Except.ok.injEq, Prod.mk.injEq] at h
            obtain ⟨rfl, rfl⟩ := h
            obtain ⟨h1, h2, h3, h4⟩ := visits_sound hb fuel _ ts (n :: P) hin ls m1 hv
            have hL := HasLayout.struct hbn hd h1 h2
            refine ⟨hL, h3.leave hnP hbn hL, fun k l hk => ?_, fun k hk => by cases hk; rw [HMap.get_insert, if_pos rfl]⟩
            rw [HMap.get_insert, if_neg (by rintro rfl; rw [hg] at hk; cases hk)]
            exact h4 k l (hkeep k l hk)
        | union ts =>
          simp only [hd] at h
          cases hv : registerVisits defs fuel (HMap.insert m n none) ts with
          | error e => simp [hv] at h
          | ok r =>
            obtain ⟨ls, m1⟩ := r
            simp only [hv, Except.ok.injEq, Prod.mk.injEq] at h
            obtain ⟨rfl, rfl⟩ := h
            obtain ⟨h1, h2, h3, h4⟩ := visits_sound hb fuel _ ts (n :: P) hin ls m1 hv
            have hL := HasLayout.union hbn hd h1 h2
            refine ⟨hL, h3.leave hnP hbn hL, fun k l hk => ?_, fun k hk => by cases hk; rw [HMap.get_insert, if_pos rfl]⟩
            rw [HMap.get_insert, if_neg (by rintro rfl; rw [hg] at hk; cases hk)]
            exact h4 k l (hkeep k l hk)
  | fuel + 1, m, .erased, P, hok | fuel + 1, m, .ptr _, P, hok | fuel + 1, m, .clos, P, hok | fuel + 1, m, .s _, P, hok | fuel + 1, m, .u _, P, hok
  | fuel + 1, m, .f32, P, hok | fuel + 1, m, .f64, P, hok | fuel + 1, m, .string, P, hok | fuel + 1, m, .char, P, hok
  | fuel + 1, m, .array _, P, hok | fuel + 1, m, .capturedUse, P, hok | fuel + 1, m, .unit, P, hok | fuel + 1, m, .env, P, hok
  | fuel + 1, m, .syntax _, P, hok => by
    intro l m' h
    first
      | (simp [registerVisit, Layouts.getCt] at h; done)
      | (simp only [registerVisit, Layouts.getCt, Except.ok.injEq, Prod.mk.injEq] at h
         obtain ⟨rfl, rfl⟩ := h
         exact ⟨.prim (by simp) rfl, hok, fun _ _ h => h, by simp⟩)
termination_by fuel m t => (fuel, 0)

theorem visits_sound (hb : ∀ n, HMap.get base n ≠ some none) : ∀ (fuel : Nat) (m : Layouts) (ts : List Ct) (P : List Nat), Ok base defs m P →
    ∀ ls m', registerVisits defs fuel m ts = .ok (ls, m') →
      ts.length = ls.length ∧ (∀ p ∈ ts.zip ls, HasLayout base defs p.1 p.2) ∧ Ok base defs m' P ∧
      (∀ n l, HMap.get m n = some (some l) → HMap.get m' n = some (some l))
  | fuel, m, [], P, hok => by
    intro ls m' h
    simp only [registerVisits, Except.ok.injEq, Prod.mk.injEq] at h
    obtain ⟨rfl, rfl⟩ := h
    exact ⟨rfl, by simp, hok, fun _ _ h => h⟩
  | fuel, m, t :: ts, P, hok => by
    intro ls m' h
    rw [registerVisits] at h
    cases hv : registerVisit defs fuel m t with
    | error e => simp [hv] at h
    | ok r =>
      obtain ⟨l, m1⟩ := r
      simp only [hv] at h
      cases hvs : registerVisits defs fuel m1 ts with
      | error e => simp [hvs] at h
      | ok r2 =>
        obtain ⟨ls', m2⟩ := r2
        simp only [hvs, Except.ok.injEq, Prod.mk.injEq] at h
        obtain ⟨rfl, rfl⟩ := h
        obtain ⟨h1, h2, h3, -⟩ := visit_sound hb fuel m t P hok l m1 hv
        obtain ⟨g1, g2, g3, g4⟩ := visits_sound hb fuel m1 ts P h2 ls' m2 hvs
        refine ⟨by simp [g1], ?_, g3, fun n l h => g4 n l (h3 n l h)⟩
        simp only [List.zip_cons_cons, List.mem_cons, forall_eq_or_imp]
        exact ⟨h1, g2⟩
termination_by fuel m ts => (fuel, ts.length + 1)
end

mutual
theorem visit_fuel (hb : ∀ n, HMap.get base n ≠ some none) : ∀ (fuel : Nat) (m : Layouts) (t : Ct) (P : List Nat), Ok base defs m P →
    P.Nodup → P ⊆ HMap.keys defs → (HMap.keys defs).length < fuel + P.length → registerVisit defs fuel m t ≠ .error .fuel
  | 0, _, _, P, _, hnd, hsub, hlen => by
    have := nodup_length_le hnd hsub
    omega
  | fuel + 1, m, .id n, P, hok, hnd, hsub, hlen => by
    rw [registerVisit]
    cases hg : HMap.get m n with
    | some o => cases o <;> simp
    | none =>
      simp only
      have hnP : n ∉ P := fun hp => by rw [(hok.progress n).2 hp] at hg; cases hg
      cases hd : HMap.get defs n with
      | none => simp
      | some d =>
        have hk : n ∈ HMap.keys defs := (HMap.mem_keys_iff _ _).2 (by rw [hd]; simp)
        have hrec := fun ts => visits_fuel hb fuel _ ts (n :: P) (hok.enter hg) (List.nodup_cons.2 ⟨hnP, hnd⟩) (by
          intro x hx; exact (List.mem_cons.1 hx).elim (fun h => h ▸ hk) (fun h => hsub h)) (by simp; omega)
        cases d with
        | other => simp
        | struct ts =>
          simp only
          have := hrec ts
          cases hv : registerVisits defs fuel (HMap.insert m n none) ts with
          | error e => simp only; rw [hv] at this; simpa using this
          | ok r => simp
        | union ts =>
          simp only
          have := hrec ts
          cases hv : registerVisits defs fuel (HMap.insert m n none) ts with
          | error e => simp only; rw [hv] at this; simpa using this
          | ok r => simp
  | fuel + 1, m, .erased, P, hok, _, _, _ | fuel + 1, m, .ptr _, P, hok, _, _, _ | fuel + 1, m, .clos, P, hok, _, _, _ | fuel + 1, m, .s _, P, hok, _, _, _ | fuel + 1, m, .u _, P, hok, _, _, _
  | fuel + 1, m, .f32, P, hok, _, _, _ | fuel + 1, m, .f64, P, hok, _, _, _ | fuel + 1, m, .string, P, hok, _, _, _ | fuel + 1, m, .char, P, hok, _, _, _
  | fuel + 1, m, .array _, P, hok, _, _, _ | fuel + 1, m, .capturedUse, P, hok, _, _, _ | fuel + 1, m, .unit, P, hok, _, _, _ | fuel + 1, m, .env, P, hok, _, _, _
  | fuel + 1, m, .syntax _, P, hok, _, _, _ => by simp [registerVisit, Layouts.getCt]
termination_by fuel m t => (fuel, 0)

theorem visits_fuel (hb : ∀ n, HMap.get base n ≠ some none) : ∀ (fuel : Nat) (m : Layouts) (ts : List Ct) (P : List Nat), Ok base defs m P →
    P.Nodup → P ⊆ HMap.keys defs → (HMap.keys defs).length < fuel + P.length → registerVisits defs fuel m ts ≠ .error .fuel
  | fuel, m, [], P, hok, _, _, _ => by simp [registerVisits]
  | fuel, m, t :: ts, P, hok, hnd, hsub, hlen => by
    rw [registerVisits]
    have h1 := visit_fuel hb fuel m t P hok hnd hsub hlen
    cases hv : registerVisit defs fuel m t with
    | error e => simp only; rw [hv] at h1; simpa using h1
    | ok r =>
      obtain ⟨l, m1⟩ := r
      simp only
      have h2 := visits_fuel hb fuel m1 ts P (visit_sound hb fuel m t P hok l m1 hv).2.1 hnd hsub hlen
      cases hvs : registerVisits defs fuel m1 ts with
      | error e => simp only; rw [hvs] at h2; simpa using h2
      | ok r => simp
termination_by fuel m ts => (fuel, ts.length + 1)
end

/-- Visiting fields that can each be visited. -/
theorem visits_complete (hb : ∀ n, HMap.get base n ≠ some none) (fuel : Nat) (ts : List Ct) (P : List Nat)
    (h : ∀ t ∈ ts, ∀ m, Ok base defs m P → registerVisit defs fuel m t ≠ .error .panic) : ∀ m, Ok base defs m P →
    registerVisits defs fuel m ts ≠ .error .panic := by
  induction ts with
  | nil => intro m _; simp [registerVisits]
  | cons t ts ih =>
    intro m hok
    rw [registerVisits]
    have h1 := h t (by simp) m hok
    cases hv : registerVisit defs fuel m t with
    | error e => simp only; rw [hv] at h1; simpa using h1
    | ok r =>
      obtain ⟨l, m1⟩ := r
      simp only
      have h2 := ih (fun t ht => h t (by simp [ht])) m1 (visit_sound hb fuel m t P hok l m1 hv).2.1
      cases hvs : registerVisits defs fuel m1 ts with
      | error e => simp only; rw [hvs] at h2; simpa using h2
      | ok r => simp

theorem visit_complete (hb : ∀ n, HMap.get base n ≠ some none) {t : Ct} {l : Layout} (h : HasLayout base defs t l) : ∀ (fuel : Nat) (P : List Nat),
    (∀ p ∈ P, ∀ n, t = .id n → ContainsTrans base defs p n) → ∀ m, Ok base defs m P → registerVisit defs fuel m t ≠ .error .panic := by
  induction h with
  | @prim t l hn hg =>
    intro fuel P _ m _
    cases fuel with
    | zero => simp [registerVisit]
    | succ fuel =>
      cases t with
      | id n => exact absurd rfl (hn n)
      | erased => simp [Layouts.getCt] at hg
      | _ => simp [registerVisit, Layouts.getCt]
  | @known n l hk =>
    intro fuel P _ m hok
    cases fuel with
    | zero => simp [registerVisit]
    | succ fuel => rw [registerVisit, hok.keep n l hk]; simp
  | @struct n ts ls hbn hd hl hz ih =>
    intro fuel P hP m hok
    cases fuel with
    | zero => simp [registerVisit]
    | succ fuel =>
      rw [registerVisit]
      cases hg : HMap.get m n with
      | some o =>
        cases o with
        | some _ => simp
        | none =>
          have := hP n ((hok.progress n).1 hg) n rfl
          exact absurd this (not_cyclic_of_acc (HasLayout.acc (HasLayout.struct hbn hd hl hz) n rfl))
      | none =>
        simp only [hd]
        have := visits_complete hb fuel ts (n :: P) (by
          intro t ht
          obtain ⟨l, hl'⟩ := mem_zip_of_mem hl ht
          refine ih (t, l) hl' fuel (n :: P) ?_
          intro p hp k hk
          have hc : Contains base defs n k := ⟨hbn, ts, .inl hd, by simp only at hk; rw [← hk]; exact ht⟩
          rcases List.mem_cons.1 hp with rfl | hp
          · exact .one hc
          · exact (hP p hp n rfl).snoc hc) _ (hok.enter hg)
        cases hv : registerVisits defs fuel (HMap.insert m n none) ts with
        | error e => simp only; rw [hv] at this; simpa using this
        | ok r => simp
  | @union n ts ls hbn hd hl hz ih =>
    intro fuel P hP m hok
    cases fuel with
    | zero => simp [registerVisit]
    | succ fuel =>
      rw [registerVisit]
      cases hg : HMap.get m n with
      | some o =>
        cases o with
        | some _ => simp
        | none =>
          have := hP n ((hok.progress n).1 hg) n rfl
          exact absurd this (not_cyclic_of_acc (HasLayout.acc (HasLayout.union hbn hd hl hz) n rfl))
      | none =>
        simp only [hd]
        have := visits_complete hb fuel ts (n :: P) (by
          intro t ht
          obtain ⟨l, hl'⟩ := mem_zip_of_mem hl ht
          refine ih (t, l) hl' fuel (n :: P) ?_
          intro p hp k hk
          have hc : Contains base defs n k := ⟨hbn, ts, .inr hd, by simp only at hk; rw [← hk]; exact ht⟩
          rcases List.mem_cons.1 hp with rfl | hp
          · exact .one hc
          · exact (hP p hp n rfl).snoc hc) _ (hok.enter hg)
        cases hv : registerVisits defs fuel (HMap.insert m n none) ts with
        | error e => simp only; rw [hv] at this; simpa using this
        | ok r => simp

def IsData (defs : Defs) (n : Nat) : Prop := ∃ ts, HMap.get defs n = some (.struct ts) ∨ HMap.get defs n = some (.union ts)

theorem register_cons_data {fuel m n order} (h : IsData defs n) : register defs fuel m (n :: order) =
    match registerVisit defs fuel m (.id n) with
    | .error e => .error e
    | .ok (_, m) => register defs fuel m order := by
  obtain ⟨ts, h | h⟩ := h <;> rw [register] <;> simp only [h] <;> cases registerVisit defs fuel m (.id n) <;> rfl

theorem register_cons_other {fuel m n order} (h : ¬ IsData defs n) : register defs fuel m (n :: order) = register defs fuel m order := by
  rw [register]
  split
  · rename_i ts hd; exact absurd ⟨ts, .inl hd⟩ h
  · rename_i ts hd; exact absurd ⟨ts, .inr hd⟩ h
  · rfl

theorem register_sound (hb : ∀ n, HMap.get base n ≠ some none) (fuel : Nat) (order : List Nat) : ∀ m, Ok base defs m [] → ∀ m', register defs fuel m order = .ok m' →
    Ok base defs m' [] ∧ (∀ n l, HMap.get m n = some (some l) → HMap.get m' n = some (some l)) ∧
    (∀ n ∈ order, IsData defs n → ∃ l, HMap.get m' n = some (some l)) := by
  induction order with
  | nil => intro m hok m' h; cases h; exact ⟨hok, fun _ _ h => h, by simp⟩
  | cons n order ih =>
    intro m hok m' h
    by_cases hd : IsData defs n
    · rw [register_cons_data hd] at h
      cases hv : registerVisit defs fuel m (.id n) with
      | error e => simp [hv] at h
      | ok r =>
        obtain ⟨l, m1⟩ := r
        simp only [hv] at h
        obtain ⟨h1, h2, h3, h4⟩ := visit_sound hb fuel m _ [] hok l m1 hv
        obtain ⟨g1, g2, g3⟩ := ih m1 h2 m' h
        refine ⟨g1, fun k l hk => g2 k l (h3 k l hk), fun k hk hdk => ?_⟩
        rcases List.mem_cons.1 hk with rfl | hk
        · exact ⟨l, g2 _ _ (h4 _ rfl)⟩
        · exact g3 k hk hdk
    · rw [register_cons_other hd] at h
      obtain ⟨g1, g2, g3⟩ := ih m hok m' h
      refine ⟨g1, g2, fun k hk hdk => ?_⟩
      rcases List.mem_cons.1 hk with rfl | hk
      · exact absurd hdk hd
      · exact g3 k hk hdk

theorem register_complete (hb : ∀ n, HMap.get base n ≠ some none) (fuel : Nat) (hf : (HMap.keys defs).length < fuel) (order : List Nat) :
    ∀ m, Ok base defs m [] → (∀ n ∈ order, IsData defs n → ∃ l, HasLayout base defs (.id n) l) → ∃ m', register defs fuel m order = .ok m' := by
  induction order with
  | nil => intro m _ _; exact ⟨m, rfl⟩
  | cons n order ih =>
    intro m hok hall
    by_cases hd : IsData defs n
    · rw [register_cons_data hd]
      obtain ⟨l, hl⟩ := hall n (by simp) hd
      have h1 := visit_complete hb hl fuel [] (by simp) m hok
      have h2 := visit_fuel hb fuel m (.id n) [] hok List.nodup_nil (by simp) (by simpa using hf)
      cases hv : registerVisit defs fuel m (.id n) with
      | error e => rw [hv] at h1 h2; cases e <;> simp at h1 h2
      | ok r =>
        obtain ⟨l, m1⟩ := r
        exact ih m1 (visit_sound hb fuel m _ [] hok l m1 hv).2.1 fun k hk => hall k (by simp [hk])
    · rw [register_cons_other hd]
      exact ih m hok fun k hk => hall k (by simp [hk])

theorem register_no_fuel (hb : ∀ n, HMap.get base n ≠ some none) (fuel : Nat) (hf : (HMap.keys defs).length < fuel) (order : List Nat) :
    ∀ m, Ok base defs m [] → register defs fuel m order ≠ .error .fuel := by
  induction order with
  | nil => intro m _; simp [register]
  | cons n order ih =>
    intro m hok
    by_cases hd : IsData defs n
    · rw [register_cons_data hd]
      have h2 := visit_fuel hb fuel m (.id n) [] hok List.nodup_nil (by simp) (by simpa using hf)
      cases hv : registerVisit defs fuel m (.id n) with
      | error e => rw [hv] at h2; simpa using h2
      | ok r =>
        obtain ⟨l, m1⟩ := r
        exact ih m1 (visit_sound hb fuel m _ [] hok l m1 hv).2.1
    · rw [register_cons_other hd]
      exact ih m hok

theorem Ok.init (hb : ∀ n, HMap.get base n ≠ some none) : Ok base defs base [] :=
  ⟨fun n => by simp [hb n], fun _ _ h => .known h, fun _ _ h => h⟩

/-- Layouts that follow from regular ones are regular. -/
theorem HasLayout.regular {t : Ct} {l : Layout} (hb : ∀ n l, HMap.get base n = some (some l) → Regular l) (h : HasLayout base defs t l) : Regular l := by
  have aux : ∀ (ts : List Ct) (ls : List Layout), ts.length = ls.length → (∀ p ∈ ts.zip ls, Regular p.2) → ∀ l ∈ ls, Regular l := by
    intro ts
    induction ts with
    | nil => intro ls h _ l hl; rw [List.length_eq_zero_iff.1 h.symm] at hl; cases hl
    | cons t ts ih =>
      intro ls h hz l hl
      cases ls with
      | nil => cases hl
      | cons l' ls =>
        simp only [List.zip_cons_cons, List.mem_cons, forall_eq_or_imp, List.length_cons, Nat.add_right_cancel_iff] at *
        rcases hl with rfl | hl
        · exact hz.1
        · exact ih ls h hz.2 l hl
  induction h with
  | prim hn hg => exact regular_getCt (m := []) (fun n l h => by rw [HMap.get_nil] at h; cases h) hg
  | known hk => exact hb _ _ hk
  | struct _ _ hl _ ih => exact regular_product (aux _ _ hl ih)
  | union _ _ hl _ ih => exact regular_sum (aux _ _ hl ih)

end Verif.MemLayout
