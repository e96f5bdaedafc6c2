import Verif.Preprocess.Spec

namespace Verif.Preprocess
open Spec

/-- A state-passing computation that behaves like an environment-passing one and leaves the variables as they were. -/
def Agree {α} (m : M α) (p : Env → R α) : Prop :=
  ∀ vars : Vars, (m vars).1 = p vars.get ∧ ∀ n, (m vars).2.get n = vars.get n

theorem Agree.pure {α} (a : α) : Agree (M.pure a) (fun _ => Pure.pure a) := fun _ => ⟨rfl, fun _ => rfl⟩
theorem Agree.throw {α} (e : Err) : Agree (M.throw (α := α) e) (fun _ => MonadExcept.throw e) := fun _ => ⟨rfl, fun _ => rfl⟩

theorem Agree.bind {α β} {m : M α} {p : Env → R α} {k : α → M β} {q : α → Env → R β}
    (h : Agree m p) (hk : ∀ a, Agree (k a) (q a)) : Agree (m.bind k) (fun env => p env >>= fun a => q a env) := by
  intro vars
  obtain ⟨h1, h2⟩ := h vars
  unfold M.bind
  show _ = (p vars.get >>= fun a => q a vars.get) ∧ _
  cases hm : m vars with
  | mk r s' =>
    rw [hm] at h1 h2
    simp only at h1 h2
    cases r with
    | error e => rw [← h1]; exact ⟨rfl, h2⟩
    | ok a =>
      have he : s'.get = vars.get := funext h2
      obtain ⟨h3, h4⟩ := hk a s'
      rw [← h1]
      rw [he] at h3
      exact ⟨h3, fun n => by rw [h4, h2]⟩

theorem bindAll_spec (bs : List (String × Sexp)) (vars : Vars) :
    ((bindAll bs vars).2).get = binds vars.get bs ∧
    (bindAll bs vars).1.map Prod.fst = (bs.map Prod.fst).filter (· ≠ "_") := by
  induction bs generalizing vars with
  | nil => exact ⟨rfl, rfl⟩
  | cons b bs ih =>
    obtain ⟨name, e⟩ := b
    simp only [bindAll]
    by_cases h : name = "_"
    · simp only [h, ne_eq, not_true_eq_false, if_false]
      refine ⟨(ih vars).1.trans ?_, ?_⟩
      · simp [binds, bind1]
      · rw [(ih vars).2]; simp
    · simp only [ne_eq, h, not_false_eq_true, if_true]
      obtain ⟨h1, h2⟩ := ih (vars.insert name e)
      refine ⟨?_, ?_⟩
      · rw [h1]
        have : (vars.insert name e).get = bind1 vars.get name e := by
          funext n; rw [HMap.get_insert]; simp [bind1, h]
        rw [this]; rfl
      · simp [h2, h]

theorem binds_other (bs : List (String × Sexp)) (env : Env) (n : String)
    (h : n ∉ (bs.map Prod.fst).filter (· ≠ "_")) : binds env bs n = env n := by
  induction bs generalizing env with
  | nil => rfl
  | cons b bs ih =>
    obtain ⟨name, e⟩ := b
    have : binds env ((name, e) :: bs) = binds (bind1 env name e) bs := rfl
    rw [this, ih]
    · unfold bind1
      split
      · rfl
      · next hne =>
        have : n ≠ name := by rintro rfl; exact h (by simp [hne])
        simp [this]
    · intro hm; apply h
      simp only [List.map_cons, List.filter_cons]; split
      · exact List.mem_cons_of_mem _ hm
      · exact hm

theorem bindAll_prev (bs : List (String × Sexp)) (vars : Vars)
    (hn : ((bs.map Prod.fst).filter (· ≠ "_")).Nodup) :
    ∀ e ∈ (bindAll bs vars).1, e.2 = vars.get e.1 := by
  induction bs generalizing vars with
  | nil => simp [bindAll]
  | cons b bs ih =>
    obtain ⟨name, x⟩ := b
    simp only [bindAll]
    by_cases h : name = "_"
    · simp only [h, ne_eq, not_true_eq_false, if_false]
      apply ih
      simpa [h] using hn
    · simp only [ne_eq, h, not_false_eq_true, if_true]
      have hn' : ¬ name ∈ (bs.map Prod.fst).filter (· ≠ "_") ∧ ((bs.map Prod.fst).filter (· ≠ "_")).Nodup := by
        have : (((name, x) :: bs).map Prod.fst).filter (· ≠ "_") = name :: (bs.map Prod.fst).filter (· ≠ "_") := by
          simp [h]
        rw [this] at hn
        exact List.nodup_cons.1 hn
      intro e he
      rcases List.mem_cons.1 he with rfl | he
      · rfl
      · rw [ih _ hn'.2 e he, HMap.get_insert]
        have hne : e.1 ≠ name := by
          intro heq
          apply hn'.1
          rw [← (bindAll_spec bs (vars.insert name x)).2]
          exact List.mem_map.2 ⟨e, he, heq⟩
        simp [hne]

theorem restoreAll_get (prev : List (String × Option Sexp)) (old : Env) (vars : Vars)
    (h : ∀ e ∈ prev, e.2 = old e.1) (n : String) :
    (restoreAll prev vars).get n = if n ∈ prev.map Prod.fst then old n else vars.get n := by
  induction prev generalizing vars with
  | nil => simp [restoreAll]
  | cons e prev ih =>
    obtain ⟨name, o⟩ := e
    have h1 := h (name, o) (by simp)
    simp only at h1
    have ih' := fun vars => ih vars (fun e he => h e (by simp [he]))
    cases o with
    | some p =>
      simp only [restoreAll, ih', HMap.get_insert, List.map_cons, List.mem_cons]
      by_cases hn : n = name
      · subst hn; simp [← h1]
      · rw [if_neg hn]
        split
        · next hh => simp [hh]
        · next hh => simp [hh]; exact fun e => absurd e hn
    | none =>
      simp only [restoreAll, ih', HMap.get_remove, List.map_cons, List.mem_cons]
      by_cases hn : n = name
      · subst hn; simp [← h1]
      · rw [if_neg hn]
        split
        · next hh => simp [hh]
        · next hh => simp [hh]; exact fun e => absurd e hn

theorem Agree.withBinds {α} {bs : List (String × Sexp)} {m : M α} {p : Env → R α}
    (hn : ((bs.map Prod.fst).filter (· ≠ "_")).Nodup) (h : Agree m p) :
    Agree (withBinds bs m) (fun env => p (binds env bs)) := by
  intro vars
  obtain ⟨h1, h2⟩ := bindAll_spec bs vars
  have h3 := bindAll_prev bs vars hn
  unfold Preprocess.withBinds
  cases hb : bindAll bs vars with
  | mk prev vars1 =>
    rw [hb] at h1 h2 h3
    simp only at h1 h2 h3
    obtain ⟨h4, h5⟩ := h vars1
    simp only
    refine ⟨by rw [h4, h1], ?_⟩
    intro n
    rw [restoreAll_get prev vars.get _ h3]
    split
    · rfl
    · next hnm => rw [h5, h1, binds_other _ _ _ (by rwa [← h2])]

theorem Agree.one {m : M (List Sexp)} {p : Env → R (List Sexp)} (place : String) (h : Agree m p) :
    Agree (one place m) (fun env => Spec.one place (p env)) := by
  unfold Preprocess.one Spec.one
  refine Agree.bind h ?_
  intro ss
  match ss with
  | [] => exact Agree.throw _
  | [s] => exact Agree.pure _
  | _ :: _ :: _ => exact Agree.throw _

theorem Agree.forLoop {body : M (List Sexp)} {p : Env → R (List Sexp)} (h : Agree body p)
    (rows : List (List (String × Sexp))) (hr : ∀ r ∈ rows, ((r.map Prod.fst).filter (· ≠ "_")).Nodup) :
    Agree (forLoop body rows) (fun env => each p (rows.map (binds env))) := by
  induction rows with
  | nil => exact Agree.pure _
  | cons r rows ih =>
    simp only [Preprocess.forLoop, List.map_cons, each]
    refine Agree.bind (Agree.withBinds (hr r (by simp)) h) ?_
    intro ss
    refine Agree.bind (ih fun r h => hr r (by simp [h])) ?_
    intro more
    exact Agree.pure _

theorem forNames_symbols {l : List Sexp} {names} (h : forNames l = some names) : symbols l = names := by
  induction l generalizing names with
  | nil => simp [forNames] at h; simp [symbols, h]
  | cons s l ih =>
    unfold forNames at h
    split at h
    · simp_all
    · next heq =>
      cases heq
      split at h
      · simp at h
        obtain ⟨a, ha, rfl⟩ := h
        simp [symbols, ih ha]
      · simp at h
    · simp at h

theorem forRows_length {n : Nat} {l : List Sexp} {rows} (h : forRows n l = some rows) : ∀ r ∈ rows, r.length = n := by
  induction l generalizing rows with
  | nil => simp [forRows] at h; simp [h]
  | cons s l ih =>
    unfold forRows at h
    split at h
    · simp_all
    · next heq =>
      cases heq
      split at h
      · next hl =>
        simp at h
        obtain ⟨a, ha, rfl⟩ := h
        intro r hr
        rcases List.mem_cons.1 hr with rfl | hr
        · exact hl
        · exact ih ha r hr
      · simp at h
    · simp at h

end Verif.Preprocess
