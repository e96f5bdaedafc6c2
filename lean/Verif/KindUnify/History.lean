import Verif.KindUnify.Export

/-! # Histories of kind unification -/
namespace Verif.KindUnify
open Verif Verif.Unify Verif.Unify.Cell

def conTerm : Kind → Term
  | .constraint => .constraint
  | .satisfaction => .satisfaction
  | .value => .value
  | .mac => .mac
  | _ => .type

/-- What an operation means for the terms and equations. -/
def Abs.next (a : Abs) : Op → Abs
  | .newVar => { a with m := a.m + 1, terms := a.terms ++ [.unknown a.m] }
  | .con k => { a with terms := a.terms ++ [conTerm k] }
  | .newFun args ret => { a with terms := a.terms ++ [.func (args.map (fun i => a.terms.getD i .type)) (a.terms.getD ret .type)] }
  | .importKind k => { a with terms := a.terms ++ [k.toTerm] }
  | .unify i j => { a with eqs := a.eqs ++ [(a.terms.getD i .type, a.terms.getD j .type)] }
  | .export _ => a

/-- The operations a caller can perform: on kinds returned before. -/
def Abs.Valid (a : Abs) : Op → Prop
  | .newVar => True
  | .con k => constant k = true
  | .newFun args ret => (∀ i ∈ args, i < a.terms.length) ∧ ret < a.terms.length
  | .importKind k => k.noError = true
  | .unify i j => i < a.terms.length ∧ j < a.terms.length
  | .export i => i < a.terms.length

/-- What an operation should return. -/
def Abs.Answer (a : Abs) : Op → Out → Prop
  | .unify i j, o => ∃ r, o = .unified r ∧ (r = .ok () ↔ ∃ τ, Solves τ (a.next (.unify i j)).eqs)
  | .export i, o => ∃ τ₀, MostGeneral a τ₀ ∧ o = .exported ((a.terms.getD i .type).eval τ₀)
  | _, o => o = .kind

def Out.failed : Out → Bool
  | .unified (.error _) => true
  | _ => false

/-- Answers to a list of operations up to the first failing unification (callers stop there). -/
def Answers : Abs → List Op → List Out → Prop
  | _, [], os => os = []
  | a, op :: ops, os => ∃ o os', os = o :: os' ∧ a.Answer op o ∧ (o.failed = false → Answers (a.next op) ops os')

def ValidAll : Abs → List Op → Prop
  | _, [] => True
  | a, op :: ops => a.Valid op ∧ ValidAll (a.next op) ops

def Abs.init : Abs := ⟨0, [], []⟩

/-- A history on a context. -/
def run (n : Nat) : List Op → State → Option (List Out × State)
  | [], s => some ([], s)
  | op :: ops, s =>
    match step n s op with
    | none => none
    | some (o, s) =>
      match run n ops s with
      | none => none
      | some (os, s) => some (o :: os, s)

def State.init : State := ⟨new, []⟩

/-- What is always true of a context. -/
structure Safe (s : State) : Prop where
  inv : Inv s.pool
  good : ∀ k ∈ s.handles, Good s.pool k
  proper : ∀ k ∈ s.handles, k.Proper

/-- The context represents terms and equations. -/
structure Rep (a : Abs) (xs : Nat → Nat) (s : State) : Prop where
  safe : Safe s
  len : s.handles.length = a.terms.length
  known : ∀ n, n < a.m → xs n < s.pool.length
  term : ∀ (i : Nat) (k : Kind), s.handles[i]? = some k → ∀ σ : Assign, Sol s.pool σ → ∀ τ, (∀ n, n < a.m → σ (xs n) = τ n) →
    k.sem σ = (a.terms.getD i .type).eval τ
  eqs : ∀ τ, Solves τ a.eqs ↔ ∃ σ : Assign, Sol s.pool σ ∧ ∀ n, n < a.m → σ (xs n) = τ n

theorem Safe.good_at {s : State} (h : Safe s) {i : Nat} {k : Kind} (hk : s.handles[i]? = some k) : Good s.pool k ∧ k.Proper :=
  ⟨h.good k (List.mem_of_getElem? hk), h.proper k (List.mem_of_getElem? hk)⟩

theorem safe_grown {s : State} (h : Safe s) {p' : Pool} (hg : Grown s.pool p') {k : Kind} (hk : Good p' k) (hp : k.Proper) :
    Safe ⟨p', s.handles ++ [k]⟩ where
  inv := hg.inv
  good := fun c hc => by
    rcases List.mem_append.1 hc with hc | hc
    · exact hg.good (h.good c hc)
    · simp at hc; subst hc; exact hk
  proper := fun c hc => by
    rcases List.mem_append.1 hc with hc | hc
    · exact h.proper c hc
    · simp at hc; subst hc; exact hp

theorem safe_unified {s : State} (h : Safe s) {p' : Pool} {E : Assign → Prop} {res : Except Error Unit} (hu : Unified s.pool E res p') : Safe ⟨p', s.handles⟩ where
  inv := hu.inv h.inv
  good := fun c hc => hu.good (h.good c hc)
  proper := h.proper

/-- Adding a kind for a term whose unknowns are known. -/
theorem rep_grown {a : Abs} {xs : Nat → Nat} {s : State} (h : Rep a xs s) {p' : Pool} (hg : Grown s.pool p') {k : Kind} (hk : Good p' k) (hp : k.Proper)
    {t : Term} (ht : ∀ σ : Assign, Sol p' σ → ∀ τ, (∀ n, n < a.m → σ (xs n) = τ n) → k.sem σ = t.eval τ) :
    Rep { a with terms := a.terms ++ [t] } xs ⟨p', s.handles ++ [k]⟩ where
  safe := safe_grown h.safe hg hk hp
  len := by simp [h.len]
  known := fun n hn => by have := h.known n hn; have := hg.le; show xs n < p'.length; omega
  term := fun i c hc σ hs τ hτ => by
    have hc : (s.handles ++ [k])[i]? = some c := hc
    have hl := h.len
    by_cases hi : i < s.handles.length
    · rw [List.getElem?_append_left hi] at hc
      have := h.term i c hc σ (hg.sol hs) τ hτ
      rw [this]
      simp [List.getD, List.getElem?_append_left (show i < a.terms.length by omega)]
    · have hi' : i = s.handles.length := by have := lt_of_get hc; simp at this; omega
      subst hi'
      simp at hc; subst hc
      rw [ht σ hs τ hτ, hl]
      simp [List.getD]
  eqs := fun τ => by
    refine (h.eqs τ).trans ⟨fun ⟨σ, hs, hx⟩ => ?_, fun ⟨σ, hs, hx⟩ => ⟨σ, hg.sol hs, hx⟩⟩
    obtain ⟨σ', h1, h2⟩ := hg.extend σ hs
    exact ⟨σ', h1, fun n hn => by rw [h2 _ (h.known n hn)]; exact hx n hn⟩

theorem handle_at {a : Abs} {xs : Nat → Nat} {s : State} (h : Rep a xs s) {i : Nat} (hi : i < a.terms.length) : ∃ k, s.handles[i]? = some k :=
  ⟨s.handles[i]'(by rw [h.len]; exact hi), List.getElem?_eq_getElem _⟩

theorem mapM_handles {hs : List Kind} : ∀ (args : List Nat), (∀ i ∈ args, i < hs.length) → ∃ ks, args.mapM (fun i => hs[i]?) = some ks ∧
    ks.length = args.length ∧ ∀ (j : Nat) (k : Kind), ks[j]? = some k → ∃ i, args[j]? = some i ∧ hs[i]? = some k
  | [], _ => ⟨[], rfl, rfl, by simp⟩
  | i :: args, h => by
    obtain ⟨ks, h1, h2, h3⟩ := mapM_handles args (fun j hj => h j (by simp [hj]))
    have hi := h i (by simp)
    refine ⟨hs[i] :: ks, by simp [h1, List.getElem?_eq_getElem hi], by simp [h2], fun j k hk => ?_⟩
    cases j with
    | zero => simp at hk; subst hk; exact ⟨i, rfl, List.getElem?_eq_getElem hi⟩
    | succ j => exact h3 j k (by simpa using hk)

theorem evals_map (τ : Nat → AKind) : ∀ ts : List Term, Term.evals τ ts = ts.map (Term.eval τ)
  | [] => rfl
  | t :: ts => by simp [Term.evals, evals_map τ ts]

theorem eval_func (τ : Nat → AKind) (ts : List Term) (t : Term) : (Term.func ts t).eval τ = AKind.fun_ (ts.map (Term.eval τ)) (t.eval τ) := by
  cases ts <;> simp [Term.eval, AKind.fun_, evals_map]

mutual
theorem norm_toTerm (τ : Nat → AKind) : ∀ k : AKind, k.noError = true → k.norm = k.toTerm.eval τ
  | .func args ret, h => by
    simp only [AKind.noError, Bool.and_eq_true] at h
    rw [AKind.norm, AKind.toTerm, eval_func, ← norm_toTerm τ ret h.2, ← norms_toTerms τ args h.1]
  | .type, _ => by simp [AKind.norm, AKind.toTerm, Term.eval]
  | .constraint, _ => by simp [AKind.norm, AKind.toTerm, Term.eval]
  | .satisfaction, _ => by simp [AKind.norm, AKind.toTerm, Term.eval]
  | .value, _ => by simp [AKind.norm, AKind.toTerm, Term.eval]
  | .mac, _ => by simp [AKind.norm, AKind.toTerm, Term.eval]
  | .error _, h => by simp [AKind.noError] at h
theorem norms_toTerms (τ : Nat → AKind) : ∀ ks : List AKind, AKind.noErrors ks = true → AKind.norms ks = (AKind.toTerms ks).map (Term.eval τ)
  | [], _ => by simp [AKind.norms, AKind.toTerms]
  | k :: ks, h => by
    simp only [AKind.noErrors, Bool.and_eq_true] at h
    rw [AKind.norms, AKind.toTerms, List.map_cons, norm_toTerm τ k h.1, norms_toTerms τ ks h.2]
end

/-- The assignment of the unknowns of a term under a solution of the pool. -/
theorem Rep.solves {a : Abs} {xs : Nat → Nat} {s : State} (h : Rep a xs s) {σ : Assign} (hs : Sol s.pool σ) : Solves (fun n => σ (xs n)) a.eqs :=
  (h.eqs _).2 ⟨σ, hs, fun _ _ => rfl⟩

/-- The most general solution of the pool is a most general solution of the equations. -/
theorem Rep.mostGeneral {a : Abs} {xs : Nat → Nat} {s : State} (h : Rep a xs s) {σ : Assign} (hs : Principal s.pool σ) :
    MostGeneral a (fun n => σ (xs n)) := by
  refine ⟨h.solves hs.1, fun τ hτ => ?_⟩
  obtain ⟨σ', h1, h2⟩ := (h.eqs τ).1 hτ
  obtain ⟨r, hw⟩ := h.safe.inv.wf
  refine ⟨σ', fun t ht => ?_⟩
  obtain ⟨i, hi⟩ := List.getElem?_of_mem ht
  have hil : i < a.terms.length := (List.getElem?_eq_some_iff.1 hi).1
  obtain ⟨k, hk⟩ := handle_at h hil
  have e : a.terms.getD i .type = t := by simp [List.getD, hi]
  have e1 := h.term i k hk σ' h1 τ h2
  have e2 := h.term i k hk σ hs.1 (fun n => σ (xs n)) (fun _ _ => rfl)
  rw [e] at e1 e2
  rw [← e1, ← e2]
  exact hs.instance hw h1 (h.safe.good_at hk).1

/-- One operation. -/
theorem step_spec {a : Abs} {xs : Nat → Nat} {s : State} (h : Rep a xs s) {op : Op} (hv : a.Valid op) :
    ∃ o s' n0, (∀ n, n0 ≤ n → step n s op = some (o, s')) ∧ a.Answer op o ∧ Safe s' ∧ s'.handles.length = (a.next op).terms.length ∧
      (o.failed = false → ∃ xs', Rep (a.next op) xs' s') := by
  cases op with
  | newVar =>
    obtain ⟨h1, h2, h3⟩ := newVar_spec h.safe.inv
    have hgk : Good (newVar s.pool).2 (newVar s.pool).1 := fun j hj => by
      rw [h2] at hj; simp [refs, asVar] at hj; subst hj; rw [h3]; simp
    refine ⟨.kind, _, 0, fun _ _ => rfl, rfl, safe_grown h.safe h1 hgk trivial, by simp [Abs.next, h.len], fun _ => ?_⟩
    refine ⟨fun n => if n = a.m then s.pool.length else xs n, ?_⟩
    have hxs : ∀ n, n < a.m → (if n = a.m then s.pool.length else xs n) = xs n := fun n hn => by simp [show n ≠ a.m by omega]
    refine ⟨safe_grown h.safe h1 hgk trivial, by simp [Abs.next, h.len], fun n hn => ?_, fun i k hk σ hs τ hτ => ?_, fun τ => ?_⟩
    · have hl := h1.le
      show (if n = a.m then s.pool.length else xs n) < (newVar s.pool).2.length
      split
      · rw [h3]; simp
      · have hnm : n < a.m + 1 := hn
        have := h.known n (by omega); omega
    · have hk : (s.handles ++ [(newVar s.pool).1])[i]? = some k := hk
      have hτ : ∀ n, n < a.m + 1 → σ (if n = a.m then s.pool.length else xs n) = τ n := hτ
      have hl := h.len
      by_cases hi : i < s.handles.length
      · rw [List.getElem?_append_left hi] at hk
        rw [h.term i k hk σ (h1.sol hs) τ (fun n hn => by have := hτ n (by omega); rwa [hxs n hn] at this)]
        simp [Abs.next, List.getD, List.getElem?_append_left (show i < a.terms.length by omega)]
      · have hi' : i = s.handles.length := by have := lt_of_get hk; simp at this; omega
        subst hi'
        simp at hk; subst hk
        have := hτ a.m (by omega)
        simp at this
        rw [h2, hl]
        simp [Abs.next, List.getD, Term.eval, Kind.sem, this]
    · refine (h.eqs τ).trans ⟨fun ⟨σ, hs, hx⟩ => ?_, fun ⟨σ, hs, hx⟩ => ⟨σ, h1.sol hs, fun n hn => ?_⟩⟩
      · obtain ⟨r, hw⟩ := h.safe.inv.wf
        obtain ⟨σ', e1, e2, e3⟩ := append_root_extend hw (k := Kind.var s.pool.length) rfl (τ a.m) hs
        refine ⟨σ', by show Sol (newVar s.pool).2 σ'; rw [h3]; exact e1, fun n hn => ?_⟩
        have hn : n < a.m + 1 := hn
        show σ' (if n = a.m then s.pool.length else xs n) = τ n
        split
        · next e => rw [e]; exact e3
        · rw [e2 _ (h.known n (by omega))]; exact hx n (by omega)
      · have := hx n (show n < a.m + 1 by omega)
        rwa [hxs n hn] at this
  | con k =>
    have hv : constant k = true := hv
    have hc : k.Const := by cases k <;> simp_all [constant, Kind.Const, asVar, children]
    have hp : k.Proper := by cases k <;> simp_all [constant, Kind.Proper]
    have hgk : Good s.pool k := fun j hj => by rw [refs_node hc.1, hc.2] at hj; simp at hj
    have hr := rep_grown h (.rfl h.safe.inv) hgk hp (t := conTerm k)
      (fun σ _ τ _ => by cases k <;> first | rfl | cases hv)
    exact ⟨.kind, _, 0, fun _ _ => by simp only [step, hv, if_true], rfl, hr.safe, hr.len, fun _ => ⟨xs, hr⟩⟩
  | newFun args ret =>
    obtain ⟨hv1, hv2⟩ : (∀ i ∈ args, i < a.terms.length) ∧ ret < a.terms.length := hv
    obtain ⟨ks, e1, e2, e3⟩ := mapM_handles (hs := s.handles) args (by rw [h.len]; exact hv1)
    obtain ⟨kr, hkr⟩ := handle_at h hv2
    have hks : ∀ k ∈ ks, Good s.pool k ∧ k.Proper := fun k hk => by
      obtain ⟨j, hj⟩ := List.getElem?_of_mem hk
      obtain ⟨i, -, hi⟩ := e3 j k hj
      exact h.safe.good_at hi
    obtain ⟨g1, g2, g3, g4⟩ := newFun_spec h.safe.inv (fun k hk => (hks k hk).1) (fun k hk => (hks k hk).2) (h.safe.good_at hkr).1 (h.safe.good_at hkr).2
    have hr := rep_grown h g1 g2 g3 (t := .func (args.map (fun i => a.terms.getD i .type)) (a.terms.getD ret .type)) (fun σ hs τ hτ => by
      rw [g4 σ hs, eval_func, h.term ret kr hkr σ (g1.sol hs) τ hτ]
      congr 1
      apply List.ext_getElem?
      intro j
      simp only [List.getElem?_map]
      cases hk : ks[j]? with
      | none =>
        have : args[j]? = none := by rw [List.getElem?_eq_none_iff] at hk ⊢; omega
        simp [this]
      | some k =>
        obtain ⟨i, hi1, hi2⟩ := e3 j k hk
        simp [hi1, h.term i k hi2 σ (g1.sol hs) τ hτ])
    refine ⟨.kind, _, 0, fun _ _ => ?_, rfl, hr.safe, hr.len, fun _ => ⟨xs, hr⟩⟩
    simp [step, e1, hkr]
  | importKind k =>
    have hv : k.noError = true := hv
    obtain ⟨k', p', g0, g1, g2, g3, g4⟩ := importKind_spec k hv s.pool h.safe.inv
    have hr := rep_grown h g1 g2 g3 (t := k.toTerm) (fun σ hs τ _ => by rw [g4 σ hs]; exact norm_toTerm τ k hv)
    refine ⟨.kind, _, 0, fun _ _ => ?_, rfl, hr.safe, hr.len, fun _ => ⟨xs, hr⟩⟩
    simp [step, g0]
  | unify i j =>
    obtain ⟨hi, hj⟩ : i < a.terms.length ∧ j < a.terms.length := hv
    obtain ⟨ki, hki⟩ := handle_at h hi
    obtain ⟨kj, hkj⟩ := handle_at h hj
    obtain ⟨r, hw⟩ := h.safe.inv.wf
    obtain ⟨R, hR⟩ := exists_low r ki
    obtain ⟨res, p', n0, e1, e2⟩ := unify_spec (numRoots s.pool) R r s.pool ki kj hw (Nat.le_refl _) hR (h.safe.good_at hki).1 (h.safe.good_at hkj).1
      (h.safe.good_at hki).2 (h.safe.good_at hkj).2
    have hnext : ∀ τ, Solves τ (a.next (.unify i j)).eqs ↔ ∃ σ : Assign, (Sol s.pool σ ∧ ki.sem σ = kj.sem σ) ∧ ∀ n, n < a.m → σ (xs n) = τ n := by
      intro τ
      have : Solves τ (a.next (.unify i j)).eqs ↔ Solves τ a.eqs ∧ (a.terms.getD i .type).eval τ = (a.terms.getD j .type).eval τ := by
        constructor
        · intro hh; exact ⟨fun e he => hh e (by simp [Abs.next, he]), hh _ (List.mem_append_right _ (List.mem_singleton.2 rfl))⟩
        · rintro ⟨h1, h2⟩ e he
          simp only [Abs.next, List.mem_append, List.mem_singleton] at he
          rcases he with he | rfl
          · exact h1 e he
          · exact h2
      rw [this, h.eqs τ]
      constructor
      · rintro ⟨⟨σ, hs, hx⟩, he⟩
        exact ⟨σ, ⟨hs, by rw [h.term i ki hki σ hs τ hx, h.term j kj hkj σ hs τ hx, he]⟩, hx⟩
      · rintro ⟨σ, ⟨hs, he⟩, hx⟩
        exact ⟨⟨σ, hs, hx⟩, by rw [← h.term i ki hki σ hs τ hx, ← h.term j kj hkj σ hs τ hx, he]⟩
    refine ⟨.unified res, ⟨p', s.handles⟩, n0, fun n hn => by simp [step, hki, hkj, e1 n hn], ⟨res, rfl, ?_⟩, safe_unified h.safe e2, h.len, fun hf => ⟨xs, ?_⟩⟩
    · constructor
      · intro hr
        obtain ⟨σ, hσ⟩ := exists_principal e2.wf
        exact ⟨fun n => σ (xs n), (hnext _).2 ⟨σ, (e2.ok hr σ).1 hσ.1, fun _ _ => rfl⟩⟩
      · rintro ⟨τ, hτ⟩
        obtain ⟨σ, ⟨hs, he⟩, -⟩ := (hnext τ).1 hτ
        cases res with
        | ok u => rfl
        | error e => exact absurd he (e2.err e rfl σ hs)
    · have hr : res = .ok () := by
        cases res with
        | ok u => rfl
        | error e => simp [Out.failed] at hf
      refine ⟨safe_unified h.safe e2, h.len, fun n hn => by show xs n < p'.length; rw [e2.len]; exact h.known n hn, fun l k hk σ hs τ hτ => ?_, fun τ => ?_⟩
      · exact h.term l k hk σ (e2.sub σ hs) τ hτ
      · rw [hnext τ]
        exact ⟨fun ⟨σ, hs, hx⟩ => ⟨σ, (e2.ok hr σ).2 hs, hx⟩, fun ⟨σ, hs, hx⟩ => ⟨σ, (e2.ok hr σ).1 hs, hx⟩⟩
  | «export» i =>
    have hi : i < a.terms.length := hv
    obtain ⟨ki, hki⟩ := handle_at h hi
    obtain ⟨r, hw⟩ := h.safe.inv.wf
    obtain ⟨R, hR⟩ := exists_low r ki
    obtain ⟨σ, hσ⟩ := exists_principal h.safe.inv.wf
    obtain ⟨p', e1, e2⟩ := exportKind_spec R ki s.pool hR hw (h.safe.good_at hki).1 (h.safe.good_at hki).2 h.safe.inv.proper hσ
    have hu : Unified s.pool (fun _ => True) (.ok ()) p' := Unified.of_compress hw e2 (fun _ _ _ => trivial) (fun e he => by cases he)
    refine ⟨.exported (ki.sem σ), ⟨p', s.handles⟩, R + 1, fun n hn => by simp [step, hki, e1 n (by omega)], ⟨_, h.mostGeneral hσ, ?_⟩, safe_unified h.safe hu, h.len, fun _ => ⟨xs, ?_⟩⟩
    · rw [h.term i ki hki σ hσ.1 _ (fun _ _ => rfl)]
    · refine ⟨safe_unified h.safe hu, h.len, fun n hn => by show xs n < p'.length; rw [hu.len]; exact h.known n hn, fun l k hk σ hs τ hτ => ?_, fun τ => ?_⟩
      · exact h.term l k hk σ (hu.sub σ hs) τ hτ
      · rw [show (a.next (.export i)).eqs = a.eqs from rfl, h.eqs τ]
        exact ⟨fun ⟨σ, hs, hx⟩ => ⟨σ, (e2.sol hw σ).2 hs, hx⟩, fun ⟨σ, hs, hx⟩ => ⟨σ, (e2.sol hw σ).1 hs, hx⟩⟩

/-- One operation on any context, whatever failed before, returns. -/
theorem step_safe {a : Abs} {s : State} (h : Safe s) (hl : s.handles.length = a.terms.length) {op : Op} (hv : a.Valid op) :
    ∃ o s' n0, (∀ n, n0 ≤ n → step n s op = some (o, s')) ∧ Safe s' ∧ s'.handles.length = (a.next op).terms.length := by
  have hat : ∀ i, i < a.terms.length → ∃ k, s.handles[i]? = some k := fun i hi =>
    ⟨s.handles[i]'(by rw [hl]; exact hi), List.getElem?_eq_getElem _⟩
  cases op with
  | newVar =>
    obtain ⟨h1, h2, h3⟩ := newVar_spec h.inv
    have hgk : Good (newVar s.pool).2 (newVar s.pool).1 := fun j hj => by
      rw [h2] at hj; simp [refs, asVar] at hj; subst hj; rw [h3]; simp
    exact ⟨.kind, _, 0, fun _ _ => rfl, safe_grown h h1 hgk trivial, by simp [Abs.next, hl]⟩
  | con k =>
    have hv : constant k = true := hv
    have hc : k.Const := by cases k <;> simp_all [constant, Kind.Const, asVar, children]
    have hp : k.Proper := by cases k <;> simp_all [constant, Kind.Proper]
    have hgk : Good s.pool k := fun j hj => by rw [refs_node hc.1, hc.2] at hj; simp at hj
    exact ⟨.kind, _, 0, fun _ _ => by simp only [step, hv, if_true], safe_grown h (.rfl h.inv) hgk hp, by simp [Abs.next, hl]⟩
  | newFun args ret =>
    obtain ⟨hv1, hv2⟩ : (∀ i ∈ args, i < a.terms.length) ∧ ret < a.terms.length := hv
    obtain ⟨ks, e1, e2, e3⟩ := mapM_handles (hs := s.handles) args (by rw [hl]; exact hv1)
    obtain ⟨kr, hkr⟩ := hat ret hv2
    have hks : ∀ k ∈ ks, Good s.pool k ∧ k.Proper := fun k hk => by
      obtain ⟨j, hj⟩ := List.getElem?_of_mem hk
      obtain ⟨i, -, hi⟩ := e3 j k hj
      exact h.good_at hi
    obtain ⟨g1, g2, g3, g4⟩ := newFun_spec h.inv (fun k hk => (hks k hk).1) (fun k hk => (hks k hk).2) (h.good_at hkr).1 (h.good_at hkr).2
    exact ⟨.kind, _, 0, fun _ _ => by simp [step, e1, hkr], safe_grown h g1 g2 g3, by simp [Abs.next, hl]⟩
  | importKind k =>
    have hv : k.noError = true := hv
    obtain ⟨k', p', g0, g1, g2, g3, g4⟩ := importKind_spec k hv s.pool h.inv
    exact ⟨.kind, _, 0, fun _ _ => by simp [step, g0], safe_grown h g1 g2 g3, by simp [Abs.next, hl]⟩
  | unify i j =>
    obtain ⟨hi, hj⟩ : i < a.terms.length ∧ j < a.terms.length := hv
    obtain ⟨ki, hki⟩ := hat i hi
    obtain ⟨kj, hkj⟩ := hat j hj
    obtain ⟨r, hw⟩ := h.inv.wf
    obtain ⟨R, hR⟩ := exists_low r ki
    obtain ⟨res, p', n0, e1, e2⟩ := unify_spec (numRoots s.pool) R r s.pool ki kj hw (Nat.le_refl _) hR (h.good_at hki).1 (h.good_at hkj).1
      (h.good_at hki).2 (h.good_at hkj).2
    exact ⟨.unified res, ⟨p', s.handles⟩, n0, fun n hn => by simp [step, hki, hkj, e1 n hn], safe_unified h e2, hl⟩
  | «export» i =>
    have hi : i < a.terms.length := hv
    obtain ⟨ki, hki⟩ := hat i hi
    obtain ⟨r, hw⟩ := h.inv.wf
    obtain ⟨R, hR⟩ := exists_low r ki
    obtain ⟨σ, hσ⟩ := exists_principal h.inv.wf
    obtain ⟨p', e1, e2⟩ := exportKind_spec R ki s.pool hR hw (h.good_at hki).1 (h.good_at hki).2 h.inv.proper hσ
    have hu : Unified s.pool (fun _ => True) (.ok ()) p' := Unified.of_compress hw e2 (fun _ _ _ => trivial) (fun e he => by cases he)
    exact ⟨.exported (ki.sem σ), ⟨p', s.handles⟩, R + 1, fun n hn => by simp [step, hki, e1 n (by omega)], safe_unified h hu, hl⟩

theorem run_safe : ∀ (ops : List Op) (a : Abs) (s : State), Safe s → s.handles.length = a.terms.length → ValidAll a ops →
    ∃ os s' n0, (∀ n, n0 ≤ n → run n ops s = some (os, s')) ∧ Safe s' := by
  intro ops
  induction ops with
  | nil => intro a s h _ _; exact ⟨[], s, 0, fun _ _ => rfl, h⟩
  | cons op ops ih =>
    intro a s h hl hv
    obtain ⟨o, s1, n1, e1, e2, e3⟩ := step_safe h hl hv.1
    obtain ⟨os, s2, n2, e4, e5⟩ := ih (a.next op) s1 e2 e3 hv.2
    exact ⟨o :: os, s2, max n1 n2, fun n hn => by simp only [run, e1 n (by omega), e4 n (by omega)], e5⟩

theorem run_spec : ∀ (ops : List Op) (a : Abs) (xs : Nat → Nat) (s : State), Rep a xs s → ValidAll a ops →
    ∃ os s' n0, (∀ n, n0 ≤ n → run n ops s = some (os, s')) ∧ Safe s' ∧ Answers a ops os := by
  intro ops
  induction ops with
  | nil => intro a xs s h _; exact ⟨[], s, 0, fun _ _ => rfl, h.safe, rfl⟩
  | cons op ops ih =>
    intro a xs s h hv
    obtain ⟨o, s1, n1, e1, e2, e3, e4, e5⟩ := step_spec h hv.1
    by_cases hf : o.failed = false
    · obtain ⟨xs', hr⟩ := e5 hf
      obtain ⟨os, s2, n2, g1, g2, g3⟩ := ih (a.next op) xs' s1 hr hv.2
      exact ⟨o :: os, s2, max n1 n2, fun n hn => by simp only [run, e1 n (by omega), g1 n (by omega)], g2, o, os, rfl, e2, fun _ => g3⟩
    · obtain ⟨os, s2, n2, g1, g2⟩ := run_safe ops (a.next op) s1 e3 e4 hv.2
      exact ⟨o :: os, s2, max n1 n2, fun n hn => by simp only [run, e1 n (by omega), g1 n (by omega)], g2, o, os, rfl, e2, fun hf' => absurd hf' hf⟩

theorem init_rep : Rep .init (fun _ => 0) .init where
  safe := ⟨new_inv, by simp [State.init], by simp [State.init]⟩
  len := rfl
  known := fun n hn => by simp [Abs.init] at hn
  term := fun i k hk => by simp [State.init] at hk
  eqs := fun τ => by
    refine ⟨fun _ => ?_, fun _ e he => by simp [Abs.init] at he⟩
    obtain ⟨r, hw⟩ := new_inv.wf
    obtain ⟨σ, hs, -⟩ := exists_sol (K := Kind) hw (fun _ => AKind.type)
    exact ⟨σ, hs, fun n hn => by simp [Abs.init] at hn⟩

end Verif.KindUnify
