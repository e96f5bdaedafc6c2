import Verif.Mono.Ends
import Mathlib.Data.List.Perm.Subperm

/-!
# Monomorphisation is right, and ends exactly when finitely many instances are needed
-/

namespace Verif.Mono

variable {Δ : Nat → Option Def} {pm : Nat → Prop} {n0 : Nat}

/-- The expression mentions only identifiers in use, and no parameters of generic definitions. -/
def Closed (pm : Nat → Prop) (n : Nat) (t : Ct) : Prop := t.All fun c => c < n ∧ ¬ pm c

/-- The definitions in a context. -/
def St.table (s : St) (c : Nat) : Option Def := (s.defs c).map (·.2)

theorem no_busy {s : St} (h : Busy (start Δ n0) s) (c : Nat) (d : Def) :
    s.defs c ≠ some (.normalizing, d) := by
  intro hd
  obtain ⟨d', hd'⟩ := (h c).1 ⟨d, hd⟩
  simp only [start, Option.map_eq_some_iff, Prod.mk.injEq] at hd'
  obtain ⟨D, _, h1, _⟩ := hd'
  cases D <;> simp [startPhase] at h1

/-- **C70** Whatever expressions are normalized, one after the other, beginning with the
translator's definitions: what comes out has no instances and no table entries, each expression
means what the given one evaluates to, and the definitions are the monomorphic ones. -/
theorem normalize_correct (ht : Tidy Δ pm n0) {ts ts' : List Ct} {n : Nat} {s : St}
    (hc : ∀ t ∈ ts, Closed pm n0 t) (h : each (norm n) ts (start Δ n0) = .ok ts' s) :
    Evals Δ (fun _ => True) ts (ts'.map (Ct.bind (meaning s.keys))) ∧
      ∃ F, (∀ t ∈ ts', t.Normal F) ∧ Monomorphic Δ s.keys s.table F := by
  have hi := inv_start ht
  obtain ⟨p, hn, he⟩ := each_sem (norm_sem ht n) ts _ ts' s hi ((alls_iff _ _).2 hc) h
  have hid : Ct.binds (start Δ n0).den ts = ts := binds_id ts
  rw [hid, binds_eq] at he
  refine ⟨he.mono fun _ _ => trivial, Fine Δ pm s, (normals_iff _ _).1 hn, ?_, ?_, ?_⟩
  · exact fun c c' h1 h2 e => p.inv.inj c c' h1.1 h2.1 e
  · intro c hf hd
    simp only [St.table, Option.map_eq_none_iff] at hd
    exact p.inv.undef c hf.1 hd
  · intro c d hf hd
    simp only [St.table, Option.map_eq_some_iff] at hd
    obtain ⟨⟨ph, d'⟩, hd, rfl⟩ := hd
    obtain ⟨D, hD, hr⟩ := p.inv.defd c ph d' hd
    refine ⟨D, hD, fun x hx => hf.2.2.1 x (by rw [hD, hx]), ?_⟩
    cases ph with
    | generalized => exact .inl ⟨hr.2, hr.1⟩
    | instantiated => exact absurd hd (hf.2.2.2 d')
    | normalizing => exact absurd hd (no_busy p.busy c d')
    | normalized => exact .inr ⟨hr.1.mono fun _ _ => trivial, hr.2⟩

/-- **C70** Two expressions are normalized to the same expression if and only if they have the
same value: an instance is made once only, however it is written. -/
theorem normalize_unique (ht : Tidy Δ pm n0) {ts ts' : List Ct} {n : Nat} {s : St}
    (hc : ∀ t ∈ ts, Closed pm n0 t) (h : each (norm n) ts (start Δ n0) = .ok ts' s)
    {i j : Nat} {t u t' u' : Ct} (hi : ts[i]? = some t) (hj : ts[j]? = some u)
    (hi' : ts'[i]? = some t') (hj' : ts'[j]? = some u') :
    t' = u' ↔ ∃ v, Eval Δ (fun _ => True) t v ∧ Eval Δ (fun _ => True) u v := by
  obtain ⟨p, hn, he⟩ := each_sem (norm_sem ht n) ts _ ts' s (inv_start ht)
    ((alls_iff _ _).2 hc) h
  have hid : Ct.binds (start Δ n0).den ts = ts := binds_id ts
  rw [hid, binds_eq] at he
  have he := he.mono (V := fun _ => True) fun _ _ => trivial
  have ev : ∀ (as vs : List Ct) (i : Nat) (a v : Ct), Evals Δ (fun _ => True) as vs →
      as[i]? = some a → vs[i]? = some v → Eval Δ (fun _ => True) a v := by
    intro as vs i a v h
    induction i generalizing as vs with
    | zero => intro ha hv; cases h with
      | nil => simp at ha
      | cons h _ => simp at ha hv; rw [← ha, ← hv]; exact h
    | succ i ih => intro ha hv; cases h with
      | nil => simp at ha
      | cons _ h => exact ih _ _ h (by simpa using ha) (by simpa using hv)
  have e1 := ev _ _ i t (t'.bind s.den) he hi (by simp [hi'])
  have e2 := ev _ _ j u (u'.bind s.den) he hj (by simp [hj'])
  constructor
  · rintro rfl
    exact ⟨_, e1, e2⟩
  · rintro ⟨v, h1, h2⟩
    refine p.inv.normal_inj ((normals_iff _ _).1 hn _ (List.mem_of_getElem? hi'))
      ((normals_iff _ _).1 hn _ (List.mem_of_getElem? hj')) ?_
    rw [e1.det h1, e2.det h2]

open Classical in
/-- **C71** Normalizing expressions ends, without a panic, if and only if the expressions have
values and the references needed for them, and for all the definitions that these mention, are
finitely many. -/
theorem normalize_ends_iff (ht : Tidy Δ pm n0) {ts : List Ct} (hc : ∀ t ∈ ts, Closed pm n0 t) :
    (∃ n ts' s, each (norm n) ts (start Δ n0) = .ok ts' s) ↔
      ∃ L : List Ct, (∀ t ∈ ts, ∃ v, Eval Δ (· ∈ L) t v) ∧ Within Δ (· ∈ L) := by
  constructor
  · rintro ⟨n, ts', s, h⟩
    obtain ⟨p, hn, he⟩ := each_sem (norm_sem ht n) ts _ ts' s (inv_start ht)
      ((alls_iff _ _).2 hc) h
    have hid : Ct.binds (start Δ n0).den ts = ts := binds_id ts
    rw [hid] at he
    have hL : ∀ r, Used s r → r ∈ ((List.range s.next).filter fun c => Seen s c).map s.den := by
      rintro r ⟨c, h1, rfl, h2⟩
      exact List.mem_map_of_mem (by simp [h1, h2])
    refine ⟨((List.range s.next).filter fun c => Seen s c).map s.den,
      (he.mono hL).of_mem, ?_⟩
    intro r D hr hD hg t htm
    obtain ⟨c, hc', rfl⟩ := List.mem_map.1 hr
    simp only [List.mem_filter, List.mem_range, decide_eq_true_eq] at hc'
    obtain ⟨hlt, hs⟩ := hc'
    cases hd : s.defs c with
    | none => rw [p.inv.undef c hlt hd] at hD; cases hD
    | some x =>
      obtain ⟨ph, d⟩ := x
      obtain ⟨D', hD', hr'⟩ := p.inv.defd c ph d hd
      rw [hD] at hD'
      cases hD'
      cases ph with
      | generalized => exact absurd hr'.2 hg
      | instantiated => exact absurd hd (hs d)
      | normalizing => exact absurd hd (no_busy p.busy c d)
      | normalized => exact (hr'.1.mono hL).of_mem t htm
  · rintro ⟨L, hv, hW⟩
    have hid : ∀ t : Ct, t.bind (start Δ n0).den = t := bind_id
    obtain ⟨N, ts', s, h⟩ := each_halts ht (less ht hW (left L (start Δ n0) + 1)) ts _
      (inv_start ht) ((alls_iff _ _).2 hc) (fun t htm => by rw [hid]; exact hv t htm)
      (Nat.lt_succ_self _)
    exact ⟨N, ts', s, h N (Nat.le_refl _)⟩

/-- **C71** If it ends with some amount of fuel, it ends in the same way with any greater than
some amount. -/
theorem normalize_ends (ht : Tidy Δ pm n0) {ts : List Ct} (hc : ∀ t ∈ ts, Closed pm n0 t)
    {L : List Ct} (hv : ∀ t ∈ ts, ∃ v, Eval Δ (· ∈ L) t v) (hW : Within Δ (· ∈ L)) :
    ∃ N ts' s, ∀ n, N ≤ n → each (norm n) ts (start Δ n0) = .ok ts' s := by
  have hid : ∀ t : Ct, t.bind (start Δ n0).den = t := bind_id
  exact each_halts ht (less ht hW (left L (start Δ n0) + 1)) ts _ (inv_start ht)
    ((alls_iff _ _).2 hc) (fun t htm => by rw [hid]; exact hv t htm) (Nat.lt_succ_self _)

/-! ## A program with a list type and a class instance

`Int` (0) is an alias; `List` (1) is a recursive generic data type; 3 is a generic class instance,
a table with one method under the key 5; 6 is the generic function which is that method. -/

def int : Ct := .prim (.s 64)

def prog : Nat → Option Def
  | 0 => some (.alias int)
  | 1 => some (.generic [2] (.data [[], [.id 2, .inst (.id 1) [.id 2]]]))
  | 3 => some (.generic [4] (.table [(5, .inst (.id 6) [.id 4])]))
  | 6 => some (.generic [7] (.function [.id 7, .inst (.id 1) [.id 7]]))
  | _ => none

def progParam (p : Nat) : Prop := p = 2 ∨ p = 4 ∨ p = 7

/-- The method of the instance for `Int`; lists of integers, written in two ways. -/
def wanted : List Ct :=
  [.get (.inst (.id 3) [.id 0]) 5, .ptr (.inst (.id 1) [.id 0]), .ptr (.inst (.id 1) [int])]

theorem prog_cases {c : Nat} {d : Def} (h : prog c = some d) :
    (c = 0 ∧ d = .alias int) ∨
    (c = 1 ∧ d = .generic [2] (.data [[], [.id 2, .inst (.id 1) [.id 2]]])) ∨
    (c = 3 ∧ d = .generic [4] (.table [(5, .inst (.id 6) [.id 4])])) ∨
    (c = 6 ∧ d = .generic [7] (.function [.id 7, .inst (.id 1) [.id 7]])) := by
  unfold prog at h
  split at h <;> simp_all

theorem prog_tidy : Tidy prog progParam 8 where
  dom c d h := by rcases prog_cases h with h | h | h | h <;> omega
  param p h := by rcases h with rfl | rfl | rfl <;> exact ⟨by omega, rfl⟩
  plain c d h hg := by
    rcases prog_cases h with ⟨_, rfl⟩ | ⟨_, rfl⟩ | ⟨_, rfl⟩ | ⟨_, rfl⟩ <;>
      simp [Def.IsGeneric, Def.terms, Ct.All, int] at *
  generic c ps d h := by
    rcases prog_cases h with ⟨_, h⟩ | ⟨_, h⟩ | ⟨_, h⟩ | ⟨_, h⟩ <;> cases h <;>
      simp [Def.IsGeneric, Def.terms, Ct.All, Ct.Alls, progParam]

theorem wanted_closed : ∀ t ∈ wanted, Closed progParam 8 t := by
  simp [wanted, Closed, Ct.All, Ct.Alls, progParam, int]

def isResult (want : List Ct) (keys : List (Nat × List Ct)) : Res (List Ct) → Bool
  | .ok ts s => Ct.sames ts want && (s.keys.map (·.1)).length == keys.length &&
      ((s.keys.map (·.1)).zip keys).all fun e => e.1.1 == e.2.1 && Ct.sames e.1.2 e.2.2
  | _ => false

/-- Three instances are made: the instance 8, its method 9, and 10, the lists of integers. -/
theorem wanted_run : isResult [.id 9, .ptr (.id 10), .ptr (.id 10)]
    [(1, [int]), (6, [int]), (3, [int])] (each (norm 20) wanted (start prog 8)) = true := by
  decide +kernel

/-- The hypotheses of the theorems above hold of this program, and the result is not trivial. -/
example : ∃ ts' s, each (norm 20) wanted (start prog 8) = .ok ts' s ∧
    ts' = [.id 9, .ptr (.id 10), .ptr (.id 10)] ∧
    Evals prog (fun _ => True) wanted (ts'.map (Ct.bind (meaning s.keys))) ∧
    ∃ F, (∀ t ∈ ts', t.Normal F) ∧ Monomorphic prog s.keys s.table F := by
  have h := wanted_run
  cases hr : each (norm 20) wanted (start prog 8) with
  | ok ts' s =>
    rw [hr] at h
    simp only [isResult, Bool.and_eq_true, sames_iff] at h
    exact ⟨ts', s, rfl, h.1.1, normalize_correct prog_tidy wanted_closed hr⟩
  | panic => rw [hr] at h; cases h
  | more => rw [hr] at h; cases h

/-- The value of the method of the instance. -/
example : Eval prog (fun _ => True) (.get (.inst (.id 3) [.id 0]) 5) (.inst (.id 6) [int]) := by
  have i0 : Eval prog (fun _ => True) (.id 0) int := .idAlias trivial rfl .prim
  have g3 : Eval prog (fun _ => True) (.id 3) (.id 3) := .idSelf trivial (by simp [prog])
  have g6 : Eval prog (fun _ => True) (.id 6) (.id 6) := .idSelf trivial (by simp [prog])
  exact .get (.instSelf g3 (.cons i0 .nil) trivial rfl (by simp [Def.map])) rfl rfl
    (.instSelf g6 (.cons .prim .nil) trivial rfl (by simp [Def.map]))

/-- By `normalize_ends_iff` finitely many references are enough here, and are needed. -/
example : ∃ L : List Ct, (∀ t ∈ wanted, ∃ v, Eval prog (· ∈ L) t v) ∧ Within prog (· ∈ L) := by
  refine (normalize_ends_iff prog_tidy wanted_closed).1 ⟨20, ?_⟩
  have h := wanted_run
  cases hr : each (norm 20) wanted (start prog 8) with
  | ok ts' s => exact ⟨ts', s, rfl⟩
  | panic => rw [hr] at h; cases h
  | more => rw [hr] at h; cases h

/-! ## A polymorphic recursion

The generic function 0 with the parameter 1 mentions its own instance for pointers to its
parameter.  It needs infinitely many instances: the normalizer has no result for any use of it. -/

def poly : Nat → Option Def
  | 0 => some (.generic [1] (.function [.inst (.id 0) [.ptr (.id 1)]]))
  | _ => none

def pointers : Nat → Ct
  | 0 => int
  | k + 1 => .ptr (pointers k)

theorem poly_cases {c : Nat} {d : Def} (h : poly c = some d) :
    c = 0 ∧ d = .generic [1] (.function [.inst (.id 0) [.ptr (.id 1)]]) := by
  unfold poly at h
  split at h <;> simp_all

theorem poly_tidy : Tidy poly (· = 1) 2 where
  dom c d h := by have := poly_cases h; omega
  param p h := by subst h; exact ⟨by omega, rfl⟩
  plain c d h hg := by
    obtain ⟨_, rfl⟩ := poly_cases h
    exact absurd trivial hg
  generic c ps d h := by
    obtain ⟨_, h⟩ := poly_cases h
    cases h
    simp [Def.IsGeneric, Def.terms, Ct.All, Ct.Alls]

theorem pointers_value {U : Ct → Prop} : ∀ k v, Eval poly U (pointers k) v → v = pointers k
  | 0, v, h => by cases h; rfl
  | k + 1, v, h => by
    cases h with
    | ptr h => rw [pointers_value k _ h]; rfl

theorem pointers_inj : ∀ j k, pointers j = pointers k → j = k
  | 0, 0, _ => rfl
  | 0, k + 1, h => by cases h
  | j + 1, 0, h => by cases h
  | j + 1, k + 1, h => by
    simp only [pointers, Ct.ptr.injEq] at h
    rw [pointers_inj j k h]

theorem use_of_eval {U : Ct → Prop} {k : Nat} {v : Ct}
    (h : Eval poly U (.inst (.id 0) [pointers k]) v) : U (.inst (.id 0) [pointers k]) := by
  have main : ∀ g vs, Eval poly U (.id 0) (.id g) → Evals poly U [pointers k] vs →
      U (.inst (.id g) vs) → U (.inst (.id 0) [pointers k]) := by
    intro g vs hg hv hu
    cases hv with
    | cons a b =>
      cases b
      rw [pointers_value k _ a] at hu
      cases hg with
      | idAlias _ h _ => simp [poly] at h
      | idSelf _ _ => exact hu
  cases h with
  | instAlias a b c _ _ => exact main _ _ a b c
  | instSelf a b c _ _ => exact main _ _ a b c

/-- Normalizing a use of a polymorphic recursive function never gives a result. -/
theorem poly_never_ends : ¬ ∃ n ts' s,
    each (norm n) [.inst (.id 0) [int]] (start poly 2) = .ok ts' s := by
  rw [normalize_ends_iff poly_tidy (by simp [Closed, Ct.All, Ct.Alls, int])]
  rintro ⟨L, hv, hW⟩
  have all : ∀ k, .inst (.id 0) [pointers k] ∈ L := by
    intro k
    induction k with
    | zero =>
      obtain ⟨v, hv⟩ := hv _ List.mem_cons_self
      exact use_of_eval (U := (· ∈ L)) (k := 0) hv
    | succ k ih =>
      have hd : DefOf poly (.inst (.id 0) [pointers k]) =
          some (.function [.inst (.id 0) [.ptr (pointers k)]]) := rfl
      obtain ⟨v, hv⟩ := hW _ _ ih hd (by simp [Def.IsGeneric]) _ List.mem_cons_self
      exact use_of_eval (U := (· ∈ L)) (k := k + 1) hv
  have hsub : (List.range (L.length + 1)).map (fun k => Ct.inst (.id 0) [pointers k]) ⊆ L := by
    intro x hx
    obtain ⟨k, _, rfl⟩ := List.mem_map.1 hx
    exact all k
  have hnd : ((List.range (L.length + 1)).map
      (fun k => Ct.inst (.id 0) [pointers k])).Nodup := by
    refine List.Nodup.map ?_ List.nodup_range
    intro a b h
    simp only [Ct.inst.injEq, List.cons.injEq, and_true, true_and] at h
    exact pointers_inj a b h
  have := (List.subperm_of_subset hnd hsub).length_le
  simp at this
  omega

end Verif.Mono
