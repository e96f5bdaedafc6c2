import Verif.Generations.Model
import Verif.Mono.Lemmas
import Mathlib.Data.List.Basic

/-!
# The collector finds exactly what is reachable and new
-/

namespace Verif.Generations

open Verif.Mono

variable {defs : Nat → Option (Phase × Def)} {gen : Nat → Option Nat}

/-- The identifier needs no visit, given those in `vs`. -/
def Kn (defs : Nat → Option (Phase × Def)) (gen : Nat → Option Nat) (vs : List Nat)
    (c : Nat) : Prop :=
  defs c = none ∨ gen c ≠ none ∨ c ∈ vs

/-- What the collector does from `vs` to `vs'` on something whose identifiers are given by
`A`. -/
structure Step (defs : Nat → Option (Phase × Def)) (gen : Nat → Option Nat)
    (A : (Nat → Prop) → Prop) (vs vs' : List Nat) : Prop where
  sub : ∀ c ∈ vs, c ∈ vs'
  all : A (Kn defs gen vs')
  new : ∀ c ∈ vs', c ∈ vs ∨ gen c = none ∧ ∃ ph d, defs c = some (ph, d) ∧
    ∀ u ∈ d.terms, u.All (Kn defs gen vs')
  reach : ∀ P : Nat → Prop, A P →
    (∀ c ∈ vs', P c → ∀ ph d, defs c = some (ph, d) → ∀ u ∈ d.terms, u.All P) →
    ∀ c ∈ vs', c ∈ vs ∨ P c

theorem Kn.mono {vs vs' : List Nat} (h : ∀ c ∈ vs, c ∈ vs') (c : Nat) (hc : Kn defs gen vs c) :
    Kn defs gen vs' c := hc.imp_right (·.imp_right (h c))

theorem Step.trans {A B : (Nat → Prop) → Prop} {vs vs1 vs2 : List Nat}
    (hA : ∀ P Q : Nat → Prop, (∀ c, P c → Q c) → A P → A Q)
    (h1 : Step defs gen A vs vs1) (h2 : Step defs gen B vs1 vs2) :
    Step defs gen (fun P => A P ∧ B P) vs vs2 where
  sub c hc := h2.sub c (h1.sub c hc)
  all := ⟨hA _ _ (Kn.mono h2.sub) h1.all, h2.all⟩
  new c hc := by
    rcases h2.new c hc with hc | hc
    · rcases h1.new c hc with hc | ⟨a, ph, d, b, e⟩
      · exact .inl hc
      · exact .inr ⟨a, ph, d, b, fun u hu => Ct.All.mono (Kn.mono h2.sub) u (e u hu)⟩
    · exact .inr hc
  reach P hP hcl c hc := by
    rcases h2.reach P hP.2 hcl c hc with hc | hc
    · exact h1.reach P hP.1 (fun c hc => hcl c (h2.sub c hc)) c hc
    · exact .inr hc

theorem Step.refl {A : (Nat → Prop) → Prop} {vs : List Nat} (h : A (Kn defs gen vs)) :
    Step defs gen A vs vs :=
  ⟨fun _ h => h, h, fun _ h => .inl h, fun _ _ _ _ h => .inl h⟩

theorem through_sem {f : Ct → List Nat → Option (List Nat)}
    (hf : ∀ t vs vs', f t vs = some vs' → Step defs gen t.All vs vs') :
    ∀ (ts : List Ct) (vs vs' : List Nat), through f ts vs = some vs' →
      Step defs gen (fun P => Ct.Alls P ts) vs vs'
  | [], vs, vs', h => by
    cases h
    exact .refl trivial
  | t :: ts, vs, vs', h => by
    simp only [through] at h
    split at h
    · rename_i vs1 h1
      exact (hf t vs vs1 h1).trans (fun P Q h => Ct.All.mono h t) (through_sem hf ts vs1 vs' h)
    · cases h

theorem collect_sem : ∀ (m : Nat) (t : Ct) (vs vs' : List Nat),
    collect defs gen m t vs = some vs' → Step defs gen t.All vs vs'
  | 0, _, _, _, h => by cases h
  | m + 1, .id c, vs, vs', h => by
    simp only [collect] at h
    split at h
    · rename_i ph d hd
      split at h
      · rename_i hc
        simp only [Bool.and_eq_true, Option.isNone_iff_eq_none, Bool.not_eq_true',
          List.contains_eq_mem, decide_eq_false_iff_not] at hc
        have ih := through_sem (collect_sem m) d.terms (c :: vs) vs' h
        have hcv : c ∈ vs' := ih.sub c List.mem_cons_self
        refine ⟨fun b hb => ih.sub b (List.mem_cons_of_mem _ hb), .inr (.inr hcv), ?_, ?_⟩
        · intro b hb
          rcases ih.new b hb with hb | hb
          · rcases List.mem_cons.1 hb with rfl | hb
            · exact .inr ⟨hc.1, ph, d, hd, (alls_iff _ _).1 ih.all⟩
            · exact .inl hb
          · exact .inr hb
        · intro P hP hcl b hb
          rcases ih.reach P ((alls_iff _ _).2 (hcl c hcv hP ph d hd)) hcl b hb with hb | hb
          · rcases List.mem_cons.1 hb with rfl | hb
            · exact .inr hP
            · exact .inl hb
          · exact .inr hb
      · rename_i hc
        cases h
        refine .refl ?_
        show Kn defs gen vs c
        by_cases hg : gen c = none
        · refine .inr (.inr ?_)
          by_contra hv
          exact hc (by simp [hg, hv])
        · exact .inr (.inl hg)
    · rename_i hd
      cases h
      exact .refl (.inl hd)
  | m + 1, .inst f as, vs, vs', h => by
    simp only [collect] at h
    split at h
    · rename_i vs1 h1
      exact (collect_sem m f vs vs1 h1).trans (fun P Q h => Ct.All.mono h f)
        (through_sem (collect_sem m) as vs1 vs' h)
    · cases h
  | m + 1, .get t _, vs, vs', h => collect_sem m t vs vs' h
  | m + 1, .ptr t, vs, vs', h => collect_sem m t vs vs' h
  | m + 1, .clos as t, vs, vs', h => by
    simp only [collect] at h
    split at h
    · rename_i vs1 h1
      exact (through_sem (collect_sem m) as vs vs1 h1).trans (fun P Q h => Ct.Alls.mono h as)
        (collect_sem m t vs1 vs' h)
    · cases h
  | m + 1, .array t, vs, vs', h => collect_sem m t vs vs' h
  | m + 1, .syntax t, vs, vs', h => collect_sem m t vs vs' h
  | m + 1, .prim _, vs, vs', h => by
    cases h
    exact .refl trivial

/-! ## The collector ends -/

/-- The number of identifiers that are not visited yet. -/
def rest (n : Nat) (vs : List Nat) : Nat := ((List.range n).filter fun c => !vs.contains c).length

theorem rest_le {n : Nat} {vs vs' : List Nat} (h : ∀ c ∈ vs, c ∈ vs') : rest n vs' ≤ rest n vs := by
  unfold rest
  rw [← List.countP_eq_length_filter, ← List.countP_eq_length_filter]
  refine List.countP_mono_left fun c _ hc => ?_
  simp only [List.contains_eq_mem, Bool.not_eq_true', decide_eq_false_iff_not] at hc ⊢
  exact fun hv => hc (h c hv)

theorem rest_lt {n : Nat} {vs : List Nat} {c : Nat} (hc : c < n) (hv : c ∉ vs) :
    rest n (c :: vs) < rest n vs := by
  unfold rest
  have : (List.range n).filter (fun b => !(c :: vs).contains b) =
      ((List.range n).filter fun b => !vs.contains b).filter fun b => b != c := by
    rw [List.filter_filter]
    refine List.filter_congr fun b _ => ?_
    by_cases h : b = c
    · subst h; simp
    · simp [h]
  rw [this]
  refine List.length_filter_lt_length_iff_exists.2 ⟨c, ?_, by simp⟩
  simp [hc, hv]

/-- With enough fuel there is a result, always the same. -/
def Ends (f : Nat → List Nat → Option (List Nat)) (vs : List Nat) : Prop :=
  ∃ vs' m0, ∀ m, m0 ≤ m → f m vs = some vs'

theorem Ends.succ {f g : Nat → List Nat → Option (List Nat)} {vs : List Nat}
    (h : Ends f vs) (hg : ∀ m, g (m + 1) vs = f m vs) : Ends g vs := by
  obtain ⟨vs', m0, h⟩ := h
  refine ⟨vs', m0 + 1, fun m hm => ?_⟩
  obtain ⟨m, rfl⟩ : ∃ k, m = k + 1 := ⟨m - 1, by omega⟩
  rw [hg]
  exact h m (by omega)

theorem Ends.seq {f g h : Nat → List Nat → Option (List Nat)} {vs : List Nat}
    (hf : Ends f vs) (hg : ∀ m vs', f m vs = some vs' → Ends g vs')
    (hh : ∀ m vs', f m vs = some vs' → h m vs = g m vs') : Ends h vs := by
  obtain ⟨vs1, m1, h1⟩ := hf
  obtain ⟨vs2, m2, h2⟩ := hg m1 vs1 (h1 m1 (Nat.le_refl _))
  refine ⟨vs2, max m1 m2, fun m hm => ?_⟩
  rw [hh m vs1 (h1 m (by omega))]
  exact h2 m (by omega)

variable {n : Nat} (hn : ∀ c, n ≤ c → defs c = none)
include hn

mutual
theorem collect_ends {N : Nat}
    (ih : ∀ (ts : List Ct) (vs : List Nat), rest n vs < N →
      Ends (fun m => through (collect defs gen m) ts) vs) :
    ∀ (t : Ct) (vs : List Nat), rest n vs < N + 1 → Ends (fun m => collect defs gen m t) vs
  | .id c, vs, hr => by
    cases hd : defs c with
    | none =>
      refine Ends.succ (f := fun _ vs => some vs) ⟨vs, 0, fun _ _ => rfl⟩ fun m => ?_
      simp only [collect, hd]
    | some x =>
      obtain ⟨ph, d⟩ := x
      by_cases hc : ((gen c).isNone && !vs.contains c) = true
      · have hcn : c < n := by
          by_contra h
          rw [hn c (by omega)] at hd
          cases hd
        have hv : c ∉ vs := by
          have := (Bool.and_eq_true _ _ ▸ hc).2
          simpa using this
        obtain ⟨vs', m0, h⟩ := ih d.terms (c :: vs) (by have := rest_lt hcn hv; omega)
        refine ⟨vs', m0 + 1, fun m hm => ?_⟩
        obtain ⟨m, rfl⟩ : ∃ k, m = k + 1 := ⟨m - 1, by omega⟩
        simp only [collect, hd]
        rw [if_pos hc]
        exact h m (by omega)
      · refine Ends.succ (f := fun _ vs => some vs) ⟨vs, 0, fun _ _ => rfl⟩ fun m => ?_
        simp only [collect, hd]
        rw [if_neg hc]
  | .inst f as, vs, hr => by
    refine Ends.succ (f := fun m vs => match collect defs gen m f vs with
      | some vs => through (collect defs gen m) as vs
      | none => none) ?_ (fun m => by simp only [collect]; rfl)
    refine Ends.seq (collect_ends ih f vs hr) (fun m vs' h => collects_ends ih as vs' ?_) ?_
    · have := rest_le (n := n) (collect_sem m f vs vs' h).sub; omega
    · intro m vs' h
      have h : collect defs gen m f vs = some vs' := h
      simp only [h]
  | .get t k, vs, hr => Ends.succ (collect_ends ih t vs hr) fun m => by simp only [collect]
  | .ptr t, vs, hr => Ends.succ (collect_ends ih t vs hr) fun m => by simp only [collect]
  | .clos as t, vs, hr => by
    refine Ends.succ (f := fun m vs => match through (collect defs gen m) as vs with
      | some vs => collect defs gen m t vs
      | none => none) ?_ (fun m => by simp only [collect]; rfl)
    refine Ends.seq (collects_ends ih as vs hr) (fun m vs' h => collect_ends ih t vs' ?_) ?_
    · have := rest_le (n := n) (through_sem (collect_sem m) as vs vs' h).sub; omega
    · intro m vs' h
      have h : through (collect defs gen m) as vs = some vs' := h
      simp only [h]
  | .array t, vs, hr => Ends.succ (collect_ends ih t vs hr) fun m => by simp only [collect]
  | .syntax t, vs, hr => Ends.succ (collect_ends ih t vs hr) fun m => by simp only [collect]
  | .prim _, vs, hr =>
    Ends.succ (f := fun _ vs => some vs) ⟨vs, 0, fun _ _ => rfl⟩ fun m => by simp only [collect]

theorem collects_ends {N : Nat}
    (ih : ∀ (ts : List Ct) (vs : List Nat), rest n vs < N →
      Ends (fun m => through (collect defs gen m) ts) vs) :
    ∀ (ts : List Ct) (vs : List Nat), rest n vs < N + 1 →
      Ends (fun m => through (collect defs gen m) ts) vs
  | [], vs, _ => ⟨vs, 0, fun _ _ => rfl⟩
  | t :: ts, vs, hr => by
    refine Ends.seq (collect_ends ih t vs hr) (fun m vs' h => collects_ends ih ts vs' ?_) ?_
    · have := rest_le (n := n) (collect_sem m t vs vs' h).sub; omega
    · intro m vs' h
      have h : collect defs gen m t vs = some vs' := h
      simp only [through, h]
end

theorem through_ends (ts : List Ct) (vs : List Nat) :
    Ends (fun m => through (collect defs gen m) ts) vs := by
  have main : ∀ N (ts : List Ct) (vs : List Nat), rest n vs < N →
      Ends (fun m => through (collect defs gen m) ts) vs := by
    intro N
    induction N with
    | zero => intro ts vs h; omega
    | succ N ih => exact collects_ends hn ih
  exact main _ ts vs (Nat.lt_succ_self _)

end Verif.Generations
