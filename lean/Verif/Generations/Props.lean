import Verif.Generations.Kinds
import Verif.Generations.Collect
import Verif.Mono.Props

/-!
# The backend is given every definition it needs, once
-/

namespace Verif.Generations

open Verif.Mono

variable {Δ : Nat → Option Def} {pm : Nat → Prop} {n0 : Nat} {K E : Nat → Kd}

/-- The identifier has a generation or has no definition at all. -/
def Done (Δ : Nat → Option Def) (x : Ctx) (c : Nat) : Prop :=
  c < x.st.next ∧ DefOf Δ (x.st.den c) = none ∨ x.gen c ≠ none

/-- What holds between two calls of `populate`. -/
structure Good (Δ : Nat → Option Def) (pm : Nat → Prop) (n0 : Nat) (K E : Nat → Kd)
    (ts rs : List Ct) (H : List (Nat × Phase × Def)) (x : Ctx) : Prop where
  inv : Inv Δ pm n0 x.st
  busy : Busy (start Δ n0) x.st
  evals : Evals Δ (fun _ => True) ts (rs.map (Ct.bind x.st.den))
  gen : ∀ c, x.gen c ≠ none ↔ ∃ e, (c, e) ∈ H
  held : ∀ a ∈ H, x.st.defs a.1 = some (.normalized, a.2.2) ∧ a.2.1 = .normalized ∧
    Fine Δ pm x.st a.1 ∧ Low K E (x.st.den a.1)
  once : (H.map (·.1)).Nodup
  closed : ∀ a ∈ H, ∀ t ∈ a.2.2.terms, t.Normal (Done Δ x)
  results : ∀ t ∈ rs, t.Normal fun c => Done Δ x c ∧ Fine Δ pm x.st c
  needed : ∀ P : Nat → Prop, (∀ t ∈ rs, t.All P) →
    (∀ a ∈ H, P a.1 → ∀ t ∈ a.2.2.terms, t.All P) → ∀ a ∈ H, P a.1

/-- A type or function that is left in normalized code is normalized, and has only such in its
definition. -/
theorem low_normalized (hK : Kinded Δ K E) {s : St} (hi : Inv Δ pm n0 s)
    (hb : Busy (start Δ n0) s) {c : Nat} {ph : Phase} {d : Def} (hf : Fine Δ pm s c)
    (hl : Low K E (s.den c)) (hd : s.defs c = some (ph, d)) :
    ph = .normalized ∧ ∀ t ∈ d.terms, t.Normal fun c => Low K E (s.den c) ∧ Fine Δ pm s c := by
  obtain ⟨D, hD, hr⟩ := hi.defd c ph d hd
  obtain ⟨hg, _, k, hk, hDk⟩ := low_defOf hK hl hD
  cases ph with
  | generalized => exact absurd hr.2 hg
  | instantiated => exact absurd hd (hf.2.2.2 d)
  | normalizing => exact absurd hd (no_busy hb c d)
  | normalized =>
    refine ⟨rfl, fun t ht => ?_⟩
    have hn := hr.2 t ht
    refine Ct.Normal.and t hn (low_all t hn ?_)
    refine defEval_low hK hk hDk hr.1 _ ?_
    rw [Def.terms_map]
    exact List.mem_map_of_mem ht

theorem mem_gather {s : St} (hi : Inv Δ pm n0 s) {vs : List Nat} {a : Nat × Phase × Def} :
    a ∈ gather s vs ↔ a.1 ∈ vs ∧ s.defs a.1 = some a.2 := by
  simp only [gather, List.mem_filterMap, List.mem_filter, List.mem_range, List.contains_eq_mem,
    decide_eq_true_eq, Option.map_eq_some_iff]
  constructor
  · rintro ⟨c, ⟨_, hc⟩, e, he, rfl⟩
    exact ⟨hc, he⟩
  · rintro ⟨h1, h2⟩
    exact ⟨a.1, ⟨hi.lt h2, h1⟩, a.2, h2, rfl⟩

theorem gather_nodup (s : St) (vs : List Nat) : ((gather s vs).map (·.1)).Nodup := by
  have : ∀ l : List Nat, (l.filterMap fun c => (s.defs c).map fun e => (c, e.1, e.2)).map (·.1) =
      l.filter fun c => (s.defs c).isSome := by
    intro l
    induction l with
    | nil => rfl
    | cons c l ih =>
      cases h : s.defs c with
      | none => simp [List.filterMap_cons, h, ih]
      | some e => simp [List.filterMap_cons, h, ih]
  rw [gather, this]
  exact (List.nodup_range.filter _).filter _

theorem evals_append {U : Ct → Prop} {as vs bs ws : List Ct} (h : Evals Δ U as vs)
    (h' : Evals Δ U bs ws) : Evals Δ U (as ++ bs) (vs ++ ws) := by
  induction as generalizing vs with
  | nil => cases h; exact h'
  | cons a as ih =>
    cases h with
    | cons h hs => exact .cons h (ih hs)

theorem good_step (ht : Tidy Δ pm n0) (hK : Kinded Δ K E) {ts rs H x n m us p}
    (g : Good Δ pm n0 K E ts rs H x) (hc : ∀ t ∈ us, Closed pm n0 t) (hl : ∀ t ∈ us, Low K E t)
    (h : populate n m us x = some p) :
    Good Δ pm n0 K E (ts ++ us) (rs ++ p.dest) (H ++ p.made) p.ctx := by
  unfold populate at h
  split at h
  · rename_i rs' s hr
    split at h
    · rename_i vs hv
      cases h
      have hus : Ct.Alls (Ok pm x.st) us := (alls_iff _ _).2 fun t htm =>
        Ct.All.mono (fun c hc => ⟨Nat.lt_of_lt_of_le hc.1 g.inv.le, hc.2⟩) t (hc t htm)
      obtain ⟨q, hn, he⟩ := each_sem (norm_sem ht n) us _ rs' s g.inv hus hr
      have hid : Ct.binds x.st.den us = us := by
        rw [binds_congr (g := .id) (P := fun c => c < n0 ∧ ¬ pm c)
          (fun c hc => g.inv.base c hc.1) us ((alls_iff _ _).2 hc)]
        exact binds_id us
      rw [hid] at he
      have hn := (normals_iff _ _).1 hn
      have busy : Busy (start Δ n0) s := fun c => (q.busy c).trans (g.busy c)
      have st := through_sem (collect_sem m) rs' [] vs hv
      have low : ∀ t ∈ rs', t.All fun c => Low K E (s.den c) ∧ Fine Δ pm s c := by
        intro t htm
        refine Ct.Normal.all t (Ct.Normal.and t (hn t htm) (low_all t (hn t htm) ?_))
        refine evals_low hK he hl _ ?_
        rw [binds_eq]
        exact List.mem_map_of_mem htm
      have lows : ∀ c ∈ vs, Low K E (s.den c) ∧ Fine Δ pm s c := by
        intro c hcv
        refine (st.reach (fun c => Low K E (s.den c) ∧ Fine Δ pm s c)
          ((alls_iff _ _).2 low) ?_ c hcv).resolve_left (by simp)
        intro c _ hP ph d hd u hu
        exact Ct.Normal.all u ((low_normalized hK q.inv busy hP.2 hP.1 hd).2 u hu)
      have news : ∀ c ∈ vs, x.gen c = none ∧ ∃ d, s.defs c = some (.normalized, d) ∧
          ∀ u ∈ d.terms, u.All (Kn s.defs x.gen vs) := by
        intro c hcv
        obtain ⟨hg, ph, d, hd, hk⟩ := (st.new c hcv).resolve_left (by simp)
        obtain ⟨rfl, _⟩ := low_normalized hK q.inv busy (lows c hcv).2 (lows c hcv).1 hd
        exact ⟨hg, d, hd, hk⟩
      have kn : ∀ c, Fine Δ pm s c → Kn s.defs x.gen vs c → Done Δ
          ⟨s, fun c => if vs.contains c then some x.next else x.gen c, x.next + 1⟩ c := by
        intro c hf hk
        rcases hk with hk | hk | hk
        · exact .inl ⟨hf.1, q.inv.undef c hf.1 hk⟩
        · refine .inr ?_
          show (if vs.contains c then some x.next else x.gen c) ≠ none
          split
          · simp
          · exact hk
        · refine .inr ?_
          show (if vs.contains c then some x.next else x.gen c) ≠ none
          rw [if_pos (by simpa using hk)]
          simp
      have done : ∀ c, Done Δ x c → Done Δ
          ⟨s, fun c => if vs.contains c then some x.next else x.gen c, x.next + 1⟩ c := by
        rintro c (⟨h1, h2⟩ | hk)
        · refine .inl ⟨Nat.lt_of_lt_of_le h1 q.ext.le, ?_⟩
          show DefOf Δ (s.den c) = none
          rw [q.ext.den c h1]
          exact h2
        · refine .inr ?_
          show (if vs.contains c then some x.next else x.gen c) ≠ none
          split
          · simp
          · exact hk
      refine ⟨q.inv, busy, ?_, ?_, ?_, ?_, ?_, ?_, ?_⟩
      · simp only [List.map_append]
        refine evals_append ?_ ?_
        · have := g.evals
          rw [← binds_eq] at this
          rw [← binds_eq, q.ext.binds (pm := pm) ((alls_iff _ _).2 fun t htm =>
            normal_ok (Ct.Normal.mono (fun _ h => h.2) t (g.results t htm)))]
          exact this
        · rw [← binds_eq]
          exact he.mono fun _ _ => trivial
      · intro c
        show (if vs.contains c then some x.next else x.gen c) ≠ none ↔ _
        simp only [List.mem_append]
        by_cases hcv : c ∈ vs
        · rw [if_pos (by simpa using hcv)]
          obtain ⟨_, d, hd, _⟩ := news c hcv
          simp only [ne_eq, reduceCtorEq, not_false_eq_true, true_iff]
          exact ⟨(.normalized, d), .inr ((mem_gather q.inv).2 ⟨hcv, hd⟩)⟩
        · rw [if_neg (by simpa using hcv), g.gen c]
          constructor
          · rintro ⟨e, he⟩
            exact ⟨e, .inl he⟩
          · rintro ⟨e, he | he⟩
            · exact ⟨e, he⟩
            · exact absurd ((mem_gather q.inv).1 he).1 hcv
      · intro a ha
        rcases List.mem_append.1 ha with ha | ha
        · obtain ⟨h1, h2, h3, h4⟩ := g.held a ha
          refine ⟨q.ext.kept _ _ h1, h2, q.ext.fine _ h3, ?_⟩
          show Low K E (s.den a.1)
          rw [q.ext.den _ h3.1]
          exact h4
        · obtain ⟨h1, h2⟩ := (mem_gather q.inv).1 ha
          obtain ⟨_, d, hd, _⟩ := news a.1 h1
          obtain ⟨l, f⟩ := lows a.1 h1
          have h2' := h2
          rw [hd] at h2'
          have h2' := Option.some.inj h2'
          refine ⟨?_, ?_, f, l⟩
          · show s.defs a.1 = _
            rw [hd, ← h2']
          · rw [← h2']
      · rw [List.map_append]
        refine List.nodup_append.2 ⟨g.once, gather_nodup s vs, ?_⟩
        intro c hc1 c' hc2 hcc
        subst hcc
        obtain ⟨a, ha, rfl⟩ := List.mem_map.1 hc1
        obtain ⟨b, hb, hab⟩ := List.mem_map.1 hc2
        have h1 := ((mem_gather q.inv).1 hb).1
        rw [hab] at h1
        exact (g.gen a.1).2 ⟨a.2, ha⟩ (news a.1 h1).1
      · intro a ha t htm
        rcases List.mem_append.1 ha with ha | ha
        · exact Ct.Normal.mono done t (g.closed a ha t htm)
        · obtain ⟨h1, h2⟩ := (mem_gather q.inv).1 ha
          obtain ⟨_, d, hd, hk⟩ := news a.1 h1
          obtain ⟨l, f⟩ := lows a.1 h1
          rw [hd] at h2
          have h2 := Option.some.inj h2
          rw [← h2] at htm
          have hno := (low_normalized hK q.inv busy f l hd).2 t htm
          exact Ct.Normal.mono (fun c hc => kn c hc.2.2 hc.1) t
            (Ct.Normal.and t hno (hk t htm))
      · intro t htm
        rcases List.mem_append.1 htm with htm | htm
        · exact Ct.Normal.mono (fun c hc => ⟨done c hc.1, q.ext.fine c hc.2⟩) t (g.results t htm)
        · exact Ct.Normal.mono (fun c hc => ⟨kn c hc.2 hc.1, hc.2⟩) t
            (Ct.Normal.and t (hn t htm) ((alls_iff _ _).1 st.all t htm))
      · intro P hP hcl a ha
        rcases List.mem_append.1 ha with ha | ha
        · exact g.needed P (fun t htm => hP t (List.mem_append_left _ htm))
            (fun b hb => hcl b (List.mem_append_left _ hb)) a ha
        · refine (st.reach P ((alls_iff _ _).2 fun t htm => hP t (List.mem_append_right _ htm))
            ?_ a.1 ((mem_gather q.inv).1 ha).1).resolve_left (by simp)
          intro c hcv hPc ph d hd u hu
          exact hcl (c, ph, d)
            (List.mem_append_right _ ((mem_gather q.inv).2 ⟨hcv, hd⟩)) hPc u hu
    · cases h
  · cases h

theorem good_start (ht : Tidy Δ pm n0) : Good Δ pm n0 K E [] [] [] (begin Δ n0) where
  inv := inv_start ht
  busy := fun _ => Iff.rfl
  evals := .nil
  gen := by simp [begin]
  held := by simp
  once := by simp
  closed := by simp
  results := by simp
  needed := by simp

theorem good_of_runs (ht : Tidy Δ pm n0) (hK : Kinded Δ K E) {ts rs H B x}
    (h : Runs Δ n0 ts rs H B x) :
    (∀ t ∈ ts, Closed pm n0 t) → (∀ t ∈ ts, Low K E t) → Good Δ pm n0 K E ts rs H x := by
  induction h with
  | nil => exact fun _ _ => good_start ht
  | step _ hp ih =>
    intro hc hl
    exact good_step ht hK (ih (fun t h => hc t (List.mem_append_left _ h))
      fun t h => hl t (List.mem_append_left _ h)) (fun t h => hc t (List.mem_append_right _ h))
      (fun t h => hl t (List.mem_append_right _ h)) hp

/-- The definitions without their phases. -/
def plain (H : List (Nat × Phase × Def)) : List (Nat × Def) := H.map fun a => (a.1, a.2.2)

/-- Data types are given to the backend in the form of their expansions only. -/
def isData : Def → Bool
  | .data _ => true
  | _ => false

/-- **C72** Whatever is populated, in however many calls: the results mean what the given
expressions evaluate to, and the definitions of all generations together are exactly those that
the results need, each of them once. -/
theorem populate_complete (ht : Tidy Δ pm n0) (hK : Kinded Δ K E) {ts rs H B x}
    (h : Runs Δ n0 ts rs H B x) (hc : ∀ t ∈ ts, Closed pm n0 t)
    (hl : ∀ t ∈ ts, ∃ k, k.Ground ∧ HasKind K E t k) :
    Evals Δ (fun _ => True) ts (rs.map (Ct.bind (meaning x.st.keys))) ∧
      Complete Δ x.st.keys rs (plain H) := by
  have g := good_of_runs ht hK h hc hl
  have known : ∀ c, Done Δ x c → Known Δ x.st.keys (plain H) c := by
    rintro c (hd | hd)
    · exact .inr hd.2
    · obtain ⟨e, he⟩ := (g.gen c).1 hd
      exact .inl ⟨e.2, List.mem_map.2 ⟨_, he, rfl⟩⟩
  have mem : ∀ a ∈ plain H, ∃ ph, (a.1, ph, a.2) ∈ H := by
    intro a ha
    obtain ⟨b, hb, rfl⟩ := List.mem_map.1 ha
    exact ⟨b.2.1, hb⟩
  refine ⟨g.evals, ?_, ?_, ?_, ?_, ?_, ?_⟩
  · have : (plain H).map (·.1) = H.map (·.1) := by simp [plain]
    rw [this]
    exact g.once
  · intro a ha b hb hab
    obtain ⟨_, ha⟩ := mem a ha
    obtain ⟨_, hb⟩ := mem b hb
    exact g.inv.inj _ _ (g.held _ ha).2.2.1.1 (g.held _ hb).2.2.1.1 hab
  · intro a ha
    obtain ⟨ph, ha⟩ := mem a ha
    obtain ⟨h1, _, h3, h4⟩ := g.held _ ha
    obtain ⟨D, hD, hr⟩ := g.inv.defd _ _ _ h1
    obtain ⟨q1, q2, _⟩ := low_defOf hK h4 hD
    exact ⟨D, hD, q1, fun y hy => h3.2.2.1 y (by rw [hD, hy]), q2, hr.1.mono fun _ _ => trivial⟩
  · intro a ha t htm
    obtain ⟨ph, ha⟩ := mem a ha
    exact Ct.Normal.mono known t (g.closed _ ha t htm)
  · intro t htm
    exact Ct.Normal.mono (fun c hc => known c hc.1) t (g.results t htm)
  · intro P hP hcl a ha
    obtain ⟨ph, ha⟩ := mem a ha
    exact g.needed P hP (fun b hb => hcl (b.1, b.2.2) (List.mem_map.2 ⟨b, hb, rfl⟩)) _ ha

/-- **C72** Of these definitions the backend is given all but the data types. -/
theorem populate_related (ht : Tidy Δ pm n0) (hK : Kinded Δ K E) {ts rs H B x}
    (h : Runs Δ n0 ts rs H B x) (hc : ∀ t ∈ ts, Closed pm n0 t)
    (hl : ∀ t ∈ ts, ∃ k, k.Ground ∧ HasKind K E t k) :
    B = (plain H).filter fun a => !isData a.2 := by
  have g := good_of_runs ht hK h hc hl
  have hB : B = (H.filter fun a => isPopulated a.2).map fun a => (a.1, a.2.2) := by
    clear g hc hl
    induction h with
    | nil => rfl
    | step _ hp ih =>
      rw [List.filter_append, List.map_append, ← ih]
      unfold populate at hp
      split at hp
      · split at hp
        · cases hp; rfl
        · cases hp
      · cases hp
  rw [hB, plain, List.filter_map]
  congr 1
  refine List.filter_congr fun a ha => ?_
  have h2 := (g.held a ha).2.1
  obtain ⟨c, ph, d⟩ := a
  simp only at h2
  subst h2
  cases d <;> rfl

/-- **C72** A definition that was given once is not changed afterwards. -/
theorem populate_final (ht : Tidy Δ pm n0) (hK : Kinded Δ K E) {ts rs H B x}
    (h : Runs Δ n0 ts rs H B x) (hc : ∀ t ∈ ts, Closed pm n0 t)
    (hl : ∀ t ∈ ts, ∃ k, k.Ground ∧ HasKind K E t k) :
    ∀ a ∈ plain H, x.st.table a.1 = some a.2 := by
  have g := good_of_runs ht hK h hc hl
  intro a ha
  obtain ⟨b, hb, rfl⟩ := List.mem_map.1 ha
  simp only [St.table, (g.held b hb).1]
  rfl

/-- **C72** `populate` ends whenever the normalizer does. -/
theorem populate_ends (ht : Tidy Δ pm n0) (hK : Kinded Δ K E) {ts rs H B x}
    (h : Runs Δ n0 ts rs H B x) (hc : ∀ t ∈ ts, Closed pm n0 t)
    (hl : ∀ t ∈ ts, ∃ k, k.Ground ∧ HasKind K E t k)
    {us rs' : List Ct} {n : Nat} {s : St} (hu : ∀ t ∈ us, Closed pm n0 t)
    (hr : each (norm n) us x.st = .ok rs' s) :
    ∃ m0 p, ∀ m, m0 ≤ m → populate n m us x = some p := by
  have g := good_of_runs ht hK h hc hl
  have hus : Ct.Alls (Ok pm x.st) us := (alls_iff _ _).2 fun t htm =>
    Ct.All.mono (fun c hc => ⟨Nat.lt_of_lt_of_le hc.1 g.inv.le, hc.2⟩) t (hu t htm)
  obtain ⟨q, _⟩ := each_sem (norm_sem ht n) us _ rs' s g.inv hus hr
  obtain ⟨vs, m0, h⟩ := through_ends (gen := x.gen) q.inv.high rs' []
  have h : ∀ m, m0 ≤ m → through (collect s.defs x.gen m) rs' [] = some vs := h
  have hs : (populate n m0 us x).isSome := by
    unfold populate
    simp only [hr, h m0 (Nat.le_refl _)]
    rfl
  obtain ⟨p, hp⟩ := Option.isSome_iff_exists.1 hs
  refine ⟨m0, p, fun m hm => ?_⟩
  rw [← hp]
  unfold populate
  simp only [hr, h m hm, h m0 (Nat.le_refl _)]

/-! ## The program of `Verif.Mono.Props`, populated in two calls

First the type of lists of integers, then a method that uses this type and the type of pointers
to lists of lists of integers. -/

def progKind : Nat → Kd
  | 1 => .fn [.type] .type
  | 3 => .fn [.type] .table
  | 6 => .fn [.type] .value
  | _ => .type

theorem prog_kinded : Kinded prog progKind fun _ => .value := by
  intro c d h
  have i2 : HasKind progKind (fun _ => .value) (.id 2) .type := .id
  have i4 : HasKind progKind (fun _ => .value) (.id 4) .type := .id
  have i7 : HasKind progKind (fun _ => .value) (.id 7) .type := .id
  have i1 : HasKind progKind (fun _ => .value) (.id 1) (.fn [.type] .type) := .id
  have i6 : HasKind progKind (fun _ => .value) (.id 6) (.fn [.type] .value) := .id
  rcases prog_cases h with ⟨rfl, rfl⟩ | ⟨rfl, rfl⟩ | ⟨rfl, rfl⟩ | ⟨rfl, rfl⟩
  · exact .alias .prim
  · refine .generic (ps := [2]) (.data ?_)
    intro l hl t ht
    simp only [List.mem_cons, List.not_mem_nil, or_false] at hl
    rcases hl with rfl | rfl
    · cases ht
    · simp only [List.mem_cons, List.not_mem_nil, or_false] at ht
      rcases ht with rfl | rfl
      · exact i2
      · exact .inst i1 (.cons i2 .nil)
  · refine .generic (ps := [4]) (.table ?_)
    intro e he
    have := List.mem_singleton.1 he
    subst this
    exact .inst i6 (.cons i4 .nil)
  · refine .generic (ps := [7]) (.function ?_)
    intro t ht
    simp only [List.mem_cons, List.not_mem_nil, or_false] at ht
    rcases ht with rfl | rfl
    · exact .inl i7
    · exact .inl (.inst i1 (.cons i7 .nil))

def first : List Ct := [.ptr (.inst (.id 1) [.id 0])]

def second : List Ct :=
  [.get (.inst (.id 3) [.id 0]) 5, .ptr (.inst (.id 1) [.inst (.id 1) [int]])]

theorem both_closed : ∀ t ∈ first ++ second, Closed progParam 8 t := by
  simp [first, second, Closed, Ct.All, Ct.Alls, progParam, int]

theorem both_kinded : ∀ t ∈ first ++ second,
    ∃ k, k.Ground ∧ HasKind progKind (fun _ => .value) t k := by
  have i0 : HasKind progKind (fun _ => .value) (.id 0) .type := .id
  have i1 : HasKind progKind (fun _ => .value) (.id 1) (.fn [.type] .type) := .id
  have i3 : HasKind progKind (fun _ => .value) (.id 3) (.fn [.type] .table) := .id
  intro t ht
  simp only [first, second, List.cons_append, List.nil_append, List.mem_cons, List.not_mem_nil,
    or_false] at ht
  rcases ht with rfl | rfl | rfl
  · exact ⟨.type, .inl rfl, .ptr (.inst i1 (.cons i0 .nil))⟩
  · exact ⟨.value, .inr rfl, .get (.inst i3 (.cons i0 .nil))⟩
  · exact ⟨.type, .inl rfl, .ptr (.inst i1 (.cons (.inst i1 (.cons .prim .nil)) .nil))⟩

def defSame : Def → Def → Bool
  | .data a, .data b => a.length == b.length && (a.zip b).all fun e => Ct.sames e.1 e.2
  | .function a, .function b => Ct.sames a b
  | _, _ => false

def portionIs (dest : List Ct) (made : List (Nat × Def)) (related : List Nat) (p : Portion) : Bool :=
  Ct.sames p.dest dest && p.made.length == made.length &&
    ((p.made.zip made).all fun e => e.1.1 == e.2.1 && e.1.2.1 == .normalized &&
      defSame e.1.2.2 e.2.2) &&
    p.related.map (·.1) == related

/-- The first call makes lists of integers (8); the second makes the method (10) and lists of
lists of integers (11), but not 8 again; the class instance (9) is not given to anyone. -/
theorem both_run : (match populate 20 20 first (begin prog 8) with
    | some p =>
      portionIs [.ptr (.id 8)] [(8, .data [[], [int, .id 8]])] [] p &&
        (match populate 20 20 second p.ctx with
        | some q => portionIs [.id 10, .ptr (.id 11)]
            [(10, .function [int, .id 8]), (11, .data [[], [.id 8, .id 11]])] [10] q
        | none => false)
    | none => false) = true := by decide +kernel

/-- The hypotheses of the theorems hold of this program. -/
example : ∃ rs H B x, Runs prog 8 (first ++ second) rs H B x ∧ H.map (·.1) = [8, 10, 11] ∧
    B.map (·.1) = [10] ∧ Complete prog x.st.keys rs (plain H) := by
  have h := both_run
  split at h
  · rename_i p hp
    simp only [Bool.and_eq_true] at h
    obtain ⟨h1, h2⟩ := h
    split at h2
    · rename_i q hq
      have hr := Runs.step (Runs.step Runs.nil hp) hq
      refine ⟨_, _, _, _, hr, ?_, ?_, (populate_complete prog_tidy prog_kinded hr both_closed
        both_kinded).2⟩
      · simp only [portionIs, Bool.and_eq_true, List.all_eq_true, beq_iff_eq] at h1 h2
        obtain ⟨⟨⟨_, l1⟩, a1⟩, _⟩ := h1
        obtain ⟨⟨⟨_, l2⟩, a2⟩, _⟩ := h2
        match hm : p.made, l1 with
        | [a], _ =>
          match hm' : q.made, l2 with
          | [b, c], _ =>
            rw [hm] at a1
            rw [hm'] at a2
            simp only [List.zip_cons_cons, List.zip_nil_right, List.mem_cons, List.not_mem_nil,
              or_false, forall_eq_or_imp, forall_eq] at a1 a2
            simp [a1.1.1, a2.1.1.1, a2.2.1.1]
      · simp only [portionIs, Bool.and_eq_true, beq_iff_eq] at h1 h2
        simp [h1.2, h2.2]
    · cases h2
  · cases h

end Verif.Generations
