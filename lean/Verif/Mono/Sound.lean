import Verif.Mono.Lemmas
import Mathlib.Tactic.Set

/-!
# The normalizer computes what compile-time expressions mean

The invariant of the context (`Inv`), and the proof that every step of the normalizer keeps it
and gives an expression that means what the given expression evaluates to.
-/

namespace Verif.Mono

variable {Δ : Nat → Option Def} {pm : Nat → Prop} {n0 : Nat}

/-- The meaning of the identifiers in a context. -/
def St.den (s : St) : Nat → Ct := meaning s.keys

/-- The identifier has been looked at: it has no definition that waits to be normalized. -/
def Seen (s : St) (c : Nat) : Prop := ∀ d, s.defs c ≠ some (.instantiated, d)

def Used (s : St) (r : Ct) : Prop := ∃ c, c < s.next ∧ s.den c = r ∧ Seen s c

def Ok (pm : Nat → Prop) (s : St) (c : Nat) : Prop := c < s.next ∧ ¬ pm c

/-- Identifiers that may be left in a normalized expression. -/
def Fine (Δ : Nat → Option Def) (pm : Nat → Prop) (s : St) (c : Nat) : Prop :=
  c < s.next ∧ ¬ pm c ∧ (∀ x, DefOf Δ (s.den c) ≠ some (.alias x)) ∧ Seen s c

/-- How the definition `d` in the context, in a phase, is related to the definition `D` that it
stands for. -/
def Rel (Δ : Nat → Option Def) (pm : Nat → Prop) (s : St) : Phase → Def → Def → Prop
  | .generalized, d, D => d = D ∧ D.IsGeneric
  | .normalized, d, D => DefEval Δ (Used s) D (d.map (Ct.bind s.den)) ∧
      ∀ t ∈ d.terms, t.Normal (Fine Δ pm s)
  | _, d, D => ¬ D.IsGeneric ∧ d.map (Ct.bind s.den) = D ∧ ∀ t ∈ d.terms, t.All (Ok pm s)

structure Inv (Δ : Nat → Option Def) (pm : Nat → Prop) (n0 : Nat) (s : St) : Prop where
  le : n0 ≤ s.next
  base : ∀ c, c < n0 → s.den c = .id c
  high : ∀ c, s.next ≤ c → s.defs c = none
  key : ∀ g as c, ((g, as), c) ∈ s.keys → n0 ≤ c ∧ c < s.next ∧ g < n0 ∧
    (∃ ps d, Δ g = some (.generic ps d) ∧ ps.length = as.length) ∧
    Ct.Normals (fun i => i < c ∧ Fine Δ pm s i) as ∧
    s.den c = .inst (.id g) (Ct.binds s.den as)
  inst : ∀ c, n0 ≤ c → c < s.next → ∃ g as, ((g, as), c) ∈ s.keys
  uniq : ∀ k c c', (k, c) ∈ s.keys → (k, c') ∈ s.keys → c = c'
  undef : ∀ c, c < s.next → s.defs c = none → DefOf Δ (s.den c) = none
  defd : ∀ c ph d, s.defs c = some (ph, d) →
    ∃ D, DefOf Δ (s.den c) = some D ∧ Rel Δ pm s ph d D

/-- Later contexts: nothing that was there is forgotten. -/
structure Ext (s s' : St) : Prop where
  le : s.next ≤ s'.next
  den : ∀ c, c < s.next → s'.den c = s.den c
  seen : ∀ c, c < s.next → Seen s c → Seen s' c
  kept : ∀ c d, s.defs c = some (.normalized, d) → s'.defs c = some (.normalized, d)

/-- The same definitions are being normalized. -/
def Busy (s s' : St) : Prop :=
  ∀ c, (∃ d, s'.defs c = some (.normalizing, d)) ↔ ∃ d, s.defs c = some (.normalizing, d)

structure Post (Δ : Nat → Option Def) (pm : Nat → Prop) (n0 : Nat) (s s' : St) : Prop where
  inv : Inv Δ pm n0 s'
  ext : Ext s s'
  busy : Busy s s'

theorem Ext.refl (s : St) : Ext s s := ⟨Nat.le_refl _, fun _ _ => rfl, fun _ _ h => h, fun _ _ h => h⟩

theorem Ext.trans {s s' s'' : St} (h : Ext s s') (h' : Ext s' s'') : Ext s s'' where
  le := Nat.le_trans h.le h'.le
  den c hc := by rw [h'.den c (Nat.lt_of_lt_of_le hc h.le), h.den c hc]
  seen c hc hs := h'.seen c (Nat.lt_of_lt_of_le hc h.le) (h.seen c hc hs)
  kept c d hd := h'.kept c d (h.kept c d hd)

theorem Post.refl {s : St} (h : Inv Δ pm n0 s) : Post Δ pm n0 s s :=
  ⟨h, Ext.refl s, fun _ => Iff.rfl⟩

theorem Post.trans {s s' s'' : St} (h : Post Δ pm n0 s s') (h' : Post Δ pm n0 s' s'') :
    Post Δ pm n0 s s'' :=
  ⟨h'.inv, h.ext.trans h'.ext, fun c => (h'.busy c).trans (h.busy c)⟩

/-! ## Normal expressions -/

mutual
theorem Ct.Normal.mono {P Q : Nat → Prop} (h : ∀ c, P c → Q c) :
    ∀ t : Ct, t.Normal P → t.Normal Q
  | .id c, ht => h c ht
  | .ptr t, ht => Ct.Normal.mono h t ht
  | .clos as t, ht => ⟨Ct.Normals.mono h as ht.1, Ct.Normal.mono h t ht.2⟩
  | .array t, ht => Ct.Normal.mono h t ht
  | .syntax t, ht => Ct.Normal.mono h t ht
  | .prim _, _ => trivial

theorem Ct.Normals.mono {P Q : Nat → Prop} (h : ∀ c, P c → Q c) :
    ∀ ts : List Ct, Ct.Normals P ts → Ct.Normals Q ts
  | [], _ => trivial
  | t :: ts, ht => ⟨Ct.Normal.mono h t ht.1, Ct.Normals.mono h ts ht.2⟩
end

mutual
theorem Ct.Normal.all {P : Nat → Prop} : ∀ t : Ct, t.Normal P → t.All P
  | .id _, ht => ht
  | .ptr t, ht => Ct.Normal.all t ht
  | .clos as t, ht => ⟨Ct.Normals.all as ht.1, Ct.Normal.all t ht.2⟩
  | .array t, ht => Ct.Normal.all t ht
  | .syntax t, ht => Ct.Normal.all t ht
  | .prim _, _ => trivial

theorem Ct.Normals.all {P : Nat → Prop} : ∀ ts : List Ct, Ct.Normals P ts → Ct.Alls P ts
  | [], _ => trivial
  | t :: ts, ht => ⟨Ct.Normal.all t ht.1, Ct.Normals.all ts ht.2⟩
end

mutual
theorem Ct.Normal.and {P Q : Nat → Prop} : ∀ t : Ct, t.Normal P → t.All Q →
    t.Normal fun c => Q c ∧ P c
  | .id _, ht, hq => ⟨hq, ht⟩
  | .ptr t, ht, hq => Ct.Normal.and t ht hq
  | .clos as t, ht, hq => ⟨Ct.Normals.and as ht.1 hq.1, Ct.Normal.and t ht.2 hq.2⟩
  | .array t, ht, hq => Ct.Normal.and t ht hq
  | .syntax t, ht, hq => Ct.Normal.and t ht hq
  | .prim _, _, _ => trivial

theorem Ct.Normals.and {P Q : Nat → Prop} : ∀ ts : List Ct, Ct.Normals P ts → Ct.Alls Q ts →
    Ct.Normals (fun c => Q c ∧ P c) ts
  | [], _, _ => trivial
  | t :: ts, ht, hq => ⟨Ct.Normal.and t ht.1 hq.1, Ct.Normals.and ts ht.2 hq.2⟩
end

theorem normals_iff (P : Nat → Prop) (ts : List Ct) :
    Ct.Normals P ts ↔ ∀ t ∈ ts, t.Normal P := by
  induction ts with
  | nil => simp [Ct.Normals]
  | cons t ts ih => simp [Ct.Normals, ih]

mutual
theorem Ct.Normal.self {U : Ct → Prop} {P : Nat → Prop} {f : Nat → Ct}
    (h : ∀ c, P c → Eval Δ U (f c) (f c)) :
    ∀ t : Ct, t.Normal P → Eval Δ U (t.bind f) (t.bind f)
  | .id c, ht => h c ht
  | .ptr t, ht => .ptr (Ct.Normal.self h t ht)
  | .clos as t, ht => .clos (Ct.Normals.self h as ht.1) (Ct.Normal.self h t ht.2)
  | .array t, ht => .array (Ct.Normal.self h t ht)
  | .syntax t, ht => .syntax (Ct.Normal.self h t ht)
  | .prim _, _ => .prim

theorem Ct.Normals.self {U : Ct → Prop} {P : Nat → Prop} {f : Nat → Ct}
    (h : ∀ c, P c → Eval Δ U (f c) (f c)) :
    ∀ ts : List Ct, Ct.Normals P ts → Evals Δ U (Ct.binds f ts) (Ct.binds f ts)
  | [], _ => .nil
  | t :: ts, ht => .cons (Ct.Normal.self h t ht.1) (Ct.Normals.self h ts ht.2)
end

/-! ## Going to a later context -/

theorem Ext.used {s s' : St} (h : Ext s s') : ∀ r, Used s r → Used s' r := by
  rintro r ⟨c, hc, hr, hs⟩
  exact ⟨c, Nat.lt_of_lt_of_le hc h.le, by rw [h.den c hc, hr], h.seen c hc hs⟩

theorem Ext.ok {s s' : St} (h : Ext s s') : ∀ c, Ok pm s c → Ok pm s' c :=
  fun _ hc => ⟨Nat.lt_of_lt_of_le hc.1 h.le, hc.2⟩

theorem Ext.fine {s s' : St} (h : Ext s s') : ∀ c, Fine Δ pm s c → Fine Δ pm s' c := by
  rintro c ⟨a, b, d, e⟩
  exact ⟨Nat.lt_of_lt_of_le a h.le, b, by rw [h.den c a]; exact d, h.seen c a e⟩

theorem Fine.ok {s : St} {c : Nat} (h : Fine Δ pm s c) : Ok pm s c := ⟨h.1, h.2.1⟩

theorem Ext.bind {s s' : St} (h : Ext s s') {t : Ct} (ht : t.All (Ok pm s)) :
    t.bind s'.den = t.bind s.den :=
  bind_congr (fun c hc => h.den c hc.1) t ht

theorem Ext.binds {s s' : St} (h : Ext s s') {ts : List Ct} (ht : Ct.Alls (Ok pm s) ts) :
    Ct.binds s'.den ts = Ct.binds s.den ts :=
  binds_congr (fun c hc => h.den c hc.1) ts ht

theorem normal_ok {s : St} {t : Ct} (ht : t.Normal (Fine Δ pm s)) : t.All (Ok pm s) :=
  Ct.Normal.all t (Ct.Normal.mono (fun _ h => h.ok) t ht)

theorem Rel.ext {s s' : St} (h : Ext s s') {ph : Phase} {d D : Def}
    (hr : Rel Δ pm s ph d D) : Rel Δ pm s' ph d D := by
  have pend : (¬ D.IsGeneric ∧ d.map (Ct.bind s.den) = D ∧ ∀ t ∈ d.terms, t.All (Ok pm s)) →
      (¬ D.IsGeneric ∧ d.map (Ct.bind s'.den) = D ∧ ∀ t ∈ d.terms, t.All (Ok pm s')) := by
    rintro ⟨a, b, c⟩
    refine ⟨a, ?_, fun t ht => Ct.All.mono h.ok t (c t ht)⟩
    rw [← b]
    exact Def.map_congr d fun t ht => h.bind (c t ht)
  cases ph with
  | generalized => exact hr
  | instantiated => exact pend hr
  | normalizing => exact pend hr
  | normalized =>
    obtain ⟨a, b⟩ := hr
    refine ⟨?_, fun t ht => Ct.Normal.mono h.fine t (b t ht)⟩
    rw [Def.map_congr d fun t ht => h.bind (normal_ok (b t ht))]
    exact a.mono h.used

/-- Changing one definition. -/
theorem Inv.setDef {s : St} (hi : Inv Δ pm n0 s) {c : Nat} {ph : Phase} {d D : Def}
    (hc : c < s.next) (hph : ph ≠ .instantiated) (hD : DefOf Δ (s.den c) = some D)
    (hr : Rel Δ pm s ph d D) (hk : ∀ d, s.defs c ≠ some (.normalized, d)) :
    Inv Δ pm n0 { s with defs := Function.update s.defs c (some (ph, d)) } ∧
      Ext s { s with defs := Function.update s.defs c (some (ph, d)) } := by
  have he : Ext s { s with defs := Function.update s.defs c (some (ph, d)) } := by
    refine ⟨Nat.le_refl _, fun _ _ => rfl, ?_, ?_⟩
    case refine_2 =>
      intro b d' hb
      have hbc : b ≠ c := by rintro rfl; exact hk d' hb
      simp only [Function.update_of_ne hbc]
      exact hb
    intro b _ hs d'
    by_cases hb : b = c
    · subst hb
      simp only [Function.update_self]
      intro h
      cases h
      exact hph rfl
    · simp only [Function.update_of_ne hb]
      exact hs d'
  refine ⟨?_, he⟩
  constructor
  · exact hi.le
  · exact hi.base
  · intro b hb
    have : b ≠ c := by rintro rfl; exact absurd hb (Nat.not_le.2 hc)
    simp only [Function.update_of_ne this]
    exact hi.high b hb
  · intro g as b hk
    obtain ⟨x1, x2, x3, x4, x5, x6⟩ := hi.key g as b hk
    exact ⟨x1, x2, x3, x4, Ct.Normals.mono (fun i hi => ⟨hi.1, he.fine i hi.2⟩) as x5, x6⟩
  · exact hi.inst
  · exact hi.uniq
  · intro b hb hn
    by_cases hbc : b = c
    · subst hbc; simp at hn
    · simp only [Function.update_of_ne hbc] at hn
      exact hi.undef b hb hn
  · intro b ph' d' hb
    by_cases hbc : b = c
    · subst hbc
      simp only [Function.update_self, Option.some.injEq, Prod.mk.injEq] at hb
      obtain ⟨rfl, rfl⟩ := hb
      exact ⟨D, hD, hr.ext he⟩
    · simp only [Function.update_of_ne hbc] at hb
      obtain ⟨D', hD', hr'⟩ := hi.defd b ph' d' hb
      exact ⟨D', hD', hr'.ext he⟩

/-! ## What identifiers evaluate to -/

theorem Inv.lt {s : St} (hi : Inv Δ pm n0 s) {c : Nat} {x} (h : s.defs c = some x) :
    c < s.next := by
  by_contra hc
  rw [hi.high c (Nat.not_lt.1 hc)] at h
  cases h

theorem Inv.generic {s : St} (hi : Inv Δ pm n0 s) {g : Nat} {ps : List Nat} {d : Def}
    (hg : g < n0) (h : Δ g = some (.generic ps d)) :
    s.defs g = some (.generalized, .generic ps d) := by
  have hl : g < s.next := Nat.lt_of_lt_of_le hg hi.le
  have hD : DefOf Δ (s.den g) = some (.generic ps d) := by rw [hi.base g hg]; exact h
  cases hd : s.defs g with
  | none => rw [hi.undef g hl hd] at hD; cases hD
  | some x =>
    obtain ⟨ph, e⟩ := x
    obtain ⟨D, hD', hr⟩ := hi.defd g ph e hd
    rw [hD] at hD'
    cases hD'
    cases ph with
    | generalized => rw [hr.1]
    | instantiated => exact absurd trivial hr.1
    | normalizing => exact absurd trivial hr.1
    | normalized =>
      have := hr.1
      cases this

theorem Inv.seen_generic {s : St} (hi : Inv Δ pm n0 s) {g : Nat} {ps : List Nat} {d : Def}
    (hg : g < n0) (h : Δ g = some (.generic ps d)) : Eval Δ (Used s) (.id g) (.id g) := by
  refine .idSelf ⟨g, Nat.lt_of_lt_of_le hg hi.le, hi.base g hg, ?_⟩ ?_
  · intro d'
    rw [hi.generic hg h]
    intro h'; cases h'
  · intro x; rw [h]; intro h'; cases h'

/-- A definition of an instance. -/
theorem Inv.defOf {s : St} (hi : Inv Δ pm n0 s) {g as c}
    (hk : ((g, as), c) ∈ s.keys) : ∃ d, DefOf Δ (s.den c) = some d := by
  obtain ⟨_, _, _, ⟨ps, d, hg, hl⟩, _, hd⟩ := hi.key g as c hk
  rw [hd]
  simp only [DefOf, hg]
  rw [if_pos (by rw [hl, binds_eq, List.length_map])]
  exact ⟨_, rfl⟩

theorem Inv.self_id {s : St} (hi : Inv Δ pm n0 s) :
    ∀ c, Fine Δ pm s c → Eval Δ (Used s) (s.den c) (s.den c) := by
  intro c
  induction c using Nat.strongRecOn with
  | _ c ih =>
    intro hf
    have hu : Used s (s.den c) := ⟨c, hf.1, rfl, hf.2.2.2⟩
    by_cases hc : c < n0
    · have hb := hi.base c hc
      rw [hb] at hu ⊢
      refine .idSelf hu ?_
      have := hf.2.2.1
      rw [hb] at this
      exact this
    · obtain ⟨g, as, hk⟩ := hi.inst c (Nat.not_lt.1 hc) hf.1
      obtain ⟨D, hD⟩ := hi.defOf hk
      obtain ⟨_, _, hg, ⟨ps, d, hgd, _⟩, hn, hd⟩ := hi.key g as c hk
      have hne := hf.2.2.1
      rw [hd] at hu hD hne ⊢
      refine .instSelf (hi.seen_generic hg hgd)
        (Ct.Normals.self (fun i hi => ih i hi.1 hi.2) as hn) hu hD ?_
      intro x hx
      exact hne x (by rw [hD, hx])

theorem Inv.self {s : St} (hi : Inv Δ pm n0 s) {t : Ct} (ht : t.Normal (Fine Δ pm s)) :
    Eval Δ (Used s) (t.bind s.den) (t.bind s.den) :=
  Ct.Normal.self hi.self_id t ht

theorem Inv.selfs {s : St} (hi : Inv Δ pm n0 s) {ts : List Ct}
    (ht : Ct.Normals (Fine Δ pm s) ts) :
    Evals Δ (Used s) (Ct.binds s.den ts) (Ct.binds s.den ts) :=
  Ct.Normals.self hi.self_id ts ht

theorem Inv.alias_id {s : St} (hi : Inv Δ pm n0 s) {c : Nat} {x v : Ct} (hc : c < s.next)
    (hs : Seen s c) (hD : DefOf Δ (s.den c) = some (.alias x))
    (hv : Eval Δ (Used s) x v) : Eval Δ (Used s) (s.den c) v := by
  have hu : Used s (s.den c) := ⟨c, hc, rfl, hs⟩
  by_cases hb : c < n0
  · rw [hi.base c hb] at hu hD ⊢
    exact .idAlias hu hD hv
  · obtain ⟨g, as, hk⟩ := hi.inst c (Nat.not_lt.1 hb) hc
    obtain ⟨_, _, hg, ⟨ps, d, hgd, _⟩, hn, hd⟩ := hi.key g as c hk
    rw [hd] at hu hD ⊢
    refine .instAlias (hi.seen_generic hg hgd) (hi.selfs ?_) hu hD hv
    exact Ct.Normals.mono (fun _ h => h.2) as hn

/-- Evaluating a term by first evaluating its parts. -/
theorem inst_step {U : Ct → Prop} {f h : Ct} {as vs : List Ct} {v : Ct}
    (hf : Eval Δ U f h) (ha : Evals Δ U as vs) (hh : Eval Δ U h h) (hv : Evals Δ U vs vs)
    (he : Eval Δ U (.inst h vs) v) : Eval Δ U (.inst f as) v := by
  cases he with
  | instAlias a b c d e =>
    cases hh.det a
    cases hv.det b
    exact .instAlias hf ha c d e
  | instSelf a b c d e =>
    cases hh.det a
    cases hv.det b
    exact .instSelf hf ha c d e

/-! ## Instances -/

theorem lookup_zip_map (f : Ct → Ct) (ps : List Nat) (vs : List Ct) (p : Nat) :
    (ps.zip (vs.map f)).lookup p = ((ps.zip vs).lookup p).map f := by
  induction ps generalizing vs with
  | nil => rfl
  | cons q ps ih =>
    cases vs with
    | nil => rfl
    | cons v vs =>
      simp only [List.map_cons, List.zip_cons_cons, List.lookup]
      cases (p == q) with
      | true => rfl
      | false => exact ih vs

theorem lookup_zip_mem {ps : List Nat} {vs : List Ct} {p : Nat} (h : p ∈ ps)
    (hl : ps.length = vs.length) : ∃ v ∈ vs, (ps.zip vs).lookup p = some v := by
  induction ps generalizing vs with
  | nil => cases h
  | cons q ps ih =>
    cases vs with
    | nil => simp at hl
    | cons v vs =>
      simp only [List.zip_cons_cons, List.lookup]
      by_cases hpq : p = q
      · subst hpq
        exact ⟨v, List.mem_cons_self, by simp⟩
      · have hb : (p == q) = false := by simpa using hpq
        rw [hb]
        rcases List.mem_cons.1 h with h | h
        · exact absurd h hpq
        · obtain ⟨w, hw, he⟩ := ih h (by simpa using hl)
          exact ⟨w, List.mem_cons_of_mem _ hw, he⟩

theorem lookup_zip_none {ps : List Nat} {vs : List Ct} {p : Nat} (h : p ∉ ps) :
    (ps.zip vs).lookup p = none := by
  induction ps generalizing vs with
  | nil => rfl
  | cons q ps ih =>
    cases vs with
    | nil => rfl
    | cons v vs =>
      simp only [List.mem_cons, not_or] at h
      have hb : (p == q) = false := by simpa using h.1
      simp only [List.zip_cons_cons, List.lookup, hb]
      exact ih h.2

/-- A generic definition in the context is one of the translator's. -/
theorem Inv.base_generic {s : St} (ht : Tidy Δ pm n0) (hi : Inv Δ pm n0 s) {g ph ps d}
    (h : s.defs g = some (ph, Def.generic ps d)) :
    g < n0 ∧ Δ g = some (.generic ps d) := by
  obtain ⟨D, hD, hr⟩ := hi.defd g ph _ h
  have hlt := hi.lt h
  have hgen : D = .generic ps d := by
    cases ph with
    | generalized => exact hr.1.symm
    | instantiated => obtain ⟨a, b, _⟩ := hr; rw [← b] at a; exact absurd trivial a
    | normalizing => obtain ⟨a, b, _⟩ := hr; rw [← b] at a; exact absurd trivial a
    | normalized => obtain ⟨a, _⟩ := hr; cases a
  subst hgen
  by_cases hg : g < n0
  · rw [hi.base g hg] at hD
    exact ⟨hg, hD⟩
  · obtain ⟨g', as, hk⟩ := hi.inst g (Nat.not_lt.1 hg) hlt
    obtain ⟨_, _, _, ⟨qs, e, he, hl⟩, _, hd⟩ := hi.key g' as g hk
    rw [hd] at hD
    simp only [DefOf, he] at hD
    split at hD
    · have := (ht.generic _ _ _ he).1
      rw [← Def.isGeneric_map] at this
      simp only [Option.some.injEq] at hD
      rw [hD] at this
      exact absurd trivial this
    · cases hD

theorem instantiate_sem {s s' : St} (ht : Tidy Δ pm n0) (hi : Inv Δ pm n0 s) {g : Nat}
    {as : List Ct} {c : Nat} (ha : Ct.Normals (Fine Δ pm s) as)
    (h : instantiate g as s = .ok c s') :
    Post Δ pm n0 s s' ∧ Ok pm s' c ∧ s'.den c = .inst (.id g) (Ct.binds s'.den as) ∧
      g < n0 ∧ ∃ ps d, Δ g = some (.generic ps d) := by
  unfold instantiate at h
  split at h
  · rename_i c' hf
    cases h
    have hk := findKey_some hf
    obtain ⟨x1, x2, x3, ⟨ps, d, x4, x5⟩, x6, x7⟩ := hi.key g as c hk
    exact ⟨Post.refl hi, ⟨x2, fun hp => absurd (ht.param c hp).1 (Nat.not_lt.2 x1)⟩, x7, x3, ps, d, x4⟩
  · rename_i hf
    split at h
    · rename_i ph ps d hd
      split at h
      · rename_i hl
        obtain ⟨hg, hgd⟩ := hi.base_generic ht hd
        obtain ⟨hng, hnd, hps, hts⟩ := ht.generic g ps d hgd
        rw [replaceDef_assign hnd] at h
        have hng' : ¬ (d.map (Ct.bind (assign ps as))).IsGeneric := by rwa [Def.isGeneric_map]
        have hph : startPhase (d.map (Ct.bind (assign ps as))) = .instantiated := by
          revert hng'
          cases d.map (Ct.bind (assign ps as)) <;> simp [startPhase, Def.IsGeneric]
        simp only [hph] at h
        generalize hs' : (St.mk (s.next + 1) (((g, as), s.next) :: s.keys)
          (Function.update s.defs s.next
            (some (Phase.instantiated, d.map (Ct.bind (assign ps as)))))) = s1 at h
        cases h
        have hden : ∀ c, c < s.next → s'.den c = s.den c := by
          intro c hc
          subst hs'
          simp only [St.den, meaning]
          rw [if_neg (Nat.ne_of_lt hc)]
        have hdefs : ∀ c, c ≠ s.next → s'.defs c = s.defs c := by
          intro c hc
          subst hs'
          simp only [Function.update_of_ne hc]
        have hdefn : s'.defs s.next = some (.instantiated, d.map (Ct.bind (assign ps as))) := by
          subst hs'
          simp
        have hnext : s'.next = s.next + 1 := by subst hs'; rfl
        have hkeys : s'.keys = ((g, as), s.next) :: s.keys := by subst hs'; rfl
        have he : Ext s s' := by
          refine ⟨by omega, hden, ?_, ?_⟩
          · intro c hc hs d'
            rw [hdefs c (Nat.ne_of_lt hc)]
            exact hs d'
          · intro c d' hd'
            rw [hdefs c (Nat.ne_of_lt (hi.lt hd'))]
            exact hd'
        have hok : Ct.Alls (Ok pm s) as := Ct.Normals.all as (Ct.Normals.mono (fun _ h => h.ok) as ha)
        have hnew : s'.den s.next = .inst (.id g) (Ct.binds s'.den as) := by
          rw [he.binds hok]
          subst hs'
          simp [St.den, meaning]
        have hbase : ∀ c, c < n0 → s'.den c = .id c := by
          intro c hc
          rw [hden c (Nat.lt_of_lt_of_le hc hi.le), hi.base c hc]
        refine ⟨⟨?_, he, ?_⟩, ?_, hnew, hg, ps, d, hgd⟩
        · constructor
          · have := hi.le; omega
          · exact hbase
          · intro c hc
            rw [hdefs c (by omega)]
            exact hi.high c (by omega)
          · intro g' as' c hk
            rw [hkeys] at hk
            rcases List.mem_cons.1 hk with hk | hk
            · simp only [Prod.mk.injEq] at hk
              obtain ⟨⟨rfl, rfl⟩, rfl⟩ := hk
              refine ⟨hi.le, by omega, hg, ⟨ps, d, hgd, hl⟩, ?_, hnew⟩
              exact Ct.Normals.mono (fun i h => ⟨h.1, he.fine i h⟩) _ ha
            · obtain ⟨x1, x2, x3, x4, x5, x6⟩ := hi.key g' as' c hk
              refine ⟨x1, by omega, x3, x4, Ct.Normals.mono (fun i hi => ⟨hi.1, he.fine i hi.2⟩) _ x5, ?_⟩
              rw [hden c x2, x6, he.binds (pm := pm)]
              exact Ct.Normals.all _ (Ct.Normals.mono (fun _ h => h.2.ok) _ x5)
          · intro c h1 h2
            rw [hkeys]
            by_cases hc : c = s.next
            · subst hc; exact ⟨g, as, List.mem_cons_self⟩
            · obtain ⟨g', as', hk⟩ := hi.inst c h1 (by omega)
              exact ⟨g', as', List.mem_cons_of_mem _ hk⟩
          · intro k c c' hk hk'
            rw [hkeys] at hk hk'
            rcases List.mem_cons.1 hk with hk | hk <;> rcases List.mem_cons.1 hk' with hk' | hk'
            · simp only [Prod.mk.injEq] at hk hk'; rw [hk.2, hk'.2]
            · simp only [Prod.mk.injEq] at hk
              rw [hk.1] at hk'
              exact absurd hk' (findKey_none hf _)
            · simp only [Prod.mk.injEq] at hk'
              rw [hk'.1] at hk
              exact absurd hk (findKey_none hf _)
            · exact hi.uniq k c c' hk hk'
          · intro c hc hn
            by_cases hcn : c = s.next
            · subst hcn; rw [hdefn] at hn; cases hn
            · rw [hdefs c hcn] at hn
              rw [hden c (by omega)]
              exact hi.undef c (by omega) hn
          · intro c ph' d' hc
            by_cases hcn : c = s.next
            · subst hcn
              rw [hdefn] at hc
              cases hc
              refine ⟨d.map (Ct.bind (assign ps (Ct.binds s'.den as))), ?_, ?_, ?_, ?_⟩
              · rw [hnew]
                simp only [DefOf, hgd]
                rw [if_pos (by rw [hl, binds_eq, List.length_map])]
              · rwa [Def.isGeneric_map]
              · rw [Def.map_map]
                apply Def.map_congr
                intro t htm
                rw [bind_bind]
                refine bind_congr (fun i hi' => ?_) t (hts t htm)
                simp only [assign, binds_eq, lookup_zip_map]
                by_cases hip : i ∈ ps
                · obtain ⟨v, _, hv⟩ := lookup_zip_mem hip hl
                  simp [hv]
                · rw [lookup_zip_none hip]
                  simpa [Ct.bind] using hbase i hi'.1
              · intro t htm
                rw [Def.terms_map] at htm
                obtain ⟨u, hu, rfl⟩ := List.mem_map.1 htm
                rw [all_bind]
                refine Ct.All.mono (fun i hi' => ?_) u (hts u hu)
                simp only [assign]
                by_cases hip : i ∈ ps
                · obtain ⟨v, hvm, hv⟩ := lookup_zip_mem hip hl
                  rw [hv]
                  exact Ct.All.mono he.ok v ((alls_iff _ _).1 hok v hvm)
                · rw [lookup_zip_none hip]
                  refine ⟨?_, fun hp => hip (hi'.2 hp)⟩
                  have := hi.le
                  have := hi'.1
                  omega
            · rw [hdefs c hcn] at hc
              obtain ⟨D, hD, hr⟩ := hi.defd c ph' d' hc
              refine ⟨D, ?_, hr.ext he⟩
              rw [hden c (hi.lt hc)]
              exact hD
        · intro c
          by_cases hcn : c = s.next
          · subst hcn
            rw [hdefn, hi.high _ (Nat.le_refl _)]
            simp
          · rw [hdefs c hcn]
        · refine ⟨by omega, fun hp => absurd (ht.param _ hp).1 ?_⟩
          exact Nat.not_lt.2 hi.le
      · cases h
    · cases h

end Verif.Mono
