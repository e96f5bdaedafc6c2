import Verif.Import.Lemmas

/-!
# C14: import name patterns are consistent; C15: explicit imports shadow the implicit ones
-/
namespace Verif.Import
open Spec

/-! ## C14 -/

/-- A text is treated as a pattern exactly when it is one. -/
theorem fromPattern_isSome (p : Name) : (fromPattern p).isSome ↔ IsPattern p := by
  rcases fromPattern_cases p with ⟨h, e⟩ | ⟨f, h, e⟩ | ⟨f, h, e⟩ | ⟨h, e⟩
  · simp only [e, Option.isSome_some, true_iff]; exact .inl h
  · simp only [e, Option.isSome_some, true_iff]; exact .inr ⟨_, _, h⟩
  · simp only [e, Option.isSome_some, true_iff]; exact .inr ⟨_, _, h⟩
  · simp [e, h]

/-- A name is selected by a pattern, with remainder `r`, exactly when it has the shape of the pattern with `r` for the underscore. -/
theorem deconstruct_iff (p n r : Name) (w : Wild) (h : fromPattern p = some w) : deconstruct w n = some r ↔ Shape p n r := by
  rcases fromPattern_cases p with ⟨hp, e⟩ | ⟨f, hp, e⟩ | ⟨f, hp, e⟩ | ⟨hp, e⟩ <;> rw [e] at h <;> cases h
  · subst hp
    simp only [deconstruct, Shape, Build]
    constructor
    · intro h; cases h; exact ⟨.inl ⟨trivial, rfl⟩, by simp⟩
    · rintro ⟨⟨-, rfl⟩ | ⟨f, h, -⟩ | ⟨f, h, -⟩, -⟩
      · rfl
      · exact absurd rfl (fixed_ne h)
      · exact absurd rfl (fixed_ne h)
  · have hne := fixed_ne hp
    simp only [deconstruct]
    constructor
    · intro h
      split at h
      · next hc =>
        simp only [Bool.and_eq_true, isPrefixOf_iff, bne_iff_ne] at hc
        obtain ⟨⟨q, rfl⟩, hl⟩ := hc
        simp at h hl
        subst h
        exact ⟨.inr (.inl ⟨f, hp, by simp⟩), fun _ => hl⟩
      · cases h
    · rintro ⟨⟨h, -⟩ | ⟨f', h, rfl⟩ | ⟨f', h, -⟩, hr⟩
      · exact absurd h hne
      · obtain ⟨rfl, -⟩ := fixed_det hp h
        have := hr hne
        rw [if_pos]
        · simp
        · simp only [Bool.and_eq_true, isPrefixOf_iff, bne_iff_ne]
          exact ⟨⟨r, rfl⟩, by simpa using this⟩
      · exact absurd (fixed_det hp h).2 (by simp)
  · have hne := fixed_ne hp
    simp only [deconstruct]
    constructor
    · intro h
      split at h
      · next hc =>
        simp only [Bool.and_eq_true, isSuffixOf_iff, bne_iff_ne] at hc
        obtain ⟨⟨q, rfl⟩, hl⟩ := hc
        simp at h hl
        subst h
        exact ⟨.inr (.inr ⟨f, hp, rfl⟩), fun _ => hl⟩
      · cases h
    · rintro ⟨⟨h, -⟩ | ⟨f', h, -⟩ | ⟨f', h, rfl⟩, hr⟩
      · exact absurd h hne
      · exact absurd (fixed_det hp h).2 (by simp)
      · obtain ⟨rfl, -⟩ := fixed_det hp h
        have := hr hne
        rw [if_pos]
        · simp
        · simp only [Bool.and_eq_true, isSuffixOf_iff, bne_iff_ne]
          exact ⟨⟨r, rfl⟩, by simpa using this⟩

/-- Renaming puts the remainder in the place of the underscore of the new pattern. -/
theorem construct_iff (p n r : Name) (w : Wild) (h : fromPattern p = some w) : construct w r = n ↔ Build p r n := by
  rcases fromPattern_cases p with ⟨hp, e⟩ | ⟨f, hp, e⟩ | ⟨f, hp, e⟩ | ⟨hp, e⟩ <;> rw [e] at h <;> cases h
  · subst hp
    simp only [construct, Build]
    constructor
    · rintro rfl; exact .inl ⟨trivial, rfl⟩
    · rintro (⟨-, rfl⟩ | ⟨f, h, -⟩ | ⟨f, h, -⟩)
      · rfl
      · exact absurd rfl (fixed_ne h)
      · exact absurd rfl (fixed_ne h)
  · simp only [construct, Build]
    constructor
    · rintro rfl; exact .inr (.inl ⟨f, hp, rfl⟩)
    · rintro (⟨h, -⟩ | ⟨f', h, rfl⟩ | ⟨f', h, -⟩)
      · exact absurd h (fixed_ne hp)
      · rw [(fixed_det hp h).1]
      · exact absurd (fixed_det hp h).2 (by simp)
  · simp only [construct, Build]
    constructor
    · rintro rfl; exact .inr (.inr ⟨f, hp, rfl⟩)
    · rintro (⟨h, -⟩ | ⟨f', h, -⟩ | ⟨f', h, rfl⟩)
      · exact absurd h (fixed_ne hp)
      · exact absurd (fixed_det hp h).2 (by simp)
      · rw [(fixed_det hp h).1]

/-- Renaming from pattern `p` to pattern `q` and back gives the original name. -/
theorem rename_back (p q n r : Name) (src dest : Wild) (hp : fromPattern p = some src) (hq : fromPattern q = some dest)
    (hn : n ≠ []) (h : deconstruct src n = some r) :
    deconstruct dest (construct dest r) = some r ∧ construct src r = n := by
  have hs := (deconstruct_iff p n r src hp).1 h
  have hr : r ≠ [] := by
    by_cases hp' : p = ['_']
    · subst hp'
      rcases hs.1 with ⟨-, rfl⟩ | ⟨f, h, -⟩ | ⟨f, h, -⟩
      · exact hn
      · exact absurd rfl (fixed_ne h)
      · exact absurd rfl (fixed_ne h)
    · exact hs.2 hp'
  exact ⟨(deconstruct_iff q _ r dest hq).2 ⟨(construct_iff q _ r dest hq).1 rfl, fun _ => hr⟩,
    (construct_iff p n r src hp).2 hs.1⟩

/-- Different names selected by a pattern keep different names when renamed. -/
theorem rename_injective (p q n n' r r' : Name) (src dest : Wild) (hp : fromPattern p = some src) (hq : fromPattern q = some dest)
    (hn : n ≠ []) (hn' : n' ≠ []) (h : deconstruct src n = some r) (h' : deconstruct src n' = some r')
    (e : construct dest r = construct dest r') : n = n' := by
  obtain ⟨a, b⟩ := rename_back p q n r src dest hp hq hn h
  obtain ⟨a', b'⟩ := rename_back p q n' r' src dest hp hq hn' h'
  rw [e, a'] at a
  cases a
  rw [← b, b']

/-- Non-vacuity: `string/_` renamed to `s/_`. -/
example : let src := Wild.startsWith "string/".toList
    fromPattern "string/_".toList = some src ∧ deconstruct src "string/split".toList = some "split".toList ∧
    fromPattern "_-s".toList = some (.endsWith "-s".toList) ∧
    construct (.endsWith "-s".toList) "split".toList = "split-s".toList := by decide

/-! ## C15 -/

variable {K : Type} [DecidableEq K]

theorem adds_wildLoop (src dest : Wild) (l : List (Name × K)) :
    Adds (wildLoop src dest l) True (fun n k => ∃ m r, (m, k) ∈ l ∧ deconstruct src m = some r ∧ construct dest r = n) := by
  induction l with
  | nil => exact (Adds.none).congr Iff.rfl (by simp)
  | cons e l ih =>
    obtain ⟨m, k⟩ := e
    cases hd : deconstruct src m with
    | none =>
      have : wildLoop src dest ((m, k) :: l) = wildLoop src dest l := by funext t; simp [wildLoop, hd]
      rw [this]
      refine ih.congr Iff.rfl fun n j => ?_
      constructor
      · rintro ⟨m', r, h1, h2⟩; exact ⟨m', r, by simp [h1], h2⟩
      · rintro ⟨m', r, h1, h2, h3⟩
        rcases List.mem_cons.1 h1 with h1 | h1
        · cases h1; rw [hd] at h2; cases h2
        · exact ⟨m', r, h1, h2, h3⟩
    | some r =>
      have : wildLoop src dest ((m, k) :: l) = fun t => define t (construct dest r) k >>= wildLoop src dest l := by
        funext t; simp [wildLoop, hd]
      rw [this]
      refine ((Adds.define _ _).bind ih).congr (by simp) fun n j => ?_
      constructor
      · rintro (⟨rfl, rfl⟩ | ⟨m', r', h1, h2⟩)
        · exact ⟨m, r, by simp, hd, rfl⟩
        · exact ⟨m', r', by simp [h1], h2⟩
      · rintro ⟨m', r', h1, h2, h3⟩
        rcases List.mem_cons.1 h1 with h1 | h1
        · cases h1; rw [hd] at h2; cases h2; exact .inl ⟨h3.symm, rfl⟩
        · exact .inr ⟨m', r', h1, h2, h3⟩

theorem adds_importTarget (exports : List (Name × K)) (he : Entries exports) (t : Target) :
    Adds (importTarget exports t) (TargetOk exports t) (TargetSays exports t) := by
  unfold importTarget
  by_cases hp : IsPattern t.sym
  · have hs := (fromPattern_isSome t.sym).2 hp
    obtain ⟨src, hsrc⟩ := Option.isSome_iff_exists.1 hs
    simp only [hsrc]
    have wild : ∀ q dest, t.name.getD t.sym = q → fromPattern q = some dest →
        ∀ n k, (∃ m r, (m, k) ∈ exports ∧ deconstruct src m = some r ∧ construct dest r = n) ↔ TargetSays exports t n k := by
      intro q dest hq hdest n k
      unfold TargetSays
      simp only [hp, true_and, not_true_eq_false, false_and, or_false]
      constructor
      · rintro ⟨m, r, h1, h2, h3⟩
        exact ⟨m, r, h1, (deconstruct_iff _ _ _ _ hsrc).1 h2, hq ▸ (construct_iff q _ _ _ hdest).1 h3⟩
      · rintro ⟨m, r, h1, h2, h3⟩
        exact ⟨m, r, h1, (deconstruct_iff _ _ _ _ hsrc).2 h2, (construct_iff q _ _ _ hdest).2 (hq ▸ h3)⟩
    cases hn : t.name with
    | none =>
      simp only
      refine (adds_wildLoop src src exports).congr ?_ (wild t.sym src (by simp [hn]) hsrc)
      simp [TargetOk, hp, hn]
    | some d =>
      simp only
      cases hd : fromPattern d with
      | none =>
        simp only
        have hd' : ¬ IsPattern d := by rw [← fromPattern_isSome, hd]; simp
        have : ¬ TargetOk exports t := fun h => hd' (h.1 hp d hn)
        intro top R h
        refine ⟨by simp [this], by simp⟩
      | some dest =>
        simp only
        have hd' : IsPattern d := by rw [← fromPattern_isSome, hd]; simp
        refine (adds_wildLoop src dest exports).congr ?_ (wild d dest (by simp [hn]) hd)
        simp [TargetOk, hp, hn, hd']
  · have hs : fromPattern t.sym = none := by
      cases h : fromPattern t.sym with
      | none => rfl
      | some w => exact absurd ((fromPattern_isSome _).1 (by simp [h])) hp
    simp only [hs]
    cases hg : HMap.get exports t.sym with
    | none =>
      have : ¬ TargetOk exports t := by
        intro h
        obtain ⟨k, hk⟩ := h.2 hp
        rw [(get_entries he _ _).2 hk] at hg; cases hg
      intro top R h
      refine ⟨by simp [this], by simp⟩
    | some k =>
      have hk := (get_entries he _ _).1 hg
      refine (Adds.define _ _).congr ?_ fun n j => ?_
      · simp only [true_iff]; exact ⟨fun h => absurd h hp, fun _ => ⟨k, hk⟩⟩
      · unfold TargetSays
        simp only [hp, false_and, not_false_eq_true, true_and, false_or]
        constructor
        · rintro ⟨rfl, rfl⟩; exact ⟨hk, rfl⟩
        · rintro ⟨h1, rfl⟩
          refine ⟨rfl, ?_⟩
          rw [(get_entries he _ _).2 h1] at hg
          exact Option.some.inj hg

theorem adds_importTargets (exports : List (Name × K)) (he : Entries exports) (ts : List Target) :
    Adds (importTargets exports ts) (∀ t ∈ ts, TargetOk exports t) (fun n k => ∃ t ∈ ts, TargetSays exports t n k) := by
  induction ts with
  | nil => exact (Adds.none).congr (by simp) (by simp)
  | cons t ts ih =>
    have : importTargets exports (t :: ts) = fun top => importTarget exports t top >>= importTargets exports ts := rfl
    rw [this]
    exact ((adds_importTarget exports he t).bind ih).congr (by simp) (by simp)

/-- The tables `importLoop` goes through. -/
def tables : List (Import K) → Top K → Except Err (Top K)
  | [], top => .ok top
  | i :: is, top => importTargets i.exports i.targets top >>= tables is

theorem importLoop_eq (is : List (Import K)) (top : Top K) (inits : List Nat) :
    importLoop is (top, inits) = (tables is top).map (fun t => (t, inits ++ is.map (·.module))) := by
  induction is generalizing top inits with
  | nil => simp [importLoop, tables, Except.map]
  | cons i is ih =>
    simp only [importLoop, tables]
    cases importTargets i.exports i.targets top with
    | error e => rfl
    | ok t =>
      show importLoop is (t, inits ++ [i.module]) = (tables is t).map _
      rw [ih]; simp

theorem adds_tables (is : List (Import K)) (he : ∀ i ∈ is, Entries i.exports) :
    Adds (tables is) (∀ i ∈ is, ∀ t ∈ i.targets, TargetOk i.exports t) (Says is) := by
  induction is with
  | nil => exact (Adds.none).congr (by simp) (by simp [Says])
  | cons i is ih =>
    have : tables (i :: is) = fun top => importTargets i.exports i.targets top >>= tables is := rfl
    rw [this]
    exact ((adds_importTargets i.exports (he i (by simp)) i.targets).bind (ih fun j hj => he j (by simp [hj]))).congr
      (by simp) (by simp [Says])

/-- The implicit import never fails, and adds the names that are still free. -/
theorem stdLoop_spec (l : List (Name × K)) (hl : Entries l) (top : Top K) :
    ∃ top', stdLoop l top = .ok top' ∧
      ∀ n k, top'.get n = some k ↔ top.get n = some k ∨ (top.get n = none ∧ (n, k) ∈ l) := by
  induction l generalizing top with
  | nil => exact ⟨top, rfl, by simp⟩
  | cons e l ih =>
    obtain ⟨m, j⟩ := e
    obtain ⟨hm, hl⟩ := List.nodup_cons.1 hl
    simp only [stdLoop]
    have hmem : ∀ k, (m, k) ∉ l := fun k h => hm (List.mem_map.2 ⟨_, h, rfl⟩)
    cases hg : top.get m with
    | some old =>
      obtain ⟨top', h1, h2⟩ := ih hl top
      refine ⟨top', by simpa using h1, fun n k => ?_⟩
      rw [h2]
      constructor
      · rintro (h | ⟨h, h'⟩)
        · exact .inl h
        · exact .inr ⟨h, by simp [h']⟩
      · rintro (h | ⟨h, h'⟩)
        · exact .inl h
        · rcases List.mem_cons.1 h' with h' | h'
          · cases h'; rw [hg] at h; cases h
          · exact .inr ⟨h, h'⟩
    | none =>
      have hd : define top m j = .ok (top.insert m j) := (define_ok _ _ _ _).2 ⟨by simp [hg], rfl⟩
      obtain ⟨top', h1, h2⟩ := ih hl (top.insert m j)
      refine ⟨top', ?_, fun n k => ?_⟩
      · simp only [Option.isNone_none, if_true, hd]; exact h1
      · rw [h2, HMap.get_insert]
        by_cases hn : n = m
        · subst hn
          simp [hg, hmem, eq_comm]
        · simp [hn]

/-- C15.  After processing the imports, the names in scope are exactly: what the explicit imports say, and, for the names they
say nothing about, what the implicit import of `std` offers. -/
theorem import_meaning (builtin : Option Nat) (imports : List (Import K)) (std : Option (Nat × List (Name × K)))
    (he : ∀ i ∈ imports, Entries i.exports) (hstd : ∀ s ∈ std, Entries s.2) (top : Top K) (inits : List Nat)
    (h : run builtin imports std = .ok (top, inits)) (n : Name) (k : K) :
    top.get n = some k ↔ Says imports n k ∨ ((¬ ∃ k', Says imports n k') ∧ ∃ s ∈ std, (n, k) ∈ s.2) := by
  unfold run at h
  rw [importLoop_eq] at h
  cases ht : tables imports ([] : Top K) with
  | error e => rw [ht] at h; cases h
  | ok t =>
    rw [ht] at h
    have hold := (adds_tables imports he [] (fun _ _ => False) (by intro n k; simp [HMap.get_nil])).2 t ht
    have hold : ∀ n k, t.get n = some k ↔ Says imports n k := by intro n k; rw [hold]; simp
    have hnone : t.get n = none ↔ ¬ ∃ k', Says imports n k' := by
      constructor
      · rintro h ⟨k', hk'⟩; rw [(hold _ _).2 hk'] at h; cases h
      · intro h; cases hg : t.get n with
        | none => rfl
        | some k' => exact absurd ⟨k', (hold _ _).1 hg⟩ h
    cases std with
    | none => cases h; rw [hold]; simp
    | some s =>
      obtain ⟨id, ex⟩ := s
      obtain ⟨top', h1, h2⟩ := stdLoop_spec ex (hstd _ rfl) t
      have h : (stdLoop ex t >>= fun x => Except.ok (x, (builtin.toList ++ imports.map (·.module)) ++ [id])) = .ok (top, inits) := h
      rw [h1] at h
      cases h
      rw [h2, hold, hnone]
      simp

/-- C15.  Importing succeeds exactly when every target is well formed and exported, and no name is given two meanings:
a second meaning never silently replaces the first. -/
theorem import_succeeds (builtin : Option Nat) (imports : List (Import K)) (std : Option (Nat × List (Name × K)))
    (he : ∀ i ∈ imports, Entries i.exports) (hstd : ∀ s ∈ std, Entries s.2) :
    (∃ r, run builtin imports std = .ok r) ↔
      (∀ i ∈ imports, ∀ t ∈ i.targets, TargetOk i.exports t) ∧ ∀ n k k', Says imports n k → Says imports n k' → k = k' := by
  have hadd := (adds_tables imports he [] (fun _ _ => False) (by intro n k; simp [HMap.get_nil])).1
  simp only [false_or] at hadd
  rw [← hadd]
  unfold run
  rw [importLoop_eq]
  cases ht : tables imports ([] : Top K) with
  | error e =>
    constructor
    · rintro ⟨r, h⟩; cases h
    · rintro ⟨r, h⟩; cases h
  | ok t =>
    simp only [Except.ok.injEq, exists_eq', iff_true]
    cases std with
    | none => exact ⟨_, rfl⟩
    | some s =>
      obtain ⟨id, ex⟩ := s
      obtain ⟨top', h1, h2⟩ := stdLoop_spec ex (hstd _ rfl) t
      refine ⟨(top', (builtin.toList ++ imports.map (·.module)) ++ [id]), ?_⟩
      show (stdLoop ex t >>= fun x => Except.ok (x, (builtin.toList ++ imports.map (·.module)) ++ [id])) = _
      rw [h1]; rfl

/-- The modules to initialise are `builtin`, then the imported modules in the order of the imports, then `std`. -/
theorem import_inits (builtin : Option Nat) (imports : List (Import K)) (std : Option (Nat × List (Name × K)))
    (top : Top K) (inits : List Nat) (h : run builtin imports std = .ok (top, inits)) :
    inits = builtin.toList ++ imports.map (·.module) ++ (std.map (·.1)).toList := by
  unfold run at h
  rw [importLoop_eq] at h
  cases ht : tables imports ([] : Top K) with
  | error e => rw [ht] at h; cases h
  | ok t =>
    rw [ht] at h
    cases std with
    | none => cases h; simp
    | some s =>
      obtain ⟨id, ex⟩ := s
      have h : (stdLoop ex t >>= fun x => Except.ok (x, (builtin.toList ++ imports.map (·.module)) ++ [id])) = .ok (top, inits) := h
      cases hs : stdLoop ex t with
      | error e => rw [hs] at h; cases h
      | ok t' => rw [hs] at h; cases h; rfl

/-- Definitions of the module itself: accepted exactly when no name gets two meanings, those imported included. -/
theorem definitions_succeed (defs : List (Name × K)) (top : Top K) :
    ((∃ top', defineAll defs top = .ok top') ↔
      ∀ n k k', (top.get n = some k ∨ (n, k) ∈ defs) → (top.get n = some k' ∨ (n, k') ∈ defs) → k = k') ∧
    ∀ top', defineAll defs top = .ok top' → ∀ n k, top'.get n = some k ↔ top.get n = some k ∨ (n, k) ∈ defs := by
  have key : Adds (defineAll defs) True (fun n k => (n, k) ∈ defs) := by
    induction defs with
    | nil => exact (Adds.none).congr Iff.rfl (by simp)
    | cons d defs ih =>
      have : defineAll (d :: defs) = fun t => define t d.1 d.2 >>= defineAll defs := rfl
      rw [this]
      exact ((Adds.define d.1 d.2).bind ih).congr (by simp) (by intro n k; simp [Prod.ext_iff])
  have := key top (fun n k => top.get n = some k) (fun _ _ => Iff.rfl)
  simpa [Holds] using this

/-! ## Exports -/

theorem adds_addExport (n r : Name) (k : K) : Adds (fun ex => addExport ex n r k) True (fun m j => m = n ∧ j = k) := by
  have e : ∀ ex ex' : Top K, addExport ex n r k = .ok ex' ↔ define ex n k = .ok ex' := by
    intro ex ex'
    unfold addExport define
    cases ex.get n with
    | none => rfl
    | some old => by_cases h : old = k <;> simp [h]
  intro top R h
  have := Adds.define n k top R h
  simp only [e]
  exact this

theorem adds_exportWildLoop (src dest : Wild) (l : List (Name × K)) :
    Adds (exportWildLoop src dest l) True (fun n k => ∃ m r, (m, k) ∈ l ∧ deconstruct src m = some r ∧ construct dest r = n) := by
  induction l with
  | nil => exact (Adds.none).congr Iff.rfl (by simp)
  | cons e l ih =>
    obtain ⟨m, k⟩ := e
    cases hd : deconstruct src m with
    | none =>
      have : exportWildLoop src dest ((m, k) :: l) = exportWildLoop src dest l := by funext t; simp [exportWildLoop, hd]
      rw [this]
      refine ih.congr Iff.rfl fun n j => ?_
      constructor
      · rintro ⟨m', r, h1, h2⟩; exact ⟨m', r, by simp [h1], h2⟩
      · rintro ⟨m', r, h1, h2, h3⟩
        rcases List.mem_cons.1 h1 with h1 | h1
        · cases h1; rw [hd] at h2; cases h2
        · exact ⟨m', r, h1, h2, h3⟩
    | some r =>
      have : exportWildLoop src dest ((m, k) :: l) = fun t => addExport t (construct dest r) r k >>= exportWildLoop src dest l := by
        funext t; simp [exportWildLoop, hd]
      rw [this]
      refine ((adds_addExport _ _ _).bind ih).congr (by simp) fun n j => ?_
      constructor
      · rintro (⟨rfl, rfl⟩ | ⟨m', r', h1, h2⟩)
        · exact ⟨m, r, by simp, hd, rfl⟩
        · exact ⟨m', r', by simp [h1], h2⟩
      · rintro ⟨m', r', h1, h2, h3⟩
        rcases List.mem_cons.1 h1 with h1 | h1
        · cases h1; rw [hd] at h2; cases h2; exact .inl ⟨h3.symm, rfl⟩
        · exact .inr ⟨m', r', h1, h2, h3⟩

theorem adds_exportTarget (top : List (Name × K)) (he : Entries top) (t : Target) :
    Adds (exportTarget top t) (TargetOk top t) (TargetSays top t) := by
  unfold exportTarget
  by_cases hp : IsPattern t.sym
  · have hs := (fromPattern_isSome t.sym).2 hp
    obtain ⟨src, hsrc⟩ := Option.isSome_iff_exists.1 hs
    simp only [hsrc]
    have wild : ∀ q dest, t.name.getD t.sym = q → fromPattern q = some dest →
        ∀ n k, (∃ m r, (m, k) ∈ top ∧ deconstruct src m = some r ∧ construct dest r = n) ↔ TargetSays top t n k := by
      intro q dest hq hdest n k
      unfold TargetSays
      simp only [hp, true_and, not_true_eq_false, false_and, or_false]
      constructor
      · rintro ⟨m, r, h1, h2, h3⟩
        exact ⟨m, r, h1, (deconstruct_iff _ _ _ _ hsrc).1 h2, hq ▸ (construct_iff q _ _ _ hdest).1 h3⟩
      · rintro ⟨m, r, h1, h2, h3⟩
        exact ⟨m, r, h1, (deconstruct_iff _ _ _ _ hsrc).2 h2, (construct_iff q _ _ _ hdest).2 (hq ▸ h3)⟩
    cases hn : t.name with
    | none =>
      refine (adds_exportWildLoop src src top).congr ?_ (wild t.sym src (by simp [hn]) hsrc)
      simp [TargetOk, hp, hn]
    | some d =>
      simp only
      cases hd : fromPattern d with
      | none =>
        have hd' : ¬ IsPattern d := by rw [← fromPattern_isSome, hd]; simp
        have : ¬ TargetOk top t := fun h => hd' (h.1 hp d hn)
        intro top R h
        refine ⟨by simp [this], by simp⟩
      | some dest =>
        have hd' : IsPattern d := by rw [← fromPattern_isSome, hd]; simp
        refine (adds_exportWildLoop src dest top).congr ?_ (wild d dest (by simp [hn]) hd)
        simp [TargetOk, hp, hn, hd']
  · have hs : fromPattern t.sym = none := by
      cases h : fromPattern t.sym with
      | none => rfl
      | some w => exact absurd ((fromPattern_isSome _).1 (by simp [h])) hp
    simp only [hs]
    cases hg : HMap.get top t.sym with
    | none =>
      have : ¬ TargetOk top t := by
        intro h
        obtain ⟨k, hk⟩ := h.2 hp
        rw [(get_entries he _ _).2 hk] at hg; cases hg
      intro top R h
      refine ⟨by simp [this], by simp⟩
    | some k =>
      have hk := (get_entries he _ _).1 hg
      refine (adds_addExport _ _ _).congr ?_ fun n j => ?_
      · simp only [true_iff]; exact ⟨fun h => absurd h hp, fun _ => ⟨k, hk⟩⟩
      · unfold TargetSays
        simp only [hp, false_and, not_false_eq_true, true_and, false_or]
        constructor
        · rintro ⟨rfl, rfl⟩; exact ⟨hk, rfl⟩
        · rintro ⟨h1, rfl⟩
          refine ⟨rfl, ?_⟩
          rw [(get_entries he _ _).2 h1] at hg
          exact Option.some.inj hg

/-- Exporting gives exactly what the targets say about the names in scope, and fails exactly when a target is wrong or a name would
be exported with two meanings. -/
theorem export_meaning (top : List (Name × K)) (he : Entries top) (ts : List Target) :
    ((∃ ex, runExport top ts [] = .ok ex) ↔
      (∀ t ∈ ts, TargetOk top t) ∧
        ∀ n k k', (∃ t ∈ ts, TargetSays top t n k) → (∃ t ∈ ts, TargetSays top t n k') → k = k') ∧
    ∀ ex, runExport top ts [] = .ok ex → ∀ n k, ex.get n = some k ↔ ∃ t ∈ ts, TargetSays top t n k := by
  have key : Adds (runExport top ts) (∀ t ∈ ts, TargetOk top t) (fun n k => ∃ t ∈ ts, TargetSays top t n k) := by
    induction ts with
    | nil => exact (Adds.none).congr (by simp) (by simp)
    | cons t ts ih =>
      have : runExport top (t :: ts) = fun ex => exportTarget top t ex >>= runExport top ts := rfl
      rw [this]
      exact ((adds_exportTarget top he t).bind ih).congr (by simp) (by simp)
  have := key [] (fun _ _ => False) (by intro n k; simp [HMap.get_nil])
  simpa [Holds] using this

/-- Non-vacuity: two imports, one with a pattern, and an implicit import with one name shadowed. -/
example :
    let i1 : Import Nat := ⟨7, [("f".toList, 1), ("g".toList, 2)], [⟨"f".toList, none⟩, ⟨"_".toList, some "m/_".toList⟩]⟩
    let std : Nat × List (Name × Nat) := (9, [("f".toList, 5), ("h".toList, 6)])
    (∀ s ∈ some std, Entries s.2) ∧ Entries i1.exports ∧
    ∃ top, run (some 0) [i1] (some std) = .ok (top, [0, 7, 9]) ∧ top.get "f".toList = some 1 ∧ top.get "m/g".toList = some 2 ∧
      top.get "h".toList = some 6 ∧ top.get "g".toList = none := by
  refine ⟨by unfold Entries; simp, by unfold Entries; decide, _, rfl, by decide, by decide, by decide, by decide⟩

end Verif.Import
