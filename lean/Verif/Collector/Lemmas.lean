import Verif.Collector.Spec
import Verif.Path.Props
namespace Verif.Collector

open Verif.Collector.Spec Verif.Path

/-! ### The dependencies of a source -/

/-- The path a text stands for in a module. -/
def target (self : Path) (text : Str) : Option Path := (parse text).map (relative self)

/-- Every entry of the map of dependencies maps a text to the path it stands for. -/
def Keyed (self : Path) (m : HMap Str Path) : Prop := ∀ e ∈ m, target self e.1 = some e.2

theorem keyed_insert {self : Path} {m : HMap Str Path} (h : Keyed self m) {k v} (hk : target self k = some v) : Keyed self (HMap.insert m k v) := by
  intro e he
  rcases List.mem_cons.1 he with rfl | he
  · exact hk
  · exact h e (List.mem_filter.1 he).1

theorem values_insert {self : Path} {m : HMap Str Path} (h : Keyed self m) {k v} (hk : target self k = some v) (x : Path) :
    x ∈ (HMap.insert m k v).map Prod.snd ↔ x = v ∨ x ∈ m.map Prod.snd := by
  simp only [HMap.insert, HMap.remove, List.map_cons, List.mem_cons, List.mem_map, List.mem_filter]
  constructor
  · rintro (rfl | ⟨e, ⟨he, -⟩, rfl⟩)
    · exact .inl rfl
    · exact .inr ⟨e, he, rfl⟩
  · rintro (rfl | ⟨e, he, rfl⟩)
    · exact .inl rfl
    · by_cases hke : e.1 = k
      · have h1 := h e he
        rw [hke, hk] at h1
        exact .inl (Option.some.inj h1).symm
      · exact .inr ⟨e, ⟨he, by simp [hke]⟩, rfl⟩

theorem relative_external (self : Path) (p : Path) (h : p.package ≠ none) : relative self p = p := by
  unfold relative
  cases hp : p.package with
  | none => exact absurd hp h
  | some _ => simp

theorem target_builtin (self : Path) : target self (print builtin) = some builtin := by
  have : parse (print builtin) = some builtin := by decide +kernel
  rw [target, this, Option.map_some, relative_external self builtin (by decide)]

theorem target_std (self : Path) : target self (print std) = some std := by
  have : parse (print std) = some std := by decide +kernel
  rw [target, this, Option.map_some, relative_external self std (by decide)]

structure Fold (s : Source) (items : List Item) (t : Source) : Prop where
  path : t.path = s.path
  code : t.code = s.code
  keyed : Keyed s.path t.deps
  nodup : (HMap.keys t.deps).Nodup
  implicit : t.implicitStd = true ↔ s.implicitStd = true ∧ Item.noImplicitStd ∉ items
  vals : ∀ q, q ∈ t.deps.map Prod.snd ↔ q ∈ s.deps.map Prod.snd ∨ q ≠ s.path ∧ ∃ text, Item.import text ∈ items ∧ target s.path text = some q
  errs : t.errors = [] ↔ s.errors = [] ∧ ∀ text, Item.import text ∈ items → ∃ q, target s.path text = some q ∧ q ≠ s.path

theorem fold_items (items : List Item) : ∀ s : Source, Keyed s.path s.deps → (HMap.keys s.deps).Nodup → Fold s items (items.foldl resolveItem s) := by
  induction items with
  | nil => intro s hk hn; exact ⟨rfl, rfl, hk, hn, by simp, by simp, by simp⟩
  | cons i items ih =>
    intro s hk hn
    rw [List.foldl_cons]
    cases i with
    | noImplicitStd =>
      have := ih (resolveItem s .noImplicitStd) hk hn
      exact ⟨this.path, this.code, this.keyed, this.nodup, by rw [this.implicit]; simp [resolveItem], by intro q; rw [this.vals]; simp [resolveItem],
        by rw [this.errs]; simp [resolveItem]⟩
    | other =>
      have := ih (resolveItem s .other) hk hn
      exact ⟨this.path, this.code, this.keyed, this.nodup, by rw [this.implicit]; simp [resolveItem], by intro q; rw [this.vals]; simp [resolveItem],
        by rw [this.errs]; simp [resolveItem]⟩
    | «import» text =>
      cases hp : parse text with
      | none =>
        have ht : target s.path text = none := by rw [target, hp]; rfl
        have hr : resolveItem s (.import text) = { s with errors := s.errors ++ [.invalidImportPath text] } := by simp only [resolveItem, hp]
        rw [hr]
        have := ih { s with errors := s.errors ++ [.invalidImportPath text] } hk hn
        refine ⟨this.path, this.code, this.keyed, this.nodup, by rw [this.implicit]; simp, ?_, ?_⟩
        · intro q
          rw [this.vals]
          constructor
          · rintro (h | ⟨h1, t, h2, h3⟩)
            · exact .inl h
            · exact .inr ⟨h1, t, by simp [h2], h3⟩
          · rintro (h | ⟨h1, t, h2, h3⟩)
            · exact .inl h
            · rcases List.mem_cons.1 h2 with he | h2
              · cases he
                rw [ht] at h3
                cases h3
              · exact .inr ⟨h1, t, h2, h3⟩
        · rw [this.errs]
          constructor
          · rintro ⟨h, -⟩
            simp at h
          · rintro ⟨-, h⟩
            obtain ⟨q, hq, -⟩ := h text (by simp)
            rw [ht] at hq
            cases hq
      | some p =>
        have ht : target s.path text = some (relative s.path p) := by rw [target, hp]; rfl
        by_cases hself : relative s.path p = s.path
        · have hr : resolveItem s (.import text) = { s with errors := s.errors ++ [.cannotImportModuleItself] } := by
            simp only [resolveItem, hp, if_pos hself]
          rw [hr]
          have := ih { s with errors := s.errors ++ [.cannotImportModuleItself] } hk hn
          refine ⟨this.path, this.code, this.keyed, this.nodup, by rw [this.implicit]; simp, ?_, ?_⟩
          · intro q
            rw [this.vals]
            constructor
            · rintro (h | ⟨h1, t, h2, h3⟩)
              · exact .inl h
              · exact .inr ⟨h1, t, by simp [h2], h3⟩
            · rintro (h | ⟨h1, t, h2, h3⟩)
              · exact .inl h
              · rcases List.mem_cons.1 h2 with he | h2
                · cases he
                  rw [ht, hself] at h3
                  cases h3
                  exact absurd rfl h1
                · exact .inr ⟨h1, t, h2, h3⟩
          · rw [this.errs]
            constructor
            · rintro ⟨h, -⟩
              simp at h
            · rintro ⟨-, h⟩
              obtain ⟨q, hq, hne⟩ := h text (by simp)
              rw [ht, hself] at hq
              cases hq
              exact absurd rfl hne
        · have hr : resolveItem s (.import text) = { s with deps := HMap.insert s.deps text (relative s.path p) } := by
            simp only [resolveItem, hp, if_neg hself]
          rw [hr]
          have := ih { s with deps := HMap.insert s.deps text (relative s.path p) } (keyed_insert hk ht) (HMap.nodup_insert hn _ _)
          refine ⟨this.path, this.code, this.keyed, this.nodup, by rw [this.implicit]; simp, ?_, ?_⟩
          · intro q
            rw [this.vals]
            simp only [values_insert hk ht]
            constructor
            · rintro ((h | h) | ⟨h1, t, h2, h3⟩)
              · exact .inr ⟨by rw [h]; exact hself, text, by simp, by rw [h]; exact ht⟩
              · exact .inl h
              · exact .inr ⟨h1, t, by simp [h2], h3⟩
            · rintro (h | ⟨h1, t, h2, h3⟩)
              · exact .inl (.inr h)
              · rcases List.mem_cons.1 h2 with he | h2
                · cases he
                  rw [ht] at h3
                  exact .inl (.inl (Option.some.inj h3).symm)
                · exact .inr ⟨h1, t, h2, h3⟩
          · rw [this.errs]
            constructor
            · rintro ⟨h1, h2⟩
              refine ⟨h1, fun t htm => ?_⟩
              rcases List.mem_cons.1 htm with he | htm
              · cases he
                exact ⟨_, ht, hself⟩
              · exact h2 t htm
            · rintro ⟨h1, h2⟩
              exact ⟨h1, fun t htm => h2 t (by simp [htm])⟩

theorem sourceOf_failed {load : Loader} {p : Path} (h : load p = none) : sourceOf load p = Source.fromError p .load := by
  rw [sourceOf, h]
  rfl

/-- All that is known about the source of a path that could be loaded. -/
structure Loaded (p : Path) (items : List Item) (errors : List Error) (s : Source) : Prop where
  path : s.path = p
  keyed : Keyed p s.deps
  nodup : (HMap.keys s.deps).Nodup
  implicit : s.implicitStd = true ↔ Item.noImplicitStd ∉ items
  vals : ∀ q, q ∈ s.deps.map Prod.snd ↔ q ≠ p ∧ ((∃ text, Item.import text ∈ items ∧ target p text = some q) ∨ q = builtin ∨
    q = std ∧ Item.noImplicitStd ∉ items)
  errs : s.errors = [] ↔ errors = [] ∧ (∀ text, Item.import text ∈ items → ∃ q, target p text = some q ∧ q ≠ p) ∧ (p = std → Item.noImplicitStd ∈ items)
  keyB : p ≠ builtin → HMap.get s.deps (print builtin) = some builtin
  keyS : s.implicitStd = true → p ≠ std → HMap.get s.deps (print std) = some std

theorem sourceOf_loaded {load : Loader} {p : Path} {items errors} (h : load p = some (items, errors)) : Loaded p items errors (sourceOf load p) := by
  have hf := fold_items items { Source.empty p with code := some items, errors := errors } (by intro e he; cases he) List.nodup_nil
  have hs : sourceOf load p = addStd (addBuiltin (items.foldl resolveItem { Source.empty p with code := some items, errors := errors })) := by
    rw [sourceOf, h]; rfl
  rw [hs]
  generalize items.foldl resolveItem { Source.empty p with code := some items, errors := errors } = t at hf
  obtain ⟨hpath, -, hk, hn, him, hv, he⟩ := hf
  simp only [Source.empty] at hpath hk him hv he
  simp only [List.map_nil, List.not_mem_nil, false_or, true_and] at hv him
  -- after adding the builtin module
  have hb : (addBuiltin t).path = p ∧ Keyed p (addBuiltin t).deps ∧ (HMap.keys (addBuiltin t).deps).Nodup ∧
      (addBuiltin t).implicitStd = t.implicitStd ∧ (addBuiltin t).errors = t.errors ∧
      (∀ q, q ∈ (addBuiltin t).deps.map Prod.snd ↔ q ∈ t.deps.map Prod.snd ∨ q ≠ p ∧ q = builtin) ∧
      (p ≠ builtin → HMap.get (addBuiltin t).deps (print builtin) = some builtin) := by
    unfold addBuiltin
    by_cases hpb : p = builtin
    · rw [if_neg (by rw [hpath]; exact fun h => h hpb)]
      refine ⟨hpath, hk, hn, rfl, rfl, fun q => ⟨.inl, ?_⟩, fun h => absurd hpb h⟩
      rintro (h | ⟨h1, h2⟩)
      · exact h
      · exact absurd (h2.trans hpb.symm) h1
    · rw [if_pos (by rw [hpath]; exact hpb)]
      refine ⟨hpath, keyed_insert hk (target_builtin p), HMap.nodup_insert hn _ _, rfl, rfl, fun q => ?_, fun _ => by simp [HMap.get_insert]⟩
      simp only [values_insert hk (target_builtin p)]
      constructor
      · rintro (h | h)
        · exact .inr ⟨fun e => hpb (e.symm.trans h), h⟩
        · exact .inl h
      · rintro (h | ⟨-, h⟩)
        · exact .inr h
        · exact .inl h
  generalize addBuiltin t = u at hb
  obtain ⟨bpath, bk, bn, bi, be, bv, bg⟩ := hb
  unfold addStd
  by_cases hi : t.implicitStd = true
  · rw [if_pos (by rw [bi]; exact hi)]
    have hno := him.1 hi
    by_cases hps : p = std
    · rw [if_pos (by rw [bpath]; exact hps)]
      refine ⟨bpath, bk, bn, by rw [show _ = u.implicitStd from rfl, bi]; exact him, ?_, ?_, bg, fun _ h => absurd hps h⟩
      · intro q
        show q ∈ u.deps.map Prod.snd ↔ _
        rw [bv, hv]
        constructor
        · rintro (⟨h1, h2⟩ | ⟨h1, h2⟩)
          · exact ⟨h1, .inl h2⟩
          · exact ⟨h1, .inr (.inl h2)⟩
        · rintro ⟨h1, h2 | h2 | ⟨h2, -⟩⟩
          · exact .inl ⟨h1, h2⟩
          · exact .inr ⟨h1, h2⟩
          · exact absurd (h2.trans hps.symm) h1
      · constructor
        · intro h
          simp at h
        · rintro ⟨-, -, h⟩
          exact absurd (h hps) hno
    · rw [if_neg (by rw [bpath]; exact hps)]
      refine ⟨bpath, keyed_insert bk (target_std p), HMap.nodup_insert bn _ _, by rw [show _ = u.implicitStd from rfl, bi]; exact him, ?_, ?_, ?_, ?_⟩
      · intro q
        simp only [values_insert bk (target_std p)]
        rw [bv, hv]
        constructor
        · rintro (h | ⟨h1, h2⟩ | ⟨h1, h2⟩)
          · exact ⟨fun e => hps (e.symm.trans h), .inr (.inr ⟨h, hno⟩)⟩
          · exact ⟨h1, .inl h2⟩
          · exact ⟨h1, .inr (.inl h2)⟩
        · rintro ⟨h1, h2 | h2 | ⟨h2, -⟩⟩
          · exact .inr (.inl ⟨h1, h2⟩)
          · exact .inr (.inr ⟨h1, h2⟩)
          · exact .inl h2
      · show u.errors = [] ↔ _
        rw [be, he]
        exact ⟨fun ⟨h1, h2⟩ => ⟨h1, h2, fun h => absurd h hps⟩, fun ⟨h1, h2, _⟩ => ⟨h1, h2⟩⟩
      · intro hpb
        rw [show HMap.get _ (print builtin) = _ from HMap.get_insert _ _ _ _, if_neg (by decide +kernel)]
        exact bg hpb
      · intro _ _
        rw [show HMap.get _ (print std) = _ from HMap.get_insert _ _ _ _, if_pos rfl]
  · rw [if_neg (by rw [bi]; exact hi)]
    have hno : Item.noImplicitStd ∈ items := by
      apply Classical.byContradiction
      intro h
      exact hi (him.2 h)
    refine ⟨bpath, bk, bn, by rw [bi]; exact him, ?_, ?_, bg, fun h => absurd (bi ▸ h) hi⟩
    · intro q
      rw [bv, hv]
      constructor
      · rintro (⟨h1, h2⟩ | ⟨h1, h2⟩)
        · exact ⟨h1, .inl h2⟩
        · exact ⟨h1, .inr (.inl h2)⟩
      · rintro ⟨h1, h2 | h2 | ⟨-, h2⟩⟩
        · exact .inl ⟨h1, h2⟩
        · exact .inr ⟨h1, h2⟩
        · exact absurd hno h2
    · rw [be, he]
      exact ⟨fun ⟨h1, h2⟩ => ⟨h1, h2, fun _ => hno⟩, fun ⟨h1, h2, _⟩ => ⟨h1, h2⟩⟩

theorem sourceOf_path (load : Loader) (p : Path) : (sourceOf load p).path = p := by
  cases h : load p with
  | none => rw [sourceOf_failed h]; rfl
  | some r => exact (sourceOf_loaded (items := r.1) (errors := r.2) h).path

theorem target_iff (self : Path) (text : Str) (q : Path) : target self text = some q ↔
    ∃ imp, parse text = some imp ∧ q = (if imp.package = none ∧ self.package ≠ none then ⟨self.package, imp.module⟩ else imp) := by
  have hrel : ∀ imp : Path, relative self imp = if imp.package = none ∧ self.package ≠ none then ⟨self.package, imp.module⟩ else imp := by
    intro imp
    unfold relative
    cases hi : imp.package <;> cases hs : self.package <;> simp
  unfold target
  cases hp : parse text with
  | none => simp
  | some imp =>
    simp only [Option.map_some, Option.some.injEq, hrel]
    constructor
    · intro h; exact ⟨imp, rfl, h.symm⟩
    · rintro ⟨i, rfl, h⟩; exact h.symm

/-- The dependencies of a source are the modules it uses. -/
theorem deps_iff (load : Loader) (p q : Path) : q ∈ (sourceOf load p).deps.map Prod.snd ↔ Uses load p q := by
  unfold Uses Imports
  cases h : load p with
  | none =>
    rw [sourceOf_failed h]
    simp [Source.fromError, Source.empty]
  | some r =>
    obtain ⟨items, errors⟩ := r
    rw [(sourceOf_loaded h).vals]
    simp only [target_iff]
    constructor
    · rintro ⟨h1, h2⟩
      refine ⟨h1, items, errors, rfl, ?_⟩
      rcases h2 with ⟨text, ht, imp, hi, hq⟩ | h2
      · exact .inl ⟨items, errors, text, imp, rfl, ht, hi, hq⟩
      · exact .inr h2
    · rintro ⟨h1, i, e, he, h2⟩
      cases he
      refine ⟨h1, ?_⟩
      rcases h2 with ⟨i', e', text, imp, he, ht, hi, hq⟩ | h2
      · cases he
        exact .inl ⟨text, ht, imp, hi, hq⟩
      · exact .inr h2

/-! ### The set of sources -/

def SourceSet.look (m : SourceSet) (p : Path) : Option Source := (HMap.get m p.package).bind fun e => HMap.get e p.module

structure SourceSet.Ok (m : SourceSet) : Prop where
  outer : (HMap.keys m).Nodup
  inner : ∀ e ∈ m, (HMap.keys e.2).Nodup
  path : ∀ p s, m.look p = some s → s.path = p

theorem SourceSet.look_insert (m : SourceSet) (s : Source) (p : Path) :
    (m.insert s).look p = if p = s.path then some s else m.look p := by
  unfold SourceSet.look SourceSet.insert
  rw [HMap.get_insert]
  by_cases hp : p = s.path
  · subst hp
    simp [HMap.get_insert]
  · rw [if_neg hp]
    by_cases hk : p.package = s.path.package
    · rw [if_pos hk, Option.bind_some, HMap.get_insert, if_neg (by
        intro hm
        apply hp
        cases p
        cases hs : s.path
        simp_all), hk]
      cases HMap.get m s.path.package <;> simp [HMap.get_nil]
    · rw [if_neg hk]

theorem SourceSet.Ok.insert {m : SourceSet} (h : m.Ok) (s : Source) : (m.insert s).Ok := by
  refine ⟨HMap.nodup_insert h.outer _ _, ?_, ?_⟩
  · intro e he
    rcases List.mem_cons.1 he with rfl | he
    · apply HMap.nodup_insert
      cases hg : HMap.get m s.path.package with
      | none => exact List.nodup_nil
      | some e => exact h.inner _ (HMap.get_some_mem hg)
    · exact h.inner e (List.mem_filter.1 he).1
  · intro p t ht
    rw [SourceSet.look_insert] at ht
    split at ht
    · next hp => rw [hp]; cases ht; rfl
    · exact h.path p t ht

theorem SourceSet.Ok.mem_sources {m : SourceSet} (h : m.Ok) (s : Source) : s ∈ m.sources ↔ m.look s.path = some s := by
  have key : s ∈ m.sources ↔ ∃ k e n, (k, e) ∈ m ∧ (n, s) ∈ e := by
    simp only [SourceSet.sources, List.mem_flatMap, List.mem_map]
    constructor
    · rintro ⟨⟨k, e⟩, he, ⟨n, t⟩, ht, rfl⟩
      exact ⟨k, e, n, he, ht⟩
    · rintro ⟨k, e, n, he, ht⟩
      exact ⟨(k, e), he, (n, s), ht, rfl⟩
  rw [key]
  constructor
  · rintro ⟨k, e, n, he, ht⟩
    have h1 := HMap.mem_get h.outer he
    have h2 := HMap.mem_get (h.inner _ he) ht
    have h3 : m.look ⟨k, n⟩ = some s := by
      unfold SourceSet.look
      rw [h1]
      exact h2
    have h4 := h.path _ _ h3
    rw [h4]
    exact h3
  · intro hl
    unfold SourceSet.look at hl
    cases hg : HMap.get m s.path.package with
    | none => rw [hg] at hl; cases hl
    | some e =>
      rw [hg] at hl
      exact ⟨_, e, _, HMap.get_some_mem hg, HMap.get_some_mem hl⟩

theorem SourceSet.Ok.nodup {m : SourceSet} (h : m.Ok) : (m.sources.map (·.path)).Nodup := by
  have hpaths : ∀ e ∈ m, ∀ x ∈ e.2, x.2.path = ⟨e.1, x.1⟩ := by
    rintro ⟨k, e⟩ he ⟨n, s⟩ hx
    apply h.path
    unfold SourceSet.look
    rw [HMap.mem_get h.outer he]
    exact HMap.mem_get (h.inner _ he) hx
  have hinner := h.inner
  have houter := h.outer
  clear h
  unfold SourceSet.sources
  induction m with
  | nil => exact List.nodup_nil
  | cons e m ih =>
    simp only [HMap.keys, List.map_cons, List.nodup_cons] at houter
    simp only [List.flatMap_cons, List.map_append]
    rw [List.nodup_append]
    refine ⟨?_, ih (fun e' he => hpaths e' (by simp [he])) (fun e' he => hinner e' (by simp [he])) houter.2, ?_⟩
    · have h1 := hinner e (by simp)
      have h2 : (e.2.map Prod.snd).map (·.path) = (HMap.keys e.2).map fun n => ⟨e.1, n⟩ := by
        rw [HMap.keys, List.map_map, List.map_map]
        exact List.map_congr_left (fun x hx => hpaths e (by simp) x hx)
      rw [h2]
      exact List.Pairwise.map _ (fun a b hab hc => hab (Path.mk.inj hc).2) h1
    · intro a ha b hb hab
      subst hab
      simp only [List.mem_map, List.mem_flatMap] at ha hb
      obtain ⟨s, ⟨x, hx, rfl⟩, rfl⟩ := ha
      obtain ⟨t, ⟨e', he', y, hy, rfl⟩, heq⟩ := hb
      rw [hpaths e (by simp) x hx, hpaths e' (by simp [he']) y hy] at heq
      exact houter.1 (List.mem_map.2 ⟨e', he', (Path.mk.inj heq).1⟩)

/-! ### The invariant of the runs -/

def State.acts (s : State) : List Act := s.threads.flatten

structure Inv (load : Loader) (order : Path → List Path) (inputs : List Path) (s : State) : Prop where
  ongReach : ∀ p ∈ s.ongoing, Reach load inputs p
  actReach : ∀ p, .collect p ∈ s.acts → Reach load inputs p
  tok : ∀ p, s.acts.count (.spawn p) + s.acts.count (.load p) + s.loaded.count p = if p ∈ s.ongoing then 1 else 0
  deps : ∀ p ∈ s.loaded, ∀ d ∈ order p, d ∈ s.ongoing ∨ .collect d ∈ s.acts
  inp : ∀ p ∈ inputs, p ∈ s.ongoing ∨ .collect p ∈ s.acts
  ins : ∀ p, .insert p ∈ s.acts → p ∈ s.loaded
  res : ∀ p ∈ s.loaded, .insert p ∈ s.acts ∨ s.result.look p = some (sourceOf load p)
  look : ∀ p t, s.result.look p = some t → t = sourceOf load p ∧ p ∈ s.loaded
  ok : s.result.Ok

/-- The iteration order gives each dependency (possibly several times: under several texts). -/
def OrderOk (load : Loader) (order : Path → List Path) : Prop := ∀ p, (order p).Perm ((sourceOf load p).deps.map Prod.snd)

theorem OrderOk.mem {load order} (h : OrderOk load order) (p q : Path) : q ∈ order p ↔ Uses load p q := by
  rw [(h p).mem_iff, deps_iff]

theorem initial_inv (load : Loader) (order inputs) : Inv load order inputs (initial inputs) := by
  have ha : (initial inputs).acts = inputs.map .collect := by simp [initial, State.acts]
  refine ⟨by intro p hp; simp [initial] at hp, ?_, ?_, by intro p hp; simp [initial] at hp, ?_, ?_, by intro p hp; simp [initial] at hp, ?_, ⟨?_, ?_, ?_⟩⟩
  · intro p hp
    rw [ha] at hp
    simp at hp
    exact .input hp
  · intro p
    rw [ha, List.count_eq_zero.2 (by simp), List.count_eq_zero.2 (by simp)]
    simp [initial]
  · intro p hp
    rw [ha]
    exact .inr (by simp [hp])
  · intro p hp
    rw [ha] at hp
    simp at hp
  · intro p t h
    simp [initial, SourceSet.look, HMap.get_nil] at h
  · exact List.nodup_nil
  · intro e he; simp [initial] at he
  · intro p t h; simp [initial, SourceSet.look, HMap.get_nil] at h

theorem count_collects (l : List Path) (a : Act) (h : ∀ p, a ≠ .collect p) : (l.map Act.collect).count a = 0 := by
  rw [List.count_eq_zero]
  intro hm
  obtain ⟨p, -, rfl⟩ := List.mem_map.1 hm
  exact h p rfl

theorem step_inv {load : Loader} {order inputs} (ho : OrderOk load order) {s s' : State} (h : Inv load order inputs s)
    (hst : Step load order s s') : Inv load order inputs s' := by
  obtain ⟨pre, post, a, rest, hth⟩ := hst
  have hacts : s.acts = pre.flatten ++ (a :: rest) ++ post.flatten := by
    unfold State.acts
    rw [hth]
    simp
  obtain ⟨h1, h2, h3, h4, h5, h6, h7, h8, h9⟩ := h
  cases a with
  | collect p =>
    have hp := h2 p (by rw [hacts]; simp)
    have hmemold : ∀ d, .collect d ∈ s.acts ↔ d = p ∨ .collect d ∈ pre.flatten ++ rest ++ post.flatten := by
      intro d
      rw [hacts]
      simp
      constructor
      · rintro (h | h | h | h) <;> simp_all
      · rintro (h | h | h | h) <;> simp_all
    by_cases hin : p ∈ s.ongoing
    · simp only [act, if_pos hin]
      have hacts' : ∀ x : State, x.threads = pre ++ rest :: post ++ [] → x.acts = pre.flatten ++ rest ++ post.flatten := by
        intro x hx
        unfold State.acts
        rw [hx]
        simp
      have e := hacts' { s with threads := pre ++ rest :: post ++ [] } rfl
      refine ⟨h1, ?_, ?_, ?_, ?_, ?_, ?_, h8, h9⟩
      · intro q hq
        rw [e] at hq
        exact h2 q ((hmemold q).2 (.inr hq))
      · intro q
        have := h3 q
        rw [e]
        rw [hacts] at this
        simp only [List.count_append, List.count_cons] at this ⊢
        simp at this
        omega
      · intro q hq d hd
        rcases h4 q hq d hd with h | h
        · exact .inl h
        · rcases (hmemold d).1 h with rfl | h
          · exact .inl hin
          · exact .inr (by rw [e]; exact h)
      · intro q hq
        rcases h5 q hq with h | h
        · exact .inl h
        · rcases (hmemold q).1 h with rfl | h
          · exact .inl hin
          · exact .inr (by rw [e]; exact h)
      · intro q hq
        rw [e] at hq
        exact h6 q (by rw [hacts]; simp at hq ⊢; exact hq)
      · intro q hq
        rcases h7 q hq with h | h
        · exact .inl (by rw [e]; rw [hacts] at h; simp at h ⊢; exact h)
        · exact .inr h
    · simp only [act, if_neg hin]
      have e : ({ s with ongoing := p :: s.ongoing, threads := pre ++ (.spawn p :: rest) :: post ++ [] } : State).acts =
          pre.flatten ++ (.spawn p :: rest) ++ post.flatten := by
        unfold State.acts
        simp
      refine ⟨?_, ?_, ?_, ?_, ?_, ?_, ?_, h8, h9⟩
      · intro q hq
        rcases List.mem_cons.1 hq with rfl | hq
        · exact hp
        · exact h1 q hq
      · intro q hq
        rw [e] at hq
        exact h2 q ((hmemold q).2 (.inr (by simpa using hq)))
      · intro q
        have := h3 q
        rw [e]
        rw [hacts] at this
        simp only [List.count_append, List.count_cons, List.mem_cons] at this ⊢
        simp only [beq_iff_eq, reduceCtorEq, if_false, Act.spawn.injEq] at this ⊢
        by_cases hqp : q = p
        · subst hqp
          rw [if_neg hin] at this
          simp
          omega
        · rw [if_neg (Ne.symm hqp)]
          simp only [hqp, false_or]
          omega
      · intro q hq d hd
        rcases h4 q hq d hd with h | h
        · exact .inl (by simp [h])
        · rcases (hmemold d).1 h with rfl | h
          · exact .inl (by simp)
          · exact .inr (by rw [e]; simpa using h)
      · intro q hq
        rcases h5 q hq with h | h
        · exact .inl (by simp [h])
        · rcases (hmemold q).1 h with rfl | h
          · exact .inl (by simp)
          · exact .inr (by rw [e]; simpa using h)
      · intro q hq
        rw [e] at hq
        exact h6 q (by rw [hacts]; simp at hq ⊢; exact hq)
      · intro q hq
        rcases h7 q hq with h | h
        · exact .inl (by rw [e]; rw [hacts] at h; simp at h ⊢; exact h)
        · exact .inr h
  | spawn p =>
    simp only [act]
    have e : ({ s with threads := pre ++ rest :: post ++ [[.load p]] } : State).acts = pre.flatten ++ rest ++ post.flatten ++ [.load p] := by
      unfold State.acts
      simp
    refine ⟨h1, ?_, ?_, ?_, ?_, ?_, ?_, h8, h9⟩
    · intro q hq
      rw [e] at hq
      exact h2 q (by rw [hacts]; simp at hq ⊢; exact hq)
    · intro q
      have := h3 q
      rw [e]
      rw [hacts] at this
      simp only [List.count_append, List.count_cons, List.count_nil] at this ⊢
      simp only [beq_iff_eq, reduceCtorEq, if_false, Act.spawn.injEq, Act.load.injEq] at this ⊢
      omega
    · intro q hq d hd
      rcases h4 q hq d hd with h | h
      · exact .inl h
      · exact .inr (by rw [e]; rw [hacts] at h; simp at h ⊢; exact h)
    · intro q hq
      rcases h5 q hq with h | h
      · exact .inl h
      · exact .inr (by rw [e]; rw [hacts] at h; simp at h ⊢; exact h)
    · intro q hq
      rw [e] at hq
      exact h6 q (by rw [hacts]; simp at hq ⊢; exact hq)
    · intro q hq
      rcases h7 q hq with h | h
      · exact .inl (by rw [e]; rw [hacts] at h; simp at h ⊢; exact h)
      · exact .inr h
  | load p =>
    simp only [act]
    have e : ({ s with loaded := s.loaded ++ [p], threads := pre ++ ((order p).map .collect ++ .insert p :: rest) :: post ++ [] } : State).acts =
        pre.flatten ++ ((order p).map .collect ++ .insert p :: rest) ++ post.flatten := by
      unfold State.acts
      simp
    have hpo : p ∈ s.ongoing := by
      have := h3 p
      rw [hacts] at this
      simp only [List.count_append, List.count_cons] at this
      simp at this
      split at this
      · assumption
      · omega
    refine ⟨h1, ?_, ?_, ?_, ?_, ?_, ?_, ?_, h9⟩
    · intro q hq
      rw [e] at hq
      simp at hq
      rcases hq with hq | hq | hq | hq
      · exact h2 q (by rw [hacts]; simp; exact .inl hq)
      · exact .uses (h1 p hpo) ((ho.mem p q).1 hq)
      · exact h2 q (by rw [hacts]; simp; exact .inr (.inl hq))
      · exact h2 q (by rw [hacts]; simp; exact .inr (.inr hq))
    · intro q
      have := h3 q
      rw [e]
      rw [hacts] at this
      simp only [List.count_append, List.count_cons, List.count_nil, count_collects _ (.spawn q) (by simp), count_collects _ (.load q) (by simp)] at this ⊢
      simp only [beq_iff_eq, reduceCtorEq, if_false, Act.load.injEq] at this ⊢
      omega
    · intro q hq d hd
      rcases List.mem_append.1 hq with hq | hq
      · rcases h4 q hq d hd with h | h
        · exact .inl h
        · refine .inr ?_
          rw [e]
          rw [hacts] at h
          simp at h ⊢
          rcases h with h | h | h <;> simp [h]
      · rw [List.mem_singleton] at hq
        subst hq
        exact .inr (by rw [e]; simp [hd])
    · intro q hq
      rcases h5 q hq with h | h
      · exact .inl h
      · refine .inr ?_
        rw [e]
        rw [hacts] at h
        simp at h ⊢
        rcases h with h | h | h <;> simp [h]
    · intro q hq
      rw [e] at hq
      simp at hq
      rcases hq with hq | hq | hq | hq
      · exact List.mem_append_left _ (h6 q (by rw [hacts]; simp; exact .inl hq))
      · exact List.mem_append_right _ (by simp [hq])
      · exact List.mem_append_left _ (h6 q (by rw [hacts]; simp; exact .inr (.inl hq)))
      · exact List.mem_append_left _ (h6 q (by rw [hacts]; simp; exact .inr (.inr hq)))
    · intro q hq
      rcases List.mem_append.1 hq with hq | hq
      · rcases h7 q hq with h | h
        · refine .inl ?_
          rw [e]
          rw [hacts] at h
          simp at h ⊢
          rcases h with h | h | h <;> simp [h]
        · exact .inr h
      · rw [List.mem_singleton] at hq
        subst hq
        exact .inl (by rw [e]; simp)
    · intro q t hl
      obtain ⟨g1, g2⟩ := h8 q t hl
      exact ⟨g1, List.mem_append_left _ g2⟩
  | insert p =>
    simp only [act]
    have e : ({ s with result := s.result.insert (sourceOf load p), threads := pre ++ rest :: post ++ [] } : State).acts =
        pre.flatten ++ rest ++ post.flatten := by
      unfold State.acts
      simp
    have hpl := h6 p (by rw [hacts]; simp)
    refine ⟨h1, ?_, ?_, ?_, ?_, ?_, ?_, ?_, h9.insert _⟩
    · intro q hq
      rw [e] at hq
      exact h2 q (by rw [hacts]; simp at hq ⊢; exact hq)
    · intro q
      have := h3 q
      rw [e]
      rw [hacts] at this
      simp only [List.count_append, List.count_cons, List.count_nil] at this ⊢
      simp at this
      omega
    · intro q hq d hd
      rcases h4 q hq d hd with h | h
      · exact .inl h
      · exact .inr (by rw [e]; rw [hacts] at h; simp at h ⊢; exact h)
    · intro q hq
      rcases h5 q hq with h | h
      · exact .inl h
      · exact .inr (by rw [e]; rw [hacts] at h; simp at h ⊢; exact h)
    · intro q hq
      rw [e] at hq
      refine h6 q ?_
      rw [hacts]
      simp at hq ⊢
      rcases hq with h | h | h <;> simp [h]
    · intro q hq
      by_cases hqp : q = p
      · refine .inr ?_
        show (s.result.insert _).look q = _
        rw [SourceSet.look_insert, if_pos (by rw [sourceOf_path]; exact hqp), hqp]
      · rcases h7 q hq with h | h
        · refine .inl ?_
          rw [e]
          rw [hacts] at h
          simp [hqp] at h ⊢
          rcases h with h | h | h <;> simp [h]
        · refine .inr ?_
          show (s.result.insert _).look q = _
          rw [SourceSet.look_insert, if_neg (by rw [sourceOf_path]; exact hqp)]
          exact h
    · intro q t hl
      rw [show SourceSet.look _ q = (s.result.insert _).look q from rfl, SourceSet.look_insert, sourceOf_path] at hl
      split at hl
      · next hq =>
        cases hl
        rw [hq]
        exact ⟨rfl, hpl⟩
      · exact h8 q t hl

end Verif.Collector
