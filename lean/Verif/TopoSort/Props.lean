import Verif.TopoSort.Items

/-!
# C05, C06: topological sorting

`run deps data` is the Rust `run` on items `data` (key, value) whose values list the keys they depend on.
-/
namespace Verif.TopoSort
open Spec

variable {K V : Type} [DecidableEq K]

/-- `gs` groups the pairs of `data` and the output of `run` is `gs` without the keys. -/
def Output (deps : V → List K) (data : List (K × V)) (gs : List (List (K × V))) : Prop :=
  run deps data = some (gs.map (List.map Prod.snd)) ∧ run (fun p : K × V => deps p.2) (data.map fun p => (p.1, p)) = some gs

theorem keysOf_map {W : Type} (f : K × V → W) (data : List (K × V)) (i : Nat) (m : HMap K Nat) :
    keysOf (data.map fun p => (p.1, f p)) i m = keysOf data i m := by
  induction data generalizing i m with
  | nil => rfl
  | cons e data ih => simp [keysOf, ih]

theorem depsOf_map (deps : V → List K) (data : List (K × V)) :
    depsOf (fun p : K × V => deps p.2) (data.map fun p => (p.1, p)) = depsOf deps data := by
  funext i
  unfold depsOf
  rw [keysOf_map (fun p => p)]
  cases h : data[i]? with
  | none => simp [h]
  | some p => obtain ⟨k, v⟩ := p; simp [h]

/-- The sort never panics and does not depend on anything but keys and dependencies: the values returned are those of the items
grouped. -/
theorem output_exists (deps : V → List K) (data : List (K × V)) (h : (data.map Prod.fst).Nodup) : ∃ gs, Output deps data gs := by
  obtain ⟨s, h1, h2, h3, -⟩ := mainLoop_items deps data h
  have hg : ∃ gs, groups s.scc s.nextScc data = some gs := by
    unfold groups
    rw [if_pos]
    · exact ⟨_, rfl⟩
    · rw [List.all_eq_true]
      intro x hx
      obtain ⟨c, hc⟩ := (h2 x).2 (List.mem_range.1 hx)
      simp [hc, h3 x c hc]
  obtain ⟨gs, hgs⟩ := hg
  refine ⟨gs, ?_, ?_⟩
  · simp only [run, h1, groups_map, hgs, Option.map_some]
  · simp only [run, keysOf_map (fun p => p), depsOf_map, h1, List.map_map]
    rw [show (Prod.snd ∘ fun p : K × V => (p.1, p)) = id from rfl, List.map_id]
    exact hgs

/-- The groups, through the group numbers computed. -/
theorem output_scc (deps : V → List K) (data : List (K × V)) (h : (data.map Prod.fst).Nodup) {gs} (ho : Output deps data gs) :
    ∃ (scc : Nat → Option Nat) (n : Nat),
      gs = ((List.range n).map fun c => (data.zipIdx.filter (fun p => scc p.2 = some c)).map Prod.fst) ∧
      (∀ x < data.length, ∃ c, c < n ∧ scc x = some c) ∧ (∀ c < n, ∃ x, x < data.length ∧ scc x = some c) ∧
      (∀ x y c, scc x = some c → scc y = some c → Reach (depsOf deps data) x y) ∧
      (∀ x y c c', scc x = some c → scc y = some c' → Reach (depsOf deps data) x y → c' ≤ c) := by
  obtain ⟨s, h1, h2, h3, h4, h5, h6⟩ := mainLoop_items deps data h
  have hr := ho.2
  simp only [run, keysOf_map (fun p => p), depsOf_map, h1, List.map_map] at hr
  rw [show (Prod.snd ∘ fun p : K × V => (p.1, p)) = id from rfl, List.map_id] at hr
  unfold groups at hr
  split at hr
  · refine ⟨s.scc, s.nextScc, (Option.some.inj hr).symm, ?_, ?_, h5, h6⟩
    · intro x hx
      obtain ⟨c, hc⟩ := (h2 x).2 hx
      exact ⟨c, h3 x c hc, hc⟩
    · intro c hc
      obtain ⟨x, hx⟩ := h4 c hc
      exact ⟨x, (h2 x).1 ⟨c, hx⟩, hx⟩
  · cases hr

theorem mem_class {data : List (K × V)} {scc : Nat → Option Nat} {c : Nat} {p : K × V} :
    p ∈ (data.zipIdx.filter (fun p => scc p.2 = some c)).map Prod.fst ↔ ∃ i, data[i]? = some p ∧ scc i = some c := by
  simp only [List.mem_map, List.mem_filter, decide_eq_true_eq, Prod.exists, exists_and_right, exists_eq_right,
    List.mem_zipIdx_iff_getElem?]

/-- **C05**: every item appears exactly once, and no group is empty. -/
theorem sort_partition (deps : V → List K) (data : List (K × V)) (h : (data.map Prod.fst).Nodup) {gs} (ho : Output deps data gs) :
    gs.flatten.Perm data ∧ ∀ g ∈ gs, g ≠ [] := by
  obtain ⟨scc, n, rfl, h1, h2, -⟩ := output_scc deps data h ho
  constructor
  · have hf := flatten_classes (fun p : (K × V) × Nat => (scc p.2).getD n) n data.zipIdx (by
      intro a ha
      obtain ⟨c, hc, hc'⟩ := h1 a.2 (by
        obtain ⟨p, i⟩ := a
        exact (List.getElem?_eq_some_iff.1 (List.mem_zipIdx_iff_getElem?.1 ha)).1)
      simp [hc', hc])
    have e : ((List.range n).map fun c => (data.zipIdx.filter (fun p => scc p.2 = some c)).map Prod.fst).flatten =
        (((List.range n).map fun c => data.zipIdx.filter (fun p => (scc p.2).getD n = c)).flatten).map Prod.fst := by
      rw [List.map_flatten, List.map_map]
      congr 1
      apply List.map_congr_left
      intro c hc
      simp only [Function.comp]
      congr 1
      apply List.filter_congr
      intro a _
      have := List.mem_range.1 hc
      cases scc a.2 with
      | none => simp; omega
      | some c' => simp
    rw [e]
    refine (hf.map Prod.fst).trans ?_
    rw [List.zipIdx_map_fst]
  · intro g hg
    obtain ⟨c, hc, rfl⟩ := List.mem_map.1 hg
    obtain ⟨x, hx, hx'⟩ := h2 c (List.mem_range.1 hc)
    apply List.ne_nil_of_mem (a := data[x])
    exact mem_class.2 ⟨x, List.getElem?_eq_getElem hx, hx'⟩

/-- **C05**: two items are in the same group exactly when each depends on the other. -/
theorem sort_same_group (deps : V → List K) (data : List (K × V)) (h : (data.map Prod.fst).Nodup) {gs} (ho : Output deps data gs)
    {p q : K × V} (hp : p ∈ data) (hq : q ∈ data) :
    (∃ g ∈ gs, p ∈ g ∧ q ∈ g) ↔ DependsOn deps data p q ∧ DependsOn deps data q p := by
  obtain ⟨scc, n, rfl, h1, h2, h3, h4⟩ := output_scc deps data h ho
  constructor
  · rintro ⟨g, hg, hpg, hqg⟩
    obtain ⟨c, hc, rfl⟩ := List.mem_map.1 hg
    obtain ⟨i, hi, hi'⟩ := mem_class.1 hpg
    obtain ⟨j, hj, hj'⟩ := mem_class.1 hqg
    exact ⟨(reach_iff deps data h hi hj).1 (h3 i j c hi' hj'), (reach_iff deps data h hj hi).1 (h3 j i c hj' hi')⟩
  · rintro ⟨hpq, hqp⟩
    obtain ⟨i, hi⟩ := List.mem_iff_getElem?.1 hp
    obtain ⟨j, hj⟩ := List.mem_iff_getElem?.1 hq
    obtain ⟨c, hc, hic⟩ := h1 i (List.getElem?_eq_some_iff.1 hi).1
    obtain ⟨c', hc', hjc⟩ := h1 j (List.getElem?_eq_some_iff.1 hj).1
    have e1 := h4 i j c c' hic hjc ((reach_iff deps data h hi hj).2 hpq)
    have e2 := h4 j i c' c hjc hic ((reach_iff deps data h hj hi).2 hqp)
    have : c = c' := by omega
    subst this
    exact ⟨_, List.mem_map.2 ⟨c, List.mem_range.2 hc, rfl⟩, mem_class.2 ⟨i, hi, hic⟩, mem_class.2 ⟨j, hj, hjc⟩⟩

/-- **C06**: an item of group `a` depends, directly or not, only on items of groups that are not later than `a`; those in another
group are strictly earlier. -/
theorem sort_order (deps : V → List K) (data : List (K × V)) (h : (data.map Prod.fst).Nodup) {gs} (ho : Output deps data gs)
    {a b : Nat} {ga gb : List (K × V)} (ha : gs[a]? = some ga) (hb : gs[b]? = some gb)
    {p q : K × V} (hp : p ∈ ga) (hq : q ∈ gb) (hd : DependsOn deps data p q) : b = a ∨ b < a := by
  obtain ⟨scc, n, rfl, h1, h2, h3, h4⟩ := output_scc deps data h ho
  rw [List.getElem?_map] at ha hb
  obtain ⟨a', ea, rfl⟩ := Option.map_eq_some_iff.1 ha
  obtain ⟨b', eb, rfl⟩ := Option.map_eq_some_iff.1 hb
  obtain ⟨la, ea⟩ := List.getElem?_eq_some_iff.1 ea
  obtain ⟨lb, eb⟩ := List.getElem?_eq_some_iff.1 eb
  have ea := (List.getElem_range la).symm.trans ea
  have eb := (List.getElem_range lb).symm.trans eb
  subst ea eb
  obtain ⟨i, hi, hi'⟩ := mem_class.1 hp
  obtain ⟨j, hj, hj'⟩ := mem_class.1 hq
  have := h4 i j a b hi' hj' ((reach_iff deps data h hi hj).2 hd)
  omega

/-- Non-vacuity: a cycle 1-2 that needs 3 and an unknown key 9, and an item 4 that needs the cycle. -/
example : ∃ gs, Output (fun v : List Nat => v) [(4, [1]), (1, [2, 3]), (2, [9, 1]), (3, [])] gs ∧
    gs = [[(3, [])], [(1, [2, 3]), (2, [9, 1])], [(4, [1])]] := by
  refine ⟨_, ⟨by decide, by decide⟩, rfl⟩

/-- With two items of the same key the Rust code panics (it indexes the result with -1). -/
example : run (fun v : List Nat => v) [(1, []), (1, [])] = none := by decide

/-! ## C46: class hierarchies -/

/-- `verify_classes_hierarchy`, llrl0/src/module/sema/type_inference.rs:493-505, on the classes `(id, superclasses)` in the order
of iteration of the map (whose keys are the ids).  `false` is the error `CyclicClasses`; `none` a panic. -/
def verifyClassesHierarchy (classes : List (Nat × List Nat)) : Option Bool :=
  (run (fun v => v) classes).map fun gs => gs.all fun g => !decide (g.length ≥ 2)

theorem two_of_length {α} {g : List α} (h : 2 ≤ g.length) : ∃ p q r, g = p :: q :: r := by
  match g, h with
  | p :: q :: r, _ => exact ⟨p, q, r, rfl⟩

theorem nodup_of_flatten {α} {gs : List (List α)} (h : gs.flatten.Nodup) {g} (hg : g ∈ gs) : g.Nodup :=
  h.sublist (List.sublist_flatten_of_mem hg)

/-- Helper: some group has two members exactly when two different items depend on each other. -/
theorem big_group (deps : V → List K) (data : List (K × V)) (h : (data.map Prod.fst).Nodup) {gs} (ho : Output deps data gs) :
    (∃ g ∈ gs, 2 ≤ g.length) ↔
      ∃ p ∈ data, ∃ q ∈ data, p ≠ q ∧ DependsOn deps data p q ∧ DependsOn deps data q p := by
  have hnd : data.Nodup := (List.pairwise_map.1 h).imp (fun hne e => hne (by rw [e]))
  have hperm := (sort_partition deps data h ho).1
  have hmem : ∀ g ∈ gs, ∀ x ∈ g, x ∈ data := fun g hg x hx => hperm.mem_iff.1 (List.mem_flatten.2 ⟨g, hg, hx⟩)
  constructor
  · rintro ⟨g, hg, hlen⟩
    obtain ⟨p, q, r, rfl⟩ := two_of_length hlen
    have hgn : (p :: q :: r).Nodup := nodup_of_flatten (hperm.nodup_iff.2 hnd) hg
    have hp := hmem _ hg p (by simp)
    have hq := hmem _ hg q (by simp)
    refine ⟨p, hp, q, hq, ?_, (sort_same_group deps data h ho hp hq).1 ⟨_, hg, by simp, by simp⟩⟩
    rintro rfl
    simp at hgn
  · rintro ⟨p, hp, q, hq, hne, hd⟩
    obtain ⟨g, hg, hpg, hqg⟩ := (sort_same_group deps data h ho hp hq).2 hd
    refine ⟨g, hg, ?_⟩
    match g, hpg, hqg with
    | [a], hpg, hqg => simp at hpg hqg; exact absurd (hpg.trans hqg.symm) hne
    | a :: b :: r, _, _ => simp

/-- **C46**, as far as the code goes: the error is reported exactly when two *different* classes are superclasses of each other.
Missing: a class that is directly its own superclass (see `self_superclass_accepted`). -/
theorem cyclic_classes_rejected_partial (classes : List (Nat × List Nat)) (h : (classes.map Prod.fst).Nodup) :
    ∃ ok, verifyClassesHierarchy classes = some ok ∧
      (ok = false ↔ ∃ c ∈ classes, ∃ d ∈ classes, c ≠ d ∧ DependsOn (fun v => v) classes c d ∧ DependsOn (fun v => v) classes d c) := by
  obtain ⟨gs, ho⟩ := output_exists (fun v : List Nat => v) classes h
  refine ⟨_, by rw [verifyClassesHierarchy, ho.1, Option.map_some], ?_⟩
  rw [← big_group _ _ h ho]
  rw [Bool.eq_false_iff, ne_eq, List.all_eq_true]
  simp

/-- C46 fails for a class that is its own direct superclass: the code accepts it. -/
theorem self_superclass_accepted : verifyClassesHierarchy [(1, [1])] = some true := by decide

/-- Non-vacuity: a cycle through three classes is rejected. -/
example : verifyClassesHierarchy [(1, [2]), (2, [3]), (3, [1]), (4, [])] = some false := by decide

/-! ## C47: order of the modules -/

section Modules
variable {P : Type} [DecidableEq P]

/-- `resolve_dependencies`, llrl0/src/source.rs:85-133, on the already parsed import paths made relative to the package of `path`
(llrl0/src/source.rs:92-106; invalid paths only add errors).  Gives the values of `dependencies`: the map is keyed by the text of the
import, which only removes repetitions. -/
def resolveDependencies (builtin std path : P) (implicitStd : Bool) (imports : List P) : List P :=
  imports.filter (· ≠ path) ++ (if path ≠ builtin then [builtin] else []) ++
    (if implicitStd then if path = std then [] else [std] else [])

/-- `resolve_dependencies_order`, llrl0/src/source/set.rs:44-66: `.ok` the modules in order, `.error` the paths of the first group that
is not a singleton; `none` is a panic. -/
def resolveDependenciesOrder {S : Type} (deps : S → List P) (path : S → P) (sources : List S) : Option (Except (List P) (List S)) :=
  (run deps (sources.map fun s => (path s, s))).map fun gs =>
    gs.foldr (fun g acc => match g with
      | [s] => acc.map (s :: ·)
      | g => .error (g.map path)) (.ok [])

/-- A module never has itself as a dependency after `resolve_dependencies`, unless it is both the builtin module and std. -/
theorem not_own_dependency (builtin std path : P) (implicitStd : Bool) (imports : List P) :
    path ∉ resolveDependencies builtin std path implicitStd imports := by
  unfold resolveDependencies
  simp only [List.mem_append, List.mem_filter, not_or]
  refine ⟨⟨by simp, ?_⟩, ?_⟩
  · split
    · simpa
    · simp
  · split
    · split
      · simp
      · simpa
    · simp

omit [DecidableEq P] in
theorem foldr_ok {S : Type} (path : S → P) (gs : List (List S)) :
    ((∀ g ∈ gs, g.length = 1) → gs.foldr (fun g acc => match g with
      | [s] => acc.map (s :: ·)
      | g => .error (g.map path)) (.ok [] : Except (List P) (List S)) = .ok gs.flatten) ∧
    (¬(∀ g ∈ gs, g.length = 1) → ∃ g ∈ gs, g.length ≠ 1 ∧ gs.foldr (fun g acc => match g with
      | [s] => acc.map (s :: ·)
      | g => .error (g.map path)) (.ok [] : Except (List P) (List S)) = .error (g.map path)) := by
  induction gs with
  | nil => simp
  | cons g gs ih =>
    constructor
    · intro h
      have hg := h g (by simp)
      match g, hg with
      | [s], _ =>
        rw [List.foldr_cons, ih.1 (fun g hg => h g (by simp [hg]))]
        rfl
    · intro h
      by_cases hg : g.length = 1
      · obtain ⟨g', h1, h2, h3⟩ := ih.2 (fun hall => h (by
          intro x hx
          rcases List.mem_cons.1 hx with rfl | hx
          · exact hg
          · exact hall x hx))
        refine ⟨g', by simp [h1], h2, ?_⟩
        match g, hg with
        | [s], _ => rw [List.foldr_cons, h3]; rfl
      · refine ⟨g, by simp, hg, ?_⟩
        rw [List.foldr_cons]
        match g, hg with
        | [], _ => rfl
        | [s], hg => exact absurd rfl hg
        | _ :: _ :: _, _ => rfl

/-- Dependency between modules, through the sources of the set. -/
def Uses {S : Type} (deps : S → List P) (path : S → P) (sources : List S) (s t : S) : Prop :=
  DependsOn deps (sources.map fun s => (path s, s)) (path s, s) (path t, t)

/-- **C47**: the order is refused exactly when two different modules use each other (a module never uses itself directly, by
`not_own_dependency`, so this is every cycle); the paths reported are then paths of modules of one cycle. -/
theorem cycle_iff_error {S : Type} (deps : S → List P) (path : S → P) (sources : List S) (h : (sources.map path).Nodup) :
    ∃ r, resolveDependenciesOrder deps path sources = some r ∧
      ((∃ ps, r = .error ps) ↔ ∃ s ∈ sources, ∃ t ∈ sources, s ≠ t ∧ Uses deps path sources s t ∧ Uses deps path sources t s) ∧
      (∀ ps, r = .error ps → 2 ≤ ps.length ∧ ∀ p ∈ ps, ∀ q ∈ ps, ∃ s ∈ sources, ∃ t ∈ sources,
        path s = p ∧ path t = q ∧ Uses deps path sources s t) := by
  have hk : ((sources.map fun s => (path s, s)).map Prod.fst).Nodup := by
    rw [List.map_map]; exact h
  obtain ⟨gs, ho⟩ := output_exists deps _ hk
  refine ⟨_, by rw [resolveDependenciesOrder, ho.1, Option.map_some], ?_⟩
  have hmemd : ∀ x, x ∈ (sources.map fun s => (path s, s)) ↔ x.2 ∈ sources ∧ x.1 = path x.2 := by
    intro x
    rw [List.mem_map]
    constructor
    · rintro ⟨s, hs, rfl⟩; exact ⟨hs, rfl⟩
    · rintro ⟨hs, e⟩; exact ⟨x.2, hs, Prod.ext e.symm rfl⟩
  have hbig := big_group _ _ hk ho
  have hne := (sort_partition _ _ hk ho).2
  have hperm := (sort_partition _ _ hk ho).1
  have hlen : (∀ g ∈ gs.map (List.map Prod.snd), g.length = 1) ↔ ¬ ∃ g ∈ gs, 2 ≤ g.length := by
    constructor
    · rintro hall ⟨g, hg, hl⟩
      have := hall _ (List.mem_map_of_mem hg)
      rw [List.length_map] at this; omega
    · intro hno g hg
      obtain ⟨g', hg', rfl⟩ := List.mem_map.1 hg
      rw [List.length_map]
      have h1 := List.length_pos_iff.2 (hne g' hg')
      have h2 : ¬ 2 ≤ g'.length := fun h2 => hno ⟨g', hg', h2⟩
      omega
  have hcyc : (∃ g ∈ gs, 2 ≤ g.length) ↔
      ∃ s ∈ sources, ∃ t ∈ sources, s ≠ t ∧ Uses deps path sources s t ∧ Uses deps path sources t s := by
    rw [hbig]
    constructor
    · rintro ⟨⟨kp, p⟩, hp, ⟨kq, q⟩, hq, hpq, h1, h2⟩
      obtain ⟨hp1, hp2⟩ := (hmemd _).1 hp
      obtain ⟨hq1, hq2⟩ := (hmemd _).1 hq
      simp only at hp1 hp2 hq1 hq2
      subst hp2 hq2
      exact ⟨p, hp1, q, hq1, fun e => hpq (by rw [e]), h1, h2⟩
    · rintro ⟨s, hs, t, ht, hst, h1, h2⟩
      exact ⟨_, (hmemd (path s, s)).2 ⟨hs, rfl⟩, _, (hmemd (path t, t)).2 ⟨ht, rfl⟩, fun e => hst (Prod.ext_iff.1 e).2, h1, h2⟩
  have hf := foldr_ok path (gs.map (List.map Prod.snd))
  constructor
  · rw [← hcyc]
    constructor
    · rintro ⟨ps, hps⟩
      apply Classical.byContradiction
      intro hno
      rw [hf.1 (hlen.2 hno)] at hps
      cases hps
    · intro hex
      obtain ⟨g, -, -, e⟩ := hf.2 (fun hall => (hlen.1 hall) hex)
      exact ⟨_, e⟩
  · intro ps hps
    by_cases hall : ∀ g ∈ gs.map (List.map Prod.snd), g.length = 1
    · rw [hf.1 hall] at hps; cases hps
    · obtain ⟨g, hg, hgl, e⟩ := hf.2 hall
      rw [e] at hps
      cases hps
      obtain ⟨g', hg', rfl⟩ := List.mem_map.1 hg
      have h1 := List.length_pos_iff.2 (hne g' hg')
      rw [List.length_map] at hgl
      refine ⟨by simp only [List.length_map]; omega, ?_⟩
      intro p hp q hq
      simp only [List.map_map, List.mem_map, Function.comp] at hp hq
      obtain ⟨⟨kx, x⟩, hx, rfl⟩ := hp
      obtain ⟨⟨ky, y⟩, hy, rfl⟩ := hq
      have hx' := hperm.mem_iff.1 (List.mem_flatten.2 ⟨g', hg', hx⟩)
      have hy' := hperm.mem_iff.1 (List.mem_flatten.2 ⟨g', hg', hy⟩)
      have hsame := (sort_same_group _ _ hk ho hx' hy').1 ⟨g', hg', hx, hy⟩
      obtain ⟨hx1, hx2⟩ := (hmemd _).1 hx'
      obtain ⟨hy1, hy2⟩ := (hmemd _).1 hy'
      simp only at hx1 hx2 hy1 hy2
      subst hx2 hy2
      exact ⟨x, hx1, y, hy1, rfl, rfl, hsame.1⟩

/-- **C47**: when an order is returned it contains every module once, and each module comes after the modules it depends on (other
than itself). -/
theorem order_respects {S : Type} (deps : S → List P) (path : S → P) (sources : List S) (h : (sources.map path).Nodup)
    {out : List S} (hr : resolveDependenciesOrder deps path sources = some (.ok out)) :
    out.Perm sources ∧
      ∀ (a b : Nat) (s t : S), out[a]? = some s → out[b]? = some t → path t ∈ deps s → path t ≠ path s → b < a := by
  have hk : ((sources.map fun s => (path s, s)).map Prod.fst).Nodup := by
    rw [List.map_map]; exact h
  obtain ⟨gs, ho⟩ := output_exists deps _ hk
  rw [resolveDependenciesOrder, ho.1, Option.map_some] at hr
  have hr := Option.some.inj hr
  have hf := foldr_ok path (gs.map (List.map Prod.snd))
  have hall : ∀ g ∈ gs.map (List.map Prod.snd), g.length = 1 := by
    apply Classical.byContradiction
    intro hno
    obtain ⟨g, -, -, e⟩ := hf.2 hno
    rw [e] at hr; cases hr
  rw [hf.1 hall] at hr
  have hout : out = gs.flatten.map Prod.snd := by
    cases hr; rw [List.map_flatten]
  have hperm := (sort_partition _ _ hk ho).1
  have hp : out.Perm sources := by
    rw [hout]
    refine (hperm.map Prod.snd).trans ?_
    rw [List.map_map]
    exact List.Perm.of_eq (List.map_id _)
  refine ⟨hp, ?_⟩
  have hidx : ∀ (gs : List (List (P × S))), (∀ g ∈ gs, g.length = 1) → ∀ (a : Nat) (x : P × S), gs.flatten[a]? = some x → gs[a]? = some [x] := by
    intro gs
    induction gs with
    | nil => intro _ a x hx; simp at hx
    | cons g gs ih =>
      intro hl a x hx
      have hg := hl g (by simp)
      match g, hg with
      | [y], _ =>
        cases a with
        | zero => simpa using hx
        | succ a =>
          simp only [List.flatten_cons, List.cons_append, List.nil_append, List.getElem?_cons_succ] at hx ⊢
          exact ih (fun g hg => hl g (by simp [hg])) a x hx
  have hl1 : ∀ g ∈ gs, g.length = 1 := by
    intro g hg
    have := hall _ (List.mem_map_of_mem hg)
    rwa [List.length_map] at this
  intro a b s t ha hb hd hne
  rw [hout, List.getElem?_map] at ha hb
  obtain ⟨x, hx, rfl⟩ := Option.map_eq_some_iff.1 ha
  obtain ⟨y, hy, rfl⟩ := Option.map_eq_some_iff.1 hb
  have hxm := hperm.mem_iff.1 (List.mem_of_getElem? hx)
  have hym := hperm.mem_iff.1 (List.mem_of_getElem? hy)
  have ex : x.1 = path x.2 := by
    obtain ⟨_, _, rfl⟩ := List.mem_map.1 hxm; rfl
  have ey : y.1 = path y.2 := by
    obtain ⟨_, _, rfl⟩ := List.mem_map.1 hym; rfl
  rcases sort_order _ _ hk ho (hidx gs hl1 a x hx) (hidx gs hl1 b y hy) (List.mem_singleton.2 rfl) (List.mem_singleton.2 rfl)
    (.step hym (by rw [ey]; exact hd) (.refl _)) with e | e
  · subst e
    rw [hx] at hy
    cases hy
    exact absurd rfl hne
  · exact e

/-- Non-vacuity. -/
example : resolveDependenciesOrder (fun s : Nat × List Nat => s.2) Prod.fst [(1, [2]), (2, [3]), (3, [])] =
    some (.ok [(3, []), (2, [3]), (1, [2])]) := by rfl
example : resolveDependenciesOrder (fun s : Nat × List Nat => s.2) Prod.fst [(1, [2]), (2, [1]), (3, [])] = some (.error [1, 2]) := by rfl
end Modules

end Verif.TopoSort
