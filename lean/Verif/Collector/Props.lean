import Verif.Collector.Lemmas
import Verif.TopoSort.Props
import Verif.Parallel.Spec
/-!
# C12: collecting sources does not depend on the schedule; C57: what the parallel build is given
-/
namespace Verif.Collector

open Verif.Collector.Spec Verif.Path

theorem run_inv {load : Loader} {order inputs k s} (ho : OrderOk load order) (hr : Run load order inputs k s) : Inv load order inputs s := by
  induction hr with
  | nil => exact initial_inv load order inputs
  | cons _ hst ih => exact step_inv ho ih hst

/-- **C12**: a path is loaded at most once. -/
theorem loaded_once {load : Loader} {order inputs k s} (ho : OrderOk load order) (hr : Run load order inputs k s) (p : Path) : s.loaded.count p ≤ 1 := by
  have := (run_inv ho hr).tok p
  split at this <;> omega

/-- **C12**: nothing is loaded that is not used, directly or indirectly, by the inputs. -/
theorem loaded_reachable {load : Loader} {order inputs k s} (ho : OrderOk load order) (hr : Run load order inputs k s) {p : Path} (hp : p ∈ s.loaded) :
    Reach load inputs p := by
  have hi := run_inv ho hr
  have h1 := hi.tok p
  have h2 := List.count_pos_iff.2 hp
  split at h1
  · exact hi.ongReach p ‹_›
  · omega

theorem done_acts {s : State} (hd : s.done) (a : Act) : a ∉ s.acts := by
  intro hm
  obtain ⟨t, ht, hat⟩ := List.mem_flatten.1 hm
  rw [hd t ht] at hat
  cases hat

theorem done_loaded {load : Loader} {order inputs k s} (ho : OrderOk load order) (hr : Run load order inputs k s) (hd : s.done) {p : Path}
    (hp : Reach load inputs p) : p ∈ s.loaded := by
  have hi := run_inv ho hr
  have hl : ∀ q, q ∈ s.ongoing → q ∈ s.loaded := by
    intro q hq
    have := hi.tok q
    rw [if_pos hq, List.count_eq_zero.2 (done_acts hd _), List.count_eq_zero.2 (done_acts hd _)] at this
    exact List.count_pos_iff.1 (by omega)
  induction hp with
  | input hp => exact hl _ ((hi.inp _ hp).resolve_right (done_acts hd _))
  | uses _ hu ih => exact hl _ ((hi.deps _ ih _ ((ho.mem _ _).2 hu)).resolve_right (done_acts hd _))

/-- **C12**: when collecting ends, the sources are exactly those of the inputs and of everything they use, each one once, as the loader gives them:
a path that cannot be loaded gives a source with an error. -/
theorem sources_reachable {load : Loader} {order inputs k s} (ho : OrderOk load order) (hr : Run load order inputs k s) (hd : s.done) :
    (∀ t, t ∈ s.result.sources ↔ ∃ p, Reach load inputs p ∧ t = sourceOf load p) ∧ (s.result.sources.map (·.path)).Nodup := by
  have hi := run_inv ho hr
  refine ⟨fun t => ?_, hi.ok.nodup⟩
  rw [hi.ok.mem_sources]
  constructor
  · intro hl
    obtain ⟨h1, h2⟩ := hi.look _ _ hl
    exact ⟨t.path, loaded_reachable ho hr h2, h1⟩
  · rintro ⟨p, hp, rfl⟩
    rw [sourceOf_path]
    exact (hi.res p (done_loaded ho hr hd hp)).resolve_left (done_acts hd _)

theorem perm_of_same {α β : Type} (f : α → β) {l l' : List α} (h : (l.map f).Nodup) (h' : (l'.map f).Nodup) (hm : ∀ x, x ∈ l ↔ x ∈ l') : l.Perm l' :=
  (List.perm_ext_iff_of_nodup (List.Pairwise.of_map f (fun _ _ hab he => hab (congrArg f he)) h)
    (List.Pairwise.of_map f (fun _ _ hab he => hab (congrArg f he)) h')).2 hm

/-- **C12**: two schedules, with hash maps iterated in different orders and the inputs given in any order, collect the same sources. -/
theorem schedule_independent {load : Loader} {order order' inputs inputs' k k' s s'} (ho : OrderOk load order) (ho' : OrderOk load order')
    (hin : ∀ p, p ∈ inputs ↔ p ∈ inputs') (hr : Run load order inputs k s) (hr' : Run load order' inputs' k' s') (hd : s.done) (hd' : s'.done) :
    s.result.sources.Perm s'.result.sources := by
  obtain ⟨h1, h2⟩ := sources_reachable ho hr hd
  obtain ⟨h3, h4⟩ := sources_reachable ho' hr' hd'
  have hreach : ∀ p, Reach load inputs p ↔ Reach load inputs' p := by
    intro p
    constructor
    · intro h
      induction h with
      | input h => exact .input ((hin _).1 h)
      | uses _ hu ih => exact .uses ih hu
    · intro h
      induction h with
      | input h => exact .input ((hin _).2 h)
      | uses _ hu ih => exact .uses ih hu
  refine perm_of_same _ h2 h4 (fun t => ?_)
  rw [h1, h3]
  simp only [hreach]

/-! ### Collecting ends -/

def weight (order : Path → List Path) : Act → Nat
  | .collect _ => 1
  | .spawn p => 3 + (order p).length
  | .load p => 2 + (order p).length
  | .insert _ => 1

/-- The work of the paths not met yet. -/
def pot (order : Path → List Path) (all ongoing : List Path) : Nat := ((all.filter (· ∉ ongoing)).map fun p => 3 + (order p).length).sum

def work (order : Path → List Path) (all : List Path) (s : State) : Nat := (s.acts.map (weight order)).sum + pot order all s.ongoing

theorem pot_cons (order : Path → List Path) {p : Path} {ongoing : List Path} (hp : p ∉ ongoing) : ∀ (all : List Path), all.Nodup →
    pot order all (p :: ongoing) + (if p ∈ all then 3 + (order p).length else 0) = pot order all ongoing := by
  intro all
  induction all with
  | nil => intro _; rfl
  | cons q all ih =>
    intro hn
    obtain ⟨h1, h2⟩ := List.nodup_cons.1 hn
    have := ih h2
    unfold pot at this ⊢
    simp only [List.filter_cons, List.mem_cons, not_or, decide_not, Bool.decide_and] at this ⊢
    by_cases hqp : q = p
    · subst hqp
      rw [if_neg h1] at this
      simp [hp]
      simp at this
      omega
    · have hpq : p ≠ q := fun e => hqp e.symm
      by_cases hq : q ∈ ongoing <;> by_cases hpa : p ∈ all <;> simp [hqp, hpq, hq, hpa] at this ⊢ <;> omega

theorem sum_collects (order : Path → List Path) (l : List Path) : ((l.map Act.collect).map (weight order)).sum = l.length := by
  induction l with
  | nil => rfl
  | cons p l ih =>
    simp only [List.map_cons, List.sum_cons, List.length_cons, ih, weight]
    omega

theorem step_work {load : Loader} {order inputs all} (hn : all.Nodup) (hall : ∀ p, Reach load inputs p → p ∈ all) {s s' : State}
    (h : Inv load order inputs s) (hst : Step load order s s') : work order all s' < work order all s := by
  obtain ⟨pre, post, a, rest, hth⟩ := hst
  have hold : (s.acts.map (weight order)).sum = (pre.flatten.map (weight order)).sum + (weight order a + (rest.map (weight order)).sum) +
      (post.flatten.map (weight order)).sum := by
    unfold State.acts
    rw [hth, List.flatten_append, List.flatten_cons, List.map_append, List.map_append, List.sum_append, List.sum_append, List.map_cons, List.sum_cons]
    omega
  have hnew : ∀ (t : List Act) (n : List (List Act)), (((pre ++ t :: post ++ n).flatten).map (weight order)).sum =
      (pre.flatten.map (weight order)).sum + (t.map (weight order)).sum + (post.flatten.map (weight order)).sum + (n.flatten.map (weight order)).sum := by
    intro t n
    rw [List.flatten_append, List.flatten_append, List.flatten_cons, List.map_append, List.map_append, List.map_append, List.sum_append, List.sum_append,
      List.sum_append]
    omega
  have hamem : a ∈ s.acts := List.mem_flatten.2 ⟨a :: rest, by rw [hth]; simp, by simp⟩
  unfold work
  simp only [State.acts] at hold ⊢
  rw [hnew, hold]
  cases a with
  | collect p =>
    by_cases hp : p ∈ s.ongoing
    · simp only [act, if_pos hp, weight, List.flatten_nil, List.map_nil, List.sum_nil]
      omega
    · have hpot := pot_cons order hp all hn
      rw [if_pos (hall p (h.actReach p hamem))] at hpot
      simp only [act, if_neg hp, weight, List.map_cons, List.sum_cons, List.flatten_nil, List.map_nil, List.sum_nil]
      omega
  | spawn p =>
    simp only [act, weight, List.flatten_cons, List.flatten_nil, List.append_nil, List.map_cons, List.map_nil, List.sum_cons, List.sum_nil]
    omega
  | load p =>
    have := sum_collects order (order p)
    simp only [act, weight, List.map_append, List.sum_append, this, List.map_cons, List.sum_cons, List.flatten_nil, List.map_nil, List.sum_nil]
    omega
  | insert p =>
    simp only [act, weight, List.flatten_nil, List.map_nil, List.sum_nil]
    omega

/-- **C12**: if only finitely many modules are used, there is no infinite schedule. -/
theorem run_bounded {load : Loader} {order inputs k s} (ho : OrderOk load order) {all : List Path} (hn : all.Nodup)
    (hall : ∀ p, Reach load inputs p → p ∈ all) (hr : Run load order inputs k s) : k ≤ work order all (initial inputs) := by
  have key : k + work order all s ≤ work order all (initial inputs) := by
    induction hr with
    | nil => omega
    | cons hr hst ih =>
      have := step_work hn hall (run_inv ho hr) hst
      omega
  omega

/-- **C12**: as long as collecting is not done, some thread can go on: no deadlock. -/
theorem run_progress {load : Loader} {order inputs k s} (hr : Run load order inputs k s) (hd : ¬ s.done) : ∃ s', Run load order inputs (k + 1) s' := by
  unfold State.done at hd
  obtain ⟨t, ht⟩ := Classical.not_forall.1 hd
  obtain ⟨ht, hne⟩ := Classical.not_imp.1 ht
  cases t with
  | nil => exact absurd rfl hne
  | cons a rest =>
    obtain ⟨pre, post, hth⟩ := List.append_of_mem ht
    exact ⟨_, .cons hr (.run pre post a rest hth)⟩

/-- **C12**: so every run can be completed. -/
theorem collect_ends {load : Loader} {order inputs k s} (ho : OrderOk load order) {all : List Path} (hn : all.Nodup)
    (hall : ∀ p, Reach load inputs p → p ∈ all) (hr : Run load order inputs k s) : ∃ k' s', k ≤ k' ∧ Run load order inputs k' s' ∧ s'.done := by
  generalize hf : work order all (initial inputs) - k = f
  induction f generalizing k s with
  | zero =>
    by_cases hd : s.done
    · exact ⟨k, s, Nat.le_refl _, hr, hd⟩
    · obtain ⟨s', hr'⟩ := run_progress hr hd
      have := run_bounded ho hn hall hr'
      omega
  | succ f ih =>
    by_cases hd : s.done
    · exact ⟨k, s, Nat.le_refl _, hr, hd⟩
    · obtain ⟨s', hr'⟩ := run_progress hr hd
      obtain ⟨k', s'', h1, h2, h3⟩ := ih hr' (by omega)
      exact ⟨k', s'', by omega, h2, h3⟩

/-! ### What the build is given -/

/-- The dependencies of a source, `traverse_dependencies`, llrl0/src/source.rs:136-140, in the order of the hash map. -/
def Source.uses (s : Source) : List Path := s.deps.map Prod.snd

/-- A source, as the parallel build sees it. -/
def Source.view (s : Source) : Parallel.Source Path := ⟨s.path, s.uses⟩

/-- **C57**: the order computed for the collected sources is one the parallel build needs: paths are different and every module comes after the ones it
uses. -/
theorem order_sorted {load : Loader} {order inputs k s} (ho : OrderOk load order) (hr : Run load order inputs k s) (hd : s.done) {out : List Source}
    (hout : TopoSort.resolveDependenciesOrder Source.uses Source.path s.result.sources = some (.ok out)) :
    out.Perm s.result.sources ∧ Parallel.Spec.Sorted (out.map Source.view) := by
  obtain ⟨hmem, hnd⟩ := sources_reachable ho hr hd
  obtain ⟨hp, hord⟩ := TopoSort.order_respects Source.uses Source.path s.result.sources hnd hout
  refine ⟨hp, ?_, ?_⟩
  · rw [List.map_map]
    exact (hp.map Source.path).nodup_iff.2 hnd
  · rintro i j ⟨a, b, ha, hb, hm⟩
    rw [List.getElem?_map, Option.map_eq_some_iff] at ha hb
    obtain ⟨x, hx, rfl⟩ := ha
    obtain ⟨y, hy, rfl⟩ := hb
    refine hord i j x y hx hy hm (fun he => ?_)
    obtain ⟨p, -, rfl⟩ := (hmem x).1 (hp.mem_iff.1 (List.mem_of_getElem? hx))
    have := (deps_iff load p y.path).1 hm
    rw [sourceOf_path] at he
    exact this.1 he

/-- The assertions at the beginning of `build`, llrl0/src/module/parallel.rs:52-67. -/
def buildAssert (sources : List Source) : Prop :=
  (∃ s, sources[0]? = some s ∧ s.path = builtin) ∧
  (∀ s ∈ sources.drop 1, (HMap.get s.deps (print builtin)).isSome) ∧
  (∀ s ∈ sources, s.implicitStd = true → (HMap.get s.deps (print std)).isSome)

/-- **C57**: if the collected sources have no errors and can be ordered, the assertions of `build` hold. -/
theorem build_asserts {load : Loader} {order inputs k s} (ho : OrderOk load order) (hr : Run load order inputs k s) (hd : s.done) (hne : inputs ≠ [])
    (herr : ∀ t ∈ s.result.sources, t.errors = []) {out : List Source}
    (hout : TopoSort.resolveDependenciesOrder Source.uses Source.path s.result.sources = some (.ok out)) : buildAssert out := by
  obtain ⟨hmem, hnd⟩ := sources_reachable ho hr hd
  obtain ⟨hp, hs⟩ := order_sorted ho hr hd hout
  have hload : ∀ p, Reach load inputs p → ∃ items errors, load p = some (items, errors) := by
    intro p hreach
    have he := herr _ ((hmem _).2 ⟨p, hreach, rfl⟩)
    cases h : load p with
    | none => rw [sourceOf_failed h] at he; simp [Source.fromError] at he
    | some r => exact ⟨r.1, r.2, rfl⟩
  have hin : ∀ t ∈ out, ∃ p, Reach load inputs p ∧ t = sourceOf load p := fun t ht => (hmem t).1 (hp.mem_iff.1 ht)
  have hfirst : ∃ t, out[0]? = some t ∧ t.path = builtin := by
    obtain ⟨p0, hp0⟩ := List.exists_mem_of_ne_nil _ hne
    cases hout0 : out with
    | nil =>
      have := hp.mem_iff.2 ((hmem _).2 ⟨p0, .input hp0, rfl⟩)
      rw [hout0] at this
      cases this
    | cons t rest =>
      refine ⟨t, rfl, ?_⟩
      obtain ⟨p, hreach, rfl⟩ := hin t (by rw [hout0]; simp)
      rw [sourceOf_path]
      apply Classical.byContradiction
      intro hpb
      obtain ⟨items, errors, hl⟩ := hload p hreach
      have hu : Uses load p builtin := ⟨fun e => hpb e.symm, items, errors, hl, .inr (.inl rfl)⟩
      have hb := hp.mem_iff.2 ((hmem _).2 ⟨builtin, .uses hreach hu, rfl⟩)
      obtain ⟨j, hj⟩ := List.getElem?_of_mem hb
      have := hs.order 0 j ⟨(sourceOf load p).view, (sourceOf load builtin).view, by rw [List.getElem?_map, hout0]; rfl,
        by rw [List.getElem?_map, hj]; rfl, by
          show (sourceOf load builtin).path ∈ _
          rw [sourceOf_path]
          exact (deps_iff load p builtin).2 hu⟩
      omega
  refine ⟨hfirst, ?_, ?_⟩
  · intro t ht
    obtain ⟨p, hreach, rfl⟩ := hin t (List.mem_of_mem_drop ht)
    obtain ⟨items, errors, hl⟩ := hload p hreach
    have hpb : p ≠ builtin := by
      rintro rfl
      obtain ⟨f, hf, hfb⟩ := hfirst
      cases out with
      | nil => cases hf
      | cons x rest =>
        simp only [List.getElem?_cons_zero, Option.some.injEq] at hf
        subst hf
        have hnd' := hs.nodup
        simp only [List.map_cons, List.nodup_cons, List.mem_map] at hnd'
        exact hnd'.1 ⟨_, ⟨_, ht, rfl⟩, by
          show (sourceOf load builtin).path = x.path
          rw [sourceOf_path, hfb]⟩
    rw [(sourceOf_loaded hl).keyB hpb]
    rfl
  · intro t ht himp
    obtain ⟨p, hreach, rfl⟩ := hin t ht
    obtain ⟨items, errors, hl⟩ := hload p hreach
    have hL := sourceOf_loaded hl
    have hps : p ≠ std := by
      intro e
      have := (hL.errs.1 (herr _ ((hmem _).2 ⟨p, hreach, rfl⟩))).2.2 e
      exact (hL.implicit.1 himp) this
    rw [hL.keyS himp hps]
    rfl

/-! ### Errors of a module -/

/-- **C12**: a source has no errors exactly when it was loaded without errors, all its imports are paths of other modules, and it is not the standard
library importing itself. -/
theorem no_errors_iff (load : Loader) (p : Path) : (sourceOf load p).errors = [] ↔
    ∃ items, load p = some (items, []) ∧ (∀ text, Item.import text ∈ items → ∃ imp, parse text = some imp ∧
      (if imp.package = none ∧ p.package ≠ none then ⟨p.package, imp.module⟩ else imp) ≠ p) ∧ (p = std → Item.noImplicitStd ∈ items) := by
  cases h : load p with
  | none => rw [sourceOf_failed h]; simp [Source.fromError]
  | some r =>
    obtain ⟨items, errors⟩ := r
    rw [(sourceOf_loaded h).errs]
    simp only [target_iff]
    constructor
    · rintro ⟨rfl, h2, h3⟩
      refine ⟨items, rfl, fun text ht => ?_, h3⟩
      obtain ⟨q, ⟨imp, hi, hq⟩, hne⟩ := h2 text ht
      exact ⟨imp, hi, by rw [← hq]; exact hne⟩
    · rintro ⟨i, hi, h2, h3⟩
      cases hi
      refine ⟨rfl, fun text ht => ?_, h3⟩
      obtain ⟨imp, hi, hne⟩ := h2 text ht
      exact ⟨_, ⟨imp, hi, rfl⟩, hne⟩

/-! ### A case that meets the hypotheses -/

def str (s : String) : Str := s.toList

/-- A package with two modules that import each other, the standard library and the builtin module; a third module does not exist. -/
def sampleLoader : Loader := fun p =>
  if p = builtin then some ([.noImplicitStd], [])
  else if p = std then some ([.noImplicitStd], [])
  else if p = ⟨some (str "pkg"), []⟩ then some ([.import (str "~/a"), .other, .import (str "pkg/a")], [])
  else if p = ⟨some (str "pkg"), [str "a"]⟩ then some ([.import (str "~"), .import (str "missing")], [])
  else none

def sampleOrder (p : Path) : List Path := (sourceOf sampleLoader p).deps.map Prod.snd

theorem sampleOrder_ok : OrderOk sampleLoader sampleOrder := fun _ => .refl _

def sampleAll : List Path := [builtin, std, ⟨some (str "pkg"), []⟩, ⟨some (str "pkg"), [str "a"]⟩, ⟨some (str "missing"), []⟩]

theorem sample_reach (p : Path) (h : Reach sampleLoader [⟨some (str "pkg"), []⟩] p) : p ∈ sampleAll := by
  have hclosed : ∀ q ∈ sampleAll, ∀ r ∈ sampleOrder q, r ∈ sampleAll := by decide +kernel
  induction h with
  | input h => revert h; simp [sampleAll]; intro h; simp [h]
  | uses _ hu ih => exact hclosed _ ih _ ((sampleOrder_ok.mem _ _).2 hu)

/-- Runs that end exist, and all of them give the five sources, the missing one with an error. -/
example : (∃ k s, Run sampleLoader sampleOrder [⟨some (str "pkg"), []⟩] k s ∧ s.done) ∧
    ∀ k s, Run sampleLoader sampleOrder [⟨some (str "pkg"), []⟩] k s → s.done → Source.fromError ⟨some (str "missing"), []⟩ .load ∈ s.result.sources := by
  refine ⟨?_, ?_⟩
  · obtain ⟨k, s, -, h⟩ := collect_ends sampleOrder_ok (all := sampleAll) (by decide +kernel) sample_reach .nil
    exact ⟨k, s, h⟩
  · intro k s hr hd
    refine ((sources_reachable sampleOrder_ok hr hd).1 _).2 ⟨⟨some (str "missing"), []⟩, ?_, by decide +kernel⟩
    refine .uses (.uses (.input (List.mem_singleton.2 rfl)) ((sampleOrder_ok.mem _ _).1 (?_ : (⟨some (str "pkg"), [str "a"]⟩ : Path) ∈ _))) ((sampleOrder_ok.mem _ _).1 ?_)
    · decide +kernel
    · decide +kernel

/-- Builtin, std and one module: no errors and an order. -/
def goodLoader : Loader := fun p =>
  if p = builtin then some ([.noImplicitStd], [])
  else if p = std then some ([.noImplicitStd, .other], [])
  else if p = ⟨none, []⟩ then some ([.import (str "std"), .import (str "std/prelude")], [])
  else none

def goodOrder (p : Path) : List Path := (sourceOf goodLoader p).deps.map Prod.snd

theorem good_reach (p : Path) (h : Reach goodLoader [⟨none, []⟩] p) : p ∈ [builtin, std, ⟨none, []⟩] := by
  have hclosed : ∀ q ∈ [builtin, std, (⟨none, []⟩ : Path)], ∀ r ∈ goodOrder q, r ∈ [builtin, std, (⟨none, []⟩ : Path)] := by decide +kernel
  have hok : OrderOk goodLoader goodOrder := fun _ => .refl _
  induction h with
  | input h => revert h; simp; intro h; simp [h]
  | uses _ hu ih => exact hclosed _ ih _ ((hok.mem _ _).2 hu)

example : ∃ k s out, Run goodLoader goodOrder [⟨none, []⟩] k s ∧ s.done ∧ (∀ t ∈ s.result.sources, t.errors = []) ∧
    TopoSort.resolveDependenciesOrder Source.uses Source.path s.result.sources = some (.ok out) ∧ buildAssert out ∧
    Parallel.Spec.Sorted (out.map Source.view) := by
  have hok : OrderOk goodLoader goodOrder := fun _ => .refl _
  obtain ⟨k, s, -, hr, hd⟩ := collect_ends hok (all := [builtin, std, ⟨none, []⟩]) (by decide +kernel) good_reach .nil
  obtain ⟨hmem, hnd⟩ := sources_reachable hok hr hd
  have herr : ∀ t ∈ s.result.sources, t.errors = [] := by
    intro t ht
    obtain ⟨p, hp, rfl⟩ := (hmem t).1 ht
    have : ∀ q ∈ [builtin, std, (⟨none, []⟩ : Path)], (sourceOf goodLoader q).errors = [] := by decide +kernel
    exact this p (good_reach p hp)
  obtain ⟨r, hrr, hcyc, -⟩ := TopoSort.cycle_iff_error Source.uses Source.path s.result.sources hnd
  cases r with
  | ok out => exact ⟨k, s, out, hr, hd, herr, hrr, build_asserts hok hr hd (by simp) herr hrr, (order_sorted hok hr hd hrr).2⟩
  | error ps =>
    exfalso
    obtain ⟨a, ha, b, hb, hab, h1, h2⟩ := hcyc.1 ⟨ps, rfl⟩
    -- the number of the module only goes down along dependencies
    have down : ∀ x y, TopoSort.Spec.DependsOn Source.uses (s.result.sources.map fun s => (s.path, s)) x y → x ∈ (s.result.sources.map fun s => (s.path, s)) →
        [builtin, std, (⟨none, []⟩ : Path)].idxOf y.1 ≤ [builtin, std, (⟨none, []⟩ : Path)].idxOf x.1 ∧
        ([builtin, std, (⟨none, []⟩ : Path)].idxOf y.1 = [builtin, std, (⟨none, []⟩ : Path)].idxOf x.1 → y = x) := by
      intro x y h
      induction h with
      | refl => intro _; exact ⟨Nat.le_refl _, fun _ => rfl⟩
      | @step x y z hy hdep _ ih =>
        intro hx
        obtain ⟨t, ht, rfl⟩ := List.mem_map.1 hx
        obtain ⟨p, hp, rfl⟩ := (hmem t).1 ht
        have hlt : ∀ q ∈ [builtin, std, (⟨none, []⟩ : Path)], ∀ r ∈ goodOrder q, [builtin, std, (⟨none, []⟩ : Path)].idxOf r < [builtin, std, (⟨none, []⟩ : Path)].idxOf q := by
          decide +kernel
        have := hlt p (good_reach p hp) _ hdep
        have h3 := (ih hy).1
        simp only [sourceOf_path] at this ⊢
        exact ⟨by omega, fun e => by omega⟩
    have d1 := down _ _ h1 (List.mem_map.2 ⟨a, ha, rfl⟩)
    have d2 := down _ _ h2 (List.mem_map.2 ⟨b, hb, rfl⟩)
    have := d1.2 (by omega)
    exact hab (congrArg Prod.snd this).symm

end Verif.Collector
