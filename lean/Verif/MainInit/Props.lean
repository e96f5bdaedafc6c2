import Verif.MainInit.Lemmas
import Verif.Parallel.Props
/-!
# C13: the order of initialisation
-/
namespace Verif.MainInit

open Verif.MainInit.Spec

variable {E : Type}

theorem done_fed {inits : Nat → List (InitExpr E)} {reqs : List (Req E)} (hr : Requests inits reqs) {k s} (h : Run reqs k s) (hd : s.done) :
    ∃ fq, Fed inits reqs (s.modules, s.visited, fq) ∧ s.out = own fq ∧ Feed reqs (s.modules, s.visited, fq) := by
  obtain ⟨pre, P, h1, h2, h3, -⟩ := run_inv h
  rw [hd.1, List.append_nil] at h1
  rw [hd.2, List.append_nil] at h2
  subst h1
  exact ⟨P, feed_prefix hr h2 [] (by simp), h3, h2⟩

/-- **C13**: the main function evaluates exactly the top-level expressions of the modules needed by the entry modules, each once, and those of one
module in their order. -/
theorem evaluated_once {inits : Nat → List (InitExpr E)} {reqs : List (Req E)} (hr : Requests inits reqs) {k s} (h : Run reqs k s) (hd : s.done) :
    ∃ ms : List Nat, ms.Nodup ∧ (∀ m, m ∈ ms ↔ ∃ e x, Req.add e x true ∈ reqs ∧ Needs inits e m) ∧
      s.out.Perm (ms.flatMap fun m => own (inits m)) ∧ ∀ m ∈ ms, (own (inits m)).Sublist s.out := by
  obtain ⟨fq, hf, ho, -⟩ := done_fed hr h hd
  rw [ho]
  exact ⟨s.visited, hf.visit.nodup, hf.wanted, hf.perm, hf.visit.sub⟩

/-- Different places of the program have different expressions (they have different node ids). -/
structure Distinct (inits : Nat → List (InitExpr E)) : Prop where
  within : ∀ m, (own (inits m)).Nodup
  across : ∀ m n e, e ∈ own (inits m) → e ∈ own (inits n) → m = n

theorem out_nodup {inits : Nat → List (InitExpr E)} (hdis : Distinct inits) {ms : List Nat} (hn : ms.Nodup) : (ms.flatMap fun m => own (inits m)).Nodup := by
  induction ms with
  | nil => exact List.nodup_nil
  | cons m ms ih =>
    obtain ⟨h1, h2⟩ := List.nodup_cons.1 hn
    rw [List.flatMap_cons, List.nodup_append]
    refine ⟨hdis.within m, ih h2, ?_⟩
    intro a ha b hb hab
    subst hab
    obtain ⟨k, hk, hak⟩ := List.mem_flatMap.1 hb
    exact h1 (hdis.across m k a ha hak ▸ hk)

theorem prefix_of_nodup {α} {a b pre post : List α} {f : α} (h : a ++ b = pre ++ f :: post) (hn : (a ++ b).Nodup) (hf : f ∈ b) : ∀ e ∈ a, e ∈ pre := by
  intro e he
  rcases List.append_eq_append_iff.1 h with ⟨c, rfl, hb⟩ | ⟨c, rfl, hb⟩
  · exact List.mem_append_left _ he
  · cases c with
    | nil => simpa using he
    | cons x c =>
      simp only [List.cons_append, List.cons.injEq] at hb
      obtain ⟨rfl, -⟩ := hb
      exact absurd rfl ((List.nodup_append.1 hn).2.2 f (by simp) f hf)

/-- **C13**: everything a module was made to wait for - the expressions of the module it waits for and of all the modules that one needs - is evaluated
before the expressions that follow. -/
theorem imports_first {inits : Nat → List (InitExpr E)} (hdis : Distinct inits) {reqs : List (Req E)} (hr : Requests inits reqs) {k s} (h : Run reqs k s)
    (hd : s.done) {ent x m} (hent : Req.add ent x true ∈ reqs) (hm : Needs inits ent m) {a n b} (hab : inits m = a ++ .ensure n :: b) {d e f}
    (hnd : Needs inits n d) (he : e ∈ own (inits d)) (hf : f ∈ own b) {pre post} (ho : s.out = pre ++ f :: post) : e ∈ pre := by
  obtain ⟨fq, hfed, hout, -⟩ := done_fed hr h hd
  have hmv := (hfed.wanted m).2 ⟨ent, x, hent, hm⟩
  obtain ⟨y, z, hyz, hdone, hsub⟩ := hfed.visit.ord m hmv a n b hab
  simp only [List.nil_append] at hdone hyz
  subst hyz
  rw [own_append] at hout
  have hnod : (own y ++ own z).Nodup := by
    have := hfed.perm
    simp only [own_append] at this
    exact this.nodup_iff.2 (out_nodup hdis hfed.visit.nodup)
  exact prefix_of_nodup (hout.symm.trans ho) hnod (hsub.subset hf) e (hdone d hnd e he)

/-- **C13**: every expression of a needed module is evaluated exactly once. -/
theorem evaluated_count [DecidableEq E] {inits : Nat → List (InitExpr E)} (hdis : Distinct inits) {reqs : List (Req E)} (hr : Requests inits reqs) {k s}
    (h : Run reqs k s) (hd : s.done) (e : E) :
    (s.out.count e = 1 ↔ ∃ ent x m, Req.add ent x true ∈ reqs ∧ Needs inits ent m ∧ e ∈ own (inits m)) ∧ s.out.count e ≤ 1 := by
  obtain ⟨ms, h1, h2, h3, -⟩ := evaluated_once hr h hd
  have hnod := h3.nodup_iff.2 (out_nodup hdis h1)
  have hle : s.out.count e ≤ 1 := List.nodup_iff_count.1 hnod e
  refine ⟨?_, hle⟩
  have : s.out.count e = 1 ↔ e ∈ s.out := by
    rw [← List.count_pos_iff]
    omega
  rw [this, h3.mem_iff, List.mem_flatMap]
  constructor
  · rintro ⟨m, hm, he⟩
    obtain ⟨ent, x, g1, g2⟩ := (h2 m).1 hm
    exact ⟨ent, x, m, g1, g2, he⟩
  · rintro ⟨ent, x, m, g1, g2, he⟩
    exact ⟨m, (h2 m).2 ⟨ent, x, g1, g2⟩, he⟩

/-- **C13**: the result does not depend on when the requests arrive. -/
theorem arrival_independent {inits : Nat → List (InitExpr E)} {reqs : List (Req E)} (hr : Requests inits reqs) {k k' s s'} (h : Run reqs k s)
    (h' : Run reqs k' s') (hd : s.done) (hd' : s'.done) : s.out = s'.out := by
  obtain ⟨fq, -, ho, hf⟩ := done_fed hr h hd
  obtain ⟨fq', -, ho', hf'⟩ := done_fed hr h' hd'
  have := hf.det hf'
  rw [ho, ho', (Prod.mk.inj (Prod.mk.inj this).2).2]

/-- **C13**: the loop never panics, and goes on until everything is done. -/
theorem run_progress {inits : Nat → List (InitExpr E)} {reqs : List (Req E)} (hr : Requests inits reqs) {k s} (h : Run reqs k s) (hd : ¬ s.done) :
    (∀ q rest, s.pending = q :: rest → ∃ t, Step s t ∧ t.pending = rest) ∧ ∃ t, Run reqs (k + 1) t := by
  have hp : ∀ q rest, s.pending = q :: rest → ∃ t, Step s t ∧ t.pending = rest := by
    intro q rest hq
    obtain ⟨pre, P, h1, h2, h3, -⟩ := run_inv h
    rw [hq] at h1
    obtain ⟨st', W, g1, -, -⟩ := feed_step hr h1 (feed_prefix hr h2 _ h1)
    cases q with
    | «macro» => exact ⟨_, .macro hq, rfl⟩
    | add m x entry =>
      cases entry with
      | false => exact ⟨_, .addModule hq, rfl⟩
      | true =>
        simp only [feedOne] at g1
        rw [enqueue_append] at g1
        cases he : enqueue (HMap.insert s.modules m x) ((HMap.insert s.modules m x).length + 1) m (s.visited, s.queue) with
        | none => rw [he] at g1; cases g1
        | some r => exact ⟨_, .addEntry hq (v := r.1) (q := r.2) he, rfl⟩
  refine ⟨hp, ?_⟩
  cases hpd : s.pending with
  | cons q rest =>
    obtain ⟨t, ht, -⟩ := hp q rest hpd
    exact ⟨t, .cons h ht⟩
  | nil =>
    cases hq : s.queue with
    | nil => exact absurd ⟨hpd, hq⟩ hd
    | cons i rest => exact ⟨_, .cons h (.dequeue hq)⟩

theorem feed_extends {inits : Nat → List (InitExpr E)} {reqs : List (Req E)} (hr : Requests inits reqs) :
    ∀ (post pre : List (Req E)) st, Feed pre st → reqs = pre ++ post → ∃ st' W, Feed reqs st' ∧ st'.2.2 = st.2.2 ++ W := by
  intro post
  induction post with
  | nil =>
    intro pre st h hs
    refine ⟨st, [], ?_, by simp⟩
    rw [hs, List.append_nil]
    exact h
  | cons q post ih =>
    intro pre st h hs
    obtain ⟨st1, W1, g1, -, g3⟩ := feed_step hr hs (feed_prefix hr h _ hs)
    obtain ⟨st2, W2, g4, g5⟩ := ih (pre ++ [q]) st1 (.snoc h g1) (by rw [hs]; simp)
    exact ⟨st2, W1 ++ W2, g4, by rw [g5, g3, List.append_assoc]⟩

/-- **C13**: and it ends: there is a bound on the number of turns. -/
theorem run_bounded {inits : Nat → List (InitExpr E)} {reqs : List (Req E)} (hr : Requests inits reqs) :
    ∃ bound, ∀ k s, Run reqs k s → k ≤ bound := by
  obtain ⟨st, W, hf, -⟩ := feed_extends hr reqs [] _ .nil rfl
  refine ⟨reqs.length + st.2.2.length, fun k s h => ?_⟩
  obtain ⟨pre, P, h1, h2, h3, h4⟩ := run_inv h
  obtain ⟨st', W', g1, g2⟩ := feed_extends hr s.pending pre _ h2 h1
  have := hf.det g1
  subst this
  rw [g2, h1]
  simp
  omega

/-- **C13**: so every run can be completed. -/
theorem run_ends {inits : Nat → List (InitExpr E)} {reqs : List (Req E)} (hr : Requests inits reqs) {k s} (h : Run reqs k s) :
    ∃ k' s', k ≤ k' ∧ Run reqs k' s' ∧ s'.done := by
  obtain ⟨bound, hb⟩ := run_bounded hr
  generalize hf : bound - k = f
  induction f generalizing k s with
  | zero =>
    by_cases hd : s.done
    · exact ⟨k, s, Nat.le_refl _, h, hd⟩
    · obtain ⟨-, s', hr'⟩ := run_progress hr h hd
      have := hb _ _ hr'
      omega
  | succ f ih =>
    by_cases hd : s.done
    · exact ⟨k, s, Nat.le_refl _, h, hd⟩
    · obtain ⟨-, s', hr'⟩ := run_progress hr h hd
      obtain ⟨k', s'', h1, h2, h3⟩ := ih hr' (by omega)
      exact ⟨k', s'', by omega, h2, h3⟩

/-! ### The modules of a program -/

/-- **C13**: a module's imports, the builtin module and, unless switched off, std are initialised before any of its own expressions is evaluated. -/
theorem module_imports_first {inits : Nat → List (InitExpr E)} (hdis : Distinct inits) {reqs : List (Req E)} (hr : Requests inits reqs) {k s}
    (h : Run reqs k s) (hd : s.done) {ent x mid} (hent : Req.add ent x true ∈ reqs) (hm : Needs inits ent mid) {std : Nat} {imports : List Nat}
    {implicitStd : Bool} {exprs : List E} (hinits : inits mid = moduleInits mid std imports implicitStd exprs) {n : Nat}
    (hn : n ∈ imports ∨ n = 0 ∧ mid ≠ 0 ∨ n = std ∧ implicitStd = true) {d e f} (hnd : Needs inits n d) (he : e ∈ own (inits d)) (hf : f ∈ exprs)
    {pre post} (ho : s.out = pre ++ f :: post) : e ∈ pre := by
  have hown : ∀ l : List E, own (l.map InitExpr.eval) = l := by
    intro l
    induction l with
    | nil => rfl
    | cons a l ih => simp [own, ih]
  have hmem : (InitExpr.ensure n : InitExpr E) ∈ (if mid ≠ 0 then [.ensure 0] else []) ++ imports.map .ensure ++ (if implicitStd then [.ensure std] else []) := by
    rcases hn with hn | ⟨rfl, hn⟩ | ⟨rfl, hn⟩
    · simp [hn]
    · simp [hn]
    · simp [hn]
  obtain ⟨a, b, hab⟩ := List.append_of_mem hmem
  refine imports_first hdis hr h hd hent hm (a := a) (n := n) (b := b ++ exprs.map .eval) ?_ hnd he ?_ ho
  · rw [hinits, moduleInits, hab]
    simp
  · rw [own_append, hown]
    exact List.mem_append_right _ hf

/-! ### Together with the parallel build -/

open Verif.Parallel in
/-- **C13**: the requests of a parallel build - a module is sent to the lowering when it is given to the backend, requests for the execution of macros
come in between - are such that no module comes before one it waits for. -/
theorem parallel_requests {P : Type} [DecidableEq P] {ss : List (Source P)} (hs : Verif.Parallel.Spec.Sorted ss) {outcome k s} (hrun : Parallel.Run ss outcome k s)
    {inits : Nat → List (InitExpr E)} (hdep : ∀ m n, .ensure n ∈ inits m → Verif.Parallel.Spec.Dep ss m n) {reqs : List (Req E)}
    (hadd : added reqs = s.trace.filterMap fun e => match e with | .added m => some m | _ => none)
    (hgiven : ∀ m x entry, Req.add m x entry ∈ reqs → x = inits m) : Requests inits reqs := by
  refine ⟨?_, hgiven, ?_⟩
  · rw [hadd]
    have hc := fun m => (built_once hs hrun m).2
    generalize s.trace = tr at hc
    rw [List.nodup_iff_count]
    intro m
    have : ∀ tr : List Event, (tr.filterMap fun e => match e with | .added m => some m | _ => none).count m = tr.count (.added m) := by
      intro tr
      induction tr with
      | nil => rfl
      | cons e tr ih =>
        cases e with
        | added j => simp [List.count_cons, ih]
        | started j => simpa using ih
        | finished j b => simpa using ih
        | wrote j b => simpa using ih
    rw [this]
    exact hc m
  · intro pre m x entry post hreq n hn
    rw [hreq, added_append] at hadd
    have hsplit : ∃ t1 t2, s.trace = t1 ++ .added m :: t2 ∧ added pre = t1.filterMap fun e => match e with | .added m => some m | _ => none := by
      obtain ⟨t1, t2, h1, h2, h3⟩ := List.filterMap_eq_append_iff.1 hadd.symm
      rw [show added (Req.add m x entry :: post) = m :: added post from rfl] at h3
      obtain ⟨l1, a, l2, g1, g2, g3, g4⟩ := List.filterMap_eq_cons_iff.1 h3
      refine ⟨t1 ++ l1, l2, ?_, ?_⟩
      · rw [h1, g1]
        have : a = .added m := by
          revert g3
          cases a <;> simp
        rw [this]
        simp
      · have : l1.filterMap (fun e => match e with | .added m => some m | _ => none) = [] := List.filterMap_eq_nil_iff.2 g2
        rw [List.filterMap_append, h2, this, List.append_nil]
    obtain ⟨t1, t2, h1, h2⟩ := hsplit
    obtain ⟨k', s', hr', ht'⟩ := run_prefix hrun (t1 ++ [.added m]) t2 (by rw [h1]; simp)
    have hi := Parallel.run_inv hs hr'
    have hst : .started m ∈ s'.trace := by
      have g1 : 0 < s'.trace.count (.added m) := List.count_pos_iff.2 (by rw [ht']; simp)
      have g2 := hi.add m
      have g3 := hi.fin m
      exact List.count_pos_iff.1 (by omega)
    obtain ⟨p1, p2, hp⟩ := List.append_of_mem hst
    obtain ⟨-, -, hadded⟩ := dependencies_first hs hr' hp (.one (hdep m n hn))
    rw [h2, List.mem_filterMap]
    refine ⟨.added n, ?_, rfl⟩
    have hlast : ∃ p3, p2 = p3 ++ [.added m] := by
      rw [hp] at ht'
      rcases List.eq_nil_or_concat p2 with rfl | ⟨p3, e, rfl⟩
      · have := (List.append_inj' ht' rfl).2
        simp at this
      · refine ⟨p3, ?_⟩
        rw [List.concat_eq_append, show p1 ++ Event.started m :: (p3 ++ [e]) = (p1 ++ Event.started m :: p3) ++ [e] by simp] at ht'
        rw [List.concat_eq_append, (List.append_inj' ht' rfl).2]
    obtain ⟨p3, rfl⟩ := hlast
    rw [hp, show p1 ++ Event.started m :: (p3 ++ [Event.added m]) = (p1 ++ Event.started m :: p3) ++ [Event.added m] by simp] at ht'
    rw [← (List.append_inj' ht' rfl).1]
    exact List.mem_append_left _ hadded

/-! ### The main function -/

/-- **C13**: the main function evaluates the statements in order, and returns the value of the last one if that is a boolean and false otherwise. -/
theorem main_evaluates (isBool : E → Bool) (false_ : E) (inits : List E) :
    ((∃ pre last, inits = pre ++ [last] ∧ isBool last = true) → (mainFunction isBool false_ inits).1 ++ [(mainFunction isBool false_ inits).2] = inits) ∧
    ((∀ pre last, inits = pre ++ [last] → isBool last = false) → mainFunction isBool false_ inits = (inits, false_)) := by
  constructor
  · rintro ⟨pre, last, rfl, hb⟩
    simp [mainFunction, hb]
  · intro h
    unfold mainFunction
    cases hl : inits.getLast? with
    | none => rfl
    | some last =>
      obtain ⟨pre, hp⟩ := List.getLast?_eq_some_iff.1 hl
      simp [h pre last hp]

/-! ### A case that meets the hypotheses -/

/-- Builtin, std, two modules importing each other's dependencies and an entry module importing one of them twice: expressions are numbers. -/
def sampleInits : Nat → List (InitExpr Nat)
  | 0 => moduleInits 0 1 [] false [100]
  | 1 => moduleInits 1 1 [] false [200, 201]
  | 2 => moduleInits 2 1 [1] true [300]
  | 3 => moduleInits 3 1 [2, 1, 2] true [400, 401]
  | _ => []

def sampleReqs : List (Req Nat) :=
  [.add 0 (sampleInits 0) false, .macro, .add 1 (sampleInits 1) true, .add 2 (sampleInits 2) false, .add 3 (sampleInits 3) true]

theorem sample_requests : Requests sampleInits sampleReqs := by
  refine ⟨by decide, ?_, ?_⟩
  · intro m x entry h
    simp only [sampleReqs, List.mem_cons, List.not_mem_nil, or_false, Req.add.injEq, reduceCtorEq, false_or] at h
    rcases h with ⟨rfl, rfl, -⟩ | ⟨rfl, rfl, -⟩ | ⟨rfl, rfl, -⟩ | ⟨rfl, rfl, -⟩ <;> rfl
  · intro pre m x entry post h n hn
    match pre, h with
    | [], h =>
      cases h
      simp [sampleInits, moduleInits] at hn
    | [_], h => cases h
    | [_, _], h =>
      cases h
      simp [sampleInits, moduleInits] at hn
      simp [added, hn]
    | [_, _, _], h =>
      cases h
      simp [sampleInits, moduleInits] at hn
      rcases hn with rfl | rfl <;> simp [added]
    | [_, _, _, _], h =>
      cases h
      simp [sampleInits, moduleInits] at hn
      rcases hn with rfl | rfl | rfl | rfl | rfl <;> simp [added]
    | _ :: _ :: _ :: _ :: _ :: pre, h => simp [sampleReqs] at h

theorem sample_distinct : Distinct sampleInits := by
  refine ⟨fun m => ?_, fun m n e h1 h2 => ?_⟩
  · match m with
    | 0 => decide
    | 1 => decide
    | 2 => decide
    | 3 => decide
    | _ + 4 => exact List.nodup_nil
  · have hs : ∀ m, e ∈ own (sampleInits m) → (m = 0 ∧ e = 100) ∨ (m = 1 ∧ (e = 200 ∨ e = 201)) ∨ (m = 2 ∧ e = 300) ∨ (m = 3 ∧ (e = 400 ∨ e = 401)) := by
      intro m h
      match m with
      | 0 => simp [sampleInits, moduleInits, own] at h; simp [h]
      | 1 => simp [sampleInits, moduleInits, own] at h; simp [h]
      | 2 => simp [sampleInits, moduleInits, own] at h; simp [h]
      | 3 => simp [sampleInits, moduleInits, own] at h; simp [h]
      | _ + 4 => simp [sampleInits, own] at h
    have := hs m h1
    have := hs n h2
    omega

/-- There are runs that end, and all of them give the same order. -/
example : (∃ k s, Run sampleReqs k s ∧ s.done) ∧ ∀ k s, Run sampleReqs k s → s.done → s.out = [100, 200, 201, 300, 400, 401] := by
  refine ⟨?_, ?_⟩
  · obtain ⟨k, s, -, h⟩ := run_ends sample_requests .nil
    exact ⟨k, s, h⟩
  · intro k s h hd
    obtain ⟨fq, -, ho, hf⟩ := done_fed sample_requests h hd
    have hc : Feed sampleReqs _ := .snoc (reqs := [_, _, _, _]) (.snoc (reqs := [_, _, _]) (.snoc (reqs := [_, _]) (.snoc (reqs := [_]) (.snoc (reqs := []) .nil rfl) rfl) rfl) rfl) rfl
    rw [ho, (Prod.mk.inj (Prod.mk.inj (hf.det hc)).2).2]
    rfl

end Verif.MainInit
