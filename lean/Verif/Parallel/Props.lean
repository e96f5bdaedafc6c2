import Verif.Parallel.Lemmas
/-!
# C11: the parallel build respects dependencies, whatever the scheduling
-/
namespace Verif.Parallel

open Spec

variable {P : Type} [DecidableEq P]

/-- The followers of a module are the modules depending on it. -/
theorem mem_followers {ss : List (Source P)} (h : Sorted ss) (m d : Nat) : m ∈ (setup ss).followers.getD d [] ↔ Dep ss m d := by
  have hb := built_setup ss h.nodup
  rw [← List.count_pos_iff]
  constructor
  · intro hpos
    by_cases hdm : d < m
    · have hm : m < ss.length := by
        by_cases hm : m < ss.length
        · exact hm
        · have := count_getD_flatten _ d m (hb.mem m (by omega))
          omega
      have ha := List.getElem?_eq_getElem hm
      have hd := List.getElem?_eq_getElem (show d < ss.length by omega)
      rw [hb.fol d m _ _ hd ha hdm] at hpos
      exact ⟨_, _, ha, hd, List.count_pos_iff.1 hpos⟩
    · have := hb.fol0 d m (by omega)
      omega
  · rintro ⟨a, b, ha, hb', hmem⟩
    have := h.order m d ⟨a, b, ha, hb', hmem⟩
    rw [hb.fol d m b a hb' ha this]
    exact List.count_pos_iff.2 hmem

theorem dep_lt {ss : List (Source P)} {i j : Nat} (h : Dep ss i j) : i < ss.length ∧ j < ss.length := by
  obtain ⟨a, b, ha, hb, -⟩ := h
  exact ⟨(List.getElem?_eq_some_iff.1 ha).1, (List.getElem?_eq_some_iff.1 hb).1⟩

theorem run_inv {ss : List (Source P)} (h : Sorted ss) {outcome k s} (hr : Run ss outcome k s) :
    Inv (fun d => (setup ss).followers.getD d []) outcome ss.length s := by
  have hb := built_setup ss h.nodup
  have hfol : ∀ d, ∀ m ∈ (setup ss).followers.getD d [], m < ss.length := by
    intro d m hm
    exact (dep_lt ((mem_followers h m d).1 hm)).1
  unfold Run at hr
  generalize hi : initial (fun m => (setup ss).leader.getD m 0) ss.length = i at hr
  induction hr with
  | nil s =>
    subst hi
    apply initial_inv
    intro m hm
    rw [hb.leader m hm, flatten_count_total, hb.lenF]
  | cons _ hst ih => exact step_inv hfol (ih hi) hst

/-- C11: a module is built at most once. -/
theorem built_once {ss : List (Source P)} (h : Sorted ss) {outcome k s} (hr : Run ss outcome k s) (m : Nat) :
    s.trace.count (.started m) ≤ 1 ∧ s.trace.count (.added m) ≤ 1 := by
  have hi := run_inv h hr
  have h1 : s.trace.count (.started m) ≤ 1 := by
    by_cases hm : m < ss.length
    · have := hi.tok m hm
      split at this <;> omega
    · have : s.trace.count (.started m) = 0 := List.count_eq_zero.2 fun hmem => hm (hi.trb m hmem)
      omega
  have h2 := hi.fin m
  have h3 := hi.add m
  exact ⟨h1, by omega⟩

/-- Every beginning of a trace is the trace of a shorter run. -/
theorem run_prefix {ss : List (Source P)} {outcome k s} (hr : Run ss outcome k s) : ∀ pre post, s.trace = pre ++ post →
    ∃ k' s', Run ss outcome k' s' ∧ s'.trace = pre := by
  unfold Run at hr
  generalize hi : initial (fun m => (setup ss).leader.getD m 0) ss.length = i at hr
  induction hr with
  | nil s =>
    intro pre post h
    subst hi
    have : pre = [] := by
      simp only [initial] at h
      exact (List.append_eq_nil_iff.1 h.symm).1
    subst this
    exact ⟨0, _, .nil _, rfl⟩
  | @cons k s t u hs hst ih =>
    intro pre post h
    have hcase : u.trace = t.trace ∨ ∃ e, u.trace = t.trace ++ [e] := by
      obtain ⟨p, q, a, rest, hth⟩ := hst
      cases a <;> simp [act]
    by_cases hp : pre = u.trace
    · exact ⟨k + 1, u, by unfold Run; rw [hi]; exact .cons hs hst, hp.symm⟩
    · rcases hcase with he | ⟨e, he⟩
      · exact ih hi pre post (by rw [← he]; exact h)
      · have hne : post ≠ [] := by
          rintro rfl
          exact hp (by rw [h]; simp)
        have hlast := List.dropLast_concat_getLast hne
        rw [he, ← hlast, ← List.append_assoc] at h
        exact ih hi pre post.dropLast (List.append_inj' h rfl).1

/-- C11: when the building of a module starts, everything it depends on, directly or indirectly, was built successfully, its result is available and
it was given to the backend. -/
theorem dependencies_first {ss : List (Source P)} (h : Sorted ss) {outcome k s} (hr : Run ss outcome k s) {pre post : List Event} {m : Nat}
    (ht : s.trace = pre ++ .started m :: post) {d : Nat} (hd : DependsOn ss m d) :
    .finished d true ∈ pre ∧ .wrote d true ∈ pre ∧ .added d ∈ pre := by
  have fin_of_wrote : ∀ {k s} (_ : Run ss outcome k s) (d : Nat), .wrote d true ∈ s.trace → .finished d true ∈ s.trace ∧ .started d ∈ s.trace := by
    intro k s hr d hw
    have hi := run_inv h hr
    have h1 := List.count_pos_iff.2 hw
    have h2 := hi.wr d true
    have h3 := hi.fin d
    exact ⟨List.count_pos_iff.1 (by omega), List.count_pos_iff.1 (by omega)⟩
  have key : ∀ {m d}, DependsOn ss m d → ∀ k s, Run ss outcome k s → ∀ pre post, s.trace = pre ++ .started m :: post → .wrote d true ∈ pre ∧ .added d ∈ pre := by
    intro m d hd
    induction hd with
    | one hd =>
      intro k s hr pre post ht
      exact (run_inv h hr).ord pre post _ ht _ (dep_lt hd).2 ((mem_followers h _ _).2 hd)
    | @more i j l hd _ ih =>
      intro k s hr pre post ht
      obtain ⟨hw, -⟩ := (run_inv h hr).ord pre post _ ht _ (dep_lt hd).2 ((mem_followers h _ _).2 hd)
      obtain ⟨k', s', hr', ht'⟩ := run_prefix hr pre _ ht
      obtain ⟨-, hst⟩ := fin_of_wrote hr' j (by rw [ht']; exact hw)
      obtain ⟨p1, p2, hp⟩ := List.append_of_mem hst
      obtain ⟨g1, g2⟩ := ih k' s' hr' p1 p2 hp
      rw [← ht', hp]
      exact ⟨List.mem_append_left _ g1, List.mem_append_left _ g2⟩
  obtain ⟨h1, h2⟩ := key hd k s hr pre post ht
  refine ⟨?_, h1, h2⟩
  obtain ⟨k', s', hr', ht'⟩ := run_prefix hr pre _ ht
  rw [← ht']
  exact (fin_of_wrote hr' d (by rw [ht']; exact h1)).1

/-- C11: the results that `Module::build` reads are there: `module.result.read().unwrap().as_ref().unwrap()` (parallel.rs:205-210) never panics for a
module it depends on, at any time from the start on. -/
theorem result_available {ss : List (Source P)} (h : Sorted ss) {outcome k s} (hr : Run ss outcome k s) {m d : Nat} (hs : .started m ∈ s.trace)
    (hd : DependsOn ss m d) : s.result d = some true := by
  obtain ⟨pre, post, ht⟩ := List.append_of_mem hs
  obtain ⟨-, hw, -⟩ := dependencies_first h hr ht hd
  exact ((run_inv h hr).res d true).2 (by rw [ht]; simp [hw])

/-! ### The end -/

theorem done_acts {s : State} (hd : s.done) (a : Act) : s.acts.count a = 0 := by
  rw [List.count_eq_zero]
  intro hm
  obtain ⟨t, ht, hat⟩ := List.mem_flatten.1 hm
  rw [hd t ht] at hat
  cases hat

theorem done_started {ss : List (Source P)} (h : Sorted ss) {outcome k s} (hr : Run ss outcome k s) (hd : s.done) {m : Nat} (hm : m < ss.length) :
    .started m ∈ s.trace ↔ ∀ d, Dep ss m d → s.result d = some true := by
  have hi := run_inv h hr
  have hcnt := hi.cnt m hm
  have htok := hi.tok m hm
  rw [done_acts hd] at hcnt
  rw [done_acts hd, done_acts hd] at htok
  have hfin : ∀ d, .finished d true ∈ s.trace ↔ s.result d = some true := by
    intro d
    rw [hi.res]
    have := hi.wr d true
    rw [done_acts hd] at this
    rw [← List.count_pos_iff, ← List.count_pos_iff]
    omega
  rw [← List.count_pos_iff]
  have hz : s.count m = 0 ↔ ∀ d, Dep ss m d → s.result d = some true := by
    rw [hcnt, Nat.zero_add, total_eq_zero]
    constructor
    · intro hall d hdep
      have := hall d (dep_lt hdep).2
      rw [← hfin]
      split at this
      · assumption
      · exact absurd ((mem_followers h m d).2 hdep) (List.count_eq_zero.1 this)
    · intro hall d _
      split
      · rfl
      · next hnf =>
        rw [List.count_eq_zero]
        intro hmem
        exact hnf ((hfin d).2 (hall d ((mem_followers h m d).1 hmem)))
  rw [← hz]
  split at htok
  · next h0 => exact ⟨fun _ => h0, fun _ => by omega⟩
  · next h0 => exact ⟨fun _ => absurd ‹_› (by omega), fun hc => absurd hc h0⟩

/-- A module builds successfully when itself and everything it depends on do. -/
def Good (ss : List (Source P)) (outcome : Nat → Bool) (m : Nat) : Prop := outcome m = true ∧ ∀ d, DependsOn ss m d → outcome d = true

omit [DecidableEq P] in
theorem good_iff {ss : List (Source P)} {outcome : Nat → Bool} {m : Nat} :
    Good ss outcome m ↔ outcome m = true ∧ ∀ d, Dep ss m d → Good ss outcome d := by
  constructor
  · rintro ⟨h1, h2⟩
    exact ⟨h1, fun d hd => ⟨h2 d (.one hd), fun e he => h2 e (.more hd he)⟩⟩
  · rintro ⟨h1, h2⟩
    refine ⟨h1, fun d hd => ?_⟩
    cases hd with
    | one hd => exact (h2 d hd).1
    | more hd he => exact (h2 _ hd).2 _ he

theorem done_result {ss : List (Source P)} (h : Sorted ss) {outcome k s} (hr : Run ss outcome k s) (hd : s.done) {m : Nat} (b : Bool) :
    s.result m = some b ↔ .started m ∈ s.trace ∧ outcome m = b := by
  have hi := run_inv h hr
  rw [hi.res]
  have hw := hi.wr m b
  have hf := hi.fin m
  rw [done_acts hd] at hw hf
  constructor
  · intro hmem
    have h1 := List.count_pos_iff.2 hmem
    refine ⟨List.count_pos_iff.1 (by cases b <;> omega), ?_⟩
    exact (hi.out m b (List.count_pos_iff.1 (by omega))).symm
  · rintro ⟨hs, rfl⟩
    have h1 := List.count_pos_iff.2 hs
    have h2 : s.trace.count (.finished m (!outcome m)) = 0 := by
      rw [List.count_eq_zero]
      intro hm
      have := hi.out m _ hm
      revert this
      cases outcome m <;> simp
    cases hb : outcome m
    · rw [hb] at hw h2
      simp only [Bool.not_false] at h2
      exact List.count_pos_iff.1 (by omega)
    · rw [hb] at hw h2
      simp only [Bool.not_true] at h2
      exact List.count_pos_iff.1 (by omega)

/-- C11: when the build ends, exactly the modules that build, with everything they depend on, have been built successfully, whatever the scheduling;
a module fails with its own error exactly when everything it depends on was built; the others keep the error saying that a dependency failed. -/
theorem final_results {ss : List (Source P)} (h : Sorted ss) {outcome k s} (hr : Run ss outcome k s) (hd : s.done) {m : Nat} (hm : m < ss.length) :
    (s.result m = some true ↔ Good ss outcome m) ∧
    (s.result m = some false ↔ outcome m = false ∧ ∀ d, DependsOn ss m d → outcome d = true) ∧
    (s.result m = none ↔ ∃ d, DependsOn ss m d ∧ outcome d = false) ∧
    (.started m ∈ s.trace ↔ ∀ d, DependsOn ss m d → outcome d = true) := by
  have hgood : ∀ m, m < ss.length → (s.result m = some true ↔ Good ss outcome m) := by
    intro m
    induction m using Nat.strongRecOn with
    | _ m ih =>
      intro hm
      rw [done_result h hr hd, done_started h hr hd hm, good_iff]
      constructor
      · rintro ⟨h1, h2⟩
        exact ⟨h2, fun d hdep => (ih d (h.order m d hdep) (dep_lt hdep).2).1 (h1 d hdep)⟩
      · rintro ⟨h1, h2⟩
        exact ⟨fun d hdep => (ih d (h.order m d hdep) (dep_lt hdep).2).2 (h2 d hdep), h1⟩
  have hstart : .started m ∈ s.trace ↔ ∀ d, DependsOn ss m d → outcome d = true := by
    rw [done_started h hr hd hm]
    constructor
    · intro hall d hdep
      cases hdep with
      | one hdep => exact ((hgood d (dep_lt hdep).2).1 (hall d hdep)).1
      | more hdep he => exact ((hgood _ (dep_lt hdep).2).1 (hall _ hdep)).2 _ he
    · intro hall d hdep
      exact (hgood d (dep_lt hdep).2).2 ⟨hall d (.one hdep), fun e he => hall e (.more hdep he)⟩
  refine ⟨hgood m hm, ?_, ?_, hstart⟩
  · rw [done_result h hr hd, hstart]
    exact And.comm
  · constructor
    · intro hn
      have hns : ¬ ∀ d, DependsOn ss m d → outcome d = true := by
        intro hall
        have := (done_result h hr hd (m := m) (outcome m)).2 ⟨hstart.2 hall, rfl⟩
        rw [hn] at this
        cases this
      obtain ⟨d, hd'⟩ := Classical.not_forall.1 hns
      obtain ⟨h1, h2⟩ := Classical.not_imp.1 hd'
      exact ⟨d, h1, by simpa using h2⟩
    · rintro ⟨d, h1, h2⟩
      cases hres : s.result m with
      | none => rfl
      | some b =>
        have := hstart.1 ((done_result h hr hd b).1 hres).1 d h1
        rw [this] at h2
        cases h2

/-! ### The build ends -/

/-- The work an action still causes. -/
def weight (fol : Nat → List Nat) : Act → Nat
  | .dec _ => 1
  | .spawn m => 5 + (fol m).length
  | .start m => 4 + (fol m).length
  | .finish m => 3 + (fol m).length
  | .add _ => 1
  | .write _ _ => 1

/-- The work of the modules that wait. -/
def pot (fol : Nat → List Nat) (n : Nat) (c : Nat → Nat) : Nat := total n (fun m => if c m = 0 then 0 else 5 + (fol m).length)

def work (fol : Nat → List Nat) (n : Nat) (s : State) : Nat := (s.acts.map (weight fol)).sum + pot fol n s.count

theorem pot_dec (fol : Nat → List Nat) {n : Nat} (c : Nat → Nat) {m : Nat} (hm : m < n) (hc : 0 < c m) :
    (if c m = 1 then 5 + (fol m).length else 0) + pot fol n (upd c m (c m - 1)) = pot fol n c := by
  have hch := total_change (n := n) (d := m) (f := fun x => if c x = 0 then 0 else 5 + (fol x).length)
    (g := fun x => if upd c m (c m - 1) x = 0 then 0 else 5 + (fol x).length) hm (by
      intro x hx
      simp [upd, hx])
  unfold pot
  have h0 : upd c m (c m - 1) m = c m - 1 := by simp [upd]
  simp only [h0] at hch
  have h2 : c m ≠ 0 := by omega
  rw [if_neg h2] at hch
  by_cases h1 : c m = 1
  · rw [if_pos (show c m - 1 = 0 by omega)] at hch
    rw [if_pos h1]
    omega
  · rw [if_neg (show c m - 1 ≠ 0 by omega)] at hch
    rw [if_neg h1]
    omega

theorem sum_pre (fol : Nat → List Nat) (pre post : List (List Act)) (t : List Act) (new : List (List Act)) :
    (((pre ++ t :: post ++ new).flatten).map (weight fol)).sum =
      (pre.flatten.map (weight fol)).sum + (post.flatten.map (weight fol)).sum + (t.map (weight fol)).sum + (new.flatten.map (weight fol)).sum := by
  simp
  omega

theorem sum_decs (fol : Nat → List Nat) (ms : List Nat) : ((ms.map Act.dec).map (weight fol)).sum = ms.length := by
  induction ms with
  | nil => rfl
  | cons m ms ih =>
    simp only [List.map_cons, List.sum_cons, List.length_cons, ih, weight]
    omega

theorem step_work {fol : Nat → List Nat} {outcome n} {s s' : State} (h : Inv fol outcome n s) (hst : Step fol outcome s s') :
    work fol n s' < work fol n s := by
  obtain ⟨pre, post, a, rest, hth⟩ := hst
  have hold : (s.acts.map (weight fol)).sum = (pre.flatten.map (weight fol)).sum + (post.flatten.map (weight fol)).sum + (weight fol a + (rest.map (weight fol)).sum) := by
    unfold State.acts
    rw [hth]
    have := sum_pre fol pre post (a :: rest) []
    simpa using this
  have hnew := sum_pre fol pre post (act fol outcome s rest a).1 (act fol outcome s rest a).2.1
  have hamem : a ∈ s.acts := List.mem_flatten.2 ⟨a :: rest, by rw [hth]; simp, by simp⟩
  have hshape := h.shape (a :: rest) (by rw [hth]; simp)
  unfold work
  simp only [State.acts] at hold ⊢
  rw [hnew, hold]
  cases a with
  | dec m =>
    have ham := h.bound _ hamem
    have hcm := h.cnt m ham
    have hcp : 0 < s.acts.count (.dec m) := List.count_pos_iff.2 hamem
    have hp := pot_dec fol s.count ham (m := m) (by omega)
    simp only [act]
    by_cases h1 : s.count m = 1
    · rw [if_pos h1] at hp
      rw [if_pos h1]
      simp only [List.map_cons, List.sum_cons, weight, List.flatten_nil, List.map_nil, List.sum_nil]
      omega
    · rw [if_neg h1] at hp
      rw [if_neg h1]
      simp only [weight, List.flatten_nil, List.map_nil, List.sum_nil]
      omega
  | spawn m =>
    simp only [act, weight, List.flatten_cons, List.flatten_nil, List.append_nil, List.map_cons, List.map_nil, List.sum_cons, List.sum_nil]
    omega
  | start m =>
    simp only [act, weight, List.flatten_nil, List.map_cons, List.map_nil, List.sum_cons, List.sum_nil]
    omega
  | finish m =>
    obtain rfl := hshape.tail_finish
    have hsd := sum_decs fol (fol m)
    simp only [act]
    split <;> simp only [List.map_cons, List.map_append, List.sum_append, List.sum_cons, List.map_nil, List.sum_nil, hsd, weight, List.flatten_nil] <;> omega
  | add m =>
    simp only [act, weight, List.flatten_nil, List.map_nil, List.sum_nil]
    omega
  | write m ok =>
    simp only [act, weight, List.flatten_nil, List.map_nil, List.sum_nil]
    omega

/-- C11: there is no infinite schedule: the number of steps is bounded by the work of the sources. -/
theorem run_bounded {ss : List (Source P)} (h : Sorted ss) {outcome k s} (hr : Run ss outcome k s) :
    k ≤ work (fun d => (setup ss).followers.getD d []) ss.length (initial (fun m => (setup ss).leader.getD m 0) ss.length) := by
  have key : ∀ {k s}, Run ss outcome k s → k + work (fun d => (setup ss).followers.getD d []) ss.length s ≤
      work (fun d => (setup ss).followers.getD d []) ss.length (initial (fun m => (setup ss).leader.getD m 0) ss.length) := by
    intro k s hr
    have hr0 := hr
    unfold Run at hr
    generalize hi : initial (fun m => (setup ss).leader.getD m 0) ss.length = i at hr
    induction hr with
    | nil s => omega
    | @cons k' _ t' u' hs hst ih =>
      have hrt : Run ss outcome k' t' := by unfold Run; rw [hi]; exact hs
      have h1 := ih hrt hi
      have h2 := step_work (run_inv h hrt) hst
      omega
  have := key hr
  omega

/-- C11: as long as the build is not done, some thread can go on. -/
theorem run_progress {ss : List (Source P)} {outcome k s} (hr : Run ss outcome k s) (hd : ¬ s.done) : ∃ s', Run ss outcome (k + 1) s' := by
  unfold State.done at hd
  obtain ⟨t, ht⟩ := Classical.not_forall.1 hd
  obtain ⟨ht, hne⟩ := Classical.not_imp.1 ht
  cases t with
  | nil => exact absurd rfl hne
  | cons a rest =>
    obtain ⟨pre, post, hth⟩ := List.append_of_mem ht
    exact ⟨_, .cons hr (.run pre post a rest hth)⟩

/-- C11: so every build ends, however it is scheduled: a schedule that always goes on as long as it can reaches the end. -/
theorem build_ends {ss : List (Source P)} (h : Sorted ss) {outcome k s} (hr : Run ss outcome k s) :
    ∃ k' s', k ≤ k' ∧ Run ss outcome k' s' ∧ s'.done := by
  generalize hf : work (fun d => (setup ss).followers.getD d []) ss.length (initial (fun m => (setup ss).leader.getD m 0) ss.length) - k = f
  induction f generalizing k s with
  | zero =>
    by_cases hd : s.done
    · exact ⟨k, s, Nat.le_refl _, hr, hd⟩
    · obtain ⟨s', hr'⟩ := run_progress hr hd
      have := run_bounded h hr'
      omega
  | succ f ih =>
    by_cases hd : s.done
    · exact ⟨k, s, Nat.le_refl _, hr, hd⟩
    · obtain ⟨s', hr'⟩ := run_progress hr hd
      obtain ⟨k', s'', h1, h2, h3⟩ := ih hr' (by omega)
      exact ⟨k', s'', by omega, h2, h3⟩

/-! ### A case that meets the hypotheses -/

/-- The builtin module, the standard library, two modules using it and a module using both (one of them under two names). -/
def sample : List (Source String) :=
  [⟨"builtin", []⟩, ⟨"std", ["builtin"]⟩, ⟨"a", ["std", "builtin"]⟩, ⟨"b", ["builtin", "std"]⟩, ⟨"main", ["a", "b", "std", "a"]⟩]

theorem sample_sorted : Sorted sample := by
  refine ⟨by decide, ?_⟩
  rintro i j ⟨a, b, ha, hb, hm⟩
  have hi := (List.getElem?_eq_some_iff.1 ha).1
  have hj := (List.getElem?_eq_some_iff.1 hb).1
  simp only [sample, List.length_cons, List.length_nil] at hi hj
  have hi5 : i = 0 ∨ i = 1 ∨ i = 2 ∨ i = 3 ∨ i = 4 := by omega
  have hj5 : j = 0 ∨ j = 1 ∨ j = 2 ∨ j = 3 ∨ j = 4 := by omega
  rcases hi5 with h | h | h | h | h <;> subst h <;> rcases hj5 with h | h | h | h | h <;> subst h <;>
    simp [sample] at ha hb <;> subst ha hb <;> first | (simp at hm; done) | omega

example : (setup sample).leader = [1, 2, 3, 3, 5] ∧ (setup sample).followers = [[1, 2, 3], [2, 3, 4], [4, 4], [4], []] := by decide +kernel

/-- With `a` failing, there are runs that end, and in all of them `b` is built and `main` is not even tried. -/
example : (∃ k s, Run sample (fun m => m != 2) k s ∧ s.done) ∧
    ∀ k s, Run sample (fun m => m != 2) k s → s.done →
      s.result 2 = some false ∧ s.result 3 = some true ∧ s.result 4 = none ∧ .started 4 ∉ s.trace := by
  refine ⟨?_, ?_⟩
  · obtain ⟨k, s, -, h⟩ := build_ends sample_sorted (outcome := fun m => m != 2) (.nil _)
    exact ⟨k, s, h⟩
  · intro k s hr hd
    have low : ∀ {m d}, DependsOn sample m d → d < m := by
      intro m d h
      induction h with
      | one h => exact sample_sorted.order _ _ h
      | more h _ ih => exact Nat.lt_trans ih (sample_sorted.order _ _ h)
    have not32 : ∀ {d}, DependsOn sample 3 d → d ≠ 2 := by
      intro d h hd
      subst hd
      cases h with
      | one h =>
        obtain ⟨a, b, ha, hb, hm⟩ := h
        simp [sample] at ha hb
        subst ha hb
        simp at hm
      | @more _ j _ h h' =>
        have h1 := low h'
        have h2 := sample_sorted.order _ _ h
        omega
    have h42 : DependsOn sample 4 2 := .one ⟨_, _, rfl, rfl, by decide⟩
    obtain ⟨-, f2, -, -⟩ := final_results sample_sorted hr hd (m := 2) (by decide)
    obtain ⟨g3, -, -, -⟩ := final_results sample_sorted hr hd (m := 3) (by decide)
    obtain ⟨-, -, n4, s4⟩ := final_results sample_sorted hr hd (m := 4) (by decide)
    refine ⟨f2.2 ⟨rfl, fun d h => ?_⟩, g3.2 ⟨rfl, fun d h => ?_⟩, n4.2 ⟨2, h42, rfl⟩, fun hs => ?_⟩
    · have := low h
      exact bne_iff_ne.2 (by omega)
    · exact bne_iff_ne.2 (not32 h)
    · exact absurd (s4.1 hs 2 h42) (by decide)

end Verif.Parallel
