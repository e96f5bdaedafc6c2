import Verif.TopoSort.Model

namespace Verif.TopoSort

/-- Reachability through dependencies (specification). -/
inductive Reach (deps : Nat → List Nat) : Nat → Nat → Prop
  | refl (a) : Reach deps a a
  | step {a b c} : b ∈ deps a → Reach deps b c → Reach deps a c

theorem Reach.trans {deps a b c} (h : Reach deps a b) (h' : Reach deps b c) : Reach deps a c := by
  induction h with
  | refl => exact h'
  | step e _ ih => exact .step e (ih h')

theorem Reach.one {deps : Nat → List Nat} {a b} (h : b ∈ deps a) : Reach deps a b := .step h (.refl b)

def St.idx (s : St) (x : Nat) : Nat := (s.index x).getD 0

variable (deps : Nat → List Nat) (N : Nat)

/-- Invariant; `G` lists the items whose visit is under way. -/
structure Inv (G : List Nat) (s : St) : Prop where
  idx_lt : ∀ x k, s.index x = some k → k < s.nextIndex
  idx_inj : ∀ x y k, s.index x = some k → s.index y = some k → x = y
  vis_lt : ∀ x, (s.index x).isSome → x < N
  stack_iff : ∀ x, x ∈ s.stack ↔ (s.index x).isSome ∧ s.scc x = none
  sorted : s.stack.Pairwise (fun a b => s.idx b < s.idx a)
  gray : ∀ g ∈ G, g ∈ s.stack
  scc_vis : ∀ x c, s.scc x = some c → (s.index x).isSome ∧ c < s.nextScc
  closed : ∀ x c, s.scc x = some c → ∀ y ∈ deps x, ∃ c', s.scc y = some c' ∧ c' ≤ c
  black : ∀ x, (s.index x).isSome → x ∉ G → ∀ y ∈ deps x, (s.index y).isSome
  up : ∀ g ∈ G, ∀ x ∈ s.stack, s.idx g ≤ s.idx x → Reach deps g x
  down : ∀ x ∈ s.stack, ∃ g ∈ G, s.idx g ≤ s.idx x ∧ Reach deps x g
  same : ∀ x y c, s.scc x = some c → s.scc y = some c → Reach deps x y
  used : ∀ c, c < s.nextScc → ∃ x, s.scc x = some c

/-- What never changes for items already visited. -/
structure Ext (s s' : St) : Prop where
  index : ∀ x k, s.index x = some k → s'.index x = some k
  scc : ∀ x c, s.scc x = some c → s'.scc x = some c
  next : s.nextIndex ≤ s'.nextIndex
  fresh : ∀ x k, s.index x = none → s'.index x = some k → s.nextIndex ≤ k
  stack : ∃ A, s'.stack = A ++ s.stack

theorem Ext.refl (s : St) : Ext s s :=
  ⟨fun _ _ h => h, fun _ _ h => h, Nat.le_refl _, fun _ _ h h' => by rw [h] at h'; (cases h'), [], rfl⟩

theorem Ext.trans {s t u : St} (h : Ext s t) (h' : Ext t u) : Ext s u := by
  refine ⟨fun x k e => h'.index x k (h.index x k e), fun x c e => h'.scc x c (h.scc x c e), Nat.le_trans h.next h'.next, ?_, ?_⟩
  · intro x k e e'
    cases ht : t.index x with
    | none => exact Nat.le_trans h.next (h'.fresh x k ht e')
    | some k' =>
      have := h'.index x k' ht
      rw [this] at e'; cases e'
      exact h.fresh x k e ht
  · obtain ⟨A, ha⟩ := h.stack
    obtain ⟨B, hb⟩ := h'.stack
    exact ⟨B ++ A, by rw [hb, ha, List.append_assoc]⟩

theorem Ext.isSome {s s' : St} (h : Ext s s') {x} (hx : (s.index x).isSome) : (s'.index x).isSome := by
  obtain ⟨k, hk⟩ := Option.isSome_iff_exists.1 hx
  simp [h.index x k hk]

theorem Ext.idx {s s' : St} (h : Ext s s') {x} (hx : (s.index x).isSome) : s'.idx x = s.idx x := by
  obtain ⟨k, hk⟩ := Option.isSome_iff_exists.1 hx
  simp [St.idx, hk, h.index x k hk]

/-- Number of items not visited yet. -/
def unv (s : St) : Nat := (List.range N).countP (fun x => (s.index x).isNone)

theorem Ext.unv {s s' : St} (h : Ext s s') : unv N s' ≤ unv N s := by
  apply List.countP_mono_left
  intro x _ hx
  cases hs : s.index x with
  | none => simp
  | some k => simp [h.index x k hs] at hx

theorem unv_upd {s s' : St} (h : Ext s s') {i} (hi : i < N) (h0 : s.index i = none) (h1 : (s'.index i).isSome) :
    TopoSort.unv N s' < TopoSort.unv N s := by
  unfold TopoSort.unv
  have hm : i ∈ List.range N := List.mem_range.2 hi
  obtain ⟨l, r, hlr⟩ := List.append_of_mem hm
  rw [hlr]
  simp only [List.countP_append, List.countP_cons]
  have mono : ∀ l : List Nat, l.countP (fun x => (s'.index x).isNone) ≤ l.countP (fun x => (s.index x).isNone) := by
    intro l
    apply List.countP_mono_left
    intro x _ hx
    cases hs : s.index x with
    | none => simp
    | some k => simp [h.index x k hs] at hx
  have := mono l
  have := mono r
  have e1 : (s.index i).isNone = true := by simp [h0]
  have e2 : (s'.index i).isNone = false := by
    obtain ⟨k, hk⟩ := Option.isSome_iff_exists.1 h1; simp [hk]
  simp only [e1, e2, if_true, Bool.false_eq_true, if_false]
  omega

theorem popTo_spec (i c : Nat) (A B : List Nat) (hA : i ∉ A) (scc : Nat → Option Nat) :
    ∃ scc', popTo i c (A ++ i :: B) scc = some (B, scc') ∧ ∀ x, scc' x = if x ∈ A ∨ x = i then some c else scc x := by
  induction A generalizing scc with
  | nil =>
    refine ⟨upd scc i (some c), by simp [popTo], fun x => by simp [upd]⟩
  | cons a A ih =>
    simp at hA
    obtain ⟨scc', h1, h2⟩ := ih hA.2 (upd scc a (some c))
    refine ⟨scc', ?_, fun x => ?_⟩
    · simp only [List.cons_append, popTo]
      rw [if_pos (Ne.symm hA.1)]
      exact h1
    · rw [h2]
      by_cases hx : x = a
      · subst hx; simp [upd]
      · by_cases hx' : x ∈ A ∨ x = i
        · rw [if_pos hx', if_pos (by rcases hx' with h | h <;> simp [h])]
        · rw [if_neg hx', if_neg (by simpa [hx] using hx')]; simp [upd, hx]

/-- Reachability from a finished item stays in finished items, of groups not later than its own. -/
theorem Inv.done_reach {G s} (h : Inv deps N G s) {x y c} (hx : s.scc x = some c) (hr : Reach deps x y) :
    ∃ c', s.scc y = some c' ∧ c' ≤ c := by
  induction hr generalizing c with
  | refl => exact ⟨c, hx, Nat.le_refl _⟩
  | step e _ ih =>
    obtain ⟨c1, h1, h2⟩ := h.closed _ c hx _ e
    obtain ⟨c2, h3, h4⟩ := ih h1
    exact ⟨c2, h3, Nat.le_trans h4 h2⟩

theorem Inv.idx_ne {G s} (h : Inv deps N G s) {x y} (hx : (s.index x).isSome) (hy : (s.index y).isSome)
    (e : s.idx x = s.idx y) : x = y := by
  obtain ⟨k, hk⟩ := Option.isSome_iff_exists.1 hx
  obtain ⟨k', hk'⟩ := Option.isSome_iff_exists.1 hy
  simp [St.idx, hk, hk'] at e
  subst e
  exact h.idx_inj _ _ _ hk hk'

/-- What a visit of `i` guarantees. -/
structure Post (i : Nat) (G : List Nat) (s s' : St) : Prop where
  inv : Inv deps N G s'
  ext : Ext s s'
  low : ∀ x, (s.index x).isSome → s'.low x = s.low x
  vis : (s'.index i).isSome
  link : (s'.stack = s.stack ∧ s.nextIndex ≤ s'.low i) ∨
    (i ∈ s'.stack ∧ (∃ y ∈ s.stack, s.idx y = s'.low i ∧ Reach deps i y) ∧
      ∀ x ∈ s'.stack, x ∉ s.stack → ∀ z ∈ deps x, z ∈ s.stack → s'.low i ≤ s.idx z)

/-- Invariant of the loop over the dependencies of `i`: `s0` is the state at its start, `P` the dependencies already handled. -/
structure Loop (i : Nat) (G : List Nat) (s0 : St) (P : List Nat) (s : St) : Prop where
  inv : Inv deps N (i :: G) s
  ext : Ext s0 s
  low : ∀ x, (s0.index x).isSome → x ≠ i → s.low x = s0.low x
  le : s.low i ≤ s0.idx i
  reach : ∃ y ∈ s.stack, s.idx y = s.low i ∧ Reach deps i y
  bound : ∀ x ∈ s.stack, x ∉ s0.stack → ∀ z ∈ deps x, z ∈ s0.stack → z ≠ i → s.low i ≤ s.idx z
  handled : ∀ z ∈ P, (s.index z).isSome ∧ (z ∈ s0.stack → s.low i ≤ s.idx z)

/-- Changing `low` does not affect the invariant. -/
theorem Inv.set_low {G s} (h : Inv deps N G s) (f : Nat → Nat) : Inv deps N G { s with low := f } :=
  ⟨h.idx_lt, h.idx_inj, h.vis_lt, h.stack_iff, h.sorted, h.gray, h.scc_vis, h.closed, h.black, h.up, h.down, h.same, h.used⟩

theorem Ext.set_low {s s' : St} (h : Ext s s') (f : Nat → Nat) : Ext s { s' with low := f } :=
  ⟨h.index, h.scc, h.next, h.fresh, h.stack⟩

theorem depLoop_spec (hN : ∀ x, ∀ y ∈ deps x, y < N) (v : Nat → St → Option St) (fuel : Nat)
    (hv : ∀ i s G, Inv deps N G s → s.index i = none → i < N → (∀ g ∈ G, Reach deps g i) → unv N s < fuel →
      ∃ s', v i s = some s' ∧ Post deps N i G s s')
    (i : Nat) (G : List Nat) (s0 : St) (htop : ∀ x ∈ s0.stack, s0.idx x ≤ s0.idx i)
    (hi0v : (s0.index i).isSome) (hi0 : s0.idx i < s0.nextIndex)
    (hvis0 : ∀ x ∈ s0.stack, (s0.index x).isSome) (hG : ∀ g ∈ G, g ∈ s0.stack)
    (hf : unv N s0 < fuel)
    (js : List Nat) : ∀ (P : List Nat) (s : St), P ++ js = deps i → Loop deps N i G s0 P s →
    ∃ s', depLoop v i js s = some s' ∧ Loop deps N i G s0 (deps i) s' := by
  induction js with
  | nil =>
    intro P s hP hl
    rw [List.append_nil] at hP
    subst hP
    exact ⟨s, rfl, hl⟩
  | cons j js ih =>
    intro P s hP hl
    have hj : j ∈ deps i := by rw [← hP]; simp
    have hP' : (P ++ [j]) ++ js = deps i := by rw [← hP]; simp
    have hi : i ∈ s.stack := hl.inv.gray i (by simp)
    have hivis : (s.index i).isSome := ((hl.inv.stack_iff i).1 hi).1
    have hsub : ∀ x ∈ s0.stack, x ∈ s.stack := by
      obtain ⟨A, hA⟩ := hl.ext.stack
      intro x hx; rw [hA]; simp [hx]
    simp only [depLoop]
    split
    · next hnone =>
      have hnone : s.index j = none := by simpa using hnone
      obtain ⟨s', h1, h2⟩ := hv j s (i :: G) hl.inv hnone (hN i j hj)
        (by
          intro g hg
          rcases List.mem_cons.1 hg with rfl | hgG
          · exact .one hj
          · refine (hl.inv.up g hg i hi ?_).trans (.one hj)
            have hg0 := hG g hgG
            rw [hl.ext.idx (hvis0 g hg0), hl.ext.idx hi0v]
            exact htop g hg0)
        (Nat.lt_of_le_of_lt (Ext.unv N hl.ext) hf)
      rw [h1]
      simp only
      have hli : s'.low i = s.low i := h2.low i hivis
      have hsub' : ∀ x ∈ s.stack, x ∈ s'.stack := by
        obtain ⟨A, hA⟩ := h2.ext.stack
        intro x hx; rw [hA]; simp [hx]
      have hlow : ∀ f : Nat → Nat, ∀ x, ({ s' with low := f } : St).idx x = s'.idx x := fun _ _ => rfl
      apply ih (P ++ [j]) _ hP'
      refine ⟨h2.inv.set_low _ _ _, hl.ext.trans (h2.ext.set_low _), ?_, ?_, ?_, ?_, ?_⟩
      · intro x hx hxi
        simp only [upd, hxi, if_false]
        rw [h2.low x (hl.ext.isSome hx), hl.low x hx hxi]
      · simp only [upd, if_true]
        have := hl.le; omega
      · simp only [upd, if_true, hlow]
        obtain ⟨y, hy1, hy2, hy3⟩ := hl.reach
        have hyv := ((hl.inv.stack_iff y).1 hy1).1
        have hyi : s'.idx y = s.idx y := h2.ext.idx hyv
        have first : s'.low i ≤ s'.low j → ∃ y ∈ s'.stack, s'.idx y = min (s'.low i) (s'.low j) ∧ Reach deps i y := by
          intro hle
          exact ⟨y, hsub' y hy1, by rw [hyi, hy2]; omega, hy3⟩
        rcases h2.link with ⟨e, hn⟩ | ⟨hjs, ⟨z, hz1, hz2, hz3⟩, hb⟩
        · apply first
          have := hl.le
          have := hl.ext.next
          omega
        · by_cases hle : s'.low i ≤ s'.low j
          · exact first hle
          · refine ⟨z, hsub' z hz1, ?_, .step hj hz3⟩
            rw [h2.ext.idx ((hl.inv.stack_iff z).1 hz1).1, hz2]; omega
      · simp only [upd, if_true, hlow]
        intro x hx hx0 z hz hz0 hzi
        have hze : s'.idx z = s.idx z := h2.ext.idx (hl.ext.isSome (hvis0 z hz0))
        rw [hze]
        by_cases hxs : x ∈ s.stack
        · have := hl.bound x hxs hx0 z hz hz0 hzi
          omega
        · rcases h2.link with ⟨e, hn⟩ | ⟨hjs, -, hb⟩
          · rw [e] at hx; exact absurd hx hxs
          · have := hb x hx hxs z hz (hsub z hz0)
            omega
      · simp only [upd, if_true, hlow]
        intro z hz
        rcases List.mem_append.1 hz with hz | hz
        · obtain ⟨h3, h4⟩ := hl.handled z hz
          refine ⟨h2.ext.isSome h3, fun hz0 => ?_⟩
          have := h4 hz0
          rw [h2.ext.idx h3]; omega
        · simp at hz; subst hz
          refine ⟨h2.vis, fun hz0 => ?_⟩
          have := hl.ext.isSome (hvis0 z hz0)
          rw [hnone] at this; cases this
    · next hsome =>
      have hjv : (s.index j).isSome := by
        cases h : s.index j with
        | none => simp [h] at hsome
        | some k => rfl
      split
      · next hscc =>
        have hscc : s.scc j = none := by simpa using hscc
        have hjs : j ∈ s.stack := (hl.inv.stack_iff j).2 ⟨hjv, hscc⟩
        have hlow : ∀ f : Nat → Nat, ∀ x, ({ s with low := f } : St).idx x = s.idx x := fun _ _ => rfl
        have hgd : (s.index j).getD 0 = s.idx j := rfl
        apply ih (P ++ [j]) _ hP'
        refine ⟨hl.inv.set_low _ _ _, hl.ext.set_low _, ?_, ?_, ?_, ?_, ?_⟩
        · intro x hx hxi
          simp only [upd, hxi, if_false]
          exact hl.low x hx hxi
        · simp only [upd, if_true]
          have := hl.le; omega
        · simp only [upd, if_true, hlow, hgd]
          obtain ⟨y, hy1, hy2, hy3⟩ := hl.reach
          by_cases hle : s.low i ≤ s.idx j
          · exact ⟨y, hy1, by rw [hy2]; omega, hy3⟩
          · exact ⟨j, hjs, by omega, .one hj⟩
        · simp only [upd, if_true, hlow]
          intro x hx hx0 z hz hz0 hzi
          have := hl.bound x hx hx0 z hz hz0 hzi
          omega
        · simp only [upd, if_true, hlow, hgd]
          intro z hz
          rcases List.mem_append.1 hz with hz | hz
          · obtain ⟨h3, h4⟩ := hl.handled z hz
            refine ⟨h3, fun hz0 => ?_⟩
            have := h4 hz0
            omega
          · simp at hz; subst hz
            exact ⟨hjv, fun _ => by omega⟩
      · next hscc =>
        apply ih (P ++ [j]) _ hP'
        refine ⟨hl.inv, hl.ext, hl.low, hl.le, hl.reach, hl.bound, ?_⟩
        intro z hz
        rcases List.mem_append.1 hz with hz | hz
        · exact hl.handled z hz
        · simp at hz; subst hz
          refine ⟨hjv, fun hz0 => ?_⟩
          have := ((hl.inv.stack_iff z).1 (hsub z hz0)).2
          simp [this] at hscc

/-- The state in which the dependencies of `i` start being handled. -/
def mark (i : Nat) (s : St) : St :=
  { s with
    index := upd s.index i (some s.nextIndex), low := upd s.low i s.nextIndex,
    stack := i :: s.stack, nextIndex := s.nextIndex + 1 }

theorem mark_idx_self (i : Nat) (s : St) : (mark i s).idx i = s.nextIndex := by simp [mark, St.idx, upd]
theorem mark_idx_ne {i x : Nat} (s : St) (h : x ≠ i) : (mark i s).idx x = s.idx x := by simp [mark, St.idx, upd, h]
theorem mark_index_ne {i x : Nat} (s : St) (h : x ≠ i) : (mark i s).index x = s.index x := by simp [mark, upd, h]
theorem mark_index_self (i : Nat) (s : St) : (mark i s).index i = some s.nextIndex := by simp [mark, upd]

theorem mark_ext {i : Nat} {s : St} (h : s.index i = none) : Ext s (mark i s) := by
  refine ⟨?_, fun _ _ e => e, by simp [mark], ?_, [i], rfl⟩
  · intro x k e
    have : x ≠ i := by rintro rfl; rw [h] at e; cases e
    rw [mark_index_ne s this]; exact e
  · intro x k e e'
    by_cases hx : x = i
    · subst hx; rw [mark_index_self] at e'; cases e'; exact Nat.le_refl _
    · rw [mark_index_ne s hx, e] at e'; cases e'

theorem Inv.idx_lt' {G s} (h : Inv deps N G s) {x} (hx : (s.index x).isSome) : s.idx x < s.nextIndex := by
  obtain ⟨k, hk⟩ := Option.isSome_iff_exists.1 hx
  have := h.idx_lt x k hk
  simpa [St.idx, hk] using this

theorem mark_inv {G : List Nat} {s : St} (h : Inv deps N G s) {i : Nat} (hi : s.index i = none) (hiN : i < N)
    (hG : ∀ g ∈ G, Reach deps g i) : Inv deps N (i :: G) (mark i s) := by
  have hvis : ∀ x, (s.index x).isSome → x ≠ i := by rintro x hx rfl; rw [hi] at hx; cases hx
  have hst : ∀ x ∈ s.stack, (s.index x).isSome := fun x hx => ((h.stack_iff x).1 hx).1
  have hne : ∀ x ∈ s.stack, x ≠ i := fun x hx => hvis x (hst x hx)
  have hlt : ∀ x ∈ s.stack, s.idx x < s.nextIndex := fun x hx => h.idx_lt' deps N (hst x hx)
  refine ⟨?_, ?_, ?_, ?_, ?_, ?_, ?_, ?_, ?_, ?_, ?_, ?_, ?_⟩
  · intro x k e
    by_cases hx : x = i
    · subst hx; rw [mark_index_self] at e; cases e; simp [mark]
    · rw [mark_index_ne s hx] at e
      have := h.idx_lt x k e
      simp only [mark]; omega
  · intro x y k e e'
    by_cases hx : x = i <;> by_cases hy : y = i
    · rw [hx, hy]
    · subst hx; rw [mark_index_self] at e; cases e
      rw [mark_index_ne s hy] at e'
      exact absurd (h.idx_lt _ _ e') (Nat.lt_irrefl _)
    · subst hy; rw [mark_index_self] at e'; cases e'
      rw [mark_index_ne s hx] at e
      exact absurd (h.idx_lt _ _ e) (Nat.lt_irrefl _)
    · rw [mark_index_ne s hx] at e
      rw [mark_index_ne s hy] at e'
      exact h.idx_inj x y k e e'
  · intro x hx
    by_cases hxi : x = i
    · subst hxi; exact hiN
    · rw [mark_index_ne s hxi] at hx; exact h.vis_lt x hx
  · intro x
    show x ∈ i :: s.stack ↔ ((mark i s).index x).isSome ∧ s.scc x = none
    by_cases hxi : x = i
    · subst hxi
      simp only [List.mem_cons, true_or, mark_index_self, Option.isSome_some, true_and, true_iff]
      cases hs : s.scc x with
      | none => rfl
      | some c => have := (h.scc_vis x c hs).1; rw [hi] at this; cases this
    · rw [mark_index_ne s hxi, ← h.stack_iff]
      simp [hxi]
  · show (i :: s.stack).Pairwise _
    rw [List.pairwise_cons]
    refine ⟨?_, ?_⟩
    · intro x hx
      rw [mark_idx_self, mark_idx_ne s (hne x hx)]
      exact hlt x hx
    · refine h.sorted.imp_of_mem ?_
      intro a b ha hb hab
      rw [mark_idx_ne s (hne a ha), mark_idx_ne s (hne b hb)]
      exact hab
  · intro g hg
    show g ∈ i :: s.stack
    rcases List.mem_cons.1 hg with rfl | hg
    · simp
    · simp [h.gray g hg]
  · intro x c e
    obtain ⟨h1, h2⟩ := h.scc_vis x c e
    exact ⟨(mark_ext hi).isSome h1, h2⟩
  · exact h.closed
  · intro x hx hxG y hy
    simp at hxG
    rw [mark_index_ne s hxG.1] at hx
    exact (mark_ext hi).isSome (h.black x hx hxG.2 y hy)
  · intro g hg x hx hle
    have hx : x ∈ i :: s.stack := hx
    rcases List.mem_cons.1 hg with e | hg' <;> rcases List.mem_cons.1 hx with e' | hx'
    · rw [e, e']; exact .refl _
    · rw [e, mark_idx_self, mark_idx_ne s (hne x hx')] at hle
      have := hlt x hx'; omega
    · rw [e']; exact hG g hg'
    · rw [mark_idx_ne s (hne x hx'), mark_idx_ne s (hne g (h.gray g hg'))] at hle
      exact h.up g hg' x hx' hle
  · intro x hx
    have hx : x ∈ i :: s.stack := hx
    rcases List.mem_cons.1 hx with rfl | hx
    · exact ⟨x, by simp, Nat.le_refl _, .refl _⟩
    · obtain ⟨g, h1, h2, h3⟩ := h.down x hx
      refine ⟨g, by simp [h1], ?_, h3⟩
      rw [mark_idx_ne s (hne x hx), mark_idx_ne s (hne g (h.gray g h1))]
      exact h2
  · exact h.same
  · exact h.used

theorem visit_spec (hN : ∀ x, ∀ y ∈ deps x, y < N) (fuel : Nat) : ∀ i s G, Inv deps N G s → s.index i = none → i < N →
    (∀ g ∈ G, Reach deps g i) → unv N s < fuel → ∃ s', visit deps fuel i s = some s' ∧ Post deps N i G s s' := by
  induction fuel with
  | zero => intro i s G _ _ _ _ h; omega
  | succ fuel ih =>
    intro i s G h hi hiN hG hu
    have hm := mark_inv deps N h hi hiN hG
    have he := mark_ext hi
    have hst : ∀ x ∈ s.stack, (s.index x).isSome := fun x hx => ((h.stack_iff x).1 hx).1
    have hne : ∀ x ∈ s.stack, x ≠ i := by
      rintro x hx rfl; have := hst x hx; rw [hi] at this; cases this
    have hlt : ∀ x ∈ s.stack, s.idx x < s.nextIndex := fun x hx => h.idx_lt' deps N (hst x hx)
    have hiv : ((mark i s).index i).isSome := by rw [mark_index_self]; rfl
    have hu' : unv N (mark i s) < fuel := by
      have := unv_upd N he hiN hi hiv; omega
    obtain ⟨s2, h1, hl⟩ := depLoop_spec deps N hN (visit deps fuel) fuel ih i G (mark i s)
      (by
        intro x hx
        have hx : x ∈ i :: s.stack := hx
        rcases List.mem_cons.1 hx with rfl | hx
        · exact Nat.le_refl _
        · rw [mark_idx_self, mark_idx_ne s (hne x hx)]; exact Nat.le_of_lt (hlt x hx))
      hiv (by rw [mark_idx_self]; simp [mark])
      (fun x hx => ((hm.stack_iff x).1 hx).1)
      (fun g hg => by show g ∈ i :: s.stack; simp [h.gray g hg])
      hu' (deps i) [] (mark i s) rfl
      ⟨hm, .refl _, fun _ _ _ => rfl, by simp [mark, upd, St.idx],
        ⟨i, by simp [mark], by simp [mark, upd, St.idx], .refl _⟩, fun x hx hx' => absurd hx hx', by simp⟩
    obtain ⟨A, hA⟩ := hl.ext.stack
    have hA : s2.stack = A ++ i :: s.stack := hA
    have hexts := he.trans hl.ext
    have hidxi : s2.idx i = s.nextIndex := by rw [hl.ext.idx hiv, mark_idx_self]
    have hidxo : ∀ x ∈ s.stack, s2.idx x = s.idx x := fun x hx => hexts.idx (hst x hx)
    have hsorted := hl.inv.sorted
    rw [hA, List.pairwise_append] at hsorted
    obtain ⟨hs1, hs2, hs3⟩ := hsorted
    have habove : ∀ x ∈ A, s2.idx i < s2.idx x := fun x hx => hs3 x hx i (by simp)
    have hiA : i ∉ A := fun hx => Nat.lt_irrefl _ (habove i hx)
    have hAold : ∀ x ∈ A, x ∉ s.stack := by
      intro x hx hx'
      have h1 := habove x hx
      rw [hidxi, hidxo x hx'] at h1
      have := hlt x hx'; omega
    have hAG : ∀ x ∈ A, x ∉ i :: G := by
      intro x hx hg
      rcases List.mem_cons.1 hg with rfl | hg
      · exact hiA hx
      · exact hAold x hx (h.gray x hg)
    have hbelow : ∀ x ∈ s.stack, s2.idx x < s2.idx i := by
      intro x hx; rw [hidxi, hidxo x hx]; exact hlt x hx
    have hAst : ∀ x ∈ A, x ∈ s2.stack := fun x hx => by rw [hA]; simp [hx]
    have hist : i ∈ s2.stack := by rw [hA]; simp
    have hsst : ∀ x ∈ s.stack, x ∈ s2.stack := fun x hx => by rw [hA]; simp [hx]
    have hlowold : ∀ x, (s.index x).isSome → s2.low x = s.low x := by
      intro x hx
      have hxi : x ≠ i := by rintro rfl; rw [hi] at hx; cases hx
      rw [hl.low x (he.isSome hx) hxi]
      simp [mark, upd, hxi]
    have hblack : ∀ x, (s2.index x).isSome → x ∉ G → ∀ y ∈ deps x, (s2.index y).isSome := by
      intro x hx hxG y hy
      by_cases hxi : x = i
      · subst hxi; exact (hl.handled y hy).1
      · exact hl.inv.black x hx (by simp [hxi, hxG]) y hy
    have hlowle : s2.low i ≤ s2.idx i := by
      have := hl.le; rw [mark_idx_self] at this; rw [hidxi]; exact this
    have hindex : s2.index i = some (s2.idx i) := by
      obtain ⟨k, hk⟩ := Option.isSome_iff_exists.1 (hl.ext.isSome hiv)
      simp [St.idx, hk]
    unfold visit
    unfold mark at h1
    simp only [h1]
    split
    · next hroot =>
      have hroot : s2.low i = s2.idx i := by
        rw [hindex] at hroot; exact (Option.some.inj hroot).symm
      obtain ⟨scc', hp1, hp2⟩ := popTo_spec i s2.nextScc A s.stack hiA s2.scc
      rw [hA, hp1]
      simp only
      refine ⟨_, rfl, ?_⟩
      have edge : ∀ x, (x ∈ A ∨ x = i) → ∀ z ∈ deps x, (z ∈ A ∨ z = i) ∨ ∃ c, s2.scc z = some c := by
        intro x hx z hz
        have hzv : (s2.index z).isSome := by
          rcases hx with hx | rfl
          · exact hblack x ((hl.inv.stack_iff x).1 (hAst x hx)).1 (fun hg => hAG x hx (by simp [hg])) z hz
          · exact (hl.handled z hz).1
        cases hsc : s2.scc z with
        | some c => exact .inr ⟨c, rfl⟩
        | none =>
          have hzs := (hl.inv.stack_iff z).2 ⟨hzv, hsc⟩
          rw [hA] at hzs
          rcases List.mem_append.1 hzs with hzs | hzs
          · exact .inl (.inl hzs)
          · rcases List.mem_cons.1 hzs with hzs | hzs
            · exact .inl (.inr hzs)
            · exfalso
              have hz0 : z ∈ (mark i s).stack := by show z ∈ i :: s.stack; simp [hzs]
              have : s2.low i ≤ s2.idx z := by
                rcases hx with hx | rfl
                · refine hl.bound x (hAst x hx) ?_ z hz hz0 (hne z hzs)
                  intro hx0
                  have hx0 : x ∈ i :: s.stack := hx0
                  rcases List.mem_cons.1 hx0 with rfl | hx0
                  · exact hiA hx
                  · exact hAold x hx hx0
                · exact (hl.handled z hz).2 hz0
              have := hbelow z hzs
              omega
      have path : ∀ x y, Reach deps x y → (x ∈ A ∨ x = i) → (y ∈ A ∨ y = i) ∨ ∃ c, s2.scc y = some c := by
        intro x y hr
        induction hr with
        | refl => exact fun h => .inl h
        | step e hr ih' =>
          intro hx
          rcases edge _ hx _ e with hb | ⟨c, hc⟩
          · exact ih' hb
          · obtain ⟨c', hc', -⟩ := hl.inv.done_reach deps N hc hr
            exact .inr ⟨c', hc'⟩
      have mutual1 : ∀ x, (x ∈ A ∨ x = i) → Reach deps i x := by
        rintro x (hx | rfl)
        · exact hl.inv.up i (by simp) x (hAst x hx) (Nat.le_of_lt (habove x hx))
        · exact .refl _
      have mutual2 : ∀ x, (x ∈ A ∨ x = i) → Reach deps x i := by
        intro x hx
        have hxs : x ∈ s2.stack := by rcases hx with hx | rfl; exact hAst x hx; exact hist
        obtain ⟨g, hg1, hg2, hg3⟩ := hl.inv.down x hxs
        rcases path x g hg3 hx with (hg | rfl) | ⟨c, hc⟩
        · exact absurd hg1 (hAG g hg)
        · exact hg3
        · have := ((hl.inv.stack_iff g).1 (hl.inv.gray g hg1)).2
          rw [hc] at this; cases this
      have hnone : ∀ x, (x ∈ A ∨ x = i) → s2.scc x = none := by
        rintro x (hx | rfl)
        · exact ((hl.inv.stack_iff x).1 (hAst x hx)).2
        · exact ((hl.inv.stack_iff x).1 hist).2
      have hkeep : ∀ x c, s2.scc x = some c → scc' x = some c := by
        intro x c hc
        rw [hp2, if_neg]
        · exact hc
        · intro hx; rw [hnone x hx] at hc; cases hc
      have hsplit : ∀ x c, scc' x = some c → ((x ∈ A ∨ x = i) ∧ c = s2.nextScc) ∨ s2.scc x = some c := by
        intro x c hc
        rw [hp2] at hc
        split at hc
        · next hx => cases hc; exact .inl ⟨hx, rfl⟩
        · exact .inr hc
      refine ⟨⟨hl.inv.idx_lt, hl.inv.idx_inj, hl.inv.vis_lt, ?_, ?_, h.gray, ?_, ?_, hblack, ?_, ?_, ?_, ?_⟩, ?_, ?_, ?_, .inl ⟨rfl, ?_⟩⟩
      · intro x
        simp only
        rw [hp2]
        constructor
        · intro hx
          have := (hl.inv.stack_iff x).1 (hsst x hx)
          refine ⟨this.1, ?_⟩
          rw [if_neg]
          · exact this.2
          · rintro (hx' | hx')
            · exact hAold x hx' hx
            · exact hne x hx hx'
        · rintro ⟨hx, hsc⟩
          split at hsc
          · cases hsc
          · next hn =>
            have := (hl.inv.stack_iff x).2 ⟨hx, hsc⟩
            rw [hA] at this
            rcases List.mem_append.1 this with h' | h'
            · exact absurd (.inl h') hn
            · rcases List.mem_cons.1 h' with h' | h'
              · exact absurd (.inr h') hn
              · exact h'
      · exact (List.pairwise_cons.1 hs2).2
      · intro x c hc
        rcases hsplit x c hc with ⟨hx, rfl⟩ | hc
        · refine ⟨?_, Nat.lt_succ_self _⟩
          rcases hx with hx | rfl
          · exact ((hl.inv.stack_iff x).1 (hAst x hx)).1
          · exact ((hl.inv.stack_iff x).1 hist).1
        · have := hl.inv.scc_vis x c hc
          exact ⟨this.1, Nat.lt_succ_of_lt this.2⟩
      · intro x c hc y hy
        rcases hsplit x c hc with ⟨hx, rfl⟩ | hc
        · rcases edge x hx y hy with hb | ⟨c, hc⟩
          · exact ⟨s2.nextScc, by show scc' y = _; rw [hp2, if_pos hb], Nat.le_refl _⟩
          · exact ⟨c, hkeep y c hc, Nat.le_of_lt (hl.inv.scc_vis y c hc).2⟩
        · obtain ⟨c', h3, h4⟩ := hl.inv.closed x c hc y hy
          exact ⟨c', hkeep y c' h3, h4⟩
      · intro g hg x hx hle
        exact hl.inv.up g (by simp [hg]) x (hsst x hx) hle
      · intro x hx
        obtain ⟨g, hg1, hg2, hg3⟩ := hl.inv.down x (hsst x hx)
        rcases List.mem_cons.1 hg1 with rfl | hg1
        · have := hbelow x hx; omega
        · exact ⟨g, hg1, hg2, hg3⟩
      · intro x y c hx hy
        rcases hsplit x c hx with ⟨hx', e⟩ | hx' <;> rcases hsplit y c hy with ⟨hy', e'⟩ | hy'
        · exact (mutual2 x hx').trans (mutual1 y hy')
        · rw [e] at hy'; exact absurd (hl.inv.scc_vis y _ hy').2 (Nat.lt_irrefl _)
        · rw [e'] at hx'; exact absurd (hl.inv.scc_vis x _ hx').2 (Nat.lt_irrefl _)
        · exact hl.inv.same x y c hx' hy'
      · intro c hc
        have hc : c < s2.nextScc + 1 := hc
        by_cases hcc : c = s2.nextScc
        · exact ⟨i, by show scc' i = _; rw [hp2, if_pos (.inr rfl), hcc]⟩
        · obtain ⟨x, hx⟩ := hl.inv.used c (by omega)
          exact ⟨x, hkeep x c hx⟩
      · refine ⟨hexts.index, fun x c hc => hkeep x c (hexts.scc x c hc), hexts.next, hexts.fresh, [], rfl⟩
      · exact hlowold
      · exact hl.ext.isSome hiv
      · show s.nextIndex ≤ s2.low i
        omega
    · next hroot =>
      have hroot : s2.low i < s2.idx i := by
        rw [hindex] at hroot
        have : s2.idx i ≠ s2.low i := fun e => hroot (by rw [e])
        omega
      refine ⟨s2, rfl, ?_⟩
      obtain ⟨y, hy1, hy2, hy3⟩ := hl.reach
      refine ⟨⟨hl.inv.idx_lt, hl.inv.idx_inj, hl.inv.vis_lt, hl.inv.stack_iff, hl.inv.sorted,
        fun g hg => hl.inv.gray g (by simp [hg]), hl.inv.scc_vis, hl.inv.closed, hblack,
        fun g hg => hl.inv.up g (by simp [hg]), ?_, hl.inv.same, hl.inv.used⟩, hexts, hlowold, hl.ext.isSome hiv,
        .inr ⟨hist, ⟨y, ?_, ?_, hy3⟩, ?_⟩⟩
      · intro x hx
        obtain ⟨g, hg1, hg2, hg3⟩ := hl.inv.down x hx
        rcases List.mem_cons.1 hg1 with rfl | hg1
        · obtain ⟨g', h4, h5, h6⟩ := hl.inv.down y hy1
          rcases List.mem_cons.1 h4 with rfl | h4
          · omega
          · exact ⟨g', h4, by omega, (hg3.trans hy3).trans h6⟩
        · exact ⟨g, hg1, hg2, hg3⟩
      · have := hy1
        rw [hA] at this
        rcases List.mem_append.1 this with h' | h'
        · have := habove y h'; omega
        · rcases List.mem_cons.1 h' with rfl | h'
          · omega
          · exact h'
      · have : y ∈ s.stack := by
          have := hy1
          rw [hA] at this
          rcases List.mem_append.1 this with h' | h'
          · have := habove y h'; omega
          · rcases List.mem_cons.1 h' with rfl | h'
            · omega
            · exact h'
        rw [← hidxo y this]; exact hy2
      · intro x hx hxo z hz hzo
        rw [← hidxo z hzo]
        have hz0 : z ∈ (mark i s).stack := by show z ∈ i :: s.stack; simp [hzo]
        by_cases hxi : x = i
        · subst hxi; exact (hl.handled z hz).2 hz0
        · refine hl.bound x hx ?_ z hz hz0 (hne z hzo)
          intro hx0
          have hx0 : x ∈ i :: s.stack := hx0
          rcases List.mem_cons.1 hx0 with rfl | hx0
          · exact hxi rfl
          · exact hxo hx0

theorem init_inv : Inv deps N [] St.init := by
  refine ⟨?_, ?_, ?_, ?_, ?_, ?_, ?_, ?_, ?_, ?_, ?_, ?_, ?_⟩ <;> simp [St.init]

theorem unv_le (s : St) : unv N s ≤ N := by
  have := List.countP_le_length (p := fun x => (s.index x).isNone) (l := List.range N)
  simpa [unv] using this

theorem mainLoop_spec (hN : ∀ x, ∀ y ∈ deps x, y < N) (is : List Nat) (his : ∀ i ∈ is, i < N) (s : St) (h : Inv deps N [] s) :
    ∃ s', mainLoop deps (N + 1) is s = some s' ∧ Inv deps N [] s' ∧ Ext s s' ∧ ∀ i ∈ is, (s'.index i).isSome := by
  induction is generalizing s with
  | nil => exact ⟨s, rfl, h, .refl _, by simp⟩
  | cons i is ih =>
    simp only [mainLoop]
    split
    · next hn =>
      obtain ⟨s1, h1, h2⟩ := visit_spec deps N hN (N + 1) i s [] h (by simpa using hn) (his i (by simp)) (by simp)
        (Nat.lt_succ_of_le (unv_le N s))
      rw [h1]
      obtain ⟨s2, h3, h4, h5, h6⟩ := ih (fun j hj => his j (by simp [hj])) s1 h2.inv
      refine ⟨s2, h3, h4, h2.ext.trans h5, ?_⟩
      intro j hj
      rcases List.mem_cons.1 hj with rfl | hj
      · exact h5.isSome h2.vis
      · exact h6 j hj
    · next hn =>
      obtain ⟨s2, h3, h4, h5, h6⟩ := ih (fun j hj => his j (by simp [hj])) s h
      refine ⟨s2, h3, h4, h5, ?_⟩
      intro j hj
      rcases List.mem_cons.1 hj with rfl | hj
      · apply h5.isSome
        cases hx : s.index j with
        | none => simp [hx] at hn
        | some k => rfl
      · exact h6 j hj

end Verif.TopoSort
