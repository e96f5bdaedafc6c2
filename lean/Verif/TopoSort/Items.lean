import Verif.TopoSort.Lemmas
import Verif.TopoSort.Spec

/-! From positions to items. -/
namespace Verif.TopoSort
open Spec

variable {K V : Type} [DecidableEq K]

theorem keysOf_spec (data : List (K × V)) (i : Nat) (m : HMap K Nat) (h : (data.map Prod.fst).Nodup)
    (hm : ∀ k ∈ data.map Prod.fst, m.get k = none) :
    (∀ k, (keysOf data i m).get k = match m.get k with
      | some x => some x
      | none => (data.map Prod.fst).findIdx? (· = k) |>.map (i + ·)) ∧
    (keysOf data i m).length = m.length + data.length := by
  induction data generalizing i m with
  | nil => 
    simp only [keysOf]
    refine ⟨fun k => ?_, by simp⟩
    cases m.get k <;> simp
  | cons e data ih =>
    obtain ⟨k0, v⟩ := e
    simp only [List.map_cons, List.nodup_cons] at h
    have hm0 : m.get k0 = none := hm k0 (by simp)
    obtain ⟨h1, h2⟩ := ih (i + 1) (m.insert k0 i) h.2 (by
      intro k hk
      rw [HMap.get_insert, if_neg]
      · exact hm k (by simp [hk])
      · rintro rfl; exact h.1 hk)
    simp only [keysOf]
    refine ⟨fun k => ?_, ?_⟩
    · rw [h1, HMap.get_insert]
      by_cases hk : k = k0
      · subst hk
        simp [hm0, List.findIdx?_cons]
      · simp only [hk, if_false]
        cases hmk : m.get k with
        | some x => rfl
        | none =>
          simp only [List.map_cons, List.findIdx?_cons, decide_eq_true_eq, Ne.symm hk, if_false, Option.map_map]
          cases List.findIdx? (fun x => decide (x = k)) (List.map Prod.fst data) with
          | none => rfl
          | some j => simp; omega
    · rw [h2]
      have : (m.insert k0 i).length = m.length + 1 := by
        rw [HMap.insert, List.length_cons]
        congr 2
        rw [HMap.remove, List.filter_eq_self]
        intro a ha
        simp only [ne_eq, decide_eq_true_eq]
        intro e
        have : k0 ∈ m.keys := by rw [HMap.keys, List.mem_map]; exact ⟨a, ha, e⟩
        rw [HMap.mem_keys_iff, hm0] at this
        cases this
      rw [this, List.length_cons]; omega

variable (deps : V → List K) (data : List (K × V))

theorem nodup_getElem?_inj {l : List K} (h : l.Nodup) {i j : Nat} {k : K} (hi : l[i]? = some k) (hj : l[j]? = some k) : i = j := by
  obtain ⟨h1, e1⟩ := List.getElem?_eq_some_iff.1 hi
  obtain ⟨h2, e2⟩ := List.getElem?_eq_some_iff.1 hj
  exact (List.getElem_inj h).1 (e1.trans e2.symm)

theorem keys_get (h : (data.map Prod.fst).Nodup) (k : K) (j : Nat) :
    (keysOf data 0 []).get k = some j ↔ ∃ v, data[j]? = some (k, v) := by
  rw [(keysOf_spec data 0 [] h (by simp [HMap.get])).1 k]
  simp only [HMap.get_nil]
  constructor
  · intro e
    simp only [Option.map_eq_some_iff] at e
    obtain ⟨j', e1, e2⟩ := e
    have : j' = j := by omega
    subst this
    obtain ⟨h1, h2, -⟩ := List.findIdx?_eq_some_iff_getElem.1 e1
    simp at h2 h1
    refine ⟨data[j'].2, ?_⟩
    rw [List.getElem?_eq_getElem h1, ← h2]
  · rintro ⟨v, e⟩
    have hj : (data.map Prod.fst)[j]? = some k := by simp [e]
    have hmem : k ∈ data.map Prod.fst := List.mem_of_getElem? hj
    cases hf : List.findIdx? (fun x => decide (x = k)) (data.map Prod.fst) with
    | none =>
      rw [List.findIdx?_eq_none_iff] at hf
      have := hf k hmem
      simp at this
    | some j' =>
      obtain ⟨h1, h2, -⟩ := List.findIdx?_eq_some_iff_getElem.1 hf
      have : (data.map Prod.fst)[j']? = some k := by rw [List.getElem?_eq_getElem h1]; simpa using h2
      have := nodup_getElem?_inj h this hj
      simp [this]

theorem mem_depsOf (h : (data.map Prod.fst).Nodup) {i j : Nat} {p : K × V} (hi : data[i]? = some p) :
    j ∈ depsOf deps data i ↔ ∃ q, data[j]? = some q ∧ q.1 ∈ deps p.2 := by
  unfold depsOf
  rw [hi]
  obtain ⟨k, v⟩ := p
  simp only [List.mem_filterMap]
  constructor
  · rintro ⟨k', h1, h2⟩
    obtain ⟨w, hw⟩ := (keys_get data h k' j).1 h2
    exact ⟨_, hw, h1⟩
  · rintro ⟨q, h1, h2⟩
    exact ⟨q.1, h2, (keys_get data h q.1 j).2 ⟨q.2, h1⟩⟩

theorem depsOf_lt (h : (data.map Prod.fst).Nodup) (i j : Nat) (hj : j ∈ depsOf deps data i) : j < data.length := by
  cases hi : data[i]? with
  | none => simp [depsOf, hi] at hj
  | some p =>
    obtain ⟨q, h1, -⟩ := (mem_depsOf deps data h hi).1 hj
    exact (List.getElem?_eq_some_iff.1 h1).1

theorem reach_iff (h : (data.map Prod.fst).Nodup) {i j : Nat} {p q : K × V} (hi : data[i]? = some p) (hj : data[j]? = some q) :
    Reach (depsOf deps data) i j ↔ DependsOn deps data p q := by
  constructor
  · intro hr
    induction hr generalizing p with
    | refl => rw [hi] at hj; cases hj; exact .refl _
    | step e _ ih =>
      obtain ⟨r, h1, h2⟩ := (mem_depsOf deps data h hi).1 e
      exact .step (List.mem_of_getElem? h1) h2 (by first | exact ih h1 | exact ih h1 hj)
  · intro hr
    induction hr generalizing i with
    | refl p =>
      have a : (data.map Prod.fst)[i]? = some p.1 := by simp [hi]
      have b : (data.map Prod.fst)[j]? = some p.1 := by simp [hj]
      rw [nodup_getElem?_inj h a b]; exact .refl _
    | step h1 h2 _ ih =>
      obtain ⟨k, hk⟩ := List.mem_iff_getElem?.1 h1
      exact .step ((mem_depsOf deps data h hi).2 ⟨_, hk, h2⟩) (ih hk hj)

/-- The outcome of the main loop on the items. -/
theorem mainLoop_items (h : (data.map Prod.fst).Nodup) :
    ∃ s, mainLoop (depsOf deps data) ((keysOf data 0 []).length + 1) (List.range (keysOf data 0 []).length) St.init = some s ∧
      (∀ x, (∃ c, s.scc x = some c) ↔ x < data.length) ∧ (∀ x c, s.scc x = some c → c < s.nextScc) ∧
      (∀ c < s.nextScc, ∃ x, s.scc x = some c) ∧
      (∀ x y c, s.scc x = some c → s.scc y = some c → Reach (depsOf deps data) x y) ∧
      (∀ x y c c', s.scc x = some c → s.scc y = some c' → Reach (depsOf deps data) x y → c' ≤ c) := by
  have hlen : (keysOf data 0 []).length = data.length := by
    rw [(keysOf_spec data 0 [] h (by simp [HMap.get])).2]; simp
  rw [hlen]
  obtain ⟨s, h1, h2, h3, h4⟩ := mainLoop_spec (depsOf deps data) data.length (fun x y hy => depsOf_lt deps data h x y hy)
    (List.range data.length) (fun i hi => List.mem_range.1 hi) St.init (init_inv _ _)
  refine ⟨s, h1, ?_, fun x c hc => (h2.scc_vis x c hc).2, h2.used, h2.same, ?_⟩
  · intro x
    constructor
    · rintro ⟨c, hc⟩; exact h2.vis_lt x (h2.scc_vis x c hc).1
    · intro hx
      have hv := h4 x (List.mem_range.2 hx)
      cases hc : s.scc x with
      | some c => exact ⟨c, rfl⟩
      | none =>
        obtain ⟨g, hg, -⟩ := h2.down x ((h2.stack_iff x).2 ⟨hv, hc⟩)
        cases hg
  · intro x y c c' hx hy hr
    obtain ⟨c2, e, hle⟩ := h2.done_reach _ _ hx hr
    rw [hy] at e; cases e; exact hle

theorem map_filter_snd {α β} (f : α → β) (p : Nat → Bool) (l : List α) (k : Nat) :
    (((l.map f).zipIdx k).filter (fun q => p q.2)).map Prod.fst = (((l.zipIdx k).filter (fun q => p q.2)).map Prod.fst).map f := by
  induction l generalizing k with
  | nil => rfl
  | cons a l ih =>
    simp only [List.map_cons, List.zipIdx_cons, List.filter_cons]
    split <;> simp [ih]

/-- Grouping commutes with mapping the values. -/
theorem groups_map {α β} (f : α → β) (scc : Nat → Option Nat) (n : Nat) (l : List α) :
    groups scc n (l.map f) = (groups scc n l).map (List.map (List.map f)) := by
  unfold groups
  rw [List.length_map]
  split
  · rw [Option.map_some, List.map_map]
    congr 1
    apply List.map_congr_left
    intro c _
    exact map_filter_snd f (fun i => scc i = some c) l 0
  · rfl

/-- Concatenating the classes of a list gives a permutation of the list. -/
theorem flatten_classes {α} (f : α → Nat) (n : Nat) (l : List α) (h : ∀ a ∈ l, f a < n) :
    ((List.range n).map fun c => l.filter (fun a => f a = c)).flatten.Perm l := by
  induction n generalizing l with
  | zero =>
    cases l with
    | nil => simp
    | cons a l => exact absurd (h a (by simp)) (Nat.not_lt_zero _)
  | succ n ih =>
    rw [List.range_succ, List.map_append, List.flatten_append]
    simp only [List.map_cons, List.map_nil, List.flatten_cons, List.flatten_nil, List.append_nil]
    have e : ((List.range n).map fun c => l.filter (fun a => f a = c)) =
        (List.range n).map fun c => (l.filter (fun a => f a < n)).filter (fun a => f a = c) := by
      apply List.map_congr_left
      intro c hc
      rw [List.filter_filter]
      apply List.filter_congr
      intro a _
      have := List.mem_range.1 hc
      by_cases hfa : f a = c <;> simp [hfa, this]
    rw [e]
    refine ((ih (l.filter fun a => f a < n) (by intro a ha; simpa using (List.mem_filter.1 ha).2)).append_right _).trans ?_
    have e2 : l.filter (fun a => f a = n) = l.filter (fun a => ! decide (f a < n)) := by
      apply List.filter_congr
      intro a ha
      have := h a ha
      by_cases hfa : f a = n
      · simp [hfa]
      · simp [hfa]; omega
    rw [e2]
    exact List.filter_append_perm _ _

end Verif.TopoSort
