import Verif.Hamt.Remove

/-! # Iteration -/
namespace Verif.Hamt
open scoped List

variable {K V : Type} {eq : K → K → Bool}

/-- A node with the entries at each index. -/
def NodeAt (eq : K → K → Bool) (n : Nat) (t : Tree K V) (f : Nat → List (Entry K V)) : Prop :=
  ∃ emap cmap elems children, t = .node emap cmap elems children ∧ Fits emap elems ∧ Fits cmap children ∧
    ∀ i < 32, Slot eq n (Rep eq n) (look emap elems i) (look cmap children i) (f i)

theorem rep_nodeAt {n} {t : Tree K V} {es} (h : Rep eq (n + 1) t es) : ∃ f, NodeAt eq n t f ∧ es = flat f := by
  cases t with
  | collision => exact absurd h id
  | node emap cmap elems children =>
    obtain ⟨he, hc, f, hs, rfl⟩ := h
    exact ⟨f, ⟨_, _, _, _, rfl, he, hc, hs⟩, rfl⟩

/-- What is at an index of a node: a child, or elements. -/
inductive At (eq : K → K → Bool) (n : Nat) (t : Tree K V) (i : Nat) (es : List (Entry K V)) : Prop
  | elems : (∃ c, search (bitOf i) t = some c ∧ ∀ t', c ≠ some (.child t')) → (∀ j : BitVec 64, j.toNat ≤ es.length →
      current t (BitVec.ofNat 32 i) j = some (es[j.toNat]?.map Prod.snd)) → es.length ≤ 2 ^ 32 → At eq n t i es
  | child (t') : search (bitOf i) t = some (some (.child t')) → current t (BitVec.ofNat 32 i) 0#64 = some none → Rep eq n t' es → At eq n t i es

/-- The element found. -/
def foundElem : Option (Found K V) → Option (K × V)
  | some (.elem (_, k, v)) => some (k, v)
  | _ => none

theorem current_zero {t : Tree K V} {i : Nat} (hi : i < 32) {c} (h : search (bitOf i) t = some c) :
    current t (BitVec.ofNat 32 i) 0#64 = some (foundElem c) := by
  have : (BitVec.ofNat 32 i).toNat = i := by rw [BitVec.toNat_ofNat]; omega
  rw [current, this, if_neg (by omega), if_pos rfl, h]
  cases c with
  | none => rfl
  | some c => cases c <;> rfl

theorem NodeAt.at {n} {t : Tree K V} {f} (h : NodeAt eq n t f) {i : Nat} (hi : i < 32) : At eq n t i (f i) := by
  obtain ⟨emap, cmap, elems, children, rfl, he, hc, hs⟩ := h
  have hsi := hs i hi
  have hii : (BitVec.ofNat 32 i).toNat = i := by rw [BitVec.toNat_ofNat]; omega
  generalize f i = x at hsi ⊢
  generalize hoe : look emap elems i = oe at hsi
  generalize hoc : look cmap children i = oc at hsi
  cases hsi with
  | empty =>
    have := search_none hi he hc hoe hoc
    refine .elems ⟨_, this, by simp⟩ ?_ (by simp)
    intro j hj
    have : j = 0#64 := BitVec.eq_of_toNat_eq (by simpa using hj)
    subst this
    rw [current_zero hi ‹_›]; rfl
  | child t' _ hr _ =>
    have := search_child hi he hoe hoc
    exact .child t' this (by rw [current_zero hi this]; rfl) hr
  | group eh ek ev ces hb hl hp =>
    have hse := search_elem (cmap := cmap) (children := children) hi hoe
    refine .elems ⟨_, hse, by simp⟩ ?_ (by simp [group]; omega)
    intro j hj
    by_cases h0 : j = 0#64
    · subst h0
      rw [current_zero hi hse]; rfl
    · have hj0 : j.toNat ≠ 0 := fun hc => h0 (BitVec.eq_of_toNat_eq hc)
      have hj1 : (j - 1#64).toNat = j.toNat - 1 := by
        rw [BitVec.toNat_sub]; simp; omega
      rw [current, hii, if_neg (by omega), if_neg h0, collisionElems_eq hi hc hl hoc]
      obtain ⟨m, hm⟩ : ∃ m, j.toNat = m + 1 := ⟨j.toNat - 1, by omega⟩
      simp only [Option.bind_eq_bind, Option.bind_some, hj1, hm, Nat.add_sub_cancel, group, List.getElem?_cons_succ, List.getElem?_map,
        Option.map_map]
      cases ces with
      | nil => rfl
      | cons c cs =>
        simp only [collElems, Option.pure_def]
        congr 1
        cases (c :: cs)[m]? <;> rfl

/-- The elements from an index on. -/
def tailFrom (f : Nat → List (Entry K V)) (i : Nat) : List (K × V) := ((List.range 32).drop i).flatMap (fun i => (f i).map Prod.snd)

theorem tailFrom_flat (f : Nat → List (Entry K V)) : tailFrom f 0 = (flat f).map Prod.snd := by
  rw [tailFrom, flat, List.drop_zero, List.map_flatMap]
  refine flatMap_congr' fun i _ => ?_
  rw [List.map_map]; rfl

theorem tailFrom_step (f : Nat → List (Entry K V)) {i : Nat} (hi : i < 32) : tailFrom f i = (f i).map Prod.snd ++ tailFrom f (i + 1) := by
  rw [tailFrom, List.drop_eq_getElem_cons (by simpa using hi), List.flatMap_cons, List.getElem_range]; rfl

theorem tailFrom_end (f : Nat → List (Entry K V)) : tailFrom f 32 = [] := by
  rw [tailFrom, List.drop_of_length_le (by simp)]; rfl

/-- A bound of the steps to go through a tree. -/
def cost : Nat → Nat
  | 0 => 0
  | n + 1 => 32 * (1 + cost n)

/-- A position in a node, the elements from it on, and a bound of the steps to go through them. -/
inductive Frame (eq : K → K → Bool) : Tree K V × BitVec 32 × BitVec 64 → List (K × V) → Nat → Prop
  | elems (n t f) (i : Nat) (j : BitVec 64) : n < 13 → NodeAt eq n t f → i < 32 → (∀ j : BitVec 64, j.toNat ≤ (f i).length →
      current t (BitVec.ofNat 32 i) j = some ((f i)[j.toNat]?.map Prod.snd)) → (f i).length ≤ 2 ^ 32 → j.toNat ≤ (f i).length →
      Frame eq (t, BitVec.ofNat 32 i, j) (((f i).map Prod.snd).drop j.toNat ++ tailFrom f (i + 1)) (1 + (31 - i) * (1 + cost n))
  | child (n t f) (i : Nat) : n < 13 → NodeAt eq n t f → i < 32 → current t (BitVec.ofNat 32 i) 0#64 = some none →
      Frame eq (t, BitVec.ofNat 32 i, 0#64) (tailFrom f (i + 1)) (1 + (31 - i) * (1 + cost n))

inductive Stack (eq : K → K → Bool) : Cursor K V → List (K × V) → Nat → Prop
  | nil : Stack eq [] [] 0
  | cons (fr s p q c d) : Frame eq fr p c → Stack eq s q d → Stack eq (fr :: s) (p ++ q) (c + d)

theorem descend_elems {n} (hn : n < 13) {t : Tree K V} {f} (h : NodeAt eq n t f) {i : Nat} (hi : i < 32) {fuel} (hf : n < fuel) {s q d}
    (hs : Stack eq s q d) (h1 : ∃ c, search (bitOf i) t = some c ∧ ∀ t', c ≠ some (.child t')) (h2 : ∀ j : BitVec 64, j.toNat ≤ (f i).length →
      current t (BitVec.ofNat 32 i) j = some ((f i)[j.toNat]?.map Prod.snd)) (h3 : (f i).length ≤ 2 ^ 32) :
    ∃ s' d', descend fuel t (BitVec.ofNat 32 i) ((t, BitVec.ofNat 32 i, 0#64) :: s) = some s' ∧ Stack eq s' (tailFrom f i ++ q) d' ∧
      d' ≤ d + (32 - i) * (1 + cost n) := by
  have hii : (BitVec.ofNat 32 i).toNat = i := by rw [BitVec.toNat_ofNat]; omega
  obtain ⟨m, rfl⟩ : ∃ m, fuel = m + 1 := ⟨fuel - 1, by omega⟩
  obtain ⟨c, hc, hn'⟩ := h1
  have hfr := Frame.elems n t f i 0#64 hn h hi h2 h3 (by simp)
  refine ⟨(t, BitVec.ofNat 32 i, 0#64) :: s, 1 + (31 - i) * (1 + cost n) + d, ?_, .cons _ _ _ _ _ _ ?_ hs, ?_⟩
  · rw [descend, hii, if_neg (by omega), hc]
    match c, hn' with
    | none, _ => rfl
    | some (.elem e), _ => rfl
    | some (.child t'), hn' => exact absurd rfl (hn' t')
  · rw [tailFrom_step f hi]; exact hfr
  · have : 32 - i = 31 - i + 1 := by omega
    rw [this, Nat.succ_mul]; omega

theorem descend_spec {n} (hn : n < 13) {t : Tree K V} {f} (h : NodeAt eq n t f) {i : Nat} (hi : i < 32) {fuel} (hf : n < fuel) {s q d}
    (hs : Stack eq s q d) :
    ∃ s' d', descend fuel t (BitVec.ofNat 32 i) ((t, BitVec.ofNat 32 i, 0#64) :: s) = some s' ∧ Stack eq s' (tailFrom f i ++ q) d' ∧
      d' ≤ d + (32 - i) * (1 + cost n) := by
  induction n generalizing t f i fuel s q d with
  | zero =>
    have hf0 := h.at hi
    generalize hx : f i = x at hf0
    cases hf0 with
    | child t' _ _ hr => exact absurd hr id
    | elems h1 h2 h3 =>
      subst hx
      exact descend_elems hn h hi hf hs h1 h2 h3
  | succ n ih =>
    have hf0 := h.at hi
    generalize hx : f i = x at hf0
    cases hf0 with
    | child t' h1 h2 hr =>
      have hii : (BitVec.ofNat 32 i).toNat = i := by rw [BitVec.toNat_ofNat]; omega
      obtain ⟨m, rfl⟩ : ∃ m, fuel = m + 1 := ⟨fuel - 1, by omega⟩
      obtain ⟨f', hn', rfl⟩ := rep_nodeAt hr
      have hfr := Frame.child (n + 1) t f i hn h hi h2
      obtain ⟨s', d', g1, g2, g3⟩ := ih (by omega) hn' (i := 0) (by omega) (fuel := m) (by omega) (.cons _ _ _ _ _ _ hfr hs)
      refine ⟨s', d', ?_, ?_, ?_⟩
      · rw [descend, hii, if_neg (by omega), h1]
        exact g1
      · rw [tailFrom_step f hi, hx, ← tailFrom_flat, List.append_assoc]; exact g2
      · simp only [Nat.sub_zero] at g3
        have : 32 - i = 31 - i + 1 := by omega
        rw [this, Nat.succ_mul]
        simp only [cost] at g3 ⊢; omega
    | elems h1 h2 h3 =>
      subst hx
      exact descend_elems hn h hi hf hs h1 h2 h3

theorem push_spec {n} (hn : n < 13) {t : Tree K V} {f} (h : NodeAt eq n t f) {i : Nat} (hi : i ≤ 32) {s q d} (hs : Stack eq s q d) :
    ∃ s' d', push t (BitVec.ofNat 32 i) s = some s' ∧ Stack eq s' (tailFrom f i ++ q) d' ∧ d' ≤ d + (32 - i) * (1 + cost n) := by
  have hii : (BitVec.ofNat 32 i).toNat = i := by rw [BitVec.toNat_ofNat]; omega
  rw [push, hii]
  by_cases h32 : 32 ≤ i
  · have : i = 32 := by omega
    subst this
    rw [if_pos h32, tailFrom_end]
    exact ⟨s, d, rfl, hs, by omega⟩
  · rw [if_neg h32]
    obtain ⟨s', d', h1, h2, h3⟩ := descend_spec hn h (i := i) (by omega) (fuel := levels) hn hs
    exact ⟨s', d', h1, h2, h3⟩

/-- What a step of the iteration gives. -/
def NextOk (eq : K → K → Bool) (fuel : Nat) (s : Cursor K V) (d : Nat) : List (K × V) → Prop
  | [] => next fuel s = some (none, [])
  | e :: p => ∃ s' d', next fuel s = some (some e, s') ∧ Stack eq s' p d' ∧ d' ≤ d

theorem next_spec {s : Cursor K V} {p d} (hs : Stack eq s p d) {fuel} (hf : d < fuel) : NextOk eq fuel s d p := by
  induction fuel generalizing s p d with
  | zero => omega
  | succ fuel ih =>
    cases hs with
    | nil => rfl
    | cons fr s p q c d hfr hs =>
      -- the element is over: on with the next index
      have step : ∀ {n t f} {i : Nat} {j : BitVec 64}, n < 13 → NodeAt eq n t f → i < 32 → current t (BitVec.ofNat 32 i) j = some none →
          fr = (t, BitVec.ofNat 32 i, j) → p = tailFrom f (i + 1) → c = 1 + (31 - i) * (1 + cost n) →
          NextOk eq (fuel + 1) (fr :: s) (c + d) (p ++ q) := by
        intro n t f i j hn hnode hi hcur hfr' hp hc
        subst hfr' hp hc
        obtain ⟨s', d', h1, h2, h3⟩ := push_spec hn hnode (i := i + 1) (by omega) hs
        have hd : d' < fuel := by
          have : 32 - (i + 1) = 31 - i := by omega
          rw [this] at h3; omega
        have hadd : BitVec.ofNat 32 i + 1#32 = BitVec.ofNat 32 (i + 1) := by
          rw [BitVec.ofNat_add]
        have hnext : next (fuel + 1) ((t, BitVec.ofNat 32 i, j) :: s) = next fuel s' := by
          rw [next, hcur]
          simp only [Option.bind_eq_bind, Option.bind_some]
          rw [hadd, h1]; rfl
        have := ih h2 hd
        revert this
        generalize tailFrom f (i + 1) ++ q = r
        intro this
        cases r with
        | nil => exact hnext.trans this
        | cons e r =>
          obtain ⟨s'', d'', g1, g2, g3⟩ := this
          refine ⟨s'', d'', hnext.trans g1, g2, ?_⟩
          have : 32 - (i + 1) = 31 - i := by omega
          rw [this] at h3; omega
      cases hfr with
      | child n t f i hn hnode hi hcur => exact step hn hnode hi hcur rfl rfl rfl
      | elems n t f i j hn hnode hi hcur hlen hj =>
        by_cases hend : j.toNat = (f i).length
        · have hc := hcur j hj
          rw [List.getElem?_eq_none (by omega)] at hc
          refine step hn hnode hi hc rfl ?_ rfl
          rw [List.drop_of_length_le (by simp; omega)]; rfl
        · have hlt : j.toNat < (f i).length := by omega
          have hc := hcur j hj
          rw [List.getElem?_eq_getElem hlt] at hc
          rw [List.drop_eq_getElem_cons (by simpa using hlt), List.cons_append, List.cons_append]
          have hj1 : (j + 1#64).toNat = j.toNat + 1 := by
            rw [BitVec.toNat_add]; simp; omega
          have hfr := Frame.elems n t f i (j + 1#64) hn hnode hi hcur hlen (by omega)
          rw [hj1] at hfr
          refine ⟨_, _, ?_, .cons _ _ _ _ _ _ hfr hs, Nat.le_refl _⟩
          rw [next, hc]
          simp

theorem drain_spec {s : Cursor K V} {p d} (hs : Stack eq s p d) {steps fuel} (hd : d < steps) (hf : p.length < fuel) :
    drain steps fuel s = some p := by
  induction p generalizing s d fuel with
  | nil =>
    obtain ⟨m, rfl⟩ : ∃ m, fuel = m + 1 := ⟨fuel - 1, by simp at hf; omega⟩
    have : next steps s = some (none, []) := next_spec hs hd
    rw [drain, this]; rfl
  | cons e p ih =>
    obtain ⟨m, rfl⟩ : ∃ m, fuel = m + 1 := ⟨fuel - 1, by simp at hf; omega⟩
    obtain ⟨s', d', h1, h2, h3⟩ := next_spec hs hd
    rw [drain, h1]
    simp only [Option.bind_eq_bind, Option.bind_some]
    rw [ih h2 (by omega) (by simp at hf; omega)]; rfl

/-- Iteration gives the entries of the tree in order, each once. -/
theorem elems_spec {m : HashMap K V} {es} (hr : Rep eq 13 m.tree es) {steps fuel} (hd : 32 * (1 + cost 12) < steps) (hf : es.length < fuel) :
    m.elems steps fuel = some (es.map Prod.snd) := by
  obtain ⟨f, hn, rfl⟩ := rep_nodeAt hr
  obtain ⟨s', d', h1, h2, h3⟩ := push_spec (n := 12) (by omega) hn (i := 0) (by omega) .nil
  rw [HashMap.elems, Cursor.new]
  have h0 : (0#32 : BitVec 32) = BitVec.ofNat 32 0 := rfl
  rw [h0, h1]
  simp only [Option.bind_eq_bind, Option.bind_some]
  rw [List.append_nil, tailFrom_flat] at h2
  exact drain_spec h2 (by omega) (by simpa using hf)

end Verif.Hamt
