import Verif.RobinHood.Refine
import Verif.Util.Lists

/-! # Properties of the mutable hash map (C34, C35) -/
namespace Verif.RobinHood
open Verif

variable {K V : Type} [DecidableEq K]

/-- Operations that do not ask for more than 2^62 slots. -/
def Op.Valid : Op K V → Prop
  | .reserve n => n ≤ 2 ^ 62
  | _ => True

theorem Spec.run_perm {a b : HMap K V} (hp : a.Perm b) (hn : a.keys.Nodup) (op : Op K V) :
    (Spec.step a op).1 = (Spec.step b op).1 ∧ (Spec.step a op).2.Perm (Spec.step b op).2 := by
  have hg := HMap.get_perm hn hp
  cases op <;> simp only [Spec.step, hg, true_and] <;> try exact hp
  · unfold HMap.insert HMap.remove; exact (hp.filter _).cons _
  · exact hp.filter _
  · exact List.Perm.refl _
  · exact ⟨by rw [hp.length_eq], hp⟩

theorem Spec.step_nodup {a : HMap K V} (hn : a.keys.Nodup) (op : Op K V) : (Spec.step a op).2.keys.Nodup := by
  cases op <;> simp only [Spec.step] <;> try exact hn
  · exact HMap.nodup_insert hn _ _
  · exact HMap.nodup_remove hn _
  · simp [HMap.keys]

theorem Spec.step_length (a : HMap K V) (op : Op K V) : (Spec.step a op).2.length ≤ a.length + 1 := by
  have hf : ∀ k, (a.remove k).length ≤ a.length := fun k => List.length_filter_le _ _
  cases op <;> simp only [Spec.step, HMap.insert, List.length_cons, List.length_nil] <;> try omega
  · have := hf ‹_›; omega
  · have := hf ‹_›; omega

/-- One operation: the table keeps representing the finite map and gives its answer. -/
theorem step_refines {hashOf : K → Nat} {m : Map K V} {a : HMap K V} (r : Rep hashOf m a) (hlen : a.length < 2 ^ 61)
    (op : Op K V) (hv : op.Valid) :
    ∃ m' a', step hashOf m op = .ok ((Spec.step a op).1, m') ∧ a'.Perm (Spec.step a op).2 ∧ Rep hashOf m' a' := by
  cases op with
  | get k => exact ⟨m, a, by simp only [step, r.get k]; rfl, List.Perm.refl _, r⟩
  | has k =>
    refine ⟨m, a, ?_, List.Perm.refl _, r⟩
    rcases r.lookup k with ⟨j, v, h1, h2, h3⟩ | ⟨h1, h2⟩
    · simp only [step, Spec.step, h1, h3]; rfl
    · simp only [step, Spec.step, h1, h2]; rfl
  | insert k v =>
    obtain ⟨m', a', h1, h2, h3⟩ := r.insert hlen k v
    exact ⟨m', a', by simp only [step, h1]; rfl, h2, h3⟩
  | remove k =>
    obtain ⟨m', h1, h2⟩ := r.remove k
    exact ⟨m', _, by simp only [step, h1]; rfl, List.Perm.refl _, h2⟩
  | clear => exact ⟨_, _, rfl, List.Perm.refl _, r.clear⟩
  | length => exact ⟨m, a, by simp only [step, Spec.step, r.len], List.Perm.refl _, r⟩
  | reserve n =>
    by_cases h0 : n = 0
    · subst h0
      refine ⟨m, a, ?_, List.Perm.refl _, r⟩
      simp only [step, reserveCapacity, nextPowerOfTwo_zero]
      show (do let m' ← (if 0 ≤ m.cap then Except.ok m else rehash m.slots m.cap 0 ⟨0, 0, fun _ => none⟩); Except.ok (Out.unit, m')) = _
      rw [if_pos (Nat.zero_le _)]; rfl
    · obtain ⟨m', a', h1, -, -, h2, h3⟩ := r.reserve (n := n) (by omega) hv
      exact ⟨m', a', by simp only [step, h1]; rfl, h2, h3⟩

theorem run_refines {hashOf : K → Nat} : ∀ (ops : List (Op K V)) (m : Map K V) (a b : HMap K V), Rep hashOf m a → a.Perm b →
    a.length + ops.length ≤ 2 ^ 61 → (∀ op ∈ ops, op.Valid) →
    ∃ m' a', run hashOf ops m = .ok ((Spec.run ops b).1, m') ∧ a'.Perm (Spec.run ops b).2 ∧ Rep hashOf m' a' := by
  intro ops
  induction ops with
  | nil => intro m a b r hp _ _; exact ⟨m, a, rfl, hp, r⟩
  | cons op ops ih =>
    intro m a b r hp hl hv
    simp only [List.length_cons] at hl
    obtain ⟨m1, a1, h1, h2, h3⟩ := step_refines r (by omega) op (hv op (by simp))
    obtain ⟨h4, h5⟩ := Spec.run_perm hp r.nodup op
    have hlen : a1.length ≤ a.length + 1 := by rw [h2.length_eq]; exact Spec.step_length a op
    obtain ⟨m2, a2, h6, h7, h8⟩ := ih m1 a1 (Spec.step b op).2 h3 (h2.trans h5) (by omega) (fun o ho => hv o (by simp [ho]))
    refine ⟨m2, a2, ?_, h7, h8⟩
    rw [run, h1]
    show (do let (os, m) ← run hashOf ops m1; Except.ok (_ :: os, m)) = _
    rw [h6, h4]; rfl

/-- C34.  A map made with any positive capacity answers every sequence of up to 2^61 operations exactly as a finite map does, whatever the
hash function: no operation loops, fails or touches memory outside the table; iterating over it afterwards gives each binding once. -/
theorem hash_map_refines (hashOf : K → Nat) {cap : Nat} (h1 : 1 ≤ cap) (h2 : cap ≤ 2 ^ 62) (ops : List (Op K V))
    (hl : ops.length ≤ 2 ^ 61) (hv : ∀ op ∈ ops, op.Valid) :
    ∃ m0 m', withCapacity cap = .ok m0 ∧ run hashOf ops m0 = .ok ((Spec.run ops []).1, m') ∧
      (elems m').Perm (Spec.run ops []).2 ∧ m'.len = (Spec.run ops []).2.length := by
  obtain ⟨k, hk, hk1, -, -⟩ := nextPowerOfTwo_spec h1 h2
  obtain ⟨m', a', h3, h4, h5⟩ := run_refines (hashOf := hashOf) ops ⟨0, 2 ^ k, fun _ => none⟩ [] [] (Rep.fresh ⟨k, hk1, rfl⟩)
    (List.Perm.refl _) (by simpa using hl) hv
  exact ⟨_, m', by simp only [withCapacity, hk]; rfl, h3, h5.elems.trans h4, by rw [h5.len, h4.length_eq]⟩

theorem Spec.run_nodup : ∀ (ops : List (Op K V)) (a : HMap K V), a.keys.Nodup → (Spec.run ops a).2.keys.Nodup
  | [], _, h => h
  | op :: ops, _, h => Spec.run_nodup ops _ (Spec.step_nodup h op)

/-- Iteration order is the only thing two histories with the same bindings can differ in: `Eq` on maps is equality of finite maps. -/
theorem eqMaps_iff [DecidableEq V] {hashOf : K → Nat} {m n : Map K V} {a b : HMap K V} (r : Rep hashOf m a) (s : Rep hashOf n b) :
    ∃ t, eqMaps hashOf m n = .ok t ∧ (t = true ↔ Spec.Same a b) := by
  have hloop : ∀ l : List (K × V), ∃ t, eqLoop hashOf n l = .ok t ∧ (t = true ↔ ∀ e ∈ l, b.get e.1 = some e.2) := by
    intro l
    induction l with
    | nil => exact ⟨true, rfl, by simp⟩
    | cons e l ih =>
      obtain ⟨k, v⟩ := e
      obtain ⟨t, h1, h2⟩ := ih
      rw [eqLoop, s.get k]
      show ∃ t, (if some v ≠ b.get k then Except.ok false else eqLoop hashOf n l) = _ ∧ _
      by_cases he : some v = b.get k
      · rw [if_neg (by simp [he])]
        exact ⟨t, h1, by simp [h2, ← he]⟩
      · rw [if_pos he]
        exact ⟨false, rfl, by simp [Ne.symm he]⟩
  unfold eqMaps
  by_cases hl : m.len = n.len
  · rw [if_neg (by simp [hl])]
    obtain ⟨t, h1, h2⟩ := hloop (elems m)
    refine ⟨t, h1, h2.trans ⟨fun h => ?_, fun h e he => ?_⟩⟩
    · have hsub : ∀ e ∈ a, b.get e.1 = some e.2 := fun e he => h e (r.elems.mem_iff.2 he)
      have hkeys : ∀ k, k ∈ b.keys → k ∈ a.keys := by
        have hinc : a.keys ⊆ b.keys := by
          intro k hk
          obtain ⟨e, he, rfl⟩ := List.mem_map.1 hk
          rw [HMap.mem_keys_iff, hsub e he]; rfl
        have hlen : b.keys.length ≤ a.keys.length := by
          have := r.len; have := s.len
          simp only [HMap.keys, List.length_map]; omega
        intro k hk
        apply Classical.byContradiction
        intro hka
        have := nodup_length_le (List.nodup_cons.2 ⟨hka, r.nodup⟩) (u := b.keys) (by
          intro x hx
          rcases List.mem_cons.1 hx with rfl | hx
          · exact hk
          · exact hinc hx)
        simp only [List.length_cons] at this
        omega
      intro k
      cases hg : a.get k with
      | some v => exact (hsub (k, v) (HMap.get_some_mem hg)).symm
      | none =>
        cases hb : b.get k with
        | none => rfl
        | some w =>
          have := hkeys k (by rw [HMap.mem_keys_iff, hb]; rfl)
          rw [HMap.mem_keys_iff, hg] at this; cases this
    · obtain ⟨k, v⟩ := e
      rw [← h k]
      exact HMap.mem_get r.nodup (r.elems.mem_iff.1 he)
  · rw [if_pos hl]
    refine ⟨false, rfl, ⟨fun h => by simp at h, fun h => ?_⟩⟩
    exfalso
    have key : ∀ {a b : HMap K V}, a.keys.Nodup → Spec.Same a b → a.length ≤ b.length := by
      intro a b hn h
      have hinc : a.keys ⊆ b.keys := by
        intro k hk
        rw [HMap.mem_keys_iff] at hk ⊢
        rw [← h k]; exact hk
      have := nodup_length_le hn hinc
      simpa [HMap.keys] using this
    have h1 := key r.nodup h
    have h2 := key s.nodup fun k => (h k).symm
    have := r.len; have := s.len
    omega

/-- Every hash stored in a table has the existing flag, and the 0 stored in empty slots has not: the flag tells slots apart. -/
theorem stored_flagged {hashOf : K → Nat} {m : Map K V} {a : HMap K V} (r : Rep hashOf m a) {i : Nat} (hi : i < m.cap) {e}
    (he : m.slots i = some e) : existsFlag e.1 = true ∧ existsFlag 0 = false := by
  obtain ⟨k, v, -, rfl⟩ := r.mem.1 (mem_contents.2 ⟨i, hi, he⟩)
  refine ⟨?_, by decide⟩
  unfold existsFlag putExistingFlag
  simp only [ne_eq, decide_eq_true_eq]
  intro h
  have h2 : ((hashOf k ||| 2 ^ 63) &&& 2 ^ 63).testBit 63 = false := by rw [h]; simp
  rw [Nat.testBit_and, Nat.testBit_or, Nat.testBit_two_pow_self] at h2
  simp at h2

/-- The flag does not change where a key goes. -/
theorem flag_ideal {cap : Nat} (hc : Pow cap) (h : Nat) : idealIndex (putExistingFlag h) cap = idealIndex h cap := by
  obtain ⟨k, hk, rfl⟩ := hc
  rw [idealIndex_pow _ k hk, idealIndex_pow _ k hk, ← Nat.and_two_pow_sub_one_eq_mod, ← Nat.and_two_pow_sub_one_eq_mod]
  unfold putExistingFlag
  apply Nat.eq_of_testBit_eq
  intro i
  rw [Nat.testBit_and, Nat.testBit_and, Nat.testBit_or, Nat.testBit_two_pow_sub_one]
  by_cases hi : i < k
  · rw [Nat.testBit_two_pow_of_ne (by omega)]; simp
  · simp [hi]

/-! ### Capacity -/

omit [DecidableEq K] in
/-- A map made with any capacity from 1 to 2^62 has the least power of two slots that is at least the capacity asked for. -/
theorem with_capacity_spec {n : Nat} (h1 : 1 ≤ n) (h2 : n ≤ 2 ^ 62) :
    ∃ (m : Map K V) (k : Nat), withCapacity n = .ok m ∧ m.cap = 2 ^ k ∧ n ≤ m.cap ∧ m.cap < 2 * n ∧ m.len = 0 ∧
      ∀ i, m.slots i = none := by
  obtain ⟨k, hk, -, h3, h4⟩ := nextPowerOfTwo_spec h1 h2
  exact ⟨⟨0, 2 ^ k, fun _ => none⟩, k, by simp only [withCapacity, hk]; rfl, rfl, h3, h4, rfl, fun _ => rfl⟩

omit [DecidableEq K] in
/-- Larger capacities are refused. -/
theorem with_capacity_large {n : Nat} (h : 2 ^ 62 < n) : (withCapacity n : Except Err (Map K V)) = .error .assertion := by
  simp only [withCapacity, nextPowerOfTwo_large h]; rfl

/-- C35 fails for capacity 0: the table has no slots, and looking up any key reads outside it. -/
theorem with_capacity_zero (hashOf : K → Nat) (k : K) :
    ∃ m : Map K V, withCapacity 0 = .ok m ∧ m.cap = 0 ∧ get hashOf k m = .error .outOfBounds ∧
      remove hashOf k m = .error .outOfBounds :=
  ⟨⟨0, 0, fun _ => none⟩, rfl, rfl, rfl, rfl⟩

/-- Insertion into a map of capacity 0 makes a proper table. -/
theorem with_capacity_zero_insert (hashOf : K → Nat) (k : K) (v : V) :
    ∃ m' a', insert hashOf k v (⟨0, 0, fun _ => none⟩ : Map K V) = .ok (none, m') ∧ a' = [(k, v)] ∧ Rep hashOf m' a' := by
  have hc : Pow 16 := ⟨4, by omega, rfl⟩
  obtain ⟨m', h1, h2, h3⟩ := (Rep.fresh (K := K) (V := V) (hashOf := hashOf) hc).insertHashed (k := k) (v := v) (by simp)
  refine ⟨m', _, ?_, rfl, h3⟩
  have hn : nextPowerOfTwo (appropriateMinimalCapacity 1) = .ok 16 := rfl
  simp only [insert, reserveCapacity, show (0 + 1) % 2 ^ 64 = 1 from rfl, hn]
  exact h1

/-- The table asked for by an insertion leaves a slot free after it, however many entries there are (up to 2^61). -/
theorem insert_capacity {len : Nat} (h : len < 2 ^ 61) :
    ∃ k, nextPowerOfTwo (appropriateMinimalCapacity (len + 1)) = .ok (2 ^ k) ∧ len + 1 < 2 ^ k := by
  obtain ⟨h1, h2⟩ := amc_spec (n := len + 1) (by omega) (by omega)
  obtain ⟨k, hk, -, h3, -⟩ := nextPowerOfTwo_spec (by omega) h2
  exact ⟨k, hk, by omega⟩

/-- Slots in use. -/
def used (m : Map K V) : Nat := ((List.range m.cap).filter fun i => (m.slots i).isSome).length

/-- C35 for positive capacities.  The table of a map made with capacity 1 ≤ n ≤ 2^62 has the least sufficient power of two slots, and
after any operations it still has a power of two slots, at least as many as the entries and one free. -/
theorem capacity_sufficient_partial (hashOf : K → Nat) {n : Nat} (h1 : 1 ≤ n) (h2 : n ≤ 2 ^ 62) (ops : List (Op K V))
    (hl : ops.length ≤ 2 ^ 61) (hv : ∀ op ∈ ops, op.Valid) :
    ∃ m0 m' outs, withCapacity n = .ok m0 ∧ n ≤ m0.cap ∧ m0.cap < 2 * n ∧ run hashOf ops m0 = .ok (outs, m') ∧
      (∃ k, m'.cap = 2 ^ k) ∧ used m' = m'.len ∧ m'.len < m'.cap ∧ ∃ i, i < m'.cap ∧ m'.slots i = none := by
  obtain ⟨k, hk, hk1, h3, h4⟩ := nextPowerOfTwo_spec h1 h2
  obtain ⟨m', a', h5, h6, h7⟩ := run_refines (hashOf := hashOf) ops ⟨0, 2 ^ k, fun _ => none⟩ [] [] (Rep.fresh ⟨k, hk1, rfl⟩)
    (List.Perm.refl _) (by simpa using hl) hv
  refine ⟨_, m', _, by simp only [withCapacity, hk]; rfl, h3, h4, h5, ?_, ?_, by rw [h7.len]; exact h7.room, h7.empty⟩
  · obtain ⟨k', -, e⟩ := h7.pow; exact ⟨k', e⟩
  · have hlen : ∀ l : List Nat, (l.filter fun i => (m'.slots i).isSome).length = (l.filterMap m'.slots).length := by
      intro l
      induction l with
      | nil => rfl
      | cons x l ih =>
        rw [List.filter_cons, List.filterMap_cons]
        cases hx : m'.slots x <;> simp [ih]
    unfold used
    rw [hlen, h7.len]
    have := h7.perm.length_eq
    rwa [List.length_map] at this

/-! ### The hypotheses can be met -/

/-- All keys collide: 40 keys, removals that shift across the end of the table, and a growth. -/
def collide : List (Op Nat Nat) :=
  (List.range 40).map (fun i => .insert i (i + 100)) ++ [.remove 3, .remove 0, .insert 7 1, .get 7, .get 3, .length, .has 39, .reserve 200, .get 39]

example : ∀ op ∈ collide, op.Valid := by
  intro op hop
  simp only [collide, List.mem_append, List.mem_map, List.mem_cons, List.not_mem_nil, or_false] at hop
  rcases hop with ⟨i, -, rfl⟩ | rfl | rfl | rfl | rfl | rfl | rfl | rfl | rfl | rfl <;> simp [Op.Valid]

/-- The model runs: all hashes are 14, in a table of 16 slots the entries wrap around. -/
example : (do let m ← withCapacity 16; let (o, m) ← run (fun _ => 14) [.insert 1 10, .insert 2 20, .insert 3 30, .remove 1, .get 3, .get 1, .insert 2 21, .length] m
              .ok (o, elems m) : Except Err (List (Out Nat) × List (Nat × Nat))) =
    .ok ([.value none, .value none, .value none, .value (some 10), .value (some 30), .value none, .value (some 20), .nat 2], [(2, 21), (3, 30)]) := by
  rfl

/-- Robin Hood stealing: key 4 (ideal 1, far from home) displaces key 2 (ideal 2). -/
example : (do let m ← withCapacity 16; let (_, m) ← run (fun k => k % 3) [.insert 1 0, .insert 2 0, .insert 4 0] m
              .ok (elems m) : Except Err (List (Nat × Nat))) = .ok [(1, 0), (4, 0), (2, 0)] := by rfl

example : ∃ m : Map Nat Nat, withCapacity 5 = .ok m ∧ m.cap = 8 := ⟨_, rfl, rfl⟩
example : Rep (fun k : Nat => k) (⟨0, 8, fun _ => none⟩ : Map Nat Nat) [] := Rep.fresh ⟨3, by omega, rfl⟩

end Verif.RobinHood
