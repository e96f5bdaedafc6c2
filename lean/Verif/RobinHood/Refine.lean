import Verif.RobinHood.Remove
import Verif.RobinHood.Spec

/-! # A hash table represents a finite map -/
namespace Verif.RobinHood
open Verif

variable {K V : Type} [DecidableEq K] (hashOf : K → Nat)

def tag (e : K × V) : Nat × K × V := (putExistingFlag (hashOf e.1), e.1, e.2)

/-- The table `m` represents the finite map `a`. -/
structure Rep (m : Map K V) (a : HMap K V) : Prop where
  pow : Pow m.cap
  rh : RH m.cap m.slots
  perm : (contents m.cap m.slots).Perm (a.map (tag hashOf))
  nodup : a.keys.Nodup
  len : m.len = a.length
  room : a.length < m.cap

variable {hashOf}

namespace Rep
variable {m : Map K V} {a : HMap K V}

omit [DecidableEq K] in
theorem uniq_of_perm {cap : Nat} {T : Slots K V} (hp : (contents cap T).Perm (a.map (tag hashOf))) (hn : a.keys.Nodup) :
    Uniq cap T := by
  have h := hp.map (fun e => e.2.1)
  rw [List.map_map] at h
  have : ((fun e : Nat × K × V => e.2.1) ∘ tag hashOf) = Prod.fst := rfl
  rw [this] at h
  exact h.nodup_iff.2 hn

omit [DecidableEq K] in
theorem uniq (r : Rep hashOf m a) : Uniq m.cap m.slots := uniq_of_perm r.perm r.nodup

omit [DecidableEq K] in
theorem mem (r : Rep hashOf m a) {e} : e ∈ contents m.cap m.slots ↔ ∃ k v, (k, v) ∈ a ∧ e = (putExistingFlag (hashOf k), k, v) := by
  rw [r.perm.mem_iff, List.mem_map]
  constructor
  · rintro ⟨⟨k, v⟩, h, rfl⟩; exact ⟨k, v, h, rfl⟩
  · rintro ⟨k, v, h, rfl⟩; exact ⟨(k, v), h, rfl⟩

omit [DecidableEq K] in
theorem hash (r : Rep hashOf m a) (k : K) :
    ∀ i e, i < m.cap → m.slots i = some e → e.2.1 = k → e.1 = putExistingFlag (hashOf k) := by
  intro i e hi he hk
  obtain ⟨k', v, -, rfl⟩ := r.mem.1 (mem_contents.2 ⟨i, hi, he⟩)
  simp only at hk; rw [hk]

omit [DecidableEq K] in
theorem empty (r : Rep hashOf m a) : ∃ i, i < m.cap ∧ m.slots i = none := by
  apply exists_empty
  rw [r.perm.length_eq, List.length_map]; exact r.room

theorem get_of_mem (r : Rep hashOf m a) {h k v} (hm : (h, k, v) ∈ contents m.cap m.slots) : a.get k = some v := by
  obtain ⟨k', v', h1, h2⟩ := r.mem.1 hm
  cases h2
  exact HMap.mem_get r.nodup h1

theorem get_of_absent (r : Rep hashOf m a) {k} (ha : ∀ e, e ∈ contents m.cap m.slots → e.2.1 ≠ k) : a.get k = none := by
  cases h : a.get k with
  | none => rfl
  | some v => exact (ha _ (r.mem.2 ⟨k, v, HMap.get_some_mem h, rfl⟩) rfl).elim

end Rep

theorem remove_eq_self {a : HMap K V} {k : K} (h : a.get k = none) : a.remove k = a := by
  have hk : k ∉ a.keys := by rw [HMap.mem_keys_iff, h]; simp
  unfold HMap.remove
  rw [List.filter_eq_self]
  intro e he
  simp only [ne_eq, decide_eq_true_eq]
  rintro rfl
  exact hk (List.mem_map_of_mem (f := Prod.fst) he)

theorem perm_remove {a : HMap K V} (hn : a.keys.Nodup) {k : K} {w : V} (h : a.get k = some w) : a.Perm ((k, w) :: a.remove k) := by
  induction a with
  | nil => simp [HMap.get] at h
  | cons e a ih =>
    obtain ⟨k', v'⟩ := e
    simp only [HMap.keys, List.map_cons, List.nodup_cons] at hn
    by_cases hk : k' = k
    · subst hk
      simp only [HMap.get, if_true] at h
      injection h with h
      subst h
      have : HMap.remove ((k', v') :: a) k' = HMap.remove a k' := by simp [HMap.remove]
      rw [this, remove_eq_self]
      cases hg : HMap.get a k' with
      | none => rfl
      | some v => exact (hn.1 (List.mem_map_of_mem (f := Prod.fst) (HMap.get_some_mem hg))).elim
    · simp only [HMap.get, if_neg hk] at h
      have : HMap.remove ((k', v') :: a) k = (k', v') :: HMap.remove a k := by simp [HMap.remove, hk]
      rw [this]
      exact ((ih hn.2 h).cons _).trans (List.Perm.swap _ _ _)

theorem Rep.lookup {m : Map K V} {a : HMap K V} (r : Rep hashOf m a) (k : K) :
    (∃ j v, RobinHood.lookup (putExistingFlag (hashOf k)) k m = .ok (some j) ∧ m.slots j = some (putExistingFlag (hashOf k), k, v) ∧
      a.get k = some v) ∨ (RobinHood.lookup (putExistingFlag (hashOf k)) k m = .ok none ∧ a.get k = none) := by
  rcases lookup_spec r.pow r.rh r.uniq r.empty _ k (r.hash k) with ⟨j, v, h1, h2, h3⟩ | ⟨h1, h2⟩
  · exact .inl ⟨j, v, h3, h2, r.get_of_mem (mem_contents.2 ⟨j, h1, h2⟩)⟩
  · refine .inr ⟨h2, r.get_of_absent fun e he => ?_⟩
    obtain ⟨i, h3, h4⟩ := mem_contents.1 he
    exact h1 i e h3 h4

theorem Rep.get {m : Map K V} {a : HMap K V} (r : Rep hashOf m a) (k : K) : RobinHood.get hashOf k m = .ok (a.get k) := by
  unfold RobinHood.get
  rcases r.lookup k with ⟨j, v, h1, h2, h3⟩ | ⟨h1, h2⟩
  · rw [h1, h3]; show Except.ok ((m.slots j).map fun e => e.2.2) = _; rw [h2]; rfl
  · rw [h1, h2]; rfl

/-- Inserting into a table with room for one more. -/
theorem Rep.insertHashed {m : Map K V} {a : HMap K V} (r : Rep hashOf m a) (hroom : a.length + 1 < m.cap) (k : K) (v : V) :
    ∃ m', RobinHood.insertHashed (putExistingFlag (hashOf k)) k v m = .ok (a.get k, m') ∧ m'.cap = m.cap ∧
      Rep hashOf m' (a.insert k v) := by
  rcases insertHashed_spec r.pow r.rh r.uniq r.empty _ k v (r.hash k) with ⟨w, T', h1, h2, h3, h4⟩ | ⟨ha, T', h1, h2, h3⟩
  · have hg := r.get_of_mem h3
    have hp := perm_remove r.nodup hg
    refine ⟨⟨m.len, m.cap, T'⟩, by rw [hg]; exact h1, rfl, r.pow, h2, ?_, HMap.nodup_insert r.nodup k v, ?_, ?_⟩
    · have h5 := (r.perm.cons (putExistingFlag (hashOf k), k, v))
      have h6 := h4.trans (h5.trans ((hp.map (tag hashOf)).cons _))
      simp only [List.map_cons] at h6
      exact List.Perm.cons_inv (h6.trans (List.Perm.swap _ _ _))
    · have := hp.length_eq
      simp only [HMap.insert, List.length_cons] at this ⊢
      rw [r.len]; omega
    · have := hp.length_eq
      simp only [HMap.insert, List.length_cons] at this ⊢
      have := r.room
      omega
  · have hg := r.get_of_absent ha
    have he := remove_eq_self hg
    refine ⟨⟨(m.len + 1) % 2 ^ 64, m.cap, T'⟩, by rw [hg]; exact h1, rfl, r.pow, h2, ?_, HMap.nodup_insert r.nodup k v, ?_, ?_⟩
    · rw [HMap.insert, he]
      exact h3.trans (r.perm.cons _)
    · simp only [HMap.insert, he, List.length_cons, r.len]
      have := r.pow.le
      omega
    · simp only [HMap.insert, he, List.length_cons]; exact hroom

omit [DecidableEq K] in
theorem filterMap_none {α β} (l : List α) : l.filterMap (fun _ => (none : Option β)) = [] := by
  induction l with
  | nil => rfl
  | cons x l ih => rw [List.filterMap_cons]; exact ih

omit [DecidableEq K] in
theorem Rep.fresh {cap : Nat} (hc : Pow cap) : Rep hashOf (⟨0, cap, fun _ => none⟩ : Map K V) ([] : HMap K V) where
  pow := hc
  rh := by intro i _ e he; cases he
  perm := by simp [contents]
  nodup := by simp [HMap.keys]
  len := rfl
  room := hc.pos

/-- Re-inserting entries with distinct keys into a table that is large enough. -/
theorem rehash_spec (old : Slots K V) : ∀ (n i : Nat) (m : Map K V) (a b : HMap K V), Rep hashOf m a →
    ((List.range' i n).filterMap old).map (fun e => e.2) = b →
    (∀ e, e ∈ (List.range' i n).filterMap old → e.1 = putExistingFlag (hashOf e.2.1)) →
    (HMap.keys (b.reverse ++ a)).Nodup → a.length + b.length < m.cap →
    ∃ m', rehash old n i m = .ok m' ∧ m'.cap = m.cap ∧ Rep hashOf m' (b.reverse ++ a) := by
  intro n
  induction n with
  | zero =>
    intro i m a b r hb _ _ _
    simp at hb; subst hb
    exact ⟨m, rfl, rfl, by simpa using r⟩
  | succ n ih =>
    intro i m a b r hb hh hn hl
    rw [rehash]
    rw [List.range'_succ, List.filterMap_cons] at hb hh
    cases hT : old i with
    | none =>
      rw [hT] at hb hh
      simpa using ih (i + 1) m a b r hb hh hn hl
    | some e =>
      obtain ⟨h, k, v⟩ := e
      rw [hT] at hb hh
      simp only [List.map_cons] at hb
      subst hb
      have hke := hh _ (List.mem_cons_self ..)
      simp only at hke
      subst hke
      simp only [List.length_cons] at hl
      obtain ⟨m', h1, h2, h3⟩ := r.insertHashed (k := k) (v := v) (by omega)
      simp only
      rw [h1]
      have hka : a.get k = none := by
        have hk : k ∉ a.keys := by
          simp only [HMap.keys, List.reverse_cons, List.append_assoc, List.map_append, List.map_cons, List.map_nil,
            List.nodup_append] at hn
          intro hmem
          exact hn.2.1.2.2 k (by simp) k hmem rfl
        rw [HMap.mem_keys_iff] at hk
        simpa using hk
      have hins : a.insert k v = (k, v) :: a := by rw [HMap.insert, remove_eq_self hka]
      rw [hins] at h3
      obtain ⟨m'', h4, h5, h6⟩ := ih (i + 1) m' ((k, v) :: a) _ h3 rfl (fun e he => hh e (List.mem_cons_of_mem _ he))
        (by simpa [HMap.keys] using hn) (by simp only [List.length_cons, h2]; omega)
      exact ⟨m'', h4, by rw [h5, h2], by simpa using h6⟩

theorem Rep.reserve {m : Map K V} {a : HMap K V} (r : Rep hashOf m a) {n : Nat} (h1 : 1 ≤ n) (h2 : n ≤ 2 ^ 62) :
    ∃ m' a', reserveCapacity n m = .ok m' ∧ n ≤ m'.cap ∧ m.cap ≤ m'.cap ∧ a'.Perm a ∧ Rep hashOf m' a' := by
  obtain ⟨k, hk, hk1, hk2, hk3⟩ := nextPowerOfTwo_spec h1 h2
  unfold reserveCapacity
  rw [hk]
  by_cases hle : 2 ^ k ≤ m.cap
  · refine ⟨m, a, ?_, by omega, Nat.le_refl _, List.Perm.refl _, r⟩
    show (if 2 ^ k ≤ m.cap then _ else _) = _
    rw [if_pos hle]
  · have hc : Pow (2 ^ k) := ⟨k, hk1, rfl⟩
    have hcont : contents m.cap m.slots = (List.range' 0 m.cap).filterMap m.slots := by
      rw [contents, List.range_eq_range']
    have hb : ((contents m.cap m.slots).map fun e => e.2).Perm a := by
      have h := r.perm.map fun e => e.2
      rw [List.map_map] at h
      have : ((fun e : Nat × K × V => e.2) ∘ tag hashOf) = id := rfl
      rwa [this, List.map_id] at h
    have hroom := r.room
    obtain ⟨m', h3, h4, h5⟩ := rehash_spec m.slots m.cap 0 ⟨0, 2 ^ k, fun _ => none⟩ [] _ (Rep.fresh (hashOf := hashOf) hc) rfl
      (by
        rw [← hcont]
        intro e he
        obtain ⟨k, v, -, rfl⟩ := r.mem.1 he; rfl)
      (by
        rw [← hcont]
        have := (((List.reverse_perm _).trans hb).map Prod.fst).nodup_iff.2 r.nodup
        simpa [HMap.keys] using this)
      (by
        rw [← hcont]
        have := hb.length_eq
        simp only [List.length_nil]
        omega)
    refine ⟨m', _, ?_, by rw [h4]; exact hk2, by rw [h4]; show m.cap ≤ 2 ^ k; omega, ?_, h5⟩
    · show (if 2 ^ k ≤ m.cap then _ else _) = _
      rw [if_neg hle]; exact h3
    · rw [← hcont, List.append_nil]
      exact (List.reverse_perm _).trans hb

theorem Rep.insert {m : Map K V} {a : HMap K V} (r : Rep hashOf m a) (hlen : a.length < 2 ^ 61) (k : K) (v : V) :
    ∃ m' a', RobinHood.insert hashOf k v m = .ok (a.get k, m') ∧ a'.Perm (a.insert k v) ∧ Rep hashOf m' a' := by
  have hlen' : (m.len + 1) % 2 ^ 64 = a.length + 1 := by rw [r.len]; omega
  obtain ⟨hs1, hs2⟩ := amc_spec (n := a.length + 1) (by omega) (by omega)
  obtain ⟨m1, a1, h1, h2, h3, h4, h5⟩ := r.reserve (n := appropriateMinimalCapacity (a.length + 1)) (by omega) hs2
  obtain ⟨m2, h6, h7, h8⟩ := h5.insertHashed (k := k) (v := v) (by rw [h4.length_eq]; omega)
  refine ⟨m2, _, ?_, ?_, h8⟩
  · unfold RobinHood.insert
    rw [hlen', h1]
    show RobinHood.insertHashed _ k v m1 = _
    rw [h6, HMap.get_perm h5.nodup h4]
  · unfold HMap.insert
    exact (h4.filter _).cons _

theorem Rep.remove {m : Map K V} {a : HMap K V} (r : Rep hashOf m a) (k : K) :
    ∃ m', RobinHood.remove hashOf k m = .ok (a.get k, m') ∧ Rep hashOf m' (a.remove k) := by
  unfold RobinHood.remove
  rcases removeHashed_spec r.pow r.rh r.uniq r.empty _ k (r.hash k) with ⟨w, T', h1, h2, h3⟩ | ⟨ha, h1⟩
  · have hg := r.get_of_mem (h3.subset (List.mem_cons_self ..))
    have hp := perm_remove r.nodup hg
    have hl := hp.length_eq
    simp only [List.length_cons] at hl
    refine ⟨⟨m.len - 1, m.cap, T'⟩, by rw [hg]; exact h1, r.pow, h2, ?_, HMap.nodup_remove r.nodup k, ?_, ?_⟩
    · have h4 := h3.trans (r.perm.trans (hp.map (tag hashOf)))
      simp only [List.map_cons] at h4
      exact List.Perm.cons_inv h4
    · show m.len - 1 = _
      rw [r.len]; omega
    · have := r.room; show _ < m.cap; omega
  · have hg := r.get_of_absent ha
    rw [remove_eq_self hg, hg]
    exact ⟨m, h1, r⟩

omit [DecidableEq K] in
theorem Rep.clear {m : Map K V} {a : HMap K V} (r : Rep hashOf m a) : Rep hashOf (RobinHood.clear m) [] where
  pow := r.pow
  rh := by
    intro i hi e he
    simp only [RobinHood.clear, if_pos (show i < m.cap from hi)] at he; cases he
  perm := by
    have : contents (RobinHood.clear m).cap (RobinHood.clear m).slots = contents m.cap (fun _ => none) :=
      contents_congr fun x hx => by simp only [RobinHood.clear, if_pos (show x < m.cap from hx)]
    rw [this]; simp [contents]
  nodup := by simp [HMap.keys]
  len := rfl
  room := r.pow.pos

omit [DecidableEq K] in
theorem Rep.elems {m : Map K V} {a : HMap K V} (r : Rep hashOf m a) : (RobinHood.elems m).Perm a := by
  have h := r.perm.map fun e => e.2
  rw [List.map_map] at h
  have : ((fun e : Nat × K × V => e.2) ∘ tag hashOf) = id := rfl
  rw [this, List.map_id] at h
  have e : RobinHood.elems m = (contents m.cap m.slots).map fun e => e.2 := by
    unfold RobinHood.elems contents
    rw [List.map_filterMap]
  rw [e]; exact h

end Verif.RobinHood
