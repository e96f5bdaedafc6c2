/-!
# A model of `std::collections::HashMap`

Association lists.  The position of entries stands for the (arbitrary) iteration order: `insert` puts the new
entry at the front, but theorems that depend on iteration quantify over all permutations of the entries.
-/
namespace Verif

/-- `HashMap<K, V>` -/
abbrev HMap (K V : Type _) := List (K × V)

namespace HMap
variable {K V : Type _} [DecidableEq K]

/-- `HashMap::get` -/
def get (m : HMap K V) (k : K) : Option V :=
  match m with
  | [] => none
  | (k', v) :: rest => if k' = k then some v else get rest k

/-- `HashMap::remove` (the map afterwards; the value returned is `get m k`). -/
def remove (m : HMap K V) (k : K) : HMap K V := m.filter (fun e => e.1 ≠ k)

/-- `HashMap::insert` (the map afterwards; the value returned is `get m k`). -/
def insert (m : HMap K V) (k : K) (v : V) : HMap K V := (k, v) :: remove m k

/-- Keys of the map, in iteration order. -/
def keys (m : HMap K V) : List K := m.map Prod.fst

theorem get_nil (k : K) : get ([] : HMap K V) k = none := rfl

theorem get_remove (m : HMap K V) (k k' : K) :
    get (remove m k) k' = if k' = k then none else get m k' := by
  induction m with
  | nil => simp [remove, get]
  | cons e m ih =>
    obtain ⟨a, v⟩ := e
    simp only [remove, List.filter_cons] at *
    by_cases h : a = k
    · subst h
      simp only [ne_eq, not_true_eq_false, decide_false, Bool.false_eq_true, if_false]
      rw [ih]
      by_cases h' : k' = a
      · simp [h']
      · simp [h', get, Ne.symm h']
    · simp only [ne_eq, h, not_false_eq_true, decide_true, if_true, get]
      rw [ih]
      by_cases h' : a = k'
      · subst h'; simp [h]
      · simp [h']

theorem get_insert (m : HMap K V) (k k' : K) (v : V) :
    get (insert m k v) k' = if k' = k then some v else get m k' := by
  rw [insert, get]
  by_cases h : k = k'
  · simp [h]
  · simp only [h, if_false, get_remove, Ne.symm h]

theorem mem_keys_iff (m : HMap K V) (k : K) : k ∈ keys m ↔ (get m k).isSome := by
  induction m with
  | nil => simp [keys, get]
  | cons e m ih =>
    obtain ⟨a, v⟩ := e
    simp only [keys, List.map_cons, List.mem_cons, get] at *
    by_cases h : a = k
    · simp [h]
    · simp [h, Ne.symm h, ih]

theorem get_some_mem {m : HMap K V} {k : K} {v : V} (h : get m k = some v) : (k, v) ∈ m := by
  induction m with
  | nil => simp [get] at h
  | cons e m ih =>
    obtain ⟨a, w⟩ := e
    simp only [get] at h
    split at h
    · next hk => cases h; simp [hk]
    · simp [ih h]

theorem nodup_remove {m : HMap K V} (h : (keys m).Nodup) (k : K) : (keys (remove m k)).Nodup := by
  unfold keys remove
  exact List.Nodup.sublist (List.Sublist.map _ List.filter_sublist) h

theorem not_mem_remove (m : HMap K V) (k : K) : k ∉ keys (remove m k) := by
  rw [mem_keys_iff, get_remove]; simp

theorem nodup_insert {m : HMap K V} (h : (keys m).Nodup) (k : K) (v : V) : (keys (insert m k v)).Nodup := by
  unfold insert
  simp only [keys, List.map_cons, List.nodup_cons]
  exact ⟨not_mem_remove m k, nodup_remove h k⟩

theorem mem_get {m : HMap K V} (h : (keys m).Nodup) {k : K} {v : V} (hm : (k, v) ∈ m) : get m k = some v := by
  induction m with
  | nil => simp at hm
  | cons e m ih =>
    obtain ⟨a, w⟩ := e
    simp only [keys, List.map_cons, List.nodup_cons] at h
    simp only [get]
    simp only [List.mem_cons, Prod.mk.injEq] at hm
    rcases hm with ⟨rfl, rfl⟩ | hm
    · simp
    · rw [if_neg, ih h.2 hm]
      rintro rfl
      exact h.1 (List.mem_map.2 ⟨_, hm, rfl⟩)

/-- Iteration order does not matter for lookups. -/
theorem get_perm {m m' : HMap K V} (h : (keys m).Nodup) (hp : m.Perm m') (k : K) : get m k = get m' k := by
  have h' : (keys m').Nodup := (hp.map Prod.fst).nodup_iff.1 h
  cases hg : get m k with
  | some v => exact (mem_get h' (hp.mem_iff.1 (get_some_mem hg))).symm
  | none =>
    cases hg' : get m' k with
    | none => rfl
    | some v =>
      have := mem_get h (hp.mem_iff.2 (get_some_mem hg'))
      rw [hg] at this; simp at this

end HMap
end Verif
