import Verif.Hamt.Cursor
import Verif.Hamt.DeepCopy
import Verif.Hamt.Spec

/-! # C36: the persistent hash map is a finite map -/
namespace Verif.Hamt
open scoped List

variable {K V : Type} {eq : K → K → Bool} {hash : K → BitVec 64}

/-- The entries are the ones of the finite map. -/
def Agrees (eq : K → K → Bool) (es : List (Entry K V)) (m : K → Option V) : Prop :=
  ∀ k v, m k = some v ↔ ∃ e ∈ es, eq e.2.1 k = true ∧ e.2.2 = v

/-- The invariant: `es` are the entries of the map `m`, which stands for `s`. -/
structure MapRep (eq : K → K → Bool) (hash : K → BitVec 64) (m : HashMap K V) (es : List (Entry K V)) (s : K → Option V) : Prop where
  rep : Rep eq 13 m.tree es
  hashes : ∀ e ∈ es, e.1 = (hash e.2.1).toNat
  length : m.length = BitVec.ofNat 64 es.length
  agrees : Agrees eq es s

theorem hash_lt (h : BitVec 64) : h.toNat < 32 ^ 13 := Nat.lt_trans h.isLt (by decide)

theorem MapRep.empty : MapRep eq hash (HashMap.empty : HashMap K V) [] (fun _ => none) :=
  ⟨rep_empty 12, by simp, rfl, by intro k v; simp⟩

theorem distinct_perm {es es' : List (Entry K V)} (hq : Spec.KeyEq eq) (p : es ~ es')
    (h : es.Pairwise (fun a b => a.1 = b.1 → eq a.2.1 b.2.1 = false)) : es'.Pairwise (fun a b => a.1 = b.1 → eq a.2.1 b.2.1 = false) := by
  refine (p.pairwise_iff ?_).1 h
  intro a b hab h1
  cases hc : eq b.2.1 a.2.1 with
  | false => rfl
  | true => rw [← hab h1.symm, hq.symm _ _ hc]

theorem MapRep.get {m : HashMap K V} {es s} (hr : MapRep eq hash m es s) (hh : ∀ a b, eq a b = true → hash a = hash b) (k : K) :
    m.get eq hash k = some (s k) := by
  obtain ⟨r, h1, h2⟩ := get_spec hr.rep (hash k) k
  have : r = s k := by
    rcases h2 with ⟨rfl, hm⟩ | ⟨k', v, rfl, hm, he⟩
    · cases hs : s k with
      | none => rfl
      | some v =>
        obtain ⟨e, he, h3, -⟩ := (hr.agrees k v).1 hs
        have := hm e he (by rw [hr.hashes e he, hh _ _ h3])
        rw [h3] at this; cases this
    · exact ((hr.agrees k v).2 ⟨_, hm, he, rfl⟩).symm
  rw [HashMap.get, levels, h1, this]

theorem MapRep.insert {m : HashMap K V} {es s} (hr : MapRep eq hash m es s) (hq : Spec.KeyEq eq) (hh : ∀ a b, eq a b = true → hash a = hash b)
    (k : K) (v : V) (hc : cnt (hash k).toNat es < 2 ^ 32) :
    ∃ m' es', m.insert eq hash k v = some m' ∧ MapRep eq hash m' es' (Spec.step eq s (.insert k v)) ∧
      (∀ h, cnt h es' ≤ cnt h es + (if (hash k).toNat = h then 1 else 0)) ∧ es'.length ≤ es.length + 1 := by
  obtain ⟨r, t', es', h1, h2, h3⟩ := insert_spec hr.rep (hash k) (hash_lt _) k v hc
  refine ⟨⟨if r.isNone then m.length + 1 else m.length, t'⟩, es', by rw [HashMap.insert, levels, h1]; rfl, ?_, ?_, ?_⟩
  · rcases h3 with ⟨rfl, hm, hp⟩ | ⟨k', v', rest, rfl, he, hp, hp'⟩
    · refine ⟨h2, ?_, ?_, ?_⟩
      · intro e hm
        rcases List.mem_cons.1 (hp.mem_iff.1 hm) with rfl | hm
        · rfl
        · exact hr.hashes e hm
      · simp only [Option.isNone_none, if_true, hp.length_eq, hr.length, List.length_cons]
        rw [BitVec.ofNat_add]; rfl
      · intro x w
        simp only [Spec.step]
        by_cases hx : eq k x = true
        · rw [if_pos hx]
          constructor
          · intro hw
            exact ⟨_, hp.mem_iff.2 List.mem_cons_self, hx, Option.some.inj hw⟩
          · rintro ⟨e, hm', hex, rfl⟩
            rcases List.mem_cons.1 (hp.mem_iff.1 hm') with rfl | hm'
            · rfl
            · have hek : eq e.2.1 k = true := hq.trans _ _ _ hex (hq.symm _ _ hx)
              have := hm e hm' (by rw [hr.hashes e hm', hh _ _ hek])
              rw [hek] at this; cases this
        · rw [if_neg hx, hr.agrees x w]
          constructor
          · rintro ⟨e, hm', h⟩
            exact ⟨e, hp.mem_iff.2 (List.mem_cons_of_mem _ hm'), h⟩
          · rintro ⟨e, hm', hex, h⟩
            rcases List.mem_cons.1 (hp.mem_iff.1 hm') with rfl | hm'
            · exact absurd hex hx
            · exact ⟨e, hm', hex, h⟩
    · have hd := distinct_perm hq hp' h2.distinct
      have hold := hp.mem_iff.2 List.mem_cons_self
      rw [List.pairwise_cons] at hd
      refine ⟨h2, ?_, ?_, ?_⟩
      · intro e hm
        rcases List.mem_cons.1 (hp'.mem_iff.1 hm) with rfl | hm
        · have := hr.hashes ((hash k).toNat, k', v') hold
          exact this
        · exact hr.hashes e (hp.mem_iff.2 (List.mem_cons_of_mem _ hm))
      · have : es'.length = es.length := by rw [hp'.length_eq, hp.length_eq]; rfl
        simp only [Option.isNone_some, Bool.false_eq_true, if_false, this, hr.length]
      · intro x w
        simp only [Spec.step]
        by_cases hx : eq k x = true
        · rw [if_pos hx]
          constructor
          · intro hw
            exact ⟨_, hp'.mem_iff.2 List.mem_cons_self, hq.trans _ _ _ he hx, Option.some.inj hw⟩
          · rintro ⟨e, hm', hex, rfl⟩
            rcases List.mem_cons.1 (hp'.mem_iff.1 hm') with rfl | hm'
            · rfl
            · have hek : eq e.2.1 k = true := hq.trans _ _ _ hex (hq.symm _ _ hx)
              have hke : eq k' e.2.1 = true := hq.trans _ _ _ he (hq.symm _ _ hek)
              have hee := hp.mem_iff.2 (List.mem_cons_of_mem _ hm')
              have := hd.1 e hm' (by rw [hr.hashes e hee, hh _ _ hek])
              rw [hke] at this; cases this
        · rw [if_neg hx, hr.agrees x w]
          constructor
          · rintro ⟨e, hm', hex, h⟩
            rcases List.mem_cons.1 (hp.mem_iff.1 hm') with rfl | hm'
            · exact absurd (hq.trans _ _ _ (hq.symm _ _ he) hex) hx
            · exact ⟨e, hp'.mem_iff.2 (List.mem_cons_of_mem _ hm'), hex, h⟩
          · rintro ⟨e, hm', hex, h⟩
            rcases List.mem_cons.1 (hp'.mem_iff.1 hm') with rfl | hm'
            · exact absurd (hq.trans _ _ _ (hq.symm _ _ he) hex) hx
            · exact ⟨e, hp.mem_iff.2 (List.mem_cons_of_mem _ hm'), hex, h⟩
  · intro h
    rcases h3 with ⟨rfl, hm, hp⟩ | ⟨k', v', rest, rfl, he, hp, hp'⟩
    · rw [cnt, hp.countP_eq, List.countP_cons, cnt]
      simp
    · rw [cnt, hp'.countP_eq, cnt, hp.countP_eq, List.countP_cons, List.countP_cons]
      exact Nat.le_add_right _ _
  · rcases h3 with ⟨rfl, hm, hp⟩ | ⟨k', v', rest, rfl, he, hp, hp'⟩
    · rw [hp.length_eq]; exact Nat.le_refl _
    · rw [hp.length_eq, hp'.length_eq]; exact Nat.le_succ _

theorem MapRep.remove {m : HashMap K V} {es s} (hr : MapRep eq hash m es s) (hq : Spec.KeyEq eq) (hh : ∀ a b, eq a b = true → hash a = hash b)
    (k : K) :
    ∃ m' es', m.remove eq hash k = some m' ∧ MapRep eq hash m' es' (Spec.step eq s (.remove k)) ∧ (∀ h, cnt h es' ≤ cnt h es) ∧
      es'.length ≤ es.length := by
  obtain ⟨o, h1, h2⟩ := remove_spec (Nat.le_refl 13) hr.rep (hash k) k
  match o, h2 with
  | none, hm =>
    refine ⟨m, es, by rw [HashMap.remove, levels, h1]; rfl, ⟨hr.rep, hr.hashes, hr.length, ?_⟩, fun _ => Nat.le_refl _, Nat.le_refl _⟩
    intro x w
    simp only [Spec.step]
    by_cases hx : eq k x = true
    · rw [if_pos hx]
      refine ⟨fun h => (by cases h), ?_⟩
      rintro ⟨e, hm', hex, rfl⟩
      have hek : eq e.2.1 k = true := hq.trans _ _ _ hex (hq.symm _ _ hx)
      have := hm e hm' (by rw [hr.hashes e hm', hh _ _ hek])
      rw [hek] at this; cases this
    · rw [if_neg hx, hr.agrees x w]
  | some (v, mg, t'), ⟨es', h2, ⟨k', he, hp⟩, _, _⟩ =>
    have hd := distinct_perm hq hp hr.rep.distinct
    rw [List.pairwise_cons] at hd
    have hold := hp.mem_iff.2 List.mem_cons_self
    refine ⟨⟨m.length - 1, t'⟩, es', by rw [HashMap.remove, levels, h1]; rfl, ⟨h2, ?_, ?_, ?_⟩, ?_, ?_⟩
    · exact fun e hm => hr.hashes e (hp.mem_iff.2 (List.mem_cons_of_mem _ hm))
    · simp only [hr.length, hp.length_eq, List.length_cons]
      rw [BitVec.ofNat_add]
      exact BitVec.add_sub_cancel _ _
    · intro x w
      simp only [Spec.step]
      by_cases hx : eq k x = true
      · rw [if_pos hx]
        refine ⟨fun h => (by cases h), ?_⟩
        rintro ⟨e, hm', hex, rfl⟩
        have hek : eq e.2.1 k = true := hq.trans _ _ _ hex (hq.symm _ _ hx)
        have hke : eq k' e.2.1 = true := hq.trans _ _ _ he (hq.symm _ _ hek)
        have hee := hp.mem_iff.2 (List.mem_cons_of_mem _ hm')
        have := hd.1 e hm' (by rw [hr.hashes e hee, hh _ _ hek])
        rw [hke] at this; cases this
      · rw [if_neg hx, hr.agrees x w]
        constructor
        · rintro ⟨e, hm', hex, h⟩
          rcases List.mem_cons.1 (hp.mem_iff.1 hm') with rfl | hm'
          · exact absurd (hq.trans _ _ _ (hq.symm _ _ he) hex) hx
          · exact ⟨e, hm', hex, h⟩
        · rintro ⟨e, hm', h⟩
          exact ⟨e, hp.mem_iff.2 (List.mem_cons_of_mem _ hm'), h⟩
    · intro h
      rw [cnt, cnt, hp.countP_eq, List.countP_cons]
      omega
    · rw [hp.length_eq]; exact Nat.le_succ _

/-! ## Runs -/

/-- An operation on the map of the code. -/
def applyOp (eq : K → K → Bool) (hash : K → BitVec 64) (m : HashMap K V) : Spec.Op K V → Option (HashMap K V)
  | .insert k v => m.insert eq hash k v
  | .remove k => m.remove eq hash k

/-- Operations on the empty map. -/
def runOps (eq : K → K → Bool) (hash : K → BitVec 64) (ops : List (Spec.Op K V)) : Option (HashMap K V) :=
  ops.foldlM (applyOp eq hash) .empty

/-- How many operations have a key with the hash. -/
def sameHash (hash : K → BitVec 64) (h : Nat) (ops : List (Spec.Op K V)) : Nat := ops.countP (fun o => (hash o.key).toNat == h)

theorem run_rep (hq : Spec.KeyEq eq) (hh : ∀ a b, eq a b = true → hash a = hash b) (ops : List (Spec.Op K V)) {m : HashMap K V} {es s}
    (hr : MapRep eq hash m es s) (hc : ∀ h, cnt h es + sameHash hash h ops ≤ 2 ^ 32) :
    ∃ m' es', ops.foldlM (applyOp eq hash) m = some m' ∧ MapRep eq hash m' es' (ops.foldl (Spec.step eq) s) ∧
      es'.length ≤ es.length + ops.length := by
  induction ops generalizing m es s with
  | nil => exact ⟨m, es, rfl, hr, Nat.le_refl _⟩
  | cons o ops ih =>
    rw [List.foldlM_cons, List.foldl_cons]
    have hcount : ∀ h, sameHash hash h (o :: ops) = sameHash hash h ops + (if (hash o.key).toNat = h then 1 else 0) := by
      intro h; rw [sameHash, List.countP_cons]; simp [sameHash]
    cases o with
    | insert k v =>
      obtain ⟨m', es', h1, h2, h3, hl⟩ := hr.insert hq hh k v (by
        have := hc (hash k).toNat
        rw [hcount, if_pos (show (hash (Spec.Op.insert k v).key).toNat = (hash k).toNat from rfl)] at this; omega)
      obtain ⟨m'', es'', h4, h5, hl'⟩ := ih h2 (fun h => by
        have g1 : cnt h es + (sameHash hash h ops + (if (hash k).toNat = h then 1 else 0)) ≤ 2 ^ 32 := by
          have := hc h
          rw [hcount] at this
          exact this
        have g2 := h3 h
        omega)
      exact ⟨m'', es'', by rw [show applyOp eq hash m (.insert k v) = some m' from h1]; exact h4, h5, by simp only [List.length_cons]; omega⟩
    | remove k =>
      obtain ⟨m', es', h1, h2, h3, hl⟩ := hr.remove hq hh k
      obtain ⟨m'', es'', h4, h5, hl'⟩ := ih h2 (fun h => by
        have g1 := hc h
        have g2 := h3 h
        rw [hcount] at g1
        omega)
      exact ⟨m'', es'', by rw [show applyOp eq hash m (.remove k) = some m' from h1]; exact h4, h5, by simp only [List.length_cons]; omega⟩

theorem MapRep.listing {m : HashMap K V} {es s} (hr : MapRep eq hash m es s) (hh : ∀ a b, eq a b = true → hash a = hash b) :
    Spec.Listing eq (es.map Prod.snd) s := by
  constructor
  · rw [List.pairwise_map]
    have hd := hr.rep.distinct
    refine List.Pairwise.imp_of_mem ?_ hd
    intro a b ha hb h
    cases hab : eq a.2.1 b.2.1 with
    | false => exact hab ▸ rfl
    | true => rw [h (by rw [hr.hashes a ha, hr.hashes b hb, hh _ _ hab])] at hab; cases hab
  · intro k v
    rw [hr.agrees k v]
    simp only [List.mem_map]
    constructor
    · rintro ⟨e, he, h⟩; exact ⟨e.2, ⟨e, he, rfl⟩, h⟩
    · rintro ⟨_, ⟨e, he, rfl⟩, h⟩; exact ⟨e, he, h⟩

/-- C36, partial: after any sequence of insertions and removals, with any hash function that agrees with the equality of keys, the map gives for
every key what the finite map gives; iteration gives each key once with its value; and the length is the number of keys.  No operation reads outside
of its buckets or takes a child for collision elements.  Missing: sequences with more than 2^32 operations on keys of one and the same hash, for which the
number of collision elements no longer fits its `U32` (`collision_overflow`). -/
theorem hash_map_partial (hq : Spec.KeyEq eq) (hh : ∀ a b, eq a b = true → hash a = hash b) (ops : List (Spec.Op K V))
    (hc : ∀ h, sameHash hash h ops ≤ 2 ^ 32) :
    ∃ m, runOps eq hash ops = some m ∧ (∀ k, m.get eq hash k = some (Spec.run eq ops k)) ∧
      (∀ k, m.has eq hash k = some (Spec.run eq ops k).isSome) ∧
      ∃ es, Spec.Listing eq es (Spec.run eq ops) ∧ m.length = BitVec.ofNat 64 es.length ∧
        ∃ bound, ∀ steps fuel, bound ≤ steps → bound ≤ fuel → m.elems steps fuel = some es := by
  obtain ⟨m, es, h1, h2, -⟩ := run_rep hq hh ops (m := .empty) .empty (fun h => by simpa [cnt] using hc h)
  refine ⟨m, h1, h2.get hh, fun k => by rw [HashMap.has, h2.get hh k]; rfl, es.map Prod.snd, h2.listing hh, by rw [h2.length, List.length_map],
    32 * (1 + cost 12) + es.length + 1, fun steps fuel hs hf => elems_spec h2.rep (by omega) (by omega)⟩

/-! ## Collecting -/

/-- C36, partial: what `hash-map/collect` gives stands for the insertions in the order of the iterator: the last value of a key is kept. -/
theorem collect_partial (hq : Spec.KeyEq eq) (hh : ∀ a b, eq a b = true → hash a = hash b) (l : List (K × V))
    (hc : ∀ h, sameHash hash h (l.map fun e => (.insert e.1 e.2 : Spec.Op K V)) ≤ 2 ^ 32) :
    ∃ m, HashMap.collect eq hash l = some m ∧
      ∀ k, m.get eq hash k = some (l.reverse.find? (fun e => eq e.1 k) |>.map Prod.snd) := by
  have hf : ∀ (l : List (K × V)) (m : HashMap K V), (l.map fun e => Spec.Op.insert e.1 e.2).foldlM (applyOp eq hash) m =
      l.foldlM (fun m e => m.insert eq hash e.1 e.2) m := by
    intro l
    induction l with
    | nil => intro m; rfl
    | cons e l ih =>
      intro m
      rw [List.map_cons, List.foldlM_cons, List.foldlM_cons]
      exact congrArg _ (funext ih)
  have hs : ∀ (l : List (K × V)) (s : K → Option V) (k : K), (l.map fun e => Spec.Op.insert e.1 e.2).foldl (Spec.step eq) s k =
      ((l.reverse.find? (fun e => eq e.1 k)).map Prod.snd).or (s k) := by
    intro l
    induction l with
    | nil => intro s k; rfl
    | cons e l ih =>
      intro s k
      rw [List.map_cons, List.foldl_cons, ih, List.reverse_cons, List.find?_append]
      simp only [Spec.step]
      cases hl : l.reverse.find? (fun e => eq e.1 k) with
      | some x => rfl
      | none =>
        by_cases he : eq e.1 k = true
        · simp [he]
        · simp [he]
  obtain ⟨m, es, h1, h2, -⟩ := run_rep hq hh _ (m := .empty) .empty (fun h => by simpa [cnt] using hc h)
  refine ⟨m, by rw [HashMap.collect, ← hf]; exact h1, fun k => ?_⟩
  rw [h2.get hh k, hs]
  simp

/-! ## Equality -/

theorem pigeonhole (hq : Spec.KeyEq eq) (L L' : List K) (hd : L.Pairwise (fun a b => eq a b = false)) (h : ∀ a ∈ L, ∃ b ∈ L', eq a b = true) :
    L.length ≤ L'.length ∧ (L'.length ≤ L.length → ∀ b ∈ L', ∃ a ∈ L, eq a b = true) := by
  induction L generalizing L' with
  | nil =>
    refine ⟨Nat.zero_le _, fun hl b hb => ?_⟩
    have : L' = [] := List.length_eq_zero_iff.1 (Nat.le_zero.1 hl)
    subst this; cases hb
  | cons a L ih =>
    rw [List.pairwise_cons] at hd
    obtain ⟨b, hb, hab⟩ := h a List.mem_cons_self
    obtain ⟨l1, l2, rfl⟩ := List.append_of_mem hb
    have hrest : ∀ x ∈ L, ∃ y ∈ l1 ++ l2, eq x y = true := by
      intro x hx
      obtain ⟨y, hy, hxy⟩ := h x (List.mem_cons_of_mem _ hx)
      have : y ∈ l1 ++ l2 ∨ y = b := by
        simp only [List.mem_append, List.mem_cons] at hy ⊢
        rcases hy with h | h | h
        · exact .inl (.inl h)
        · exact .inr h
        · exact .inl (.inr h)
      rcases this with hy | rfl
      · exact ⟨y, hy, hxy⟩
      · have := hd.1 x hx
        rw [hq.trans _ _ _ hab (hq.symm _ _ hxy)] at this; cases this
    obtain ⟨h1, h2⟩ := ih (l1 ++ l2) hd.2 hrest
    simp only [List.length_append, List.length_cons] at h1 h2 ⊢
    refine ⟨by omega, fun hl y hy => ?_⟩
    have : y ∈ l1 ++ l2 ∨ y = b := by
      simp only [List.mem_append, List.mem_cons] at hy ⊢
      rcases hy with h | h | h
      · exact .inl (.inl h)
      · exact .inr h
      · exact .inl (.inr h)
    rcases this with hy | rfl
    · obtain ⟨x, hx, hxy⟩ := h2 (by omega) y hy
      exact ⟨x, List.mem_cons_of_mem _ hx, hxy⟩
    · exact ⟨a, List.mem_cons_self, hab⟩

theorem listing_le (hq : Spec.KeyEq eq) {l l' : List (K × V)} {s s' : K → Option V} (hl : Spec.Listing eq l s) (hl' : Spec.Listing eq l' s')
    (h : ∀ e ∈ l, (s' e.1).isSome) :
    l.length ≤ l'.length ∧ (l'.length ≤ l.length → ∀ k, (s' k).isSome → (s k).isSome) := by
  have := pigeonhole hq (l.map Prod.fst) (l'.map Prod.fst) (by rw [List.pairwise_map]; exact hl.distinct) (by
    intro a ha
    obtain ⟨e, he, rfl⟩ := List.mem_map.1 ha
    obtain ⟨v, hv⟩ := Option.isSome_iff_exists.1 (h e he)
    obtain ⟨e', he', h1, -⟩ := (hl'.lists _ _).1 hv
    exact ⟨_, List.mem_map.2 ⟨e', he', rfl⟩, hq.symm _ _ h1⟩)
  rw [List.length_map, List.length_map] at this
  refine ⟨this.1, fun hle k hk => ?_⟩
  obtain ⟨v, hv⟩ := Option.isSome_iff_exists.1 hk
  obtain ⟨e', he', h1, -⟩ := (hl'.lists _ _).1 hv
  obtain ⟨a, ha, h2⟩ := this.2 hle _ (List.mem_map.2 ⟨e', he', rfl⟩)
  obtain ⟨e, he, rfl⟩ := List.mem_map.1 ha
  rw [(hl.lists k e.2).2 ⟨e, he, hq.trans _ _ _ h2 h1, rfl⟩]; rfl

theorem eqElems_spec (eqV : V → V → Bool) {b : HashMap K V} {es s} (hr : MapRep eq hash b es s) (hh : ∀ a b, eq a b = true → hash a = hash b)
    (l : List (K × V)) : ∃ r, eqElems eq hash eqV b l = some r ∧ (r = true ↔ ∀ e ∈ l, ∃ v, s e.1 = some v ∧ eqV e.2 v = true) := by
  induction l with
  | nil => exact ⟨true, rfl, by simp⟩
  | cons e l ih =>
    obtain ⟨k, v⟩ := e
    obtain ⟨r, h1, h2⟩ := ih
    rw [eqElems, hr.get hh k]
    simp only [Option.bind_eq_bind, Option.bind_some]
    cases hs : s k with
    | none => exact ⟨false, rfl, by simp [hs]⟩
    | some v' =>
      simp only
      by_cases hv : eqV v v' = true
      · rw [if_pos hv]
        exact ⟨r, h1, by rw [h2]; simp [hs, hv]⟩
      · rw [if_neg hv]
        exact ⟨false, rfl, by simp [hs, hv]⟩

theorem eqMap_spec (hq : Spec.KeyEq eq) (hh : ∀ a b, eq a b = true → hash a = hash b) (eqV : V → V → Bool) {a b : HashMap K V} {es es' s s'}
    (ha : MapRep eq hash a es s) (hb : MapRep eq hash b es' s') (hlen : es.length < 2 ^ 64) (hlen' : es'.length < 2 ^ 64)
    (hst : ∀ k k' : K, eq k k' = true → s k = s k') (hst' : ∀ k k' : K, eq k k' = true → s' k = s' k')
    {steps fuel} (hd : 32 * (1 + cost 12) < steps) (hf : es.length < fuel) :
    ∃ r, a.eqMap eq hash eqV steps fuel b = some r ∧ (r = true ↔ Spec.Same eqV s s') := by
  have hla := ha.listing hh
  have hlb := hb.listing hh
  have hsame : (∀ e ∈ es.map Prod.snd, ∃ v, s' e.1 = some v ∧ eqV e.2 v = true) ↔
      ∀ k v, s k = some v → ∃ v', s' k = some v' ∧ eqV v v' = true := by
    constructor
    · intro h k v hv
      obtain ⟨e, he, h1, rfl⟩ := (hla.lists k v).1 hv
      obtain ⟨v', h2, h3⟩ := h e he
      exact ⟨v', by rw [← hst' _ _ h1, h2], h3⟩
    · intro h e he
      exact h e.1 e.2 ((hla.lists _ _).2 ⟨e, he, hq.refl _, rfl⟩)
  have hlen2 : a.length = b.length ↔ es.length = es'.length := by
    rw [ha.length, hb.length, ← BitVec.toNat_inj, BitVec.toNat_ofNat, BitVec.toNat_ofNat, Nat.mod_eq_of_lt hlen, Nat.mod_eq_of_lt hlen']
  have hsame' : Spec.Same eqV s s' → (∀ k v, s k = some v → ∃ v', s' k = some v' ∧ eqV v v' = true) ∧ ∀ k, (s' k).isSome → (s k).isSome := by
    intro h
    refine ⟨fun k v hv => ?_, fun k hk => ?_⟩
    · have := h k
      rw [hv] at this
      cases hs' : s' k with
      | none => rw [hs'] at this; exact this.elim
      | some v' => rw [hs'] at this; exact ⟨v', rfl, this⟩
    · have := h k
      cases hs : s k with
      | some v => rfl
      | none =>
        cases hs' : s' k with
        | none => rw [hs'] at hk; cases hk
        | some v' => rw [hs, hs'] at this; exact this.elim
  rw [HashMap.eqMap]
  by_cases hl : a.length = b.length
  · rw [if_neg (by simp [hl]), elems_spec ha.rep hd hf]
    obtain ⟨r, h1, h2⟩ := eqElems_spec eqV hb hh (es.map Prod.snd)
    refine ⟨r, h1, ?_⟩
    rw [h2, hsame]
    refine ⟨fun h k => ?_, fun h => (hsame' h).1⟩
    have hle := listing_le hq hla hlb (fun e he => by
      obtain ⟨v, hv, -⟩ := hsame.2 h e he
      rw [hv]; rfl)
    have hback := hle.2 (by rw [List.length_map, List.length_map, hlen2.1 hl]; exact Nat.le_refl _) k
    cases hs : s k with
    | some v =>
      obtain ⟨v', h3, h4⟩ := h k v hs
      rw [h3]; exact h4
    | none =>
      cases hs' : s' k with
      | none => trivial
      | some v' => rw [hs, hs'] at hback; exact absurd (hback rfl) (by simp)
  · rw [if_pos hl]
    refine ⟨false, rfl, ⟨fun h => (by cases h), fun h => ?_⟩⟩
    obtain ⟨h1, h2⟩ := hsame' h
    have g1 := (listing_le hq hla hlb (fun e he => by
      obtain ⟨v, hv, -⟩ := hsame.2 h1 e he
      rw [hv]; rfl)).1
    have g2 := (listing_le hq hlb hla (fun e he => h2 _ (by rw [(hlb.lists _ _).2 ⟨e, he, hq.refl _, rfl⟩]; rfl))).1
    rw [List.length_map, List.length_map] at g1 g2
    exact absurd (hlen2.2 (by omega)) hl

theorem run_stable (hq : Spec.KeyEq eq) (ops : List (Spec.Op K V)) (s : K → Option V) (hs : ∀ k k', eq k k' = true → s k = s k') :
    ∀ k k', eq k k' = true → ops.foldl (Spec.step eq) s k = ops.foldl (Spec.step eq) s k' := by
  induction ops generalizing s with
  | nil => exact hs
  | cons o ops ih =>
    refine ih _ (fun k k' h => ?_)
    cases o with
    | insert x v =>
      simp only [Spec.step]
      have : eq x k = eq x k' := by
        rw [Bool.eq_iff_iff]
        exact ⟨fun g => hq.trans _ _ _ g h, fun g => hq.trans _ _ _ g (hq.symm _ _ h)⟩
      rw [this, hs _ _ h]
    | remove x =>
      simp only [Spec.step]
      have : eq x k = eq x k' := by
        rw [Bool.eq_iff_iff]
        exact ⟨fun g => hq.trans _ _ _ g h, fun g => hq.trans _ _ _ g (hq.symm _ _ h)⟩
      rw [this, hs _ _ h]

/-- C36, partial: two maps made by any operations are equal by `eq?` exactly if they have the same keys with equal values, however the trees came
about. -/
theorem hash_map_eq_partial (hq : Spec.KeyEq eq) (hh : ∀ a b, eq a b = true → hash a = hash b) (eqV : V → V → Bool) (ops ops' : List (Spec.Op K V))
    (hc : ∀ h, sameHash hash h ops ≤ 2 ^ 32) (hc' : ∀ h, sameHash hash h ops' ≤ 2 ^ 32) (hl : ops.length < 2 ^ 64) (hl' : ops'.length < 2 ^ 64) :
    ∃ a b r, runOps eq hash ops = some a ∧ runOps eq hash ops' = some b ∧ (r = true ↔ Spec.Same eqV (Spec.run eq ops) (Spec.run eq ops')) ∧
      ∃ bound, ∀ steps fuel, bound ≤ steps → bound ≤ fuel → a.eqMap eq hash eqV steps fuel b = some r := by
  obtain ⟨a, es, h1, h2, h3⟩ := run_rep hq hh ops (m := .empty) .empty (fun h => by simpa [cnt] using hc h)
  obtain ⟨b, es', h1', h2', h3'⟩ := run_rep hq hh ops' (m := .empty) .empty (fun h => by simpa [cnt] using hc' h)
  have hspec := fun steps fuel hd hf => eqMap_spec hq hh eqV h2 h2' (by simp at h3; omega) (by simp at h3'; omega)
    (run_stable hq ops _ (fun _ _ _ => rfl)) (run_stable hq ops' _ (fun _ _ _ => rfl)) (steps := steps) (fuel := fuel) hd hf
  obtain ⟨r, h4, h5⟩ := hspec (32 * (1 + cost 12) + 1) (es.length + 1) (by omega) (by omega)
  refine ⟨a, b, r, h1, h1', h5, 32 * (1 + cost 12) + es.length + 1, fun steps fuel hs hf => ?_⟩
  obtain ⟨r', h4', h5'⟩ := hspec steps fuel (by omega) (by omega)
  rw [h4', Bool.eq_iff_iff.2 (h5'.trans h5.symm)]

/-- C36, partial: a map is empty by `hash-map/empty?` exactly if it has no key. -/
theorem hash_map_empty_partial (hq : Spec.KeyEq eq) (hh : ∀ a b, eq a b = true → hash a = hash b) (ops : List (Spec.Op K V))
    (hc : ∀ h, sameHash hash h ops ≤ 2 ^ 32) (hl : ops.length < 2 ^ 64) :
    ∃ m, runOps eq hash ops = some m ∧ (m.isEmpty = true ↔ ∀ k, Spec.run eq ops k = none) := by
  obtain ⟨m, es, h1, h2, h3⟩ := run_rep hq hh ops (m := .empty) .empty (fun h => by simpa [cnt] using hc h)
  refine ⟨m, h1, ?_⟩
  have hlist := h2.listing hh
  rw [HashMap.isEmpty, beq_iff_eq, h2.length, ← BitVec.toNat_inj, BitVec.toNat_ofNat, BitVec.toNat_ofNat,
    Nat.mod_eq_of_lt (show es.length < 2 ^ 64 by simp at h3; omega)]
  constructor
  · intro h k
    have : es = [] := List.length_eq_zero_iff.1 (by simpa using h.symm)
    cases hk : Spec.run eq ops k with
    | none => rfl
    | some v =>
      obtain ⟨e, he, -⟩ := (hlist.lists k v).1 hk
      rw [this] at he; cases he
  · intro h
    cases es with
    | nil => rfl
    | cons e es =>
      have := (hlist.lists e.2.1 e.2.2).2 ⟨e.2, by simp, hq.refl _, rfl⟩
      have h' : Spec.run eq ops e.2.1 = none := h _
      rw [show List.foldl (Spec.step eq) (fun _ => none) ops e.2.1 = Spec.run eq ops e.2.1 from rfl, h'] at this
      cases this

/-! ## Deep copies -/

/-- C36, partial: the deep copy of a map has the same tree, with each key and value copied: no bucket of the copy is left without a value. -/
theorem deep_copy_partial (hq : Spec.KeyEq eq) (hh : ∀ a b, eq a b = true → hash a = hash b) (ops : List (Spec.Op K V))
    (hc : ∀ h, sameHash hash h ops ≤ 2 ^ 32) (dk : K → K) (dv : V → V) :
    ∃ m, runOps eq hash ops = some m ∧ m.deepCopy dk dv = some ⟨m.length, m.tree.map dk dv 13⟩ ∧ m.deepCopy id id = some m := by
  obtain ⟨m, es, h1, h2, -⟩ := run_rep hq hh ops (m := .empty) .empty (fun h => by simpa [cnt] using hc h)
  refine ⟨m, h1, ?_, ?_⟩
  · rw [HashMap.deepCopy, levels, deepCopy_map dk dv h2.rep]; rfl
  · rw [HashMap.deepCopy, levels, deepCopy_map id id h2.rep, map_id]; rfl

/-! ## Too many collisions -/

/-- The number of collision elements is kept as a `U32`: only so many are seen. -/
theorem asCollision_fromCollision (es : List (K × V)) : asCollision (fromCollision es) = some (es.take (es.length % 2 ^ 32)) := by
  rw [fromCollision, asCollision, copy, BitVec.toNat_ofNat, if_pos (by have := Nat.mod_le es.length (2 ^ 32); omega)]
  rfl

/-- The insertions of the keys below `n`. -/
def manyOps (n : Nat) : List (Spec.Op Nat Unit) := (List.range n).map (fun k => .insert k ())

def natEq (a b : Nat) : Bool := decide (a = b)

/-- The collision elements after these insertions, if all keys have the hash 0. -/
def many (n : Nat) : List (Nat × Unit) := (List.range n).map (fun k => (k + 1, ()))

theorem scan_many (n : Nat) : scan natEq (n + 1) (many n) 0 = none := by
  rcases scan_cases (eq := natEq) (n + 1) (many n) with h | ⟨j, hj, -, h⟩
  · exact h.1
  · simp [many, natEq] at h hj; omega

theorem many_succ (n : Nat) : many n ++ [(n + 1, ())] = many (n + 1) := by simp [many, List.range_succ]

theorem insert_many (n : Nat) (hn : 0 < n) (h : n < 2 ^ 32) :
    insert natEq levels 0#64 (n + 1) () (.node 1#32 1#32 [(0#64, 0, ())] [fromCollision (many n)]) =
      some (none, .node 1#32 1#32 [(0#64, 0, ())] [fromCollision (many (n + 1))]) := by
  have hc : collisionElems 1#32 (.node 1#32 1#32 [(0#64, 0, ())] [fromCollision (many n)]) = some (some (many n)) := by
    rw [collisionElems, if_pos (by decide)]
    show (asCollision (fromCollision (many n))).map some = _
    rw [asCollision_fromCollision, show (many n).length = n by simp [many], Nat.mod_eq_of_lt h, List.take_of_length_le (by simp [many])]; rfl
  have hs : search 1#32 (.node 1#32 1#32 [(0#64, 0, ())] [fromCollision (many n)]) = some (some (.elem (0#64, 0, ()))) := rfl
  rw [levels, insert]
  simp only [show consumeHash 0#64 = (1#32, 0#64) by decide, hs, Option.bind_eq_bind, Option.bind_some, if_true, hc, scan_many, many_succ,
    show natEq 0 (n + 1) = false by simp [natEq], Bool.false_eq_true, if_false]
  rfl

theorem run_many (n : Nat) (h : n ≤ 2 ^ 32) (hn : 0 < n) :
    runOps natEq (fun _ => 0#64) (manyOps (n + 1)) =
      some ⟨BitVec.ofNat 64 (n + 1), .node 1#32 1#32 [(0#64, 0, ())] [fromCollision (many n)]⟩ := by
  induction n with
  | zero => omega
  | succ n ih =>
    by_cases h0 : n = 0
    · subst h0; rfl
    · rw [runOps, manyOps, List.range_succ, List.map_append, List.foldlM_append]
      have := ih (by omega) (by omega)
      rw [runOps, manyOps] at this
      rw [this]
      simp only [Option.bind_eq_bind, Option.bind_some, List.map_cons, List.map_nil, List.foldlM_cons, List.foldlM_nil, applyOp, HashMap.insert,
        insert_many n (by omega) (by omega)]
      simp only [Option.pure_def, Option.bind_some, Option.isNone_none, if_true]
      rw [show BitVec.ofNat 64 (n + 1) + 1 = BitVec.ofNat 64 (n + 1 + 1) by rw [BitVec.ofNat_add (n + 1) 1]; rfl]

theorem get_none (n : BitVec 64) (l : List (Nat × Unit)) (hl : l.length % 2 ^ 32 = 0) :
    HashMap.get natEq (fun _ => 0#64) 1 ⟨n, .node 1#32 1#32 [(0#64, 0, ())] [fromCollision l]⟩ = some none := by
  have hc : collisionElems 1#32 (.node 1#32 1#32 [(0#64, 0, ())] [fromCollision l]) = some (some []) := by
    rw [collisionElems, if_pos (by decide)]
    show (asCollision (fromCollision l)).map some = _
    rw [asCollision_fromCollision, hl, List.take_zero]; rfl
  have hs : search 1#32 (.node 1#32 1#32 [(0#64, 0, ())] [fromCollision l]) = some (some (.elem (0#64, 0, ()))) := rfl
  rw [HashMap.get, levels, get]
  simp only [show consumeHash 0#64 = (1#32, 0#64) by decide, hs, Option.bind_eq_bind, Option.bind_some, hc, ne_eq, not_true_eq_false, if_false,
    show natEq 0 1 = false by decide, Bool.false_eq_true]
  rw [show scan natEq 1 ([] : List (Nat × Unit)) 0 = none by rw [scan]; rfl]
  rfl

/-- The hypothesis on the number of keys of one hash cannot be left out: after 2^32 + 1 insertions of keys with one hash the map
still has the length 2^32 + 1, but no longer has the key 1. -/
theorem collision_overflow : ∃ m, runOps natEq (fun _ => 0#64) (manyOps (2 ^ 32 + 1)) = some m ∧ m.length.toNat = 2 ^ 32 + 1 ∧
    Spec.run natEq (manyOps (2 ^ 32 + 1)) 1 = some () ∧ m.get natEq (fun _ => 0#64) 1 = some none := by
  refine ⟨_, run_many (2 ^ 32) (Nat.le_refl _) (by decide), rfl, ?_, ?_⟩
  · have : ∀ n, 1 < n → Spec.run natEq (manyOps n) 1 = some () := by
      intro n hn
      induction n with
      | zero => omega
      | succ n ih =>
        rw [Spec.run, manyOps, List.range_succ, List.map_append, List.foldl_append]
        simp only [List.map_cons, List.map_nil, List.foldl_cons, List.foldl_nil, Spec.step]
        by_cases h1 : n = 1
        · subst h1; rfl
        · rw [if_neg (by simpa [natEq] using h1)]
          exact ih (by omega)
    exact this _ (by omega)
  · exact get_none _ _ (by rw [many, List.length_map, List.length_range, Nat.mod_self])

/-! ## Concrete runs

The keys are numbers; 7, 10 and 13 have the hash 1024 * 1, as has 1, so that they collide at all levels, and 2 shares two levels with them. -/

/-- The hash of the examples. -/
def exHash (k : Nat) : BitVec 64 := BitVec.ofNat 64 (k % 3 * 1024)

/-- Insertions, overwriting and removals which make, split and merge nodes. -/
def exOps : List (Spec.Op Nat Nat) :=
  [.insert 1 10, .insert 7 70, .insert 2 20, .insert 10 100, .insert 13 130, .insert 7 71, .remove 1, .remove 2, .insert 5 50, .remove 99, .remove 13]

theorem natEq_key : Spec.KeyEq natEq := ⟨by simp [natEq], by simp only [natEq, decide_eq_true_eq]; exact fun _ _ h => h.symm,
  by simp only [natEq, decide_eq_true_eq]; exact fun _ _ _ h g => h.trans g⟩

theorem natEq_hash (f : Nat → BitVec 64) (a b : Nat) (h : natEq a b = true) : f a = f b := by
  rw [natEq, decide_eq_true_eq] at h; rw [h]

theorem exOps_few (h : Nat) : sameHash exHash h exOps ≤ 2 ^ 32 :=
  Nat.le_trans List.countP_le_length (by decide)

/-- The keys of the examples collide on all 64 bits: the map has keys with two hashes only. -/
example : exHash 1 = exHash 7 ∧ exHash 7 = exHash 13 ∧ exHash 1 ≠ exHash 2 ∧ (exHash 1).toNat % 1024 = (exHash 2).toNat % 1024 := by decide

example : (runOps natEq exHash exOps).bind (·.get natEq exHash 7) = some (some 71) := by
  obtain ⟨m, h1, h2, -⟩ := hash_map_partial natEq_key (natEq_hash exHash) exOps exOps_few
  rw [h1]; exact (h2 7).trans (by decide)

example : (runOps natEq exHash exOps).bind (·.get natEq exHash 1) = some none := by
  obtain ⟨m, h1, h2, -⟩ := hash_map_partial natEq_key (natEq_hash exHash) exOps exOps_few
  rw [h1]; exact (h2 1).trans (by decide)

/-- The same by evaluation: three keys are left, and the iteration gives them with their values. -/
example : (runOps natEq exHash exOps).map (fun m => (m.length, m.isEmpty)) = some (3#64, false) := by decide +kernel
example : (runOps natEq exHash exOps).bind (·.elems 2000 10) = some [(7, 71), (10, 100), (5, 50)] := by decide +kernel
example : (runOps natEq exHash exOps).bind (fun m => (m.deepCopy id (· + 1)).bind (·.elems 2000 10)) = some [(7, 72), (10, 101), (5, 51)] := by
  decide +kernel

/-- Maps made in another way are equal by `eq?`, and a map with another value is not. -/
example : (do (← runOps natEq exHash exOps).eqMap natEq exHash natEq 2000 10 (← HashMap.collect natEq exHash [(5, 50), (10, 100), (7, 71)])) = some true ∧
    (do (← runOps natEq exHash exOps).eqMap natEq exHash natEq 2000 10 (← HashMap.collect natEq exHash [(5, 50), (10, 100), (7, 70)])) = some false := by
  decide +kernel

/-- Removing the only other hash merges the nodes up to the root: its bit 0 is an element again. -/
example : (runOps natEq exHash (exOps.take 3)).map (fun m => match m.tree with | .node e c _ _ => (e, c) | _ => (0, 0)) = some (0#32, 1#32) ∧
    (runOps natEq exHash (exOps.take 3 ++ [.remove 2])).map (fun m => match m.tree with | .node e c _ _ => (e, c) | _ => (0, 0)) =
      some (1#32, 1#32) := by decide +kernel

end Verif.Hamt
