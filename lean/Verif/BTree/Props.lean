import Verif.BTree.Cursor
import Verif.BTree.Spec

/-! # Properties of the mutable ordered map -/
namespace Verif.BTree
open Std (TransCmp OrientedCmp LawfulEqCmp)

variable {K V : Type} (cmp : K → K → Ordering)

/-- One operation on the map, in the model. -/
def applyOp (fuel : Nat) (m : OrdMap K V) : Spec.Op K V → Option (Spec.Out K V × OrdMap K V)
  | .get k => (m.get cmp fuel k).map (.value ·, m)
  | .getMin => (m.getMin fuel).map (.elem ·, m)
  | .getMax => (m.getMax fuel).map (.elem ·, m)
  | .insert k v => (m.insert cmp fuel k v).map fun r => (.value r.1, r.2)
  | .remove k => (m.remove cmp fuel k).map fun r => (.value r.1, r.2)
  | .removeMin => (m.removeMin fuel).map fun r => (.elem r.1, r.2)
  | .removeMax => (m.removeMax fuel).map fun r => (.elem r.1, r.2)
  | .clear => some (.unit, .empty)

/-- A sequence of operations, in the model; `none` if an assertion fails, or if a place is read that was never written. -/
def runOps (fuel : Nat) : List (Spec.Op K V) → OrdMap K V → Option (List (Spec.Out K V) × OrdMap K V)
  | [], m => some ([], m)
  | op :: ops, m => do
    let (out, m) ← applyOp cmp fuel m op
    let (outs, m) ← runOps fuel ops m
    pure (out :: outs, m)

/-- The map after `c` operations: a tree of the elements of the finite map. -/
structure MapOk (c : Nat) (m : OrdMap K V) (es : List (K × V)) (f : Spec.FMap K V) : Prop where
  root : ∃ h, Root h m.root es ∧ h ≤ c
  listing : Spec.Listing cmp es f
  length : m.length = BitVec.ofNat 64 es.length
  bound : es.length ≤ c

variable {cmp} [TransCmp cmp]

/-! ## Listings -/

theorem eq_trans_left {x k y : K} (h : cmp x k = .eq) : cmp x y = cmp k y := TransCmp.congr_left h

/-- The element for the key is between the smaller and the greater ones; here it is exchanged. -/
theorem update_listing {k : K} {a b : List (K × V)} {o o' : Option (K × V)} {f} (hl : Spec.Listing cmp (a ++ o.toList ++ b) f) (ha : Below cmp k a) (hb : Above cmp k b)
    (ho : ∀ e, o = some e → cmp k e.1 = .eq) (ho' : ∀ e, o' = some e → cmp k e.1 = .eq) :
    f k = o ∧ Spec.Listing cmp (a ++ o'.toList ++ b) (fun x => if cmp x k = .eq then o' else f x) := by
  have hmid : ∀ o : Option (K × V), (∀ e, o = some e → cmp k e.1 = .eq) → ∀ x e, (e ∈ a ++ o.toList ++ b ∧ cmp x e.1 = .eq) ↔
      if cmp x k = .eq then o = some e else (e ∈ a ++ b ∧ cmp x e.1 = .eq) := by
    intro o ho x e
    by_cases hx : cmp x k = .eq
    · rw [if_pos hx]
      constructor
      · rintro ⟨h1, h2⟩
        rw [eq_trans_left hx] at h2
        simp only [List.mem_append, Option.mem_toList] at h1
        rcases h1 with (h1 | h1) | h1
        · rw [ha e h1] at h2; cases h2
        · exact h1
        · rw [hb e h1] at h2; cases h2
      · rintro rfl
        exact ⟨by simp, by rw [eq_trans_left hx]; exact ho e rfl⟩
    · rw [if_neg hx]
      constructor
      · rintro ⟨h1, h2⟩
        simp only [List.mem_append, Option.mem_toList] at h1
        rcases h1 with (h1 | h1) | h1
        · exact ⟨by simp [h1], h2⟩
        · refine absurd ?_ hx
          exact TransCmp.eq_trans h2 (OrientedCmp.eq_symm (ho e h1))
        · exact ⟨by simp [h1], h2⟩
      · rintro ⟨h1, h2⟩
        rcases List.mem_append.1 h1 with h1 | h1
        · exact ⟨by simp [h1], h2⟩
        · exact ⟨by simp [h1], h2⟩
  have hfx : ∀ x e, f x = some e ↔ if cmp x k = .eq then o = some e else (e ∈ a ++ b ∧ cmp x e.1 = .eq) := fun x e => (hl.mem x e).trans (hmid o ho x e)
  refine ⟨?_, ?_, fun x e => ?_⟩
  · refine Option.ext fun e => ?_
    have := hfx k e
    rw [if_pos Std.ReflCmp.compare_self] at this
    exact this
  · have hs := hl.sorted
    have hsa : a.Pairwise (fun a b => cmp a.1 b.1 = .lt) := (List.pairwise_append.1 (List.pairwise_append.1 hs).1).1
    have hsb : b.Pairwise (fun a b => cmp a.1 b.1 = .lt) := (List.pairwise_append.1 hs).2.1
    have hak : ∀ x ∈ a, cmp x.1 k = .lt := fun x hx => OrientedCmp.gt_iff_lt.1 (ha x hx)
    refine List.pairwise_append.2 ⟨List.pairwise_append.2 ⟨hsa, ?_, ?_⟩, hsb, ?_⟩
    · cases o' with
      | none => exact .nil
      | some e => exact List.pairwise_singleton _ _
    · intro x hx y hy
      rw [Option.mem_toList] at hy
      exact TransCmp.lt_of_lt_of_eq (hak x hx) (ho' y hy)
    · intro x hx y hy
      rcases List.mem_append.1 hx with hx | hx
      · exact TransCmp.lt_trans (hak x hx) (hb y hy)
      · rw [Option.mem_toList] at hx
        exact TransCmp.lt_of_eq_of_lt (OrientedCmp.eq_symm (ho' x hx)) (hb y hy)
  · rw [hmid o' ho' x e]
    by_cases hx : cmp x k = .eq
    · simp only [if_pos hx]
    · simp only [if_neg hx]
      have := hfx x e
      rw [if_neg hx] at this
      exact this

theorem listing_get {es : List (K × V)} {f} (hl : Spec.Listing cmp es f) {k r} (h : Got cmp k es r) : r = (f k).map Prod.snd := by
  rcases h with ⟨rfl, h⟩ | ⟨e, h1, h2, rfl⟩
  · cases hf : f k with
    | none => rfl
    | some e => exact absurd ((hl.mem k e).1 hf).2 (h e ((hl.mem k e).1 hf).1)
  · rw [(hl.mem k e).2 ⟨h1, h2⟩]; rfl

theorem listing_absent {es : List (K × V)} {f} (hl : Spec.Listing cmp es f) {k} (h : ∀ e ∈ es, cmp k e.1 ≠ .eq) :
    f k = none ∧ Spec.Listing cmp es (Spec.drop cmp k f) := by
  constructor
  · cases hf : f k with
    | none => rfl
    | some e => exact absurd ((hl.mem k e).1 hf).2 (h e ((hl.mem k e).1 hf).1)
  · refine ⟨hl.sorted, fun x e => ?_⟩
    rw [Spec.drop]
    by_cases hx : cmp x k = .eq
    · rw [if_pos hx]
      refine ⟨fun h => (by cases h), fun ⟨h1, h2⟩ => ?_⟩
      rw [eq_trans_left hx] at h2
      exact absurd h2 (h e h1)
    · rw [if_neg hx]; exact hl.mem x e

theorem listing_least {e : K × V} {t f} (hl : Spec.Listing cmp (e :: t) f) : Spec.Least cmp f e ∧ Spec.Listing cmp t (Spec.drop cmp e.1 f) := by
  have hs := List.pairwise_cons.1 hl.sorted
  refine ⟨⟨(hl.mem _ _).2 ⟨by simp, Std.ReflCmp.compare_self⟩, fun k e' he => ?_⟩, ?_⟩
  · rcases List.mem_cons.1 ((hl.mem k e').1 he).1 with h | h
    · exact .inl h
    · exact .inr (hs.1 _ h)
  · have := (update_listing (a := []) (o := some e) (o' := none) (k := e.1) hl (fun x hx => by cases hx) hs.1
      (fun x hx => by injection hx with hx; rw [← hx]; exact Std.ReflCmp.compare_self) (fun x hx => by cases hx)).2
    exact this

theorem listing_greatest {e : K × V} {t f} (hl : Spec.Listing cmp (t ++ [e]) f) : Spec.Greatest cmp f e ∧ Spec.Listing cmp t (Spec.drop cmp e.1 f) := by
  have hs := List.pairwise_append.1 hl.sorted
  refine ⟨⟨(hl.mem _ _).2 ⟨by simp, Std.ReflCmp.compare_self⟩, fun k e' he => ?_⟩, ?_⟩
  · rcases List.mem_append.1 ((hl.mem k e').1 he).1 with h | h
    · exact .inr (hs.2.2 _ h _ (by simp))
    · exact .inl (List.mem_singleton.1 h)
  · have := (update_listing (a := t) (b := []) (o := some e) (o' := none) (k := e.1) (by simpa using hl)
      (fun x hx => OrientedCmp.gt_iff_lt.2 (hs.2.2 x hx e (by simp))) (fun x hx => by cases hx)
      (fun x hx => by injection hx with hx; rw [← hx]; exact Std.ReflCmp.compare_self) (fun x hx => by cases hx)).2
    rw [List.append_assoc, Option.toList_none, List.nil_append, List.append_nil] at this
    exact this

omit [TransCmp cmp] in
theorem listing_empty {f : Spec.FMap K V} : Spec.Listing cmp [] f ↔ Spec.Empty f := by
  constructor
  · intro h k
    cases hf : f k with
    | none => rfl
    | some e => exact absurd ((h.mem k e).1 hf).1 (by simp)
  · intro h
    exact ⟨.nil, fun k e => by rw [h k]; simp⟩

/-! ## Operations -/

omit [TransCmp cmp] in
theorem MapOk.zero {c} {m : OrdMap K V} {es f} (h : MapOk cmp c m es f) (hb : es.length < 2 ^ 64) : 0#64 = m.length ↔ es = [] := by
  rw [h.length]
  constructor
  · intro h
    have := congrArg BitVec.toNat h
    rw [BitVec.toNat_ofNat, BitVec.toNat_ofNat, Nat.mod_eq_of_lt hb] at this
    exact List.length_eq_zero_iff.1 this.symm
  · rintro rfl; rfl

omit [TransCmp cmp] in
theorem ofNat_pred {n : Nat} : BitVec.ofNat 64 (n + 1) - 1 = BitVec.ofNat 64 n := by
  apply BitVec.eq_of_toNat_eq
  simp [BitVec.toNat_sub]
  omega

theorem apply_ok {c} {m : OrdMap K V} {es f} (h : MapOk cmp c m es f) (hb : es.length < 2 ^ 64) {fuel : Nat} (hf : c < fuel) (op : Spec.Op K V) :
    ∃ out m' es' f', applyOp cmp fuel m op = some (out, m') ∧ Spec.Step cmp f op out f' ∧ MapOk cmp (c + 1) m' es' f' := by
  obtain ⟨ht, hroot, hh⟩ := h.root
  have same : MapOk cmp (c + 1) m es f := ⟨⟨ht, hroot, by omega⟩, h.listing, h.length, by have := h.bound; omega⟩
  have hz := h.zero hb
  have hbd := h.bound
  cases op with
  | get k =>
    obtain ⟨r, h1, h2⟩ := get_spec cmp k hroot.rep h.listing.sorted (fuel := fuel) (by omega)
    rw [listing_get h.listing h2] at h1
    exact ⟨_, _, _, _, by rw [applyOp, OrdMap.get, h1]; rfl, .get k, same⟩
  | getMin =>
    by_cases he : es = []
    · refine ⟨_, _, _, _, by rw [applyOp, OrdMap.getMin, if_pos (hz.2 he)]; rfl, .getMinEmpty ?_, same⟩
      have := h.listing
      rw [he] at this
      exact listing_empty.1 this
    · obtain ⟨e, t, h1, h2⟩ := getMin_spec hroot.rep (hroot.nonempty.1 he) (fuel := fuel) (by omega)
      refine ⟨_, _, _, _, by rw [applyOp, OrdMap.getMin, if_neg (fun h => he (hz.1 h)), h1]; rfl, .getMin e ?_, same⟩
      have := h.listing
      rw [h2] at this
      exact (listing_least this).1
  | getMax =>
    by_cases he : es = []
    · refine ⟨_, _, _, _, by rw [applyOp, OrdMap.getMax, if_pos (hz.2 he)]; rfl, .getMaxEmpty ?_, same⟩
      have := h.listing
      rw [he] at this
      exact listing_empty.1 this
    · obtain ⟨e, t, h1, h2⟩ := getMax_spec hroot.rep (hroot.nonempty.1 he) (fuel := fuel) (by omega)
      refine ⟨_, _, _, _, by rw [applyOp, OrdMap.getMax, if_neg (fun h => he (hz.1 h)), h1]; rfl, .getMax e ?_, same⟩
      have := h.listing
      rw [h2] at this
      exact (listing_greatest this).1
  | insert k v =>
    obtain ⟨r, n', h1, h2⟩ := insert_spec cmp k v hroot.rep h.listing.sorted (fuel := fuel) (by omega)
    have hl := h.listing
    have hlen := h.length
    cases h2 with
    | replace a b k' w _ he hc hr hl' =>
      subst he
      have hs := List.pairwise_append.1 hl.sorted
      have ha : Below cmp k a := fun x hx => by
        rw [eq_trans_left hc]
        exact OrientedCmp.gt_iff_lt.2 (hs.2.2 x hx _ List.mem_cons_self)
      have hbv : Above cmp k b := fun x hx => by
        rw [eq_trans_left hc]
        exact (List.pairwise_cons.1 hs.2.1).1 x hx
      obtain ⟨g1, g2⟩ := update_listing (o := some (k', w)) (o' := some (k', v)) (by simpa using hl) ha hbv
        (fun e he => by injection he with he; rw [← he]; exact hc) (fun e he => by injection he with he; rw [← he]; exact hc)
      refine ⟨.value (some w), ⟨m.length, n'⟩, a ++ (k', v) :: b, Spec.put cmp k v f, ?_, ?_, ⟨⟨ht, ⟨hr, ?_⟩, by omega⟩, ?_, ?_, ?_⟩⟩
      · simp [applyOp, OrdMap.insert, h1]
      · have := Spec.Step.insert (cmp := cmp) (m := f) k v
        rw [g1] at this
        exact this
      · rcases hroot.some_elem with h0 | h0
        · exact .inl h0
        · exact .inr (by show 1 ≤ n'.length; omega)
      · have : Spec.put cmp k v f = fun x => if cmp x k = .eq then some (k', v) else f x := by
          funext x; simp [Spec.put, g1]
        rw [this]; simpa using g2
      · show m.length = _
        rw [hlen]; simp
      · simp at hbd ⊢; omega
    | fit a b _ he ha hbv hr hl' =>
      subst he
      obtain ⟨g1, g2⟩ := update_listing (o := none) (o' := some (k, v)) (by simpa using hl) ha hbv
        (fun e he => by cases he) (fun e he => by injection he with he; rw [← he]; exact Std.ReflCmp.compare_self)
      refine ⟨.value none, ⟨m.length + 1, n'⟩, a ++ (k, v) :: b, Spec.put cmp k v f, ?_, ?_, ⟨⟨ht, ⟨hr, ?_⟩, by omega⟩, ?_, ?_, ?_⟩⟩
      · simp [applyOp, OrdMap.insert, h1]
      · have := Spec.Step.insert (cmp := cmp) (m := f) k v
        rw [g1] at this
        exact this
      · rcases hroot.some_elem with h0 | h0
        · exact .inl h0
        · exact .inr (by show 1 ≤ n'.length; omega)
      · have : Spec.put cmp k v f = fun x => if cmp x k = .eq then some (k, v) else f x := by
          funext x; simp [Spec.put, g1]
        rw [this]; simpa using g2
      · show m.length + 1 = _
        rw [hlen]
        apply BitVec.eq_of_toNat_eq
        simp
        omega
      · simp at hbd ⊢; omega
    | split a b mid l1 l2 r _ he ha hbv hm hr1 hr2 g3 g4 =>
      subst he
      obtain ⟨g1, g2⟩ := update_listing (o := none) (o' := some (k, v)) (by simpa using hl) ha hbv
        (fun e he => by cases he) (fun e he => by injection he with he; rw [← he]; exact Std.ReflCmp.compare_self)
      obtain ⟨root, k1, k2⟩ := newRoot_eq mid.1 mid.2 n' r
      refine ⟨.value none, ⟨m.length + 1, root⟩, a ++ (k, v) :: b, Spec.put cmp k v f, ?_, ?_, ⟨⟨ht + 1, ⟨⟨_, [(n', l1), (r, l2)], k2, ?_, ?_⟩, ?_⟩, by omega⟩, ?_, ?_, ?_⟩⟩
      · simp [applyOp, OrdMap.insert, h1, k1]
      · have := Spec.Step.insert (cmp := cmp) (m := f) k v
        rw [g1] at this
        exact this
      · intro p hp
        simp only [List.mem_cons, List.not_mem_nil, or_false] at hp
        rcases hp with rfl | rfl
        · exact ⟨hr1, g3⟩
        · exact ⟨hr2, g4⟩
      · rw [hm]; simp [join, right]
      · exact .inr (by show 1 ≤ root.length; rw [k2.length]; simp)
      · have : Spec.put cmp k v f = fun x => if cmp x k = .eq then some (k, v) else f x := by
          funext x; simp [Spec.put, g1]
        rw [this]; simpa using g2
      · show m.length + 1 = _
        rw [hlen]
        apply BitVec.eq_of_toNat_eq
        simp
        omega
      · simp at hbd ⊢; omega
  | remove k =>
    obtain ⟨r, n', h1, h2⟩ := remove_spec cmp k hroot.rep h.listing.sorted hroot.some_elem (fuel := fuel) (by omega)
    have hl := h.listing
    have hlen := h.length
    cases h2 with
    | absent _ hk hr hl' =>
      obtain ⟨g1, g2⟩ := listing_absent hl hk
      refine ⟨.value none, ⟨m.length, n'⟩, es, Spec.drop cmp k f, ?_, ?_, ⟨⟨ht, ⟨hr, ?_⟩, by omega⟩, g2, hlen, by omega⟩⟩
      · simp [applyOp, OrdMap.remove, h1]
      · have := Spec.Step.remove (cmp := cmp) (m := f) k
        rw [g1] at this
        exact this
      · rcases hroot.some_elem with h0 | h0
        · exact .inl h0
        · exact .inr (by show 1 ≤ n'.length; omega)
    | removed a e b _ he hc hr hl' =>
      subst he
      have hs := List.pairwise_append.1 hl.sorted
      have ha : Below cmp k a := fun x hx => by
        rw [eq_trans_left hc]
        exact OrientedCmp.gt_iff_lt.2 (hs.2.2 x hx _ List.mem_cons_self)
      have hbv : Above cmp k b := fun x hx => by
        rw [eq_trans_left hc]
        exact (List.pairwise_cons.1 hs.2.1).1 x hx
      obtain ⟨g1, g2⟩ := update_listing (o := some e) (o' := none) (by simpa using hl) ha hbv
        (fun x hx => by injection hx with hx; rw [← hx]; exact hc) (fun x hx => by cases hx)
      obtain ⟨root, h', k1, k2, k3⟩ := simplifyRoot_spec hr
      refine ⟨.value (some e.2), ⟨m.length - 1, root⟩, a ++ b, Spec.drop cmp k f, ?_, ?_, ⟨⟨h', k2, by omega⟩, by rw [Option.toList_none, List.append_nil] at g2; exact g2, ?_, ?_⟩⟩
      · simp [applyOp, OrdMap.remove, h1, k1]
      · have := Spec.Step.remove (cmp := cmp) (m := f) k
        rw [g1] at this
        exact this
      · show m.length - 1 = _
        rw [hlen, List.length_append, List.length_cons, ← Nat.add_assoc, ofNat_pred, List.length_append]
      · simp at hbd ⊢; omega
  | removeMin =>
    by_cases he : es = []
    · refine ⟨_, _, _, _, by rw [applyOp, OrdMap.removeMin, if_pos (hz.2 he)]; rfl, .removeMinEmpty ?_, same⟩
      have := h.listing
      rw [he] at this
      exact listing_empty.1 this
    · obtain ⟨e, t, n', h1, h2, h3, h4⟩ := removeSmallest_spec hroot.rep (hroot.nonempty.1 he) (fuel := fuel) (by omega)
      obtain ⟨root, h', k1, k2, k3⟩ := simplifyRoot_spec h3
      have hl := h.listing
      have hlen := h.length
      rw [h2] at hl hlen hbd
      refine ⟨.elem (some e), ⟨m.length - 1, root⟩, t, _, ?_, .removeMin e (listing_least hl).1, ⟨⟨h', k2, by omega⟩, (listing_least hl).2, ?_, ?_⟩⟩
      · rw [applyOp, OrdMap.removeMin, if_neg (fun h => he (hz.1 h))]
        simp [h1, k1]
      · show m.length - 1 = _
        rw [hlen, List.length_cons, ofNat_pred]
      · simp at hbd; omega
  | removeMax =>
    by_cases he : es = []
    · refine ⟨_, _, _, _, by rw [applyOp, OrdMap.removeMax, if_pos (hz.2 he)]; rfl, .removeMaxEmpty ?_, same⟩
      have := h.listing
      rw [he] at this
      exact listing_empty.1 this
    · obtain ⟨e, t, n', h1, h2, h3, h4⟩ := removeLargest_spec hroot.rep (hroot.nonempty.1 he) (fuel := fuel) (by omega)
      obtain ⟨root, h', k1, k2, k3⟩ := simplifyRoot_spec h3
      have hl := h.listing
      have hlen := h.length
      rw [h2] at hl hlen hbd
      refine ⟨.elem (some e), ⟨m.length - 1, root⟩, t, _, ?_, .removeMax e (listing_greatest hl).1, ⟨⟨h', k2, by omega⟩, (listing_greatest hl).2, ?_, ?_⟩⟩
      · rw [applyOp, OrdMap.removeMax, if_neg (fun h => he (hz.1 h))]
        simp [h1, k1]
      · show m.length - 1 = _
        rw [hlen, List.length_append, List.length_singleton, ofNat_pred]
      · simp at hbd; omega
  | clear =>
    exact ⟨_, _, [], _, rfl, .clear, ⟨⟨0, ⟨shape_newLeaf, .inl rfl⟩, by omega⟩, listing_empty.2 (fun _ => rfl), rfl, by simp⟩⟩

omit [TransCmp cmp] in
theorem MapOk.empty : MapOk cmp 0 (.empty : OrdMap K V) [] (fun _ => none) :=
  ⟨⟨0, ⟨shape_newLeaf, .inl rfl⟩, Nat.le_refl _⟩, listing_empty.2 (fun _ => rfl), rfl, Nat.le_refl _⟩

theorem run_ok (ops : List (Spec.Op K V)) {c} {m : OrdMap K V} {es f} (h : MapOk cmp c m es f)
    (hk : ∀ ks : List (K × V), ks.Pairwise (fun a b => cmp a.1 b.1 = .lt) → ks.length ≤ c + ops.length → ks.length < 2 ^ 64) {fuel : Nat} (hf : c + ops.length ≤ fuel) :
    ∃ outs m' es' f', runOps cmp fuel ops m = some (outs, m') ∧ Spec.Run cmp f ops outs f' ∧ MapOk cmp (c + ops.length) m' es' f' := by
  induction ops generalizing c m es f with
  | nil => exact ⟨_, _, _, _, rfl, .nil f, h⟩
  | cons op ops ih =>
    rw [List.length_cons] at hk hf
    obtain ⟨out, m1, es1, f1, h1, h2, h3⟩ := apply_ok h (hk es h.listing.sorted (by have := h.bound; omega)) (fuel := fuel) (by omega) op
    obtain ⟨outs, m2, es2, f2, g1, g2, g3⟩ := ih h3 (fun ks a b => hk ks a (by omega)) (by omega)
    refine ⟨out :: outs, m2, es2, f2, ?_, .cons f op out f1 ops outs f2 h2 g2, by rw [List.length_cons, show c + (ops.length + 1) = c + 1 + ops.length by omega]; exact g3⟩
    rw [runOps, h1]
    simp [g1]

/-! ## C33 -/

/-- C33: any sequence of operations gives what a finite map gives: no assertion fails, nothing is read that was not written, each output is that of the finite map,
the iteration gives the elements of the finite map in the order of their keys, and the length is their number.  A recursion as deep as the number of operations
is enough.  The length is a `U64`: there must be fewer than `2^64` keys, which is so for any sequence of fewer operations, and for any keys in an address space. -/
theorem ord_map (ops : List (Spec.Op K V)) (hk : ∀ ks : List (K × V), ks.Pairwise (fun a b => cmp a.1 b.1 = .lt) → ks.length ≤ ops.length → ks.length < 2 ^ 64)
    {fuel : Nat} (hf : ops.length < fuel) :
    ∃ outs m f es, runOps cmp fuel ops .empty = some (outs, m) ∧ Spec.Run cmp (fun _ => none) ops outs f ∧ Spec.Listing cmp es f ∧
      m.elems fuel (fuel + 1) fuel = some es ∧ m.length.toNat = es.length ∧ (m.isEmpty = true ↔ Spec.Empty f) := by
  obtain ⟨outs, m, es, f, h1, h2, h3⟩ := run_ok ops (.empty (cmp := cmp) (K := K) (V := V)) (fun ks a b => hk ks a (by omega)) (fuel := fuel) (by omega)
  rw [Nat.zero_add] at h3
  obtain ⟨h, hr, hh⟩ := h3.root
  have hb := h3.bound
  have hlt := hk es h3.listing.sorted hb
  refine ⟨outs, m, f, es, h1, h2, h3.listing, elems_spec hr.rep (by omega) (by omega) (by omega), ?_, ?_⟩
  · rw [h3.length, BitVec.toNat_ofNat, Nat.mod_eq_of_lt hlt]
  · rw [OrdMap.isEmpty, beq_iff_eq, h3.zero hlt]
    constructor
    · rintro rfl; exact listing_empty.1 h3.listing
    · intro he
      cases hes : es with
      | nil => rfl
      | cons e t =>
        have := (h3.listing.mem e.1 e).2 ⟨by simp [hes], Std.ReflCmp.compare_self⟩
        rw [he] at this; cases this

theorem least_unique {f : Spec.FMap K V} {e e'} (h : Spec.Least cmp f e) (h' : Spec.Least cmp f e') : e = e' := by
  rcases h.2 _ _ h'.1 with h1 | h1
  · exact h1.symm
  · rcases h'.2 _ _ h.1 with h2 | h2
    · exact h2
    · rw [OrientedCmp.gt_of_lt h1] at h2; cases h2

theorem greatest_unique {f : Spec.FMap K V} {e e'} (h : Spec.Greatest cmp f e) (h' : Spec.Greatest cmp f e') : e = e' := by
  rcases h.2 _ _ h'.1 with h1 | h1
  · exact h1.symm
  · rcases h'.2 _ _ h.1 with h2 | h2
    · exact h2
    · rw [OrientedCmp.gt_of_lt h1] at h2; cases h2

theorem step_unique {f : Spec.FMap K V} {op o o' f1 f2} (h : Spec.Step cmp f op o f1) (h' : Spec.Step cmp f op o' f2) : o = o' ∧ f1 = f2 := by
  have least_empty : ∀ {e}, Spec.Least cmp f e → Spec.Empty f → False := fun h1 h2 => by have := h1.1; rw [h2] at this; cases this
  have greatest_empty : ∀ {e}, Spec.Greatest cmp f e → Spec.Empty f → False := fun h1 h2 => by have := h1.1; rw [h2] at this; cases this
  cases h <;> cases h'
  case getMin.getMin _ h1 _ h2 => rw [least_unique h1 h2]; exact ⟨rfl, rfl⟩
  case getMin.getMinEmpty _ h1 h2 => exact (least_empty h1 h2).elim
  case getMinEmpty.getMin h2 _ h1 => exact (least_empty h1 h2).elim
  case getMax.getMax _ h1 _ h2 => rw [greatest_unique h1 h2]; exact ⟨rfl, rfl⟩
  case getMax.getMaxEmpty _ h1 h2 => exact (greatest_empty h1 h2).elim
  case getMaxEmpty.getMax h2 _ h1 => exact (greatest_empty h1 h2).elim
  case removeMin.removeMin _ h1 _ h2 => rw [least_unique h1 h2]; exact ⟨rfl, rfl⟩
  case removeMin.removeMinEmpty _ h1 h2 => exact (least_empty h1 h2).elim
  case removeMinEmpty.removeMin h2 _ h1 => exact (least_empty h1 h2).elim
  case removeMax.removeMax _ h1 _ h2 => rw [greatest_unique h1 h2]; exact ⟨rfl, rfl⟩
  case removeMax.removeMaxEmpty _ h1 h2 => exact (greatest_empty h1 h2).elim
  case removeMaxEmpty.removeMax h2 _ h1 => exact (greatest_empty h1 h2).elim
  all_goals exact ⟨rfl, rfl⟩

/-- C33: the finite map leaves no choice, so the outputs of the map are the only right ones. -/
theorem ord_map_outputs_unique {f : Spec.FMap K V} {ops o o' f1 f2} (h : Spec.Run cmp f ops o f1) (h' : Spec.Run cmp f ops o' f2) : o = o' ∧ f1 = f2 := by
  induction h generalizing o' f2 with
  | nil f => cases h'; exact ⟨rfl, rfl⟩
  | cons f op out f' ops outs f'' hs hr ih =>
    cases h' with
    | cons _ _ out2 f2' _ outs2 _ hs2 hr2 =>
      obtain ⟨rfl, rfl⟩ := step_unique hs hs2
      obtain ⟨rfl, rfl⟩ := ih hr2
      exact ⟨rfl, rfl⟩

/-! ### Non-vacuity -/

/-- The layout of a node of two levels: the keys of the root, and those of its children. -/
def layout (n : Node Nat Nat) : List Nat × List (List Nat) :=
  ((n.keys.take n.length).filterMap id,
    match n.edges with
    | none => []
    | some e => ((e.take (n.length + 1)).filterMap id).map fun c => (c.keys.take c.length).filterMap id)

/-- The operations, and then the layout of the tree. -/
def after (ops : List (Spec.Op Nat Nat)) : Option (List Nat × List (List Nat)) := (runOps compare 80 ops .empty).map fun r => layout r.2.root

/-- The keys are inserted in turn. -/
def puts (ks : List Nat) : List (Spec.Op Nat Nat) := ks.map fun k => .insert k (10 * k)

-- a leaf is full, and splits on either side of its middle
example : after (puts (List.range 11)) = some ([0, 1, 2, 3, 4, 5, 6, 7, 8, 9, 10], []) := by decide +kernel
example : after (puts (List.range 12)) = some ([5], [[0, 1, 2, 3, 4], [6, 7, 8, 9, 10, 11]]) := by decide +kernel
example : after (puts ((List.range 11).map (· + 1) ++ [0])) = some ([6], [[0, 1, 2, 3, 4, 5], [7, 8, 9, 10, 11]]) := by decide +kernel
-- a leaf takes an element from its right, and one from its left
example : after (puts (List.range 12) ++ [.remove 0]) = some ([6], [[1, 2, 3, 4, 5], [7, 8, 9, 10, 11]]) := by decide +kernel
example : after (puts ((List.range 11).map (· + 1) ++ [0]) ++ [.remove 11]) = some ([5], [[0, 1, 2, 3, 4], [6, 7, 8, 9, 10]]) := by decide +kernel
-- leaves are merged, and the root goes with them
example : after (puts (List.range 12) ++ [.remove 0, .removeMin]) = some ([2, 3, 4, 5, 6, 7, 8, 9, 10, 11], []) := by decide +kernel
-- an element of the root is replaced by the next one
example : after (puts (List.range 12) ++ [.remove 5]) = some ([6], [[0, 1, 2, 3, 4], [7, 8, 9, 10, 11]]) := by decide +kernel
-- the root is split, and a node with children takes a child from its right, one from its left, or is merged
example : after (puts (List.range 78)) = some ([35], [[5, 11, 17, 23, 29], [41, 47, 53, 59, 65, 71]]) := by decide +kernel
example : after (puts (List.range 78) ++ [.remove 0]) = some ([41], [[11, 17, 23, 29, 35], [47, 53, 59, 65, 71]]) := by decide +kernel
example : after (puts (List.range 78).reverse ++ [.remove 77]) = some ([36], [[6, 12, 18, 24, 30], [42, 48, 54, 60, 66]]) := by decide +kernel
example : (after (puts (List.range 78) ++ [.remove 0, .removeMax, .removeMax])).map Prod.fst = some [11, 17, 23, 29, 35, 41, 47, 53, 59, 65] := by decide +kernel
-- the outputs
example : (runOps compare 80 (puts (List.range 12) ++ [.get 3, .get 12, .insert 3 7, .get 3, .remove 3, .remove 3, .getMin, .getMax, .removeMax, .removeMin, .getMin, .clear, .getMin])
      .empty).map (fun r => r.1.drop 12)
    = some [.value (some 30), .value none, .value (some 30), .value (some 7), .value (some 7), .value none, .elem (some (0, 0)), .elem (some (11, 110)),
        .elem (some (11, 110)), .elem (some (0, 0)), .elem (some (1, 10)), .unit, .elem none] := by decide +kernel
-- the hypothesis of `ord_map` holds for any sequence of fewer than 2^64 operations
example (ops : List (Spec.Op Nat Nat)) (h : ops.length < 2 ^ 64) :
    ∀ ks : List (Nat × Nat), ks.Pairwise (fun a b => compare a.1 b.1 = .lt) → ks.length ≤ ops.length → ks.length < 2 ^ 64 := fun _ _ h' => Nat.lt_of_le_of_lt h' h

/-- C33: a lookup in a map of `n` keys visits at most `d` nodes if `n + 1 < 2 * 6^d`: the tree is balanced. -/
theorem ord_map_depth (ops : List (Spec.Op K V)) (hk : ∀ ks : List (K × V), ks.Pairwise (fun a b => cmp a.1 b.1 = .lt) → ks.length ≤ ops.length → ks.length < 2 ^ 64)
    {fuel : Nat} (hf : ops.length < fuel) {outs m} (hr : runOps cmp fuel ops .empty = some (outs, m)) {d : Nat} (hd : 1 ≤ d) (hn : m.length.toNat + 1 < 2 * 6 ^ d) (k : K) :
    ∃ r, m.get cmp d k = some r ∧ m.get cmp fuel k = some r := by
  obtain ⟨outs', m', es, f, h1, h2, h3⟩ := run_ok ops (.empty (cmp := cmp) (K := K) (V := V)) (fun ks a b => hk ks a (by omega)) (fuel := fuel) (by omega)
  rw [hr] at h1
  cases h1
  obtain ⟨h, hroot, hh⟩ := h3.root
  have hlt := hk es h3.listing.sorted (by have := h3.bound; omega)
  rw [h3.length, BitVec.toNat_ofNat, Nat.mod_eq_of_lt hlt] at hn
  have hhd : h < d := by
    rcases hroot.some_elem with h0 | h0
    · omega
    · have hsz := rep_size hroot.rep
      have h2 : 2 * 6 ^ h ≤ (m.root.length + 1) * 6 ^ h := Nat.mul_le_mul_right _ (by omega)
      have h3 : 6 ^ h < 6 ^ d := by omega
      exact (Nat.pow_lt_pow_iff_right (by decide)).1 h3
  obtain ⟨r, g1, g2⟩ := get_spec cmp k hroot.rep h3.listing.sorted hhd
  obtain ⟨r', g3, g4⟩ := get_spec cmp k hroot.rep h3.listing.sorted (fuel := fuel) (by omega)
  rw [listing_get h3.listing g2] at g1
  rw [listing_get h3.listing g4] at g3
  exact ⟨_, g1, g3⟩

/-! ## Collecting -/

omit [TransCmp cmp] in
theorem collect_run (fuel : Nat) (es : List (K × V)) (m : OrdMap K V) :
    es.foldlM (fun m e => (m.insert cmp fuel e.1 e.2).map Prod.snd) m = (runOps cmp fuel (es.map fun e => .insert e.1 e.2) m).map Prod.snd := by
  induction es generalizing m with
  | nil => rfl
  | cons e es ih =>
    rw [List.foldlM_cons, List.map_cons, runOps, applyOp]
    cases hi : m.insert cmp fuel e.1 e.2 with
    | none => rfl
    | some r =>
      simp only [Option.map_some, Option.bind_eq_bind, Option.bind_some, ih]
      cases runOps cmp fuel (es.map fun e => .insert e.1 e.2) r.2 with
      | none => rfl
      | some r => rfl

/-- C33: what `ord-map/collect` gives stands for the insertions in the order of the iterator: the first key and the last value are kept. -/
theorem ord_map_collect (xs : List (K × V)) (hk : ∀ ks : List (K × V), ks.Pairwise (fun a b => cmp a.1 b.1 = .lt) → ks.length ≤ xs.length → ks.length < 2 ^ 64)
    {fuel : Nat} (hf : xs.length < fuel) :
    ∃ m es, OrdMap.collect cmp fuel xs = some m ∧ Spec.Listing cmp es (xs.foldl (fun f e => Spec.put cmp e.1 e.2 f) fun _ => none) ∧
      m.elems fuel (fuel + 1) fuel = some es ∧ m.length.toNat = es.length := by
  obtain ⟨outs, m, f, es, h1, h2, h3, h4, h5, -⟩ := ord_map (cmp := cmp) (xs.map fun e => .insert e.1 e.2) (by simpa using hk) (fuel := fuel) (by simpa using hf)
  refine ⟨m, es, by rw [OrdMap.collect, collect_run, h1]; rfl, ?_, h4, h5⟩
  have : ∀ (xs : List (K × V)) (g f : Spec.FMap K V) outs, Spec.Run cmp g (xs.map fun e => .insert e.1 e.2) outs f → f = xs.foldl (fun f e => Spec.put cmp e.1 e.2 f) g := by
    intro xs
    induction xs with
    | nil => intro g f outs h; cases h; rfl
    | cons x xs ih =>
      intro g f outs h
      cases h with
      | cons _ _ out g' _ outs' _ hs hr =>
        cases hs
        exact ih _ _ _ hr
  rw [← this xs _ _ _ h2]
  exact h3

example : (OrdMap.collect compare 80 [(3, 1), (1, 2), (3, 5), (2, 0)]).bind (·.elems 80 81 80) = some [(1, 2), (2, 0), (3, 5)] := by decide +kernel

/-! ## Copies -/

/-- C33: a copy is a map of the copied elements; it and the original are changed independently of each other, as the operations on it give what they give for its
own finite map. -/
theorem ord_map_copy (dk : K → K) (dv : V → V) (hdk : ∀ a b, cmp (dk a) (dk b) = cmp a b) (ops ops' : List (Spec.Op K V))
    (hk : ∀ ks : List (K × V), ks.Pairwise (fun a b => cmp a.1 b.1 = .lt) → ks.length ≤ ops.length + ops'.length → ks.length < 2 ^ 64)
    {fuel : Nat} (hf : ops.length + ops'.length < fuel) {outs m} (hr : runOps cmp fuel ops .empty = some (outs, m)) :
    ∃ m' es g outs' m'' f'', m.deepCopy dk dv fuel = some m' ∧ m.elems fuel (fuel + 1) fuel = some es ∧
      m'.elems fuel (fuel + 1) fuel = some (es.map fun e => (dk e.1, dv e.2)) ∧ m'.length = m.length ∧ Spec.Listing cmp (es.map fun e => (dk e.1, dv e.2)) g ∧
      runOps cmp fuel ops' m' = some (outs', m'') ∧ Spec.Run cmp g ops' outs' f'' := by
  obtain ⟨outs', m', es, f, h1, h2, h3⟩ := run_ok ops (.empty (cmp := cmp) (K := K) (V := V)) (fun ks a b => hk ks a (by omega)) (fuel := fuel) (by omega)
  rw [hr] at h1
  cases h1
  rw [Nat.zero_add] at h3
  obtain ⟨h, hroot, hh⟩ := h3.root
  obtain ⟨n', g1, g2, g3⟩ := deepCopy_spec dk dv hroot.rep (fuel := fuel) (by omega)
  have hb := h3.bound
  have hsorted : (es.map fun e => (dk e.1, dv e.2)).Pairwise (fun a b => cmp a.1 b.1 = .lt) := by
    rw [List.pairwise_map]
    exact h3.listing.sorted.imp (fun hab => by rw [hdk]; exact hab)
  obtain ⟨g, hg⟩ : ∃ g, Spec.Listing cmp (es.map fun e => (dk e.1, dv e.2)) g := by
    refine ⟨fun k => (es.map fun e => (dk e.1, dv e.2)).find? (fun e => cmp k e.1 == .eq), hsorted, fun k e => ?_⟩
    generalize es.map (fun e => (dk e.1, dv e.2)) = l at hsorted
    rw [List.find?_eq_some_iff_append]
    constructor
    · rintro ⟨h1, as, bs, rfl, -⟩
      exact ⟨by simp, by simpa using h1⟩
    · rintro ⟨h1, h2⟩
      obtain ⟨as, bs, rfl⟩ := List.mem_iff_append.1 h1
      refine ⟨by simpa using h2, as, bs, rfl, fun a ha => ?_⟩
      have := (List.pairwise_append.1 hsorted).2.2 a ha e (by simp)
      rw [eq_trans_left h2, OrientedCmp.gt_of_lt this]; rfl
  have hok : MapOk cmp ops.length ⟨m.length, n'⟩ (es.map fun e => (dk e.1, dv e.2)) g :=
    ⟨⟨h, ⟨g2, by rcases hroot.some_elem with h0 | h0; exact .inl h0; exact .inr (by show 1 ≤ n'.length; omega)⟩, hh⟩, hg, by rw [List.length_map]; exact h3.length, by simpa using hb⟩
  obtain ⟨outs', m'', es'', f'', k1, k2, k3⟩ := run_ok ops' hok hk (fuel := fuel) (by omega)
  exact ⟨⟨m.length, n'⟩, es, g, outs', m'', f'', by rw [OrdMap.deepCopy, g1]; rfl, elems_spec hroot.rep (by omega) (by omega) (by omega),
    elems_spec g2 (by omega) (by omega) (by simp; omega), rfl, hg, k1, k2⟩

example : ((runOps compare 80 (puts (List.range 13)) .empty).bind fun r => (r.2.deepCopy id (· + 1) 80).bind (·.elems 80 81 80)) =
    some ((List.range 13).map fun k => (k, 10 * k + 1)) := by decide +kernel

/-! ## Comparisons -/

omit [TransCmp cmp] in
theorem eqZip_iff (eqE : K × V → K × V → Bool) (as bs : List (K × V)) (hl : as.length = bs.length) :
    eqZip eqE as bs = true ↔ ∀ p ∈ as.zip bs, eqE p.1 p.2 = true := by
  induction as generalizing bs with
  | nil => cases bs with
    | nil => simp [eqZip]
    | cons b bs => simp at hl
  | cons a as ih => cases bs with
    | nil => simp at hl
    | cons b bs =>
      rw [eqZip]
      by_cases hab : eqE a b = true
      · rw [if_pos hab, ih bs (by simpa using hl)]
        simp [hab]
      · rw [if_neg hab]
        simp [hab]

omit [TransCmp cmp] in
theorem cmpZip_eq (cmpE : K × V → K × V → Ordering) (as bs : List (K × V)) (n : Nat) :
    cmpZip cmpE (compare (n + as.length) (n + bs.length)) as bs = Spec.lex cmpE as bs := by
  induction as generalizing bs n with
  | nil => cases bs with
    | nil => simp [cmpZip, Spec.lex]
    | cons b bs => simp [cmpZip, Spec.lex, Nat.compare_eq_lt]
  | cons a as ih => cases bs with
    | nil => simp [cmpZip, Spec.lex, Nat.compare_eq_gt]
    | cons b bs =>
      have := ih bs (n + 1)
      rw [show n + 1 + as.length = n + (a :: as).length by simp; omega, show n + 1 + bs.length = n + (b :: bs).length by simp; omega] at this
      rw [cmpZip, Spec.lex]
      cases cmpE a b with
      | lt => rfl
      | eq => exact this
      | gt => rfl

/-- C33: two maps are equal if their elements are, and they are compared as the words of their elements in order. -/
theorem ord_map_compare (eqE : K × V → K × V → Bool) (cmpE : K × V → K × V → Ordering) (ops ops' : List (Spec.Op K V))
    (hk : ∀ ks : List (K × V), ks.Pairwise (fun a b => cmp a.1 b.1 = .lt) → ks.length ≤ ops.length + ops'.length → ks.length < 2 ^ 64)
    {fuel : Nat} (hf : ops.length + ops'.length < fuel) {outs m outs' m'} (hr : runOps cmp fuel ops .empty = some (outs, m))
    (hr' : runOps cmp fuel ops' .empty = some (outs', m')) :
    ∃ es es' b, m.elems fuel (fuel + 1) fuel = some es ∧ m'.elems fuel (fuel + 1) fuel = some es' ∧ m.eqMap eqE fuel (fuel + 1) fuel m' = some b ∧
      (b = true ↔ es.length = es'.length ∧ ∀ p ∈ es.zip es', eqE p.1 p.2 = true) ∧
      m.compare cmpE fuel (fuel + 1) fuel m' = some (Spec.lex cmpE es es') := by
  obtain ⟨_, m1, f, es, h1, -, -, h2, h3, -⟩ := ord_map (cmp := cmp) ops (fun ks a b => hk ks a (by omega)) (fuel := fuel) (by omega)
  rw [hr] at h1; cases h1
  obtain ⟨_, m1, f', es', h1, -, -, h4, h5, -⟩ := ord_map (cmp := cmp) ops' (fun ks a b => hk ks a (by omega)) (fuel := fuel) (by omega)
  rw [hr'] at h1; cases h1
  have hcmp : m.compare cmpE fuel (fuel + 1) fuel m' = some (Spec.lex cmpE es es') := by
    rw [OrdMap.compare, h2, h4, h3, h5]
    have := cmpZip_eq cmpE es es' 0
    rw [Nat.zero_add, Nat.zero_add] at this
    exact congrArg some this
  by_cases hl : m.length = m'.length
  · have hll : es.length = es'.length := by rw [← h3, ← h5, hl]
    refine ⟨es, es', eqZip eqE es es', h2, h4, ?_, ?_, hcmp⟩
    · rw [OrdMap.eqMap, if_neg (by simp [hl]), h2, h4]; rfl
    · rw [eqZip_iff eqE es es' hll]; simp [hll]
  · refine ⟨es, es', false, h2, h4, by rw [OrdMap.eqMap, if_pos hl]; rfl, ?_, hcmp⟩
    refine ⟨fun h => (by cases h), fun ⟨h, _⟩ => absurd ?_ hl⟩
    exact BitVec.eq_of_toNat_eq (by rw [h3, h5, h])

example : ((runOps compare 80 (puts (List.range 13)) .empty).bind fun a => (runOps compare 80 (puts (List.range 13).reverse) .empty).bind fun b =>
    a.2.eqMap (fun x y => x == y) 80 81 80 b.2) = some true := by decide +kernel
example : ((runOps compare 80 (puts (List.range 13)) .empty).bind fun a => (runOps compare 80 (puts (List.range 12)) .empty).bind fun b =>
    a.2.compare (fun x y => (compare x.1 y.1).then (compare x.2 y.2)) 80 81 80 b.2) = some .gt := by decide +kernel

end Verif.BTree
