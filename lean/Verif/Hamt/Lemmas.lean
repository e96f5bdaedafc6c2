import Verif.Hamt.Bits

/-! # The entries of a tree -/
namespace Verif.Hamt
open scoped List

variable {K V : Type} (eq : K → K → Bool)

/-- An entry of a tree: what is left of its hash, its key and its value. -/
abbrev Entry (K V : Type) := Nat × K × V

/-- The entry one level up. -/
def lift (i : Nat) (e : Entry K V) : Entry K V := (e.1 * 32 + i, e.2)

/-- Two entries have different hashes. -/
def Two (es : List (Entry K V)) : Prop := ∃ a ∈ es, ∃ b ∈ es, a.1 ≠ b.1

/-- The collision elements in the buckets of children: none are not stored. -/
def collTree : List (K × V) → Option (Tree K V)
  | [] => none
  | c :: cs => some (fromCollision (c :: cs))

def collElems : List (K × V) → Option (List (K × V))
  | [] => none
  | c :: cs => some (c :: cs)

/-- The entries of an element and its collision elements. -/
def group (h : Nat) (k : K) (v : V) (ces : List (K × V)) : List (Entry K V) := (h, k, v) :: ces.map (fun c => (h, c))

/-- What may be at an index: nothing, an element with its collision elements, or a child with entries of more than one hash. -/
inductive Slot (n : Nat) (R : Tree K V → List (Entry K V) → Prop) : Option (BitVec 64 × K × V) → Option (Tree K V) → List (Entry K V) → Prop
  | empty : Slot n R none none []
  | group (h : BitVec 64) (k v ces) : h.toNat < 32 ^ n → ces.length < 2 ^ 32 → (k :: ces.map Prod.fst).Pairwise (fun a b => eq a b = false) →
      Slot n R (some (h, k, v)) (collTree ces) (group h.toNat k v ces)
  | child (t es) : R t es → Two es → Slot n R none (some t) es

/-- The entries at each index, put together. -/
def flat (f : Nat → List (Entry K V)) : List (Entry K V) := (List.range 32).flatMap (fun i => (f i).map (lift i))

/-- `Rep n t es`: the tree `t`, with `n` levels, is well-formed and has the entries `es`. -/
def Rep : Nat → Tree K V → List (Entry K V) → Prop
  | 0, _, _ => False
  | _ + 1, .collision _ _, _ => False
  | n + 1, .node emap cmap elems children, es => Fits emap elems ∧ Fits cmap children ∧
      ∃ f : Nat → List (Entry K V), (∀ i < 32, Slot eq n (Rep n) (look emap elems i) (look cmap children i) (f i)) ∧ es = flat f

/-! ## Entries at an index and the others -/

def others (f : Nat → List (Entry K V)) (i : Nat) : List (Entry K V) := ((List.range 32).erase i).flatMap (fun i => (f i).map (lift i))

def upd (f : Nat → List (Entry K V)) (i : Nat) (x : List (Entry K V)) : Nat → List (Entry K V) := fun j => if j = i then x else f j

theorem flat_perm (f : Nat → List (Entry K V)) {i : Nat} (hi : i < 32) : flat f ~ (f i).map (lift i) ++ others f i := by
  have h : List.range 32 ~ i :: (List.range 32).erase i := List.perm_cons_erase (List.mem_range.2 hi)
  exact List.Perm.flatMap_right _ h

theorem mem_erase_range {i j : Nat} (h : j ∈ (List.range 32).erase i) : j < 32 ∧ j ≠ i := by
  have := (List.Nodup.mem_erase_iff List.nodup_range).1 h
  exact ⟨List.mem_range.1 this.2, this.1⟩

theorem others_mod {f : Nat → List (Entry K V)} {i : Nat} {e : Entry K V} (h : e ∈ others f i) : e.1 % 32 ≠ i := by
  simp only [others, List.mem_flatMap, List.mem_map] at h
  obtain ⟨j, hj, e', -, rfl⟩ := h
  obtain ⟨h1, h2⟩ := mem_erase_range hj
  simp only [lift]; omega

theorem flatMap_congr' {α β} {l : List α} {f g : α → List β} (h : ∀ a ∈ l, f a = g a) : l.flatMap f = l.flatMap g := by
  induction l with
  | nil => rfl
  | cons a l ih => rw [List.flatMap_cons, List.flatMap_cons, h a (by simp), ih (fun b hb => h b (by simp [hb]))]

theorem others_upd (f : Nat → List (Entry K V)) (i : Nat) (x) : others (upd f i x) i = others f i := by
  refine flatMap_congr' fun j hj => ?_
  rw [upd, if_neg (mem_erase_range hj).2]

theorem upd_perm (f : Nat → List (Entry K V)) {i : Nat} (hi : i < 32) (x) : flat (upd f i x) ~ x.map (lift i) ++ others f i := by
  have := flat_perm (upd f i x) hi
  rwa [others_upd, upd, if_pos rfl] at this

theorem others_nil (i : Nat) : others (fun _ => ([] : List (Entry K V))) i = [] := by
  simp [others]

theorem mem_flat {f : Nat → List (Entry K V)} {e : Entry K V} : e ∈ flat f ↔ ∃ e' ∈ f (e.1 % 32), e' = (e.1 / 32, e.2) := by
  simp only [flat, List.mem_flatMap, List.mem_range, List.mem_map]
  constructor
  · rintro ⟨i, hi, e', he, rfl⟩
    obtain ⟨h, kv⟩ := e'
    have h1 : (h * 32 + i) % 32 = i := by omega
    have h2 : (h * 32 + i) / 32 = h := by omega
    simp only [lift, h1, h2]
    exact ⟨_, he, rfl⟩
  · rintro ⟨e', he, rfl⟩
    refine ⟨e.1 % 32, Nat.mod_lt _ (by omega), _, he, ?_⟩
    obtain ⟨h, kv⟩ := e
    simp only [lift, Prod.mk.injEq, and_true]; omega

theorem lift_mem_flat {f : Nat → List (Entry K V)} {i : Nat} (hi : i < 32) {e : Entry K V} (h : e ∈ f i) : lift i e ∈ flat f := by
  rw [mem_flat]
  have h1 : (e.1 * 32 + i) % 32 = i := by omega
  have h2 : (e.1 * 32 + i) / 32 = e.1 := by omega
  simp only [lift, h1, h2]
  exact ⟨_, h, rfl⟩

theorem Rep.mk {eq : K → K → Bool} {n emap cmap elems children} {f : Nat → List (Entry K V)} {i : Nat} {emap' cmap' elems' children'}
    (hs : ∀ i < 32, Slot eq n (Rep eq n) (look emap elems i) (look cmap children i) (f i))
    (he : Fits emap' elems') (hc : Fits cmap' children') (hee : ∀ j, j < 32 → j ≠ i → look emap' elems' j = look emap elems j)
    (hcc : ∀ j, j < 32 → j ≠ i → look cmap' children' j = look cmap children j) {x}
    (hx : Slot eq n (Rep eq n) (look emap' elems' i) (look cmap' children' i) x) :
    Rep eq (n + 1) (.node emap' cmap' elems' children') (flat (upd f i x)) := by
  refine ⟨he, hc, upd f i x, fun j hj => ?_, rfl⟩
  by_cases h : j = i
  · subst h; rw [upd, if_pos rfl]; exact hx
  · rw [upd, if_neg h, hee j hj h, hcc j hj h]; exact hs j hj

/-! ## What operations do to entries -/

/-- No entry has the hash and the key. -/
def Missing (h : Nat) (k : K) (es : List (Entry K V)) : Prop := ∀ e ∈ es, e.1 = h → eq e.2.1 k = false

/-- The result of a lookup. -/
def Got (h : Nat) (k : K) (es : List (Entry K V)) (r : Option V) : Prop :=
  r = none ∧ Missing eq h k es ∨ ∃ k' v, r = some v ∧ (h, k', v) ∈ es ∧ eq k' k = true

/-- An insertion: the value of an entry is replaced, or an entry is added. -/
def Inserted (h : Nat) (k : K) (v : V) (es : List (Entry K V)) (r : Option V) (es' : List (Entry K V)) : Prop :=
  (r = none ∧ Missing eq h k es ∧ es' ~ (h, k, v) :: es) ∨
  ∃ k' v' rest, r = some v' ∧ eq k' k = true ∧ es ~ (h, k', v') :: rest ∧ es' ~ (h, k', v) :: rest

/-- A removal. -/
def Removed (h : Nat) (k : K) (es : List (Entry K V)) (v : V) (es' : List (Entry K V)) : Prop := ∃ k', eq k' k = true ∧ es ~ (h, k', v) :: es'

def cnt (h : Nat) (es : List (Entry K V)) : Nat := es.countP (fun e => e.1 == h)

variable {eq}

theorem Missing.perm {h k} {es es' : List (Entry K V)} (p : es ~ es') (hm : Missing eq h k es) : Missing eq h k es' :=
  fun e he => hm e (p.mem_iff.2 he)

theorem missing_flat {f : Nat → List (Entry K V)} {h k} (hm : Missing eq (h / 32) k (f (h % 32))) : Missing eq h k (flat f) := by
  rintro e he rfl
  obtain ⟨e', h1, rfl⟩ := mem_flat.1 he
  exact hm (e.1 / 32, e.2) h1 rfl

theorem got_flat {f : Nat → List (Entry K V)} {h k r} (hg : Got eq (h / 32) k (f (h % 32)) r) : Got eq h k (flat f) r := by
  rcases hg with ⟨rfl, hm⟩ | ⟨k', v, rfl, hm, he⟩
  · exact .inl ⟨rfl, missing_flat hm⟩
  · exact .inr ⟨k', v, rfl, mem_flat.2 ⟨_, hm, rfl⟩, he⟩

theorem lift_div (h : Nat) (kv : K × V) : lift (h % 32) (h / 32, kv) = (h, kv) := by
  simp only [lift, Prod.mk.injEq, and_true]; omega

theorem Inserted.perm {h k v} {es₁ es₂ es₁' es₂' : List (Entry K V)} {r} (p : es₁ ~ es₂) (p' : es₁' ~ es₂') (hi : Inserted eq h k v es₁ r es₁') :
    Inserted eq h k v es₂ r es₂' := by
  rcases hi with ⟨rfl, hm, hp⟩ | ⟨k', v', rest, rfl, he, h1, h2⟩
  · exact .inl ⟨rfl, hm.perm p, p'.symm.trans (hp.trans (p.cons _))⟩
  · exact .inr ⟨k', v', rest, rfl, he, p.symm.trans h1, p'.symm.trans h2⟩

theorem inserted_flat {f : Nat → List (Entry K V)} {h k v r x} (hi : Inserted eq (h / 32) k v (f (h % 32)) r x) :
    Inserted eq h k v (flat f) r (flat (upd f (h % 32) x)) := by
  have h32 : h % 32 < 32 := Nat.mod_lt _ (by omega)
  rcases hi with ⟨rfl, hm, hp⟩ | ⟨k', v', rest, rfl, he, h1, h2⟩
  · refine .inl ⟨rfl, missing_flat hm, (upd_perm f h32 x).trans ?_⟩
    refine ((hp.map _).append_right _).trans ?_
    rw [List.map_cons, lift_div]
    exact (flat_perm f h32).symm.cons _
  · refine .inr ⟨k', v', rest.map (lift (h % 32)) ++ others f (h % 32), rfl, he, (flat_perm f h32).trans ?_, (upd_perm f h32 x).trans ?_⟩
    · have := (h1.map (lift (h % 32))).append_right (others f (h % 32))
      rwa [List.map_cons, lift_div] at this
    · have := (h2.map (lift (h % 32))).append_right (others f (h % 32))
      rwa [List.map_cons, lift_div] at this

theorem removed_flat {f : Nat → List (Entry K V)} {h k v x} (hi : Removed eq (h / 32) k (f (h % 32)) v x) :
    Removed eq h k (flat f) v (flat (upd f (h % 32) x)) := by
  have h32 : h % 32 < 32 := Nat.mod_lt _ (by omega)
  obtain ⟨k', he, hp⟩ := hi
  refine ⟨k', he, (flat_perm f h32).trans (((hp.map _).append_right _).trans ?_)⟩
  rw [List.map_cons, lift_div]
  exact (upd_perm f h32 x).symm.cons _

theorem cnt_flat (f : Nat → List (Entry K V)) (h : Nat) : cnt h (flat f) = cnt (h / 32) (f (h % 32)) := by
  have h32 : h % 32 < 32 := Nat.mod_lt _ (by omega)
  rw [cnt, (flat_perm f h32).countP_eq, List.countP_append, List.countP_map]
  have h1 : (others f (h % 32)).countP (fun e => e.1 == h) = 0 := by
    rw [List.countP_eq_zero]
    intro e he hc
    exact others_mod he (by rw [eq_of_beq hc])
  rw [h1, Nat.add_zero, cnt]
  refine List.countP_congr fun e _ => ?_
  simp only [Function.comp, lift, beq_iff_eq]; omega

theorem Two.perm {es es' : List (Entry K V)} (p : es ~ es') (h : Two es) : Two es' := by
  obtain ⟨a, ha, b, hb, hne⟩ := h
  exact ⟨a, p.mem_iff.1 ha, b, p.mem_iff.1 hb, hne⟩

theorem Two.inserted {h k v} {es es' : List (Entry K V)} {r} (hi : Inserted eq h k v es r es') (ht : Two es) : Two es' := by
  rcases hi with ⟨rfl, hm, hp⟩ | ⟨k', v', rest, rfl, he, h1, h2⟩
  · obtain ⟨a, ha, b, hb, hne⟩ := ht
    exact Two.perm hp.symm ⟨a, by simp [ha], b, by simp [hb], hne⟩
  · obtain ⟨a, ha, b, hb, hne⟩ := ht.perm h1
    refine Two.perm h2.symm ?_
    simp only [List.mem_cons] at ha hb
    rcases ha with rfl | ha <;> rcases hb with rfl | hb
    · exact absurd rfl hne
    · exact ⟨_, List.mem_cons_self, b, by simp [hb], hne⟩
    · exact ⟨a, by simp [ha], _, List.mem_cons_self, hne⟩
    · exact ⟨a, by simp [ha], b, by simp [hb], hne⟩

theorem Two.flat {f : Nat → List (Entry K V)} {i : Nat} (hi : i < 32) (h : Two (f i)) : Two (flat f) := by
  obtain ⟨a, ha, b, hb, hne⟩ := h
  refine ⟨_, lift_mem_flat hi ha, _, lift_mem_flat hi hb, ?_⟩
  simp only [lift, ne_eq]; omega

/-! ## Facts about well-formed trees -/

theorem Slot.bound {n R oe oc} {es : List (Entry K V)} (h : Slot eq n R oe oc es) (hR : ∀ t es, R t es → ∀ e ∈ es, e.1 < 32 ^ n) :
    ∀ e ∈ es, e.1 < 32 ^ n := by
  cases h with
  | empty => simp
  | group h k v ces hb _ _ =>
    intro e he
    simp only [Hamt.group, List.mem_cons, List.mem_map] at he
    rcases he with rfl | ⟨c, -, rfl⟩ <;> exact hb
  | child t _ hr _ => exact hR t _ hr

theorem Rep.bound : ∀ {n} {t : Tree K V} {es}, Rep eq n t es → ∀ e ∈ es, e.1 < 32 ^ n
  | n + 1, .node _ _ _ _, es, ⟨_, _, f, hs, he⟩, e, hm => by
    subst he
    obtain ⟨e', h1, rfl⟩ := mem_flat.1 hm
    have := (hs _ (Nat.mod_lt _ (by omega))).bound (fun t es h => Rep.bound h) _ h1
    rw [Nat.pow_succ]
    simp only at this
    omega

theorem Slot.distinct {n R oe oc} {es : List (Entry K V)} (h : Slot eq n R oe oc es)
    (hR : ∀ t es, R t es → es.Pairwise (fun a b => a.1 = b.1 → eq a.2.1 b.2.1 = false)) :
    es.Pairwise (fun a b => a.1 = b.1 → eq a.2.1 b.2.1 = false) := by
  cases h with
  | empty => exact .nil
  | group h k v ces _ _ hp =>
    rw [List.pairwise_cons] at hp
    rw [Hamt.group, List.pairwise_cons]
    refine ⟨?_, ?_⟩
    · intro a ha _
      obtain ⟨c, hc, rfl⟩ := List.mem_map.1 ha
      exact hp.1 _ (List.mem_map_of_mem hc)
    · rw [List.pairwise_map]
      refine (List.pairwise_map.1 hp.2).imp ?_
      intro a b h _
      exact h
  | child t _ hr _ => exact hR t _ hr

/-- The entries of a tree are distinct. -/
theorem Rep.distinct : ∀ {n} {t : Tree K V} {es}, Rep eq n t es → es.Pairwise (fun a b => a.1 = b.1 → eq a.2.1 b.2.1 = false)
  | n + 1, .node _ _ _ _, es, ⟨_, _, f, hs, he⟩ => by
    subst he
    have key : ∀ l : List Nat, l.Nodup → (∀ i ∈ l, i < 32) →
        (l.flatMap (fun i => (f i).map (lift i))).Pairwise (fun a b => a.1 = b.1 → eq a.2.1 b.2.1 = false) := by
      intro l hl h32
      induction l with
      | nil => exact .nil
      | cons i l ih =>
        rw [List.nodup_cons] at hl
        rw [List.flatMap_cons, List.pairwise_append]
        refine ⟨?_, ih hl.2 (fun j hj => h32 j (by simp [hj])), ?_⟩
        · rw [List.pairwise_map]
          refine ((hs i (h32 i (by simp))).distinct (fun t es h => Rep.distinct h)).imp ?_
          intro a b h hab
          simp only [lift] at hab ⊢
          exact h (by omega)
        · intro a ha b hb hab
          obtain ⟨a', -, rfl⟩ := List.mem_map.1 ha
          obtain ⟨j, hj, hb⟩ := List.mem_flatMap.1 hb
          obtain ⟨b', -, rfl⟩ := List.mem_map.1 hb
          have hi := h32 i (by simp)
          have hj' := h32 j (by simp [hj])
          simp only [lift] at hab
          have : i = j := by omega
          subst this
          exact absurd hj hl.1
    exact key _ List.nodup_range (fun i hi => List.mem_range.1 hi)

theorem rep_empty (n : Nat) : Rep eq (n + 1) (Tree.empty : Tree K V) [] := by
  refine ⟨fits_zero, fits_zero, fun _ => [], fun i _ => ?_, by simp [flat]⟩
  rw [look_zero, look_zero]; exact .empty

/-! ## Collision elements and searching -/

theorem asCollision_from {ces : List (K × V)} (h : ces.length < 2 ^ 32) : asCollision (fromCollision ces) = some ces := by
  rw [fromCollision, asCollision, BitVec.toNat_ofNat, Nat.mod_eq_of_lt h, copy, if_pos (by omega)]
  simp

theorem search_elem {emap cmap elems} {children : List (Tree K V)} {i : Nat} (hi : i < 32) {e} (h : look emap elems i = some e) :
    search (bitOf i) (.node emap cmap elems children) = some (some (.elem e)) := by
  rw [search, existsBit_bitOf _ hi, if_pos (look_some h), bucketsGet_eq hi h]; rfl

theorem search_child {emap cmap elems} {children : List (Tree K V)} {i : Nat} (hi : i < 32) (he : Fits emap elems) {t}
    (hn : look emap elems i = none) (h : look cmap children i = some t) :
    search (bitOf i) (.node emap cmap elems children) = some (some (.child t)) := by
  rw [search, existsBit_bitOf _ hi, (look_none he hi).1 hn, existsBit_bitOf _ hi, look_some h, bucketsGet_eq hi h]; rfl

theorem search_none {emap cmap elems} {children : List (Tree K V)} {i : Nat} (hi : i < 32) (he : Fits emap elems) (hc : Fits cmap children)
    (hn : look emap elems i = none) (h : look cmap children i = none) :
    search (bitOf i) (.node emap cmap elems children) = some none := by
  rw [search, existsBit_bitOf _ hi, (look_none he hi).1 hn, existsBit_bitOf _ hi, (look_none hc hi).1 h]; rfl

theorem collisionElems_eq {emap cmap elems} {children : List (Tree K V)} {i : Nat} (hi : i < 32) (hc : Fits cmap children) {ces}
    (hl : ces.length < 2 ^ 32) (h : look cmap children i = collTree ces) :
    collisionElems (bitOf i) (.node emap cmap elems children) = some (collElems ces) := by
  rw [collisionElems, existsBit_bitOf _ hi]
  cases ces with
  | nil => rw [(look_none hc hi).1 h]; rfl
  | cons c cs =>
    rw [collTree] at h
    rw [look_some h, bucketsGet_eq hi h]
    simp only [if_true, Option.bind_eq_bind, Option.bind_some, asCollision_from hl]; rfl

theorem scan_spec (key : K) (ces : List (K × V)) (i : Nat) :
    (scan eq key ces i = none ∧ ∀ j (h : j < ces.length), i ≤ j → eq ces[j].1 key = false) ∨
    ∃ j, ∃ h : j < ces.length, scan eq key ces i = some (j, ces[j]) ∧ eq ces[j].1 key = true := by
  fun_induction scan eq key ces i with
  | case1 i h he => exact .inr ⟨i, h, rfl, he⟩
  | case2 i h he ih =>
    rcases ih with ⟨h1, h2⟩ | h
    · refine .inl ⟨h1, fun j hj hij => ?_⟩
      rcases Nat.eq_or_lt_of_le hij with rfl | hlt
      · simpa using he
      · exact h2 j hj hlt
    · exact .inr h
  | case3 i h => exact .inl ⟨rfl, fun j hj hij => absurd hj (by omega)⟩

theorem scan_cases (key : K) (ces : List (K × V)) :
    (scan eq key ces 0 = none ∧ ∀ c ∈ ces, eq c.1 key = false) ∨
    ∃ j, ∃ h : j < ces.length, scan eq key ces 0 = some (j, ces[j]) ∧ eq ces[j].1 key = true := by
  rcases scan_spec (eq := eq) key ces 0 with ⟨h1, h2⟩ | h
  · refine .inl ⟨h1, fun c hc => ?_⟩
    obtain ⟨j, hj, rfl⟩ := List.getElem_of_mem hc
    exact h2 j hj (Nat.zero_le _)
  · exact .inr h

/-! ## Lookup -/

theorem get_spec {n} {t : Tree K V} {es} (hr : Rep eq n t es) (h : BitVec 64) (k : K) : ∃ r, get eq n h k t = some r ∧ Got eq h.toNat k es r := by
  induction n generalizing t es h with
  | zero => exact absurd hr id
  | succ n ih =>
    cases t with
    | collision => exact absurd hr id
    | node emap cmap elems children =>
      obtain ⟨he, hc, f, hs, rfl⟩ := hr
      obtain ⟨h', hcons, hh'⟩ := consumeHash_eq h
      have hi : h.toNat % 32 < 32 := Nat.mod_lt _ (by omega)
      rw [get]
      simp only [hcons]
      suffices hx : ∃ r, _ = some r ∧ Got eq (h.toNat / 32) k (f (h.toNat % 32)) r from hx.imp fun r h => ⟨h.1, got_flat h.2⟩
      generalize hfi : f (h.toNat % 32) = x
      generalize hoe : look emap elems (h.toNat % 32) = oe
      generalize hoc : look cmap children (h.toNat % 32) = oc
      have hsi := hs _ hi
      rw [hfi, hoe, hoc] at hsi
      rw [← hh']
      cases hsi with
      | empty =>
        rw [search_none hi he hc hoe hoc]
        exact ⟨none, rfl, .inl ⟨rfl, by intro e he; cases he⟩⟩
      | child t es hr' _ =>
        rw [search_child hi he hoe hoc]
        exact ih hr' h'
      | group eh ek ev ces hb hl hp =>
        rw [search_elem hi hoe]
        simp only [Option.bind_eq_bind, Option.bind_some]
        by_cases hne : eh = h'
        · subst hne
          simp only [ne_eq, not_true_eq_false, if_false]
          by_cases hk : eq ek k = true
          · rw [if_pos hk]
            exact ⟨_, rfl, .inr ⟨ek, ev, rfl, by simp [group], hk⟩⟩
          · rw [if_neg hk, collisionElems_eq hi hc hl hoc]
            simp only [Option.bind_some]
            cases ces with
            | nil =>
              refine ⟨none, rfl, .inl ⟨rfl, ?_⟩⟩
              intro e he _
              simp only [group, List.map_nil, List.mem_singleton] at he
              subst he; simpa using hk
            | cons c cs =>
              refine ⟨_, rfl, ?_⟩
              rcases scan_cases (eq := eq) k (c :: cs) with ⟨h1, h2⟩ | ⟨j, hj, h1, h2⟩
              · rw [h1]
                refine .inl ⟨rfl, ?_⟩
                intro e he _
                rcases List.mem_cons.1 he with rfl | he
                · simpa using hk
                · obtain ⟨c', hc', rfl⟩ := List.mem_map.1 he
                  exact h2 _ hc'
              · rw [h1]
                refine .inr ⟨_, _, rfl, ?_, h2⟩
                exact List.mem_cons_of_mem _ (List.mem_map.2 ⟨_, List.getElem_mem hj, rfl⟩)
        · simp only [ne_eq, hne, not_false_eq_true, if_true]
          refine ⟨none, rfl, .inl ⟨rfl, ?_⟩⟩
          intro e he hec
          have : e.1 = eh.toNat := by
            simp only [group, List.mem_cons, List.mem_map] at he
            rcases he with rfl | ⟨c, -, rfl⟩ <;> rfl
          exact absurd (BitVec.eq_of_toNat_eq (this.symm.trans hec)) hne

end Verif.Hamt
