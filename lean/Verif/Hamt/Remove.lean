import Verif.Hamt.Insert

/-! # Removal -/
namespace Verif.Hamt
open scoped List

variable {K V : Type} {eq : K → K → Bool}

theorem Slot.nil {n R oe oc} {es : List (Entry K V)} (h : Slot eq n R oe oc es) (he : es = []) : oe = none ∧ oc = none := by
  cases h with
  | empty => exact ⟨rfl, rfl⟩
  | group => cases he
  | child t es _ ht => subst he; obtain ⟨a, ha, -⟩ := ht; cases ha

theorem merges_iff (emap cmap : BitVec 32) : merges emap cmap = true ↔
    popcount emap = 1 ∧ ∀ i < 32, cmap.getLsbD i = true → emap.getLsbD i = true := by
  rw [merges, Bool.and_eq_true, beq_iff_eq, beq_iff_eq]
  refine and_congr_right fun _ => ⟨fun h i hi hc => ?_, fun h => ?_⟩
  · have := congrArg (fun x => x.getLsbD i) h
    simp only [BitVec.getLsbD_and, hc, BitVec.getLsbD_not, hi, decide_true, Bool.true_and, BitVec.getLsbD_zero] at this
    simpa using this
  · apply BitVec.eq_of_getLsbD_eq
    intro i hi
    simp only [BitVec.getLsbD_and, BitVec.getLsbD_not, hi, decide_true, Bool.true_and, BitVec.getLsbD_zero]
    cases hc : cmap.getLsbD i with
    | false => rfl
    | true => simp [h i hi hc]

/-- A node that has entries but is not merged has entries of more than one hash. -/
theorem two_of_not_merges {n emap cmap elems children} {es : List (Entry K V)} (hr : Rep eq (n + 1) (.node emap cmap elems children) es)
    (hne : es ≠ []) (hm : merges emap cmap = false) : Two es := by
  apply Classical.byContradiction
  intro ht
  obtain ⟨he, hc, f, hs, rfl⟩ := hr
  obtain ⟨e, hmem⟩ := List.exists_mem_of_ne_nil _ hne
  obtain ⟨e', hf, -⟩ := mem_flat.1 hmem
  have hj : e.1 % 32 < 32 := Nat.mod_lt _ (by omega)
  generalize e.1 % 32 = j at hf hj
  have hempty : ∀ i < 32, i ≠ j → f i = [] := by
    intro i hi hij
    apply Classical.byContradiction
    intro hc
    obtain ⟨a, ha⟩ := List.exists_mem_of_ne_nil _ hc
    refine ht ⟨_, lift_mem_flat hi ha, _, lift_mem_flat hj hf, ?_⟩
    simp only [lift]; omega
  have hbits : ∀ i < 32, i ≠ j → emap.getLsbD i = false ∧ cmap.getLsbD i = false := by
    intro i hi hij
    obtain ⟨h1, h2⟩ := (hs i hi).nil (hempty i hi hij)
    exact ⟨(look_none he hi).1 h1, (look_none hc hi).1 h2⟩
  have hej : emap.getLsbD j = true := by
    have hsj := hs j hj
    generalize hoe : look emap elems j = oe at hsj
    generalize look cmap children j = oc at hsj
    generalize hx : f j = x at hsj
    cases hsj with
    | empty => rw [hx] at hf; cases hf
    | group => exact look_some hoe
    | child t _ _ htwo => exact absurd (Two.flat hj (hx ▸ htwo)) ht
  have : merges emap cmap = true := by
    rw [merges_iff]
    constructor
    · rw [popcount_eq, rank_one_iff]
      refine ⟨j, hj, hej, fun i hi h => ?_⟩
      apply Classical.byContradiction
      intro hij
      rw [(hbits i hi hij).1] at h; cases h
    · intro i hi h
      by_cases hij : i = j
      · rw [hij]; exact hej
      · rw [(hbits i hi hij).2] at h; cases h
  rw [this] at hm; cases hm

/-- What a merged node is: an element with its collision elements. -/
theorem merged_node {n emap cmap elems children} {es : List (Entry K V)} (hr : Rep eq (n + 1) (.node emap cmap elems children) es)
    (hm : merges emap cmap = true) :
    ∃ j h k v ces, j < 32 ∧ emap = bitOf j ∧ elems = [(h, k, v)] ∧ h.toNat < 32 ^ n ∧ ces.length < 2 ^ 32 ∧
      (k :: ces.map Prod.fst).Pairwise (fun a b => eq a b = false) ∧ es ~ group (h.toNat * 32 + j) k v ces ∧
      (ces = [] → cmap = 0#32) ∧ (ces ≠ [] → cmap ≠ 0#32 ∧ children[0]? = some (fromCollision ces)) := by
  obtain ⟨he, hc, f, hs, rfl⟩ := hr
  obtain ⟨h1, h2⟩ := (merges_iff _ _).1 hm
  obtain ⟨j, hj, x, rfl, rfl, hx⟩ := fits_one he h1
  have hbit : ∀ i < 32, i ≠ j → cmap.getLsbD i = false := by
    intro i hi hij
    cases hci : cmap.getLsbD i with
    | false => rfl
    | true =>
      have := h2 i hi hci
      rw [bitOf_getLsbD j hj i hi] at this
      simp [hij] at this
  have hempty : ∀ i < 32, i ≠ j → f i = [] := by
    intro i hi hij
    have hsi := hs i hi
    rw [look_bitOf hj x i hi, if_neg hij, (look_none hc hi).2 (hbit i hi hij)] at hsi
    generalize f i = y at hsi
    cases hsi with
    | empty => rfl
  have hoth : others f j = [] := by
    rw [others, List.flatMap_eq_nil_iff]
    intro i hi
    obtain ⟨h32, hij⟩ := mem_erase_range hi
    rw [hempty i h32 hij]; rfl
  have hperm := flat_perm f hj
  rw [hoth, List.append_nil] at hperm
  have hsj := hs j hj
  rw [hx] at hsj
  generalize hfj : f j = y at hsj hperm
  generalize hoc : look cmap children j = oc at hsj
  cases hsj with
  | group h k v ces hb hl hp =>
    refine ⟨j, h, k, v, ces, hj, rfl, rfl, hb, hl, hp, ?_, ?_, ?_⟩
    · have : (group h.toNat k v ces).map (lift j) = group (h.toNat * 32 + j) k v ces := by
        simp only [group, List.map_cons, List.map_map]; rfl
      rwa [this] at hperm
    · rintro rfl
      apply BitVec.eq_of_getLsbD_eq
      intro i hi
      rw [BitVec.getLsbD_zero]
      by_cases hij : i = j
      · rw [hij]; exact (look_none hc hj).1 hoc
      · exact hbit i hi hij
    · intro hne
      rw [collTree_ne hne] at hoc
      refine ⟨?_, ?_⟩
      · rintro rfl
        rw [look_zero] at hoc; cases hoc
      · rw [look, if_pos (look_some hoc)] at hoc
        have : rank cmap.getLsbD j = 0 := by
          rw [rank_zero_iff]
          intro i hi
          exact hbit i (by omega) (by omega)
        rwa [this] at hoc

theorem putCollision_eq {cmap : BitVec 32} {children : List (Tree K V)} {i : Nat} (hi : i < 32) (hc : Fits cmap children) {t}
    (h : look cmap children i = some t) (ces : List (K × V)) :
    ∃ cmap' children', putCollision cmap (bitOf i) ces children = some (cmap', children') ∧ Fits cmap' children' ∧
      look cmap' children' i = collTree ces ∧ ∀ j, j < 32 → j ≠ i → look cmap' children' j = look cmap children j := by
  cases ces with
  | nil =>
    obtain ⟨b', l', h1, h2, h3, h4⟩ := bucketsRemove_eq hc hi h
    exact ⟨b', l', by simpa [putCollision] using h1, h2, h3, h4⟩
  | cons c cs =>
    obtain ⟨l', h1, h2, h3, h4⟩ := bucketsUpdate_eq hc hi h (fromCollision (c :: cs))
    exact ⟨cmap, l', by simp [putCollision, h1], h2, h3, fun j _ => h4 j⟩

theorem Two.same {es es' : List (Entry K V)} (h : ∀ a ∈ es, ∃ b ∈ es', b.1 = a.1) (ht : Two es) : Two es' := by
  obtain ⟨a, ha, b, hb, hne⟩ := ht
  obtain ⟨a', ha', h1⟩ := h a ha
  obtain ⟨b', hb', h2⟩ := h b hb
  exact ⟨a', ha', b', hb', by rw [h1, h2]; exact hne⟩

theorem two_upd {f : Nat → List (Entry K V)} {i : Nat} (hi : i < 32) {x} (h : ∀ a ∈ f i, ∃ b ∈ x, b.1 = a.1) (ht : Two (flat f)) :
    Two (flat (upd f i x)) := by
  refine ht.same fun a ha => ?_
  have := (flat_perm f hi).mem_iff.1 ha
  rcases List.mem_append.1 this with hm | hm
  · obtain ⟨a', ha', rfl⟩ := List.mem_map.1 hm
    obtain ⟨b, hb, hab⟩ := h a' ha'
    refine ⟨lift i b, (upd_perm f hi x).mem_iff.2 (List.mem_append_left _ (List.mem_map_of_mem hb)), ?_⟩
    simp [lift, hab]
  · exact ⟨a, (upd_perm f hi x).mem_iff.2 (List.mem_append_right _ hm), rfl⟩

theorem Removed.ne_nil {h k v} {es es' : List (Entry K V)} (hr : Removed eq h k es v es') (ht : Two es) : es' ≠ [] := by
  rintro rfl
  obtain ⟨k', -, hp⟩ := hr
  obtain ⟨a, ha, b, hb, hne⟩ := ht.perm hp
  simp only [List.mem_singleton] at ha hb
  subst ha; subst hb
  exact hne rfl

/-- What a removal gives. -/
def RemoveOk (eq : K → K → Bool) (n : Nat) (h : Nat) (k : K) (es : List (Entry K V)) : Option (V × Bool × Tree K V) → Prop
  | none => Missing eq h k es
  | some (v, mg, t') => ∃ es', Rep eq n t' es' ∧ Removed eq h k es v es' ∧
      (mg = true → ∃ emap cmap elems children, t' = .node emap cmap elems children ∧ merges emap cmap = true) ∧ (mg = false → Two es → Two es')

theorem remove_spec {n} (hn : n ≤ 13) {t : Tree K V} {es} (hr : Rep eq n t es) (h : BitVec 64) (k : K) :
    ∃ o, remove eq n h k t = some o ∧ RemoveOk eq n h.toNat k es o := by
  induction n generalizing t es h with
  | zero => exact absurd hr id
  | succ n ih =>
    cases t with
    | collision => exact absurd hr id
    | node emap cmap elems children =>
      obtain ⟨he, hc, f, hs, rfl⟩ := hr
      obtain ⟨h', hcons, hh'⟩ := consumeHash_eq h
      have hi : h.toNat % 32 < 32 := Nat.mod_lt _ (by omega)
      rw [remove]
      simp only [hcons]
      -- the two ways to go on from the entries at the index
      have fin : ∀ {v mg emap' cmap' elems' children' x}, Rep eq (n + 1) (.node emap' cmap' elems' children') (flat (upd f (h.toNat % 32) x)) →
          Removed eq (h.toNat / 32) k (f (h.toNat % 32)) v x →
          (mg = merges emap' cmap' ∨ mg = false ∧ (Two (flat f) → Two (flat (upd f (h.toNat % 32) x)))) →
          RemoveOk eq (n + 1) h.toNat k (flat f) (some (v, mg, .node emap' cmap' elems' children')) := by
        intro v mg emap' cmap' elems' children' x h1 h2 h3
        refine ⟨_, h1, removed_flat h2, ?_, ?_⟩
        · intro hmg
          rcases h3 with h3 | h3
          · exact ⟨_, _, _, _, rfl, h3.symm.trans hmg⟩
          · rw [h3.1] at hmg; cases hmg
        · intro hmg ht
          rcases h3 with h3 | h3
          · exact two_of_not_merges h1 ((removed_flat h2).ne_nil ht) (h3.symm.trans hmg)
          · exact h3.2 ht
      have miss : Missing eq (h.toNat / 32) k (f (h.toNat % 32)) → RemoveOk eq (n + 1) h.toNat k (flat f) none := missing_flat
      have hsi := hs _ hi
      have htwoF : ∀ {x}, (∀ a ∈ f (h.toNat % 32), ∃ b ∈ x, b.1 = a.1) → Two (flat f) → Two (flat (upd f (h.toNat % 32) x)) :=
        fun h1 h2 => two_upd hi h1 h2
      have htwoC : ∀ {x}, Two x → Two (flat (upd f (h.toNat % 32) x)) := by
        intro x hx
        refine Two.flat hi ?_
        rw [upd, if_pos rfl]; exact hx
      revert fin miss htwoF
      generalize hfi : f (h.toNat % 32) = x at hsi ⊢
      generalize hoe : look emap elems (h.toNat % 32) = oe at hsi
      generalize hoc : look cmap children (h.toNat % 32) = oc at hsi
      rw [← hh']
      intro fin miss htwoF
      cases hsi with
      | empty =>
        rw [search_none hi he hc hoe hoc]
        exact ⟨none, rfl, miss (by intro e he; cases he)⟩
      | child t es hr' htwo =>
        rw [search_child hi he hoe hoc]
        obtain ⟨o, h1, h2⟩ := ih (by omega) hr' h'
        simp only [Option.bind_eq_bind, Option.bind_some, h1]
        match o, h2 with
        | none, h2 => exact ⟨none, rfl, miss h2⟩
        | some (v, false, t'), ⟨es', g1, g2, _, g4⟩ =>
          obtain ⟨children', k1, k2, k3, k4⟩ := bucketsUpdate_eq hc hi hoc t'
          simp only [Bool.false_eq_true, if_false, k1, Option.bind_some]
          refine ⟨_, rfl, fin (x := es') (Rep.mk hs he k2 (fun _ _ _ => rfl) (fun j _ => k4 j) ?_) g2 (.inr ⟨rfl, fun _ => htwoC (g4 rfl htwo)⟩)⟩
          rw [hoe, k3]; exact .child _ _ g1 (g4 rfl htwo)
        | some (v, true, t'), ⟨es', g1, g2, g3, _⟩ =>
          obtain ⟨emap₁, cmap₁, elems₁, children₁, rfl, hmg⟩ := g3 rfl
          have hbound := g1.bound
          cases n with
          | zero => exact absurd g1 id
          | succ m =>
            obtain ⟨j, ch, ck, cv, ces, hj, rfl, rfl, hb, hl, hp, hes, hce, hcn⟩ := merged_node g1 hmg
            have hlt : ch.toNat * 32 + j < 32 ^ (m + 1) := hbound (ch.toNat * 32 + j, ck, cv) (hes.mem_iff.2 (by simp [group]))
            have h64 : ch.toNat * 32 + j < 2 ^ 64 := by
              have : 32 ^ (m + 1) ≤ 32 ^ 12 := Nat.pow_le_pow_right (by omega) (by omega)
              have h12 : (32 : Nat) ^ 12 < 2 ^ 64 := by decide
              omega
            have hH := restoreHash_toNat hj ch h64
            generalize hHe : restoreHash (bitOf j) ch = H at hH
            simp only [if_true, List.getElem?_cons_zero, Option.bind_some, hHe]
            obtain ⟨emap', elems', k1, k2, k3, k4, -⟩ := bucketsAdd_eq he hi hoe (H, ck, cv)
            simp only [k1, Option.bind_some]
            have hrem : Removed eq h'.toNat k x v (group H.toNat ck cv ces) := by
              obtain ⟨k', q1, q2⟩ := g2
              exact ⟨k', q1, q2.trans ((hH ▸ hes).cons _)⟩
            cases hces : ces with
            | nil =>
              subst hces
              obtain ⟨cmap', children', m1, m2, m3, m4⟩ := bucketsRemove_eq hc hi hoc
              simp only [hce rfl, if_true, m1, Option.bind_some]
              refine ⟨_, rfl, fin (Rep.mk hs k2 m2 (fun j _ => k4 j) m4 ?_) hrem (.inl rfl)⟩
              rw [k3, m3]
              exact .group H ck cv [] (by omega) hl hp
            | cons c cs =>
              have hnil : ces ≠ [] := by rw [hces]; simp
              obtain ⟨hc0, hch⟩ := hcn hnil
              obtain ⟨children', m1, m2, m3, m4⟩ := bucketsUpdate_eq hc hi hoc (fromCollision ces)
              simp only [hc0, if_false, hch, Option.bind_some, m1, Option.map_some]
              refine ⟨_, rfl, fin (Rep.mk hs k2 m2 (fun j _ => k4 j) (fun j _ => m4 j) ?_) hrem (.inl rfl)⟩
              rw [k3, m3, ← collTree_ne hnil]
              exact .group H ck cv ces (by omega) hl hp
      | group eh ek ev ces hbe hl hp =>
        rw [search_elem hi hoe]
        simp only [Option.bind_eq_bind, Option.bind_some]
        by_cases hne : eh = h'
        · subst hne
          simp only [ne_eq, not_true_eq_false, if_false]
          rw [collisionElems_eq hi hc hl hoc]
          simp only [Option.bind_some]
          rw [List.pairwise_cons] at hp
          by_cases hk : eq ek k = true
          · simp only [hk, if_true]
            cases ces with
            | nil =>
              obtain ⟨emap', elems', k1, k2, k3, k4⟩ := bucketsRemove_eq he hi hoe
              simp only [collElems, k1, Option.bind_some]
              refine ⟨_, rfl, fin (x := []) (Rep.mk hs k2 hc k4 (fun _ _ _ => rfl) ?_) ⟨ek, hk, .refl _⟩ (.inl rfl)⟩
              rw [k3, hoc]; exact .empty
            | cons c cs =>
              obtain ⟨nk, nv⟩ := c
              obtain ⟨elems', k1, k2, k3, k4⟩ := bucketsUpdate_eq he hi hoe (eh, nk, nv)
              obtain ⟨cmap', children', m1, m2, m3, m4⟩ := putCollision_eq hi hc hoc cs
              simp only [collElems, k1, m1, Option.bind_some]
              refine ⟨_, rfl, fin (x := group eh.toNat nk nv cs) (Rep.mk hs k2 m2 (fun j _ => k4 j) m4 ?_) ⟨ek, hk, .refl _⟩
                (.inr ⟨rfl, htwoF ?_⟩)⟩
              · rw [k3, m3]
                refine .group _ _ _ _ hbe (by simp only [List.length_cons] at hl; omega) ?_
                exact hp.2
              · intro a ha
                exact ⟨_, List.mem_cons_self, (mem_group ha).symm⟩
          · have hk' : eq ek k = false := by simpa using hk
            simp only [hk', Bool.false_eq_true, if_false]
            cases hces : ces with
            | nil =>
              subst hces
              refine ⟨none, rfl, miss ?_⟩
              intro e he _
              simp only [group, List.map_nil, List.mem_singleton] at he
              subst he; exact hk'
            | cons c cs =>
              rw [← hces]
              have hnil : ces ≠ [] := by rw [hces]; simp
              have hce : collElems ces = some ces := by rw [hces]; rfl
              rw [hce]
              rw [collTree_ne hnil] at hoc
              simp only
              rcases scan_cases (eq := eq) k ces with ⟨h1, h2⟩ | ⟨j, hj, h1, h2⟩
              · rw [h1]
                refine ⟨none, rfl, miss ?_⟩
                intro e he _
                rcases List.mem_cons.1 he with rfl | he
                · exact hk'
                · obtain ⟨c, hc, rfl⟩ := List.mem_map.1 he
                  exact h2 c hc
              · have h1' : scan eq k ces 0 = some (j, ces[j].1, ces[j].2) := h1
                obtain ⟨cmap', children', m1, m2, m3, m4⟩ := putCollision_eq hi hc hoc (ces.eraseIdx j)
                simp only [h1', m1, Option.bind_some]
                refine ⟨_, rfl, fin (x := group eh.toNat ek ev (ces.eraseIdx j)) (Rep.mk hs he m2 (fun _ _ _ => rfl) m4 ?_)
                  ⟨ces[j].1, h2, ?_⟩ (.inr ⟨rfl, htwoF ?_⟩)⟩
                · rw [hoe, m3]
                  refine .group _ _ _ _ hbe (Nat.lt_of_le_of_lt (List.eraseIdx_sublist ces j).length_le hl) ?_
                  rw [List.pairwise_cons]
                  have hsub := (List.eraseIdx_sublist ces j).map Prod.fst
                  exact ⟨fun a ha => hp.1 a (hsub.mem ha), hp.2.sublist hsub⟩
                · exact (((perm_eraseIdx ces hj).map _).cons _).trans (.swap _ _ _)
                · intro a ha
                  exact ⟨_, List.mem_cons_self, (mem_group ha).symm⟩
        · simp only [ne_eq, hne, not_false_eq_true, if_true]
          exact ⟨none, rfl, miss (missing_group_ne fun hc => hne (BitVec.eq_of_toNat_eq hc))⟩

end Verif.Hamt
