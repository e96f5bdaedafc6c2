import Verif.Hamt.Lemmas

/-! # Insertion -/
namespace Verif.Hamt
open scoped List

variable {K V : Type} {eq : K → K → Bool}

theorem rep_newChild {n : Nat} {h : BitVec 64} {k : K} {v : V} {ces} (hb : h.toNat < 32 ^ (n + 1)) (hl : ces.length < 2 ^ 32)
    (hp : (k :: ces.map Prod.fst).Pairwise (fun a b => eq a b = false)) :
    ∃ es, Rep eq (n + 1) (newChild h k v (collElems ces)) es ∧ es ~ group h.toNat k v ces := by
  obtain ⟨h', hcons, hh'⟩ := consumeHash_eq h
  have hi : h.toNat % 32 < 32 := Nat.mod_lt _ (by omega)
  have hb' : h'.toNat < 32 ^ n := by rw [hh']; rw [Nat.pow_succ] at hb; omega
  refine ⟨flat (upd (fun _ => []) (h.toNat % 32) (group h'.toNat k v ces)), ?_, ?_⟩
  · have h0 : ∀ i < 32, Slot eq n (Rep eq n) (look 0#32 ([] : List (BitVec 64 × K × V)) i) (look 0#32 ([] : List (Tree K V)) i) [] := by
      intro i _; rw [look_zero, look_zero]; exact .empty
    rw [newChild]
    simp only [hcons]
    cases ces with
    | nil =>
      simp only [collElems, addBit_zero]
      refine Rep.mk h0 (fits_bitOf hi _) fits_zero ?_ ?_ ?_
      · intro j hj hne; rw [look_bitOf hi _ j hj, if_neg hne, look_zero]
      · intro j hj hne; rfl
      · rw [look_bitOf hi _ _ hi, if_pos rfl, look_zero]
        exact .group _ _ _ [] hb' hl hp
    | cons c cs =>
      simp only [collElems, addBit_zero]
      refine Rep.mk h0 (fits_bitOf hi _) (fits_bitOf hi _) ?_ ?_ ?_
      · intro j hj hne; rw [look_bitOf hi _ j hj, if_neg hne, look_zero]
      · intro j hj hne; rw [look_bitOf hi _ j hj, if_neg hne, look_zero]
      · rw [look_bitOf hi _ _ hi, if_pos rfl, look_bitOf hi _ _ hi, if_pos rfl]
        exact .group _ _ _ (c :: cs) hb' hl hp
  · refine (upd_perm _ hi _).trans ?_
    rw [others_nil, List.append_nil]
    have : (group h'.toNat k v ces).map (lift (h.toNat % 32)) = group h.toNat k v ces := by
      rw [hh', group, group, List.map_cons, lift_div, List.map_map]
      congr 1
      refine List.map_congr_left fun c _ => ?_
      exact lift_div _ _
    rw [this]

theorem cnt_group (h : Nat) (k : K) (v : V) (ces : List (K × V)) : cnt h (group h k v ces) = ces.length + 1 := by
  have : cnt h (ces.map (fun c => (h, c))) = ces.length := by
    induction ces with
    | nil => rfl
    | cons c cs ih => rw [List.map_cons, cnt, List.countP_cons, List.length_cons, ← ih]; simp [cnt]
  rw [group, cnt, List.countP_cons, ← this]; simp [cnt]

theorem mem_group {h : Nat} {k : K} {v : V} {ces : List (K × V)} {e} (he : e ∈ group h k v ces) : e.1 = h := by
  simp only [group, List.mem_cons, List.mem_map] at he
  rcases he with rfl | ⟨c, -, rfl⟩ <;> rfl

theorem missing_group_ne {h h' : Nat} {k k' : K} {v : V} {ces : List (K × V)} (hne : h ≠ h') : Missing eq h' k' (group h k v ces) :=
  fun _ he hc => absurd ((mem_group he).symm.trans hc) hne

theorem cnt_group_ne {h h' : Nat} {k : K} {v : V} {ces : List (K × V)} (hne : h ≠ h') : cnt h' (group h k v ces) = 0 := by
  rw [cnt, List.countP_eq_zero]
  intro e he hc
  exact hne ((mem_group he).symm.trans (eq_of_beq hc))

theorem map_fst_set {ces : List (K × V)} {j : Nat} (hj : j < ces.length) (v : V) : (ces.set j (ces[j].1, v)).map Prod.fst = ces.map Prod.fst := by
  rw [List.map_set]
  have : ces[j].1 = (ces.map Prod.fst)[j]'(by simpa using hj) := by simp
  simp only [this]
  exact List.set_getElem_self _

theorem perm_eraseIdx {α} (l : List α) {j : Nat} (hj : j < l.length) : l ~ l[j] :: l.eraseIdx j := by
  induction l generalizing j with
  | nil => cases hj
  | cons a l ih =>
    cases j with
    | zero => exact .refl _
    | succ j => exact ((ih (Nat.lt_of_succ_lt_succ hj)).cons a).trans (.swap _ _ _)

theorem set_perm {α} (l : List α) {j : Nat} (hj : j < l.length) (x : α) : l.set j x ~ x :: l.eraseIdx j := by
  induction l generalizing j with
  | nil => cases hj
  | cons a l ih =>
    cases j with
    | zero => exact .refl _
    | succ j => exact ((ih (Nat.lt_of_succ_lt_succ hj)).cons a).trans (.swap _ _ _)

theorem collTree_ne {ces : List (K × V)} (h : ces ≠ []) : collTree ces = some (fromCollision ces) := by
  cases ces with
  | nil => exact absurd rfl h
  | cons => rfl

theorem insert_spec {n} {t : Tree K V} {es} (hr : Rep eq n t es) (h : BitVec 64) (hb : h.toNat < 32 ^ n) (k : K) (v : V)
    (hcnt : cnt h.toNat es < 2 ^ 32) :
    ∃ r t' es', insert eq n h k v t = some (r, t') ∧ Rep eq n t' es' ∧ Inserted eq h.toNat k v es r es' := by
  induction n generalizing t es h with
  | zero => exact absurd hr id
  | succ n ih =>
    cases t with
    | collision => exact absurd hr id
    | node emap cmap elems children =>
      obtain ⟨he, hc, f, hs, rfl⟩ := hr
      obtain ⟨h', hcons, hh'⟩ := consumeHash_eq h
      have hi : h.toNat % 32 < 32 := Nat.mod_lt _ (by omega)
      have hb' : h'.toNat < 32 ^ n := by rw [hh']; rw [Nat.pow_succ] at hb; omega
      rw [cnt_flat] at hcnt
      rw [insert]
      simp only [hcons]
      suffices hx : ∃ r t' x, _ = some (r, t') ∧ Rep eq (n + 1) t' (flat (upd f (h.toNat % 32) x)) ∧
          Inserted eq (h.toNat / 32) k v (f (h.toNat % 32)) r x by
        obtain ⟨r, t', x, h1, h2, h3⟩ := hx
        exact ⟨r, t', _, h1, h2, inserted_flat h3⟩
      have hsi := hs _ hi
      revert hcnt
      generalize hfi : f (h.toNat % 32) = x at hsi ⊢
      generalize hoe : look emap elems (h.toNat % 32) = oe at hsi
      generalize hoc : look cmap children (h.toNat % 32) = oc at hsi
      rw [← hh']
      intro hcnt
      cases hsi with
      | empty =>
        rw [search_none hi he hc hoe hoc]
        obtain ⟨emap', elems', h1, h2, h3, h4, -⟩ := bucketsAdd_eq he hi hoe (h', k, v)
        simp only [Option.bind_eq_bind, Option.bind_some, h1]
        refine ⟨_, _, group h'.toNat k v [], rfl, Rep.mk hs h2 hc (fun j _ => h4 j) (fun _ _ _ => rfl) ?_, ?_⟩
        · rw [h3, hoc]
          exact .group h' k v [] hb' (by simp) (by simp)
        · exact .inl ⟨rfl, fun e he => absurd he (by simp), .refl _⟩
      | child t es hr' htwo =>
        rw [search_child hi he hoe hoc]
        obtain ⟨r, t', es', h1, h2, h3⟩ := ih hr' h' hb' hcnt
        simp only [Option.bind_eq_bind, Option.bind_some, h1]
        obtain ⟨children', h4, h5, h6, h7⟩ := bucketsUpdate_eq hc hi hoc t'
        rw [h4]
        refine ⟨_, _, es', rfl, Rep.mk hs he h5 (fun _ _ _ => rfl) (fun j _ => h7 j) ?_, h3⟩
        rw [hoe, h6]
        exact .child _ _ h2 (htwo.inserted h3)
      | group eh ek ev ces hbe hl hp =>
        rw [search_elem hi hoe]
        simp only [Option.bind_eq_bind, Option.bind_some]
        by_cases hne : eh = h'
        · subst hne
          rw [if_pos rfl]
          by_cases hk : eq ek k = true
          · rw [if_pos hk]
            obtain ⟨elems', h1, h2, h3, h4⟩ := bucketsUpdate_eq he hi hoe (eh, ek, v)
            rw [h1]
            refine ⟨_, _, group eh.toNat ek v ces, rfl, Rep.mk hs h2 hc (fun j _ => h4 j) (fun _ _ _ => rfl) ?_, ?_⟩
            · rw [h3, hoc]; exact .group _ _ _ _ hbe hl hp
            · exact .inr ⟨ek, ev, _, rfl, hk, .refl _, .refl _⟩
          · rw [if_neg hk, collisionElems_eq hi hc hl hoc]
            simp only [Option.bind_some]
            have hk' : eq ek k = false := by simpa using hk
            cases hces : ces with
            | nil =>
              subst hces
              obtain ⟨cmap', children', h1, h2, h3, h4, -⟩ := bucketsAdd_eq hc hi hoc (fromCollision [(k, v)])
              simp only [collElems, h1, Option.bind_some]
              refine ⟨_, _, group eh.toNat ek ev [(k, v)], rfl, Rep.mk hs he h2 (fun _ _ _ => rfl) (fun j _ => h4 j) ?_, ?_⟩
              · rw [hoe, h3]; exact .group eh ek ev [(k, v)] hbe (by simp) (by simpa using hk')
              · refine .inl ⟨rfl, ?_, .swap _ _ _⟩
                intro e he _
                simp only [group, List.map_nil, List.mem_singleton] at he
                subst he; exact hk'
            | cons c cs =>
              rw [← hces]
              have hnil : ces ≠ [] := by rw [hces]; simp
              have hce : collElems ces = some ces := by rw [hces]; rfl
              rw [hce]
              rw [collTree_ne hnil] at hoc
              simp only
              rw [List.pairwise_cons] at hp
              rcases scan_cases (eq := eq) k ces with ⟨h1, h2⟩ | ⟨j, hj, h1, h2⟩
              · obtain ⟨children', h4, h5, h6, h7⟩ := bucketsUpdate_eq hc hi hoc (fromCollision (ces ++ [(k, v)]))
                simp only [h1, h4, Option.bind_some]
                rw [cnt_group] at hcnt
                refine ⟨_, _, group eh.toNat ek ev (ces ++ [(k, v)]), rfl, Rep.mk hs he h5 (fun _ _ _ => rfl) (fun j _ => h7 j) ?_, ?_⟩
                · rw [hoe, h6, ← collTree_ne (by simp)]
                  refine .group _ _ _ _ hbe (by simpa using hcnt) ?_
                  rw [List.pairwise_cons, List.map_append, List.pairwise_append]
                  refine ⟨?_, hp.2, by simp, ?_⟩
                  · intro a ha
                    rcases List.mem_append.1 ha with ha | ha
                    · exact hp.1 a ha
                    · simp only [List.map_cons, List.map_nil, List.mem_singleton] at ha
                      subst ha; exact hk'
                  · intro a ha b hb
                    simp only [List.map_cons, List.map_nil, List.mem_singleton] at hb
                    subst hb
                    obtain ⟨c, hc, rfl⟩ := List.mem_map.1 ha
                    exact h2 c hc
                · refine .inl ⟨rfl, ?_, ?_⟩
                  · intro e he _
                    rcases List.mem_cons.1 he with rfl | he
                    · exact hk'
                    · obtain ⟨c, hc, rfl⟩ := List.mem_map.1 he
                      exact h2 c hc
                  · rw [group, List.map_append, group]
                    refine ((List.perm_append_comm).cons _).trans ?_
                    exact .swap _ _ _
              · obtain ⟨children', h4, h5, h6, h7⟩ := bucketsUpdate_eq hc hi hoc (fromCollision (ces.set j (ces[j].1, v)))
                have h1' : scan eq k ces 0 = some (j, ces[j].1, ces[j].2) := h1
                simp only [h1', h4, Option.bind_some]
                refine ⟨_, _, group eh.toNat ek ev (ces.set j (ces[j].1, v)), rfl, Rep.mk hs he h5 (fun _ _ _ => rfl) (fun j _ => h7 j) ?_, ?_⟩
                · rw [hoe, h6, ← collTree_ne (by simpa using hnil)]
                  refine .group _ _ _ _ hbe (by simpa using hl) ?_
                  rw [map_fst_set hj, List.pairwise_cons]
                  exact hp
                · refine .inr ⟨ces[j].1, ces[j].2, (eh.toNat, ek, ev) :: (ces.eraseIdx j).map (fun c => (eh.toNat, c)), rfl, h2, ?_, ?_⟩
                  · exact (((perm_eraseIdx ces hj).map _).cons _).trans (.swap _ _ _)
                  · exact (((set_perm ces hj (ces[j].1, v)).map _).cons _).trans (.swap _ _ _)
        · rw [if_neg hne, collisionElems_eq hi hc hl hoc]
          have hnn : eh.toNat ≠ h'.toNat := fun hc => hne (BitVec.eq_of_toNat_eq hc)
          cases n with
          | zero => rw [Nat.pow_zero] at hbe hb'; omega
          | succ m =>
            obtain ⟨es0, hr0, hp0⟩ := rep_newChild (eq := eq) (v := ev) hbe hl hp
            obtain ⟨r, t', es', h1, h2, h3⟩ := ih hr0 h' hb' (by
              rw [cnt, hp0.countP_eq]
              have := cnt_group_ne (k := ek) (v := ev) (ces := ces) hnn
              rw [cnt] at this; rw [this]; exact Nat.two_pow_pos 32)
            simp only [Option.bind_some, h1]
            have h3' := h3.perm hp0 (.refl _)
            have hmiss := missing_group_ne (eq := eq) (k := ek) (k' := k) (v := ev) (ces := ces) hnn
            have hins : es' ~ (h'.toNat, k, v) :: group eh.toNat ek ev ces := by
              rcases h3' with ⟨-, -, hp⟩ | ⟨k', v', rest, -, hq, hp1, -⟩
              · exact hp
              · have := hmiss _ (hp1.mem_iff.2 List.mem_cons_self) rfl
                rw [hq] at this; cases this
            have htwo : Two es' := by
              refine Two.perm hins.symm ⟨_, List.mem_cons_self, (eh.toNat, ek, ev), by simp [group], fun hc => hnn hc.symm⟩
            obtain ⟨emap', elems', g1, g2, g3, g4⟩ := bucketsRemove_eq he hi hoe
            simp only [g1, Option.bind_some]
            cases hces : ces with
            | nil =>
              subst hces
              obtain ⟨cmap', children', k1, k2, k3, k4, -⟩ := bucketsAdd_eq hc hi hoc t'
              simp only [collElems, Option.isNone_none, if_true, k1, Option.bind_some]
              refine ⟨_, _, es', rfl, Rep.mk hs g2 k2 g4 (fun j _ => k4 j) ?_, .inl ⟨rfl, hmiss, hins⟩⟩
              rw [g3, k3]; exact .child _ _ h2 htwo
            | cons c cs =>
              subst hces
              obtain ⟨children', k1, k2, k3, k4⟩ := bucketsUpdate_eq hc hi hoc t'
              simp only [collElems, Option.isNone_some, Bool.false_eq_true, if_false, k1, Option.map_some, Option.bind_some]
              refine ⟨_, _, es', rfl, Rep.mk hs g2 k2 g4 (fun j _ => k4 j) ?_, .inl ⟨rfl, hmiss, hins⟩⟩
              rw [g3, k3]; exact .child _ _ h2 htwo

end Verif.Hamt
