import Verif.DataExpander.Lemmas
import Verif.TopoSort.Props
/-!
# Lemmas: the expansions computed for all data types
-/
namespace Verif.DataExpander

open Verif TopoSort

/-- A representation is the field of an only constructor, or its type mentions only new definitions. -/
theorem computed_new {d : Data} {named : Bool} {e e' : Env} {x : Expansion}
    (h : computeDataExpansion d named e = some (x, e')) :
    e.next ≤ e'.next ∧ ((∀ k ∈ x.toCt.ids, e.next ≤ k) ∨ (named = false ∧ ∃ t, x = .alias t ∧ d.cons = [[t]])) := by
  have hunit : ∀ n, (enumCt n).ids = [] := by
    intro n
    match n with
    | 0 => rfl
    | 1 => rfl
    | n + 2 => rfl
  have hst : ∀ (cons : List (List Ct)) (e : Env), e.next ≤ (addStructs cons e).2.next := by
    intro cons
    induction cons with
    | nil => intro e; exact Nat.le_refl _
    | cons fs rest ih =>
      intro e
      have h1 := ih (e.addDef (.struct fs)).2
      have h2 : (e.addDef (.struct fs)).2.next = e.next + 1 := rfl
      simp only [addStructs]
      omega
  have hwrap : ∀ r size (b : Body × Env), e.next ≤ b.2.next → e.next ≤ (wrap r size b).2.next ∧
      ∀ k ∈ (wrap r size b).1.toCt.ids, e.next ≤ k := by
    intro r size b hb
    cases r <;> simp only [wrap, Env.addDef, Expansion.toCt, Ct.ids, List.mem_singleton] <;> exact ⟨by omega, by intro k hk; omega⟩
  unfold computeDataExpansion at h
  split at h
  · cases h; exact ⟨Nat.le_refl _, Or.inl (by simp [Expansion.toCt, Ct.ids])⟩
  · next fields hc =>
    rw [Option.some.injEq] at h
    unfold oneCon at h
    split at h
    · cases h; exact ⟨Nat.le_refl _, Or.inl (by simp [Expansion.toCt, Ct.ids])⟩
    · split at h
      · next hb2 hb =>
        cases h
        refine ⟨Nat.le_refl _, Or.inr ⟨?_, _, rfl, hc⟩⟩
        rw [Bool.and_eq_true] at hb2
        simpa using hb2.2
      · split at h <;> cases h <;> simp [Env.addDef, Expansion.toCt, Ct.ids]
  · split at h
    · cases h
    · split at h
      · cases h; exact ⟨Nat.le_refl _, Or.inl (by simp [Expansion.toCt, hunit])⟩
      · split at h
        · cases h
        · next index hidx =>
          rw [Option.some.injEq] at h
          have hb : e.next ≤ (singleBody index (d.cons[index]?.getD []) e).2.next := by
            unfold singleBody
            split
            · exact Nat.le_refl _
            · exact Nat.le_succ _
          have := hwrap d.repr d.cons.length _ hb
          rw [h] at this
          exact ⟨this.1, Or.inl this.2⟩
      · rw [Option.some.injEq] at h
        have hb : e.next ≤ (unionOn d.cons e).2.next := by
          have := hst d.cons e
          simp only [unionOn, Env.addDef]
          omega
        have := hwrap d.repr d.cons.length _ hb
        rw [h] at this
        exact ⟨this.1, Or.inl this.2⟩

theorem computeGroup_spec {named : Bool} {g : List (Nat × Data)} {m m' : HMap Nat Expansion} {e e' : Env}
    (h : computeGroup named g m e = some (m', e')) (hn : (g.map Prod.fst).Nodup) :
    Grows e e' ∧ (∀ k, k ∉ g.map Prod.fst → m'.get k = m.get k) ∧
      ∀ p ∈ g, ∃ x e1 e2, m'.get p.1 = some x ∧ computeDataExpansion p.2 named e1 = some (x, e2) ∧ e.next ≤ e1.next ∧ Grows e2 e' := by
  induction g generalizing m e with
  | nil =>
    simp only [computeGroup, Option.some.injEq, Prod.mk.injEq] at h
    obtain ⟨rfl, rfl⟩ := h
    exact ⟨.refl _, fun _ _ => rfl, by simp⟩
  | cons q rest ih =>
    obtain ⟨id, d⟩ := q
    rw [computeGroup] at h
    cases hc : computeDataExpansion d named e with
    | none => rw [hc] at h; cases h
    | some r =>
      obtain ⟨x, e2⟩ := r
      rw [hc] at h
      simp only [List.map_cons, List.nodup_cons] at hn
      obtain ⟨h1, h2, h3⟩ := ih h hn.2
      have hx := (computed_defs hc).1
      have hx' := hx.subset.2
      refine ⟨hx.trans h1, ?_, ?_⟩
      · intro k hk
        simp only [List.map_cons, List.mem_cons, not_or] at hk
        rw [h2 k hk.2, HMap.get_insert, if_neg hk.1]
      · intro p hp
        rcases List.mem_cons.1 hp with rfl | hp
        · exact ⟨x, e, e2, by rw [h2 _ hn.1, HMap.get_insert, if_pos rfl], hc, Nat.le_refl _, h1⟩
        · obtain ⟨y, e1, e3, h4, h5, h6, h7⟩ := h3 p hp
          exact ⟨y, e1, e3, h4, h5, by omega, h7⟩

theorem computeGroups_spec {gs : List (List (Nat × Data))} {m m' : HMap Nat Expansion} {e e' : Env}
    (h : computeGroups gs m e = some (m', e')) (hn : (gs.flatten.map Prod.fst).Nodup) :
    Grows e e' ∧ (∀ k, k ∉ gs.flatten.map Prod.fst → m'.get k = m.get k) ∧
      ∀ g ∈ gs, ∀ p ∈ g, ∃ x e1 e2, m'.get p.1 = some x ∧ computeDataExpansion p.2 (shouldBeNamed g) e1 = some (x, e2) ∧
        e.next ≤ e1.next ∧ Grows e2 e' := by
  induction gs generalizing m e with
  | nil =>
    simp only [computeGroups, Option.some.injEq, Prod.mk.injEq] at h
    obtain ⟨rfl, rfl⟩ := h
    exact ⟨.refl _, fun _ _ => rfl, by simp⟩
  | cons g rest ih =>
    rw [computeGroups] at h
    cases hc : computeGroup (shouldBeNamed g) g m e with
    | none => rw [hc] at h; cases h
    | some r =>
      obtain ⟨m1, e1⟩ := r
      rw [hc] at h
      simp only [List.flatten_cons, List.map_append, List.nodup_append] at hn
      obtain ⟨hng, hnr, hd⟩ := hn
      obtain ⟨h1, h2, h3⟩ := ih h hnr
      obtain ⟨h4, h5, h6⟩ := computeGroup_spec hc hng
      have h4' := h4.subset.2
      refine ⟨h4.trans h1, ?_, ?_⟩
      · intro k hk
        simp only [List.flatten_cons, List.map_append, List.mem_append, not_or] at hk
        rw [h2 k hk.2, h5 k hk.1]
      · intro g' hg' p hp
        rcases List.mem_cons.1 hg' with rfl | hg'
        · obtain ⟨x, e2, e3, h7, h8, h9, h10⟩ := h6 p hp
          refine ⟨x, e2, e3, ?_, h8, h9, h10.trans h1⟩
          rw [h2 _ (fun hm => hd _ (List.mem_map_of_mem hp) _ hm rfl), h7]
        · obtain ⟨x, e2, e3, h7, h8, h9, h10⟩ := h3 g' hg' p hp
          exact ⟨x, e2, e3, h7, h8, by omega, h10⟩

theorem mem_uses {d : Data} {t : Ct} (h : d.cons = [[t]]) : d.uses = t.ids := by
  simp [Data.uses, h, idsList]

/-- What holds of the expansions at every moment. -/
structure Inv (m : HMap Nat Expansion) (e : Env) (D : List (Nat × Data)) : Prop where
  nodup : (D.map Prod.fst).Nodup
  cov : ∀ p ∈ D, ∃ x, m.get p.1 = some x ∧ Fits x p.2.cons
  dom : ∀ k x, m.get k = some x → ∃ d, (k, d) ∈ D
  old : ∀ k x, m.get k = some x → k < e.next
  defd : ∀ p ∈ D, ∃ x, m.get p.1 = some x ∧ DefFits e.defs x p.2.cons
  defids : (e.defs.map Prod.fst).Nodup ∧ ∀ p ∈ e.defs, p.1 < e.next
  apart : ∀ p ∈ D, ∀ q ∈ e.defs, p.1 ≠ q.1
  ranked : ∃ r : Nat → Nat, ∀ k x, m.get k = some x → ∀ k' ∈ x.toCt.ids, m.get k' ≠ none → r k' < r k

theorem bound_exists (l : List Nat) (f : Nat → Nat) : ∃ R, ∀ k ∈ l, f k < R := by
  induction l with
  | nil => exact ⟨0, by simp⟩
  | cons a l ih =>
    obtain ⟨R, hR⟩ := ih
    refine ⟨R + f a + 1, fun k hk => ?_⟩
    rcases List.mem_cons.1 hk with rfl | hk
    · omega
    · have := hR k hk; omega

theorem Inv.step {m : HMap Nat Expansion} {e : Env} {D data : List (Nat × Data)} {m' : HMap Nat Expansion} {e' : Env} {next : Nat}
    (hi : Inv m e D) (hnd : (data.map Prod.fst).Nodup) (hold : ∀ p ∈ data, p.1 < e.next)
    (hdisj : ∀ p ∈ data, ∀ q ∈ D, p.1 ≠ q.1) (hdefs : ∀ p ∈ data, ∀ q ∈ e.defs, p.1 ≠ q.1) (hfresh : ∀ p ∈ data, ∀ k x, m.get k = some x → p.1 ∉ x.toCt.ids)
    (hc : compute data m e = some (m', e')) (hnext : e'.next ≤ next) :
    Inv m' { e' with next := next } (D ++ data) := by
  obtain ⟨gs, ho⟩ := output_exists (K := Nat) Data.uses data hnd
  rw [compute, ho.2] at hc
  have hperm := (sort_partition Data.uses data hnd ho).1
  have hnd' : (gs.flatten.map Prod.fst).Nodup := (hperm.map Prod.fst).nodup_iff.2 hnd
  obtain ⟨h1, h2, h3⟩ := computeGroups_spec hc hnd'
  have hmem : ∀ p, p ∈ data ↔ ∃ g ∈ gs, p ∈ g := by
    intro p; rw [← hperm.mem_iff, List.mem_flatten]
  have hids : ∀ k, k ∈ gs.flatten.map Prod.fst ↔ k ∈ data.map Prod.fst := fun k => (hperm.map Prod.fst).mem_iff
  have hget : ∀ k, k ∉ data.map Prod.fst → m'.get k = m.get k := fun k hk => h2 k (by rwa [hids])
  have hDm : ∀ q ∈ D, q.1 ∉ data.map Prod.fst := by
    intro q hq hm
    obtain ⟨p, hp, he⟩ := List.mem_map.1 hm
    exact hdisj p hp q hq he
  have hnew : ∀ k x, m'.get k = some x → k ∉ data.map Prod.fst → m.get k = some x := fun k x hk hn => by rw [← hget k hn]; exact hk
  have h1' := h1.subset
  obtain ⟨g1, g2, g3⟩ := h1.ids hi.defids.1 hi.defids.2
  have hDlt : ∀ p ∈ D, p.1 < e.next := fun p hp => by
    obtain ⟨x, hx, -⟩ := hi.cov p hp
    exact hi.old _ _ hx
  refine ⟨?_, ?_, ?_, ?_, ?_, ⟨g1, fun p hp => Nat.lt_of_lt_of_le (g2 p hp) hnext⟩, ?_, ?_⟩
  · rw [List.map_append, List.nodup_append]
    refine ⟨hi.nodup, hnd, ?_⟩
    intro a ha b hb hab
    subst hab
    obtain ⟨q, hq, rfl⟩ := List.mem_map.1 ha
    exact hDm q hq hb
  · intro p hp
    rcases List.mem_append.1 hp with hp | hp
    · rw [hget _ (hDm p hp)]; exact hi.cov p hp
    · obtain ⟨g, hg, hpg⟩ := (hmem p).1 hp
      obtain ⟨x, e1, e2, h4, h5, -, -⟩ := h3 g hg p hpg
      exact ⟨x, h4, computed_fits h5⟩
  · intro k x hk
    by_cases hd : k ∈ data.map Prod.fst
    · obtain ⟨p, hp, rfl⟩ := List.mem_map.1 hd
      exact ⟨p.2, List.mem_append_right _ hp⟩
    · obtain ⟨d, hd⟩ := hi.dom k x (hnew k x hk hd)
      exact ⟨d, List.mem_append_left _ hd⟩
  · intro k x hk
    show k < next
    by_cases hd : k ∈ data.map Prod.fst
    · obtain ⟨p, hp, rfl⟩ := List.mem_map.1 hd
      have := hold p hp
      omega
    · have := hi.old k x (hnew k x hk hd)
      omega
  · intro p hp
    rcases List.mem_append.1 hp with hp | hp
    · rw [hget _ (hDm p hp)]
      obtain ⟨x, h4, h5⟩ := hi.defd p hp
      exact ⟨x, h4, h5.mono h1'.1⟩
    · obtain ⟨g, hg, hpg⟩ := (hmem p).1 hp
      obtain ⟨x, e1, e2, h4, h5, -, h6⟩ := h3 g hg p hpg
      exact ⟨x, h4, (computed_defs h5).2.mono h6.subset.1⟩
  · intro p hp q hq heq
    rcases g3 q hq with hq' | hq'
    · rcases List.mem_append.1 hp with hp | hp
      · exact hi.apart p hp q hq' heq
      · exact hdefs p hp q hq' heq
    · rcases List.mem_append.1 hp with hp | hp
      · have := hDlt p hp; omega
      · have := hold p hp; omega
  · obtain ⟨r, hr⟩ := hi.ranked
    obtain ⟨R, hR⟩ := bound_exists m.keys r
    classical
    refine ⟨fun k => if hk : ∃ (a : Nat) (g : List (Nat × Data)) (d : Data), gs[a]? = some g ∧ (k, d) ∈ g then R + 1 + hk.choose else r k, ?_⟩
    have hin : ∀ k, (∃ (a : Nat) (g : List (Nat × Data)) (d : Data), gs[a]? = some g ∧ (k, d) ∈ g) ↔ k ∈ data.map Prod.fst := by
      intro k
      constructor
      · rintro ⟨a, g, d, h5, h6⟩
        exact List.mem_map.2 ⟨(k, d), (hmem _).2 ⟨g, List.mem_of_getElem? h5, h6⟩, rfl⟩
      · intro hk
        obtain ⟨p, hp, rfl⟩ := List.mem_map.1 hk
        obtain ⟨g, hg, hpg⟩ := (hmem p).1 hp
        obtain ⟨a, ha⟩ := List.mem_iff_getElem?.1 hg
        exact ⟨a, g, p.2, ha, hpg⟩
    intro k x hk k' hk' hm'
    by_cases hd : k ∈ data.map Prod.fst
    · have hex := (hin k).2 hd
      dsimp only
      rw [dif_pos hex]
      obtain ⟨g, d, hga, hgd⟩ := hex.choose_spec
      generalize hex.choose = a at hga hgd
      obtain ⟨x', e1, e2, h4, h5, h6, -⟩ := h3 g (List.mem_of_getElem? hga) (k, d) hgd
      have hxx : x' = x := by
        have : m'.get k = some x' := h4
        rw [hk] at this; exact (Option.some.inj this).symm
      subst hxx
      rcases (computed_new h5).2 with hb | ⟨hnam, t, rfl, ht⟩
      · exfalso
        have hge := hb k' hk'
        cases hmk : m'.get k' with
        | none => exact hm' hmk
        | some y =>
          by_cases hd' : k' ∈ data.map Prod.fst
          · obtain ⟨p, hp, rfl⟩ := List.mem_map.1 hd'
            have := hold p hp
            omega
          · have := hi.old k' y (hnew k' y hmk hd')
            omega
      · by_cases hd' : k' ∈ data.map Prod.fst
        · have hex' := (hin k').2 hd'
          rw [dif_pos hex']
          obtain ⟨g', d', hga', hgd'⟩ := hex'.choose_spec
          generalize hex'.choose = a' at hga' hgd'
          have hdep : Spec.DependsOn Data.uses data (k, d) (k', d') :=
            .step ((hmem _).2 ⟨g', List.mem_of_getElem? hga', hgd'⟩) (by
              show k' ∈ d.uses
              rw [mem_uses ht]; exact hk') (.refl _)
          have hord := sort_order Data.uses data hnd ho hga hga' hgd hgd' hdep
          rcases hord with heq | hlt
          · exfalso
            subst heq
            rw [hga] at hga'
            cases hga'
            unfold shouldBeNamed at hnam
            simp only [Bool.or_eq_false_iff, decide_eq_false_iff_not, ge_iff_le, Nat.not_le] at hnam
            obtain ⟨hl, hrec⟩ := hnam
            match g, hl, hgd, hgd', hrec with
            | [p], _, hgd, hgd', hrec =>
              simp only [List.mem_singleton] at hgd hgd'
              subst hgd
              cases hgd'
              simp only [hasRecursion] at hrec
              have hk3 : k ∈ d.uses := by rw [mem_uses ht]; exact hk'
              have : d.uses.contains k = true := by simpa using hk3
              rw [this] at hrec
              cases hrec
          · omega
        · rw [dif_neg (fun hx => hd' ((hin k').1 hx))]
          have : r k' < R := hR k' (by
            rw [HMap.mem_keys_iff, ← hget k' hd', Option.isSome_iff_ne_none]; exact hm')
          omega
    · dsimp only
      rw [dif_neg (fun hx => hd ((hin k).1 hx))]
      have hmk := hnew k x hk hd
      have hd' : k' ∉ data.map Prod.fst := by
        intro hd'
        obtain ⟨p, hp, rfl⟩ := List.mem_map.1 hd'
        exact hfresh p hp k x hmk hk'
      rw [dif_neg (fun hx => hd' ((hin k').1 hx))]
      exact hr k x hmk k' hk' (by rw [← hget k' hd']; exact hm')

theorem Gens.inv {m : HMap Nat Expansion} {e : Env} {D : List (Nat × Data)} (h : Gens m e D) : Inv m e D := by
  induction h with
  | start =>
    exact ⟨by simp, by simp, by simp [HMap.get_nil], by simp [HMap.get_nil], by simp, by simp, by simp, fun _ => 0, by simp [HMap.get_nil]⟩
  | step _ h1 h2 h3 h4 h5 h6 h7 ih => exact ih.step h1 h2 h3 h4 h5 h6 h7

/-! ## The expansion of types ends -/

mutual
theorem expandCt_mono {m : HMap Nat Expansion} (n : Nat) {t t' : Ct} (h : expandCt m n t = some t') : expandCt m (n + 1) t = some t' := by
  match n, t with
  | 0, _ => simp [expandCt] at h
  | n + 1, .id k =>
    rw [expandCt] at h ⊢
    cases hk : m.get k with
    | none => rw [hk] at h; exact h
    | some x => rw [hk] at h; exact expandCt_mono n h
  | n + 1, .ptr t | n + 1, .array t | n + 1, .syntax t =>
    rw [expandCt] at h ⊢
    obtain ⟨t1, h1, h2⟩ := Option.map_eq_some_iff.1 h
    rw [expandCt_mono n h1]; exact congrArg some h2
  | n + 1, .clos args ret =>
    rw [expandCt] at h ⊢
    cases h1 : expandCts m n args with
    | none => rw [h1] at h; cases h
    | some args' =>
      cases h2 : expandCt m n ret with
      | none => rw [h1, h2] at h; cases h
      | some ret' =>
        rw [h1, h2] at h
        rw [expandCts_mono n h1, expandCt_mono n h2]; exact h
  | n + 1, .s _ | n + 1, .u _ | n + 1, .unit | n + 1, .prim _ => exact h
theorem expandCts_mono {m : HMap Nat Expansion} (n : Nat) {ts ts' : List Ct} (h : expandCts m n ts = some ts') : expandCts m (n + 1) ts = some ts' := by
  match n, ts with
  | 0, _ => simp [expandCts] at h
  | n + 1, [] => exact h
  | n + 1, t :: ts =>
    rw [expandCts] at h ⊢
    cases h1 : expandCt m n t with
    | none => rw [h1] at h; cases h
    | some t' =>
      cases h2 : expandCts m n ts with
      | none => rw [h1, h2] at h; cases h
      | some ts' =>
        rw [h1, h2] at h
        rw [expandCt_mono n h1, expandCts_mono n h2]; exact h
end

theorem expandCt_le {m : HMap Nat Expansion} {n n' : Nat} {t t' : Ct} (hle : n ≤ n') (h : expandCt m n t = some t') : expandCt m n' t = some t' := by
  induction hle with
  | refl => exact h
  | step _ ih => exact expandCt_mono _ ih

theorem expandCts_le {m : HMap Nat Expansion} {n n' : Nat} {t t' : List Ct} (hle : n ≤ n') (h : expandCts m n t = some t') : expandCts m n' t = some t' := by
  induction hle with
  | refl => exact h
  | step _ ih => exact expandCts_mono _ ih

mutual
theorem expand_below {m : HMap Nat Expansion} (r : Nat → Nat)
    (hr : ∀ k x, m.get k = some x → ∀ k' ∈ x.toCt.ids, m.get k' ≠ none → r k' < r k) (R : Nat)
    (ihR : ∀ R' < R, ∀ t : Ct, (∀ k ∈ t.ids, m.get k ≠ none → r k < R') → ∃ n t', expandCt m n t = some t' ∧ ∀ k ∈ t'.ids, m.get k = none)
    (t : Ct) (ht : ∀ k ∈ t.ids, m.get k ≠ none → r k < R) : ∃ n t', expandCt m n t = some t' ∧ ∀ k ∈ t'.ids, m.get k = none := by
  match t with
  | .id k =>
    cases hk : m.get k with
    | none => exact ⟨1, .id k, by simp [expandCt, hk], by simp [Ct.ids, hk]⟩
    | some x =>
      obtain ⟨n, t', h1, h2⟩ := ihR (r k) (ht k (by simp [Ct.ids]) (by simp [hk])) x.toCt (hr k x hk)
      exact ⟨n + 1, t', by simp [expandCt, hk, h1], h2⟩
  | .ptr t =>
    obtain ⟨n, t', h1, h2⟩ := expand_below r hr R ihR t ht
    exact ⟨n + 1, .ptr t', by simp [expandCt, h1], h2⟩
  | .array t =>
    obtain ⟨n, t', h1, h2⟩ := expand_below r hr R ihR t ht
    exact ⟨n + 1, .array t', by simp [expandCt, h1], h2⟩
  | .syntax t =>
    obtain ⟨n, t', h1, h2⟩ := expand_below r hr R ihR t ht
    exact ⟨n + 1, .syntax t', by simp [expandCt, h1], h2⟩
  | .clos args ret =>
    obtain ⟨n, t', h1, h2⟩ := expand_below r hr R ihR ret (fun k hk => ht k (by simp [Ct.ids, hk]))
    obtain ⟨n', ts', h3, h4⟩ := expands_below r hr R ihR args (fun k hk => ht k (by simp [Ct.ids, hk]))
    refine ⟨n + n' + 1, .clos ts' t', ?_, ?_⟩
    · rw [expandCt, expandCts_le (by omega) h3, expandCt_le (by omega) h1]
    · intro k hk
      rcases List.mem_append.1 hk with hk | hk
      · exact h4 k hk
      · exact h2 k hk
  | .s k => exact ⟨1, .s k, rfl, by simp [Ct.ids]⟩
  | .u k => exact ⟨1, .u k, rfl, by simp [Ct.ids]⟩
  | .unit => exact ⟨1, .unit, rfl, by simp [Ct.ids]⟩
  | .prim k => exact ⟨1, .prim k, rfl, by simp [Ct.ids]⟩
theorem expands_below {m : HMap Nat Expansion} (r : Nat → Nat)
    (hr : ∀ k x, m.get k = some x → ∀ k' ∈ x.toCt.ids, m.get k' ≠ none → r k' < r k) (R : Nat)
    (ihR : ∀ R' < R, ∀ t : Ct, (∀ k ∈ t.ids, m.get k ≠ none → r k < R') → ∃ n t', expandCt m n t = some t' ∧ ∀ k ∈ t'.ids, m.get k = none)
    (ts : List Ct) (ht : ∀ k ∈ idsList ts, m.get k ≠ none → r k < R) : ∃ n ts', expandCts m n ts = some ts' ∧ ∀ k ∈ idsList ts', m.get k = none := by
  match ts with
  | [] => exact ⟨1, [], rfl, by simp [idsList]⟩
  | t :: ts =>
    obtain ⟨n, t', h1, h2⟩ := expand_below r hr R ihR t (fun k hk => ht k (by simp [idsList, hk]))
    obtain ⟨n', ts', h3, h4⟩ := expands_below r hr R ihR ts (fun k hk => ht k (by simp [idsList, hk]))
    refine ⟨n + n' + 1, t' :: ts', ?_, ?_⟩
    · rw [expandCts, expandCts_le (by omega) h3, expandCt_le (by omega) h1]
    · intro k hk
      rcases List.mem_append.1 hk with hk | hk
      · exact h2 k hk
      · exact h4 k hk
end

theorem expand_all {m : HMap Nat Expansion} (r : Nat → Nat)
    (hr : ∀ k x, m.get k = some x → ∀ k' ∈ x.toCt.ids, m.get k' ≠ none → r k' < r k) (R : Nat) :
    ∀ t : Ct, (∀ k ∈ t.ids, m.get k ≠ none → r k < R) → ∃ n t', expandCt m n t = some t' ∧ ∀ k ∈ t'.ids, m.get k = none := by
  induction R using Nat.strongRecOn with
  | ind R ih => exact expand_below r hr R ih

end Verif.DataExpander
