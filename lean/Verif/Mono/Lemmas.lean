import Verif.Mono.Model
import Mathlib.Data.List.Nodup
import Mathlib.Tactic.Tauto

/-!
# Substitution, equality and evaluation of compile-time expressions
-/

namespace Verif.Mono

/-! ## Lists -/

theorem binds_eq (f : Nat → Ct) (ts : List Ct) : Ct.binds f ts = ts.map (Ct.bind f) := by
  induction ts with
  | nil => rfl
  | cons t ts ih => simp [Ct.binds, ih]

theorem alls_iff (P : Nat → Prop) (ts : List Ct) : Ct.Alls P ts ↔ ∀ t ∈ ts, t.All P := by
  induction ts with
  | nil => simp [Ct.Alls]
  | cons t ts ih => simp [Ct.Alls, ih]

/-! ## Substitution -/

mutual
theorem bind_congr {P : Nat → Prop} {f g : Nat → Ct} (h : ∀ c, P c → f c = g c) :
    ∀ t : Ct, t.All P → t.bind f = t.bind g
  | .id c, ht => h c ht
  | .inst t as, ht => by
    simp only [Ct.bind]; rw [bind_congr h t ht.1, binds_congr h as ht.2]
  | .get t k, ht => by simp only [Ct.bind]; rw [bind_congr h t ht]
  | .ptr t, ht => by simp only [Ct.bind]; rw [bind_congr h t ht]
  | .clos as t, ht => by
    simp only [Ct.bind]; rw [bind_congr h t ht.2, binds_congr h as ht.1]
  | .array t, ht => by simp only [Ct.bind]; rw [bind_congr h t ht]
  | .syntax t, ht => by simp only [Ct.bind]; rw [bind_congr h t ht]
  | .prim p, _ => rfl

theorem binds_congr {P : Nat → Prop} {f g : Nat → Ct} (h : ∀ c, P c → f c = g c) :
    ∀ ts : List Ct, Ct.Alls P ts → Ct.binds f ts = Ct.binds g ts
  | [], _ => rfl
  | t :: ts, ht => by
    simp only [Ct.binds]; rw [bind_congr h t ht.1, binds_congr h ts ht.2]
end

mutual
theorem bind_bind (f g : Nat → Ct) : ∀ t : Ct, (t.bind f).bind g = t.bind fun c => (f c).bind g
  | .id c => rfl
  | .inst t as => by simp only [Ct.bind]; rw [bind_bind f g t, binds_binds f g as]
  | .get t k => by simp only [Ct.bind]; rw [bind_bind f g t]
  | .ptr t => by simp only [Ct.bind]; rw [bind_bind f g t]
  | .clos as t => by simp only [Ct.bind]; rw [bind_bind f g t, binds_binds f g as]
  | .array t => by simp only [Ct.bind]; rw [bind_bind f g t]
  | .syntax t => by simp only [Ct.bind]; rw [bind_bind f g t]
  | .prim p => rfl

theorem binds_binds (f g : Nat → Ct) :
    ∀ ts : List Ct, Ct.binds g (Ct.binds f ts) = Ct.binds (fun c => (f c).bind g) ts
  | [] => rfl
  | t :: ts => by simp only [Ct.binds]; rw [bind_bind f g t, binds_binds f g ts]
end

mutual
theorem bind_id : ∀ t : Ct, t.bind Ct.id = t
  | .id c => rfl
  | .inst t as => by simp only [Ct.bind]; rw [bind_id t, binds_id as]
  | .get t k => by simp only [Ct.bind]; rw [bind_id t]
  | .ptr t => by simp only [Ct.bind]; rw [bind_id t]
  | .clos as t => by simp only [Ct.bind]; rw [bind_id t, binds_id as]
  | .array t => by simp only [Ct.bind]; rw [bind_id t]
  | .syntax t => by simp only [Ct.bind]; rw [bind_id t]
  | .prim p => rfl

theorem binds_id : ∀ ts : List Ct, Ct.binds Ct.id ts = ts
  | [] => rfl
  | t :: ts => by simp only [Ct.binds]; rw [bind_id t, binds_id ts]
end

mutual
theorem all_bind {P : Nat → Prop} {f : Nat → Ct} :
    ∀ t : Ct, (t.bind f).All P ↔ t.All fun c => (f c).All P
  | .id c => Iff.rfl
  | .inst t as => by simp only [Ct.bind, Ct.All]; rw [all_bind t, alls_binds as]
  | .get t k => by simp only [Ct.bind, Ct.All]; rw [all_bind t]
  | .ptr t => by simp only [Ct.bind, Ct.All]; rw [all_bind t]
  | .clos as t => by simp only [Ct.bind, Ct.All]; rw [all_bind t, alls_binds as]
  | .array t => by simp only [Ct.bind, Ct.All]; rw [all_bind t]
  | .syntax t => by simp only [Ct.bind, Ct.All]; rw [all_bind t]
  | .prim p => Iff.rfl

theorem alls_binds {P : Nat → Prop} {f : Nat → Ct} :
    ∀ ts : List Ct, Ct.Alls P (Ct.binds f ts) ↔ Ct.Alls (fun c => (f c).All P) ts
  | [] => Iff.rfl
  | t :: ts => by simp only [Ct.binds, Ct.Alls]; rw [all_bind t, alls_binds ts]
end

mutual
theorem Ct.All.mono {P Q : Nat → Prop} (h : ∀ c, P c → Q c) : ∀ t : Ct, t.All P → t.All Q
  | .id c, ht => h c ht
  | .inst t as, ht => ⟨Ct.All.mono h t ht.1, Ct.Alls.mono h as ht.2⟩
  | .get t _, ht => Ct.All.mono h t ht
  | .ptr t, ht => Ct.All.mono h t ht
  | .clos as t, ht => ⟨Ct.Alls.mono h as ht.1, Ct.All.mono h t ht.2⟩
  | .array t, ht => Ct.All.mono h t ht
  | .syntax t, ht => Ct.All.mono h t ht
  | .prim _, _ => trivial

theorem Ct.Alls.mono {P Q : Nat → Prop} (h : ∀ c, P c → Q c) :
    ∀ ts : List Ct, Ct.Alls P ts → Ct.Alls Q ts
  | [], _ => trivial
  | t :: ts, ht => ⟨Ct.All.mono h t ht.1, Ct.Alls.mono h ts ht.2⟩
end

theorem bind_eq_self {P : Nat → Prop} {f : Nat → Ct} (h : ∀ c, P c → f c = .id c) (t : Ct)
    (ht : t.All P) : t.bind f = t := by
  rw [bind_congr h t ht]; exact bind_id t

theorem Def.map_congr {f g : Ct → Ct} :
    ∀ d : Def, (∀ t ∈ d.terms, f t = g t) → d.map f = d.map g
  | .alias t, h => by simp [Def.map, h t (by simp [Def.terms])]
  | .table m, h => by
    simp only [Def.map, Def.table.injEq]
    apply List.map_congr_left
    intro e he
    rw [h e.2 (by simp only [Def.terms, List.mem_map]; exact ⟨e, he, rfl⟩)]
  | .generic ps d, h => by simp only [Def.map]; rw [Def.map_congr d h]
  | .data cs, h => by
    simp only [Def.map, Def.data.injEq]
    apply List.map_congr_left
    intro c hc
    apply List.map_congr_left
    intro t ht
    exact h t (by simp only [Def.terms, List.mem_flatten]; exact ⟨c, hc, ht⟩)
  | .struct as, h => congrArg Def.struct (List.map_congr_left h)
  | .union as, h => congrArg Def.union (List.map_congr_left h)
  | .function as, h => congrArg Def.function (List.map_congr_left h)

theorem Def.map_map (f g : Ct → Ct) : ∀ d : Def, (d.map f).map g = d.map fun t => g (f t)
  | .alias t => rfl
  | .table m => by simp [Def.map]
  | .generic ps d => by simp only [Def.map]; rw [Def.map_map f g d]
  | .data cs => by simp [Def.map, Function.comp_def]
  | .struct as => by simp [Def.map]
  | .union as => by simp [Def.map]
  | .function as => by simp [Def.map]

theorem Def.map_id' {f : Ct → Ct} :
    ∀ d : Def, (∀ t ∈ d.terms, f t = t) → d.map f = d := by
  intro d h
  have : d.map f = d.map id := Def.map_congr d (by simpa using h)
  rw [this]
  clear this h
  induction d with
  | generic ps d ih => simp only [Def.map]; rw [ih]
  | _ => simp [Def.map]

theorem Def.terms_map (f : Ct → Ct) : ∀ d : Def, (d.map f).terms = d.terms.map f
  | .alias t => rfl
  | .table m => by simp [Def.map, Def.terms]
  | .generic ps d => by simp only [Def.map, Def.terms]; exact Def.terms_map f d
  | .data cs => by simp [Def.map, Def.terms, List.map_flatten]
  | .struct as => rfl
  | .union as => rfl
  | .function as => rfl

theorem Def.isGeneric_map (f : Ct → Ct) : ∀ d : Def, (d.map f).IsGeneric ↔ d.IsGeneric
  | .alias _ | .table _ | .generic _ _ | .data _ | .struct _ | .union _ | .function _ => Iff.rfl

/-! ## The model's substitution and equality -/

mutual
theorem replaceCt_eq (m : List (Nat × Ct)) :
    ∀ t, replaceCt m t = t.bind fun c => (m.lookup c).getD (.id c)
  | .id c => rfl
  | .inst t as => by simp only [replaceCt, Ct.bind]; rw [replaceCt_eq m t, replaceCts_eq m as]
  | .get t k => by simp only [replaceCt, Ct.bind]; rw [replaceCt_eq m t]
  | .ptr t => by simp only [replaceCt, Ct.bind]; rw [replaceCt_eq m t]
  | .clos as t => by simp only [replaceCt, Ct.bind]; rw [replaceCt_eq m t, replaceCts_eq m as]
  | .array t => by simp only [replaceCt, Ct.bind]; rw [replaceCt_eq m t]
  | .syntax t => by simp only [replaceCt, Ct.bind]; rw [replaceCt_eq m t]
  | .prim p => rfl

theorem replaceCts_eq (m : List (Nat × Ct)) :
    ∀ ts, replaceCts m ts = Ct.binds (fun c => (m.lookup c).getD (.id c)) ts
  | [] => rfl
  | t :: ts => by simp only [replaceCts, Ct.binds]; rw [replaceCt_eq m t, replaceCts_eq m ts]
end

theorem replaceDef_eq (m : List (Nat × Ct)) :
    ∀ d, replaceDef m d = d.map (Ct.bind fun c => (m.lookup c).getD (.id c))
  | .alias t => by simp [replaceDef, Def.map, replaceCt_eq]
  | .table t => by simp [replaceDef, Def.map, replaceCt_eq]
  | .generic ps d => by simp only [replaceDef, Def.map]; rw [replaceDef_eq m d]
  | .data cs => by
    simp only [replaceDef, Def.map, Def.data.injEq]
    apply List.map_congr_left
    intro c _
    rw [replaceCts_eq, binds_eq]
  | .struct as => by simp [replaceDef, Def.map, replaceCts_eq, binds_eq]
  | .union as => by simp [replaceDef, Def.map, replaceCts_eq, binds_eq]
  | .function as => by simp [replaceDef, Def.map, replaceCts_eq, binds_eq]

theorem lookup_append_of_none {l l' : List (Nat × Ct)} {p : Nat} (h : l.lookup p = none) :
    (l ++ l').lookup p = l'.lookup p := by
  induction l with
  | nil => rfl
  | cons e l ih =>
    obtain ⟨k, v⟩ := e
    by_cases hk : p = k
    · subst hk; simp at h
    · have : (p == k) = false := by simpa using hk
      simp only [List.lookup, this, List.cons_append] at h ⊢
      exact ih h

theorem lookup_append_of_some {l l' : List (Nat × Ct)} {p : Nat} {v : Ct}
    (h : l.lookup p = some v) : (l ++ l').lookup p = some v := by
  induction l with
  | nil => simp at h
  | cons e l ih =>
    obtain ⟨k, w⟩ := e
    by_cases hk : p = k
    · subst hk; simp at h ⊢; exact h
    · have : (p == k) = false := by simpa using hk
      simp only [List.lookup, this, List.cons_append] at h ⊢
      exact ih h

theorem lookup_none_of_not_mem {l : List (Nat × Ct)} {p : Nat} (h : p ∉ l.map (·.1)) :
    l.lookup p = none := by
  induction l with
  | nil => rfl
  | cons e l ih =>
    obtain ⟨k, w⟩ := e
    simp only [List.map_cons, List.mem_cons, not_or] at h
    have : (p == k) = false := by simpa using h.1
    simp only [List.lookup, this]
    exact ih h.2

theorem lookup_reverse {l : List (Nat × Ct)} (h : (l.map (·.1)).Nodup) (p : Nat) :
    l.reverse.lookup p = l.lookup p := by
  induction l with
  | nil => rfl
  | cons e l ih =>
    obtain ⟨k, v⟩ := e
    simp only [List.map_cons, List.nodup_cons] at h
    rw [List.reverse_cons]
    by_cases hk : p = k
    · subst hk
      rw [lookup_append_of_none]
      · simp
      · apply lookup_none_of_not_mem
        simpa using h.1
    · have hb : (p == k) = false := by simpa using hk
      simp only [List.lookup, hb]
      rw [← ih h.2]
      cases hl : l.reverse.lookup p with
      | none => rw [lookup_append_of_none hl]; simp [List.lookup, hb]
      | some v => exact lookup_append_of_some hl

theorem zip_fst_nodup {ps : List Nat} (h : ps.Nodup) (vs : List Ct) :
    ((ps.zip vs).map (·.1)).Nodup := by
  apply List.Nodup.sublist _ h
  induction ps generalizing vs with
  | nil => simp
  | cons p ps ih =>
    cases vs with
    | nil => simp
    | cons v vs =>
      simp only [List.zip_cons_cons, List.map_cons]
      exact (ih (List.nodup_cons.1 h).2 vs).cons_cons p

theorem replaceDef_assign {ps : List Nat} (h : ps.Nodup) (vs : List Ct) (d : Def) :
    replaceDef (ps.zip vs).reverse d = d.map (Ct.bind (assign ps vs)) := by
  rw [replaceDef_eq]
  congr 2
  funext c
  rw [assign, lookup_reverse (zip_fst_nodup h vs)]

mutual
theorem same_iff : ∀ a b : Ct, a.same b = true ↔ a = b
  | .id a, b => by cases b <;> simp [Ct.same]
  | .inst f as, b => by
    cases b with
    | inst g bs => simp [Ct.same, same_iff f g, sames_iff as bs]
    | _ => simp [Ct.same]
  | .get t k, b => by
    cases b with
    | get u l => simp [Ct.same, same_iff t u]
    | _ => simp [Ct.same]
  | .ptr t, b => by
    cases b with
    | ptr u => simp [Ct.same, same_iff t u]
    | _ => simp [Ct.same]
  | .clos as t, b => by
    cases b with
    | clos bs u => simp [Ct.same, same_iff t u, sames_iff as bs]
    | _ => simp [Ct.same]
  | .array t, b => by
    cases b with
    | array u => simp [Ct.same, same_iff t u]
    | _ => simp [Ct.same]
  | .syntax t, b => by
    cases b with
    | «syntax» u => simp [Ct.same, same_iff t u]
    | _ => simp [Ct.same]
  | .prim p, b => by cases b <;> simp [Ct.same]

theorem sames_iff : ∀ as bs : List Ct, Ct.sames as bs = true ↔ as = bs
  | [], [] => by simp [Ct.sames]
  | [], _ :: _ => by simp [Ct.sames]
  | _ :: _, [] => by simp [Ct.sames]
  | a :: as, b :: bs => by simp [Ct.sames, same_iff a b, sames_iff as bs]
end

theorem findKey_some {g : Nat} {as : List Ct} {ks : List ((Nat × List Ct) × Nat)} {c : Nat}
    (h : findKey g as ks = some c) : ((g, as), c) ∈ ks := by
  induction ks with
  | nil => simp [findKey] at h
  | cons k ks ih =>
    obtain ⟨⟨g', bs⟩, c'⟩ := k
    simp only [findKey] at h
    split at h
    · rename_i hc
      simp only [Bool.and_eq_true, beq_iff_eq, sames_iff] at hc
      obtain ⟨rfl, rfl⟩ := hc
      simp only [Option.some.injEq] at h
      subst h
      exact List.mem_cons_self
    · exact List.mem_cons_of_mem _ (ih h)

theorem findKey_none {g : Nat} {as : List Ct} {ks : List ((Nat × List Ct) × Nat)}
    (h : findKey g as ks = none) : ∀ c, ((g, as), c) ∉ ks := by
  induction ks with
  | nil => simp
  | cons k ks ih =>
    obtain ⟨⟨g', bs⟩, c'⟩ := k
    simp only [findKey] at h
    split at h
    · simp at h
    · rename_i hc
      simp only [Bool.and_eq_true, beq_iff_eq, sames_iff] at hc
      intro c hm
      rcases List.mem_cons.1 hm with hm | hm
      · simp only [Prod.mk.injEq] at hm
        exact hc ⟨hm.1.1.symm, hm.1.2.symm⟩
      · exact ih h c hm

/-! ## Evaluation -/

variable {Δ : Nat → Option Def}

mutual
theorem Eval.mono {U V : Ct → Prop} (h : ∀ r, U r → V r) :
    ∀ {t v}, Eval Δ U t v → Eval Δ V t v
  | _, _, .idAlias a b c => .idAlias (h _ a) b (c.mono h)
  | _, _, .idSelf a b => .idSelf (h _ a) b
  | _, _, .instAlias a b c d e => .instAlias (a.mono h) (b.mono h) (h _ c) d (e.mono h)
  | _, _, .instSelf a b c d e => .instSelf (a.mono h) (b.mono h) (h _ c) d e
  | _, _, .get a b c d => .get (a.mono h) b c (d.mono h)
  | _, _, .ptr a => .ptr (a.mono h)
  | _, _, .clos a b => .clos (a.mono h) (b.mono h)
  | _, _, .array a => .array (a.mono h)
  | _, _, .syntax a => .syntax (a.mono h)
  | _, _, .prim => .prim

theorem Evals.mono {U V : Ct → Prop} (h : ∀ r, U r → V r) :
    ∀ {ts vs}, Evals Δ U ts vs → Evals Δ V ts vs
  | _, _, .nil => .nil
  | _, _, .cons a b => .cons (a.mono h) (b.mono h)
end

mutual
/-- An expression has one value at most. -/
theorem Eval.det {U V : Ct → Prop} :
    ∀ {t v w}, Eval Δ U t v → Eval Δ V t w → v = w
  | _, _, _, .idAlias _ b c, h => by
    cases h with
    | idAlias _ b' c' => rw [b] at b'; cases b'; exact c.det c'
    | idSelf _ b' => exact absurd b (b' _)
  | _, _, _, .idSelf _ b, h => by
    cases h with
    | idAlias _ b' _ => exact absurd b' (b _)
    | idSelf _ _ => rfl
  | _, _, _, .instAlias a b _ d e, h => by
    cases h with
    | instAlias a' b' _ d' e' =>
      cases a.det a'
      cases b.det b'
      rw [d] at d'; cases d'
      exact e.det e'
    | instSelf a' b' _ d' e' =>
      cases a.det a'
      cases b.det b'
      rw [d] at d'; cases d'
      exact absurd rfl (e' _)
  | _, _, _, .instSelf a b _ d e, h => by
    cases h with
    | instAlias a' b' _ d' e' =>
      cases a.det a'
      cases b.det b'
      rw [d] at d'; cases d'
      exact absurd rfl (e _)
    | instSelf a' b' _ d' e' =>
      cases a.det a'
      cases b.det b'
      rfl
  | _, _, _, .get a b c d, h => by
    cases h with
    | get a' b' c' d' =>
      cases a.det a'
      rw [b] at b'; cases b'
      rw [c] at c'; cases c'
      exact d.det d'
  | _, _, _, .ptr a, h => by cases h with | ptr a' => rw [a.det a']
  | _, _, _, .clos a b, h => by cases h with | clos a' b' => rw [a.det a', b.det b']
  | _, _, _, .array a, h => by cases h with | array a' => rw [a.det a']
  | _, _, _, .syntax a, h => by cases h with | «syntax» a' => rw [a.det a']
  | _, _, _, .prim, h => by cases h; rfl

theorem Evals.det {U V : Ct → Prop} :
    ∀ {ts vs ws}, Evals Δ U ts vs → Evals Δ V ts ws → vs = ws
  | _, _, _, .nil, h => by cases h; rfl
  | _, _, _, .cons a b, h => by cases h with | cons a' b' => rw [a.det a', b.det b']
end

theorem DefEval.mono {U V : Ct → Prop} (h : ∀ r, U r → V r) {d d'}
    (hd : DefEval Δ U d d') : DefEval Δ V d d' := by
  cases hd with
  | «alias» a => exact .alias (a.mono h)
  | table a => exact .table (a.imp fun _ _ x => ⟨x.1, x.2.mono h⟩)
  | data a => exact .data (a.imp fun _ _ x => x.mono h)
  | struct a => exact .struct (a.mono h)
  | union a => exact .union (a.mono h)
  | function a => exact .function (a.mono h)

theorem Evals.of_mem {U : Ct → Prop} : ∀ {as vs}, Evals Δ U as vs → ∀ t ∈ as, ∃ v, Eval Δ U t v
  | _, _, .nil, t, ht => by cases ht
  | _, _, .cons a b, t, ht => by
    rcases List.mem_cons.1 ht with rfl | ht
    · exact ⟨_, a⟩
    · exact b.of_mem t ht

theorem DefEval.of_mem {U : Ct → Prop} {d d'} (h : DefEval Δ U d d') :
    ∀ t ∈ d.terms, ∃ v, Eval Δ U t v := by
  intro t ht
  cases h with
  | «alias» a => simp only [Def.terms, List.mem_singleton] at ht; subst ht; exact ⟨_, a⟩
  | table a =>
    simp only [Def.terms, List.mem_map] at ht
    obtain ⟨e, he, rfl⟩ := ht
    clear * - a he
    induction a with
    | nil => cases he
    | cons h _ ih =>
      rcases List.mem_cons.1 he with rfl | he
      · exact ⟨_, h.2⟩
      · exact ih he
  | data a =>
    simp only [Def.terms, List.mem_flatten] at ht
    obtain ⟨c, hc, ht⟩ := ht
    clear * - a hc ht
    induction a with
    | nil => cases hc
    | cons h _ ih =>
      rcases List.mem_cons.1 hc with rfl | hc
      · exact h.of_mem t ht
      · exact ih hc
  | struct a => exact a.of_mem t ht
  | union a => exact a.of_mem t ht
  | function a => exact a.of_mem t ht

end Verif.Mono
