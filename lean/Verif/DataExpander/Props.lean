import Verif.DataExpander.Sim
/-!
# Properties: data types keep their meaning when they are represented (C10)
-/
namespace Verif.DataExpander

open Verif

/-! ## C10 -/

/-- Helper: patterns that are variables accept any values. -/
theorem match_vars (h : List LV) (ys : List Nat) (ws : List LV) (hl : ys.length = ws.length) :
    matchLs h (ys.map .var) ws = some (some (ys.zip ws)) := by
  induction ys generalizing ws with
  | nil => cases ws with
    | nil => simp [matchLs]
    | cons w ws => simp at hl
  | cons y ys ih => cases ws with
    | nil => simp at hl
    | cons w ws =>
      rw [List.map_cons, matchLs, matchL, ih ws (by simpa using hl)]
      simp

/-- **C10**: for every data type of the program, a value built with constructor `i` from any arguments is accepted by the
lowered pattern of constructor `j` exactly when `i = j`, then the variables of the pattern are bound to the values of the
arguments, in order; nothing undefined is read either way, also when other values are allocated in between. -/
theorem constructors_apart {m : HMap Nat Expansion} {env : Env} {D : List (Nat × Data)} (hg : Gens m env D) {id : Nat} {d : Data}
    (hd : (id, d) ∈ D) {i j : Nat} {fs fs' : List Ct} (hi : d.cons[i]? = some fs) (hj : d.cons[j]? = some fs')
    {args : LExps} {s : List (Nat × LV)} {h h' : List LV} {ws : List LV} (he : evalLs args s h = .ok ws h') (hl : ws.length = fs.length)
    {ys : List Nat} (hy : ys.length = fs'.length) :
    ∃ x e p w h'', m.get id = some x ∧ x.toRt i args = some e ∧ x.toRtPat j (ys.map .var) = some p ∧
      evalL e s h = .ok w h'' ∧
      ∀ later, matchL (h'' ++ later) p w = if i = j then some (some (ys.zip ws)) else some none := by
  obtain ⟨x, hx, hfit⟩ := hg.inv.cov _ hd
  obtain ⟨e, h1, w, l, h2, h3⟩ := builds hfit hi (by rw [← evalLs_length he, hl]) he
  obtain ⟨p, h4, -⟩ := takes_apart (h := h' ++ l) (ps := ys.map .var) hfit hi hj (by simpa using hy) h3
  refine ⟨x, e, p, w, _, hx, h1, h4, h2, fun later => ?_⟩
  obtain ⟨p', h5, h6⟩ := takes_apart (h := h' ++ l ++ later) (ps := ys.map .var) hfit hi hj (by simpa using hy) (h3.ext later)
  rw [h4] at h5
  cases h5
  rw [h6]
  by_cases hij : i = j
  · subst hij
    rw [hi] at hj
    cases hj
    rw [if_pos rfl, if_pos rfl, match_vars _ _ _ (by omega)]
  · rw [if_neg hij, if_neg hij]

/-- **C10**: a typed program with any data types, nested patterns and nested values is lowered without panic, and the lowered
program yields the constant the program means; when no clause of a match accepts, the lowered program runs into no clause
either.  It never reads an uninitialized field, a wrong variant or an invalid address. -/
theorem data_program {m : HMap Nat Expansion} {env : Env} {D : List (Nat × Data)} (hg : Gens m env D) {e : SExp} {t : Ct}
    (he : ETy D [] e t) (ht : NotData D t) :
    ∃ e', lowerE m e = some e' ∧
      match evalS e [] with
      | some v => ∃ k h, v = .prim k ∧ evalL e' [] [] = .ok (.prim k) h
      | none => evalL e' [] [] = .noClause := by
  obtain ⟨e', h1, h2⟩ := eval_sim hg.inv e he
  refine ⟨e', h1, ?_⟩
  have h3 := h2 [] [] [] .nil
  cases hv : evalS e [] with
  | none => rw [hv] at h3; exact h3
  | some v =>
    rw [hv] at h3
    obtain ⟨w, l, h4, h5⟩ := h3
    cases h5 with
    | @prim k => exact ⟨k, _, rfl, h4⟩
    | con h6 => exact absurd rfl (ht _ _ h6)

/-- **C10**: every value a lowered program yields has the lowered type of the program: its layout is the one of the definitions
made for the data types, with tags that fit their width. -/
theorem data_typed {m : HMap Nat Expansion} {env : Env} {D : List (Nat × Data)} (hg : Gens m env D) {e : SExp} {t : Ct}
    (he : ETy D [] e t) {e' : LExp} (hl : lowerE m e = some e') {w : LV} {h : List LV} (hw : evalL e' [] [] = .ok w h) :
    LTy m env.defs D h w t := by
  obtain ⟨e'', h1, h2⟩ := eval_sim hg.inv e he
  rw [hl] at h1
  cases h1
  have h3 := h2 [] [] [] .nil
  cases hv : evalS e [] with
  | none =>
    rw [hv] at h3
    simp only [Runs] at h3
    rw [hw] at h3
    cases h3
  | some v =>
    rw [hv] at h3
    obtain ⟨w', l, h4, h5⟩ := h3
    rw [hw] at h4
    cases h4
    exact h5.ty hg.inv

/-- **C10**: the ids of the definitions made for the data types are different from each other and from the ids of the data types. -/
theorem defs_apart {m : HMap Nat Expansion} {env : Env} {D : List (Nat × Data)} (hg : Gens m env D) :
    (env.defs.map Prod.fst).Nodup ∧ ∀ p ∈ D, ∀ q ∈ env.defs, p.1 ≠ q.1 :=
  ⟨hg.inv.defids.1, hg.inv.apart⟩

/-- **C10**: replacing the data types in any type ends, and leaves no data type. -/
theorem types_end {m : HMap Nat Expansion} {env : Env} {D : List (Nat × Data)} (hg : Gens m env D) (t : Ct) :
    ∃ n t', expandCt m n t = some t' ∧ ∀ k ∈ t'.ids, ∀ d, (k, d) ∉ D := by
  obtain ⟨r, hr⟩ := hg.inv.ranked
  obtain ⟨R, hR⟩ := bound_exists t.ids r
  obtain ⟨n, t', h1, h2⟩ := expand_all r hr R t (fun k hk _ => hR k hk)
  refine ⟨n, t', h1, fun k hk d hd => ?_⟩
  obtain ⟨x, hx, -⟩ := hg.inv.cov _ hd
  have : m.get k = some x := hx
  rw [h2 k hk] at this
  cases this

/-- The representation is found unless a c-data has several constructors (which is a panic). -/
theorem computeDataExpansion_some (d : Data) (named : Bool) (e : Env) (hc : d.repr = .c → d.cons.length ≤ 1) :
    ∃ r, computeDataExpansion d named e = some r := by
  unfold computeDataExpansion
  split
  · exact ⟨_, rfl⟩
  · exact ⟨_, rfl⟩
  · next h0 h1 =>
    have hn : 2 ≤ d.cons.length := by
      match hd : d.cons with
      | [] => exact absurd hd h0
      | [a] => exact absurd hd (h1 a)
      | a :: b :: r => simp
    rw [if_neg (fun h => by have := hc h; omega)]
    split
    · exact ⟨_, rfl⟩
    · next hz =>
      split
      · next hidx =>
        exfalso
        rw [List.findIdx?_eq_none_iff] at hidx
        have : d.cons.filter (fun fs => !fs.isEmpty) = [] := by
          rw [List.filter_eq_nil_iff]
          intro a ha
          rw [hidx a ha]; simp
        rw [this] at hz
        simp at hz
      · exact ⟨_, rfl⟩
    · exact ⟨_, rfl⟩

theorem computeGroup_some (named : Bool) (g : List (Nat × Data)) (m : HMap Nat Expansion) (e : Env)
    (hc : ∀ p ∈ g, p.2.repr = .c → p.2.cons.length ≤ 1) : ∃ r, computeGroup named g m e = some r := by
  induction g generalizing m e with
  | nil => exact ⟨_, rfl⟩
  | cons q rest ih =>
    obtain ⟨id, d⟩ := q
    obtain ⟨⟨x, e'⟩, hx⟩ := computeDataExpansion_some d named e (hc (id, d) (by simp))
    rw [computeGroup, hx]
    exact ih _ _ (fun p hp => hc p (by simp [hp]))

theorem computeGroups_some (gs : List (List (Nat × Data))) (m : HMap Nat Expansion) (e : Env)
    (hc : ∀ g ∈ gs, ∀ p ∈ g, p.2.repr = .c → p.2.cons.length ≤ 1) : ∃ r, computeGroups gs m e = some r := by
  induction gs generalizing m e with
  | nil => exact ⟨_, rfl⟩
  | cons g rest ih =>
    obtain ⟨⟨m', e'⟩, hx⟩ := computeGroup_some (shouldBeNamed g) g m e (hc g (by simp))
    rw [computeGroups, hx]
    exact ih _ _ (fun g hg => hc g (by simp [hg]))

/-- Every set of data types gets its representations, unless a c-data has several constructors. -/
theorem compute_some (data : List (Nat × Data)) (m : HMap Nat Expansion) (e : Env) (hn : (data.map Prod.fst).Nodup)
    (hc : ∀ p ∈ data, p.2.repr = .c → p.2.cons.length ≤ 1) : ∃ r, compute data m e = some r := by
  obtain ⟨gs, ho⟩ := TopoSort.output_exists (K := Nat) Data.uses data hn
  have hperm := (TopoSort.sort_partition Data.uses data hn ho).1
  rw [compute, ho.2]
  exact computeGroups_some gs m e (fun g hg p hp => hc p (hperm.mem_iff.1 (List.mem_flatten.2 ⟨g, hg, hp⟩)))

/-! ## Non-vacuity -/

/-- A boxed list of constants, a value option of it, an enumeration of five, a single field wrapper of the list, and a pair of
mutually recursive value data. -/
def exData : List (Nat × Data) :=
  [(1, ⟨.boxed, [[], [.prim 0, .id 1]]⟩), (2, ⟨.value, [[], [.id 1]]⟩), (3, ⟨.value, [[], [], [], [], []]⟩),
    (4, ⟨.value, [[.id 1]]⟩), (5, ⟨.value, [[.id 6]]⟩), (6, ⟨.value, [[.ptr (.id 5)]]⟩), (7, ⟨.value, [[.prim 0], [.id 3, .prim 0], []]⟩)]

theorem exGens : ∃ m e, Gens m e exData := by
  obtain ⟨⟨m, e⟩, h⟩ := compute_some exData [] ⟨10, []⟩ (by decide) (by decide)
  exact ⟨m, _, Gens.step (D := []) (next := e.next) .start (by decide) (by decide) (by simp) (by simp) (by simp [HMap.get_nil]) h (Nat.le_refl _)⟩

/-- `(match (cons 7 nil) [nil 0] [(cons x (as 2 _)) x])` in the data types above. -/
def exProg : SExp :=
  .case (.con 1 1 (.cons (.prim 7) (.cons (.con 1 0 .nil) .nil)))
    (.cons (.data 1 0 []) (.prim 0) (.cons (.data 1 1 [.var 1, .as 2 .wild]) (.var 1) .nil))

theorem exNot : NotData exData (.prim 0) := by intro k d _ h; cases h

theorem exTy : ETy exData [] exProg (.prim 0) :=
  .case (.con (d := ⟨.boxed, [[], [.prim 0, .id 1]]⟩) (fs := [.prim 0, .id 1]) (by simp [exData]) rfl
      (.cons (.prim exNot) (.cons (.con (d := ⟨.boxed, [[], [.prim 0, .id 1]]⟩) (fs := []) (by simp [exData]) rfl .nil) .nil)))
    (.cons (.data (d := ⟨.boxed, [[], [.prim 0, .id 1]]⟩) (fs := []) (by simp [exData]) rfl .nil) (.prim exNot)
      (.cons (.data (d := ⟨.boxed, [[], [.prim 0, .id 1]]⟩) (fs := [.prim 0, .id 1]) (by simp [exData]) rfl
          (.cons .var (.cons (.as .wild) .nil))) (.var rfl) .nil))

/-- The lowered program yields 7. -/
example : ∃ m e e' h, Gens m e exData ∧ lowerE m exProg = some e' ∧ evalL e' [] [] = .ok (.prim 7) h := by
  obtain ⟨m, e, hg⟩ := exGens
  obtain ⟨e', h1, h2⟩ := data_program hg exTy exNot
  have : evalS exProg [] = some (.prim 7) := by simp [exProg, evalS, evalSs, evalSc, matchS, matchSs, lookup]
  rw [this] at h2
  obtain ⟨k, h, hk, h3⟩ := h2
  cases hk
  exact ⟨m, e, e', h, hg, h1, h3⟩

/-- The value of a lowered program has the lowered type: here a list. -/
example : ∃ m e e' w h, Gens m e exData ∧ lowerE m (.con 1 1 (.cons (.prim 7) (.cons (.con 1 0 .nil) .nil))) = some e' ∧
    evalL e' [] [] = .ok w h ∧ LTy m e.defs exData h w (.id 1) := by
  obtain ⟨m, e, hg⟩ := exGens
  have hty : ETy exData [] (.con 1 1 (.cons (.prim 7) (.cons (.con 1 0 .nil) .nil))) (.id 1) :=
    .con (d := ⟨.boxed, [[], [.prim 0, .id 1]]⟩) (fs := [.prim 0, .id 1]) (by simp [exData]) rfl
      (.cons (.prim exNot) (.cons (.con (d := ⟨.boxed, [[], [.prim 0, .id 1]]⟩) (fs := []) (by simp [exData]) rfl .nil) .nil))
  obtain ⟨e', h1, h2⟩ := eval_sim hg.inv _ hty
  obtain ⟨w, l, h3, -⟩ := h2 [] [] [] .nil
  exact ⟨m, e, e', w, _, hg, h1, h3, data_typed hg hty h1 h3⟩

/-- The third constructor of the last data type is not taken for the first, and the second keeps its two fields. -/
example : ∃ m e, Gens m e exData ∧
    (∃ x e p w h, m.get 7 = some x ∧ x.toRt 2 .nil = some e ∧ x.toRtPat 0 [.var 1] = some p ∧ evalL e [] [] = .ok w h ∧ matchL h p w = some none) ∧
    (∃ x e p w h, m.get 7 = some x ∧ x.toRt 1 (.cons (.const (.prim 4)) (.cons (.const (.prim 5)) .nil)) = some e ∧
      x.toRtPat 1 [.var 1, .var 2] = some p ∧ evalL e [] [] = .ok w h ∧ matchL h p w = some (some [(1, .prim 4), (2, .prim 5)])) := by
  obtain ⟨m, e, hg⟩ := exGens
  have hd : (7, (⟨.value, [[.prim 0], [.id 3, .prim 0], []]⟩ : Data)) ∈ exData := by simp [exData]
  refine ⟨m, e, hg, ?_, ?_⟩
  · obtain ⟨x, e, p, w, h, h1, h2, h3, h4, h5⟩ := constructors_apart hg hd (i := 2) (j := 0) rfl rfl
      (args := .nil) (s := []) (h := []) (h' := []) (ws := []) (by simp [evalLs]) rfl (ys := [1]) rfl
    refine ⟨x, e, p, w, h, h1, h2, h3, h4, ?_⟩
    have := h5 []
    simpa using this
  · obtain ⟨x, e, p, w, h, h1, h2, h3, h4, h5⟩ := constructors_apart hg hd (i := 1) (j := 1) rfl rfl
      (args := .cons (.const (.prim 4)) (.cons (.const (.prim 5)) .nil)) (s := []) (h := []) (h' := []) (ws := [.prim 4, .prim 5])
      (by simp [evalLs, evalL, Const.val]) rfl (ys := [1, 2]) rfl
    refine ⟨x, e, p, w, h, h1, h2, h3, h4, ?_⟩
    have := h5 []
    simpa using this

/-- The types of the mutually recursive data expand although each has a single field. -/
example : ∃ m e n t', Gens m e exData ∧ expandCt m n (.clos [.id 4, .id 5] (.ptr (.id 6))) = some t' := by
  obtain ⟨m, e, hg⟩ := exGens
  obtain ⟨n, t', h, -⟩ := types_end hg (.clos [.id 4, .id 5] (.ptr (.id 6)))
  exact ⟨m, e, n, t', hg, h⟩

end Verif.DataExpander
