import Verif.DataExpander.Spec
/-!
# Lemmas: representations
-/
namespace Verif.DataExpander

open Verif

/-! ## The width of a tag -/

theorem le_two_pow_ceilLog2 (n : Nat) (hn : n ≠ 0) : n ≤ 2 ^ ceilLog2 n := by
  unfold ceilLog2
  split
  · omega
  · exact Nat.le_of_lt Nat.lt_log2_self

theorem enumConst_inj {n i j : Nat} (hn : 2 ≤ n) (hi : i < n) (hj : j < n) :
    (enumConst n i).test (enumConst n j).val = some (decide (i = j)) := by
  match n, hn with
  | n + 2, _ =>
    have hle := le_two_pow_ceilLog2 (n + 2) (by omega)
    simp only [enumConst, Const.val, Const.test, if_pos trivial]
    rw [Nat.mod_eq_of_lt (by omega), Nat.mod_eq_of_lt (by omega)]

/-! ## What a representation fits -/

/-- The body of a tagged representation fits the constructors. -/
def BodyFits : Body → List (List Ct) → Prop
  | .alias i t, cons => cons[i]? = some [t] ∧ ∀ (j : Nat) fs, j ≠ i → cons[j]? = some fs → fs = []
  | .struct i _, cons => (∃ fs, cons[i]? = some fs) ∧ ∀ (j : Nat) fs, j ≠ i → cons[j]? = some fs → fs = []
  | .union _ ss, cons => ss.length = cons.length

/-- A representation fits the constructors. -/
def Fits : Expansion → List (List Ct) → Prop
  | .unit, cons => cons = [] ∨ cons = [[]]
  | .enum n, cons => n = cons.length ∧ 2 ≤ n ∧ ∀ fs ∈ cons, fs = []
  | .alias t, cons => cons = [[t]]
  | .boxedStruct _, cons => ∃ fs, cons = [fs]
  | .struct _, cons => ∃ fs, cons = [fs]
  | .boxedTagged _ n b, cons => n = cons.length ∧ 2 ≤ n ∧ BodyFits b cons
  | .tagged _ n b, cons => n = cons.length ∧ 2 ≤ n ∧ BodyFits b cons

/-- The definitions made for a body. -/
def BodyDefs (defs : List (Nat × Def)) : Body → List (List Ct) → Prop
  | .alias _ _, _ => True
  | .struct i id, cons => ∃ fs, cons[i]? = some fs ∧ (id, .struct fs) ∈ defs
  | .union id ss, cons => (id, .union (ss.map .id)) ∈ defs ∧
      ∀ (i : Nat) s fs, ss[i]? = some s → cons[i]? = some fs → (s, .struct fs) ∈ defs

/-- The definitions made for a representation. -/
def DefFits (defs : List (Nat × Def)) : Expansion → List (List Ct) → Prop
  | .unit, _ => True
  | .enum _, _ => True
  | .alias _, _ => True
  | .boxedStruct id, cons => ∃ fs, cons = [fs] ∧ (id, .struct fs) ∈ defs
  | .struct id, cons => ∃ fs, cons = [fs] ∧ (id, .struct fs) ∈ defs
  | .boxedTagged id n b, cons => (id, .struct [enumCt n, .ptr b.toCt]) ∈ defs ∧ BodyDefs defs b cons
  | .tagged id n b, cons => (id, .struct [enumCt n, b.toCt]) ∈ defs ∧ BodyDefs defs b cons

theorem BodyDefs.mono {defs defs' : List (Nat × Def)} (hs : defs ⊆ defs') {b cons} (h : BodyDefs defs b cons) : BodyDefs defs' b cons := by
  cases b with
  | alias => trivial
  | struct i id => obtain ⟨fs, h1, h2⟩ := h; exact ⟨fs, h1, hs h2⟩
  | union id ss => exact ⟨hs h.1, fun i s fs h1 h2 => hs (h.2 i s fs h1 h2)⟩

theorem DefFits.mono {defs defs' : List (Nat × Def)} (hs : defs ⊆ defs') {x cons} (h : DefFits defs x cons) : DefFits defs' x cons := by
  cases x with
  | boxedStruct id => obtain ⟨fs, h1, h2⟩ := h; exact ⟨fs, h1, hs h2⟩
  | struct id => obtain ⟨fs, h1, h2⟩ := h; exact ⟨fs, h1, hs h2⟩
  | boxedTagged id n b => exact ⟨hs h.1, h.2.mono hs⟩
  | tagged id n b => exact ⟨hs h.1, h.2.mono hs⟩
  | _ => trivial

/-- One environment is reached from another by adding definitions with new ids. -/
inductive Grows : Env → Env → Prop
  | refl (e) : Grows e e
  | step {e e' d} : Grows e e' → Grows e (e'.addDef d).2

theorem Grows.trans {a b c : Env} (h : Grows a b) (h' : Grows b c) : Grows a c := by
  induction h' with
  | refl => exact h
  | step _ ih => exact .step ih

theorem Grows.subset {a b : Env} (h : Grows a b) : a.defs ⊆ b.defs ∧ a.next ≤ b.next := by
  induction h with
  | refl => exact ⟨fun _ h => h, Nat.le_refl _⟩
  | step _ ih => exact ⟨fun _ h => List.mem_cons_of_mem _ (ih.1 h), Nat.le_succ_of_le ih.2⟩

theorem Grows.ids {a b : Env} (h : Grows a b) (hn : (a.defs.map Prod.fst).Nodup) (hlt : ∀ p ∈ a.defs, p.1 < a.next) :
    (b.defs.map Prod.fst).Nodup ∧ (∀ p ∈ b.defs, p.1 < b.next) ∧ ∀ p ∈ b.defs, p ∈ a.defs ∨ a.next ≤ p.1 := by
  induction h with
  | refl => exact ⟨hn, hlt, fun p hp => Or.inl hp⟩
  | @step e' d hg ih =>
    obtain ⟨h1, h2, h3⟩ := ih
    refine ⟨?_, ?_, ?_⟩
    · simp only [Env.addDef, List.map_cons, List.nodup_cons]
      refine ⟨fun hm => ?_, h1⟩
      obtain ⟨p, hp, he⟩ := List.mem_map.1 hm
      have := h2 p hp
      omega
    · intro p hp
      rcases List.mem_cons.1 hp with rfl | hp
      · exact Nat.lt_succ_self _
      · exact Nat.lt_succ_of_lt (h2 p hp)
    · intro p hp
      rcases List.mem_cons.1 hp with rfl | hp
      · exact Or.inr hg.subset.2
      · exact h3 p hp

theorem addStructs_grows (cons : List (List Ct)) (e : Env) : Grows e (addStructs cons e).2 ∧
    ∀ (i : Nat) s fs, (addStructs cons e).1[i]? = some s → cons[i]? = some fs → (s, .struct fs) ∈ (addStructs cons e).2.defs := by
  induction cons generalizing e with
  | nil => exact ⟨.refl _, by simp⟩
  | cons c rest ih =>
    obtain ⟨h1, h2⟩ := ih (e.addDef (.struct c)).2
    refine ⟨(Grows.step (.refl e)).trans h1, ?_⟩
    intro i s fs hs hf
    cases i with
    | zero =>
      simp only [addStructs, List.getElem?_cons_zero, Option.some.injEq] at hs hf
      subst hs hf
      exact h1.subset.1 (List.mem_cons_self ..)
    | succ i => exact h2 i s fs (by simpa [addStructs] using hs) (by simpa using hf)

theorem wrap_defs {r : DataRepr} {cons : List (List Ct)} {b : Body × Env} {e : Env} (hg : Grows e b.2) (hb : BodyDefs b.2.defs b.1 cons) :
    Grows e (wrap r cons.length b).2 ∧ DefFits (wrap r cons.length b).2.defs (wrap r cons.length b).1 cons := by
  cases r <;> exact ⟨.step hg, List.mem_cons_self .., hb.mono (List.subset_cons_self ..)⟩

theorem computed_defs {d : Data} {named : Bool} {e e' : Env} {x : Expansion}
    (h : computeDataExpansion d named e = some (x, e')) : Grows e e' ∧ DefFits e'.defs x d.cons := by
  unfold computeDataExpansion at h
  split at h
  · cases h; exact ⟨.refl _, trivial⟩
  · next fields hc =>
    rw [Option.some.injEq] at h
    unfold oneCon at h
    split at h
    · cases h; exact ⟨.refl _, trivial⟩
    · split at h
      · cases h; exact ⟨.refl _, trivial⟩
      · split at h <;> cases h <;> exact ⟨.step (.refl _), _, hc, List.mem_cons_self ..⟩
  · split at h
    · cases h
    · split at h
      · cases h; exact ⟨.refl _, trivial⟩
      · split at h
        · cases h
        · next index hidx =>
          obtain ⟨hlt, -⟩ := List.findIdx?_eq_some_iff_getElem.1 hidx
          rw [Option.some.injEq] at h
          have hb : Grows e (singleBody index (d.cons[index]?.getD []) e).2 ∧
              BodyDefs (singleBody index (d.cons[index]?.getD []) e).2.defs (singleBody index (d.cons[index]?.getD []) e).1 d.cons := by
            unfold singleBody
            split
            · exact ⟨.refl _, trivial⟩
            · exact ⟨.step (.refl _), _, by rw [List.getElem?_eq_getElem hlt, Option.getD_some], List.mem_cons_self ..⟩
          have := wrap_defs (r := d.repr) hb.1 hb.2
          rw [h] at this
          exact this
      · rw [Option.some.injEq] at h
        obtain ⟨h1, h2⟩ := addStructs_grows d.cons e
        have hb : BodyDefs (unionOn d.cons e).2.defs (unionOn d.cons e).1 d.cons :=
          ⟨List.mem_cons_self .., fun i s fs h3 h4 => List.mem_cons_of_mem _ (h2 i s fs h3 h4)⟩
        have := wrap_defs (r := d.repr) (b := unionOn d.cons e) (h1.step) hb
        rw [h] at this
        exact this

theorem addStructs_length (cons : List (List Ct)) (e : Env) : (addStructs cons e).1.length = cons.length := by
  induction cons generalizing e with
  | nil => rfl
  | cons fs rest ih => simp [addStructs, ih]

theorem wrap_fits {r : DataRepr} {cons : List (List Ct)} {b : Body × Env} (hn : 2 ≤ cons.length) (hb : BodyFits b.1 cons) :
    Fits (wrap r cons.length b).1 cons := by
  cases r <;> exact ⟨rfl, hn, hb⟩

theorem single_others {cons : List (List Ct)} (h : (cons.filter fun fs => !fs.isEmpty).length = 1) {i : Nat}
    (hi : cons.findIdx? (fun fs => !fs.isEmpty) = some i) :
    ∀ (j : Nat) fs, j ≠ i → cons[j]? = some fs → fs = [] := by
  induction cons generalizing i with
  | nil => simp at h
  | cons c cons ih =>
    intro j fs hj hjf
    rw [List.findIdx?_cons] at hi
    by_cases hc : (!c.isEmpty) = true
    · rw [if_pos hc] at hi
      cases hi
      rw [List.filter_cons_of_pos (p := fun fs : List Ct => !fs.isEmpty) hc] at h
      have h0 : cons.filter (fun fs => !fs.isEmpty) = [] := by
        apply List.eq_nil_of_length_eq_zero; simpa using h
      cases j with
      | zero => exact absurd rfl hj
      | succ j =>
        rw [List.getElem?_cons_succ] at hjf
        have := List.filter_eq_nil_iff.1 h0 fs (List.mem_of_getElem? hjf)
        simpa using this
    · rw [if_neg hc] at hi
      obtain ⟨i', hi', rfl⟩ := Option.map_eq_some_iff.1 hi
      rw [List.filter_cons_of_neg (p := fun fs : List Ct => !fs.isEmpty) hc] at h
      cases j with
      | zero =>
        rw [List.getElem?_cons_zero] at hjf
        cases hjf
        simpa using hc
      | succ j => exact ih h hi' j fs (by omega) (by simpa using hjf)

theorem computed_fits {d : Data} {named : Bool} {e e' : Env} {x : Expansion}
    (h : computeDataExpansion d named e = some (x, e')) : Fits x d.cons := by
  unfold computeDataExpansion at h
  split at h
  · next hc => cases h; exact Or.inl hc
  · next fields hc =>
    cases h' : oneCon d.repr named fields e with
    | mk y ey =>
      rw [h'] at h
      cases h
      rw [hc]
      unfold oneCon at h'
      split at h'
      · next h0 =>
        cases h'
        exact Or.inr (by rw [List.eq_nil_of_length_eq_zero h0.1])
      · split at h'
        · cases h'; exact rfl
        · split at h' <;> (cases h'; exact ⟨_, rfl⟩)
  · next h0 h1 =>
    have hn : 2 ≤ d.cons.length := by
      match hd : d.cons with
      | [] => exact absurd hd h0
      | [a] => exact absurd hd (h1 a)
      | a :: b :: r => simp
    split at h
    · cases h
    · split at h
      · next hz =>
        cases h
        refine ⟨rfl, hn, fun fs hfs => ?_⟩
        have := List.filter_eq_nil_iff.1 (List.eq_nil_of_length_eq_zero hz) fs hfs
        simpa using this
      · next hz =>
        split at h
        · cases h
        · next index hidx =>
          have hlt := List.findIdx?_eq_some_iff_getElem.1 hidx
          obtain ⟨hlt, -⟩ := hlt
          rw [Option.some.injEq] at h
          have hx : x = (wrap d.repr d.cons.length (singleBody index (d.cons[index]?.getD []) e)).1 := by rw [h]
          subst hx
          apply wrap_fits hn
          rw [List.getElem?_eq_getElem hlt, Option.getD_some]
          unfold singleBody
          split
          · next field hf => exact ⟨by rw [List.getElem?_eq_getElem hlt, hf], single_others hz hidx⟩
          · exact ⟨⟨_, List.getElem?_eq_getElem hlt⟩, single_others hz hidx⟩
      · rw [Option.some.injEq] at h
        have hx : x = (wrap d.repr d.cons.length (unionOn d.cons e)).1 := by rw [h]
        subst hx
        exact wrap_fits hn (addStructs_length _ _)

/-! ## A value of a constructor -/

/-- `w` is the body of constructor `i` with fields `ws`. -/
def BodyIs (b : Body) (i : Nat) (ws : List LV) (w : LV) : Prop :=
  match b with
  | .alias i' _ => if i = i' then ws = [w] else ws = [] ∧ w = .junk
  | .struct i' id => if i = i' then w = .struct id ws else ws = [] ∧ w = .junk
  | .union id ss => ∃ s, ss[i]? = some s ∧ w = .union id (.struct s ws)

/-- `w` is the body of constructor `i` with fields `ws`, behind a pointer. -/
def BoxedIs (h : List LV) (b : Body) (i : Nat) (ws : List LV) (w : LV) : Prop :=
  match b with
  | .alias i' _ => if i = i' then ∃ a v, w = .ptr a ∧ h[a]? = some v ∧ ws = [v] else ws = [] ∧ w = .junk
  | .struct i' id => if i = i' then ∃ a, w = .ptr a ∧ h[a]? = some (.struct id ws) else ws = [] ∧ w = .junk
  | .union id ss => ∃ a s, w = .ptr a ∧ ss[i]? = some s ∧ h[a]? = some (.union id (.struct s ws))

/-- `w` is constructor `i` with fields `ws`. -/
def Is (h : List LV) (x : Expansion) (i : Nat) (ws : List LV) (w : LV) : Prop :=
  match x with
  | .unit => ws = [] ∧ w = .unit
  | .enum n => ws = [] ∧ w = (enumConst n i).val
  | .alias _ => ws = [w]
  | .boxedStruct id => ∃ a, w = .ptr a ∧ h[a]? = some (.struct id ws)
  | .struct id => w = .struct id ws
  | .boxedTagged id n b => ∃ v, w = .struct id [(enumConst n i).val, v] ∧ BoxedIs h b i ws v
  | .tagged id n b => ∃ v, w = .struct id [(enumConst n i).val, v] ∧ BodyIs b i ws v

theorem getElem?_ext {h : List LV} (l : List LV) {a : Nat} {v : LV} (hv : h[a]? = some v) : (h ++ l)[a]? = some v := by
  rw [List.getElem?_append_left (List.getElem?_eq_some_iff.1 hv).1, hv]

theorem Is.ext {h : List LV} {x i ws w} (l : List LV) (hi : Is h x i ws w) : Is (h ++ l) x i ws w := by
  cases x with
  | boxedStruct id => obtain ⟨a, h1, h2⟩ := hi; exact ⟨a, h1, getElem?_ext l h2⟩
  | boxedTagged id n b =>
    obtain ⟨v, h1, h2⟩ := hi
    refine ⟨v, h1, ?_⟩
    cases b with
    | alias i' t =>
      simp only [BoxedIs] at h2 ⊢
      split at h2
      · next hc => rw [if_pos hc]; obtain ⟨a, v, h3, h4, h5⟩ := h2; exact ⟨a, v, h3, getElem?_ext l h4, h5⟩
      · next hc => rw [if_neg hc]; exact h2
    | struct i' t =>
      simp only [BoxedIs] at h2 ⊢
      split at h2
      · next hc => rw [if_pos hc]; obtain ⟨a, h3, h4⟩ := h2; exact ⟨a, h3, getElem?_ext l h4⟩
      · next hc => rw [if_neg hc]; exact h2
    | union id ss =>
      obtain ⟨a, s, h3, h4, h5⟩ := h2
      exact ⟨a, s, h3, h4, getElem?_ext l h5⟩
  | _ => exact hi

/-! ## Building -/

theorem last?_single {e : LExp} : (LExps.cons e .nil).last? = some e := rfl

/-- Number of arguments. -/
def LExps.len : LExps → Nat
  | .nil => 0
  | .cons _ es => es.len + 1

theorem evalLs_length {args : LExps} {s h ws h'} (he : evalLs args s h = .ok ws h') : ws.length = args.len := by
  induction args using LExps.rec (motive_1 := fun _ => True) (motive_3 := fun _ => True) generalizing h ws h' with
  | nil => simp only [evalLs, Out.ok.injEq] at he; rw [← he.1]; rfl
  | cons e es _ ih =>
    rw [evalLs] at he
    cases h1 : evalL e s h with
    | ok v h2 =>
      simp only [h1] at he
      cases h3 : evalLs es s h2 with
      | ok vs h4 =>
        simp only [h3, Out.ok.injEq] at he
        rw [← he.1, List.length_cons, ih h3]; rfl
      | noClause => simp only [h3] at he; cases he
      | undef => simp only [h3] at he; cases he
    | noClause => simp only [h1] at he; cases he
    | undef => simp only [h1] at he; cases he
  | _ => trivial

theorem len_one {args : LExps} (h : args.len = 1) : ∃ e, args = .cons e .nil := by
  match args, h with
  | .cons e .nil, _ => exact ⟨e, rfl⟩

theorem len_zero {args : LExps} (h : args.len = 0) : args = .nil := by
  match args, h with
  | .nil, _ => rfl

theorem evalL_single {e : LExp} {s h ws h'} (he : evalLs (.cons e .nil) s h = .ok ws h') : ∃ v, ws = [v] ∧ evalL e s h = .ok v h' := by
  rw [evalLs] at he
  cases h1 : evalL e s h with
  | ok v h2 =>
    simp only [h1, evalLs, Out.ok.injEq] at he
    exact ⟨v, he.1.symm, by rw [he.2]⟩
  | noClause => simp only [h1] at he; cases he
  | undef => simp only [h1] at he; cases he

theorem body_builds {b : Body} {cons : List (List Ct)} {i : Nat} {fs : List Ct} {args : LExps} {s h ws h'}
    (hf : BodyFits b cons) (hi : cons[i]? = some fs) (hl : args.len = fs.length) (he : evalLs args s h = .ok ws h') :
    ∃ e, b.toRt i args = some e ∧ ∃ w, evalL e s h = .ok w h' ∧ BodyIs b i ws w := by
  have hlen := evalLs_length he
  cases b with
  | alias i' t =>
    simp only [Body.toRt, BodyIs]
    by_cases hc : i = i'
    · subst hc
      have : fs = [t] := by rw [hf.1] at hi; exact (Option.some.inj hi).symm
      subst this
      obtain ⟨e, rfl⟩ := len_one hl
      obtain ⟨v, rfl, hv⟩ := evalL_single he
      rw [if_pos rfl]
      exact ⟨e, last?_single, v, hv, by rw [if_pos rfl]⟩
    · have := hf.2 i fs hc hi
      subst this
      rw [len_zero hl] at he hlen
      simp only [evalLs, Out.ok.injEq] at he
      rw [if_neg hc]
      refine ⟨_, rfl, .junk, ?_, ?_⟩
      · rw [evalL, he.2]
      · rw [if_neg hc]; exact ⟨he.1.symm, rfl⟩
  | struct i' id =>
    simp only [Body.toRt, BodyIs]
    by_cases hc : i = i'
    · rw [if_pos hc]
      refine ⟨_, rfl, .struct id ws, ?_, by rw [if_pos hc]⟩
      rw [evalL, he]
    · have := hf.2 i fs hc hi
      subst this
      rw [len_zero hl] at he hlen
      simp only [evalLs, Out.ok.injEq] at he
      rw [if_neg hc]
      refine ⟨_, rfl, .junk, ?_, ?_⟩
      · rw [evalL, he.2]
      · rw [if_neg hc]; exact ⟨he.1.symm, rfl⟩
  | union id ss =>
    have hlt : i < ss.length := by
      have : ss.length = cons.length := hf
      rw [this]; exact (List.getElem?_eq_some_iff.1 hi).1
    simp only [Body.toRt, List.getElem?_eq_getElem hlt]
    refine ⟨_, rfl, .union id (.struct ss[i] ws), ?_, ⟨ss[i], List.getElem?_eq_getElem hlt, rfl⟩⟩
    rw [evalL, evalL, he]

theorem alloc_top (h : List LV) (v : LV) : (h ++ [v])[h.length]? = some v := by simp

theorem boxed_builds {b : Body} {cons : List (List Ct)} {i : Nat} {fs : List Ct} {args : LExps} {s h ws h'}
    (hf : BodyFits b cons) (hi : cons[i]? = some fs) (hl : args.len = fs.length) (he : evalLs args s h = .ok ws h') :
    ∃ e, b.toRtBoxed i args = some e ∧ ∃ w l, evalL e s h = .ok w (h' ++ l) ∧ BoxedIs (h' ++ l) b i ws w := by
  obtain ⟨e, h1, w, h2, h3⟩ := body_builds hf hi hl he
  have halloc : evalL (.alloc e) s h = .ok (.ptr h'.length) (h' ++ [w]) := by rw [evalL, h2]
  cases b with
  | alias i' t =>
    simp only [Body.toRtBoxed, BoxedIs, BodyIs] at h3 ⊢
    by_cases hc : i = i'
    · rw [if_neg (by simpa using hc), h1]
      rw [if_pos hc] at h3
      refine ⟨_, rfl, _, _, halloc, ?_⟩
      rw [if_pos hc]
      exact ⟨_, w, rfl, alloc_top _ _, h3⟩
    · rw [if_pos hc]
      rw [if_neg hc] at h3
      simp only [Body.toRt, if_neg hc, Option.some.injEq] at h1
      subst h1
      refine ⟨_, rfl, w, [], by rw [List.append_nil]; exact h2, ?_⟩
      rw [if_neg hc]; exact h3
  | struct i' id =>
    simp only [Body.toRtBoxed, BoxedIs, BodyIs] at h3 ⊢
    by_cases hc : i = i'
    · rw [if_neg (by simpa using hc), h1]
      rw [if_pos hc] at h3
      refine ⟨_, rfl, _, _, halloc, ?_⟩
      rw [if_pos hc]
      exact ⟨_, rfl, by rw [alloc_top, h3]⟩
    · rw [if_pos hc]
      rw [if_neg hc] at h3
      simp only [Body.toRt, if_neg hc, Option.some.injEq] at h1
      subst h1
      refine ⟨_, rfl, w, [], by rw [List.append_nil]; exact h2, ?_⟩
      rw [if_neg hc]; exact h3
  | union id ss =>
    obtain ⟨s', h4, h5⟩ := h3
    refine ⟨.alloc e, by rw [Body.toRtBoxed, h1]; rfl, _, _, halloc, ⟨_, s', rfl, h4, by rw [alloc_top, h5]⟩⟩

/-- A constructor application builds a value of the constructor. -/
theorem builds {x : Expansion} {cons : List (List Ct)} {i : Nat} {fs : List Ct} {args : LExps} {s h ws h'}
    (hf : Fits x cons) (hi : cons[i]? = some fs) (hl : args.len = fs.length) (he : evalLs args s h = .ok ws h') :
    ∃ e, x.toRt i args = some e ∧ ∃ w l, evalL e s h = .ok w (h' ++ l) ∧ Is (h' ++ l) x i ws w := by
  have hmem := List.mem_of_getElem? hi
  cases x with
  | unit =>
    rcases hf with hf | hf
    · rw [hf] at hmem; simp at hmem
    · rw [hf] at hmem
      have : fs = [] := by simpa using hmem
      subst this
      rw [len_zero hl] at he
      simp only [evalLs, Out.ok.injEq] at he
      exact ⟨_, rfl, .unit, [], by rw [evalL, List.append_nil, he.2]; rfl, he.1.symm, rfl⟩
  | enum n =>
    have : fs = [] := hf.2.2 fs hmem
    subst this
    rw [len_zero hl] at he
    simp only [evalLs, Out.ok.injEq] at he
    exact ⟨_, rfl, _, [], by rw [evalL, List.append_nil, he.2], he.1.symm, rfl⟩
  | alias t =>
    simp only [Fits] at hf
    rw [hf] at hmem
    have : fs = [t] := by simpa using hmem
    subst this
    obtain ⟨e, rfl⟩ := len_one hl
    obtain ⟨v, rfl, hv⟩ := evalL_single he
    exact ⟨e, rfl, v, [], by rw [List.append_nil, hv], rfl⟩
  | boxedStruct id =>
    refine ⟨_, rfl, .ptr h'.length, [.struct id ws], ?_, _, rfl, alloc_top _ _⟩
    rw [evalL, evalL, he]
  | struct id =>
    refine ⟨_, rfl, .struct id ws, [], ?_, rfl⟩
    rw [evalL, he, List.append_nil]
  | boxedTagged id n b =>
    obtain ⟨e, h1, w, l, h2, h3⟩ := boxed_builds hf.2.2 hi hl he
    refine ⟨_, by rw [Expansion.toRt, h1], .struct id [(enumConst n i).val, w], l, ?_, w, rfl, h3⟩
    simp only [evalL, evalLs, h2]
  | tagged id n b =>
    obtain ⟨e, h1, w, h2, h3⟩ := body_builds hf.2.2 hi hl he
    refine ⟨_, by rw [Expansion.toRt, h1], .struct id [(enumConst n i).val, w], [], ?_, w, rfl, h3⟩
    simp only [evalL, evalLs, h2, List.append_nil]

/-! ## Taking apart -/

theorem matchLs_one {h : List LV} {p : LPat} {v : LV} : matchLs h [p] [v] = matchL h p v := by
  rw [matchLs]
  cases matchL h p v with
  | none => rfl
  | some r =>
    cases r with
    | none => rfl
    | some s => simp [matchLs]

theorem tag_match {h : List LV} {n i j : Nat} {p : LPat} {v : LV} {id : Nat} (hn : 2 ≤ n) (hi : i < n) (hj : j < n) :
    matchL h (.struct id [.const (enumConst n j), p]) (.struct id [(enumConst n i).val, v]) =
      if i = j then matchL h p v else some none := by
  rw [matchL, if_pos rfl, matchLs, matchL, enumConst_inj hn hj hi]
  by_cases hij : i = j
  · subst hij
    simp only [decide_true, Option.map_some, if_true]
    rw [matchLs_one]
    cases matchL h p v with
    | none => rfl
    | some r => cases r <;> simp
  · have hji : ¬ j = i := fun e => hij e.symm
    simp [hij, hji]

theorem pats_one {ps : List LPat} (h : ps.length = 1) : ∃ p, ps = [p] := List.length_eq_one_iff.1 h

theorem body_match {h : List LV} {b : Body} {cons : List (List Ct)} {i : Nat} {fs : List Ct} {ps : List LPat} {ws w}
    (hf : BodyFits b cons) (hi : cons[i]? = some fs) (hl : ps.length = fs.length) (hw : BodyIs b i ws w) :
    ∃ p, b.toRtPat i ps = some p ∧ matchL h p w = matchLs h ps ws := by
  cases b with
  | alias i' t =>
    simp only [Body.toRtPat, BodyIs] at hw ⊢
    by_cases hc : i = i'
    · subst hc
      have : fs = [t] := by rw [hf.1] at hi; exact (Option.some.inj hi).symm
      subst this
      obtain ⟨p, rfl⟩ := pats_one hl
      rw [if_pos rfl] at hw
      subst hw
      rw [if_pos rfl]
      exact ⟨p, rfl, matchLs_one.symm⟩
    · have := hf.2 i fs hc hi
      subst this
      rw [if_neg hc] at hw
      obtain ⟨rfl, rfl⟩ := hw
      rw [List.eq_nil_of_length_eq_zero hl, if_neg hc]
      exact ⟨_, rfl, by rw [matchL, matchLs]⟩
  | struct i' id =>
    simp only [Body.toRtPat, BodyIs] at hw ⊢
    by_cases hc : i = i'
    · rw [if_pos hc] at hw ⊢
      subst hw
      exact ⟨_, rfl, by rw [matchL, if_pos rfl]⟩
    · have := hf.2 i fs hc hi
      subst this
      rw [if_neg hc] at hw
      obtain ⟨rfl, rfl⟩ := hw
      rw [List.eq_nil_of_length_eq_zero hl, if_neg hc]
      exact ⟨_, rfl, by rw [matchL, matchLs]⟩
  | union id ss =>
    obtain ⟨s, h1, rfl⟩ := hw
    simp only [Body.toRtPat, h1]
    exact ⟨_, rfl, by rw [matchL, if_pos rfl, matchL, if_pos rfl]⟩

theorem boxed_match {h : List LV} {b : Body} {cons : List (List Ct)} {i : Nat} {fs : List Ct} {ps : List LPat} {ws w}
    (hf : BodyFits b cons) (hi : cons[i]? = some fs) (hl : ps.length = fs.length) (hw : BoxedIs h b i ws w) :
    ∃ p, b.toRtPatBoxed i ps = some p ∧ matchL h p w = matchLs h ps ws := by
  cases b with
  | alias i' t =>
    simp only [Body.toRtPatBoxed, BoxedIs] at hw ⊢
    by_cases hc : i = i'
    · rw [if_pos hc] at hw
      obtain ⟨a, v, rfl, h2, rfl⟩ := hw
      obtain ⟨p, h3, h4⟩ := body_match (h := h) (w := v) (ws := [v]) hf hi hl (by simp [BodyIs, hc])
      rw [if_neg (by simpa using hc), h3]
      exact ⟨_, rfl, by rw [matchL, h2]; exact h4⟩
    · have := hf.2 i fs hc hi
      subst this
      rw [if_neg hc] at hw
      obtain ⟨rfl, rfl⟩ := hw
      rw [List.eq_nil_of_length_eq_zero hl, if_pos hc]
      exact ⟨_, rfl, by rw [matchL, matchLs]⟩
  | struct i' id =>
    simp only [Body.toRtPatBoxed, BoxedIs] at hw ⊢
    by_cases hc : i = i'
    · rw [if_pos hc] at hw
      obtain ⟨a, rfl, h2⟩ := hw
      obtain ⟨p, h3, h4⟩ := body_match (h := h) (w := .struct id ws) (ws := ws) hf hi hl (by simp [BodyIs, hc])
      rw [if_neg (by simpa using hc), h3]
      exact ⟨_, rfl, by rw [matchL, h2]; exact h4⟩
    · have := hf.2 i fs hc hi
      subst this
      rw [if_neg hc] at hw
      obtain ⟨rfl, rfl⟩ := hw
      rw [List.eq_nil_of_length_eq_zero hl, if_pos hc]
      exact ⟨_, rfl, by rw [matchL, matchLs]⟩
  | union id ss =>
    obtain ⟨a, s, rfl, h1, h2⟩ := hw
    simp only [Body.toRtPatBoxed, Body.toRtPat, h1, Option.map_some]
    exact ⟨_, rfl, by rw [matchL, h2]; simp only [matchL, if_pos]⟩

theorem body_pat_exists {b : Body} {cons : List (List Ct)} {j : Nat} {fs : List Ct} {ps : List LPat}
    (hf : BodyFits b cons) (hj : cons[j]? = some fs) (hl : ps.length = fs.length) :
    (∃ p, b.toRtPat j ps = some p) ∧ ∃ p, b.toRtPatBoxed j ps = some p := by
  have h1 : ∃ p, b.toRtPat j ps = some p := by
    cases b with
    | alias i' t =>
      simp only [Body.toRtPat]
      by_cases hc : j = i'
      · subst hc
        have : fs = [t] := by rw [hf.1] at hj; exact (Option.some.inj hj).symm
        subst this
        obtain ⟨p, rfl⟩ := pats_one hl
        rw [if_pos rfl]; exact ⟨p, rfl⟩
      · rw [if_neg hc]; exact ⟨_, rfl⟩
    | struct i' id => simp only [Body.toRtPat]; split <;> exact ⟨_, rfl⟩
    | union id ss =>
      have hlt : j < ss.length := by
        have : ss.length = cons.length := hf
        rw [this]; exact (List.getElem?_eq_some_iff.1 hj).1
      simp only [Body.toRtPat, List.getElem?_eq_getElem hlt]
      exact ⟨_, rfl⟩
  refine ⟨h1, ?_⟩
  obtain ⟨p, hp⟩ := h1
  cases b with
  | union id ss => rw [Body.toRtPatBoxed, hp]; exact ⟨_, rfl⟩
  | alias i' t =>
    simp only [Body.toRtPatBoxed]
    split
    · exact ⟨_, rfl⟩
    · rw [hp]; exact ⟨_, rfl⟩
  | struct i' t =>
    simp only [Body.toRtPatBoxed]
    split
    · exact ⟨_, rfl⟩
    · rw [hp]; exact ⟨_, rfl⟩

/-- A constructor pattern accepts exactly the values of its constructor, and its parts see the fields. -/
theorem takes_apart {h : List LV} {x : Expansion} {cons : List (List Ct)} {i j : Nat} {fs fs' : List Ct} {ps : List LPat} {ws w}
    (hf : Fits x cons) (hi : cons[i]? = some fs) (hj : cons[j]? = some fs') (hl : ps.length = fs'.length) (hw : Is h x i ws w) :
    ∃ p, x.toRtPat j ps = some p ∧ matchL h p w = if i = j then matchLs h ps ws else some none := by
  have hmem := List.mem_of_getElem? hi
  have hmem' := List.mem_of_getElem? hj
  have hi' := (List.getElem?_eq_some_iff.1 hi).1
  have hj' := (List.getElem?_eq_some_iff.1 hj).1
  cases x with
  | unit =>
    rcases hf with hf | hf
    · rw [hf] at hmem; simp at hmem
    · rw [hf] at hmem' hi' hj'
      have : fs' = [] := by simpa using hmem'
      subst this
      obtain ⟨rfl, rfl⟩ := hw
      rw [List.eq_nil_of_length_eq_zero hl, if_pos (by simp at hi' hj'; omega)]
      exact ⟨_, rfl, by rw [matchL, matchLs]; rfl⟩
  | enum n =>
    have : fs' = [] := hf.2.2 fs' hmem'
    subst this
    obtain ⟨rfl, rfl⟩ := hw
    rw [List.eq_nil_of_length_eq_zero hl]
    refine ⟨_, rfl, ?_⟩
    rw [matchL, enumConst_inj hf.2.1 (by rw [hf.1]; exact hj') (by rw [hf.1]; exact hi')]
    by_cases hij : i = j
    · subst hij; simp [matchLs]
    · have hji : ¬ j = i := fun e => hij e.symm
      simp [hij, hji]
  | alias t =>
    simp only [Fits] at hf
    rw [hf] at hmem' hi' hj'
    have : fs' = [t] := by simpa using hmem'
    subst this
    obtain ⟨p, rfl⟩ := pats_one hl
    simp only [Is] at hw
    subst hw
    rw [if_pos (by simp at hi' hj'; omega)]
    exact ⟨p, rfl, matchLs_one.symm⟩
  | boxedStruct id =>
    obtain ⟨gs, hg⟩ := hf
    rw [hg] at hi' hj'
    obtain ⟨a, rfl, h2⟩ := hw
    rw [if_pos (by simp at hi' hj'; omega)]
    exact ⟨_, rfl, by rw [matchL, h2]; simp only [matchL, if_pos]⟩
  | struct id =>
    obtain ⟨gs, hg⟩ := hf
    rw [hg] at hi' hj'
    simp only [Is] at hw
    subst hw
    rw [if_pos (by simp at hi' hj'; omega)]
    exact ⟨_, rfl, by rw [matchL, if_pos rfl]⟩
  | boxedTagged id n b =>
    obtain ⟨v, rfl, h2⟩ := hw
    by_cases hij : i = j
    · subst hij
      rw [hi] at hj; cases hj
      obtain ⟨p, h3, h4⟩ := boxed_match hf.2.2 hi hl h2
      refine ⟨_, by rw [Expansion.toRtPat, h3], ?_⟩
      rw [tag_match hf.2.1 (by rw [hf.1]; exact hi') (by rw [hf.1]; exact hi'), if_pos rfl, if_pos rfl, h4]
    · obtain ⟨-, p, h3⟩ := body_pat_exists hf.2.2 hj hl
      refine ⟨_, by rw [Expansion.toRtPat, h3], ?_⟩
      rw [tag_match hf.2.1 (by rw [hf.1]; exact hi') (by rw [hf.1]; exact hj'), if_neg hij, if_neg hij]
  | tagged id n b =>
    obtain ⟨v, rfl, h2⟩ := hw
    by_cases hij : i = j
    · subst hij
      rw [hi] at hj; cases hj
      obtain ⟨p, h3, h4⟩ := body_match (h := h) hf.2.2 hi hl h2
      refine ⟨_, by rw [Expansion.toRtPat, h3], ?_⟩
      rw [tag_match hf.2.1 (by rw [hf.1]; exact hi') (by rw [hf.1]; exact hi'), if_pos rfl, if_pos rfl, h4]
    · obtain ⟨⟨p, h3⟩, -⟩ := body_pat_exists hf.2.2 hj hl
      refine ⟨_, by rw [Expansion.toRtPat, h3], ?_⟩
      rw [tag_match hf.2.1 (by rw [hf.1]; exact hi') (by rw [hf.1]; exact hj'), if_neg hij, if_neg hij]

theorem body_rt_exists {b : Body} {cons : List (List Ct)} {j : Nat} {fs : List Ct} {args : LExps}
    (hf : BodyFits b cons) (hj : cons[j]? = some fs) (hl : args.len = fs.length) :
    (∃ p, b.toRt j args = some p) ∧ ∃ p, b.toRtBoxed j args = some p := by
  have h1 : ∃ p, b.toRt j args = some p := by
    cases b with
    | alias i' t =>
      simp only [Body.toRt]
      by_cases hc : j = i'
      · subst hc
        have : fs = [t] := by rw [hf.1] at hj; exact (Option.some.inj hj).symm
        subst this
        obtain ⟨p, rfl⟩ := len_one hl
        rw [if_pos rfl]; exact ⟨p, rfl⟩
      · rw [if_neg hc]; exact ⟨_, rfl⟩
    | struct i' id => simp only [Body.toRt]; split <;> exact ⟨_, rfl⟩
    | union id ss =>
      have hlt : j < ss.length := by
        have : ss.length = cons.length := hf
        rw [this]; exact (List.getElem?_eq_some_iff.1 hj).1
      simp only [Body.toRt, List.getElem?_eq_getElem hlt]
      exact ⟨_, rfl⟩
  refine ⟨h1, ?_⟩
  obtain ⟨p, hp⟩ := h1
  cases b with
  | union id ss => rw [Body.toRtBoxed, hp]; exact ⟨_, rfl⟩
  | alias i' t =>
    simp only [Body.toRtBoxed]
    split
    · exact ⟨_, rfl⟩
    · rw [hp]; exact ⟨_, rfl⟩
  | struct i' t =>
    simp only [Body.toRtBoxed]
    split
    · exact ⟨_, rfl⟩
    · rw [hp]; exact ⟨_, rfl⟩

theorem single_noClause {e : LExp} {s h} (he : evalLs (.cons e .nil) s h = .noClause) : evalL e s h = .noClause := by
  rw [evalLs] at he
  cases h1 : evalL e s h with
  | ok v h2 => simp only [h1, evalLs] at he; cases he
  | noClause => rfl
  | undef => simp only [h1] at he; cases he

theorem body_noClause {b : Body} {cons : List (List Ct)} {i : Nat} {fs : List Ct} {args : LExps} {s h}
    (hf : BodyFits b cons) (hi : cons[i]? = some fs) (hl : args.len = fs.length) {e} (he : b.toRt i args = some e)
    (hn : evalLs args s h = .noClause) : evalL e s h = .noClause := by
  cases b with
  | alias i' t =>
    simp only [Body.toRt] at he
    by_cases hc : i = i'
    · subst hc
      have : fs = [t] := by rw [hf.1] at hi; exact (Option.some.inj hi).symm
      subst this
      obtain ⟨p, rfl⟩ := len_one hl
      rw [if_pos rfl] at he
      cases he
      exact single_noClause hn
    · have := hf.2 i fs hc hi
      subst this
      rw [len_zero hl, evalLs] at hn
      cases hn
  | struct i' id =>
    simp only [Body.toRt] at he
    by_cases hc : i = i'
    · rw [if_pos hc] at he
      cases he
      rw [evalL, hn]
    · have := hf.2 i fs hc hi
      subst this
      rw [len_zero hl, evalLs] at hn
      cases hn
  | union id ss =>
    simp only [Body.toRt] at he
    split at he
    · cases he
    · cases he
      rw [evalL, evalL, hn]

theorem boxed_noClause {b : Body} {cons : List (List Ct)} {i : Nat} {fs : List Ct} {args : LExps} {s h}
    (hf : BodyFits b cons) (hi : cons[i]? = some fs) (hl : args.len = fs.length) {e} (he : b.toRtBoxed i args = some e)
    (hn : evalLs args s h = .noClause) : evalL e s h = .noClause := by
  obtain ⟨⟨p, hp⟩, -⟩ := body_rt_exists hf hi hl
  have h1 := body_noClause hf hi hl hp hn
  have h2 : evalL (.alloc p) s h = .noClause := by rw [evalL, h1]
  cases b with
  | alias i' t =>
    simp only [Body.toRtBoxed] at he
    by_cases hc : i = i'
    · rw [if_neg (by simpa using hc), hp] at he; cases he; exact h2
    · have := hf.2 i fs hc hi
      subst this
      rw [len_zero hl, evalLs] at hn
      cases hn
  | struct i' t =>
    simp only [Body.toRtBoxed] at he
    by_cases hc : i = i'
    · rw [if_neg (by simpa using hc), hp] at he; cases he; exact h2
    · have := hf.2 i fs hc hi
      subst this
      rw [len_zero hl, evalLs] at hn
      cases hn
  | union id ss => rw [Body.toRtBoxed, hp] at he; cases he; exact h2

/-- An application whose arguments end without a matching clause does too. -/
theorem no_clause {x : Expansion} {cons : List (List Ct)} {i : Nat} {fs : List Ct} {args : LExps} {s h}
    (hf : Fits x cons) (hi : cons[i]? = some fs) (hl : args.len = fs.length) {e} (he : x.toRt i args = some e)
    (hn : evalLs args s h = .noClause) : evalL e s h = .noClause := by
  have hmem := List.mem_of_getElem? hi
  cases x with
  | unit =>
    rcases hf with hf | hf
    · rw [hf] at hmem; simp at hmem
    · rw [hf] at hmem
      have : fs = [] := by simpa using hmem
      subst this
      rw [len_zero hl, evalLs] at hn
      cases hn
  | enum n =>
    have : fs = [] := hf.2.2 fs hmem
    subst this
    rw [len_zero hl, evalLs] at hn
    cases hn
  | alias t =>
    simp only [Fits] at hf
    rw [hf] at hmem
    have : fs = [t] := by simpa using hmem
    subst this
    obtain ⟨p, rfl⟩ := len_one hl
    cases he
    exact single_noClause hn
  | boxedStruct id => cases he; rw [evalL, evalL, hn]
  | struct id => cases he; rw [evalL, hn]
  | boxedTagged id n b =>
    obtain ⟨-, p, hp⟩ := body_rt_exists hf.2.2 hi hl
    rw [Expansion.toRt, hp] at he
    cases he
    simp only [evalL, evalLs, boxed_noClause hf.2.2 hi hl hp hn]
  | tagged id n b =>
    obtain ⟨⟨p, hp⟩, -⟩ := body_rt_exists hf.2.2 hi hl
    rw [Expansion.toRt, hp] at he
    cases he
    simp only [evalL, evalLs, body_noClause hf.2.2 hi hl hp hn]

end Verif.DataExpander
