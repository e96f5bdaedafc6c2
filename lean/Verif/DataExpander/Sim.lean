import Verif.DataExpander.Compute
/-!
# Lemmas: the lowered program does what the program means
-/
namespace Verif.DataExpander

open Verif

mutual
/-- `w` represents the value `v` of type `t`. -/
inductive Rel (m : HMap Nat Expansion) (D : List (Nat × Data)) (h : List LV) : SV → LV → Ct → Prop
  | prim {k t} : NotData D t → Rel m D h (.prim k) (.prim k) t
  | con {id i d fs x vs ws w} : (id, d) ∈ D → d.cons[i]? = some fs → m.get id = some x → Rels m D h vs ws fs →
      Is h x i ws w → Rel m D h (.con id i vs) w (.id id)
/-- Field by field. -/
inductive Rels (m : HMap Nat Expansion) (D : List (Nat × Data)) (h : List LV) : List SV → List LV → List Ct → Prop
  | nil : Rels m D h [] [] []
  | cons {v w t vs ws ts} : Rel m D h v w t → Rels m D h vs ws ts → Rels m D h (v :: vs) (w :: ws) (t :: ts)
end

/-- Environments that agree. -/
inductive RelEnv (m : HMap Nat Expansion) (D : List (Nat × Data)) (h : List LV) : List (Nat × SV) → List (Nat × LV) → List (Nat × Ct) → Prop
  | nil : RelEnv m D h [] [] []
  | cons {x v w t s s' G} : Rel m D h v w t → RelEnv m D h s s' G → RelEnv m D h ((x, v) :: s) ((x, w) :: s') ((x, t) :: G)

section
variable {m : HMap Nat Expansion} {D : List (Nat × Data)}

mutual
theorem Rel.ext {h : List LV} (l : List LV) {v w t} (hr : Rel m D h v w t) : Rel m D (h ++ l) v w t :=
  match hr with
  | .prim hn => .prim hn
  | .con h1 h2 h3 h4 h5 => .con h1 h2 h3 (Rels.ext l h4) (h5.ext l)
theorem Rels.ext {h : List LV} (l : List LV) {v w t} (hr : Rels m D h v w t) : Rels m D (h ++ l) v w t :=
  match hr with
  | .nil => .nil
  | .cons h1 h2 => .cons (Rel.ext l h1) (Rels.ext l h2)
end

theorem RelEnv.ext {h : List LV} (l : List LV) {s s' G} (hr : RelEnv m D h s s' G) : RelEnv m D (h ++ l) s s' G := by
  induction hr with
  | nil => exact .nil
  | cons h1 _ ih => exact .cons (h1.ext l) ih

theorem RelEnv.append {h : List LV} {s1 s1' G1 s2 s2' G2} (h1 : RelEnv m D h s1 s1' G1) (h2 : RelEnv m D h s2 s2' G2) :
    RelEnv m D h (s1 ++ s2) (s1' ++ s2') (G1 ++ G2) := by
  induction h1 with
  | nil => exact h2
  | cons h1 _ ih => exact .cons h1 ih

theorem RelEnv.lookup {h : List LV} {s s' G x t} (hr : RelEnv m D h s s' G) (hx : lookup x G = some t) :
    ∃ v w, DataExpander.lookup x s = some v ∧ DataExpander.lookup x s' = some w ∧ Rel m D h v w t := by
  induction hr with
  | nil => simp [DataExpander.lookup] at hx
  | @cons y v w t' s s' G h1 _ ih =>
    simp only [DataExpander.lookup] at hx ⊢
    by_cases hxy : x = y
    · rw [if_pos hxy] at hx ⊢
      cases hx
      exact ⟨v, w, rfl, by rw [if_pos hxy], h1⟩
    · rw [if_neg hxy] at hx ⊢
      obtain ⟨v', w', h2, h3, h4⟩ := ih hx
      exact ⟨v', w', h2, by rw [if_neg hxy]; exact h3, h4⟩

theorem Rels.length {h : List LV} {vs ws ts} (hr : Rels m D h vs ws ts) : ws.length = ts.length := by
  match hr with
  | .nil => rfl
  | .cons _ h2 => rw [List.length_cons, List.length_cons, Rels.length h2]

theorem same_data {e : Env} (hi : Inv m e D) {id : Nat} {d d' : Data} (h : (id, d) ∈ D) (h' : (id, d') ∈ D) : d = d' := by
  have hnd := hi.nodup
  clear hi
  induction D with
  | nil => cases h
  | cons q D ih =>
    simp only [List.map_cons, List.nodup_cons] at hnd
    rcases List.mem_cons.1 h with h | h
    · rcases List.mem_cons.1 h' with h' | h'
      · rw [← h] at h'; cases h'; rfl
      · exact absurd (List.mem_map.2 ⟨(id, d'), h', by rw [← h]⟩) hnd.1
    · rcases List.mem_cons.1 h' with h' | h'
      · exact absurd (List.mem_map.2 ⟨(id, d), h, by rw [← h']⟩) hnd.1
      · exact ih h h' hnd.2

/-- How the outcomes of a match agree. -/
def Agree (m : HMap Nat Expansion) (D : List (Nat × Data)) (h : List LV) (G : List (Nat × Ct)) : Option (List (Nat × SV)) → MRes LV → Prop
  | some s, r => ∃ s', r = some (some s') ∧ RelEnv m D h s s' G
  | none, r => r = some none

mutual
/-- A lowered pattern does what the pattern means. -/
theorem match_sim {e : Env} (hi : Inv m e D) (h : List LV) (p : SPat) {v w t G} (hp : PTy D p t G) (hr : Rel m D h v w t) :
    ∃ p', lowerP m p = some p' ∧ Agree m D h G (matchS p v) (matchL h p' w) := by
  match p, hp with
  | .var x, .var => exact ⟨_, rfl, [(x, w)], rfl, .cons hr .nil⟩
  | .as x p, .as hp =>
    obtain ⟨p', h1, h2⟩ := match_sim hi h p hp hr
    refine ⟨.as x p', by rw [lowerP, h1]; rfl, ?_⟩
    rw [matchS]
    cases hm : matchS p v with
    | none =>
      rw [hm] at h2
      simp only [Agree] at h2
      simp only [Option.map_none, Agree]
      rw [matchL, h2]
    | some s =>
      rw [hm] at h2
      obtain ⟨s', h3, h4⟩ := h2
      refine ⟨(x, w) :: s', ?_, .cons hr h4⟩
      rw [matchL, h3]
  | .wild, .wild => exact ⟨_, rfl, [], rfl, .nil⟩
  | .prim k, .prim hn =>
    refine ⟨_, rfl, ?_⟩
    cases hr with
    | @prim k' =>
      rw [matchS, matchL]
      by_cases hk : k = k'
      · rw [if_pos hk]
        refine ⟨[], ?_, .nil⟩
        simp [Const.test, hk]
      · rw [if_neg hk]
        simp [Agree, Const.test, hk]
    | con h1 => exact absurd rfl (hn _ _ h1)
  | .data id j ps, .data (d := d) (fs := fs) hd hj hps =>
    cases hr with
    | prim hn => exact absurd rfl (hn _ _ hd)
    | @con _ i d' fs' x vs ws w h1 h2 h3 h4 h5 =>
      have hdd := same_data hi hd h1
      subst hdd
      obtain ⟨x', hx', hfit⟩ := hi.cov _ hd
      have hxx : x' = x := by
        have : m.get id = some x' := hx'
        rw [h3] at this; exact (Option.some.inj this).symm
      subst hxx
      have ⟨ps', h6, h6'⟩ := lowerPs_some hi h ps hps
      obtain ⟨p', h7, h8⟩ := takes_apart (h := h) (ps := ps') hfit h2 hj h6' h5
      refine ⟨p', ?_, ?_⟩
      · rw [lowerP, h3, h6]; exact h7
      · rw [matchS, h8]
        by_cases hij : i = j
        · subst hij
          rw [h2] at hj
          cases hj
          rw [if_pos ⟨rfl, rfl⟩, if_pos rfl]
          obtain ⟨ps'', h9, h10⟩ := matches_sim hi h ps hps h4
          rw [h6] at h9
          cases h9
          exact h10
        · rw [if_neg (fun hc => hij hc.2.symm), if_neg hij]
          rfl
/-- Lowering succeeds. -/
theorem lowerP_some {e : Env} (hi : Inv m e D) (h : List LV) (p : SPat) {t G} (hp : PTy D p t G) :
    ∃ p', lowerP m p = some p' := by
  match p, hp with
  | .var x, .var => exact ⟨_, rfl⟩
  | .as x p, .as hp =>
    obtain ⟨p', h1⟩ := lowerP_some hi h p hp
    exact ⟨.as x p', by rw [lowerP, h1]; rfl⟩
  | .wild, .wild => exact ⟨_, rfl⟩
  | .prim k, .prim hn => exact ⟨_, rfl⟩
  | .data id j ps, .data (d := d) (fs := fs) hd hj hps =>
    obtain ⟨x, hx, hfit⟩ := hi.cov _ hd
    have ⟨ps', h6, h6'⟩ := lowerPs_some hi h ps hps
    have : ∃ p', x.toRtPat j ps' = some p' := by
      have hx2 := hx
      cases x with
      | alias t =>
        simp only [Fits] at hfit
        rw [hfit] at hj
        have := List.mem_of_getElem? hj
        have hfs : fs = [t] := by simpa using this
        rw [hfs] at h6'
        obtain ⟨q, rfl⟩ := pats_one h6'
        exact ⟨q, rfl⟩
      | boxedTagged id n b =>
        obtain ⟨-, q, hq⟩ := body_pat_exists hfit.2.2 hj h6'
        exact ⟨_, by rw [Expansion.toRtPat, hq]⟩
      | tagged id n b =>
        obtain ⟨⟨q, hq⟩, -⟩ := body_pat_exists hfit.2.2 hj h6'
        exact ⟨_, by rw [Expansion.toRtPat, hq]⟩
      | _ => exact ⟨_, rfl⟩
    obtain ⟨p', hp'⟩ := this
    have hx' : m.get id = some x := hx
    exact ⟨p', by rw [lowerP, hx', h6]; exact hp'⟩
theorem lowerPs_some {e : Env} (hi : Inv m e D) (h : List LV) (ps : List SPat) {ts G} (hp : PTys D ps ts G) :
    ∃ ps', lowerPs m ps = some ps' ∧ ps'.length = ts.length := by
  match ps, hp with
  | [], .nil => exact ⟨[], rfl, rfl⟩
  | p :: ps, .cons hp hps =>
    obtain ⟨p', h1⟩ := lowerP_some hi h p hp
    obtain ⟨ps', h2, h3⟩ := lowerPs_some hi h ps hps
    exact ⟨p' :: ps', by rw [lowerPs, h1, h2], by simp [h3]⟩
theorem matches_sim {e : Env} (hi : Inv m e D) (h : List LV) (ps : List SPat) {vs ws ts G} (hp : PTys D ps ts G)
    (hr : Rels m D h vs ws ts) :
    ∃ ps', lowerPs m ps = some ps' ∧ Agree m D h G (matchSs ps vs) (matchLs h ps' ws) := by
  match ps, hp with
  | [], .nil =>
    cases hr
    exact ⟨[], rfl, [], rfl, .nil⟩
  | p :: ps, .cons hp hps =>
    cases hr with
    | @cons v w t vs ws ts hr1 hr2 =>
      obtain ⟨p', h1, h2⟩ := match_sim hi h p hp hr1
      obtain ⟨ps', h3, h4⟩ := matches_sim hi h ps hps hr2
      refine ⟨p' :: ps', by rw [lowerPs, h1, h3], ?_⟩
      rw [matchSs, matchLs]
      cases hm : matchS p v with
      | none =>
        rw [hm] at h2
        simp only [Agree] at h2 ⊢
        rw [h2]
      | some s =>
        rw [hm] at h2
        obtain ⟨s', h5, h6⟩ := h2
        rw [h5]
        cases hm' : matchSs ps vs with
        | none =>
          rw [hm'] at h4
          simp only [Agree] at h4
          simp only [Option.map_none, Agree]
          rw [h4]
        | some s2 =>
          rw [hm'] at h4
          obtain ⟨s2', h7, h8⟩ := h4
          refine ⟨s' ++ s2', ?_, h6.append h8⟩
          rw [h7]
end

/-- How the outcomes of running agree. -/
def Runs {A B : Type} (R : List LV → A → B → Prop) (h : List LV) : Option A → Out B → Prop
  | some v, r => ∃ w l, r = .ok w (h ++ l) ∧ R (h ++ l) v w
  | none, r => r = .noClause

mutual
/-- A lowered expression does what the expression means. -/
theorem eval_sim {env : Env} (hi : Inv m env D) (e : SExp) {G t} (he : ETy D G e t) :
    ∃ e', lowerE m e = some e' ∧ ∀ h s s', RelEnv m D h s s' G → Runs (fun h v w => Rel m D h v w t) h (evalS e s) (evalL e' s' h) := by
  match e, he with
  | .var x, .var hx =>
    refine ⟨_, rfl, fun h s s' hs => ?_⟩
    obtain ⟨v, w, h1, h2, h3⟩ := hs.lookup hx
    rw [evalS, evalL, h1, h2]
    exact ⟨w, [], by rw [List.append_nil], by rw [List.append_nil]; exact h3⟩
  | .prim k, .prim hn =>
    refine ⟨_, rfl, fun h s s' hs => ⟨.prim k, [], ?_, ?_⟩⟩
    · rw [evalL, List.append_nil]; rfl
    · exact .prim hn
  | .con id i args, .con (d := d) (fs := fs) hd hcon hargs =>
    obtain ⟨x, hx, hfit⟩ := hi.cov _ hd
    have hx' : m.get id = some x := hx
    obtain ⟨args', h1, hlen, h2⟩ := evals_sim hi args hargs
    -- the lowered application exists whatever the values of the arguments are
    have hex : ∃ e', x.toRt i args' = some e' := by
      cases x with
      | alias t =>
        simp only [Fits] at hfit
        rw [hfit] at hcon
        have := List.mem_of_getElem? hcon
        have hfs : fs = [t] := by simpa using this
        rw [hfs] at hlen
        obtain ⟨q, rfl⟩ := len_one hlen
        exact ⟨q, rfl⟩
      | boxedTagged id n b =>
        obtain ⟨q, hq⟩ := (body_rt_exists hfit.2.2 hcon hlen).2
        exact ⟨_, by rw [Expansion.toRt, hq]⟩
      | tagged id n b =>
        obtain ⟨q, hq⟩ := (body_rt_exists hfit.2.2 hcon hlen).1
        exact ⟨_, by rw [Expansion.toRt, hq]⟩
      | _ => exact ⟨_, rfl⟩
    obtain ⟨e', he'⟩ := hex
    refine ⟨e', by rw [lowerE, hx', h1]; exact he', fun h s s' hs => ?_⟩
    have h3 := h2 h s s' hs
    rw [evalS]
    cases hv : evalSs args s with
    | none =>
      rw [hv] at h3
      simp only [Runs] at h3
      simp only [Option.map_none, Runs]
      exact no_clause hfit hcon hlen he' h3
    | some vs =>
      rw [hv] at h3
      obtain ⟨ws, l, h4, h5⟩ := h3
      obtain ⟨e2, h6, w, l', h7, h8⟩ := builds hfit hcon hlen h4
      rw [he'] at h6
      cases h6
      refine ⟨w, l ++ l', by rw [h7, List.append_assoc], ?_⟩
      rw [← List.append_assoc]
      exact .con hd hcon hx' (h5.ext l') h8
  | .case e cs, .case he hcs =>
    obtain ⟨e', h1, h2⟩ := eval_sim hi e he
    obtain ⟨cs', h3, h4⟩ := clauses_sim hi cs hcs
    refine ⟨.case e' cs', by rw [lowerE, h1, h3], fun h s s' hs => ?_⟩
    have h5 := h2 h s s' hs
    rw [evalS, evalL]
    cases hv : evalS e s with
    | none =>
      rw [hv] at h5
      simp only [Runs] at h5 ⊢
      rw [h5]
    | some v =>
      rw [hv] at h5
      obtain ⟨w, l, h6, h7⟩ := h5
      rw [h6]
      have h8 := h4 (h ++ l) s s' v w (hs.ext l) h7
      cases hr : evalSc cs v s with
      | none =>
        simp only [hr, Runs] at h8 ⊢
        exact h8
      | some r =>
        simp only [hr] at h8 ⊢
        obtain ⟨w', l', h9, h10⟩ := h8
        exact ⟨w', l ++ l', by rw [← List.append_assoc]; exact h9, by rw [← List.append_assoc]; exact h10⟩
theorem evals_sim {env : Env} (hi : Inv m env D) (es : SExps) {G ts} (he : ETys D G es ts) :
    ∃ es', lowerEs m es = some es' ∧ es'.len = ts.length ∧
      ∀ h s s', RelEnv m D h s s' G → Runs (fun h v w => Rels m D h v w ts) h (evalSs es s) (evalLs es' s' h) := by
  match es, he with
  | .nil, .nil =>
    refine ⟨.nil, rfl, rfl, fun h s s' _ => ⟨[], [], ?_, .nil⟩⟩
    rw [evalLs, List.append_nil]
  | .cons e es, .cons he hes =>
    obtain ⟨e', h1, h2⟩ := eval_sim hi e he
    obtain ⟨es', h3, hlen, h4⟩ := evals_sim hi es hes
    refine ⟨.cons e' es', by rw [lowerEs, h1, h3], by simp [LExps.len, hlen], fun h s s' hs => ?_⟩
    have h5 := h2 h s s' hs
    rw [evalSs, evalLs]
    cases hv : evalS e s with
    | none =>
      rw [hv] at h5
      simp only [Runs] at h5 ⊢
      rw [h5]
    | some v =>
      rw [hv] at h5
      obtain ⟨w, l, h6, h7⟩ := h5
      rw [h6]
      have h8 := h4 (h ++ l) s s' (hs.ext l)
      cases hr : evalSs es s with
      | none =>
        simp only [hr, Option.map_none, Runs] at h8 ⊢
        rw [h8]
      | some r =>
        simp only [hr, Option.map_some] at h8 ⊢
        obtain ⟨ws, l', h9, h10⟩ := h8
        refine ⟨w :: ws, l ++ l', ?_, ?_⟩
        · rw [h9, List.append_assoc]
        · rw [← List.append_assoc]; exact .cons (h7.ext l') h10
theorem clauses_sim {env : Env} (hi : Inv m env D) (cs : SClauses) {G t t'} (hc : CTy D G cs t t') :
    ∃ cs', lowerCs m cs = some cs' ∧ ∀ h s s' v w, RelEnv m D h s s' G → Rel m D h v w t →
      Runs (fun h v w => Rel m D h v w t') h (evalSc cs v s) (evalLc cs' w s' h) := by
  match cs, hc with
  | .nil, .nil => exact ⟨.nil, rfl, fun h s s' v w _ _ => rfl⟩
  | .cons p e cs, .cons hp he hcs =>
    obtain ⟨p', h1⟩ := lowerP_some hi [] p hp
    obtain ⟨e', h2, h3⟩ := eval_sim hi e he
    obtain ⟨cs', h4, h5⟩ := clauses_sim hi cs hcs
    refine ⟨.cons p' e' cs', by rw [lowerCs, h1, h2, h4], fun h s s' v w hs hr => ?_⟩
    obtain ⟨p'', h6, h7⟩ := match_sim hi h p hp hr
    rw [h1] at h6
    cases h6
    rw [evalSc, evalLc]
    cases hm : matchS p v with
    | none =>
      rw [hm] at h7
      simp only [Agree] at h7
      rw [h7]
      exact h5 h s s' v w hs hr
    | some b =>
      rw [hm] at h7
      obtain ⟨b', h8, h9⟩ := h7
      rw [h8]
      exact h3 h (b ++ s) (b' ++ s') (h9.append hs)
end

/-! ## The types of the values -/

theorem enumConst_ty {defs : List (Nat × Def)} {h : List LV} (n i : Nat) : LTy m defs D h (enumConst n i).val (enumCt n) := by
  match n with
  | 0 => exact .unit
  | 1 => exact .unit
  | n + 2 => exact .int (Nat.mod_lt _ (Nat.two_pow_pos _))

theorem one_ty {defs : List (Nat × Def)} {h : List LV} {w : LV} {ts : List Ct} {t : Ct} (hl : LTys m defs D h [w] ts) (ht : ts = [t]) :
    LTy m defs D h w t := by
  subst ht
  cases hl with
  | cons h1 _ => exact h1

theorem body_ty {defs : List (Nat × Def)} {h : List LV} {b : Body} {cons : List (List Ct)} {i : Nat} {fs : List Ct} {ws w}
    (hf : BodyFits b cons) (hd : BodyDefs defs b cons) (hi : cons[i]? = some fs) (hl : LTys m defs D h ws fs) (hw : BodyIs b i ws w) :
    LTy m defs D h w b.toCt := by
  cases b with
  | alias i' t =>
    simp only [BodyIs] at hw
    by_cases hc : i = i'
    · subst hc
      rw [if_pos rfl] at hw
      subst hw
      rw [hf.1] at hi
      exact one_ty hl (Option.some.inj hi).symm
    · rw [if_neg hc] at hw; rw [hw.2]; exact .junk
  | struct i' id =>
    simp only [BodyIs] at hw
    by_cases hc : i = i'
    · subst hc
      rw [if_pos rfl] at hw
      subst hw
      obtain ⟨fs', h1, h2⟩ := hd
      rw [hi] at h1; cases h1
      exact .struct h2 hl
    · rw [if_neg hc] at hw; rw [hw.2]; exact .junk
  | union id ss =>
    obtain ⟨s, h1, rfl⟩ := hw
    exact .union hd.1 (List.mem_map.2 ⟨s, List.mem_of_getElem? h1, rfl⟩) (.struct (hd.2 i s fs h1 hi) hl)

theorem boxed_ty {defs : List (Nat × Def)} {h : List LV} {b : Body} {cons : List (List Ct)} {i : Nat} {fs : List Ct} {ws w}
    (hf : BodyFits b cons) (hd : BodyDefs defs b cons) (hi : cons[i]? = some fs) (hl : LTys m defs D h ws fs) (hw : BoxedIs h b i ws w) :
    LTy m defs D h w (.ptr b.toCt) := by
  cases b with
  | alias i' t =>
    simp only [BoxedIs] at hw
    by_cases hc : i = i'
    · rw [if_pos hc] at hw
      obtain ⟨a, v, rfl, h2, rfl⟩ := hw
      exact .ptr h2 (body_ty hf hd hi hl (by simp [BodyIs, hc]))
    · rw [if_neg hc] at hw; rw [hw.2]; exact .junk
  | struct i' id =>
    simp only [BoxedIs] at hw
    by_cases hc : i = i'
    · rw [if_pos hc] at hw
      obtain ⟨a, rfl, h2⟩ := hw
      exact .ptr h2 (body_ty hf hd hi hl (by simp [BodyIs, hc]))
    · rw [if_neg hc] at hw; rw [hw.2]; exact .junk
  | union id ss =>
    obtain ⟨a, s, rfl, h1, h2⟩ := hw
    exact .ptr h2 (body_ty hf hd hi hl ⟨s, h1, rfl⟩)

theorem is_ty {defs : List (Nat × Def)} {h : List LV} {x : Expansion} {cons : List (List Ct)} {i : Nat} {fs : List Ct} {ws w}
    (hf : Fits x cons) (hd : DefFits defs x cons) (hi : cons[i]? = some fs) (hl : LTys m defs D h ws fs) (hw : Is h x i ws w) :
    LTy m defs D h w x.toCt := by
  have hmem := List.mem_of_getElem? hi
  cases x with
  | unit => rw [hw.2]; exact .unit
  | enum n => rw [hw.2]; exact enumConst_ty n i
  | alias t =>
    simp only [Fits] at hf
    rw [hf] at hmem
    simp only [Is] at hw
    subst hw
    exact one_ty hl (by simpa [Expansion.toCt] using hmem)
  | boxedStruct id =>
    obtain ⟨a, rfl, h2⟩ := hw
    obtain ⟨fs', h1, h3⟩ := hd
    rw [h1] at hmem
    have : fs = fs' := by simpa using hmem
    subst this
    exact .ptr h2 (.struct h3 hl)
  | struct id =>
    simp only [Is] at hw
    subst hw
    obtain ⟨fs', h1, h3⟩ := hd
    rw [h1] at hmem
    have : fs = fs' := by simpa using hmem
    subst this
    exact .struct h3 hl
  | boxedTagged id n b =>
    obtain ⟨v, rfl, h2⟩ := hw
    exact .struct hd.1 (.cons (enumConst_ty n i) (.cons (boxed_ty hf.2.2 hd.2 hi hl h2) .nil))
  | tagged id n b =>
    obtain ⟨v, rfl, h2⟩ := hw
    exact .struct hd.1 (.cons (enumConst_ty n i) (.cons (body_ty hf.2.2 hd.2 hi hl h2) .nil))

mutual
theorem Rel.ty {e : Env} (hi : Inv m e D) {h : List LV} {v w t} (hr : Rel m D h v w t) : LTy m e.defs D h w t :=
  match hr with
  | .prim hn => .prim hn
  | .con h1 h2 h3 h4 h5 => by
    obtain ⟨x, hx, hfit⟩ := hi.cov _ h1
    obtain ⟨x', hx', hdef⟩ := hi.defd _ h1
    have e1 := h3.symm.trans hx
    have e2 := h3.symm.trans hx'
    cases e1
    cases e2
    exact .data h3 (is_ty hfit hdef h2 (Rels.ty hi h4) h5)
theorem Rels.ty {e : Env} (hi : Inv m e D) {h : List LV} {v w t} (hr : Rels m D h v w t) : LTys m e.defs D h w t :=
  match hr with
  | .nil => .nil
  | .cons h1 h2 => .cons (Rel.ty hi h1) (Rels.ty hi h2)
end

end

end Verif.DataExpander
