import Verif.Instances.Unify

/-! # What is built proves the constraint -/
namespace Verif.Instances

open Verif.Infer

theorem assoc_map {α β : Type} (f : α → β) : ∀ (gs : List Nat) (ts : List α) (h : Nat), assoc gs (ts.map f) h = (assoc gs ts h).map f
  | [], _, _ => by simp only [assoc, Option.map_none]
  | _ :: _, [], _ => rfl
  | g :: gs, t :: ts, h => by
    show (if h = g then some (f t) else assoc gs (ts.map f) h) = Option.map f (if h = g then some t else assoc gs ts h)
    split
    · rfl
    · exact assoc_map f gs ts h

theorem assoc_mem {α : Type} : ∀ {gs : List Nat} {ts : List α} {h : Nat}, h ∈ gs → ts.length = gs.length → ∃ t, assoc gs ts h = some t ∧ t ∈ ts
  | _ :: _, [], _, _, e => nomatch e
  | g :: gs, t :: ts, h, hm, e => by
    by_cases hg : h = g
    · exact ⟨t, if_pos hg, List.mem_cons_self ..⟩
    · obtain ⟨u, h1, h2⟩ := assoc_mem (gs := gs) (ts := ts) ((List.mem_cons.1 hm).resolve_left hg) (Nat.succ.inj e)
      exact ⟨u, (if_neg hg).trans h1, List.mem_cons_of_mem _ h2⟩

/-- Functions on types that respect instances of closed types. -/
def Hom (F : Ty → Ty) : Prop := ∀ (t : Ty) (gs : List Nat) (tys : List Ty), Written (· ∈ gs) t → tys.length = gs.length → F (t.inst (assoc gs tys)) = t.inst (assoc gs (tys.map F))

mutual
theorem inst_subst_closed {τ : Nat → Ty} {gs : List Nat} {tys : List Ty} (e : tys.length = gs.length) : ∀ {t : Ty}, t.All (fun _ => False) (fun g _ => g ∈ gs) →
    (t.inst (assoc gs tys)).subst τ = t.inst (assoc gs (tys.map (Ty.subst τ)))
  | .con _, _ => rfl
  | .app _ _, h => congrArg₂ Ty.app (inst_subst_closed e h.1) (insts_subst_closed e h.2)
  | .gen g l, h => by
    show ((assoc gs tys g).getD _).subst τ = (assoc gs (tys.map (Ty.subst τ)) g).getD _
    obtain ⟨t, h1, _⟩ := assoc_mem h e
    rw [assoc_map, h1]; rfl
  | .unk _, h => h.elim
theorem insts_subst_closed {τ : Nat → Ty} {gs : List Nat} {tys : List Ty} (e : tys.length = gs.length) : ∀ {t : Tys}, t.All (fun _ => False) (fun g _ => g ∈ gs) →
    (t.inst (assoc gs tys)).subst τ = t.inst (assoc gs (tys.map (Ty.subst τ)))
  | .nil, _ => rfl
  | .cons _ _, h => congrArg₂ Tys.cons (inst_subst_closed e h.1) (insts_subst_closed e h.2)
end

mutual
theorem inst_inst_closed {m : Nat → Option Ty} {gs : List Nat} {tys : List Ty} (e : tys.length = gs.length) : ∀ {t : Ty}, t.All (fun _ => False) (fun g _ => g ∈ gs) →
    (t.inst (assoc gs tys)).inst m = t.inst (assoc gs (tys.map (Ty.inst m)))
  | .con _, _ => rfl
  | .app _ _, h => congrArg₂ Ty.app (inst_inst_closed e h.1) (insts_inst_closed e h.2)
  | .gen g l, h => by
    show ((assoc gs tys g).getD _).inst m = (assoc gs (tys.map (Ty.inst m)) g).getD _
    obtain ⟨t, h1, _⟩ := assoc_mem h e
    rw [assoc_map, h1]; rfl
  | .unk _, h => h.elim
theorem insts_inst_closed {m : Nat → Option Ty} {gs : List Nat} {tys : List Ty} (e : tys.length = gs.length) : ∀ {t : Tys}, t.All (fun _ => False) (fun g _ => g ∈ gs) →
    (t.inst (assoc gs tys)).inst m = t.inst (assoc gs (tys.map (Ty.inst m)))
  | .nil, _ => rfl
  | .cons _ _, h => congrArg₂ Tys.cons (inst_inst_closed e h.1) (insts_inst_closed e h.2)
end

theorem hom_subst (τ : Nat → Ty) : Hom (Ty.subst τ) := fun _ _ _ h e => inst_subst_closed e h
theorem hom_inst (m : Nat → Option Ty) : Hom (Ty.inst m) := fun _ _ _ h e => inst_inst_closed e h
theorem hom_flat : Hom Ty.flat := hom_inst _
theorem Hom.comp {F G : Ty → Ty} (hF : Hom F) (hG : Hom G) : Hom (F ∘ G) := fun t gs tys h e => by
  show F (G _) = _
  rw [hG t gs tys h e, hF t gs _ h (by rw [List.length_map]; exact e), List.map_map]

theorem Goal.map_closed {F : Ty → Ty} (hF : Hom F) {g : Goal} {gs : List Nat} {tys : List Ty} (h : g.Closed gs) (e : tys.length = gs.length) :
    (g.inst (assoc gs tys)).map F = g.inst (assoc gs (tys.map F)) := by
  show (⟨_, _⟩ : Goal) = ⟨_, _⟩
  congr 1
  show (g.args.map _).map F = g.args.map _
  rw [List.map_map]
  exact List.map_congr_left fun t ht => hF t gs tys (h t ht) e

theorem Goal.map_map (F G : Ty → Ty) (g : Goal) : (g.map G).map F = g.map (F ∘ G) := by simp only [Goal.map, List.map_map]

variable {W : World} {ar : Nat → Nat}

theorem Goal.Arity.map {F : Ty → Ty} {g : Goal} (h : g.Arity ar) : (g.map F).Arity ar := by
  show (g.args.map F).length = _; rw [List.length_map]; exact h

theorem Sup.arity (ha : W.Arity ar) {g d : Goal} {p : List Nat} (h : Sup W g p d) : g.Arity ar → d.Arity ar := by
  induction h with
  | here => exact id
  | up hk hc _ ih => exact fun _ => ih (((ha.cls _ _ hk).2 _ hc).map)

theorem Sup.map {F : Ty → Ty} (hF : Hom F) (ok : W.OK) (ha : W.Arity ar) {g d : Goal} {p : List Nat} (h : Sup W g p d) : g.Arity ar → Sup W (g.map F) p (d.map F) := by
  induction h with
  | here => exact fun _ => .here _
  | @up g d p k c hk hc _ ih =>
    intro hg
    refine .up (k := k) (c := c) hk hc ?_
    have := ih (((ha.cls _ _ hk).2 _ hc).map)
    rwa [Goal.map_closed hF (ok.sup _ _ hk _ hc) (hg.trans (ha.cls _ _ hk).1.symm)] at this

/-! ### Premises -/

theorem concat_mem {α β : Type} {f : α → Option (List β)} : ∀ {as : List α} {l : List β}, concat f as = some l → ∀ b, b ∈ l ↔ ∃ a ∈ as, ∃ x, f a = some x ∧ b ∈ x
  | [], l, h, b => by cases h; simp
  | a :: as, l, h, b => by
    simp only [concat, Option.bind_eq_bind, Option.bind_eq_some_iff] at h
    obtain ⟨xs, h1, ys, h2, h3⟩ := h
    cases h3
    rw [List.mem_append, concat_mem h2 b]
    constructor
    · rintro (h | ⟨c, hc, x, hx, hb⟩)
      · exact ⟨a, List.mem_cons_self .., xs, h1, h⟩
      · exact ⟨c, List.mem_cons_of_mem _ hc, x, hx, hb⟩
    · rintro ⟨c, hc, x, hx, hb⟩
      rcases List.mem_cons.1 hc with rfl | hc
      · rw [h1] at hx; cases hx; exact .inl hb
      · exact .inr ⟨c, hc, x, hx, hb⟩

theorem concat_some {α β : Type} {f : α → Option (List β)} : ∀ {as : List α} {l : List β}, concat f as = some l → ∀ a ∈ as, ∃ x, f a = some x
  | a :: as, l, h, b, hb => by
    simp only [concat, Option.bind_eq_bind, Option.bind_eq_some_iff] at h
    obtain ⟨xs, h1, ys, h2, h3⟩ := h
    rcases List.mem_cons.1 hb with rfl | hb
    · exact ⟨xs, h1⟩
    · exact concat_some h2 b hb

/-- The premises that come from a constraint are it and its superclasses. -/
theorem install_iff : ∀ (k : Nat) (id : Nat) (path : List Nat) (g : Goal) {es : List Entry}, install W k id path g = some es →
    ∀ e, e ∈ es ↔ ∃ p, e.id = id ∧ e.path = path ++ p ∧ Sup W g p e.goal
  | 0, _, _, _, _, h, _ => nomatch h
  | k + 1, id, path, g, es, h, e => by
    simp only [install, Option.bind_eq_bind, Option.bind_eq_some_iff] at h
    obtain ⟨c, hc, xs, hx, h⟩ := h
    cases h
    rw [List.mem_append, concat_mem hx, List.mem_singleton]
    constructor
    · rintro (⟨s, hs, x, h1, h2⟩ | rfl)
      · obtain ⟨p, e1, e2, e3⟩ := (install_iff k id _ _ h1 e).1 h2
        exact ⟨s.id :: p, e1, by rw [e2, List.append_assoc]; rfl, .up hc hs e3⟩
      · exact ⟨[], rfl, (List.append_nil _).symm, .here _⟩
    · rintro ⟨p, e1, e2, e3⟩
      generalize hd : e.goal = d at e3
      cases e3 with
      | here =>
        refine .inr ?_
        obtain ⟨i, q, d⟩ := e
        cases e1; cases hd
        congr 1
        exact e2.trans (List.append_nil _)
      | up hk hs h' =>
        rw [hc] at hk; cases hk
        obtain ⟨x, h1⟩ := concat_some hx _ hs
        exact .inl ⟨_, hs, x, h1, (install_iff k id _ _ h1 e).2 ⟨_, e1, by rw [e2, List.append_assoc]; rfl, by rw [hd]; exact h'⟩⟩

theorem installs_iff {k : Nat} {P : List Con} {E : List Entry} (h : installs W k P = some E) (e : Entry) : e ∈ E ↔ ∃ c ∈ P, e.id = c.id ∧ Sup W c.goal e.path e.goal := by
  rw [concat_mem h]
  constructor
  · rintro ⟨c, hc, x, h1, h2⟩
    obtain ⟨p, e1, e2, e3⟩ := (install_iff k _ _ _ h1 e).1 h2
    exact ⟨c, hc, e1, by rw [e2]; exact e3⟩
  · rintro ⟨c, hc, e1, e2⟩
    obtain ⟨x, h1⟩ := concat_some h c hc
    exact ⟨c, hc, x, h1, (install_iff k _ _ _ h1 e).2 ⟨e.path, e1, rfl, e2⟩⟩

/-! ### Satisfactions -/

/-- The substitution is of a later time. -/
def Later (s : St) (τ : Nat → Ty) : Prop := ∀ v, (s.σ v).subst τ = τ v

theorem Later.subst {s : St} {τ : Nat → Ty} (h : Later s τ) (t : Ty) : (t.subst s.σ).subst τ = t.subst τ := by
  rw [Ty.subst_subst]; exact Ty.subst_congr (t.all_top.imp (fun v _ => h v) fun _ _ h => h)

theorem Later.of_ext {s s' : St} {τ : Nat → Ty} (h : Later s' τ) (e : Ext s s') : Later s τ := fun v => by
  rw [← h v, ← e.sub v, h.subst]

theorem Ext.later {s s' : St} (h : Ext s s') : Later s s'.σ := h.sub

mutual
theorem flat_subst (τ : Nat → Ty) : ∀ t : Ty, (t.subst τ).inst (fun g => some (.gen g 0)) = (t.inst fun g => some (.gen g 0)).subst fun v => Ty.flat (τ v)
  | .con _ => rfl
  | .app f as => congrArg₂ Ty.app (flat_subst τ f) (flats_subst τ as)
  | .gen _ _ => rfl
  | .unk _ => rfl
theorem flats_subst (τ : Nat → Ty) : ∀ t : Tys, (t.subst τ).inst (fun g => some (.gen g 0)) = (t.inst fun g => some (.gen g 0)).subst fun v => Ty.flat (τ v)
  | .nil => rfl
  | .cons t ts => congrArg₂ Tys.cons (flat_subst τ t) (flats_subst τ ts)
end

/-- The types in the end: a later substitution, and levels are forgotten. -/
def fin (τ : Nat → Ty) (t : Ty) : Ty := Ty.flat (t.subst τ)

theorem hom_fin (τ : Nat → Ty) : Hom (fin τ) := hom_flat.comp (hom_subst τ)

theorem equal_fin {s : St} {τ : Nat → Ty} (h : Later s τ) {a b : Ty} (e : equal s a b = true) : fin τ a = fin τ b := by
  have e' := of_decide_eq_true e
  unfold fin
  rw [← h.subst a, ← h.subst b]
  exact (flat_subst τ (a.subst s.σ)).trans ((congrArg (Ty.subst _) e').trans (flat_subst τ (b.subst s.σ)).symm)

theorem equals_fin {s : St} {τ : Nat → Ty} (h : Later s τ) : ∀ {as bs : List Ty}, as.length = bs.length → equals s as bs = true → as.map (fin τ) = bs.map (fin τ)
  | [], [], _, _ => rfl
  | [], _ :: _, e, _ => nomatch e
  | _ :: _, [], e, _ => nomatch e
  | a :: as, b :: bs, e, h' => by
    rw [equals, Bool.and_eq_true] at h'
    exact congrArg₂ List.cons (equal_fin h h'.1) (equals_fin h (Nat.succ.inj e) h'.2)

/-- What a search gives. -/
structure Found (W : World) (P : List Con) (s s' : St) (r : Option Sat) (g : Goal) : Prop where
  wf : WF s'
  ext : Ext s s'
  sat : ∀ S, r = some S → ∀ τ, Later s' τ → Proves W (P.map (Con.map (fin τ))) (S.map (fin τ)) (g.map (fin τ))

structure FoundAll (W : World) (P : List Con) (s s' : St) (r : Option Sats) (gs : List Goal) : Prop where
  wf : WF s'
  ext : Ext s s'
  sat : ∀ S, r = some S → ∀ τ, Later s' τ → ProvesAll W (P.map (Con.map (fin τ))) (S.map (fin τ)) (gs.map (Goal.map (fin τ)))

def Goal.In (s : St) (g : Goal) : Prop := ∀ t ∈ g.args, Instances.In s t

theorem allOf_ok {P : List Con} {f : Goal → St → Option (Option Sat × St)}
    (hf : ∀ g s r s', f g s = some (r, s') → WF s → g.In s → g.Arity ar → Found W P s s' r g) : ∀ (gs : List Goal) {s s' : St} {r : Option Sats}, allOf f gs s = some (r, s') → WF s →
      (∀ g ∈ gs, g.In s ∧ g.Arity ar) → FoundAll W P s s' r gs
  | [], s, s', r, h, w, _ => by
    obtain ⟨rfl, rfl⟩ := Prod.mk.inj (Option.some.inj h)
    exact ⟨w, .refl w, fun S e τ _ => by cases e; rfl⟩
  | g :: gs, s, s', r, h, w, hi => by
    have ⟨i1, a1⟩ := hi g (List.mem_cons_self ..)
    rw [allOf] at h
    split at h
    · rename_i x s1 h1
      have f1 := hf g s _ _ h1 w i1 a1
      have rest : ∀ g ∈ gs, g.In s1 ∧ g.Arity ar := fun g hg => ⟨fun t ht => ((hi g (List.mem_cons_of_mem _ hg)).1 t ht).ext f1.ext f1.wf, (hi g (List.mem_cons_of_mem _ hg)).2⟩
      split at h
      · rename_i xs s2 h2
        obtain ⟨rfl, rfl⟩ := Prod.mk.inj (Option.some.inj h)
        have f2 := allOf_ok hf gs h2 f1.wf rest
        refine ⟨f2.wf, f1.ext.trans f2.ext, fun S e τ hτ => ?_⟩
        cases e
        exact ⟨_, _, rfl, f1.sat _ rfl τ (hτ.of_ext f2.ext), f2.sat _ rfl τ hτ⟩
      · rename_i hr
        have f2 := allOf_ok hf gs h f1.wf rest
        refine ⟨f2.wf, f1.ext.trans f2.ext, fun S e τ hτ => ?_⟩
        cases e
        exact absurd h (hr _ _)
    · rename_i s1 h1
      obtain ⟨rfl, rfl⟩ := Prod.mk.inj (Option.some.inj h)
      have f1 := hf g s _ _ h1 w i1 a1
      exact ⟨f1.wf, f1.ext, fun _ e => nomatch e⟩
    · exact nomatch h

theorem newVars_ext {s : St} (w : WF s) (k lv : Nat) : Ext s (newVars k lv s).2 :=
  have g := newVars_grow (B := 0) (A := fun _ _ => True) (Q := fun _ _ => True) k w lv
  ⟨g.n, g.ext⟩

theorem newVars_in {s : St} (w : WF s) (k lv : Nat) : ∀ t ∈ (newVars k lv s).1, In (newVars k lv s).2 t := fun t ht =>
  Ty.All.imp (fun _ h => h.1) (fun _ _ _ => trivial) (newVars_fit (B := 0) k w lv (fun _ => True) t ht)

theorem In.inst {s : St} {gs : List Nat} {tys : List Ty} {t : Ty} (h : Written (· ∈ gs) t) (e : tys.length = gs.length) (hi : ∀ t ∈ tys, In s t) : In s (t.inst (assoc gs tys)) := by
  unfold In
  rw [inst_subst_closed e h, Ty.all_inst]
  refine Ty.All.imp (fun _ h => h.elim) (fun g l hg => ?_) h
  obtain ⟨u, h1, h2⟩ := assoc_mem hg e
  rw [assoc_map, h1]
  exact hi u h2

theorem tryInsts_ok {k : Nat} {P : List Con} {f : Goal → St → Option (Option Sat × St)} (ok : W.OK) (ha : W.Arity ar)
    (hf : ∀ g s r s', f g s = some (r, s') → WF s → g.In s → g.Arity ar → Found W P s s' r g) : ∀ (is : List Nat) (g : Goal) {s s' : St} {r : Option Sat},
      tryInsts k W f is g s = some (r, s') → (∀ i ∈ is, i ∈ W.avail g.cls) → WF s → g.In s → g.Arity ar → Found W P s s' r g
  | [], g, s, s', r, h, _, w, _, _ => by
    obtain ⟨rfl, rfl⟩ := Prod.mk.inj (Option.some.inj h)
    exact ⟨w, .refl w, fun _ e => nomatch e⟩
  | i :: is, g, s, s', r, h, hi, w, ig, ag => by
    have ii := hi i (List.mem_cons_self ..)
    have w1 := newVars_wf (W.inst i).gs.length w bottom
    have x1 := newVars_ext w (W.inst i).gs.length bottom
    have n1 := newVars_in w (W.inst i).gs.length bottom
    have l1 := newVars_length (W.inst i).gs.length s bottom
    simp only [tryInsts] at h
    generalize newVars (W.inst i).gs.length bottom s = p at h w1 x1 n1 l1
    obtain ⟨tys, s1⟩ := p
    dsimp only at h w1 x1 n1 l1
    have inG : ∀ {c : Goal}, c.Closed (W.inst i).gs → (c.inst (assoc (W.inst i).gs tys)).In s1 := fun hc t ht => by
      obtain ⟨u, hu, rfl⟩ := List.mem_map.1 ht
      exact In.inst (hc u hu) l1 n1
    have len : (((W.inst i).target.inst (assoc (W.inst i).gs tys)).args).length = g.args.length := by
      have a1 : (W.inst i).target.args.length = ar (W.inst i).target.cls := (ha.inst i).1
      have a2 : g.args.length = ar g.cls := ag
      rw [ok.avail _ _ ii] at a1
      show (List.map _ _).length = _
      rw [List.length_map, a1, a2]
    split at h
    · rename_i s2 h2
      have d := uniList_ok _ _ h2 w1 (inG (ok.target i)) (fun t ht => (ig t ht).ext x1 w1) len
      have inC : ∀ c ∈ (W.inst i).ctx.map (fun c => c.goal.inst (assoc (W.inst i).gs tys)), c.In s2 ∧ c.Arity ar := fun c hc => by
        obtain ⟨c, h', rfl⟩ := List.mem_map.1 hc
        exact ⟨fun t ht => (inG (ok.ctx i c h') t ht).ext d.ext d.wf, Goal.Arity.map ((ha.inst i).2 c h')⟩
      split at h
      · rename_i ss s3 h3
        obtain ⟨rfl, rfl⟩ := Prod.mk.inj (Option.some.inj h)
        have fa := allOf_ok hf _ h3 d.wf inC
        refine ⟨fa.wf, (x1.trans d.ext).trans fa.ext, fun S e τ hτ => ?_⟩
        cases e
        have pa := fa.sat _ rfl τ hτ
        rw [List.map_map] at pa
        refine ⟨ii, by rw [List.length_map]; exact l1, ?_, ?_⟩
        · rw [← Goal.map_closed (hom_fin τ) (ok.target i) l1]
          show (⟨_, _⟩ : Goal) = ⟨_, _⟩
          rw [show ((W.inst i).target.inst (assoc (W.inst i).gs tys)).cls = g.cls from ok.avail _ _ ii]
          congr 1
          have q := congrArg (List.map (fin τ)) (d.eq rfl)
          have hτ2 := hτ.of_ext fa.ext
          simp only [List.map_map] at q
          have cl : ∀ t : Ty, fin τ (t.subst s2.σ) = fin τ t := fun t => by unfold fin; rw [hτ2.subst]
          have fe : (fin τ ∘ Ty.subst s2.σ) = fin τ := funext cl
          rw [fe] at q
          exact q
        · rw [show (List.map (fun c => c.goal.inst (assoc (W.inst i).gs (tys.map (fin τ)))) (W.inst i).ctx) =
            List.map (Goal.map (fin τ) ∘ fun c => c.goal.inst (assoc (W.inst i).gs tys)) (W.inst i).ctx from
              List.map_congr_left fun c hc => (Goal.map_closed (hom_fin τ) (ok.ctx i c hc) l1).symm]
          exact pa
      · rename_i s3 h3
        obtain ⟨rfl, rfl⟩ := Prod.mk.inj (Option.some.inj h)
        have fa := allOf_ok hf _ h3 d.wf inC
        exact ⟨fa.wf, (x1.trans d.ext).trans fa.ext, fun _ e => nomatch e⟩
      · exact nomatch h
    · rename_i s2 h2
      have d := uniList_ok _ _ h2 w1 (inG (ok.target i)) (fun t ht => (ig t ht).ext x1 w1) len
      have rest := tryInsts_ok ok ha hf is g h (fun j hj => hi j (List.mem_cons_of_mem _ hj)) d.wf (fun t ht => ((ig t ht).ext x1 w1).ext d.ext d.wf) ag
      exact ⟨rest.wf, (x1.trans d.ext).trans rest.ext, rest.sat⟩
    · exact nomatch h

theorem build_ok {k : Nat} {P : List Con} {E : List Entry} (ok : W.OK) (ha : W.Arity ar) (hP : ∀ c ∈ P, c.goal.Arity ar) (hE : ∀ e ∈ E, ∃ c ∈ P, e.id = c.id ∧ Sup W c.goal e.path e.goal) :
    ∀ (d : Nat) (g : Goal) (s : St) (r : Option Sat) (s' : St), build k W E d g s = some (r, s') → WF s → g.In s → g.Arity ar → Found W P s s' r g
  | 0, g, s, r, s', h, w, _, _ => by
    obtain ⟨rfl, rfl⟩ := Prod.mk.inj (Option.some.inj h)
    exact ⟨w, .refl w, fun _ e => nomatch e⟩
  | d + 1, g, s, r, s', h, w, ig, ag => by
    rw [build] at h
    split at h
    · rename_i e he
      obtain ⟨rfl, rfl⟩ := Prod.mk.inj (Option.some.inj h)
      refine ⟨w, .refl w, fun S eS τ hτ => ?_⟩
      cases eS
      have hc := List.find?_some he
      rw [Bool.and_eq_true, beq_iff_eq] at hc
      obtain ⟨c, hcP, e1, e2⟩ := hE e (List.mem_of_find?_eq_some he)
      refine ⟨c.map (fin τ), List.mem_map_of_mem hcP, e1.symm, ?_⟩
      have := e2.map (hom_fin τ) ok ha (hP c hcP)
      have len : e.goal.args.length = g.args.length := by
        have a1 : e.goal.args.length = ar e.goal.cls := e2.arity ha (hP c hcP)
        rw [a1, hc.1]; exact (show g.args.length = ar g.cls from ag).symm
      rwa [show e.goal.map (fin τ) = g.map (fin τ) from by
        show (⟨_, _⟩ : Goal) = ⟨_, _⟩
        rw [hc.1, equals_fin hτ len hc.2]] at this
    · exact tryInsts_ok ok ha (build_ok ok ha hP hE d) _ g h (fun _ h => h) w ig ag

end Verif.Instances
