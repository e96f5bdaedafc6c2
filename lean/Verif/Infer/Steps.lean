import Verif.Infer.Base

/-! # What the steps of type inference keep -/
namespace Verif.Infer

/-- Types in use, as schemes: those of the environment, of the function around, and those inferred so far. -/
abbrev Roots := Sch → Prop

def Roots.add (R : Roots) (sc : Sch) : Roots := fun x => x = sc ∨ R x

/-- Neither these unknown types nor these type parameters are free in a scheme. -/
def AvS (s : St) (X : Nat → Prop) (Y : Nat → Nat → Prop) (sc : Sch) : Prop := Av s X (fun g l => Y g l ∧ g ∉ sc.gs) sc.t

def AvR (s : St) (R : Roots) (X : Nat → Prop) (Y : Nat → Nat → Prop) : Prop := ∀ sc, R sc → AvS s X Y sc

/-- The type parameters of a scheme that the inference made. -/
def own (B : Nat) (sc : Sch) : Nat → Nat → Prop := fun g _ => g ∈ sc.gs ∧ B ≤ g

def none' : Nat → Prop := fun _ => False

def no : Nat → Nat → Prop := fun _ _ => False

/-- The types in use are known up to level `K`, and the parameters of a scheme are not in other types. -/
structure Inv (B K : Nat) (R : Roots) (s : St) : Prop where
  wf : WF s
  base : B ≤ s.g
  fit : ∀ sc, R sc → Fit B s K (· ∈ sc.gs) sc.t
  bound : ∀ sc, R sc → ∀ g ∈ sc.gs, g < s.g
  sch : ∀ sc, R sc → (sc.t.All (fun _ => False) fun _ _ => True) ∨ ∀ g ∈ sc.gs, B ≤ g
  sep : ∀ sc, R sc → AvR s R none' (own B sc)

theorem Inv.adm {B K : Nat} {A : Nat → Nat → Prop} {R : Roots} {s : St} (h : Inv B K R s) {sc : Sch} (hs : R sc) : Adm B A s none' (own B sc) :=
  ⟨fun _ h => h.elim, fun g _ hg => .inl ⟨hg.2, h.bound sc hs g hg.1⟩⟩

theorem AvR.grow {B : Nat} {A : Nat → Nat → Prop} {Q : (Nat → Prop) → (Nat → Nat → Prop) → Prop} {R : Roots} {s s' : St} {X : Nat → Prop} {Y : Nat → Nat → Prop} (g : Grow B A Q s s') (ha : Adm B A s X Y) (hq : Q X Y) (h : AvR s R X Y) :
    AvR s' R X Y := fun sc hs => g.av X Y ha hq _ (fun _ _ h => h.1) _ (h sc hs)

theorem Inv.grow {B K : Nat} {A : Nat → Nat → Prop} {R : Roots} {s s' : St} (h : Inv B K R s) (hw : WF s') (g : Grow B A (AvR s R) s s') : Inv B K R s' where
  wf := hw
  base := Nat.le_trans h.base g.g
  fit sc hs := g.fit _ _ _ (h.fit sc hs)
  bound sc hs q hq := Nat.lt_of_lt_of_le (h.bound sc hs q hq) g.g
  sch := h.sch
  sep sc hs := AvR.grow g (h.adm hs) (h.sep sc hs) (h.sep sc hs)

theorem Inv.sub {B K : Nat} {R R' : Roots} {s : St} (h : Inv B K R s) (hr : ∀ sc, R' sc → R sc) : Inv B K R' s :=
  ⟨h.wf, h.base, fun sc hs => h.fit sc (hr sc hs), fun sc hs => h.bound sc (hr sc hs), fun sc hs => h.sch sc (hr sc hs), fun sc hs sc' hs' => h.sep sc (hr sc hs) sc' (hr sc' hs')⟩

theorem Inv.lift {B K K' : Nat} {R : Roots} {s : St} (h : Inv B K R s) (hk : K ≤ K') : Inv B K' R s :=
  ⟨h.wf, h.base, fun sc hs => (h.fit sc hs).mono hk fun _ h => h, h.bound, h.sch, h.sep⟩

/-- A type made of the types in use. -/
structure Made (B : Nat) (A : Nat → Nat → Prop) (K : Nat) (R : Roots) (s : St) (t : Ty) : Prop where
  fit : Fit B s K none' t
  av : ∀ X Y, Adm B A s X Y → AvR s R X Y → Av s X Y t

theorem Made.root {B K : Nat} {A : Nat → Nat → Prop} {R : Roots} {s : St} {t : Ty} (h : Inv B K R s) (ht : R (mono t)) : Made B A K R s t :=
  ⟨(h.fit _ ht).mono (Nat.le_refl _) (fun _ h => by cases h), fun _ _ _ hr => (hr _ ht).mono (fun _ h => h) fun _ _ h => ⟨h, fun h => by cases h⟩⟩

theorem Made.arrow {B K : Nat} {A : Nat → Nat → Prop} {R : Roots} {s : St} {ts : List Ty} {r : Ty} (hts : ∀ t ∈ ts, Made B A K R s t) (hr : Made B A K R s r) : Made B A K R s (arrow ts r) := by
  constructor
  · unfold Fit
    rw [arrow_subst, arrow_all]
    exact ⟨fun t ht => by obtain ⟨u, hu, rfl⟩ := List.mem_map.1 ht; exact (hts u hu).fit, hr.fit⟩
  · intro X Y ha hx
    unfold Av
    rw [arrow_subst, arrow_all]
    exact ⟨fun t ht => by obtain ⟨u, hu, rfl⟩ := List.mem_map.1 ht; exact (hts u hu).av X Y ha hx, hr.av X Y ha hx⟩

theorem Made.unarrow {B K : Nat} {A : Nat → Nat → Prop} {R : Roots} {s : St} {ts : List Ty} {r : Ty} (h : Made B A K R s (Infer.arrow ts r)) : (∀ t ∈ ts, Made B A K R s t) ∧ Made B A K R s r := by
  obtain ⟨h1, h2⟩ := h
  unfold Fit at h1
  unfold Av at h2
  simp only [arrow_subst, arrow_all] at h1 h2
  exact ⟨fun t ht => ⟨h1.1 _ (List.mem_map_of_mem ht), fun X Y ha hx => (h2 X Y ha hx).1 _ (List.mem_map_of_mem ht)⟩, ⟨h1.2, fun X Y ha hx => (h2 X Y ha hx).2⟩⟩

theorem Made.closed {B K : Nat} {A : Nat → Nat → Prop} {R : Roots} {s : St} {t : Ty} (hb : B ≤ s.g) (ht : t.All (fun _ => False) fun g l => g < B ∧ l < K ∧ ¬ A g l) : Made B A K R s t := by
  have e : t.subst s.σ = t := Ty.subst_none ht
  refine ⟨?_, fun X Y ha _ => ?_⟩
  · unfold Fit
    rw [e]
    exact ht.imp (fun _ h => h.elim) fun g l h => ⟨by omega, .inr (.inr h.2.1)⟩
  · unfold Av
    rw [e]
    exact ht.imp (fun _ h => h.elim) fun g l h hy => (ha.y g l hy).elim (fun h' => by omega) fun h' => h.2.2 h'.2

theorem Made.const {B K : Nat} {A : Nat → Nat → Prop} {R : Roots} {s : St} {t : Ty} (hb : B ≤ s.g) (ht : Const t) : Made B A K R s t :=
  .closed hb (Ty.All.imp (fun _ h => h) (fun _ _ h => h.elim) ht)

theorem Made.congr {B K : Nat} {A : Nat → Nat → Prop} {R : Roots} {s : St} {a b : Ty} (e : a.subst s.σ = b.subst s.σ) (h : Made B A K R s a) : Made B A K R s b :=
  ⟨h.fit.congr e, fun X Y ha hx => (h.av X Y ha hx).congr e⟩

theorem Made.sub {B K : Nat} {A : Nat → Nat → Prop} {R R' : Roots} {s : St} {t : Ty} (h : Made B A K R s t) (hr : ∀ sc, R sc → R' sc) : Made B A K R' s t :=
  ⟨h.fit, fun X Y ha hx => h.av X Y ha fun sc hs => hx sc (hr sc hs)⟩

/-- A step of type inference; `spec` is what it promises for the types in the end. -/
structure Ok (B : Nat) (A : Nat → Nat → Prop) (K : Nat) (R : Roots) (s : St) (R' : Roots) (s' : St) (spec : St → Prop) : Prop where
  grow : Grow B A (AvR s R) s s'
  inv : Inv B K R' s'
  sub : ∀ sc, R sc → R' sc
  av : ∀ X Y, Adm B A s X Y → AvR s R X Y → AvR s' R' X Y
  ty : ∀ sf, Grow B no (AvR s' R') s' sf → spec sf

theorem Ok.bind {B K : Nat} {A : Nat → Nat → Prop} {R R1 R2 : Roots} {s s1 s2 : St} {p q : St → Prop} (h1 : Ok B A K R s R1 s1 p) (h2 : Ok B A K R1 s1 R2 s2 q) : Ok B A K R s R2 s2 fun sf => p sf ∧ q sf where
  grow := h1.grow.trans h2.grow h1.av
  inv := h2.inv
  sub sc hs := h2.sub sc (h1.sub sc hs)
  av X Y ha hx := h2.av X Y (ha.grow h1.grow) (h1.av X Y ha hx)
  ty sf g := ⟨h1.ty sf ((h2.grow.less fun _ _ h => h.elim).trans g fun X Y ha => h2.av X Y (ha.weaken fun _ _ h => h.elim)), h2.ty sf g⟩

theorem Ok.imp {B K : Nat} {A : Nat → Nat → Prop} {R R1 : Roots} {s s1 : St} {p q : St → Prop} (h : Ok B A K R s R1 s1 p) (hpq : ∀ sf, p sf → q sf) : Ok B A K R s R1 s1 q :=
  ⟨h.grow, h.inv, h.sub, h.av, fun sf g => hpq sf (h.ty sf g)⟩

/-- The promise may use what is the case afterwards. -/
theorem Ok.with {B K : Nat} {A : Nat → Nat → Prop} {R R1 : Roots} {s s1 : St} {p q : St → Prop} (h : Ok B A K R s R1 s1 p) (hpq : ∀ sf, Grow B no (AvR s1 R1) s1 sf → p sf → q sf) : Ok B A K R s R1 s1 q :=
  ⟨h.grow, h.inv, h.sub, h.av, fun sf g => hpq sf g (h.ty sf g)⟩

theorem Ok.drop {B K : Nat} {A : Nat → Nat → Prop} {R R1 R2 : Roots} {s s1 : St} {p : St → Prop} (h : Ok B A K R s R1 s1 p) (h1 : ∀ sc, R sc → R2 sc) (h2 : ∀ sc, R2 sc → R1 sc) : Ok B A K R s R2 s1 p :=
  ⟨h.grow, h.inv.sub h2, h1, fun X Y ha hx sc hs => h.av X Y ha hx sc (h2 sc hs), fun sf g => h.ty sf (g.weaken fun _ _ _ hx sc hs => hx sc (h2 sc hs))⟩

/-- Back to the level outside. -/
theorem Ok.lower {B K K' : Nat} {A A' : Nat → Nat → Prop} {R R1 : Roots} {s s1 : St} {p : St → Prop} (h : Ok B A' K' R s R1 s1 p) (hi : Inv B K R s) (hA : ∀ g l, A g l → A' g l) : Ok B A K R s R s1 p :=
  ⟨h.grow.less hA, hi.grow h.inv.wf h.grow, fun _ h => h, fun X Y ha hx sc hs => h.av X Y (ha.weaken hA) hx sc (h.sub sc hs), fun sf g => h.ty sf (g.weaken fun _ _ _ hx sc hs => hx sc (h.sub sc hs))⟩

theorem Ok.refl {B K : Nat} {A : Nat → Nat → Prop} {R : Roots} {s : St} (h : Inv B K R s) : Ok B A K R s R s fun _ => True :=
  ⟨.refl h.wf, h, fun _ h => h, fun _ _ _ h => h, fun _ _ => trivial⟩

/-- A type made of the types in use comes into use. -/
theorem Ok.made {B K : Nat} {A : Nat → Nat → Prop} {R : Roots} {s : St} {t : Ty} (h : Inv B K R s) (ht : Made B A K R s t) : Ok B A K R s (R.add (mono t)) s fun _ => True where
  grow := .refl h.wf
  sub _ hs := .inr hs
  ty _ _ := trivial
  av X Y ha hx sc hs := by
    rcases hs with rfl | hs
    · exact (ht.av X Y ha hx).mono (fun _ h => h) fun _ _ h => h.1
    · exact hx sc hs
  inv := by
    refine ⟨h.wf, h.base, ?_, ?_, ?_, ?_⟩
    · rintro sc (rfl | hs)
      · exact ht.fit.mono (Nat.le_refl _) fun _ h => h.elim
      · exact h.fit sc hs
    · rintro sc (rfl | hs)
      · intro g hg; cases hg
      · exact h.bound sc hs
    · rintro sc (rfl | hs)
      · exact .inr fun g hg => by cases hg
      · exact h.sch sc hs
    · rintro sc (rfl | hs) sc' hs'
      · exact Ty.All.imp (fun _ _ h => h) (fun _ _ _ h => by cases h.1.1) (Ty.all_top (sc'.t.subst s.σ))
      · rcases hs' with rfl | hs'
        · exact (ht.av _ _ (h.adm hs) (h.sep sc hs)).mono (fun _ h => h) fun _ _ h => h.1
        · exact h.sep sc hs sc' hs'

theorem Ok.of_grow {B K : Nat} {A : Nat → Nat → Prop} {R : Roots} {s s' : St} (h : Inv B K R s) (hw : WF s') (g : Grow B A (AvR s R) s s') : Ok B A K R s R s' fun _ => True :=
  ⟨g, h.grow hw g, fun _ h => h, fun _ _ ha hx => AvR.grow g ha hx hx, fun _ _ => trivial⟩

theorem Ok.new {B K lv : Nat} {A : Nat → Nat → Prop} {R : Roots} {s : St} (h : Inv B K R s) (hk : lv + 1 ≤ K) : Ok B A K R s (R.add (mono (newVar lv s).1)) (newVar lv s).2 fun _ => True := by
  have g : Grow B A (AvR s R) s (newVar lv s).2 := newVar_grow h.wf lv
  have hi : Inv B K R (newVar lv s).2 := h.grow (newVar_wf h.wf lv) g
  have hf := (newVar_fit (B := B) h.wf lv none').mono hk fun _ h => h
  refine ⟨g, ⟨hi.wf, hi.base, ?_, ?_, ?_, ?_⟩, fun _ hs => .inr hs, ?_, fun _ _ => trivial⟩
  · rintro sc (rfl | hs)
    · exact hf.mono (Nat.le_refl _) fun _ h => h.elim
    · exact hi.fit sc hs
  · rintro sc (rfl | hs)
    · intro g hg; cases hg
    · exact hi.bound sc hs
  · rintro sc (rfl | hs)
    · exact .inr fun g hg => by cases hg
    · exact hi.sch sc hs
  · rintro sc (rfl | hs) sc' hs'
    · exact Ty.All.imp (fun _ _ h => h) (fun _ _ _ h => by cases h.1.1) (Ty.all_top (sc'.t.subst (newVar lv s).2.σ))
    · rcases hs' with rfl | hs'
      · exact (newVar_av h.wf lv (h.adm (A := A) hs)).mono (fun _ h => h) fun _ _ h => h.1
      · exact hi.sep sc hs sc' hs'
  · rintro X Y ha hx sc (rfl | hs)
    · exact (newVar_av h.wf lv ha).mono (fun _ h => h) fun _ _ h => h.1
    · exact AvR.grow g ha hx hx sc hs

theorem Ok.unify {B K k : Nat} {A : Nat → Nat → Prop} {R : Roots} {s s' : St} {a b : Ty} (h : Inv B K R s) (e : unify k a b s = some s') (ha : Made B A K R s a) (hb : Made B A K R s b) :
    Ok B A K R s R s' fun sf => a.subst sf.σ = b.subst sf.σ := by
  have u := unify_ok (B := B) (A := A) k a b e h.wf ha.fit.bel hb.fit.bel
  have g := u.grow.weaken (Q1 := AvR s R) fun X Y had hx => ⟨ha.av X Y had hx, hb.av X Y had hx⟩
  exact (Ok.of_grow h u.wf g).with fun sf g' _ => g'.eq u.eq

/-! ### Using what is in the environment -/

theorem freshMap_some {g : Nat} : ∀ {gs : List Nat} {n : Nat}, g ∈ gs → ∃ i, i < gs.length ∧ freshMap gs n g = some (.unk (n + i))
  | g' :: gs, n, h => by
    unfold freshMap
    by_cases e : g = g'
    · exact ⟨0, by simp, by rw [if_pos e]; rfl⟩
    · obtain ⟨i, hi, hf⟩ := freshMap_some (gs := gs) (n := n + 1) ((List.mem_cons.1 h).resolve_left e)
      exact ⟨i + 1, by simp; omega, by simp only [if_neg e]; rw [hf]; congr 2; omega⟩

theorem freshMap_none {g : Nat} : ∀ {gs : List Nat} {n : Nat}, g ∉ gs → freshMap gs n g = none
  | [], _, _ => rfl
  | g' :: gs, n, h => by
    have e : g ≠ g' := fun e => h (e ▸ List.mem_cons_self)
    unfold freshMap
    simp only [if_neg e]
    exact freshMap_none fun h' => h (List.mem_cons_of_mem _ h')

theorem WF.res {s : St} (h : WF s) (t : Ty) : (t.subst s.σ).All (fun u => s.σ u = .unk u) fun _ _ => True :=
  (Ty.all_subst _ _ _ t).2 (t.all_top.imp (fun v _ => (h.idem v).imp (fun _ h => h.1) fun _ _ h => h) fun _ _ h => h)

theorem Ok.use {B K lv : Nat} {A : Nat → Nat → Prop} {R : Roots} {s : St} {sc : Sch} (h : Inv B K R s) (hk : lv + 1 ≤ K) (hs : R sc) :
    Ok B A K R s (R.add (mono (inferUse lv sc s).1)) (inferUse lv sc s).2 fun sf => ∃ m, (inferUse lv sc s).1.subst sf.σ = Sch.at ⟨sc.gs, sc.t.subst sf.σ⟩ m := by
  have hσ : (inferUse lv sc s).2.σ = s.σ := newVars_σ _ _ _
  have hn : (inferUse lv sc s).2.n = s.n + sc.gs.length := newVars_n _ _ _
  have hg : (inferUse lv sc s).2.g = s.g := newVars_g _ _ _
  have hl : ∀ v, (inferUse lv sc s).2.lv v = if s.n ≤ v ∧ v < s.n + sc.gs.length then lv else s.lv v := newVars_lv _ _ _
  have g : Grow B A (AvR s R) s (inferUse lv sc s).2 := newVars_grow _ h.wf lv
  have hw : WF (inferUse lv sc s).2 := newVars_wf _ h.wf lv
  have step := Ok.of_grow h hw g
  have res : (inferUse lv sc s).1.subst (inferUse lv sc s).2.σ = (sc.t.subst s.σ).inst (freshMap sc.gs s.n) := by
    rw [hσ]
    refine Ty.subst_id (pg := fun _ _ => True) ((Ty.all_inst _ _ _ _).2 ((h.wf.res sc.t).imp (fun _ h => h) fun g' l _ => ?_))
    by_cases hm : g' ∈ sc.gs
    · obtain ⟨i, _, e⟩ := freshMap_some (n := s.n) hm
      rw [e]
      exact h.wf.fresh _ (by omega)
    · rw [freshMap_none hm]; trivial
  have fit : Fit B (inferUse lv sc s).2 K none' (inferUse lv sc s).1 := by
    unfold Fit
    rw [res]
    refine (Ty.all_inst _ _ _ _).2 (Ty.All.imp (fun u hu => ?_) (fun g' l hg' => ?_) (h.fit sc hs))
    · rw [hn, hl, if_neg (by omega)]
      exact ⟨by omega, hu.2⟩
    · by_cases hm : g' ∈ sc.gs
      · obtain ⟨i, hi, e⟩ := freshMap_some (n := s.n) hm
        rw [e]
        show s.n + i < _ ∧ _
        rw [hn, hl, if_pos (by omega)]
        exact ⟨by omega, by omega⟩
      · rw [freshMap_none hm]
        exact ⟨by rw [hg]; exact hg'.1, (hg'.2.resolve_left hm).elim (fun h => .inr (.inl h)) fun h => .inr (.inr h)⟩
  have av' : ∀ X Y, (∀ u, X u → u < s.n) → AvS s X Y sc → Av (inferUse lv sc s).2 X Y (inferUse lv sc s).1 := by
    intro X Y hX hx
    unfold Av
    rw [res]
    refine (Ty.all_inst _ _ _ _).2 (Ty.All.imp (fun u hu => hu) (fun g' l hg' => ?_) hx)
    by_cases hm : g' ∈ sc.gs
    · obtain ⟨i, hi, e⟩ := freshMap_some (n := s.n) hm
      rw [e]
      exact fun hx' => by have := hX _ hx'; omega
    · rw [freshMap_none hm]
      exact fun hy => hg' ⟨hy, hm⟩
  have made : ∀ sc', R sc' → Av (inferUse lv sc s).2 none' (own B sc') (inferUse lv sc s).1 := fun sc' hs' =>
    av' _ _ (fun _ h => h.elim) (h.sep sc' hs' sc hs)
  refine ⟨g, ⟨step.inv.wf, step.inv.base, ?_, ?_, ?_, ?_⟩, fun _ hs => .inr hs, ?_, ?_⟩
  · rintro x (rfl | hx)
    · exact fit.mono (Nat.le_refl _) fun _ h => h.elim
    · exact step.inv.fit x hx
  · rintro x (rfl | hx)
    · intro g hg; cases hg
    · exact step.inv.bound x hx
  · rintro x (rfl | hx)
    · exact .inr fun g hg => by cases hg
    · exact step.inv.sch x hx
  · rintro x (rfl | hx) y hy
    · exact Ty.All.imp (fun _ _ h => h) (fun _ _ _ h => by cases h.1.1) (Ty.all_top (y.t.subst (inferUse lv sc s).2.σ))
    · rcases hy with rfl | hy
      · exact (made x hx).mono (fun _ h => h) fun _ _ h => h.1
      · exact step.inv.sep x hx y hy
  · rintro X Y ha hx x (rfl | hs')
    · exact (av' X Y ha.x (hx sc hs)).mono (fun _ h => h) fun _ _ h => h.1
    · exact AvR.grow g ha hx hx x hs'
  · intro sf gf
    have e1 : (sc.t.subst s.σ).subst sf.σ = sc.t.subst sf.σ := hσ ▸ gf.subst sc.t
    refine ⟨fun g' => ((freshMap sc.gs s.n g').getD unitTy).subst sf.σ, ?_⟩
    show ((sc.t.subst s.σ).inst (freshMap sc.gs s.n)).subst sf.σ = (sc.t.subst sf.σ).inst _
    rw [← e1]
    refine Ty.inst_subst (fun g' => ?_) ?_
    · by_cases hm : g' ∈ sc.gs
      · obtain ⟨i, hi, e⟩ := freshMap_some (n := s.n) hm
        simp only [if_pos hm, e]
        rfl
      · simp only [if_neg hm, freshMap_none hm]
        rfl
    · rcases h.sch sc hs with hc | hB
      · rw [Ty.subst_none hc]
        exact hc.imp (fun _ h => h.elim) fun _ _ h => h
      · refine (h.wf.res sc.t).imp (fun v hv => ?_) fun _ _ h => h
        have a1 : Av (inferUse lv sc s).2 none' (own B sc) (.unk v) := by
          unfold Av
          show Ty.All _ _ ((inferUse lv sc s).2.σ v)
          rw [hσ, hv]
          exact fun h => h.elim
        have a2 : Av sf none' (own B sc) (.unk v) := by
          refine gf.av none' (own B sc) ((h.adm hs).grow (g.less fun _ _ h => h.elim)) ?_ _ (fun _ _ h => h) _ a1
          rintro x (rfl | hx)
          · exact (made sc hs).mono (fun _ h => h) fun _ _ h => h.1
          · exact step.inv.sep sc hs x hx
        refine Ty.inst_id (Ty.All.imp (fun _ h => h) (fun g' l hg' => ?_) a2)
        exact if_neg fun hm => hg' ⟨hm, hB g' hm⟩

/-! ### Parameters -/

theorem Ok.news {B K lv : Nat} {A : Nat → Nat → Prop} (hk : lv + 1 ≤ K) : ∀ (k : Nat) {R : Roots} {s : St}, Inv B K R s →
    ∃ R', (∀ t ∈ (newVars k lv s).1, R' (mono t)) ∧ Ok B A K R s R' (newVars k lv s).2 fun _ => True
  | 0, R, s, h => ⟨R, fun _ ht => (by cases ht), Ok.refl h⟩
  | k + 1, R, s, h => by
    have o1 := Ok.new (A := A) h hk
    obtain ⟨R', h1, o2⟩ := Ok.news hk k o1.inv
    refine ⟨R', fun t ht => ?_, (o1.bind o2).imp fun _ _ => trivial⟩
    rcases List.mem_cons.1 ht with rfl | ht
    · exact o2.sub _ (.inl rfl)
    · exact h1 t ht

theorem Ok.mades {B K : Nat} {A : Nat → Nat → Prop} : ∀ (ts : List Ty) {R : Roots} {s : St}, Inv B K R s → (∀ t ∈ ts, Made B A K R s t) →
    ∃ R', (∀ t ∈ ts, R' (mono t)) ∧ Ok B A K R s R' s fun _ => True
  | [], R, s, h, _ => ⟨R, fun _ ht => (by cases ht), Ok.refl h⟩
  | t :: ts, R, s, h, ht => by
    have o1 := Ok.made h (ht t (.head _))
    obtain ⟨R', h1, o2⟩ := Ok.mades ts o1.inv fun u hu => (ht u (.tail _ hu)).sub o1.sub
    exact ⟨R', List.forall_mem_cons.2 ⟨o2.sub _ (.inl rfl), h1⟩, (o1.bind o2).imp fun _ _ => trivial⟩

/-- The types of the parameters and of the result of a function are those of its type. -/
theorem Ok.params {B K k : Nat} {A : Nat → Nat → Prop} {ps : Option (List Nat)} {t : Ty} {s s' : St} {R : Roots} {ts : List Ty} {r : Ty} (e : withParams k ps t s = some ((ts, r), s')) (h : Inv B K R s)
    (ht : Made B A K R s t) :
    ts.length = arity ps ∧ ∃ R', (∀ u ∈ ts, R' (mono u)) ∧ R' (mono r) ∧ R' (mono (funTy ps ts r)) ∧
      Ok B A K R s R' s' fun sf => t.subst sf.σ = (funTy ps ts r).subst sf.σ := by
  cases ps with
  | none =>
    unfold withParams at e
    obtain ⟨e1, rfl⟩ := Prod.mk.inj (Option.some.inj e)
    obtain ⟨rfl, rfl⟩ := Prod.mk.inj e1
    exact ⟨rfl, R.add (mono t), fun u hu => (by cases hu), .inl rfl, .inl rfl, (Ok.made h ht).imp fun _ _ => rfl⟩
  | some ps =>
    obtain ⟨s2, e1, e2⟩ := Option.bind_eq_some_iff.1 (show ((Infer.unify k (Infer.arrow (newVars ps.length bottom s).1 (newVar bottom (newVars ps.length bottom s).2).1) t
      (newVar bottom (newVars ps.length bottom s).2).2).bind fun s' => some (((newVars ps.length bottom s).1, (newVar bottom (newVars ps.length bottom s).2).1), s')) =
        some ((ts, r), s') from e)
    have hts : (newVars ps.length bottom s).1 = ts := congrArg (fun x => x.1.1) (Option.some.inj e2)
    have hr : (newVar bottom (newVars ps.length bottom s).2).1 = r := congrArg (fun x => x.1.2) (Option.some.inj e2)
    have hs2 : s2 = s' := congrArg (fun x => x.2) (Option.some.inj e2)
    rw [hts, hr, hs2] at e1
    refine ⟨hts ▸ newVars_length _ _ _, ?_⟩
    -- above all levels, until they are unified with the type of the function
    have o0 := Ok.made h ht
    have hi := o0.inv.lift (K' := max K (bottom + 1)) (by omega)
    obtain ⟨R1, m1, o1⟩ := Ok.news (A := A) (lv := bottom) (by omega : bottom + 1 ≤ max K (bottom + 1)) ps.length hi
    have o2 := Ok.new (A := A) (lv := bottom) o1.inv (by omega)
    have o3 := Ok.unify (A := A) o2.inv e1 (.arrow (fun u hu => .root o2.inv (.inr (m1 u (hts ▸ hu)))) (.root o2.inv (.inl (congrArg mono hr.symm))))
      (.root o2.inv (.inr (o1.sub _ (.inl rfl))))
    have o4 := ((o1.bind o2).bind o3).lower o0.inv fun _ _ h => h
    have eq := (o4.ty s' (.refl o4.inv.wf)).2
    have ma := Made.congr (A := A) eq.symm (Made.root o4.inv (.inl rfl))
    obtain ⟨R5, m5, o5⟩ := Ok.mades (r :: arrow ts r :: ts) o4.inv (List.forall_mem_cons.2 ⟨ma.unarrow.2, List.forall_mem_cons.2 ⟨ma, ma.unarrow.1⟩⟩)
    exact ⟨R5, fun u hu => m5 u (.tail _ (.tail _ hu)), m5 r (.head _), m5 _ (.tail _ (.head _)), ((o0.bind o4).bind o5).imp fun sf h => h.1.2.2.symm⟩

/-! ### Type parameters are made -/

/-- The types that the variables become. -/
def qmap : List Nat → Nat → Nat → Ty
  | [], _, w => .unk w
  | v :: vs, g, w => if w = v then .gen g 0 else qmap vs (g + 1) w

theorem quantify_eq : ∀ (vs : List Nat) (s : St), quantify vs s = (List.range' s.g vs.length, { s with g := s.g + vs.length, σ := fun w => (s.σ w).subst (qmap vs s.g) })
  | [], s => by
    show ([], s) = _
    have : (fun w => (s.σ w).subst (qmap [] s.g)) = s.σ := funext fun w => Ty.subst_unk _
    simp [this]
  | v :: vs, s => by
    unfold quantify
    rw [quantify_eq vs]
    refine Prod.ext (by simp [List.range'_succ]) ?_
    show St.mk _ _ _ _ = St.mk _ _ _ _
    congr 1
    · funext w
      show ((s.σ w).subst (single v (.gen s.g 0))).subst (qmap vs (s.g + 1)) = _
      rw [Ty.subst_subst]
      refine Ty.subst_congr ((Ty.all_top _).imp (fun u _ => ?_) fun _ _ h => h)
      unfold single qmap
      by_cases e : u = v
      · rw [if_pos e, if_pos e]; rfl
      · rw [if_neg e, if_neg e]; rfl
    · show s.g + 1 + vs.length = s.g + (vs.length + 1)
      omega

theorem qmap_out {w : Nat} : ∀ {vs : List Nat} {g : Nat}, w ∉ vs → qmap vs g w = .unk w
  | [], _, _ => rfl
  | v :: vs, g, h => by
    have e : w ≠ v := fun e => h (e ▸ List.mem_cons_self)
    unfold qmap
    rw [if_neg e]
    exact qmap_out fun h' => h (List.mem_cons_of_mem _ h')

theorem qmap_in {w : Nat} : ∀ {vs : List Nat} {g : Nat}, w ∈ vs → ∃ i, i < vs.length ∧ qmap vs g w = .gen (g + i) 0
  | v :: vs, g, h => by
    unfold qmap
    by_cases e : w = v
    · exact ⟨0, by simp, by rw [if_pos e]; rfl⟩
    · obtain ⟨i, hi, hf⟩ := qmap_in (vs := vs) (g := g + 1) ((List.mem_cons.1 h).resolve_left e)
      exact ⟨i + 1, by simp; omega, by rw [if_neg e, hf]; congr 1; omega⟩

theorem quantify_subst (vs : List Nat) (s : St) (t : Ty) : t.subst (quantify vs s).2.σ = (t.subst s.σ).subst (qmap vs s.g) := by
  rw [quantify_eq, Ty.subst_subst]

theorem qmap_all {vs : List Nat} {g : Nat} {pu : Nat → Prop} {pg : Nat → Nat → Prop} (u : Nat) (h1 : u ∉ vs → pu u) (h2 : u ∈ vs → ∀ i < vs.length, pg (g + i) 0) : (qmap vs g u).All pu pg := by
  by_cases e : u ∈ vs
  · obtain ⟨i, hi, hq⟩ := qmap_in (g := g) e
    rw [hq]
    exact h2 e i hi
  · rw [qmap_out e]
    exact h1 e

theorem quantify_ok {B : Nat} {A : Nat → Nat → Prop} {Q : (Nat → Prop) → (Nat → Nat → Prop) → Prop} (vs : List Nat) {s : St} (h : WF s) (hb : B ≤ s.g) (hvs : ∀ v ∈ vs, v < s.n) : WF (quantify vs s).2 ∧ Grow B A Q s (quantify vs s).2 := by
  have hσ : ∀ u, s.σ u = .unk u → u ∉ vs → (quantify vs s).2.σ u = .unk u := by
    intro u hu hv
    have := quantify_subst vs s (.unk u)
    rw [show (Ty.unk u).subst s.σ = .unk u from hu] at this
    exact this.trans (qmap_out hv)
  have hn : (quantify vs s).2.n = s.n := by rw [quantify_eq]
  have hg : (quantify vs s).2.g = s.g + vs.length := by rw [quantify_eq]
  have hl : (quantify vs s).2.lv = s.lv := by rw [quantify_eq]
  refine ⟨⟨?_, ?_⟩, ⟨Nat.le_of_eq hn.symm, by rw [hg]; omega, ?_, ?_, ?_, ?_⟩⟩
  · intro v hv
    rw [hn] at hv
    exact hσ v (h.fresh v hv) fun hm => by have := hvs v hm; omega
  · intro v
    show ((Ty.unk v).subst (quantify vs s).2.σ).All _ _
    rw [quantify_subst]
    refine (Ty.all_subst _ _ _ _).2 ((h.idem v).imp (fun u hu => qmap_all u (fun hm => ⟨hσ u hu.1 hm, ?_⟩) fun _ _ _ => trivial) fun _ _ h => h)
    rw [hn]
    exact hu.2
  · intro v
    rw [quantify_subst, h.done]
    exact (quantify_subst vs s (.unk v)).symm
  · intro t ht
    unfold Bel
    rw [quantify_subst, hn, hg]
    exact (Ty.all_subst _ _ _ _).2 (Ty.All.imp (fun u hu => qmap_all u (fun _ => hu) fun _ i hi => by omega) (fun g' _ (h : g' < s.g) => by omega) ht)
  · intro K ex t ht
    unfold Fit
    rw [quantify_subst, hn, hg, hl]
    exact (Ty.all_subst _ _ _ _).2 (Ty.All.imp (fun u hu => qmap_all u (fun _ => hu) fun _ i hi => ⟨by omega, .inr (.inl (by omega))⟩)
      (fun g' _ h => ⟨by have := h.1; omega, h.2⟩) ht)
  · intro X Y ha _ Y' hy t ht
    unfold Av
    rw [quantify_subst]
    exact (Ty.all_subst _ _ _ _).2 (Ty.All.imp (fun u hu => qmap_all u (fun _ => hu) fun _ i hi hy' => by have := ha.y _ _ (hy _ _ hy'); omega) (fun _ _ h => h) ht)

/-- What does not contain the variables does not contain the new type parameters. -/
theorem quantify_av {vs : List Nat} {s : St} {t : Ty} (ht : (t.subst s.σ).All (· ∉ vs) fun g _ => g < s.g) : Av (quantify vs s).2 none' (fun g _ => g ∈ (quantify vs s).1) t := by
  unfold Av
  rw [quantify_subst]
  refine (Ty.all_subst _ _ _ _).2 (ht.imp (fun u hu => ?_) fun g' _ h hm => ?_)
  · rw [qmap_out hu]
    exact fun h => h.elim
  · rw [quantify_eq] at hm
    have := (List.mem_range'_1.1 hm).1
    omega

theorem getVars_mem {lv : Nat} {s : St} {t : Ty} {v : Nat} : v ∈ getVars lv s t ↔ v ∈ (t.subst s.σ).unks ∧ lv ≤ s.lv v := by
  unfold getVars
  rw [List.mem_dedup, List.mem_filter, decide_eq_true_iff]

theorem commonVars_sub {fx : Bool} {lv : Nat} {s : St} {v : Nat} : ∀ {ts : List Ty}, v ∈ commonVars fx lv s ts → ∃ t ∈ ts, v ∈ (t.subst s.σ).unks ∧ lv ≤ s.lv v
  | [], h => by cases h
  | [t], h => ⟨t, .head _, getVars_mem.1 h⟩
  | t :: u :: ts, h => by
    unfold commonVars at h
    cases fx with
    | true =>
      rcases List.mem_append.1 (List.mem_dedup.1 h) with h | h
      · exact ⟨t, .head _, getVars_mem.1 h⟩
      · obtain ⟨w, hw, h⟩ := commonVars_sub h
        exact ⟨w, .tail _ hw, h⟩
    | false => exact ⟨t, .head _, getVars_mem.1 (List.mem_filter.1 h).1⟩

theorem commonVars_all {fx : Bool} {lv : Nat} {s : St} {v : Nat} {t : Ty} (hv : v ∈ (t.subst s.σ).unks) (hl : lv ≤ s.lv v) :
    ∀ {ts : List Ty}, fx = true ∨ ts.length ≤ 1 → t ∈ ts → v ∈ commonVars fx lv s ts
  | [], _, h => by cases h
  | [u], _, h => by
    cases List.mem_singleton.1 h
    exact getVars_mem.2 ⟨hv, hl⟩
  | u :: w :: ts, hf, h => by
    rcases hf with rfl | hf
    · unfold commonVars
      refine List.mem_dedup.2 (List.mem_append.2 ?_)
      rcases List.mem_cons.1 h with rfl | h
      · exact .inl (getVars_mem.2 ⟨hv, hl⟩)
      · exact .inr (commonVars_all hv hl (.inl rfl) h)
    · simp at hf

/-- The versions of type parameters of the program that are not made in a scope. -/
def others (K : Nat) (ρ : Vers) : Nat → Nat → Prop := fun g l => l < K ∧ ρ g ≠ some l

/-- The functions of a group, after their bodies. -/
theorem Ok.group {fx : Bool} {B M : Nat} {ρ : Vers} {R R1 : Roots} {s s2 : St} {spec : St → Prop} {ts : List Ty} (hI : Inv B M R s) (hρ : ∀ g l, ρ g = some l → l < M)
    (o : Ok B (others (M + 1) ρ) (M + 1) R s R1 s2 spec) (hf : ∀ t ∈ ts, R1 (mono t)) (hc : fx = true ∨ ts.length ≤ 1) :
    Ok B (others (M + 1) ρ) M R s (fun sc => R sc ∨ ∃ t ∈ ts, sc = ⟨(quantify (commonVars fx M s2 ts) s2).1, t⟩) (quantify (commonVars fx M s2 ts) s2).2 fun sf =>
      spec sf ∧ ∀ sc, R sc → Av sf none' (fun g _ => g ∈ (quantify (commonVars fx M s2 ts) s2).1 ∧ g ∉ sc.gs) sc.t := by
  generalize hvs : commonVars fx M s2 ts = vs
  have hsub : ∀ v ∈ vs, ∃ t ∈ ts, v ∈ (t.subst s2.σ).unks ∧ M ≤ s2.lv v := fun v hv => commonVars_sub (hvs ▸ hv)
  have hall : ∀ t ∈ ts, ∀ v ∈ (t.subst s2.σ).unks, M ≤ s2.lv v → v ∈ vs := fun t ht v hv hl => hvs ▸ commonVars_all hv hl hc ht
  have hlt : ∀ v ∈ vs, v < s2.n := fun v hv => by
    obtain ⟨t, ht, hu, _⟩ := hsub v hv
    exact (Ty.all_unks (o.inv.fit _ (hf t ht)) v hu).1
  have gq : ∀ {A Q}, Grow B A Q s2 (quantify vs s2).2 := (quantify_ok vs o.inv.wf o.inv.base hlt).2
  have wq := (quantify_ok (B := B) (A := no) (Q := fun _ _ => True) vs o.inv.wf o.inv.base hlt).1
  have hi2 : Inv B M R s2 := hI.grow o.inv.wf o.grow
  have hi3 : Inv B M R (quantify vs s2).2 := hi2.grow (A := no) wq gq
  have hqs : ∀ q ∈ (quantify vs s2).1, B ≤ q ∧ q < (quantify vs s2).2.g := by
    intro q hq
    rw [quantify_eq] at hq ⊢
    have := List.mem_range'_1.1 hq
    have := o.inv.base
    exact ⟨by omega, by show q < s2.g + vs.length; omega⟩
  have fresh : ∀ sc, R sc → Av (quantify vs s2).2 none' (fun g _ => g ∈ (quantify vs s2).1) sc.t := fun sc hs =>
    quantify_av (Ty.All.imp (fun u hu hv => by obtain ⟨_, _, _, h⟩ := hsub u hv; have := hu.2; omega) (fun _ _ h => h.1) (hi2.fit sc hs))
  have avq : ∀ {A X Y}, Adm B A s2 X Y → AvR s2 R1 X Y → AvR (quantify vs s2).2 (fun sc => R sc ∨ ∃ t ∈ ts, sc = ⟨(quantify vs s2).1, t⟩) X Y := by
    intro A X Y ha hx sc hs
    have h3 : AvR (quantify vs s2).2 R1 X Y := AvR.grow (Q := fun _ _ => True) gq ha trivial hx
    rcases hs with hs | ⟨t, ht, rfl⟩
    · exact h3 sc (o.sub sc hs)
    · have a := h3 (mono t) (hf t ht)
      exact Av.mono (show Av _ _ _ t from a) (fun _ h => h) fun g l h => ⟨h.1, fun h => by cases h⟩
  refine ⟨o.grow.trans gq (Q1 := fun _ _ => True) fun _ _ _ _ => trivial, ⟨wq, hi3.base, ?_, ?_, ?_, ?_⟩, fun _ h => .inl h, ?_, ?_⟩
  · rintro sc (hs | ⟨t, ht, rfl⟩)
    · exact hi3.fit sc hs
    · have f2 := o.inv.fit _ (hf t ht)
      have adm : Adm B (others (M + 1) ρ) s none' (fun g l => g < B ∧ l = M) :=
        ⟨fun _ h => h.elim, fun g l h => .inr ⟨h.1, by have := h.2; omega, fun e => by have := hρ g l e; have := h.2; omega⟩⟩
      have a2 := o.av _ _ adm (fun sc hs => Ty.All.imp (fun _ _ h => h) (fun g l hg hy => by
        rcases hg.2 with h | h | h
        · exact hy.2 h
        · have := hy.1.1; omega
        · have := hy.1.2; omega) (hI.fit sc hs)) _ (hf t ht)
      unfold Fit
      rw [quantify_subst]
      refine (Ty.all_subst _ _ _ _).2 (Ty.All.imp (fun u hu => ?_) (fun g l hg => ?_) ((f2.and a2).and (Ty.unks_all (t.subst s2.σ))))
      · refine qmap_all u (fun hv => ?_) fun hv i hi => ?_
        · refine ⟨by rw [quantify_eq]; exact hu.1.1.1, ?_⟩
          rw [quantify_eq]
          exact Nat.lt_of_not_le fun hl => hv (hall t ht u hu.2 hl)
        · rw [quantify_eq]
          refine ⟨by show s2.g + i < s2.g + vs.length; omega, .inl (List.mem_range'_1.2 (by omega))⟩
      · refine ⟨Nat.lt_of_lt_of_le hg.1.1.1 (gq (A := no) (Q := fun _ _ => True)).g, ?_⟩
        rcases hg.1.1.2 with h | h | h
        · cases h
        · exact .inr (.inl h)
        · by_cases hB : B ≤ g
          · exact .inr (.inl hB)
          · have := hg.1.2
            exact .inr (.inr (Nat.lt_of_not_le fun hM => this ⟨⟨by omega, by omega⟩, fun h => by cases h⟩))
  · rintro sc (hs | ⟨t, ht, rfl⟩)
    · exact hi3.bound sc hs
    · exact fun q hq => (hqs q hq).2
  · rintro sc (hs | ⟨t, ht, rfl⟩)
    · exact hi3.sch sc hs
    · exact .inr fun q hq => (hqs q hq).1
  · rintro sc (hs | ⟨t, ht, rfl⟩)
    · exact avq ((hI.adm (A := no) hs).grow (o.grow.less fun _ _ h => h.elim)) (o.av _ _ (hI.adm hs) (hI.sep sc hs))
    · rintro sc' (hs' | ⟨u, hu, rfl⟩)
      · exact (fresh sc' hs').mono (fun _ h => h) fun _ _ h => h.1.1
      · exact Ty.All.imp (fun _ _ h => h) (fun _ _ _ h => h.2 h.1.1) (Ty.all_top _)
  · exact fun X Y ha hx => avq (ha.grow o.grow) (o.av X Y ha hx)
  · intro sf gf
    refine ⟨o.ty sf (gq.trans gf fun X Y ha hx => avq ha hx), fun sc hs => ?_⟩
    refine gf.av none' (fun g _ => g ∈ (quantify vs s2).1) ⟨fun _ h => h.elim, fun q _ hq => .inl (hqs q hq)⟩ ?_ _ (fun _ _ h => h.1) _ ((fresh sc hs).mono (fun _ h => h) fun _ _ h => h.1)
    rintro sc' (hs' | ⟨u, hu, rfl⟩)
    · exact (fresh sc' hs').mono (fun _ h => h) fun _ _ h => h.1
    · exact Ty.All.imp (fun _ _ h => h) (fun _ _ _ h => h.2 h.1) (Ty.all_top _)

/-- A scheme without unknown types comes into use. -/
theorem Ok.scheme {B K : Nat} {A : Nat → Nat → Prop} {R : Roots} {s : St} {sc : Sch} (h : Inv B K R s) (hgs : ∀ g ∈ sc.gs, g < B)
    (ht : sc.t.All (fun _ => False) fun g l => g < B ∧ (g ∈ sc.gs ∨ (l < K ∧ ¬ A g l))) : Ok B A K R s (R.add sc) s fun _ => True := by
  have e : sc.t.subst s.σ = sc.t := Ty.subst_none ht
  have av : ∀ X Y, Adm B A s X Y → AvS s X Y sc := by
    intro X Y ha
    unfold AvS Av
    rw [e]
    exact ht.imp (fun _ h => h.elim) fun g l h hy => (ha.y g l hy.1).elim (fun h' => by omega) fun h' => h.2.elim hy.2 fun h => h.2 h'.2
  refine ⟨.refl h.wf, ⟨h.wf, h.base, ?_, ?_, ?_, ?_⟩, fun _ h => .inr h, ?_, fun _ _ => trivial⟩
  · rintro x (rfl | hx)
    · unfold Fit
      rw [e]
      have := h.base
      exact ht.imp (fun _ h => h.elim) fun g l h => ⟨by omega, h.2.elim .inl fun h => .inr (.inr h.1)⟩
    · exact h.fit x hx
  · rintro x (rfl | hx)
    · exact fun g hg => Nat.lt_of_lt_of_le (hgs g hg) h.base
    · exact h.bound x hx
  · rintro x (rfl | hx)
    · exact .inl (ht.imp (fun _ h => h) fun _ _ _ => trivial)
    · exact h.sch x hx
  · rintro x (rfl | hx) y hy
    · exact Ty.All.imp (fun _ _ h => h) (fun g _ _ h => by have := hgs g h.1.1; have := h.1.2; omega) (Ty.all_top (y.t.subst s.σ))
    · rcases hy with rfl | hy
      · exact av _ _ (h.adm hx)
      · exact h.sep x hx y hy
  · rintro X Y ha hx x (rfl | hs)
    · exact av X Y ha
    · exact hx x hs

/-- Fewer versions are left out. -/
theorem Ok.less {B K : Nat} {A A' : Nat → Nat → Prop} {R R1 : Roots} {s s1 : St} {p : St → Prop} (h : Ok B A' K R s R1 s1 p) (hA : ∀ g l, A g l → A' g l) : Ok B A K R s R1 s1 p :=
  ⟨h.grow.less hA, h.inv, h.sub, fun X Y ha => h.av X Y (ha.weaken hA), h.ty⟩

end Verif.Infer
