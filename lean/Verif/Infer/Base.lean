import Verif.Infer.Model

/-! # Types, substitutions, and what unification keeps -/
namespace Verif.Infer

/-! ### Types -/

mutual
theorem Ty.All.imp {pu qu : Nat → Prop} {pg qg : Nat → Nat → Prop} (hu : ∀ v, pu v → qu v) (hg : ∀ g l, pg g l → qg g l) : ∀ {t : Ty}, t.All pu pg → t.All qu qg
  | .con _, _ => trivial
  | .app _ _, h => ⟨Ty.All.imp hu hg h.1, Tys.All.imp hu hg h.2⟩
  | .gen _ _, h => hg _ _ h
  | .unk _, h => hu _ h
theorem Tys.All.imp {pu qu : Nat → Prop} {pg qg : Nat → Nat → Prop} (hu : ∀ v, pu v → qu v) (hg : ∀ g l, pg g l → qg g l) : ∀ {t : Tys}, t.All pu pg → t.All qu qg
  | .nil, _ => trivial
  | .cons _ _, h => ⟨Ty.All.imp hu hg h.1, Tys.All.imp hu hg h.2⟩
end

mutual
theorem Ty.All.and {pu qu : Nat → Prop} {pg qg : Nat → Nat → Prop} : ∀ {t : Ty}, t.All pu pg → t.All qu qg → t.All (fun v => pu v ∧ qu v) fun g l => pg g l ∧ qg g l
  | .con _, _, _ => trivial
  | .app _ _, h, h' => ⟨Ty.All.and h.1 h'.1, Tys.All.and h.2 h'.2⟩
  | .gen _ _, h, h' => ⟨h, h'⟩
  | .unk _, h, h' => ⟨h, h'⟩
theorem Tys.All.and {pu qu : Nat → Prop} {pg qg : Nat → Nat → Prop} : ∀ {t : Tys}, t.All pu pg → t.All qu qg → t.All (fun v => pu v ∧ qu v) fun g l => pg g l ∧ qg g l
  | .nil, _, _ => trivial
  | .cons _ _, h, h' => ⟨Ty.All.and h.1 h'.1, Tys.All.and h.2 h'.2⟩
end

mutual
theorem Ty.all_top : ∀ t : Ty, t.All (fun _ => True) fun _ _ => True
  | .con _ => trivial
  | .app f as => ⟨Ty.all_top f, Tys.all_top as⟩
  | .gen _ _ => trivial
  | .unk _ => trivial
theorem Tys.all_top : ∀ t : Tys, t.All (fun _ => True) fun _ _ => True
  | .nil => trivial
  | .cons t ts => ⟨Ty.all_top t, Tys.all_top ts⟩
end

mutual
theorem Ty.all_subst (σ : Nat → Ty) (pu : Nat → Prop) (pg : Nat → Nat → Prop) : ∀ t : Ty, (t.subst σ).All pu pg ↔ t.All (fun v => (σ v).All pu pg) pg
  | .con _ => Iff.rfl
  | .app f as => and_congr (Ty.all_subst σ pu pg f) (Tys.all_subst σ pu pg as)
  | .gen _ _ => Iff.rfl
  | .unk _ => Iff.rfl
theorem Tys.all_subst (σ : Nat → Ty) (pu : Nat → Prop) (pg : Nat → Nat → Prop) : ∀ t : Tys, (t.subst σ).All pu pg ↔ t.All (fun v => (σ v).All pu pg) pg
  | .nil => Iff.rfl
  | .cons t ts => and_congr (Ty.all_subst σ pu pg t) (Tys.all_subst σ pu pg ts)
end

mutual
theorem Ty.all_inst (m : Nat → Option Ty) (pu : Nat → Prop) (pg : Nat → Nat → Prop) :
    ∀ t : Ty, (t.inst m).All pu pg ↔ t.All pu fun g l => ((m g).getD (.gen g l)).All pu pg
  | .con _ => Iff.rfl
  | .app f as => and_congr (Ty.all_inst m pu pg f) (Tys.all_inst m pu pg as)
  | .gen _ _ => Iff.rfl
  | .unk _ => Iff.rfl
theorem Tys.all_inst (m : Nat → Option Ty) (pu : Nat → Prop) (pg : Nat → Nat → Prop) :
    ∀ t : Tys, (t.inst m).All pu pg ↔ t.All pu fun g l => ((m g).getD (.gen g l)).All pu pg
  | .nil => Iff.rfl
  | .cons t ts => and_congr (Ty.all_inst m pu pg t) (Tys.all_inst m pu pg ts)
end

mutual
theorem Ty.subst_subst (σ τ : Nat → Ty) : ∀ t : Ty, (t.subst σ).subst τ = t.subst fun v => (σ v).subst τ
  | .con _ => rfl
  | .app f as => congrArg₂ Ty.app (Ty.subst_subst σ τ f) (Tys.subst_subst σ τ as)
  | .gen _ _ => rfl
  | .unk _ => rfl
theorem Tys.subst_subst (σ τ : Nat → Ty) : ∀ t : Tys, (t.subst σ).subst τ = t.subst fun v => (σ v).subst τ
  | .nil => rfl
  | .cons t ts => congrArg₂ Tys.cons (Ty.subst_subst σ τ t) (Tys.subst_subst σ τ ts)
end

mutual
theorem Ty.subst_congr {σ τ : Nat → Ty} : ∀ {t : Ty}, t.All (fun v => σ v = τ v) (fun _ _ => True) → t.subst σ = t.subst τ
  | .con _, _ => rfl
  | .app _ _, h => congrArg₂ Ty.app (Ty.subst_congr h.1) (Tys.subst_congr h.2)
  | .gen _ _, _ => rfl
  | .unk _, h => h
theorem Tys.subst_congr {σ τ : Nat → Ty} : ∀ {t : Tys}, t.All (fun v => σ v = τ v) (fun _ _ => True) → t.subst σ = t.subst τ
  | .nil, _ => rfl
  | .cons _ _, h => congrArg₂ Tys.cons (Ty.subst_congr h.1) (Tys.subst_congr h.2)
end

mutual
theorem Ty.subst_unk : ∀ t : Ty, t.subst Ty.unk = t
  | .con _ => rfl
  | .app f as => congrArg₂ Ty.app (Ty.subst_unk f) (Tys.subst_unk as)
  | .gen _ _ => rfl
  | .unk _ => rfl
theorem Tys.subst_unk : ∀ t : Tys, t.subst Ty.unk = t
  | .nil => rfl
  | .cons t ts => congrArg₂ Tys.cons (Ty.subst_unk t) (Tys.subst_unk ts)
end

theorem Ty.subst_id {σ : Nat → Ty} {t : Ty} {pg : Nat → Nat → Prop} (h : t.All (fun v => σ v = .unk v) pg) : t.subst σ = t :=
  (Ty.subst_congr (τ := Ty.unk) (h.imp (fun _ h => h) fun _ _ _ => trivial)).trans t.subst_unk

theorem Ty.subst_none {σ : Nat → Ty} {t : Ty} {pg : Nat → Nat → Prop} (h : t.All (fun _ => False) pg) : t.subst σ = t :=
  Ty.subst_id (h.imp (fun _ h => h.elim) fun _ _ h => h)

mutual
theorem Ty.inst_subst {m m' : Nat → Option Ty} {τ : Nat → Ty} (hm : ∀ g, m' g = (m g).map (Ty.subst τ)) :
    ∀ {t : Ty}, t.All (fun v => (τ v).inst m' = τ v) (fun _ _ => True) → (t.inst m).subst τ = (t.subst τ).inst m'
  | .con _, _ => rfl
  | .app _ _, h => congrArg₂ Ty.app (Ty.inst_subst hm h.1) (Tys.inst_subst hm h.2)
  | .gen g l, _ => by
    show ((m g).getD (.gen g l)).subst τ = (m' g).getD (.gen g l)
    rw [hm]; cases m g <;> rfl
  | .unk _, h => h.symm
theorem Tys.inst_subst {m m' : Nat → Option Ty} {τ : Nat → Ty} (hm : ∀ g, m' g = (m g).map (Ty.subst τ)) :
    ∀ {t : Tys}, t.All (fun v => (τ v).inst m' = τ v) (fun _ _ => True) → (t.inst m).subst τ = (t.subst τ).inst m'
  | .nil, _ => rfl
  | .cons _ _, h => congrArg₂ Tys.cons (Ty.inst_subst hm h.1) (Tys.inst_subst hm h.2)
end

mutual
theorem Ty.inst_id {m : Nat → Option Ty} {pu : Nat → Prop} : ∀ {t : Ty}, t.All pu (fun g _ => m g = none) → t.inst m = t
  | .con _, _ => rfl
  | .app _ _, h => congrArg₂ Ty.app (Ty.inst_id h.1) (Tys.inst_id h.2)
  | .gen g l, h => by show (m g).getD (.gen g l) = .gen g l; rw [h]; rfl
  | .unk _, _ => rfl
theorem Tys.inst_id {m : Nat → Option Ty} {pu : Nat → Prop} : ∀ {t : Tys}, t.All pu (fun g _ => m g = none) → t.inst m = t
  | .nil, _ => rfl
  | .cons _ _, h => congrArg₂ Tys.cons (Ty.inst_id h.1) (Tys.inst_id h.2)
end

mutual
theorem Ty.all_unks {pu : Nat → Prop} {pg : Nat → Nat → Prop} : ∀ {t : Ty}, t.All pu pg → ∀ v ∈ t.unks, pu v
  | .con _, _, _, h => by cases h
  | .app _ _, h, v, hv => by
    rcases List.mem_append.1 hv with hv | hv
    · exact Ty.all_unks h.1 v hv
    · exact Tys.all_unks h.2 v hv
  | .gen _ _, _, _, h => by cases h
  | .unk w, h, v, hv => by cases List.mem_singleton.1 hv; exact h
theorem Tys.all_unks {pu : Nat → Prop} {pg : Nat → Nat → Prop} : ∀ {t : Tys}, t.All pu pg → ∀ v ∈ t.unks, pu v
  | .nil, _, _, h => by cases h
  | .cons _ _, h, v, hv => by
    rcases List.mem_append.1 hv with hv | hv
    · exact Ty.all_unks h.1 v hv
    · exact Tys.all_unks h.2 v hv
end

mutual
theorem Ty.unks_all : ∀ t : Ty, t.All (· ∈ t.unks) fun _ _ => True
  | .con _ => trivial
  | .app f as => ⟨(Ty.unks_all f).imp (fun _ h => List.mem_append_left _ h) fun _ _ h => h, (Tys.unks_all as).imp (fun _ h => List.mem_append_right _ h) fun _ _ h => h⟩
  | .gen _ _ => trivial
  | .unk _ => List.mem_singleton.2 rfl
theorem Tys.unks_all : ∀ t : Tys, t.All (· ∈ t.unks) fun _ _ => True
  | .nil => trivial
  | .cons t ts => ⟨(Ty.unks_all t).imp (fun _ h => List.mem_append_left _ h) fun _ _ h => h, (Tys.unks_all ts).imp (fun _ h => List.mem_append_right _ h) fun _ _ h => h⟩
end

mutual
theorem Ty.shallow_all {l : Nat} : ∀ {t : Ty}, t.shallow l = true → t.All (fun _ => True) fun _ l' => l' ≤ l
  | .con _, _ => trivial
  | .app _ _, h => by
    have := Bool.and_eq_true_iff.1 h
    exact ⟨Ty.shallow_all this.1, Tys.shallow_all this.2⟩
  | .gen _ _, h => of_decide_eq_true (p := _ ≤ l) h
  | .unk _, _ => trivial
theorem Tys.shallow_all {l : Nat} : ∀ {t : Tys}, t.shallow l = true → t.All (fun _ => True) fun _ l' => l' ≤ l
  | .nil, _ => trivial
  | .cons _ _, h => by
    have := Bool.and_eq_true_iff.1 h
    exact ⟨Ty.shallow_all this.1, Tys.shallow_all this.2⟩
end

theorem ofList_all {pu : Nat → Prop} {pg : Nat → Nat → Prop} : ∀ {ts : List Ty}, (Tys.ofList ts).All pu pg ↔ ∀ t ∈ ts, t.All pu pg
  | [] => by simp [Tys.ofList, Tys.All]
  | t :: ts => by simp [Tys.ofList, Tys.All, ofList_all (ts := ts)]

theorem arrow_all {pu : Nat → Prop} {pg : Nat → Nat → Prop} {ts : List Ty} {r : Ty} : (arrow ts r).All pu pg ↔ (∀ t ∈ ts, t.All pu pg) ∧ r.All pu pg := by
  unfold arrow
  show (True ∧ _) ↔ _
  rw [ofList_all]
  simp only [List.mem_append, List.mem_singleton, true_and]
  constructor
  · exact fun h => ⟨fun t ht => h t (.inl ht), h r (.inr rfl)⟩
  · rintro ⟨h1, h2⟩ t (ht | rfl)
    · exact h1 t ht
    · exact h2

theorem ofList_subst (σ : Nat → Ty) : ∀ ts : List Ty, (Tys.ofList ts).subst σ = Tys.ofList (ts.map (Ty.subst σ))
  | [] => rfl
  | t :: ts => congrArg₂ Tys.cons rfl (ofList_subst σ ts)

theorem arrow_subst (σ : Nat → Ty) (ts : List Ty) (r : Ty) : (arrow ts r).subst σ = arrow (ts.map (Ty.subst σ)) (r.subst σ) := by
  unfold arrow
  show Ty.app _ _ = _
  rw [ofList_subst, List.map_append]
  rfl

theorem funTy_subst (σ : Nat → Ty) (ps : Option (List Nat)) (ts : List Ty) (r : Ty) : (funTy ps ts r).subst σ = funTy ps (ts.map (Ty.subst σ)) (r.subst σ) := by
  cases ps with
  | none => rfl
  | some ps => exact arrow_subst σ ts r

/-! ### States -/

/-- The substitution is done, and what is not made yet is not known. -/
structure WF (s : St) : Prop where
  fresh : ∀ v, s.n ≤ v → s.σ v = .unk v
  idem : ∀ v, (s.σ v).All (fun u => s.σ u = .unk u ∧ (v < s.n → u < s.n)) fun _ _ => True

theorem WF.done {s : St} (h : WF s) (v : Nat) : (s.σ v).subst s.σ = s.σ v := Ty.subst_id ((h.idem v).imp (fun _ h => h.1) fun _ _ h => h)

theorem WF.subst {s : St} (h : WF s) (t : Ty) : (t.subst s.σ).subst s.σ = t.subst s.σ := by
  rw [Ty.subst_subst]
  exact Ty.subst_congr (t.all_top.imp (fun v _ => h.done v) fun _ _ h => h)

/-- In a type, unknown types are of a level less than `K`; so are type parameters of the program except the given ones. -/
def Fit (B : Nat) (s : St) (K : Nat) (ex : Nat → Prop) (t : Ty) : Prop :=
  (t.subst s.σ).All (fun u => u < s.n ∧ s.lv u < K) fun g l => g < s.g ∧ (ex g ∨ B ≤ g ∨ l < K)

/-- Neither these unknown types nor these type parameters are in a type. -/
def Av (s : St) (X : Nat → Prop) (Y : Nat → Nat → Prop) (t : Ty) : Prop := (t.subst s.σ).All (fun u => ¬ X u) fun g l => ¬ Y g l

/-- A type of what is made so far. -/
def Bel (s : St) (t : Ty) : Prop := (t.subst s.σ).All (· < s.n) fun g _ => g < s.g

/-- Sets of unknown types and of type parameters made by the inference so far, and of versions of the type parameters of the program (`A`). -/
structure Adm (B : Nat) (A : Nat → Nat → Prop) (s : St) (X : Nat → Prop) (Y : Nat → Nat → Prop) : Prop where
  x : ∀ u, X u → u < s.n
  y : ∀ g l, Y g l → (B ≤ g ∧ g < s.g) ∨ (g < B ∧ A g l)

/-- What happens between two states: types become more known, levels do not rise, and nothing gets into other types than those that it has to do
with; `Q` says that these avoid some unknown types and type parameters. -/
structure Grow (B : Nat) (A : Nat → Nat → Prop) (Q : (Nat → Prop) → (Nat → Nat → Prop) → Prop) (s s' : St) : Prop where
  n : s.n ≤ s'.n
  g : s.g ≤ s'.g
  ext : ∀ v, (s.σ v).subst s'.σ = s'.σ v
  bel : ∀ t, Bel s t → Bel s' t
  fit : ∀ K ex t, Fit B s K ex t → Fit B s' K ex t
  av : ∀ X Y, Adm B A s X Y → Q X Y → ∀ Y', (∀ g l, Y' g l → Y g l) → ∀ t, Av s X Y' t → Av s' X Y' t

theorem Adm.grow {B : Nat} {A : Nat → Nat → Prop} {Q : (Nat → Prop) → (Nat → Nat → Prop) → Prop} {s s' : St} {X : Nat → Prop} {Y : Nat → Nat → Prop} (h : Adm B A s X Y) (g : Grow B A Q s s') : Adm B A s' X Y :=
  ⟨fun u hu => Nat.lt_of_lt_of_le (h.x u hu) g.n, fun q l hq => (h.y q l hq).imp_left fun h => ⟨h.1, Nat.lt_of_lt_of_le h.2 g.g⟩⟩

theorem Grow.trans {B : Nat} {A : Nat → Nat → Prop} {Q Q1 : (Nat → Prop) → (Nat → Nat → Prop) → Prop} {s s1 s2 : St} (h1 : Grow B A Q s s1) (h2 : Grow B A Q1 s1 s2)
    (h : ∀ X Y, Adm B A s X Y → Q X Y → Q1 X Y) : Grow B A Q s s2 where
  n := Nat.le_trans h1.n h2.n
  g := Nat.le_trans h1.g h2.g
  ext v := by
    rw [← h2.ext v, ← h1.ext v, Ty.subst_subst]
    exact Ty.subst_congr ((Ty.all_top _).imp (fun u _ => (h2.ext u).symm) fun _ _ h => h)
  bel t ht := h2.bel t (h1.bel t ht)
  fit K ex t ht := h2.fit K ex t (h1.fit K ex t ht)
  av X Y ha hq Y' hy t ht := h2.av X Y (ha.grow h1) (h X Y ha hq) Y' hy t (h1.av X Y ha hq Y' hy t ht)

theorem Grow.weaken {B : Nat} {A : Nat → Nat → Prop} {Q Q1 : (Nat → Prop) → (Nat → Nat → Prop) → Prop} {s s' : St} (h : Grow B A Q s s') (hq : ∀ X Y, Adm B A s X Y → Q1 X Y → Q X Y) : Grow B A Q1 s s' :=
  ⟨h.n, h.g, h.ext, h.bel, h.fit, fun X Y ha hq1 => h.av X Y ha (hq X Y ha hq1)⟩

theorem Adm.weaken {B : Nat} {A A' : Nat → Nat → Prop} {s : St} {X : Nat → Prop} {Y : Nat → Nat → Prop} (h : Adm B A s X Y) (ha : ∀ g l, A g l → A' g l) : Adm B A' s X Y :=
  ⟨h.x, fun g l hy => (h.y g l hy).imp_right fun h => ⟨h.1, ha g l h.2⟩⟩

theorem Grow.less {B : Nat} {A A' : Nat → Nat → Prop} {Q : (Nat → Prop) → (Nat → Nat → Prop) → Prop} {s s' : St} (h : Grow B A' Q s s') (ha : ∀ g l, A g l → A' g l) : Grow B A Q s s' :=
  ⟨h.n, h.g, h.ext, h.bel, h.fit, fun X Y had => h.av X Y (had.weaken ha)⟩

theorem Grow.subst {B : Nat} {A : Nat → Nat → Prop} {Q : (Nat → Prop) → (Nat → Nat → Prop) → Prop} {s s' : St} (h : Grow B A Q s s') (t : Ty) : (t.subst s.σ).subst s'.σ = t.subst s'.σ := by
  rw [Ty.subst_subst]
  exact Ty.subst_congr (t.all_top.imp (fun v _ => h.ext v) fun _ _ h => h)

theorem Grow.eq {B : Nat} {A : Nat → Nat → Prop} {Q : (Nat → Prop) → (Nat → Nat → Prop) → Prop} {s s' : St} (h : Grow B A Q s s') {a b : Ty} (e : a.subst s.σ = b.subst s.σ) : a.subst s'.σ = b.subst s'.σ := by
  rw [← h.subst a, ← h.subst b, e]

theorem Grow.refl {B : Nat} {A : Nat → Nat → Prop} {Q : (Nat → Prop) → (Nat → Nat → Prop) → Prop} {s : St} (h : WF s) : Grow B A Q s s :=
  ⟨Nat.le_refl _, Nat.le_refl _, h.done, fun _ h => h, fun _ _ _ h => h, fun _ _ _ _ _ _ _ h => h⟩

theorem Fit.mono {B : Nat} {s : St} {K K' : Nat} {ex ex' : Nat → Prop} {t : Ty} (h : Fit B s K ex t) (hk : K ≤ K') (hx : ∀ g, ex g → ex' g) : Fit B s K' ex' t :=
  Ty.All.imp (fun _ h => ⟨h.1, Nat.lt_of_lt_of_le h.2 hk⟩) (fun g _ h => ⟨h.1, by
    rcases h.2 with h | h | h
    · exact .inl (hx g h)
    · exact .inr (.inl h)
    · exact .inr (.inr (Nat.lt_of_lt_of_le h hk))⟩) h

theorem Av.mono {s : St} {X X' : Nat → Prop} {Y Y' : Nat → Nat → Prop} {t : Ty} (h : Av s X Y t) (hx : ∀ u, X' u → X u) (hy : ∀ g l, Y' g l → Y g l) : Av s X' Y' t :=
  Ty.All.imp (fun _ h h' => h (hx _ h')) (fun _ _ h h' => h (hy _ _ h')) h

theorem Fit.congr {B : Nat} {s : St} {K : Nat} {ex : Nat → Prop} {a b : Ty} (e : a.subst s.σ = b.subst s.σ) (h : Fit B s K ex a) : Fit B s K ex b := by
  unfold Fit at h ⊢; rwa [← e]

theorem Av.congr {s : St} {X : Nat → Prop} {Y : Nat → Nat → Prop} {a b : Ty} (e : a.subst s.σ = b.subst s.σ) (h : Av s X Y a) : Av s X Y b := by
  unfold Av at h ⊢; rwa [← e]

/-! ### New types -/

theorem newVar_wf {s : St} (h : WF s) (lv : Nat) : WF (newVar lv s).2 :=
  ⟨fun v hv => h.fresh v (by have : s.n + 1 ≤ v := hv; omega), fun v => by
    by_cases hv : v < s.n
    · exact (h.idem v).imp (fun u hu => ⟨hu.1, fun _ => by have := hu.2 hv; show u < s.n + 1; omega⟩) fun _ _ h => h
    · have e := h.fresh v (by omega)
      show Ty.All _ _ (s.σ v)
      rw [e]
      exact ⟨e, fun h => h⟩⟩

theorem newVar_grow {B : Nat} {A : Nat → Nat → Prop} {Q : (Nat → Prop) → (Nat → Nat → Prop) → Prop} {s : St} (h : WF s) (lv : Nat) : Grow B A Q s (newVar lv s).2 where
  n := Nat.le_succ _
  g := Nat.le_refl _
  ext := h.done
  bel _ ht := Ty.All.imp (fun _ hu => Nat.lt_succ_of_lt hu) (fun _ _ h => h) ht
  fit K ex t ht := Ty.All.imp (fun u hu => ⟨Nat.lt_succ_of_lt hu.1, by
    show (if u = s.n then lv else s.lv u) < K
    rw [if_neg (by omega)]; exact hu.2⟩) (fun _ _ h => h) ht
  av _ _ _ _ _ _ _ h := h

theorem newVar_fit {B : Nat} {s : St} (h : WF s) (lv : Nat) (ex : Nat → Prop) : Fit B (newVar lv s).2 (lv + 1) ex (newVar lv s).1 := by
  show Ty.All _ _ (s.σ s.n)
  rw [h.fresh s.n (Nat.le_refl _)]
  refine ⟨Nat.lt_succ_self _, ?_⟩
  show (if s.n = s.n then lv else s.lv s.n) < lv + 1
  rw [if_pos rfl]; omega

theorem newVar_av {B : Nat} {A : Nat → Nat → Prop} {s : St} (h : WF s) (lv : Nat) {X : Nat → Prop} {Y : Nat → Nat → Prop} (ha : Adm B A s X Y) : Av (newVar lv s).2 X Y (newVar lv s).1 := by
  show Ty.All _ _ (s.σ s.n)
  rw [h.fresh s.n (Nat.le_refl _)]
  exact fun hx => Nat.lt_irrefl _ (ha.x _ hx)

theorem newVars_wf : ∀ (k : Nat) {s : St}, WF s → ∀ lv, WF (newVars k lv s).2
  | 0, _, h, _ => h
  | k + 1, _, h, lv => newVars_wf k (newVar_wf h lv) lv

theorem newVars_grow {B : Nat} {A : Nat → Nat → Prop} {Q : (Nat → Prop) → (Nat → Nat → Prop) → Prop} : ∀ (k : Nat) {s : St}, WF s → ∀ lv, Grow B A Q s (newVars k lv s).2
  | 0, _, h, _ => .refl h
  | k + 1, _, h, lv => (newVar_grow h lv).trans (newVars_grow (Q := Q) k (newVar_wf h lv) lv) fun _ _ _ h => h

theorem newVars_length : ∀ (k : Nat) (s : St) (lv : Nat), (newVars k lv s).1.length = k
  | 0, _, _ => rfl
  | k + 1, s, lv => congrArg (· + 1) (newVars_length k _ lv)

theorem newVars_fit {B : Nat} : ∀ (k : Nat) {s : St}, WF s → ∀ (lv : Nat) (ex : Nat → Prop), ∀ t ∈ (newVars k lv s).1, Fit B (newVars k lv s).2 (lv + 1) ex t
  | 0, _, _, _, _, t, ht => by cases ht
  | k + 1, s, h, lv, ex, t, ht => by
    rcases List.mem_cons.1 ht with rfl | ht
    · exact (newVars_grow (A := fun _ _ => False) (Q := fun _ _ => True) k (newVar_wf h lv) lv).fit _ _ _ (newVar_fit h lv ex)
    · exact newVars_fit k (newVar_wf h lv) lv ex t ht

theorem newVars_av {B : Nat} {A : Nat → Nat → Prop} : ∀ (k : Nat) {s : St}, WF s → ∀ (lv : Nat) {X : Nat → Prop} {Y : Nat → Nat → Prop}, Adm B A s X Y → ∀ t ∈ (newVars k lv s).1, Av (newVars k lv s).2 X Y t
  | 0, _, _, _, _, _, _, t, ht => by cases ht
  | k + 1, s, h, lv, X, Y, ha, t, ht => by
    have g : Grow B A (fun _ _ => True) s (newVar lv s).2 := newVar_grow h lv
    rcases List.mem_cons.1 ht with rfl | ht
    · exact (newVars_grow (Q := fun _ _ => True) k (newVar_wf h lv) lv).av X Y (ha.grow g) trivial Y (fun _ _ h => h) _ (newVar_av h lv ha)
    · exact newVars_av k (newVar_wf h lv) lv (ha.grow g) t ht

theorem newVars_n : ∀ (k lv : Nat) (s : St), (newVars k lv s).2.n = s.n + k
  | 0, _, _ => rfl
  | k + 1, lv, s => by
    show (newVars k lv (newVar lv s).2).2.n = _
    rw [newVars_n k lv]
    show s.n + 1 + k = s.n + (k + 1)
    omega

theorem newVars_σ : ∀ (k lv : Nat) (s : St), (newVars k lv s).2.σ = s.σ
  | 0, _, _ => rfl
  | k + 1, lv, s => newVars_σ k lv (newVar lv s).2

theorem newVars_g : ∀ (k lv : Nat) (s : St), (newVars k lv s).2.g = s.g
  | 0, _, _ => rfl
  | k + 1, lv, s => newVars_g k lv (newVar lv s).2

theorem newVars_lv : ∀ (k lv : Nat) (s : St) (v : Nat), (newVars k lv s).2.lv v = if s.n ≤ v ∧ v < s.n + k then lv else s.lv v
  | 0, _, s, v => by show s.lv v = _; rw [if_neg (by omega)]
  | k + 1, lv, s, v => by
    show (newVars k lv (newVar lv s).2).2.lv v = _
    rw [newVars_lv k lv]
    show (if s.n + 1 ≤ v ∧ v < s.n + 1 + k then lv else if v = s.n then lv else s.lv v) = _
    by_cases h1 : v = s.n
    · rw [if_neg (by omega), if_pos h1, if_pos (by omega)]
    · by_cases h2 : s.n + 1 ≤ v ∧ v < s.n + 1 + k
      · rw [if_pos h2, if_pos (by omega)]
      · rw [if_neg h2, if_neg h1, if_neg (by omega)]

/-! ### Unification -/

theorem Fit.bel {B : Nat} {s : St} {K : Nat} {ex : Nat → Prop} {t : Ty} (h : Fit B s K ex t) : Bel s t :=
  Ty.All.imp (fun _ h => h.1) (fun _ _ h => h.1) h

theorem single_all {v : Nat} {t : Ty} {pu : Nat → Prop} {pg : Nat → Nat → Prop} (ht : t.All pu pg) (u : Nat) (h : u ≠ v → pu u) : (single v t u).All pu pg := by
  unfold single
  by_cases e : u = v
  · rw [if_pos e]; exact ht
  · rw [if_neg e]; exact h e

/-- What `unify` promises. -/
structure Unified (B : Nat) (A : Nat → Nat → Prop) (a b : Ty) (s s' : St) : Prop where
  wf : WF s'
  grow : Grow B A (fun X Y => Av s X Y a ∧ Av s X Y b) s s'
  eq : a.subst s'.σ = b.subst s'.σ

theorem bindVar_ok {B v : Nat} {A : Nat → Nat → Prop} {t : Ty} {s s' : St} (h : bindVar v t s = some s') (hw : WF s) (hv : v < s.n) (hs : s.σ v = .unk v) (ht : t.subst s.σ = t)
    (hb : t.All (· < s.n) fun g _ => g < s.g) :
    WF s' ∧ Grow B A (fun X Y => ¬ X v ∧ t.All (fun u => ¬ X u) fun g l => ¬ Y g l) s s' ∧ s'.σ v = t ∧ t.subst s'.σ = t := by
  unfold bindVar at h
  split at h
  · cases h
  rename_i hocc
  split at h
  case isFalse => cases h
  rename_i hsh
  have hsh := Ty.shallow_all hsh
  obtain rfl := Option.some.inj h
  have hσ : ∀ u, (s.σ u).subst (single v t) = ({ s with σ := fun w => (s.σ w).subst (single v t), lv := fun w => if w ∈ t.unks then min (s.lv w) (s.lv v) else s.lv w } : St).σ u := fun _ => rfl
  have hun : t.All (fun u => u ∈ t.unks ∧ u ≠ v ∧ s.σ u = .unk u ∧ u < s.n) (fun g l => g < s.g ∧ l ≤ s.lv v) := by
    have h1 := t.unks_all
    have h2 : t.All (fun u => s.σ u = .unk u) fun _ _ => True := by
      have : (t.subst s.σ).All (fun u => s.σ u = .unk u) fun _ _ => True :=
        (Ty.all_subst _ _ _ t).2 (t.all_top.imp (fun u _ => (hw.idem u).imp (fun _ h => h.1) fun _ _ h => h) fun _ _ h => h)
      rwa [ht] at this
    exact ((h1.and h2).and (hb.and hsh)).imp (fun u h => ⟨h.1.1, fun e => hocc (e ▸ h.1.1), h.1.2, h.2.1⟩) fun _ _ h => h.2
  have htt : t.subst (single v t) = t := Ty.subst_id (hun.imp (fun u h => by unfold single; rw [if_neg h.2.1]) fun _ _ h => h)
  have hnew : ∀ u, s.σ u = .unk u → u ≠ v → (s.σ u).subst (single v t) = .unk u := by
    intro u hu hne
    rw [hu]; show single v t u = _; unfold single; rw [if_neg hne]
  have hvv : (s.σ v).subst (single v t) = t := by rw [hs]; show single v t v = t; unfold single; rw [if_pos rfl]
  have hself : t.subst (fun w => (s.σ w).subst (single v t)) = t := by
    rw [← Ty.subst_subst, ht, htt]
  refine ⟨⟨?_, ?_⟩, ⟨Nat.le_refl _, Nat.le_refl _, ?_, ?_, ?_, ?_⟩, hvv, hself⟩
  · intro u hu
    exact hnew u (hw.fresh u hu) (by have : s.n ≤ u := hu; omega)
  · intro u
    refine (Ty.all_subst _ _ _ _).2 ((hw.idem u).imp (fun w h => ?_) fun _ _ h => h)
    unfold single
    by_cases e : w = v
    · rw [if_pos e]
      exact hun.imp (fun x hx => ⟨hnew x hx.2.2.1 hx.2.1, fun _ => hx.2.2.2⟩) fun _ _ _ => trivial
    · rw [if_neg e]
      exact ⟨hnew w h.1 e, h.2⟩
  · intro u
    show (s.σ u).subst (fun w => (s.σ w).subst (single v t)) = _
    rw [← Ty.subst_subst, hw.done]
  · intro x hx
    unfold Bel
    show Ty.All _ _ (x.subst fun w => (s.σ w).subst (single v t))
    rw [← Ty.subst_subst]
    exact (Ty.all_subst _ _ _ _).2 (Ty.All.imp (fun u h => single_all hb u fun _ => h) (fun _ _ h => h) hx)
  · intro K ex x hx
    unfold Fit
    show Ty.All _ _ (x.subst fun w => (s.σ w).subst (single v t))
    rw [← Ty.subst_subst]
    refine (Ty.all_subst _ _ _ _).2 (Ty.All.imp (fun u h => ?_) (fun _ _ h => h) hx)
    unfold single
    by_cases e : u = v
    · subst e
      rw [if_pos rfl]
      refine hun.imp (fun w hw' => ⟨hw'.2.2.2, ?_⟩) fun g l hg => ⟨hg.1, .inr (.inr (by omega))⟩
      show (if w ∈ t.unks then min (s.lv w) (s.lv u) else s.lv w) < K
      rw [if_pos hw'.1]; omega
    · rw [if_neg e]
      refine ⟨h.1, ?_⟩
      show (if u ∈ t.unks then min (s.lv u) (s.lv v) else s.lv u) < K
      split <;> omega
  · intro X Y _ hq Y' hy x hx
    unfold Av
    show Ty.All _ _ (x.subst fun w => (s.σ w).subst (single v t))
    rw [← Ty.subst_subst]
    refine (Ty.all_subst _ _ _ _).2 (Ty.All.imp (fun u h => ?_) (fun _ _ h => h) hx)
    exact single_all (hq.2.imp (fun _ h => h) fun _ _ h h' => h (hy _ _ h')) u fun _ => h

/-- A list of types as a type. -/
def wrap (ts : Tys) : Ty := .app (.con 0) ts

mutual
theorem unify_ok {B : Nat} {A : Nat → Nat → Prop} : ∀ (k : Nat) (a b : Ty) {s s' : St}, unify k a b s = some s' → WF s → Bel s a → Bel s b → Unified B A a b s s'
  | 0, _, _, _, _, h, _, _, _ => by cases h
  | k + 1, a, b, s, s', h, hw, ha, hb => by
    have hra := hw.subst a
    have hrb := hw.subst b
    have var : ∀ (x y : Ty) (v : Nat), x.subst s.σ = .unk v → bindVar v (y.subst s.σ) s = some s' → Bel s x → Bel s y → Unified B A x y s s' ∧ Unified B A y x s s' := by
      intro x y v e h hx hy
      have hvx := hw.subst x
      unfold Bel at hx
      rw [e] at hx hvx
      obtain ⟨w', g', e1, e2⟩ := bindVar_ok (B := B) (A := A) h hw hx hvx (hw.subst y) hy
      have eq : x.subst s'.σ = y.subst s'.σ := by
        rw [← g'.subst x, ← g'.subst y, e, e2]; exact e1
      have q : ∀ X Y, Av s X Y x ∧ Av s X Y y → ¬ X v ∧ (y.subst s.σ).All (fun u => ¬ X u) fun g l => ¬ Y g l := by
        intro X Y ⟨h1, h2⟩
        unfold Av at h1
        rw [e] at h1
        exact ⟨h1, h2⟩
      exact ⟨⟨w', g'.weaken fun X Y _ => q X Y, eq⟩, ⟨w', g'.weaken fun X Y _ h => q X Y ⟨h.2, h.1⟩, eq.symm⟩⟩
    have same : a.subst s.σ = b.subst s.σ → s' = s → Unified B A a b s s' := by
      intro e e'
      subst e'
      exact ⟨hw, .refl hw, e⟩
    unfold unify at h
    split at h
    · rename_i v hv
      split at h
      · rename_i e
        exact same (by rw [hv]; exact e.symm) (Option.some.inj h).symm
      · exact (var a b v hv h ha hb).1
    · rename_i v hv _
      exact (var b a v hv h hb ha).2
    · rename_i c d e1 e2
      split at h
      · rename_i e
        exact same (by rw [e1, e2, e]) (Option.some.inj h).symm
      · cases h
    · rename_i g l g' l' e1 e2
      split at h
      · rename_i e
        exact same (by rw [e1, e2, e.1, e.2]) (Option.some.inj h).symm
      · cases h
    · rename_i f as f' bs e1 e2
      unfold Bel at ha hb
      rw [e1] at ha hra
      rw [e2] at hb hrb
      obtain ⟨s1, h1, h⟩ := Option.bind_eq_some_iff.1 h
      have ra := Ty.app.inj hra
      have rb := Ty.app.inj hrb
      have u1 := unify_ok (B := B) (A := A) k f f' h1 hw (by unfold Bel; rw [ra.1]; exact ha.1) (by unfold Bel; rw [rb.1]; exact hb.1)
      have u2 := unifys_ok (B := B) (A := A) k as bs h u1.wf (u1.grow.bel (wrap as) ⟨trivial, by rw [ra.2]; exact ha.2⟩) (u1.grow.bel (wrap bs) ⟨trivial, by rw [rb.2]; exact hb.2⟩)
      have q : ∀ X Y, (Av s X Y a ∧ Av s X Y b) → (Av s X Y f ∧ Av s X Y f') ∧ Av s X Y (wrap as) ∧ Av s X Y (wrap bs) := by
        intro X Y ⟨h1, h2⟩
        unfold Av at h1 h2
        rw [e1] at h1
        rw [e2] at h2
        exact ⟨⟨by unfold Av; rw [ra.1]; exact h1.1, by unfold Av; rw [rb.1]; exact h2.1⟩, ⟨trivial, by rw [ra.2]; exact h1.2⟩, ⟨trivial, by rw [rb.2]; exact h2.2⟩⟩
      have g1 := u1.grow.weaken (Q1 := fun X Y => Av s X Y a ∧ Av s X Y b) fun X Y _ h => (q X Y h).1
      have g2 := g1.trans u2.grow fun X Y hadm h => ⟨g1.av X Y hadm h Y (fun _ _ h => h) _ (q X Y h).2.1, g1.av X Y hadm h Y (fun _ _ h => h) _ (q X Y h).2.2⟩
      refine ⟨u2.wf, g2, ?_⟩
      rw [← g2.subst a, ← g2.subst b, e1, e2]
      exact congrArg₂ Ty.app (u2.grow.eq u1.eq) (Ty.app.inj u2.eq).2
    · cases h
theorem unifys_ok {B : Nat} {A : Nat → Nat → Prop} : ∀ (k : Nat) (a b : Tys) {s s' : St}, unifys k a b s = some s' → WF s → Bel s (wrap a) → Bel s (wrap b) → Unified B A (wrap a) (wrap b) s s'
  | 0, _, _, _, _, h, _, _, _ => by cases h
  | k + 1, .nil, .nil, s, s', h, hw, _, _ => by
    obtain rfl := Option.some.inj h
    exact ⟨hw, .refl hw, rfl⟩
  | k + 1, .cons a as, .cons b bs, s, s', h, hw, ha, hb => by
    obtain ⟨s1, h1, h⟩ := Option.bind_eq_some_iff.1 h
    have u1 := unify_ok (B := B) (A := A) k a b h1 hw ha.2.1 hb.2.1
    have u2 := unifys_ok (B := B) (A := A) k as bs h u1.wf (u1.grow.bel (wrap as) ⟨trivial, ha.2.2⟩) (u1.grow.bel (wrap bs) ⟨trivial, hb.2.2⟩)
    have g1 := u1.grow.weaken (Q1 := fun X Y => Av s X Y (wrap (.cons a as)) ∧ Av s X Y (wrap (.cons b bs))) fun X Y _ h => ⟨h.1.2.1, h.2.2.1⟩
    have g2 := g1.trans u2.grow fun X Y hadm h => ⟨g1.av X Y hadm h Y (fun _ _ h => h) (wrap as) ⟨trivial, h.1.2.2⟩, g1.av X Y hadm h Y (fun _ _ h => h) (wrap bs) ⟨trivial, h.2.2.2⟩⟩
    exact ⟨u2.wf, g2, congrArg wrap (congrArg₂ Tys.cons (u2.grow.eq u1.eq) (Ty.app.inj u2.eq).2)⟩
  | k + 1, .nil, .cons _ _, _, _, h, _, _, _ => by cases h
  | k + 1, .cons _ _, .nil, _, _, h, _, _, _ => by cases h
end

end Verif.Infer
