import Verif.Instances.Dict

/-! # Instances that do not unify are for different constraints -/
namespace Verif.Instances

open Verif.Infer

variable {W : World} {ar : Nat → Nat}

mutual
theorem inst_inj {m m' : Nat → Option Ty} {g : Nat} : ∀ {t : Ty}, t.All (fun _ => False) (fun g _ => (m g).isSome ∧ (m' g).isSome) → t.inst m = t.inst m' → GenIn g t → m g = m' g
  | .con _, _, _, h => h.elim
  | .app _ _, a, e, h => h.elim (inst_inj a.1 (Ty.app.inj e).1) (insts_inj a.2 (Ty.app.inj e).2)
  | .gen h l, a, e, hg => by
    have hg : h = g := hg
    rw [← hg]
    have e : (m h).getD (.gen h l) = (m' h).getD (.gen h l) := e
    obtain ⟨x, hx⟩ := Option.isSome_iff_exists.1 a.1
    obtain ⟨y, hy⟩ := Option.isSome_iff_exists.1 a.2
    rw [hx, hy] at e ⊢
    exact congrArg some e
  | .unk _, _, _, h => h.elim
theorem insts_inj {m m' : Nat → Option Ty} {g : Nat} : ∀ {t : Tys}, t.All (fun _ => False) (fun g _ => (m g).isSome ∧ (m' g).isSome) → t.inst m = t.inst m' → GenIns g t → m g = m' g
  | .nil, _, _, h => h.elim
  | .cons _ _, a, e, h => h.elim (inst_inj a.1 (Tys.cons.inj e).1) (insts_inj a.2 (Tys.cons.inj e).2)
end

theorem assoc_inj {α : Type} : ∀ {gs : List Nat} {ts us : List α}, gs.Nodup → ts.length = gs.length → us.length = gs.length → (∀ g ∈ gs, assoc gs ts g = assoc gs us g) → ts = us
  | [], [], [], _, _, _, _ => rfl
  | [], _ :: _, _, _, h, _, _ => nomatch h
  | [], [], _ :: _, _, _, h, _ => nomatch h
  | _ :: _, [], _, _, h, _, _ => nomatch h
  | _ :: _, _ :: _, [], _, _, h, _ => nomatch h
  | g :: gs, t :: ts, u :: us, nd, l1, l2, h => by
    have nd := List.nodup_cons.1 nd
    have e1 := h g (List.mem_cons_self ..)
    rw [assoc, assoc, if_pos rfl, if_pos rfl] at e1
    refine congrArg₂ List.cons (Option.some.inj e1) (assoc_inj nd.2 (Nat.succ.inj l1) (Nat.succ.inj l2) fun x hx => ?_)
    have ne : x ≠ g := fun e => nd.1 (e ▸ hx)
    have := h x (List.mem_cons_of_mem _ hx)
    rwa [assoc, assoc, if_neg ne, if_neg ne] at this

theorem map_eq_mem {α β : Type} {f g : α → β} : ∀ {l : List α}, l.map f = l.map g → ∀ a ∈ l, f a = g a
  | _ :: _, h, a, ha => by
    rcases List.mem_cons.1 ha with rfl | ha
    · exact (List.cons.inj h).1
    · exact map_eq_mem (List.cons.inj h).2 a ha

/-- An instance is for a constraint with certain types only. -/
theorem target_inj (ok : W.OK) (cov : W.Covered) {i : Nat} {ts us : List Ty} (l1 : ts.length = (W.inst i).gs.length) (l2 : us.length = (W.inst i).gs.length)
    (e : (W.inst i).target.inst (assoc (W.inst i).gs ts) = (W.inst i).target.inst (assoc (W.inst i).gs us)) : ts = us := by
  refine assoc_inj (ok.params i) l1 l2 fun g hg => ?_
  obtain ⟨t, ht, hin⟩ := cov i g hg
  refine inst_inj ((ok.target i t ht).imp (fun _ h => h) fun h _ hh => ?_) (map_eq_mem (Goal.mk.inj e).2 t ht) hin
  obtain ⟨x, hx, _⟩ := assoc_mem hh l1
  obtain ⟨y, hy, _⟩ := assoc_mem hh l2
  rw [hx, hy]; exact ⟨rfl, rfl⟩

mutual
theorem right_unique (ok : W.OK) (cov : W.Covered) (ap : W.Apart) : ∀ (D D' : Dict) {g : Goal}, Right W D g → Right W D' g → D = D'
  | .mk i ts ds, .mk j us es, g, ⟨h1, h2, h3, h4⟩, ⟨k1, k2, k3, k4⟩ => by
    have e := ap g.cls i h1 j k1 ts us (h3.trans k3.symm) h2 k2
    subst e
    have e := target_inj ok cov h2 k2 (h3.trans k3.symm)
    subst e
    rw [rights_unique ok cov ap ds es h4 k4]
theorem rights_unique (ok : W.OK) (cov : W.Covered) (ap : W.Apart) : ∀ (D D' : Dicts) {gs : List Goal}, RightAll W D gs → RightAll W D' gs → D = D'
  | .nil, .nil, _, _, _ => rfl
  | .nil, .cons _ _, _, h, ⟨_, _, e, _, _⟩ => nomatch h.symm.trans e
  | .cons _ _, .nil, _, ⟨_, _, e, _, _⟩, h => nomatch h.symm.trans e
  | .cons d ds, .cons d' ds', _, ⟨_, _, e, h1, h2⟩, ⟨_, _, e', k1, k2⟩ => by
    subst e
    obtain ⟨rfl, rfl⟩ := List.cons.inj e'
    rw [right_unique ok cov ap d d' h1 k1, rights_unique ok cov ap ds ds' h2 k2]
end

/-! ### Failing to unify -/

mutual
theorem size_unk {ρ : Nat → Ty} {v : Nat} : ∀ {t : Ty}, v ∈ t.unks → t = .unk v ∨ size (ρ v) < size (t.subst ρ)
  | .con _, h => nomatch h
  | .app f as, h => by
    refine .inr ?_
    show _ < size (f.subst ρ) + sizes (as.subst ρ) + 1
    rcases List.mem_append.1 h with h | h
    · rcases size_unk (ρ := ρ) h with rfl | h
      · show _ < size (ρ v) + _ + 1; omega
      · omega
    · have := sizes_unk (ρ := ρ) h; omega
  | .gen _ _, h => nomatch h
  | .unk w, h => .inl (by rw [List.mem_singleton.1 h])
theorem sizes_unk {ρ : Nat → Ty} {v : Nat} : ∀ {t : Tys}, v ∈ t.unks → size (ρ v) < sizes (t.subst ρ)
  | .nil, h => nomatch h
  | .cons t ts, h => by
    show _ < size (t.subst ρ) + sizes (ts.subst ρ) + 1
    rcases List.mem_append.1 h with h | h
    · rcases size_unk (ρ := ρ) h with rfl | h
      · show _ < size (ρ v) + _ + 1; omega
      · omega
    · have := sizes_unk (ρ := ρ) h; omega
end

mutual
theorem shallow_none {l : Nat} {pu : Nat → Prop} : ∀ {t : Ty}, t.All pu (fun _ _ => False) → t.shallow l = true
  | .con _, _ => rfl
  | .app _ _, h => Bool.and_eq_true_iff.2 ⟨shallow_none h.1, shallows_none h.2⟩
  | .gen _ _, h => h.elim
  | .unk _, _ => rfl
theorem shallows_none {l : Nat} {pu : Nat → Prop} : ∀ {t : Tys}, t.All pu (fun _ _ => False) → t.shallow l = true
  | .nil, _ => rfl
  | .cons _ _, h => Bool.and_eq_true_iff.2 ⟨shallow_none h.1, shallows_none h.2⟩
end

/-- There are no type parameters in what is known. -/
def NoGen (s : St) : Prop := ∀ v, (s.σ v).All (fun _ => True) fun _ _ => False

theorem NoGen.subst {s : St} (h : NoGen s) {t : Ty} (ht : t.All (fun _ => True) fun _ _ => False) : (t.subst s.σ).All (fun _ => True) fun _ _ => False := by
  rw [Ty.all_subst]; exact ht.imp (fun v _ => h v) fun _ _ h => h

theorem bind_most {v : Nat} {t : Ty} {s : St} {ρ : Nat → Ty} (ng : NoGen s) (ht : t.All (fun _ => True) fun _ _ => False) (ne : t ≠ .unk v) (lt : Later s ρ) (hv : s.σ v = .unk v) (e : ρ v = t.subst ρ) :
    (bind true v t s).1 = true ∧ Later (bind true v t s).2 ρ ∧ NoGen (bind true v t s).2 := by
  have no : v ∉ t.unks := fun h => by
    rcases size_unk (ρ := ρ) h with h | h
    · exact ne h
    · rw [e] at h; exact Nat.lt_irrefl _ h
  unfold bind
  rw [if_neg no]
  dsimp only
  rw [if_pos rfl, if_pos (shallow_none ht)]
  refine ⟨rfl, fun w => ?_, fun w => ?_⟩
  · show ((s.σ w).subst (single v t)).subst ρ = ρ w
    rw [Ty.subst_subst, ← lt w]
    refine Ty.subst_congr ((s.σ w).all_top.imp (fun u _ => ?_) fun _ _ h => h)
    by_cases h : u = v
    · rw [h, single_self, e]
    · rw [single_ne h]; rfl
  · show ((s.σ w).subst (single v t)).All _ _
    rw [Ty.all_subst]
    refine (ng w).imp (fun u _ => ?_) fun _ _ h => h
    by_cases h : u = v
    · rw [h, single_self]; exact ht
    · rw [single_ne h]; trivial

mutual
theorem uni_most : ∀ (k : Nat) {a b : Ty} {s s' : St} {r : Bool} {ρ : Nat → Ty}, uni true k a b s = some (r, s') → WF s → In s a → In s b → NoGen s → a.All (fun _ => True) (fun _ _ => False) →
    b.All (fun _ => True) (fun _ _ => False) → Later s ρ → a.subst ρ = b.subst ρ → r = true ∧ Later s' ρ ∧ NoGen s'
  | 0, _, _, _, _, _, _, h, _, _, _, _, _, _, _, _ => nomatch h
  | k + 1, a, b, s, s', r, ρ, h, w, ia, ib, ng, na, nb, lt, e => by
    have ha := ng.subst na
    have hb := ng.subst nb
    have he : (a.subst s.σ).subst ρ = (b.subst s.σ).subst ρ := by rw [lt.subst, lt.subst, e]
    rw [uni] at h
    split at h
    · rename_i v ea
      rw [ea] at he
      split at h
      · obtain ⟨rfl, rfl⟩ := Prod.mk.inj (Option.some.inj h); exact ⟨rfl, lt, ng⟩
      · rename_i ne
        have := bind_most ng hb ne lt (resolved_unk w ea) he
        rw [Option.some.inj h] at this; exact this
    · rename_i v eb na'
      rw [if_pos rfl] at h
      rw [eb] at he
      have := bind_most ng ha (fun h => na' v h) lt (resolved_unk w eb) he.symm
      rw [Option.some.inj h] at this; exact this
    · rename_i c d ea eb
      obtain ⟨rfl, rfl⟩ := Prod.mk.inj (Option.some.inj h)
      rw [ea, eb] at he
      exact ⟨beq_iff_eq.2 (Ty.con.inj he), lt, ng⟩
    · rename_i g l g' l' ea eb
      rw [ea] at ha; exact ha.elim
    · rename_i f as f' bs ea eb
      have ra : f.subst s.σ = f ∧ as.subst s.σ = as := by
        have := w.subst a; rw [ea] at this; exact ⟨(Ty.app.inj this).1, (Ty.app.inj this).2⟩
      have rb : f'.subst s.σ = f' ∧ bs.subst s.σ = bs := by
        have := w.subst b; rw [eb] at this; exact ⟨(Ty.app.inj this).1, (Ty.app.inj this).2⟩
      unfold In at ia ib
      rw [ea] at ia ha; rw [eb] at ib hb
      rw [ea, eb] at he
      obtain ⟨e1, e2⟩ := Ty.app.inj he
      have i1 : In s f := by unfold In; rw [ra.1]; exact ia.1
      have i2 : In s f' := by unfold In; rw [rb.1]; exact ib.1
      split at h
      · rcases andThen_some h with ⟨h1, rfl⟩ | ⟨s1, h1, h2⟩
        · exact nomatch (uni_most k h1 w i1 i2 ng ha.1 hb.1 lt e1).1
        · have d1 := uni_ok k f f' h1 w i1 i2
          have ins : ∀ ts : Tys, ts.subst s.σ = ts → ts.All (· < s.n) (fun _ _ => True) → Ins s1 ts := fun ts e hin => by
            rw [← e] at hin
            exact Ins.ext (s := s) hin d1.ext d1.wf
          obtain ⟨_, lt1, ng1⟩ := uni_most k h1 w i1 i2 ng ha.1 hb.1 lt e1
          exact unis_most k h2 d1.wf (ins as ra.2 ia.2) (ins bs rb.2 ib.2) ng1 ha.2 hb.2 lt1 e2
      · rename_i len
        exact absurd (lens_eq e2) len
    · rename_i h1 h2 h3 h4 h5
      exfalso
      generalize a.subst s.σ = x at *
      generalize b.subst s.σ = y at *
      cases x with
      | unk v => exact h1 v rfl
      | gen g l => exact ha.elim
      | con c =>
        cases y with
        | unk v => exact h2 v rfl
        | gen g l => exact hb.elim
        | con d => exact h3 c d rfl rfl
        | app f as => exact nomatch he
      | app f as =>
        cases y with
        | unk v => exact h2 v rfl
        | gen g l => exact hb.elim
        | con d => exact nomatch he
        | app f' as' => exact h5 f as f' as' rfl rfl
theorem unis_most : ∀ (k : Nat) {a b : Tys} {s s' : St} {r : Bool} {ρ : Nat → Ty}, unis true k a b s = some (r, s') → WF s → Ins s a → Ins s b → NoGen s → a.All (fun _ => True) (fun _ _ => False) →
    b.All (fun _ => True) (fun _ _ => False) → Later s ρ → a.subst ρ = b.subst ρ → r = true ∧ Later s' ρ ∧ NoGen s'
  | 0, _, _, _, _, _, _, h, _, _, _, _, _, _, _, _ => nomatch h
  | k + 1, .nil, .nil, s, s', r, ρ, h, w, _, _, ng, _, _, lt, _ => by
    rw [unis] at h
    · obtain ⟨rfl, rfl⟩ := Prod.mk.inj (Option.some.inj h)
      exact ⟨rfl, lt, ng⟩
    · intros; contradiction
  | _ + 1, .nil, .cons _ _, _, _, _, _, _, _, _, _, _, _, _, _, e => nomatch e
  | _ + 1, .cons _ _, .nil, _, _, _, _, _, _, _, _, _, _, _, _, e => nomatch e
  | k + 1, .cons a as, .cons b bs, s, s', r, ρ, h, w, ia, ib, ng, na, nb, lt, e => by
    rw [unis] at h
    obtain ⟨e1, e2⟩ := Tys.cons.inj e
    rcases andThen_some h with ⟨h1, rfl⟩ | ⟨s1, h1, h2⟩
    · exact nomatch (uni_most k h1 w ia.1 ib.1 ng na.1 nb.1 lt e1).1
    · have d1 := uni_ok k a b h1 w ia.1 ib.1
      obtain ⟨_, lt1, ng1⟩ := uni_most k h1 w ia.1 ib.1 ng na.1 nb.1 lt e1
      exact unis_most k h2 d1.wf (Ins.ext ia.2 d1.ext d1.wf) (Ins.ext ib.2 d1.ext d1.wf) ng1 na.2 nb.2 lt1 e2
theorem lens_eq {ρ : Nat → Ty} : ∀ {a b : Tys}, a.subst ρ = b.subst ρ → Tys.len a = Tys.len b
  | .nil, .nil, _ => rfl
  | .nil, .cons _ _, e => nomatch e
  | .cons _ _, .nil, e => nomatch e
  | .cons _ _, .cons _ _, e => congrArg (· + 1) (lens_eq (Tys.cons.inj e).2)
end

theorem uniList_most {k : Nat} {ρ : Nat → Ty} : ∀ {as bs : List Ty} {s s' : St} {r : Bool}, uniList true k as bs s = some (r, s') → WF s → (∀ t ∈ as, In s t) → (∀ t ∈ bs, In s t) → NoGen s →
    (∀ t ∈ as, t.All (fun _ => True) fun _ _ => False) → (∀ t ∈ bs, t.All (fun _ => True) fun _ _ => False) → Later s ρ → as.map (Ty.subst ρ) = bs.map (Ty.subst ρ) → r = true
  | [], [], s, s', r, h, _, _, _, _, _, _, _, _ => by
    obtain ⟨rfl, rfl⟩ := Prod.mk.inj (Option.some.inj h); rfl
  | [], _ :: _, _, _, _, _, _, _, _, _, _, _, _, e => nomatch e
  | _ :: _, [], _, _, _, _, _, _, _, _, _, _, _, e => nomatch e
  | a :: as, b :: bs, s, s', r, h, w, ia, ib, ng, na, nb, lt, e => by
    obtain ⟨e1, e2⟩ := List.cons.inj e
    have i1 := ia a (List.mem_cons_self ..)
    have i2 := ib b (List.mem_cons_self ..)
    have n1 := na a (List.mem_cons_self ..)
    have n2 := nb b (List.mem_cons_self ..)
    rcases andThen_some h with ⟨h1, rfl⟩ | ⟨s1, h1, h2⟩
    · exact nomatch (uni_most k h1 w i1 i2 ng n1 n2 lt e1).1
    · have d1 := uni_ok k a b h1 w i1 i2
      obtain ⟨_, lt1, ng1⟩ := uni_most k h1 w i1 i2 ng n1 n2 lt e1
      exact uniList_most h2 d1.wf (fun t ht => (ia t (List.mem_cons_of_mem _ ht)).ext d1.ext d1.wf) (fun t ht => (ib t (List.mem_cons_of_mem _ ht)).ext d1.ext d1.wf) ng1
        (fun t ht => na t (List.mem_cons_of_mem _ ht)) (fun t ht => nb t (List.mem_cons_of_mem _ ht)) lt1 e2

theorem newVars_eq : ∀ (k lv : Nat) (s : St), (newVars k lv s).1 = (List.range k).map fun i => Ty.unk (s.n + i)
  | 0, _, _ => rfl
  | k + 1, lv, s => by
    rw [List.range_succ_eq_map, List.map_cons, List.map_map]
    refine congrArg₂ List.cons rfl ((newVars_eq k lv _).trans (List.map_congr_left fun i _ => ?_))
    show Ty.unk (s.n + 1 + i) = Ty.unk (s.n + (i + 1))
    rw [Nat.add_right_comm, Nat.add_assoc]

theorem newVars_plain (k lv : Nat) (s : St) : ∀ t ∈ (newVars k lv s).1, t.All (fun _ => True) fun _ _ => False := fun t ht => by
  rw [newVars_eq] at ht
  obtain ⟨i, _, rfl⟩ := List.mem_map.1 ht
  trivial

/-- The new unknown types are what is given for them. -/
theorem newVars_to {k lv : Nat} {s : St} {ts : List Ty} {ρ : Nat → Ty} (e : ts.length = k) (h : ∀ i, (hi : i < ts.length) → ρ (s.n + i) = ts[i]) : (newVars k lv s).1.map (Ty.subst ρ) = ts := by
  rw [newVars_eq, List.map_map]
  refine List.ext_getElem (by rw [List.length_map, List.length_range, e]) fun i h1 h2 => ?_
  rw [List.getElem_map, List.getElem_range]
  exact h i h2

theorem plain_inst {gs : List Nat} {tys : List Ty} {t : Ty} (h : Written (· ∈ gs) t) (e : tys.length = gs.length) (hi : ∀ t ∈ tys, t.All (fun _ => True) fun _ _ => False) :
    (t.inst (assoc gs tys)).All (fun _ => True) fun _ _ => False := by
  rw [Ty.all_inst]
  refine Ty.All.imp (fun _ h => h.elim) (fun g l hg => ?_) h
  obtain ⟨u, h1, h2⟩ := assoc_mem hg e
  rw [h1]
  exact hi u h2

/-- If two instances do not unify, they are for different constraints. -/
theorem overlap_apart {k : Nat} (ok : W.OK) {i j : Nat} (h : overlap k W i j = some false) {ts us : List Ty} (lt : ts.length = (W.inst i).gs.length) (lu : us.length = (W.inst j).gs.length)
    (e : (W.inst i).target.inst (assoc (W.inst i).gs ts) = (W.inst j).target.inst (assoc (W.inst j).gs us)) : False := by
  let s0 : St := ⟨0, Ty.unk, fun _ => 0, 0⟩
  have w0 : WF s0 := ⟨fun _ _ => rfl, fun v => ⟨rfl, fun h => h⟩⟩
  have w1 := newVars_wf (W.inst i).gs.length w0 0
  have w2 := newVars_wf (W.inst j).gs.length w1 0
  unfold overlap at h
  dsimp only at h
  obtain ⟨⟨r, s'⟩, h, hr⟩ := Option.map_eq_some_iff.1 h
  cases hr
  have l1 := newVars_length (W.inst i).gs.length s0 0
  have l2 := newVars_length (W.inst j).gs.length (newVars (W.inst i).gs.length 0 s0).2 0
  have n1 := newVars_in w0 (W.inst i).gs.length 0
  have n2 := newVars_in w1 (W.inst j).gs.length 0
  have x2 := newVars_ext w1 (W.inst j).gs.length 0
  let ρ : Nat → Ty := fun v => (ts ++ us).getD v (.unk v)
  have m1 : (newVars (W.inst i).gs.length 0 s0).1.map (Ty.subst ρ) = ts := newVars_to lt fun x hx => by
    show (ts ++ us).getD (0 + x) _ = _
    rw [Nat.zero_add, List.getD_eq_getElem?_getD, List.getElem?_append_left hx, List.getElem?_eq_getElem hx]; rfl
  have m2 : (newVars (W.inst j).gs.length 0 (newVars (W.inst i).gs.length 0 s0).2).1.map (Ty.subst ρ) = us := newVars_to lu fun x hx => by
    show (ts ++ us).getD _ _ = _
    rw [newVars_n, show s0.n = 0 from rfl, Nat.zero_add, ← lt, List.getD_eq_getElem?_getD, List.getElem?_append_right (Nat.le_add_right ..), Nat.add_sub_cancel_left, List.getElem?_eq_getElem hx]; rfl
  have σ2 : (newVars (W.inst j).gs.length 0 (newVars (W.inst i).gs.length 0 s0).2).2.σ = Ty.unk := by rw [newVars_σ, newVars_σ]
  refine nomatch uniList_most (ρ := ρ) h w2 (fun t ht => ?_) (fun t ht => ?_) ?_ (fun t ht => ?_) (fun t ht => ?_) ?_ ?_
  · obtain ⟨u, hu, rfl⟩ := List.mem_map.1 ht
    exact In.inst (ok.target i u hu) l1 fun t ht => (n1 t ht).ext x2 w2
  · obtain ⟨u, hu, rfl⟩ := List.mem_map.1 ht
    exact In.inst (ok.target j u hu) l2 n2
  · intro v; rw [σ2]; trivial
  · obtain ⟨u, hu, rfl⟩ := List.mem_map.1 ht
    exact plain_inst (ok.target i u hu) l1 (newVars_plain _ _ _)
  · obtain ⟨u, hu, rfl⟩ := List.mem_map.1 ht
    exact plain_inst (ok.target j u hu) l2 (newVars_plain _ _ _)
  · intro v; rw [σ2]; rfl
  · have a := Goal.map_closed (hom_subst ρ) (ok.target i) l1
    have b := Goal.map_closed (hom_subst ρ) (ok.target j) l2
    rw [m1] at a; rw [m2] at b
    exact (Goal.mk.inj (a.trans (e.trans b.symm))).2

theorem pairs_mem : ∀ {is : List Nat} {i j : Nat}, i ∈ is → j ∈ is → i ≠ j → (i, j) ∈ pairs is ∨ (j, i) ∈ pairs is
  | a :: is, i, j, hi, hj, ne => by
    show _ ∈ _ ++ _ ∨ _ ∈ _ ++ _
    simp only [List.mem_append, List.mem_map]
    rcases List.mem_cons.1 hi with rfl | hi' <;> rcases List.mem_cons.1 hj with rfl | hj'
    · exact absurd rfl ne
    · exact .inl (.inl ⟨j, hj', rfl⟩)
    · exact .inr (.inl ⟨i, hi', rfl⟩)
    · exact (pairs_mem hi' hj' ne).imp .inr .inr

/-- Instances checked in one module, and the instances of each other module checked there. -/
theorem checked_apart (ok : W.OK) {md : Nat → Nat} {mid : Nat} {k : Nat → Nat} (here : ∀ c, overlapChecked (k mid) W md mid (W.avail c) = true)
    (there : ∀ m, m ≠ mid → ∀ c, ∃ is, (∀ i ∈ W.avail c, md i = m → i ∈ is) ∧ overlapChecked (k m) W md m is = true) : W.Apart := by
  intro c i hi j hj ts us e lt lu
  refine Classical.byContradiction fun ne => ?_
  have key : ∀ {n : Nat} {m : Nat} {is : List Nat}, overlapChecked n W md m is = true → i ∈ is → j ∈ is → (md i = md j ∧ md i ≠ m) := fun {n m is} h hi hj => by
    rcases pairs_mem hi hj ne with hp | hp
    · have := List.all_eq_true.1 h _ hp
      rw [Bool.or_eq_true, Bool.and_eq_true, beq_iff_eq, bne_iff_ne, beq_iff_eq] at this
      exact this.resolve_right fun h => overlap_apart ok h lt lu e
    · have := List.all_eq_true.1 h _ hp
      rw [Bool.or_eq_true, Bool.and_eq_true, beq_iff_eq, bne_iff_ne, beq_iff_eq] at this
      have := this.resolve_right fun h => overlap_apart ok h lu lt e.symm
      exact ⟨this.1.symm, this.1 ▸ this.2⟩
  obtain ⟨e1, e2⟩ := key (here c) hi hj
  obtain ⟨is, h1, h2⟩ := there (md i) e2 c
  exact (key h2 (h1 i hi rfl) (h1 j hj e1.symm)).2 rfl

end Verif.Instances
