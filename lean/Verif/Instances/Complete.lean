import Verif.Instances.Coherent

/-! # What can be proved is found -/
namespace Verif.Instances

open Verif.Infer

variable {W : World} {ar : Nat → Nat}

/-- Nothing is unknown, and levels are numbers of 32 bits. -/
def Kn (t : Ty) : Prop := t.All (fun _ => False) fun _ l => l ≤ bottom
def Kns (t : Tys) : Prop := t.All (fun _ => False) fun _ l => l ≤ bottom

mutual
theorem noDeeper_kn {lv : Nat → Nat} : ∀ {t : Ty}, t.All (fun _ => False) (fun _ l => l ≤ bottom) → noDeeper lv bottom t = true
  | .con _, _ => rfl
  | .app _ _, h => Bool.and_eq_true_iff.2 ⟨noDeeper_kn h.1, noDeepers_kn h.2⟩
  | .gen _ _, h => decide_eq_true h
  | .unk _, h => h.elim
theorem noDeepers_kn {lv : Nat → Nat} : ∀ {t : Tys}, t.All (fun _ => False) (fun _ l => l ≤ bottom) → noDeepers lv bottom t = true
  | .nil, _ => rfl
  | .cons _ _, h => Bool.and_eq_true_iff.2 ⟨noDeeper_kn h.1, noDeepers_kn h.2⟩
end

/-- What a match does. -/
structure Match (s s' : St) (r : Bool) (e : (Nat → Ty) → Prop) : Prop where
  lv : s'.lv = s.lv
  less : ∀ (p : Nat → Prop) x, (s.σ x).All p (fun _ _ => True) → (s'.σ x).All p fun _ _ => True
  most : ∀ ρ, Later s ρ → e ρ → r = true ∧ Later s' ρ

theorem Match.stay {s : St} {r : Bool} {e : (Nat → Ty) → Prop} (h : ∀ ρ, Later s ρ → e ρ → r = true) : Match s s r e := ⟨rfl, fun _ _ h => h, fun ρ l x => ⟨h ρ l x, l⟩⟩

theorem Match.subst {s s' : St} {r : Bool} {e : (Nat → Ty) → Prop} (h : Match s s' r e) {p : Nat → Prop} {t : Ty} (ht : (t.subst s.σ).All p fun _ _ => True) : (t.subst s'.σ).All p fun _ _ => True := by
  rw [Ty.all_subst] at ht ⊢; exact ht.imp (fun v => h.less p v) fun _ _ h => h
theorem Match.substs {s s' : St} {r : Bool} {e : (Nat → Ty) → Prop} (h : Match s s' r e) {p : Nat → Prop} {t : Tys} (ht : (t.subst s.σ).All p fun _ _ => True) : (t.subst s'.σ).All p fun _ _ => True := by
  rw [Tys.all_subst] at ht ⊢; exact ht.imp (fun v => h.less p v) fun _ _ h => h

theorem Match.then {s s1 s' : St} {r : Bool} {e e1 e' : (Nat → Ty) → Prop} (h : Match s s1 true e) (g : Match s1 s' r e1) (f : ∀ ρ, e' ρ → e ρ ∧ e1 ρ) : Match s s' r e' :=
  ⟨g.lv.trans h.lv, fun p x hx => g.less p x (h.less p x hx), fun ρ l x => g.most ρ (h.most ρ l (f ρ x).1).2 (f ρ x).2⟩

theorem Match.fail {s s1 : St} {e e' : (Nat → Ty) → Prop} (h : Match s s1 false e) (f : ∀ ρ, e' ρ → e ρ) : Match s s1 false e' := ⟨h.lv, h.less, fun ρ l x => h.most ρ l (f ρ x)⟩

theorem bind_match {v : Nat} {t : Ty} {s : St} (hv : s.σ v = .unk v) (lv : s.lv v = bottom) (kn : Kn t) : Match s (bind false v t s).2 (bind false v t s).1 fun ρ => ρ v = t.subst ρ := by
  have no : v ∉ t.unks := fun h => Ty.all_unks kn v h
  unfold bind
  rw [if_neg no]
  dsimp only
  rw [if_neg (Bool.false_ne_true), lv, noDeeper_kn kn]
  refine ⟨rfl, fun p x hx => ?_, fun ρ l e => ⟨rfl, fun w => ?_⟩⟩
  · show ((s.σ x).subst (single v t)).All _ _
    rw [Ty.all_subst]
    refine hx.imp (fun u hu => ?_) fun _ _ h => h
    by_cases h : u = v
    · rw [h, single_self]; exact kn.imp (fun _ h => h.elim) fun _ _ _ => trivial
    · rw [single_ne h]; exact hu
  · show ((s.σ w).subst (single v t)).subst ρ = ρ w
    rw [Ty.subst_subst, ← l w]
    refine Ty.subst_congr ((s.σ w).all_top.imp (fun u _ => ?_) fun _ _ h => h)
    by_cases h : u = v
    · rw [h, single_self, e]
    · rw [single_ne h]; rfl

theorem Ext.known {s s' : St} (h : Ext s s') {t : Ty} {p : Nat → Nat → Prop} (k : (t.subst s.σ).All (fun _ => False) p) : t.subst s'.σ = t.subst s.σ := by
  rw [← h.subst, Ty.subst_none k]
theorem Ext.knowns {s s' : St} (h : Ext s s') {t : Tys} {p : Nat → Nat → Prop} (k : (t.subst s.σ).All (fun _ => False) p) : t.subst s'.σ = t.subst s.σ := by
  rw [← h.substs]
  exact (Tys.subst_congr (τ := Ty.unk) (k.imp (fun _ h => h.elim) fun _ _ _ => trivial)).trans (Tys.subst_unk _)

theorem size_pos : ∀ t : Ty, 1 ≤ size t
  | .con _ => Nat.le_refl _
  | .app _ _ => Nat.le_add_left ..
  | .gen _ _ => Nat.le_refl _
  | .unk _ => Nat.le_refl _

mutual
theorem uni_match : ∀ (k : Nat) (a b : Ty) {s : St}, WF s → In s a → In s b → Kn (b.subst s.σ) → (a.subst s.σ).All (fun v => s.lv v = bottom) (fun _ _ => True) → size (b.subst s.σ) ≤ k →
    ∃ r s', uni false k a b s = some (r, s') ∧ Match s s' r fun ρ => a.subst ρ = b.subst ρ
  | 0, _, b, s, _, _, _, _, _, l => by have := size_pos (b.subst s.σ); omega
  | k + 1, a, b, s, w, ia, ib, kb, ba, l => by
    have he : ∀ {ρ}, Later s ρ → a.subst ρ = b.subst ρ → (a.subst s.σ).subst ρ = (b.subst s.σ).subst ρ := fun lt e => by rw [lt.subst, lt.subst, e]
    rw [uni]
    generalize ea : a.subst s.σ = x at ba he
    generalize eb : b.subst s.σ = y at kb he l
    cases x with
    | unk v =>
      have ny : y ≠ .unk v := fun e => by rw [e] at kb; exact kb
      dsimp only
      rw [if_neg ny]
      have hv : s.σ v = .unk v := resolved_unk w ea
      have m := bind_match hv ba kb
      exact ⟨_, _, rfl, m.lv, m.less, fun ρ lt e => m.most ρ lt (he lt e)⟩
    | con c =>
      cases y with
      | unk v => exact kb.elim
      | con d =>
        exact ⟨_, _, rfl, .stay fun ρ lt e => beq_iff_eq.2 (Ty.con.inj (he lt e))⟩
      | gen _ _ => exact ⟨_, _, rfl, .stay fun ρ lt e => nomatch he lt e⟩
      | app _ _ => exact ⟨_, _, rfl, .stay fun ρ lt e => nomatch he lt e⟩
    | gen g m =>
      cases y with
      | unk v => exact kb.elim
      | con d => exact ⟨_, _, rfl, .stay fun ρ lt e => nomatch he lt e⟩
      | gen h n =>
        refine ⟨_, _, rfl, .stay fun ρ lt e => ?_⟩
        obtain ⟨e1, e2⟩ := Ty.gen.inj (he lt e)
        rw [Bool.and_eq_true, beq_iff_eq, beq_iff_eq]; exact ⟨e1, e2⟩
      | app _ _ => exact ⟨_, _, rfl, .stay fun ρ lt e => nomatch he lt e⟩
    | app f as =>
      cases y with
      | unk v => exact kb.elim
      | con d => exact ⟨_, _, rfl, .stay fun ρ lt e => nomatch he lt e⟩
      | gen _ _ => exact ⟨_, _, rfl, .stay fun ρ lt e => nomatch he lt e⟩
      | app f' bs =>
        dsimp only
        by_cases len : Tys.len as = Tys.len bs
        · rw [if_pos len]
          have ra : f.subst s.σ = f ∧ as.subst s.σ = as := by
            have := w.subst a; rw [ea] at this; exact ⟨(Ty.app.inj this).1, (Ty.app.inj this).2⟩
          have rb : f'.subst s.σ = f' ∧ bs.subst s.σ = bs := by
            have := w.subst b; rw [eb] at this; exact ⟨(Ty.app.inj this).1, (Ty.app.inj this).2⟩
          unfold In at ia ib
          rw [ea] at ia; rw [eb] at ib
          have i1 : In s f := by unfold In; rw [ra.1]; exact ia.1
          have i2 : In s f' := by unfold In; rw [rb.1]; exact ib.1
          have l : size f' + sizes bs + 1 ≤ k + 1 := l
          have p := size_pos f'
          obtain ⟨r1, s1, h1, m1⟩ := uni_match k f f' w i1 i2 (by rw [rb.1]; exact kb.1) (by rw [ra.1]; exact ba.1) (by rw [rb.1]; omega)
          have d1 := uni_ok k f f' h1 w i1 i2
          rw [h1]
          cases r1 with
          | false => exact ⟨_, _, rfl, m1.lv, m1.less, fun ρ lt e => m1.most ρ lt (Ty.app.inj (he lt e)).1⟩
          | true =>
            have ins : ∀ ts : Tys, ts.subst s.σ = ts → ts.All (· < s.n) (fun _ _ => True) → Ins s1 ts := fun ts e hin => by
              rw [← e] at hin
              exact Ins.ext (s := s) hin d1.ext d1.wf
            have kb2 : Kns (bs.subst s.σ) := by rw [rb.2]; exact kb.2
            have sb : bs.subst s1.σ = bs := (d1.ext.knowns kb2).trans rb.2
            obtain ⟨r2, s2, h2, m2⟩ := unis_match k as bs d1.wf (ins as ra.2 ia.2) (ins bs rb.2 ib.2) len (by rw [sb]; exact kb.2)
              (by rw [m1.lv]; exact m1.substs (by rw [ra.2]; exact ba.2)) (by rw [sb]; omega)
            refine ⟨r2, s2, h2, m2.lv.trans m1.lv, fun p x hx => m2.less p x (m1.less p x hx), fun ρ lt e => ?_⟩
            obtain ⟨e1, e2⟩ := Ty.app.inj (he lt e)
            exact m2.most ρ (m1.most ρ lt e1).2 e2
        · rw [if_neg len]
          exact ⟨_, _, rfl, .stay fun ρ lt e => absurd (lens_eq (Ty.app.inj (he lt e)).2) len⟩
theorem unis_match : ∀ (k : Nat) (a b : Tys) {s : St}, WF s → Ins s a → Ins s b → Tys.len a = Tys.len b → Kns (b.subst s.σ) → (a.subst s.σ).All (fun v => s.lv v = bottom) (fun _ _ => True) → sizes (b.subst s.σ) < k →
    ∃ r s', unis false k a b s = some (r, s') ∧ Match s s' r fun ρ => a.subst ρ = b.subst ρ
  | 0, _, _, _, _, _, _, _, _, _, l => nomatch l
  | k + 1, .nil, .nil, s, w, _, _, _, _, _, _ => ⟨true, s, rfl, .stay fun _ _ _ => rfl⟩
  | _ + 1, .nil, .cons _ _, _, _, _, _, e, _, _, _ => nomatch e
  | _ + 1, .cons _ _, .nil, _, _, _, _, e, _, _, _ => nomatch e
  | k + 1, .cons a as, .cons b bs, s, w, ia, ib, e, kb, ba, l => by
    have l : size (b.subst s.σ) + sizes (bs.subst s.σ) + 1 < k + 1 := l
    have p := size_pos (b.subst s.σ)
    obtain ⟨r1, s1, h1, m1⟩ := uni_match k a b w ia.1 ib.1 kb.1 ba.1 (by omega)
    have d1 := uni_ok k a b h1 w ia.1 ib.1
    rw [unis, h1]
    cases r1 with
    | false => exact ⟨_, _, rfl, m1.fail fun ρ e => (Tys.cons.inj e).1⟩
    | true =>
      have sb := d1.ext.knowns kb.2
      obtain ⟨r2, s2, h2, m2⟩ := unis_match k as bs d1.wf (Ins.ext ia.2 d1.ext d1.wf) (Ins.ext ib.2 d1.ext d1.wf) (Nat.succ.inj e) (by rw [sb]; exact kb.2) (by rw [m1.lv]; exact m1.substs ba.2) (by rw [sb]; omega)
      exact ⟨r2, s2, h2, m1.then m2 fun ρ e => Tys.cons.inj e⟩
end

theorem uniList_match {k : Nat} : ∀ (as bs : List Ty) {s : St}, WF s → (∀ t ∈ as, In s t) → (∀ t ∈ bs, In s t) → as.length = bs.length → (∀ t ∈ bs, Kn (t.subst s.σ) ∧ size (t.subst s.σ) ≤ k) →
    (∀ t ∈ as, (t.subst s.σ).All (fun v => s.lv v = bottom) fun _ _ => True) →
      ∃ r s', uniList false k as bs s = some (r, s') ∧ Match s s' r fun ρ => as.map (Ty.subst ρ) = bs.map (Ty.subst ρ)
  | [], [], s, _, _, _, _, _, _ => ⟨true, s, rfl, .stay fun _ _ _ => rfl⟩
  | [], _ :: _, _, _, _, _, e, _, _ => nomatch e
  | _ :: _, [], _, _, _, _, e, _, _ => nomatch e
  | a :: as, b :: bs, s, w, ia, ib, e, kb, ba => by
    have i1 := ia a (List.mem_cons_self ..)
    have i2 := ib b (List.mem_cons_self ..)
    obtain ⟨kb1, l⟩ := kb b (List.mem_cons_self ..)
    obtain ⟨r1, s1, h1, m1⟩ := uni_match k a b w i1 i2 kb1 (ba a (List.mem_cons_self ..)) l
    have d1 := uni_ok k a b h1 w i1 i2
    rw [uniList, h1]
    cases r1 with
    | false => exact ⟨_, _, rfl, m1.fail fun ρ e => (List.cons.inj e).1⟩
    | true =>
      obtain ⟨r2, s2, h2, m2⟩ := uniList_match as bs d1.wf (fun t ht => (ia t (List.mem_cons_of_mem _ ht)).ext d1.ext d1.wf) (fun t ht => (ib t (List.mem_cons_of_mem _ ht)).ext d1.ext d1.wf) (Nat.succ.inj e)
        (fun t ht => by
          have kt := kb t (List.mem_cons_of_mem _ ht)
          rw [d1.ext.known kt.1]; exact kt)
        (fun t ht => by rw [m1.lv]; exact m1.subst (ba t (List.mem_cons_of_mem _ ht)))
      exact ⟨r2, s2, h2, m1.then m2 fun ρ e => List.cons.inj e⟩

/-! ### Finding a satisfaction -/

mutual
theorem genIn_all {m : Nat → Option Ty} {g : Nat} {u : Ty} {pu : Nat → Prop} {pg : Nat → Nat → Prop} (hm : m g = some u) : ∀ {t : Ty}, (t.inst m).All pu pg → GenIn g t → u.All pu pg
  | .con _, _, h => h.elim
  | .app _ _, a, h => h.elim (genIn_all hm a.1) (genIns_all hm a.2)
  | .gen h l, a, hg => by
    have hg : h = g := hg
    have a : ((m h).getD (.gen h l)).All pu pg := a
    rw [hg, hm] at a; exact a
  | .unk _, _, h => h.elim
theorem genIns_all {m : Nat → Option Ty} {g : Nat} {u : Ty} {pu : Nat → Prop} {pg : Nat → Nat → Prop} (hm : m g = some u) : ∀ {t : Tys}, (t.inst m).All pu pg → GenIns g t → u.All pu pg
  | .nil, _, h => h.elim
  | .cons _ _, a, h => h.elim (genIn_all hm a.1) (genIns_all hm a.2)
end

def Goal.Kn (g : Goal) : Prop := ∀ t ∈ g.args, Instances.Kn t

theorem ctx_kn (ok : W.OK) (cov : W.Covered) {i : Nat} {tys : List Ty} (e : tys.length = (W.inst i).gs.length) (h : ((W.inst i).target.inst (assoc (W.inst i).gs tys)).Kn) {c : Con} (hc : c ∈ (W.inst i).ctx) :
    (c.goal.inst (assoc (W.inst i).gs tys)).Kn := by
  intro t ht
  obtain ⟨u, hu, rfl⟩ := List.mem_map.1 ht
  unfold Kn
  rw [Ty.all_inst]
  refine (ok.ctx i c hc u hu).imp (fun _ h => h) fun g l hg => ?_
  obtain ⟨x, hx, _⟩ := assoc_mem hg e
  obtain ⟨y, hy, hin⟩ := cov i g hg
  rw [hx]
  exact genIn_all hx (h _ (List.mem_map_of_mem hy)) hin

theorem Goal.ext_known {s s' : St} (h : Ext s s') {g : Goal} {g0 : Goal} (e : g.map (Ty.subst s.σ) = g0) (k : g0.Kn) : g.map (Ty.subst s'.σ) = g0 := by
  rw [← e]
  show (⟨_, _⟩ : Goal) = ⟨_, _⟩
  congr 1
  exact List.map_congr_left fun t ht => h.known (by
    have := k; rw [← e] at this
    exact this _ (List.mem_map_of_mem ht))

theorem tryInsts_found {k : Nat} {f : Goal → St → Option (Option Sat × St)} (ok : W.OK) (ha : W.Arity ar) (cov : W.Covered) (ap : W.Apart) {g0 : Goal} (kn : g0.Kn) {i : Nat} {tys : List Ty} (hi : i ∈ W.avail g0.cls)
    (lt : tys.length = (W.inst i).gs.length) (ht : (W.inst i).target.inst (assoc (W.inst i).gs tys) = g0) (hk : ∀ t ∈ g0.args, size t ≤ k)
    (hf : ∀ gs s, WF s → (∀ g ∈ gs, g.In s ∧ g.Arity ar) → gs.map (Goal.map (Ty.subst s.σ)) = ((W.inst i).ctx.map fun c => c.goal.inst (assoc (W.inst i).gs tys)) → ∃ S s', allOf f gs s = some (some S, s')) :
    ∀ (is : List Nat) {g : Goal} {s : St}, i ∈ is → (∀ j ∈ is, j ∈ W.avail g0.cls) → WF s → g.In s → g.Arity ar → g.map (Ty.subst s.σ) = g0 → ∃ S s', tryInsts k W f is g s = some (some S, s')
  | [], _, _, h, _, _, _, _, _ => nomatch h
  | j :: is, g, s, hj, sub, w, ig, ag, eg => by
    have jj := sub j (List.mem_cons_self ..)
    have w1 := newVars_wf (W.inst j).gs.length w bottom
    have x1 := newVars_ext w (W.inst j).gs.length bottom
    have n1 := newVars_in w (W.inst j).gs.length bottom
    have l1 := newVars_length (W.inst j).gs.length s bottom
    have v1 := newVars_eq (W.inst j).gs.length bottom s
    have σ1 := newVars_σ (W.inst j).gs.length bottom s
    have lv1 := newVars_lv (W.inst j).gs.length bottom s
    have to1 := @newVars_to (W.inst j).gs.length bottom s
    simp only [tryInsts]
    generalize newVars (W.inst j).gs.length bottom s = p at w1 x1 n1 l1 v1 σ1 lv1 to1 ⊢
    obtain ⟨vs, s1⟩ := p
    dsimp only at w1 x1 n1 l1 v1 σ1 lv1 to1 ⊢
    have inG : ∀ {c : Goal}, c.Closed (W.inst j).gs → (c.inst (assoc (W.inst j).gs vs)).In s1 := fun hc t ht => by
      obtain ⟨u, hu, rfl⟩ := List.mem_map.1 ht
      exact In.inst (hc u hu) l1 n1
    have gc : g.cls = g0.cls := by rw [← eg]; rfl
    have len : (((W.inst j).target.inst (assoc (W.inst j).gs vs)).args).length = g.args.length := by
      have a1 : (W.inst j).target.args.length = ar (W.inst j).target.cls := (ha.inst j).1
      have a2 : g.args.length = ar g.cls := ag
      rw [ok.avail _ _ jj] at a1
      show (List.map _ _).length = _
      rw [List.length_map, a1, a2, gc]
    have eg1 := Goal.ext_known x1 eg kn
    have ig1 : ∀ t ∈ g.args, In s1 t := fun t ht => (ig t ht).ext x1 w1
    have ga : ∀ t ∈ g.args, t.subst s1.σ ∈ g0.args := fun t ht => by rw [← eg1]; exact List.mem_map_of_mem ht
    obtain ⟨r, s2, h2, m⟩ := uniList_match (k := k) _ g.args w1 (inG (ok.target j)) ig1 len (fun t ht => ⟨kn _ (ga t ht), hk _ (ga t ht)⟩) (fun t ht => by
      obtain ⟨u, hu, rfl⟩ := List.mem_map.1 ht
      rw [inst_subst_closed l1 (ok.target j u hu), Ty.all_inst]
      refine Ty.All.imp (fun _ h => h.elim) (fun g l hg => ?_) (ok.target j u hu)
      obtain ⟨x, h1, h2⟩ := assoc_mem hg l1
      rw [assoc_map, h1]
      rw [v1] at h2
      obtain ⟨n, hn, rfl⟩ := List.mem_map.1 h2
      have hn := List.mem_range.1 hn
      show (s1.σ (s.n + n)).All _ _
      rw [σ1, w.fresh _ (Nat.le_add_right ..)]
      show s1.lv (s.n + n) = bottom
      rw [lv1, if_pos ⟨Nat.le_add_right .., Nat.add_lt_add_left hn _⟩])
    have d := uniList_ok _ _ h2 w1 (inG (ok.target j)) ig1 len
    rw [h2]
    have eg2 := Goal.ext_known d.ext eg1 kn
    cases r with
    | true =>
      have tj : (W.inst j).target.inst (assoc (W.inst j).gs (vs.map (Ty.subst s2.σ))) = g0 := by
        rw [← Goal.map_closed (hom_subst s2.σ) (ok.target j) l1, ← eg2]
        show (⟨_, _⟩ : Goal) = ⟨_, _⟩
        rw [show ((W.inst j).target.inst (assoc (W.inst j).gs vs)).cls = g.cls from (ok.avail _ _ jj).trans gc.symm]
        congr 1
        exact d.eq rfl
      have lv2 : (vs.map (Ty.subst s2.σ)).length = (W.inst j).gs.length := by rw [List.length_map]; exact l1
      have e := ap _ j jj i hi _ _ (tj.trans ht.symm) lv2 lt
      subst e
      have e := target_inj ok cov lv2 lt (tj.trans ht.symm)
      obtain ⟨S, s3, h3⟩ := hf ((W.inst j).ctx.map fun c => c.goal.inst (assoc (W.inst j).gs vs)) s2 d.wf (fun c hc => by
          obtain ⟨c, h', rfl⟩ := List.mem_map.1 hc
          exact ⟨fun t ht => (inG (ok.ctx j c h') t ht).ext d.ext d.wf, Goal.Arity.map ((ha.inst j).2 c h')⟩) (by
        rw [List.map_map]
        refine List.map_congr_left fun c hc => ?_
        rw [← e]
        exact Goal.map_closed (hom_subst s2.σ) (ok.ctx j c hc) l1)
      dsimp only
      rw [h3]
      exact ⟨_, _, rfl⟩
    | false =>
      have ne : i ≠ j := fun e => by
        subst e
        let ρ : Nat → Ty := fun v => if s.n ≤ v then tys.getD (v - s.n) (.unk v) else s.σ v
        have m1 : vs.map (Ty.subst ρ) = tys := to1 lt fun x hx => by
          show (if s.n ≤ s.n + x then _ else _) = _
          rw [if_pos (Nat.le_add_right ..), Nat.add_sub_cancel_left, List.getD_eq_getElem?_getD, List.getElem?_eq_getElem hx]; rfl
        have ρlt : Later s1 ρ := fun v => by
          rw [σ1]
          by_cases hv : s.n ≤ v
          · rw [w.fresh v hv]; rfl
          · rw [show ρ v = s.σ v from if_neg hv]
            refine Ty.subst_id (pg := fun _ _ => True) ((w.idem v).imp (fun u hu => ?_) fun _ _ h => h)
            have := hu.2 (by omega)
            rw [show ρ u = s.σ u from if_neg (by omega)]; exact hu.1
        refine nomatch (m.most ρ ρlt ?_).1
        have a := Goal.map_closed (hom_subst ρ) (ok.target i) l1
        rw [m1, ht] at a
        have b : g.map (Ty.subst ρ) = g0 := by
          rw [← eg1]
          show (⟨_, _⟩ : Goal) = ⟨_, _⟩
          congr 1
          refine List.map_congr_left fun t ht => ?_
          rw [← ρlt.subst, Ty.subst_none (kn _ (ga t ht))]
        exact (Goal.mk.inj (a.trans b.symm)).2
      exact tryInsts_found ok ha cov ap kn hi lt ht hk hf is ((List.mem_cons.1 hj).resolve_left ne) (fun x hx => sub x (List.mem_cons_of_mem _ hx)) d.wf (fun t ht => (ig1 t ht).ext d.ext d.wf) ag eg2

theorem le_sum : ∀ {l : List Nat} {n : Nat}, n ∈ l → n ≤ l.sum
  | a :: l, n, h => by
    rw [List.sum_cons]
    rcases List.mem_cons.1 h with rfl | h
    · exact Nat.le_add_right ..
    · exact Nat.le_trans (le_sum h) (Nat.le_add_left ..)

theorem equals_self {s : St} : ∀ {as bs : List Ty}, as.map (Ty.subst s.σ) = bs.map (Ty.subst s.σ) → equals s as bs = true
  | [], _, _ => by cases ‹List Ty› <;> rfl
  | _ :: _, [], h => nomatch h
  | a :: as, b :: bs, h => by
    obtain ⟨h1, h2⟩ := List.cons.inj h
    rw [equals, Bool.and_eq_true]
    exact ⟨decide_eq_true (congrArg _ h1), equals_self h2⟩

mutual
theorem build_found {P : List Con} {E : List Entry} (ok : W.OK) (ha : W.Arity ar) (cov : W.Covered) (ap : W.Apart) (hP : ∀ c ∈ P, c.goal.Arity ar) (hE : ∀ e : Entry, e ∈ E ↔ ∃ c ∈ P, e.id = c.id ∧ Sup W c.goal e.path e.goal) :
    ∀ (S : Sat) {g0 : Goal}, Proves W P S g0 → g0.Kn → ∃ k0, ∀ k, k0 ≤ k → ∀ d, S.depth ≤ d → ∀ g s, WF s → g.In s → g.Arity ar → g.map (Ty.subst s.σ) = g0 → ∃ S' s', build k W E d g s = some (some S', s')
  | .premise id path, g0, ⟨c, hc, e, hs⟩, kn => by
    refine ⟨0, fun k _ d hd g s w ig ag eg => ?_⟩
    cases d with
    | zero => exact nomatch hd
    | succ d =>
      have mem : (⟨id, path, g0⟩ : Entry) ∈ E := (hE _).2 ⟨c, hc, e.symm, hs⟩
      rw [build]
      cases hf : E.find? fun e => e.goal.cls == g.cls && equals s e.goal.args g.args with
      | some e => exact ⟨_, _, rfl⟩
      | none =>
        have := List.find?_eq_none.1 hf _ mem
        refine absurd ?_ this
        rw [Bool.and_eq_true, beq_iff_eq]
        have hg : ∀ t ∈ g0.args, t.subst s.σ = t := fun t ht => Ty.subst_none (kn t ht)
        refine ⟨by rw [← eg]; rfl, equals_self ?_⟩
        rw [show g.args.map (Ty.subst s.σ) = g0.args by rw [← eg]; rfl]
        exact (List.map_congr_left hg).trans (List.map_id' _)
  | .inst i tys ss, g0, ⟨h1, h2, h3, h4⟩, kn => by
    obtain ⟨k0, hk0⟩ := builds_found ok ha cov ap hP hE ss h4 (fun g hg => by
      obtain ⟨c, hc, rfl⟩ := List.mem_map.1 hg
      exact ctx_kn ok cov h2 (h3 ▸ kn) hc)
    refine ⟨k0 + g0.size, fun k hk d hd g s w ig ag eg => ?_⟩
    cases d with
    | zero => exact nomatch hd
    | succ d =>
      rw [build]
      cases hf : E.find? fun e => e.goal.cls == g.cls && equals s e.goal.args g.args with
      | some e => exact ⟨_, _, rfl⟩
      | none =>
        have gc : g.cls = g0.cls := by rw [← eg]; rfl
        refine tryInsts_found ok ha cov ap kn h1 h2 h3 (fun t ht => ?_) (fun gs s w hgs e => hk0 k (by omega) d (Nat.le_of_succ_le_succ hd) gs s w hgs e) (W.avail g.cls) (gc ▸ h1) (fun j hj => gc ▸ hj) w ig ag eg
        have : size t ≤ g0.size := le_sum (List.mem_map_of_mem ht)
        omega
theorem builds_found {P : List Con} {E : List Entry} (ok : W.OK) (ha : W.Arity ar) (cov : W.Covered) (ap : W.Apart) (hP : ∀ c ∈ P, c.goal.Arity ar) (hE : ∀ e : Entry, e ∈ E ↔ ∃ c ∈ P, e.id = c.id ∧ Sup W c.goal e.path e.goal) :
    ∀ (S : Sats) {gs0 : List Goal}, ProvesAll W P S gs0 → (∀ g ∈ gs0, g.Kn) → ∃ k0, ∀ k, k0 ≤ k → ∀ d, S.depth ≤ d → ∀ gs s, WF s → (∀ g ∈ gs, g.In s ∧ g.Arity ar) → gs.map (Goal.map (Ty.subst s.σ)) = gs0 →
      ∃ S' s', allOf (build k W E d) gs s = some (some S', s')
  | .nil, _, e, _ => by
    refine ⟨0, fun k _ d _ gs s _ _ e' => ?_⟩
    rw [show _ = [] from e, List.map_eq_nil_iff] at e'
    subst e'
    exact ⟨_, _, rfl⟩
  | .cons S SS, _, ⟨g0, gs0, e, p1, p2⟩, kn => by
    subst e
    obtain ⟨k1, h1⟩ := build_found ok ha cov ap hP hE S p1 (kn g0 (List.mem_cons_self ..))
    obtain ⟨k2, h2⟩ := builds_found ok ha cov ap hP hE SS p2 (fun g hg => kn g (List.mem_cons_of_mem _ hg))
    refine ⟨k1 + k2, fun k hk d hd gs s w hgs e' => ?_⟩
    have hd : max S.depth SS.depth ≤ d := hd
    cases gs with
    | nil => exact nomatch e'
    | cons g gs =>
      obtain ⟨e1, e2⟩ := List.cons.inj e'
      obtain ⟨i1, a1⟩ := hgs g (List.mem_cons_self ..)
      obtain ⟨S', s1, b1⟩ := h1 k (by omega) d (by omega) g s w i1 a1 e1
      have f1 := build_ok ok ha hP (fun e he => (hE e).1 he) d g s _ _ b1 w i1 a1
      have e3 : gs.map (Goal.map (Ty.subst s1.σ)) = gs0 := by
        rw [← e2]
        refine List.map_congr_left fun g hg => Goal.ext_known f1.ext rfl (kn _ (List.mem_cons_of_mem _ ?_))
        rw [← e2]; exact List.mem_map_of_mem hg
      obtain ⟨SS', s2, b2⟩ := h2 k (by omega) d (by omega) gs s1 f1.wf (fun g hg => ⟨fun t ht => ((hgs g (List.mem_cons_of_mem _ hg)).1 t ht).ext f1.ext f1.wf, (hgs g (List.mem_cons_of_mem _ hg)).2⟩) e3
      rw [allOf, b1]
      dsimp only
      rw [b2]
      exact ⟨_, _, rfl⟩
end

end Verif.Instances
