import Verif.Infer.Base
import Verif.Instances.Model

/-! # Unifying and matching -/
namespace Verif.Instances

open Verif.Infer

/-- Only unknown types made so far. -/
def In (s : St) (t : Ty) : Prop := (t.subst s.σ).All (· < s.n) fun _ _ => True

/-- Types only become more known. -/
structure Ext (s s' : St) : Prop where
  n : s.n ≤ s'.n
  sub : ∀ v, (s.σ v).subst s'.σ = s'.σ v

theorem Ext.refl {s : St} (h : WF s) : Ext s s := ⟨Nat.le_refl _, h.done⟩

theorem Ext.subst {s s' : St} (h : Ext s s') (t : Ty) : (t.subst s.σ).subst s'.σ = t.subst s'.σ := by
  rw [Ty.subst_subst]; exact Ty.subst_congr (t.all_top.imp (fun v _ => h.sub v) fun _ _ h => h)

theorem Ext.trans {a b c : St} (h : Ext a b) (g : Ext b c) : Ext a c :=
  ⟨Nat.le_trans h.n g.n, fun v => by rw [← g.subst (a.σ v), h.sub v, g.sub v]⟩

theorem Ext.eq {s s' : St} (h : Ext s s') {a b : Ty} (e : a.subst s.σ = b.subst s.σ) : a.subst s'.σ = b.subst s'.σ := by
  rw [← h.subst a, ← h.subst b, e]

theorem In.ext {s s' : St} {t : Ty} (h : In s t) (e : Ext s s') (w : WF s') : In s' t := by
  unfold In; rw [← e.subst, Ty.all_subst]
  exact h.imp (fun u hu => (w.idem u).imp (fun x hx => hx.2 (Nat.lt_of_lt_of_le hu e.n)) fun _ _ h => h) fun _ _ h => h

def Ins (s : St) (t : Tys) : Prop := (t.subst s.σ).All (· < s.n) fun _ _ => True

theorem Ext.substs {s s' : St} (h : Ext s s') (t : Tys) : (t.subst s.σ).subst s'.σ = t.subst s'.σ := by
  rw [Tys.subst_subst]; exact Tys.subst_congr (t.all_top.imp (fun v _ => h.sub v) fun _ _ h => h)

theorem Ins.ext {s s' : St} {t : Tys} (h : Ins s t) (e : Ext s s') (w : WF s') : Ins s' t := by
  unfold Ins; rw [← e.substs, Tys.all_subst]
  exact h.imp (fun u hu => (w.idem u).imp (fun x hx => hx.2 (Nat.lt_of_lt_of_le hu e.n)) fun _ _ h => h) fun _ _ h => h

/-- What is resolved is not known at its unknown types. -/
theorem resolved {s : St} (w : WF s) (t : Ty) : (t.subst s.σ).All (fun u => s.σ u = .unk u) fun _ _ => True := by
  rw [Ty.all_subst]
  exact t.all_top.imp (fun v _ => (w.idem v).imp (fun _ h => h.1) fun _ _ h => h) fun _ _ h => h

theorem resolved_unk {s : St} (w : WF s) {t : Ty} {v : Nat} (h : t.subst s.σ = .unk v) : s.σ v = .unk v := by
  have := resolved w t; rw [h] at this; exact this

theorem single_ne {v w : Nat} {t : Ty} (h : w ≠ v) : single v t w = .unk w := if_neg h
theorem single_self {v : Nat} {t : Ty} : single v t v = t := if_pos rfl

theorem bound {s s' : St} {v : Nat} {t : Ty} (w : WF s) (hv : s.σ v = .unk v) (ln : v < s.n) (ht : t.All (fun u => s.σ u = .unk u ∧ u < s.n) fun _ _ => True) (no : v ∉ t.unks)
    (hn : s'.n = s.n) (hs : s'.σ = fun w => (s.σ w).subst (single v t)) : WF s' ∧ Ext s s' ∧ s'.σ v = t ∧ t.subst s'.σ = t := by
  have other : ∀ u, u ≠ v → s.σ u = .unk u → s'.σ u = .unk u := fun u hu e => by rw [hs]; show (s.σ u).subst _ = _; rw [e]; exact single_ne hu
  have self : s'.σ v = t := by rw [hs]; show (s.σ v).subst _ = _; rw [hv]; exact single_self
  have inT : t.All (fun u => s'.σ u = .unk u ∧ u < s.n) fun _ _ => True :=
    (ht.and t.unks_all).imp (fun u hu => ⟨other u (fun e => no (e ▸ hu.2)) hu.1.1, hu.1.2⟩) fun _ _ _ => trivial
  have fix : t.subst s'.σ = t := Ty.subst_id (inT.imp (fun _ h => h.1) fun _ _ h => h)
  refine ⟨⟨fun u hu => ?_, fun u => ?_⟩, ⟨Nat.le_of_eq hn.symm, fun u => ?_⟩, self, fix⟩
  · rw [hn] at hu; exact other u (by omega) (w.fresh u hu)
  · rw [hn]
    rw [show s'.σ u = (s.σ u).subst (single v t) by rw [hs], Ty.all_subst]
    refine (w.idem u).imp (fun x hx => ?_) fun _ _ h => h
    by_cases e : x = v
    · rw [e, single_self]; exact inT.imp (fun _ h => ⟨h.1, fun _ => h.2⟩) fun _ _ h => h
    · rw [single_ne e]; exact ⟨other x e hx.1, hx.2⟩
  · rw [show s'.σ u = (s.σ u).subst (single v t) by rw [hs]]
    refine Ty.subst_congr ((w.idem u).imp (fun x hx => ?_) fun _ _ h => h)
    by_cases e : x = v
    · rw [e, single_self, self]
    · rw [single_ne e, other x e hx.1]

/-- What unifying two types does. -/
structure Did (s s' : St) (r : Bool) (e : Prop) : Prop where
  wf : WF s'
  ext : Ext s s'
  n : s'.n = s.n
  eq : r = true → e

theorem Did.imp {s s' : St} {r : Bool} {e e' : Prop} (h : Did s s' r e) (f : e → e') : Did s s' r e' := ⟨h.wf, h.ext, h.n, fun x => f (h.eq x)⟩

theorem bind_ok {two : Bool} {v : Nat} {t : Ty} {s : St} (w : WF s) (hv : s.σ v = .unk v) (ln : v < s.n) (ht : t.All (fun u => s.σ u = .unk u ∧ u < s.n) fun _ _ => True) :
    Did s (bind two v t s).2 (bind two v t s).1 ((bind two v t s).2.σ v = t.subst (bind two v t s).2.σ) := by
  unfold bind
  by_cases no : v ∈ t.unks
  · rw [if_pos no]; exact ⟨w, .refl w, rfl, fun h => nomatch h⟩
  rw [if_neg no]
  cases two with
  | true =>
    dsimp only
    rw [if_pos rfl]
    split
    · obtain ⟨a, b, c, d⟩ := bound (s' := { s with σ := fun w => (s.σ w).subst (single v t), lv := fun w => if w ∈ t.unks then min (s.lv w) (s.lv v) else s.lv w }) w hv ln ht no rfl rfl
      exact ⟨a, b, rfl, fun _ => c.trans d.symm⟩
    · obtain ⟨a, b, c, d⟩ := bound (s' := { s with σ := fun w => (s.σ w).subst (single v t) }) w hv ln ht no rfl rfl
      exact ⟨a, b, rfl, fun _ => c.trans d.symm⟩
  | false =>
    obtain ⟨a, b, c, d⟩ := bound (s' := { s with σ := fun w => (s.σ w).subst (single v t) }) w hv ln ht no rfl rfl
    exact ⟨a, b, rfl, fun _ => c.trans d.symm⟩

theorem andThen_some {r : Option (Bool × St)} {f : St → Option (Bool × St)} {b : Bool} {s : St} (h : andThen r f = some (b, s)) :
    (r = some (false, s) ∧ b = false) ∨ ∃ s1, r = some (true, s1) ∧ f s1 = some (b, s) := by
  unfold andThen at h
  split at h
  · exact .inr ⟨_, rfl, h⟩
  · rename_i r' hr
    cases b with
    | false => exact .inl ⟨h, rfl⟩
    | true => exact absurd h (hr s)

theorem Did.then {s s1 s' : St} {e e1 e' : Prop} {r : Bool} (h : Did s s1 true e) (g : Did s1 s' r e1) (f : e → e1 → Ext s1 s' → e') : Did s s' r e' :=
  ⟨g.wf, h.ext.trans g.ext, g.n.trans h.n, fun x => f (h.eq rfl) (g.eq x) g.ext⟩

theorem Did.fail {s s' : St} {e e' : Prop} (h : Did s s' false e) : Did s s' false e' := ⟨h.wf, h.ext, h.n, fun x => nomatch x⟩

mutual
theorem uni_ok {two : Bool} : ∀ (k : Nat) (a b : Ty) {s s' : St} {r : Bool}, uni two k a b s = some (r, s') → WF s → In s a → In s b → Did s s' r (a.subst s'.σ = b.subst s'.σ)
  | 0, _, _, _, _, _, h, _, _, _ => nomatch h
  | k + 1, a, b, s, s', r, h, w, ia, ib => by
    have stay : ∀ {r : Bool}, (r = true → a.subst s.σ = b.subst s.σ) → Did s s r (a.subst s.σ = b.subst s.σ) := fun h => ⟨w, .refl w, rfl, h⟩
    have full : ∀ t, In s t → (t.subst s.σ).All (fun u => s.σ u = .unk u ∧ u < s.n) fun _ _ => True := fun t ht =>
      ((resolved w t).and ht).imp (fun _ h => h) fun _ _ _ => trivial
    have var : ∀ (x y : Ty) (v : Nat), x.subst s.σ = .unk v → In s x → In s y → bind two v (y.subst s.σ) s = (r, s') → Did s s' r (x.subst s'.σ = y.subst s'.σ) := by
      intro x y v e ix iy hb
      have lx : v < s.n := by unfold In at ix; rw [e] at ix; exact ix
      have d := bind_ok (two := two) w (resolved_unk w e) lx (full y iy)
      rw [hb] at d
      refine d.imp fun q => ?_
      rw [← d.ext.subst x, e]
      show s'.σ v = _
      rw [q, d.ext.subst]
    rw [uni] at h
    split at h
    · rename_i v ea
      split at h
      · rename_i et
        obtain ⟨rfl, rfl⟩ := Prod.mk.inj (Option.some.inj h)
        exact stay fun _ => by rw [ea, et]
      · exact var a b v ea ia ib (Option.some.inj h)
    · rename_i v eb _
      split at h
      · exact (var b a v eb ib ia (Option.some.inj h)).imp Eq.symm
      · obtain ⟨rfl, rfl⟩ := Prod.mk.inj (Option.some.inj h)
        exact stay fun x => nomatch x
    · rename_i c d ea eb
      obtain ⟨rfl, rfl⟩ := Prod.mk.inj (Option.some.inj h)
      exact stay fun x => by rw [ea, eb, beq_iff_eq.1 x]
    · rename_i g l g' l' ea eb
      obtain ⟨rfl, rfl⟩ := Prod.mk.inj (Option.some.inj h)
      refine stay fun x => ?_
      rw [Bool.and_eq_true, beq_iff_eq, beq_iff_eq] at x
      rw [ea, eb, x.1, x.2]
    · rename_i f as f' bs ea eb
      split at h
      · rename_i len
        have ra : f.subst s.σ = f ∧ as.subst s.σ = as := by
          have := w.subst a; rw [ea] at this; exact ⟨(Ty.app.inj this).1, (Ty.app.inj this).2⟩
        have rb : f'.subst s.σ = f' ∧ bs.subst s.σ = bs := by
          have := w.subst b; rw [eb] at this; exact ⟨(Ty.app.inj this).1, (Ty.app.inj this).2⟩
        unfold In at ia ib
        rw [ea] at ia; rw [eb] at ib
        have fin : ∀ {s1 : St}, Ext s s1 → f.subst s1.σ = f'.subst s1.σ → as.subst s1.σ = bs.subst s1.σ → a.subst s1.σ = b.subst s1.σ := fun x p q => by
          rw [← x.subst a, ← x.subst b, ea, eb]
          exact congrArg₂ Ty.app p q
        have i1 : In s f := by unfold In; rw [ra.1]; exact ia.1
        have i2 : In s f' := by unfold In; rw [rb.1]; exact ib.1
        rcases andThen_some h with ⟨h1, rfl⟩ | ⟨s1, h1, h2⟩
        · exact (uni_ok k f f' h1 w i1 i2).fail
        · have d1 := uni_ok k f f' h1 w i1 i2
          have ins : ∀ ts : Tys, ts.subst s.σ = ts → ts.All (· < s.n) (fun _ _ => True) → Ins s1 ts := fun ts e hin => by
            rw [← e] at hin
            exact Ins.ext (s := s) hin d1.ext d1.wf
          have d2 := unis_ok k as bs h2 d1.wf (ins as ra.2 ia.2) (ins bs rb.2 ib.2) len
          exact d1.then d2 fun p q x => fin (d1.ext.trans x) (x.eq p) q
      · obtain ⟨rfl, rfl⟩ := Prod.mk.inj (Option.some.inj h)
        exact stay fun x => nomatch x
    · obtain ⟨rfl, rfl⟩ := Prod.mk.inj (Option.some.inj h)
      exact stay fun x => nomatch x
theorem unis_ok {two : Bool} : ∀ (k : Nat) (a b : Tys) {s s' : St} {r : Bool}, unis two k a b s = some (r, s') → WF s → Ins s a → Ins s b → Tys.len a = Tys.len b →
    Did s s' r (a.subst s'.σ = b.subst s'.σ)
  | 0, _, _, _, _, _, h, _, _, _, _ => nomatch h
  | k + 1, .nil, .nil, s, s', r, h, w, _, _, _ => by
    rw [unis] at h
    · obtain ⟨rfl, rfl⟩ := Prod.mk.inj (Option.some.inj h)
      exact ⟨w, .refl w, rfl, fun _ => rfl⟩
    · intros; contradiction
  | _ + 1, .nil, .cons _ _, _, _, _, _, _, _, _, e => nomatch e
  | _ + 1, .cons _ _, .nil, _, _, _, _, _, _, _, e => nomatch e
  | k + 1, .cons a as, .cons b bs, s, s', r, h, w, ia, ib, e => by
    rw [unis] at h
    rcases andThen_some h with ⟨h1, rfl⟩ | ⟨s1, h1, h2⟩
    · exact (uni_ok k a b h1 w ia.1 ib.1).fail
    · have d1 := uni_ok k a b h1 w ia.1 ib.1
      have d2 := unis_ok k as bs h2 d1.wf (Ins.ext ia.2 d1.ext d1.wf) (Ins.ext ib.2 d1.ext d1.wf) (Nat.succ.inj e)
      exact d1.then d2 fun p q x => congrArg₂ Tys.cons (x.eq p) q
end

theorem uniList_ok {two : Bool} {k : Nat} : ∀ (as bs : List Ty) {s s' : St} {r : Bool}, uniList two k as bs s = some (r, s') → WF s → (∀ t ∈ as, In s t) → (∀ t ∈ bs, In s t) →
    as.length = bs.length → Did s s' r (as.map (Ty.subst s'.σ) = bs.map (Ty.subst s'.σ))
  | [], [], s, s', r, h, w, _, _, _ => by
    obtain ⟨rfl, rfl⟩ := Prod.mk.inj (Option.some.inj h)
    exact ⟨w, .refl w, rfl, fun _ => rfl⟩
  | [], _ :: _, _, _, _, _, _, _, _, e => nomatch e
  | _ :: _, [], _, _, _, _, _, _, _, e => nomatch e
  | a :: as, b :: bs, s, s', r, h, w, ia, ib, e => by
    have i1 := ia a (List.mem_cons_self ..)
    have i2 := ib b (List.mem_cons_self ..)
    rcases andThen_some h with ⟨h1, rfl⟩ | ⟨s1, h1, h2⟩
    · exact (uni_ok k a b h1 w i1 i2).fail
    · have d1 := uni_ok k a b h1 w i1 i2
      have d2 := uniList_ok as bs h2 d1.wf (fun t ht => (ia t (List.mem_cons_of_mem _ ht)).ext d1.ext d1.wf) (fun t ht => (ib t (List.mem_cons_of_mem _ ht)).ext d1.ext d1.wf)
        (Nat.succ.inj e)
      exact d1.then d2 fun p q x => congrArg₂ List.cons (x.eq p) q

end Verif.Instances
