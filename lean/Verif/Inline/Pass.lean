import Verif.Inline.Algo

/-!
# A normalised function is related to what it was
-/
namespace Verif.Inline

open Verif.Closure

theorem TransOK.mono {t : Ct → Bool} {n n' : Nat} {d : Def} (h : TransOK t n d) (hn : n ≤ n') : TransOK t n' d :=
  { h with old := fun z hz => Nat.lt_of_lt_of_le (h.old z hz) hn }

theorem toList_pure : ∀ (as : Exprs), Pures as → ∀ a ∈ Exprs.toList as, Pure a
  | .nil, _, _, h => nomatch h
  | .cons _ as, h, a, ha => (List.mem_cons.1 ha).elim (fun e => e ▸ h.1) (toList_pure as h.2 a)

theorem toList_uses {u : Id} : ∀ (as : Exprs), ∀ a ∈ Exprs.toList as, u ∈ a.uses → u ∈ as.uses
  | .nil, _, h, _ => nomatch h
  | .cons b as, a, ha, hu => by
    simp only [Exprs.uses, List.mem_append]
    rcases List.mem_cons.1 ha with rfl | ha
    · exact .inl hu
    · exact .inr (toList_uses as a ha hu)

theorem look_zip {z : Id} {a : Expr} : ∀ (ps : List Id) (as : List Expr), look (ps.zip as) z = some a → z ∈ ps ∧ a ∈ as
  | [], _, h => by cases h
  | _ :: _, [], h => by cases h
  | p :: ps, b :: as, h => by
    simp only [List.zip_cons_cons, look] at h
    split at h
    · rename_i e
      cases h
      exact ⟨e ▸ List.mem_cons_self, List.mem_cons_self⟩
    · obtain ⟨h1, h2⟩ := look_zip ps as h
      exact ⟨List.mem_cons_of_mem _ h1, List.mem_cons_of_mem _ h2⟩

theorem look_zip_some {z : Id} : ∀ (ps : List Id) (as : List Expr), ps.length = as.length → z ∈ ps → ∃ a, look (ps.zip as) z = some a
  | [], _, _, h => nomatch h
  | p :: ps, [], hl, _ => nomatch hl
  | p :: ps, b :: as, hl, hz => by
    simp only [List.zip_cons_cons, look]
    by_cases e : p = z
    · exact ⟨b, by simp [e]⟩
    · obtain ⟨a, ha⟩ := look_zip_some ps as (Nat.succ.inj hl) ((List.mem_cons.1 hz).resolve_left fun e' => e e'.symm)
      exact ⟨a, by rw [if_neg e]; exact ha⟩

section
variable {t : Ct → Bool} {next : Nat} {d : Def} {as : Exprs}

theorem argsOK (h : TransOK t next d) (hp : Pures as) (hu : ∀ z ∈ as.uses, z ∉ d.body.defs) : ArgsOK (d.params.zip (Exprs.toList as)) d.body.defs where
  pure z a hl := toList_pure as hp a (look_zip _ _ hl).2
  par z hz := by
    cases hl : look (d.params.zip (Exprs.toList as)) z with
    | none => rfl
    | some a => exact ((defs_new d.body h.scope hz).1 (look_zip _ _ hl).1).elim
  away z a hl u hu' := hu u (toList_uses as a (look_zip _ _ hl).2 hu')

theorem inv0 (hl : d.params.length = (Exprs.toList as).length) (hu : ∀ z ∈ as.uses, z < next) :
    Inv (d.params.zip (Exprs.toList as)) ⟨next, []⟩ (ofParams d.params as) d.params where
  sig z hz := by
    obtain ⟨a, ha⟩ := look_zip_some _ _ hl hz
    simp [ofParams, tr, ha]
  old z hz u hu' := by
    obtain ⟨a, ha⟩ := look_zip_some _ _ hl hz
    simp only [tr, ha, Option.getD_some] at hu'
    exact hu u (toList_uses as a (look_zip _ _ ha).2 hu')

/-- `callTransparent` taken apart. -/
theorem call_parts {e' : Expr} {next' : Nat} (h : callTransparent d as next = some (e', next')) :
    d.params.length = (Exprs.toList as).length ∧ ∃ s, realloc (replaceRt (d.params.zip (Exprs.toList as)) d.body) ⟨next, []⟩ = some (e', s) ∧ s.next = next' := by
  simp only [callTransparent] at h
  split at h
  · cases h
  · split at h
    · cases h
    · rename_i hl
      obtain ⟨⟨q, s⟩, h1, h2⟩ := Option.map_eq_some_iff.1 h
      cases h2
      exact ⟨by simpa using hl, s, h1, rfl⟩

end

mutual
/-- Pure stays pure. -/
theorem pure_subst {m : List (Id × Expr)} {D : List Id} (ha : ArgsOK m D) {s : RS} (hs : ∀ z, (look s.map z).isSome → z ∈ D) {V : List Id} {B : Id → Prop}
    (hB : ∀ z ∈ V, ∀ u ∈ (tr m s z).uses, B u) : ∀ (e : Expr) {e' : Expr} {s' : RS}, Pure e → OK V [] e → realloc (replaceRt m e) s = some (e', s') →
    Pure e' ∧ s' = s ∧ ∀ u ∈ e'.uses, B u
  | .var x, e', s', h, ho, he => by
    have key : realloc (replaceRt m (.var x)) s = some (tr m s x, s) := by
      simp only [replaceRt, tr]
      cases hl : look m x with
      | none => rfl
      | some a =>
        refine pure_realloc a (ha.pure x a hl) fun u hu => ?_
        cases hk : look s.map u with
        | none => rfl
        | some w => exact (ha.away x a hl u hu (hs u (by simp [hk]))).elim
    rw [key] at he
    cases he
    refine ⟨?_, rfl, hB x ho⟩
    simp only [tr]
    cases hl : look m x with
    | none => trivial
    | some a => exact ha.pure x a hl
  | .sfun _, e', s', h, ho, he => by simp only [replaceRt, realloc] at he; cases he; exact ⟨trivial, rfl, by simp [Expr.uses]⟩
  | .int _, e', s', h, ho, he => by simp only [replaceRt, realloc] at he; cases he; exact ⟨trivial, rfl, by simp [Expr.uses]⟩
  | .sfunEnv c e, e', s', h, ho, he => by
    simp only [replaceRt, realloc, Option.bind_eq_bind, Option.bind_eq_some_iff] at he
    obtain ⟨⟨q, s2⟩, h2, he⟩ := he
    cases he
    have k := pure_subst ha hs hB e h ho h2
    exact k
  | .prim (.data t) as, e', s', h, ho, he => by
    simp only [replaceRt, realloc, Option.bind_eq_bind, Option.bind_eq_some_iff] at he
    obtain ⟨⟨q, s2⟩, h2, he⟩ := he
    cases he
    exact pures_subst ha hs hB as h ho h2
  | .prim .env as, e', s', h, ho, he => by
    simp only [replaceRt, realloc, Option.bind_eq_bind, Option.bind_eq_some_iff] at he
    obtain ⟨⟨q, s2⟩, h2, he⟩ := he
    cases he
    exact pures_subst ha hs hB as h ho h2
  | .prim .add _, _, _, h, _, _ => nomatch h
  | .prim .sub _, _, _, h, _, _ => nomatch h
  | .prim .mul _, _, _, h, _, _ => nomatch h
  | .prim .eq _, _, _, h, _, _ => nomatch h
  | .prim .lt _, _, _, h, _, _ => nomatch h
  | .prim .alloc _, _, _, h, _, _ => nomatch h
  | .prim .load _, _, _, h, _, _ => nomatch h
  | .prim .store _, _, _, h, _, _ => nomatch h
  | .prim .print _, _, _, h, _, _ => nomatch h
theorem pures_subst {m : List (Id × Expr)} {D : List Id} (ha : ArgsOK m D) {s : RS} (hs : ∀ z, (look s.map z).isSome → z ∈ D) {V : List Id} {B : Id → Prop}
    (hB : ∀ z ∈ V, ∀ u ∈ (tr m s z).uses, B u) : ∀ (es : Exprs) {es' : Exprs} {s' : RS}, Pures es → OKs V [] es → reallocs (replaceRts m es) s = some (es', s') →
    Pures es' ∧ s' = s ∧ ∀ u ∈ es'.uses, B u
  | .nil, e', s', h, ho, he => by simp only [replaceRts, reallocs] at he; cases he; exact ⟨trivial, rfl, by simp [Exprs.uses]⟩
  | .cons e es, e', s', h, ho, he => by
    simp only [replaceRts, reallocs, Option.bind_eq_bind, Option.bind_eq_some_iff] at he
    obtain ⟨⟨q, s2⟩, h2, ⟨r, s3⟩, h3, he⟩ := he
    cases he
    obtain ⟨k1, rfl, k2⟩ := pure_subst ha hs hB e h.1 ho.1 h2
    obtain ⟨k3, rfl, k4⟩ := pures_subst ha hs hB es h.2 ho.2 h3
    refine ⟨⟨k1, k3⟩, rfl, fun u hu => ?_⟩
    simp only [Exprs.uses, List.mem_append] at hu
    exact hu.elim (k2 u) (k4 u)
end

/-- What is asked of the arguments of a call of a transparent function. -/
def CallOK (t : Ct → Bool) (P : Prog) (next : Nat) (f : Expr) (as : Exprs) : Prop :=
  ∀ c, f = .sfun c → t c = true → Pures as ∧ ∀ z ∈ as.uses, Away t P next z

theorem after_rel {t : Ct → Bool} {P : Prog} {next0 : Nat} (hT : ∀ c d, t c = true → P c = some d → TransOK t next0 d) :
    ∀ (fuel : Nat) {σ : Sig} {f f' : Expr} {as as' : Exprs} {e' : Expr} {next next' : Nat}, next0 ≤ next → R P σ f f' → Rs P σ as as' → CallOK t P next f' as' →
    afterRt t P fuel (.call f' as') f' as' next = some (e', next') → R P σ (.call f as) e' ∧ next ≤ next'
  | 0, _, _, _, _, _, _, _, _, _, _, _, _, h => by simp only [afterRt] at h; cases h
  | fuel + 1, σ, f, f', as, as', e', next, next', hn, hf, has, hc, h => by
    have skip : some (Expr.call f' as', next) = some (e', next') → R P σ (.call f as) e' ∧ next ≤ next' := by
      intro h; cases h; exact ⟨.call hf has, Nat.le_refl _⟩
    cases f' with
    | sfun c =>
      simp only [afterRt] at h
      split at h
      · rename_i htc
        cases hP : P c with
        | none => rw [hP] at h; exact skip h
        | some d =>
          rw [hP] at h
          simp only [Option.bind_eq_bind, Option.bind_eq_some_iff] at h
          obtain ⟨⟨e1, n1⟩, h1, h⟩ := h
          obtain ⟨hpure, haway⟩ := hc c rfl htc
          have hd := (hT c d htc hP).mono hn
          obtain ⟨hl, s1, hr, rfl⟩ := call_parts h1
          have ha := argsOK hd hpure fun z hz => (haway z hz).2 c d htc hP
          have hi := inv0 (d := d) hl fun z hz => (haway z hz).1
          have hdom : ∀ z, (look (RS.mk next []).map z).isSome → z ∈ d.body.defs := by simp [look]
          have hrel := rel P ha d.body hr hd.scope (fun _ h => h) hd.names hdom hi
          have hstep := step _ hr
          have hle : next ≤ s1.next := hstep.1
          have done : R P (ofParams d.params as') d.body e' → s1.next ≤ next' → R P σ (.call f as) e' ∧ next ≤ next' :=
            fun h h' => ⟨.inline hf hP hd.env hd.noRet has hpure hd.params hl h, Nat.le_trans hle h'⟩
          have leaf : some (e1, s1.next) = some (e', next') → R P σ (.call f as) e' ∧ next ≤ next' := by
            intro h; cases h; exact done hrel (Nat.le_refl _)
          cases e1 with
          | call g1 bs1 =>
            simp only at h
            -- the body is a call
            cases hb : d.body with
            | call g bs =>
              rw [hb] at hr
              have ho := hd.scope
              have hnm := hd.names
              rw [hb] at ho hnm
              simp only [replaceRt, realloc, Option.bind_eq_bind, Option.bind_eq_some_iff] at hr
              obtain ⟨⟨g2, s2⟩, r1, ⟨bs2, s3⟩, r2, hr⟩ := hr
              cases hr
              obtain ⟨m1, m2, m3⟩ := List.nodup_append.1 hnm
              have q1 := rel P ha g r1 ho.1 (fun z hz => by rw [hb]; exact List.mem_append_left _ hz) m1 hdom hi
              have q2 := step _ r1
              rw [defs_replace ha.pure] at q2
              have d2 := dom_step hdom q2 fun z hz => by rw [hb]; exact List.mem_append_left _ hz
              have i2 := hi.step q2 fun z hz hz' => (defs_new g ho.1 hz').1 hz
              have q3 := rels P ha bs r2 ho.2 (fun z hz => by rw [hb]; exact List.mem_append_right _ hz) m2 d2 i2
              have q4 : CallOK t P s3.next g2 bs2 := by
                intro c2 e2 ht2
                subst e2
                have hpb : Pures bs := by
                  have hro := hd.root
                  rw [hb] at hro
                  cases g with
                  | var x => exact hro
                  | sfun c3 =>
                    simp only [replaceRt, realloc] at r1
                    cases r1
                    exact hro ht2
                  | _ =>
                    simp only [replaceRt, realloc, Option.bind_eq_bind, Option.bind_eq_some_iff] at r1
                    first
                      | (cases r1; done)
                      | (obtain ⟨⟨_, _⟩, _, r1⟩ := r1; cases r1; done)
                      | (obtain ⟨⟨_, _⟩, _, ⟨_, _⟩, _, r1⟩ := r1; cases r1; done)
                      | (obtain ⟨⟨_, _⟩, _, ⟨_, _⟩, _, ⟨_, _⟩, _, r1⟩ := r1; cases r1; done)
                have hgs : s2.map = [] := by
                  cases g with
                  | var x =>
                    obtain ⟨_, e, _⟩ := pure_subst ha hdom (V := d.params) (B := fun _ => True) (fun _ _ _ _ => trivial) (.var x) trivial ho.1 r1
                    rw [e]
                  | sfun c3 =>
                    simp only [replaceRt, realloc] at r1
                    cases r1
                    rfl
                  | _ =>
                    simp only [replaceRt, realloc, Option.bind_eq_bind, Option.bind_eq_some_iff] at r1
                    first
                      | (cases r1; done)
                      | (obtain ⟨⟨_, _⟩, _, r1⟩ := r1; cases r1; done)
                      | (obtain ⟨⟨_, _⟩, _, ⟨_, _⟩, _, r1⟩ := r1; cases r1; done)
                      | (obtain ⟨⟨_, _⟩, _, ⟨_, _⟩, _, ⟨_, _⟩, _, r1⟩ := r1; cases r1; done)
                obtain ⟨p1, _, p2⟩ := pures_subst ha d2 (V := d.params) (B := fun u => u ∈ as'.uses) (by
                  intro z hz u hu
                  obtain ⟨a, hla⟩ := look_zip_some _ _ hl hz
                  simp only [tr, hla, Option.getD_some] at hu
                  exact toList_uses as' a (look_zip _ _ hla).2 hu) bs hpb ho.2 r2
                exact ⟨p1, fun z hz => ⟨Nat.lt_of_lt_of_le (haway z (p2 z hz)).1 hle, (haway z (p2 z hz)).2⟩⟩
              obtain ⟨w1, w2⟩ := after_rel hT fuel (Nat.le_trans hn hle) q1 q3 q4 h
              exact done (by rw [hb]; exact w1) w2
            | var x =>
              rw [hb] at hr
              have ho := hd.scope
              rw [hb] at ho
              obtain ⟨w, _, _⟩ := pure_subst ha hdom (V := d.params) (B := fun _ => True) (fun _ _ _ _ => trivial) (.var x) trivial ho hr
              exact nomatch w
            | _ =>
              rw [hb] at hr
              simp only [replaceRt, realloc, Option.bind_eq_bind, Option.bind_eq_some_iff] at hr
              first
                | (cases hr; done)
                | (obtain ⟨⟨_, _⟩, _, hr⟩ := hr; cases hr; done)
                | (obtain ⟨⟨_, _⟩, _, ⟨_, _⟩, _, hr⟩ := hr; cases hr; done)
                | (obtain ⟨⟨_, _⟩, _, ⟨_, _⟩, _, ⟨_, _⟩, _, hr⟩ := hr; cases hr; done)
          | _ => exact leaf h
      · exact skip h
    | sfunEnv c a =>
      simp only [afterRt] at h
      split at h
      · cases h
      · exact skip h
    | _ => simp only [afterRt] at h; exact skip h

/-! ## A whole expression -/

theorem own_bind {V : List Id} (x : Id) : (own V).bind x x = own (x :: V) := by
  funext z
  simp only [Sig.bind, own, Sig.hide, List.mem_cons]
  by_cases e : z = x
  · simp [e]
  · simp only [e, if_false, false_or]
    by_cases h : z ∈ V
    · simp only [h, if_true, Expr.uses, List.mem_singleton]
      rw [if_neg fun e' => e e'.symm]
    · simp [h]

mutual
theorem pat_own : ∀ (p : Pat) (V : List Id), ∃ V', PatR p p (own V) (own V') ∧ ∀ z, z ∈ V' ↔ z ∈ p.vars ++ V
  | .wild, V => ⟨V, ⟨rfl, rfl⟩, by simp [Pat.vars]⟩
  | .var x p, V => by
    obtain ⟨V', h1, h2⟩ := pat_own p (x :: V)
    refine ⟨V', ⟨x, p, rfl, by rw [own_bind]; exact h1⟩, fun z => ?_⟩
    rw [h2]
    simp only [Pat.vars, List.mem_append, List.mem_cons, List.cons_append]
    constructor
    · rintro (h | h | h) <;> simp [h]
    · rintro (h | h | h) <;> simp [h]
  | .int n, V => ⟨V, ⟨rfl, rfl⟩, by simp [Pat.vars]⟩
  | .data t ps, V => by
    obtain ⟨V', h1, h2⟩ := pats_own ps V
    exact ⟨V', ⟨ps, rfl, h1⟩, h2⟩
  | .deref p, V => by
    obtain ⟨V', h1, h2⟩ := pat_own p V
    exact ⟨V', ⟨p, rfl, h1⟩, h2⟩
theorem pats_own : ∀ (ps : Pats) (V : List Id), ∃ V', PatsR ps ps (own V) (own V') ∧ ∀ z, z ∈ V' ↔ z ∈ ps.vars ++ V
  | .nil, V => ⟨V, ⟨rfl, rfl⟩, by simp [Pats.vars]⟩
  | .cons p ps, V => by
    obtain ⟨V1, h1, h2⟩ := pat_own p V
    obtain ⟨V2, h3, h4⟩ := pats_own ps V1
    refine ⟨V2, ⟨p, ps, own V1, rfl, h1, h3⟩, fun z => ?_⟩
    rw [h4]
    simp only [List.mem_append, h2, Pats.vars]
    constructor
    · rintro (h | h | h) <;> simp [h]
    · rintro ((h | h) | h) <;> simp [h]
end

theorem own_ext {V V' : List Id} (h : ∀ z, z ∈ V' ↔ z ∈ V) : own V' = own V := by
  funext z
  simp only [own, h z]

mutual
theorem pure_inl {t : Ct → Bool} {P : Prog} {fuel n : Nat} : ∀ (e : Expr), Pure e → inl t P fuel e n = some (e, n)
  | .var _, _ => rfl
  | .sfun _, _ => rfl
  | .sfunEnv _ e, h => by simp only [inl, pure_inl e h]; rfl
  | .int _, _ => rfl
  | .prim (.data _) as, h => by simp only [inl, pures_inl as h]; rfl
  | .prim .env as, h => by simp only [inl, pures_inl as h]; rfl
  | .prim .add _, h => nomatch h
  | .prim .sub _, h => nomatch h
  | .prim .mul _, h => nomatch h
  | .prim .eq _, h => nomatch h
  | .prim .lt _, h => nomatch h
  | .prim .alloc _, h => nomatch h
  | .prim .load _, h => nomatch h
  | .prim .store _, h => nomatch h
  | .prim .print _, h => nomatch h
theorem pures_inl {t : Ct → Bool} {P : Prog} {fuel n : Nat} : ∀ (es : Exprs), Pures es → inls t P fuel es n = some (es, n)
  | .nil, _ => rfl
  | .cons e es, h => by
    have h1 := pure_inl (t := t) (P := P) (fuel := fuel) (n := n) e h.1
    have h2 := pures_inl (t := t) (P := P) (fuel := fuel) (n := n) es h.2
    simp only [inls, h1, Option.bind_eq_bind, Option.bind_some, h2]
end

/-- Only a call turns into the name of a function. -/
theorem inl_sfun {t : Ct → Bool} {P : Prog} {fuel n n' : Nat} {c : Ct} : ∀ (f : Expr), inl t P fuel f n = some (.sfun c, n') →
    f = .sfun c ∨ ∃ g as, f = .call g as := by
  intro f h
  cases f with
  | sfun d => simp only [inl] at h; cases h; exact .inl rfl
  | call g as => exact .inr ⟨g, as, rfl⟩
  | _ =>
    simp only [inl, Option.bind_eq_bind, Option.bind_eq_some_iff] at h
    first
      | (cases h; done)
      | (obtain ⟨⟨_, _⟩, _, h⟩ := h; cases h; done)
      | (obtain ⟨⟨_, _⟩, _, ⟨_, _⟩, _, h⟩ := h; cases h; done)
      | (obtain ⟨⟨_, _⟩, _, ⟨_, _⟩, _, ⟨_, _⟩, _, h⟩ := h; cases h; done)

theorem Away.mono {t : Ct → Bool} {P : Prog} {n n' : Nat} {z : Id} (h : Away t P n z) (hn : n ≤ n') : Away t P n' z :=
  ⟨Nat.lt_of_lt_of_le h.1 hn, h.2⟩

mutual
theorem inl_rel {t : Ct → Bool} {P : Prog} {next0 : Nat} (hT : ∀ c d, t c = true → P c = some d → TransOK t next0 d) {fuel : Nat} : ∀ (e : Expr) {e' : Expr} {n n' : Nat} {V : List Id},
    inl t P fuel e n = some (e', n') → OK V [] e → (∀ z ∈ V, Away t P next0 z) → (∀ z ∈ e.defs, Away t P next0 z) → PureCalls t e → next0 ≤ n →
    R P (own V) e e' ∧ n ≤ n'
  | .var x, e', n, n', V, h, ho, hV, hD, hc, hn => by simp only [inl] at h; cases h; exact ⟨.var (if_pos ho), Nat.le_refl _⟩
  | .lfun f, e', n, n', V, h, ho, hV, hD, hc, hn => by simp only [inl] at h; cases h
  | .letFun fs b, e', n, n', V, h, ho, hV, hD, hc, hn => by simp only [inl] at h; cases h
  | .sfun c, e', n, n', V, h, ho, hV, hD, hc, hn => by simp only [inl] at h; cases h; exact ⟨.sfun c, Nat.le_refl _⟩
  | .int c, e', n, n', V, h, ho, hV, hD, hc, hn => by simp only [inl] at h; cases h; exact ⟨.int c, Nat.le_refl _⟩
  | .never, e', n, n', V, h, ho, hV, hD, hc, hn => by simp only [inl] at h; cases h; exact ⟨.never, Nat.le_refl _⟩
  | .sfunEnv c a, e', n, n', V, h, ho, hV, hD, hc, hn => by
    simp only [inl, Option.bind_eq_bind, Option.bind_eq_some_iff] at h
    obtain ⟨⟨q, n1⟩, h1, h⟩ := h
    cases h
    have k := inl_rel hT a h1 ho hV hD hc hn
    exact ⟨.sfunEnv c k.1, k.2⟩
  | .ret a, e', n, n', V, h, ho, hV, hD, hc, hn => by
    simp only [inl, Option.bind_eq_bind, Option.bind_eq_some_iff] at h
    obtain ⟨⟨q, n1⟩, h1, h⟩ := h
    cases h
    have k := inl_rel hT a h1 ho hV hD hc hn
    exact ⟨.ret k.1, k.2⟩
  | .prim p as, e', n, n', V, h, ho, hV, hD, hc, hn => by
    simp only [inl, Option.bind_eq_bind, Option.bind_eq_some_iff] at h
    obtain ⟨⟨q, n1⟩, h1, h⟩ := h
    cases h
    have k := inls_rel hT as h1 ho hV hD hc hn
    exact ⟨.prim p k.1, k.2⟩
  | .seq a b, e', n, n', V, h, ho, hV, hD, hc, hn => by
    simp only [inl, Option.bind_eq_bind, Option.bind_eq_some_iff] at h
    obtain ⟨⟨q, n1⟩, h1, ⟨r, n2⟩, h2, h⟩ := h
    cases h
    simp only [Expr.defs, List.mem_append] at hD
    have k1 := inl_rel hT a h1 ho.1 hV (fun z hz => hD z (.inl hz)) hc.1 hn
    have k2 := inl_rel hT b h2 ho.2 hV (fun z hz => hD z (.inr hz)) hc.2 (Nat.le_trans hn k1.2)
    exact ⟨.seq k1.1 k2.1, Nat.le_trans k1.2 k2.2⟩
  | .while a b, e', n, n', V, h, ho, hV, hD, hc, hn => by
    simp only [inl, Option.bind_eq_bind, Option.bind_eq_some_iff] at h
    obtain ⟨⟨q, n1⟩, h1, ⟨r, n2⟩, h2, h⟩ := h
    cases h
    simp only [Expr.defs, List.mem_append] at hD
    have k1 := inl_rel hT a h1 ho.1 hV (fun z hz => hD z (.inl hz)) hc.1 hn
    have k2 := inl_rel hT b h2 ho.2 hV (fun z hz => hD z (.inr hz)) hc.2 (Nat.le_trans hn k1.2)
    exact ⟨.while k1.1 k2.1, Nat.le_trans k1.2 k2.2⟩
  | .case a cs, e', n, n', V, h, ho, hV, hD, hc, hn => by
    simp only [inl, Option.bind_eq_bind, Option.bind_eq_some_iff] at h
    obtain ⟨⟨q, n1⟩, h1, ⟨r, n2⟩, h2, h⟩ := h
    cases h
    simp only [Expr.defs, List.mem_append] at hD
    have k1 := inl_rel hT a h1 ho.1 hV (fun z hz => hD z (.inl hz)) hc.1 hn
    have k2 := inlc_rel hT cs h2 ho.2 hV (fun z hz => hD z (.inr hz)) hc.2 (Nat.le_trans hn k1.2)
    exact ⟨.case k1.1 k2.1, Nat.le_trans k1.2 k2.2⟩
  | .call f as, e', n, n', V, h, ho, hV, hD, hc, hn => by
    simp only [inl, Option.bind_eq_bind, Option.bind_eq_some_iff] at h
    obtain ⟨⟨q, n1⟩, h1, ⟨r, n2⟩, h2, h⟩ := h
    simp only at h
    simp only [Expr.defs, List.mem_append] at hD
    have k1 := inl_rel hT f h1 ho.1 hV (fun z hz => hD z (.inl hz)) hc.2.1 hn
    have k2 := inls_rel hT as h2 ho.2 hV (fun z hz => hD z (.inr hz)) hc.2.2 (Nat.le_trans hn k1.2)
    have hn2 := Nat.le_trans hn (Nat.le_trans k1.2 k2.2)
    have hok : CallOK t P n2 q r := by
      rintro c rfl htc
      have hp : Pures as := by
        have h0 := hc.1
        rcases inl_sfun f h1 with rfl | ⟨g, bs, rfl⟩
        · exact h0 htc
        · exact h0
      rw [pures_inl as hp] at h2
      cases h2
      refine ⟨hp, fun z hz => Away.mono ?_ hn2⟩
      rcases usess_scope as ho.2 hz with h | h | h
      · exact hV z h
      · cases h
      · exact hD z (.inr h)
    obtain ⟨w1, w2⟩ := after_rel hT fuel hn2 k1.1 k2.1 hok h
    exact ⟨w1, Nat.le_trans (Nat.le_trans k1.2 k2.2) w2⟩
  | .ite a b c, e', n, n', V, h, ho, hV, hD, hc, hn => by
    simp only [inl, Option.bind_eq_bind, Option.bind_eq_some_iff] at h
    obtain ⟨⟨q, n1⟩, h1, ⟨r, n2⟩, h2, ⟨u, n3⟩, h3, h⟩ := h
    cases h
    simp only [Expr.defs, List.mem_append] at hD
    have k1 := inl_rel hT a h1 ho.1 hV (fun z hz => hD z (.inl hz)) hc.1 hn
    have k2 := inl_rel hT b h2 ho.2.1 hV (fun z hz => hD z (.inr (.inl hz))) hc.2.1 (Nat.le_trans hn k1.2)
    have k3 := inl_rel hT c h3 ho.2.2 hV (fun z hz => hD z (.inr (.inr hz))) hc.2.2 (Nat.le_trans hn (Nat.le_trans k1.2 k2.2))
    exact ⟨.ite k1.1 k2.1 k3.1, Nat.le_trans k1.2 (Nat.le_trans k2.2 k3.2)⟩
  | .letVar x a b, e', n, n', V, h, ho, hV, hD, hc, hn => by
    simp only [inl, Option.bind_eq_bind, Option.bind_eq_some_iff] at h
    obtain ⟨⟨q, n1⟩, h1, ⟨r, n2⟩, h2, h⟩ := h
    cases h
    simp only [Expr.defs, List.mem_cons, List.mem_append] at hD
    have k1 := inl_rel hT a h1 ho.1 hV (fun z hz => hD z (.inr (.inl hz))) hc.1 hn
    have k2 := inl_rel hT b h2 ho.2.2 (fun z hz => (List.mem_cons.1 hz).elim (fun e => hD z (.inl e)) (hV z)) (fun z hz => hD z (.inr (.inr hz))) hc.2
      (Nat.le_trans hn k1.2)
    exact ⟨.letVar k1.1 (by rw [own_bind]; exact k2.1), Nat.le_trans k1.2 k2.2⟩
theorem inls_rel {t : Ct → Bool} {P : Prog} {next0 : Nat} (hT : ∀ c d, t c = true → P c = some d → TransOK t next0 d) {fuel : Nat} : ∀ (es : Exprs) {es' : Exprs} {n n' : Nat} {V : List Id},
    inls t P fuel es n = some (es', n') → OKs V [] es → (∀ z ∈ V, Away t P next0 z) → (∀ z ∈ es.defs, Away t P next0 z) → PureCallss t es → next0 ≤ n →
    Rs P (own V) es es' ∧ n ≤ n'
  | .nil, e', n, n', V, h, ho, hV, hD, hc, hn => by simp only [inls] at h; cases h; exact ⟨.nil, Nat.le_refl _⟩
  | .cons a as, e', n, n', V, h, ho, hV, hD, hc, hn => by
    simp only [inls, Option.bind_eq_bind, Option.bind_eq_some_iff] at h
    obtain ⟨⟨q, n1⟩, h1, ⟨r, n2⟩, h2, h⟩ := h
    cases h
    simp only [Exprs.defs, List.mem_append] at hD
    have k1 := inl_rel hT a h1 ho.1 hV (fun z hz => hD z (.inl hz)) hc.1 hn
    have k2 := inls_rel hT as h2 ho.2 hV (fun z hz => hD z (.inr hz)) hc.2 (Nat.le_trans hn k1.2)
    exact ⟨.cons k1.1 k2.1, Nat.le_trans k1.2 k2.2⟩
theorem inlc_rel {t : Ct → Bool} {P : Prog} {next0 : Nat} (hT : ∀ c d, t c = true → P c = some d → TransOK t next0 d) {fuel : Nat} : ∀ (cs : Clauses) {cs' : Clauses} {n n' : Nat} {V : List Id},
    inlc t P fuel cs n = some (cs', n') → OKc V [] cs → (∀ z ∈ V, Away t P next0 z) → (∀ z ∈ cs.defs, Away t P next0 z) → PureCallsc t cs → next0 ≤ n →
    Rc P (own V) cs cs' ∧ n ≤ n'
  | .nil, e', n, n', V, h, ho, hV, hD, hc, hn => by simp only [inlc] at h; cases h; exact ⟨.nil, Nat.le_refl _⟩
  | .cons p b cs, e', n, n', V, h, ho, hV, hD, hc, hn => by
    simp only [inlc, Option.bind_eq_bind, Option.bind_eq_some_iff] at h
    obtain ⟨⟨q, n1⟩, h1, ⟨r, n2⟩, h2, h⟩ := h
    cases h
    simp only [Clauses.defs, List.mem_append] at hD
    have k1 := inl_rel hT b h1 ho.2.1 (fun z hz => (List.mem_append.1 hz).elim (fun e => hD z (.inl e)) (hV z)) (fun z hz => hD z (.inr (.inl hz))) hc.1 hn
    have k2 := inlc_rel hT cs h2 ho.2.2 hV (fun z hz => hD z (.inr (.inr hz))) hc.2 (Nat.le_trans hn k1.2)
    obtain ⟨V', w1, w2⟩ := pat_own p V
    exact ⟨.cons w1 (by rw [own_ext w2]; exact k1.1) k2.1, Nat.le_trans k1.2 k2.2⟩
end

end Verif.Inline
