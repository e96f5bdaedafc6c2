import Verif.Infer.Sound

/-! # The types that type inference gives are types of the program -/
namespace Verif.Infer

theorem inferInits_cons (fx : Bool) (k : Nat) (Γ : Env) (e : Expr) (es : Exprs) (s : St) : inferInits fx k Γ (.cons e es) s =
    (infer fx k 0 (fun _ => none) Γ none e s).bind fun p => (inferInits fx k Γ es p.2).bind fun q => some (p.1 :: q.1, q.2) := by
  simp only [inferInits]; rfl

theorem inferInits_ok {fx : Bool} {B k : Nat} {Γ : Env} : ∀ (es : Exprs) {R : Roots} {s s' : St} {ts : List Ty}, inferInits fx k Γ es s = some (ts, s') → fx = true ∨ es.Single →
    es.OK B (fun _ => False) → Inv B 1 R s → In Γ R →
    ∃ R', Ok B (others 1 fun _ => none) 1 R s R' s' fun sf => HasTys (fun _ => none) (Γ.export sf) none es (ts.map (Ty.subst sf.σ))
  | .nil, R, s, s', ts, h, _, _, hi, _ => by
    simp only [inferInits, Option.some.injEq, Prod.mk.injEq] at h
    obtain ⟨rfl, rfl⟩ := h
    exact ⟨R, (Ok.refl hi).imp fun _ _ => rfl⟩
  | .cons e es, R, s, s', ts, h, hf, ho, hi, hΓ => by
    rw [inferInits_cons] at h
    obtain ⟨⟨t1, s1⟩, h1, h⟩ := bind_some h
    obtain ⟨⟨ts', s2⟩, h2, h⟩ := bind_some h
    obtain ⟨rfl, rfl⟩ := Prod.mk.inj (Option.some.inj h)
    have o1 := infer_ok e h1 (hf.imp_right fun h => h.1) ho.1 ⟨fun _ _ h => (by cases h), fun _ h => h.elim⟩ hi hΓ (fun _ h => by cases h)
    obtain ⟨R2, o2⟩ := inferInits_ok es h2 (hf.imp_right fun h => h.2) ho.2 o1.inv (hΓ.le o1.sub)
    exact ⟨R2, (o1.bind o2).imp fun sf ⟨a1, a2⟩ => ⟨_, _, rfl, a1, a2⟩⟩

theorem defaults_subst {s : St} (t : Ty) : t.subst (defaults s).σ = (t.subst s.σ).subst fun _ => unitTy := (Ty.subst_subst _ _ _).symm

theorem defaults_grow {B : Nat} {A : Nat → Nat → Prop} {Q : (Nat → Prop) → (Nat → Nat → Prop) → Prop} {s : St} (h : WF s) : Grow B A Q s (defaults s) where
  n := Nat.le_refl _
  g := Nat.le_refl _
  ext v := by
    rw [defaults_subst, h.done]
    rfl
  bel t ht := by
    unfold Bel
    rw [defaults_subst]
    exact (Ty.all_subst _ _ _ _).2 (Ty.All.imp (fun _ _ => trivial) (fun _ _ h => h) ht)
  fit K ex t ht := by
    unfold Fit
    rw [defaults_subst]
    exact (Ty.all_subst _ _ _ _).2 (Ty.All.imp (fun _ _ => trivial) (fun _ _ h => h) ht)
  av X Y _ _ Y' _ t ht := by
    unfold Av
    rw [defaults_subst]
    exact (Ty.all_subst _ _ _ _).2 (Ty.All.imp (fun _ _ => trivial) (fun _ _ h => h) ht)

theorem run_eq (fx : Bool) (k B : Nat) (Γ : Env) (p : Prog) : run fx k B Γ p =
    (inferGroups fx k 0 (fun _ => none) (Γ.expl (fun _ => none) p.es) p.gs ⟨0, Ty.unk, fun _ => 0, B⟩).bind fun q =>
      (inferExpl fx k 0 (fun _ => none) q.1 p.es q.2).bind fun s => (inferInits fx k q.1 p.inits s).bind fun r => some (q.1.export (defaults r.2)) := by
  simp only [run]; rfl

theorem export_closed {B : Nat} {Γ : Env} (h : Γ.Closed B) (s : St) : Γ.export s = Γ := by
  funext x
  unfold Env.export
  cases e : Γ x with
  | none => rfl
  | some sc => exact congrArg some (congrArg (Sch.mk sc.gs) (Ty.subst_none (h x sc e).1))

theorem sound {fx : Bool} {k B : Nat} {Γ Γ' : Env} {p : Prog} (h : run fx k B Γ p = some Γ') (hΓ : Γ.Closed B) (hp : p.OK B) (hf : fx = true ∨ p.Single) : ProgTy Γ p Γ' ∧ Γ'.Known := by
  rw [run_eq] at h
  obtain ⟨⟨Γ1, s1⟩, h1, h⟩ := bind_some h
  obtain ⟨s2, h2, h⟩ := bind_some h
  obtain ⟨⟨ts, s3⟩, h3, h⟩ := bind_some h
  obtain rfl := Option.some.inj h
  have hρ : RV B (fun _ => none) 0 fun _ => False := ⟨fun _ _ h => (by cases h), fun _ h => h.elim⟩
  have hi : Inv B 0 (fun sc => ∃ x, Γ x = some sc) ⟨0, Ty.unk, fun _ => 0, B⟩ := by
    have hs : ∀ t : Ty, t.subst (St.mk 0 Ty.unk (fun _ => 0) B).σ = t := Ty.subst_unk
    refine ⟨⟨fun _ _ => rfl, fun v => ⟨rfl, fun h => h⟩⟩, Nat.le_refl _, ?_, ?_, ?_, ?_⟩
    · rintro sc ⟨x, hx⟩
      unfold Fit
      rw [hs]
      exact Ty.All.imp (fun _ h => h.elim) (fun g l h => ⟨(hΓ x sc hx).2 g h, .inl h⟩) (hΓ x sc hx).1
    · rintro sc ⟨x, hx⟩
      exact (hΓ x sc hx).2
    · rintro sc ⟨x, hx⟩
      exact .inl (Ty.All.imp (fun _ h => h) (fun _ _ _ => trivial) (hΓ x sc hx).1)
    · rintro sc ⟨x, hx⟩ sc' _
      exact Ty.All.imp (fun _ _ h => h) (fun g _ _ h => by have := (hΓ x sc hx).2 g h.1.1; have := h.1.2; omega) (Ty.all_top _)
  obtain ⟨R0, hΓ0, o0⟩ := Ok.expl hρ p.es hp.1 hi (Γ := Γ) fun x sc hx => ⟨x, hx⟩
  obtain ⟨R1, hΓ1, o1⟩ := inferGroups_ok p.gs h1 (hf.imp_right fun h => h.2.1) hp.2.1 hρ o0.inv hΓ0
  have o2 := inferExpl_ok p.es h2 (hf.imp_right fun h => h.1) hp.1 hρ o1.inv hΓ1
  have o12 := ((o0.bind (o1.less fun g l h => (Nat.not_lt_zero _ h.1).elim)).bind o2)
  obtain ⟨R3, o3⟩ := inferInits_ok p.inits h3 (hf.imp_right fun h => h.2.2) hp.2.2 (o12.inv.lift (Nat.le_succ 0)) hΓ1
  have o3' := o3.lower (A := others 0 fun _ => none) o12.inv fun g l h => (Nat.not_lt_zero _ h.1).elim
  have o := o12.bind o3'
  obtain ⟨⟨⟨a0, a1⟩, a2⟩, a3⟩ := o.ty (defaults s3) (defaults_grow o.inv.wf)
  refine ⟨⟨?_, a2, _, a3⟩, ?_⟩
  · rw [a0, export_closed hΓ] at a1
    exact a1
  · intro x sc hx
    obtain ⟨sc', _, rfl⟩ := of_export hx
    show (sc'.t.subst (defaults s3).σ).All _ _
    rw [defaults_subst]
    exact (Ty.all_subst _ _ _ _).2 ((Ty.all_top _).imp (fun _ _ => trivial) fun _ _ h => h)

/-- **Soundness** of type inference, if every unknown type of a group becomes a type parameter: a program for which it succeeds is well-typed, with these types, and
nothing in them is left unknown.  This holds for any module, imported environment and number of steps. -/
theorem infer_sound {k B : Nat} {Γ Γ' : Env} {p : Prog} (h : run true k B Γ p = some Γ') (hΓ : Γ.Closed B) (hp : p.OK B) : ProgTy Γ p Γ' ∧ Γ'.Known :=
  sound h hΓ hp (.inl rfl)

/-- The code as it is, for modules without groups of several functions.  Missing: other modules, for which it does not hold, see below. -/
theorem infer_sound_partial {k B : Nat} {Γ Γ' : Env} {p : Prog} (h : run false k B Γ p = some Γ') (hΓ : Γ.Closed B) (hp : p.OK B) (hs : p.Single) : ProgTy Γ p Γ' ∧ Γ'.Known :=
  sound h hΓ hp (.inr hs)

/-! ### The code as it is, with several functions in a group -/

deriving instance DecidableEq for Sch

def intTy : Ty := .con 3

def args : List Expr → Exprs
  | [] => .nil
  | e :: es => .cons e (args es)

/-- `f x = if true 0 (g 1)`, `g n = f (return n)`; then `h x = f x`.  The type of `x` in `f` does not occur in the type of `g`. -/
def weak : Prog where
  es := .nil
  gs := .cons (.cons 1 (some [10]) (.ite (.const boolTy) (.const intTy) (.app (.use 2) (args [.const intTy])))
    (.cons 2 (some [11]) (.app (.use 1) (args [.ret (.use 11)])) .nil))
    (.cons (.cons 3 (some [12]) (.app (.use 1) (args [.use 12])) .nil) .nil)
  inits := .nil

theorem weak_ok : weak.OK 10 := by
  simp [Prog.OK, weak, EFuns.OK, Groups.OK, Funs.OK, Expr.OK, Exprs.OK, args, Const, boolTy, intTy, Ty.All]

/-- With these types the program is not well-typed: the type parameter of `h` is in the type of `f`. -/
theorem weak_not {Γ : Env} (h1 : Γ 1 = some ⟨[], arrow [.gen 10 0] intTy⟩) (h3 : Γ 3 = some ⟨[10], arrow [.gen 10 0] intTy⟩) : ¬ ProgTy (fun _ => none) weak Γ := by
  rintro ⟨⟨tys, qs, hb, -, tys', qs', hb', hq, rfl⟩, -⟩
  obtain ⟨ts1, r1, tys1, rfl, -, -, ts2, r2, tys2, rfl, -, -, rfl⟩ := hb
  obtain ⟨ts3, r3, tys3, rfl, -, -, rfl⟩ := hb'
  have e3 : qs' = [10] := congrArg Sch.gs (Option.some.inj h3)
  have e1 := Option.some.inj h1
  have := (hq 10 (by rw [e3]; simp)).2 1 ⟨[], arrow [.gen 10 0] intTy⟩ (congrArg some e1) (by simp)
  exact this.2.1 rfl trivial

/-- **Refuted**: the unknown types that are not in the types of all functions of a group remain unknown, and keep the level of the functions, so that a function that comes
later makes a type parameter of its own of them. -/
theorem weak_variables : ∃ p Γ, p.OK 10 ∧ run false 50 10 (fun _ => none) p = some Γ ∧ ¬ ProgTy (fun _ => none) p Γ := by
  have h : (run false 50 10 (fun _ => none) weak).map (fun Γ => (Γ 1, Γ 3)) = some (some ⟨[], arrow [.gen 10 0] intTy⟩, some ⟨[10], arrow [.gen 10 0] intTy⟩) := by decide +kernel
  obtain ⟨Γ, hr, he⟩ := Option.map_eq_some_iff.1 h
  obtain ⟨h1, h3⟩ := Prod.mk.inj he
  exact ⟨weak, Γ, weak_ok, hr, weak_not h1 h3⟩

/-- So a program is refused although it has types: `f` may not be used for two types. -/
def weakTwice : Prog := { weak with inits := args [.app (.use 1) (args [.const intTy]), .app (.use 1) (args [.const boolTy])] }

theorem weak_refused : run false 50 10 (fun _ => none) weakTwice = none ∧ ∃ Γ, ProgTy (fun _ => none) weakTwice Γ := by
  refine ⟨Option.isNone_iff_eq_none.1 (by decide +kernel), ?_⟩
  have h : (run true 50 10 (fun _ => none) weakTwice).isSome = true := by decide +kernel
  obtain ⟨Γ, hr⟩ := Option.isSome_iff_exists.1 h
  refine ⟨Γ, (infer_sound hr (fun _ _ h => by cases h) ?_).1⟩
  simp [Prog.OK, weakTwice, weak, EFuns.OK, Groups.OK, Funs.OK, Expr.OK, Exprs.OK, args, Const, boolTy, intTy, Ty.All]

/-! ### The theorems are not empty -/

def opt (t : Ty) : Ty := .app (.con 5) (.cons t .nil)

/-- `Some : ∀ a. a → Option a` and `None : ∀ a. Option a`. -/
def imports : Env := fun x => if x = 20 then some ⟨[9], arrow [.gen 9 0] (opt (.gen 9 0))⟩ else if x = 21 then some ⟨[9], opt (.gen 9 0)⟩ else none

/-- An annotated function with an annotated local one, a function with `match`, two functions that use each other, and an expression with a local function that is used
for two types. -/
def sample : Prog where
  es := .cons 1 [7] (arrow [.gen 7 0] (opt (.gen 7 0))) (some [30])
    (.let_ (.cons 5 [6] (arrow [.gen 6 0] (.gen 7 0)) (some [31]) (.use 30) .nil) .nil .nil (.app (.use 20) (args [.app (.use 5) (args [.const intTy])]))) .nil
  gs := .cons (.cons 2 (some [32, 33]) (.match_ (.use 32) (.cons (.con 21) (.use 33) (.cons (.decon 20 [.var 34]) (.use 34) .nil))) .nil)
    (.cons (.cons 3 (some [35]) (.ite (.const boolTy) (.use 35) (.app (.use 4) (args [.use 35]))) (.cons 4 (some [36]) (.app (.use 3) (args [.use 36])) .nil)) .nil)
  inits := args [.let_ .nil (.cons (.cons 6 (some [37]) (.app (.use 2) (args [.app (.use 20) (args [.use 37]), .use 37])) .nil) .nil)
    (.cons 38 (.app (.use 6) (args [.const intTy])) (some intTy) .nil)
    (.seq (.app (.use 6) (args [.const boolTy])) (.app (.use 2) (args [.app (.use 1) (args [.use 38]), .num])))]

theorem sample_ok : imports.Closed 10 ∧ sample.OK 10 := by
  constructor
  · intro x sc h
    unfold imports at h
    split at h
    · cases h; simp [Written, arrow, opt, Tys.ofList, Ty.All, Tys.All]
    · split at h
      · cases h; simp [Written, opt, Ty.All, Tys.All]
      · cases h
  · simp [Prog.OK, sample, EFuns.OK, Groups.OK, Funs.OK, Expr.OK, Exprs.OK, Clauses.OK, Vars.OK, Pat.OK, Pat.OKs, args, Const, Written, arrow, opt, Tys.ofList, boolTy, intTy, Ty.All, Tys.All]

/-- The types of the functions, by both variants, are general. -/
theorem sample_run : ∀ fx : Bool, (run fx 50 10 imports sample).map (fun Γ => [Γ 1, Γ 2, Γ 3, Γ 4]) =
    some [some ⟨[7], arrow [.gen 7 0] (opt (.gen 7 0))⟩, some ⟨[10], arrow [opt (.gen 10 0), .gen 10 0] (.gen 10 0)⟩, some ⟨[11], arrow [.gen 11 0] (.gen 11 0)⟩,
      some ⟨[11], arrow [.gen 11 0] (.gen 11 0)⟩] := by
  decide +kernel

example : ∃ Γ, run true 50 10 imports sample = some Γ ∧ ProgTy imports sample Γ ∧ Γ.Known := by
  obtain ⟨Γ, h, -⟩ := Option.map_eq_some_iff.1 (sample_run true)
  exact ⟨Γ, h, infer_sound h sample_ok.1 sample_ok.2⟩

/-- The same without the group of two functions, by the code as it is. -/
example : ∃ Γ p, run false 50 10 imports p = some Γ ∧ p.Single ∧ ProgTy imports p Γ ∧ Γ.Known := by
  have hs : (run false 50 10 imports { sample with gs := .cons (.cons 2 (some [32, 33]) (.match_ (.use 32) (.cons (.con 21) (.use 33) (.cons (.decon 20 [.var 34]) (.use 34) .nil))) .nil) .nil }).isSome = true := by
    decide +kernel
  obtain ⟨Γ, h⟩ := Option.isSome_iff_exists.1 hs
  have h1 : Prog.Single { sample with gs := .cons (.cons 2 (some [32, 33]) (.match_ (.use 32) (.cons (.con 21) (.use 33) (.cons (.decon 20 [.var 34]) (.use 34) .nil))) .nil) .nil } := by
    simp [Prog.Single, sample, EFuns.Single, Groups.Single, Funs.Single, Expr.Single, Exprs.Single, Clauses.Single, Vars.Single, args]
  exact ⟨Γ, _, h, h1, infer_sound_partial h sample_ok.1 ⟨sample_ok.2.1, ⟨sample_ok.2.2.1.1, trivial⟩, sample_ok.2.2.2⟩ h1⟩

/-- Programs that are refused: a variable used for two types, a type that contains itself, a type parameter that leaves its function, a wrong argument. -/
example : ∀ fx : Bool,
    run fx 50 10 imports ⟨.nil, .cons (.cons 1 (some [30]) (.seq (.app (.use 30) (args [.const intTy])) (.app (.use 30) (args [.const boolTy]))) .nil) .nil, .nil⟩ = none ∧
    run fx 50 10 imports ⟨.nil, .cons (.cons 1 (some [30]) (.app (.use 30) (args [.use 30])) .nil) .nil, .nil⟩ = none ∧
    run fx 50 10 imports ⟨.nil, .cons (.cons 1 (some [30]) (.let_ (.cons 2 [6] (arrow [.gen 6 0] (.gen 6 0)) (some [31]) (.use 30) .nil) .nil .nil (.use 2)) .nil) .nil, .nil⟩ = none ∧
    run fx 50 10 imports ⟨.nil, .cons (.cons 1 (some [30]) (.ite (.const intTy) (.use 30) (.use 30)) .nil) .nil, .nil⟩ = none := by
  intro fx
  refine ⟨?_, ?_, ?_, ?_⟩ <;> revert fx <;> intro fx <;> cases fx <;> exact Option.isNone_iff_eq_none.1 (by decide +kernel)

end Verif.Infer
