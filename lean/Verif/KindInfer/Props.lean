import Verif.KindInfer.Decls
import Verif.KindInfer.Fuel

/-! # C68, C69: kind inference -/
namespace Verif.KindInfer
open Verif Verif.KindUnify Verif.Unify

variable {ext : Id → Option SrcKind} {U : Id → Prop}

theorem valid_init : Valid ext St.init where
  inv := new_inv
  good := fun c k h => by cases h
  imp := fun c k a h => by cases h
  tab := fun c a h => by cases h

/-- Kinds for all constructs: those the unifier has, `*` for its unknowns. -/
theorem exists_kinds {s : St} (hs : Valid ext s) : ∃ (σ : Assign) (K : Id → AKind), Sol s.pool σ ∧ Agree s σ K ∧ Imports K ext ∧ Agrees K s.recorded ∧
    ∀ c, (K c).noError = true := by
  obtain ⟨σ, hσ⟩ := exists_principal hs.inv.wf
  have hsol : Sol s.pool (fun i => (σ i).subst (fun _ => .type)) := fun i k hk => by
    show (σ i).subst _ = _
    rw [hσ.1 i k hk]
    exact sem_subst _ σ k
  let K : Id → AKind := fun c => match s.kinds c with
    | some k => k.sem (fun i => (σ i).subst (fun _ => .type))
    | none => match ext c with
      | some a => written a.1
      | none => .type
  have hag : Agree s (fun i => (σ i).subst (fun _ => .type)) K := fun c k hk => by simp [K, hk]
  refine ⟨_, K, hsol, hag, fun c a ha => ?_, fun c a ha => ?_, fun c => ?_⟩
  · cases hk : s.kinds c with
    | none => simp [K, hk, ha]
    | some k => rw [← hag c k hk]; exact hs.imp c k a hk ha _ hsol
  · obtain ⟨-, -, k, h1, h2⟩ := hs.tab c a ha
    rw [← hag c k h1]; exact h2 _ hsol
  · cases hk : s.kinds c with
    | none =>
      cases ha : ext c with
      | none => simp [K, hk, ha, AKind.noError]
      | some a => simp only [K, hk, ha]; exact written_noError _ a.2
    | some k =>
      simp only [K, hk]
      rw [← sem_subst]
      exact noError_default _

mutual
theorem Expr.all_of {P : TParam → Prop} (h : ∀ p, P p) : ∀ e : Expr, e.All P
  | .node es => by simp only [Expr.All]; exact Exprs.all_of h es
  | .annotate b _ => by simp only [Expr.All]; exact Expr.all_of h b
  | .let_ vs fs b => by simp only [Expr.All]; exact ⟨Vars.all_of h vs, Funs.all_of h fs, Expr.all_of h b⟩
theorem Exprs.all_of {P : TParam → Prop} (h : ∀ p, P p) : ∀ e : Exprs, e.All P
  | .nil => by simp only [Exprs.All]
  | .cons e es => by simp only [Exprs.All]; exact ⟨Expr.all_of h e, Exprs.all_of h es⟩
theorem Vars.all_of {P : TParam → Prop} (h : ∀ p, P p) : ∀ e : Vars, e.All P
  | .nil => by simp only [Vars.All]
  | .cons _ e vs => by simp only [Vars.All]; exact ⟨Expr.all_of h e, Vars.all_of h vs⟩
theorem Funs.all_of {P : TParam → Prop} (h : ∀ p, P p) : ∀ e : Funs, e.All P
  | .nil => by simp only [Funs.All]
  | .cons _ _ e fs => by simp only [Funs.All]; exact ⟨fun _ _ p _ => h p, Expr.all_of h e, Funs.all_of h fs⟩
end

theorem Root.all_of {P : TParam → Prop} (h : ∀ p, P p) (r : Root) : r.All P :=
  ⟨fun _ _ p _ => h p, fun _ _ p _ => h p, fun _ _ => ⟨fun p _ => h p, fun _ _ => ⟨fun p _ => h p, fun e _ => Expr.all_of h e⟩⟩,
    fun _ _ => ⟨fun _ _ p _ => h p, Expr.all_of h _⟩, fun _ _ p _ => h p, fun e _ => Expr.all_of h e,
    fun _ _ => ⟨fun p _ => h p, fun _ _ => ⟨fun _ _ p _ => h p, Expr.all_of h _⟩⟩, fun e _ => Expr.all_of h e⟩

/-- Kind inference of `r` ends with `res` and the recorded kinds `T`. -/
def Ends (ext : Id → Option SrcKind) (r : Root) (res : Except Err Unit) (T : Id → Option AKind) : Prop := ∃ n0, ∀ n, n0 ≤ n → run ext n r = some (res, T)

theorem Ends.unique {r : Root} {res res' T T'} (h : Ends ext r res T) (h' : Ends ext r res' T') : res = res' ∧ T = T' := by
  obtain ⟨n, h⟩ := h
  obtain ⟨n', h'⟩ := h'
  have := (h (max n n') (by omega)).symm.trans (h' (max n n') (by omega))
  cases this
  exact ⟨rfl, rfl⟩

/-- Everything about a run, where `U` has the type parameters whose kinds may have been guessed. -/
theorem ends_with (r : Root) (hd : Distinct r) (U : Id → Prop) (hU : r.All (Open U)) : ∃ res T, Ends ext r res T ∧
    match res with
    | .ok _ => (∃ K, Imports K ext ∧ Agrees K T ∧ WellKinded K r ∧ ∀ c, (K c).noError = true) ∧ (∀ c, r.Declares c → ∃ a, T c = some a) ∧
        ∀ c a, T c = some a → a.noError = true ∧ written a = a
    | .error _ => ¬ ∃ K, Imports K ext ∧ Held U K T ∧ WellKinded K r := by
  obtain ⟨n0, res, s', h1, h2⟩ := inferRoot_works (ext := ext) (Q := fun _ => True) r hd hU St.init valid_init (fun _ _ _ _ => trivial)
  refine ⟨res, s'.recorded, ⟨n0, fun n hn => by simp [run, h1 n hn]⟩, ?_⟩
  cases res with
  | ok u =>
    obtain ⟨h2, -⟩ := h2
    obtain ⟨σ, K, e1, e2, e3, e4, e5⟩ := exists_kinds h2.valid
    exact ⟨⟨K, e3, e4, h2.down σ K e1 e2, e5⟩, h2.new, fun c a ha => ⟨(h2.valid.tab c a ha).1, (h2.valid.tab c a ha).2.1⟩⟩
  | error e =>
    rintro ⟨K, e1, e2, e3⟩
    obtain ⟨σ, hσ⟩ := exists_principal (valid_init (ext := ext)).inv.wf
    exact h2.fail σ K hσ.1 (fun c k hk => by cases hk) e1 e2 e3

/-- **C68** Kind inference always returns, it never panics. -/
theorem kind_inference_ends (r : Root) (hd : Distinct r) : ∃ res T, Ends ext r res T := by
  obtain ⟨res, T, h, -⟩ := ends_with (ext := ext) r hd (fun _ => True) (Root.all_of (fun _ _ => trivial) r)
  exact ⟨res, T, h⟩

/-- **C68** If kind inference accepts a module, then the module is well kinded, with kinds that agree with the recorded ones and with those of other
modules; everything declared has a kind recorded, and recorded kinds can be used by other modules. -/
theorem kind_inference_sound (r : Root) (hd : Distinct r) {u : Unit} {T : Id → Option AKind} (h : Ends ext r (.ok u) T) :
    (∃ K, Imports K ext ∧ Agrees K T ∧ WellKinded K r ∧ ∀ c, (K c).noError = true) ∧ (∀ c, r.Declares c → ∃ a, T c = some a) ∧
      ∀ c a, T c = some a → a.noError = true ∧ written a = a := by
  obtain ⟨res, T', h', h2⟩ := ends_with (ext := ext) r hd (fun _ => True) (Root.all_of (fun _ _ => trivial) r)
  obtain ⟨rfl, rfl⟩ := h.unique h'
  exact h2

/-- **C68** If kind inference rejects a module, then the module is not well kinded with any kinds that agree, for the type parameters without
annotation, with those recorded so far. -/
theorem kind_inference_complete (r : Root) (hd : Distinct r) {e : Err} {T : Id → Option AKind} (h : Ends ext r (.error e) T)
    {K : Id → AKind} (hi : Imports K ext) (hw : WellKinded K r) : ¬ r.All (fun p => p.ann = none → ∀ a, T p.id = some a → K p.id = a) := by
  intro hall
  obtain ⟨res, T', h', h2⟩ := ends_with (ext := ext) r hd (fun c => ∀ a, T c = some a → K c = a) hall
  obtain ⟨rfl, rfl⟩ := h.unique h'
  exact h2 ⟨K, hi, fun c a hc ha => hc a ha, hw⟩

/-- **C68** Modules whose type parameters are all annotated are accepted exactly if they are well kinded. -/
theorem kind_inference_annotated (r : Root) (hd : Distinct r) (ha : r.All (fun p => p.ann ≠ none)) :
    (∃ u T, Ends ext r (.ok u) T) ↔ ∃ K, Imports K ext ∧ WellKinded K r := by
  constructor
  · rintro ⟨u, T, h⟩
    obtain ⟨⟨K, h1, -, h2, -⟩, -⟩ := kind_inference_sound r hd h
    exact ⟨K, h1, h2⟩
  · rintro ⟨K, h1, h2⟩
    obtain ⟨res, T, h, h3⟩ := ends_with (ext := ext) r hd (fun _ => False) ha
    cases res with
    | ok u => exact ⟨u, T, h⟩
    | error e => exact (h3 ⟨K, h1, fun _ _ h _ => h.elim, h2⟩).elim

/-- The declarations of `r'` are those of `r` in another order. -/
structure Reordered (r r' : Root) : Prop where
  builtins : r.builtins.Perm r'.builtins
  datas : r.datas.Perm r'.datas
  classes : r.classes.Perm r'.classes
  functions : r.functions.Perm r'.functions
  cFunctions : r.cFunctions.Perm r'.cFunctions
  builtinOps : r.builtinOps.Perm r'.builtinOps
  macros : r.macros.Perm r'.macros
  instances : r.instances.Perm r'.instances
  inits : r.inits = r'.inits

theorem Reordered.wellKinded {r r' : Root} (h : Reordered r r') (K : Id → AKind) : WellKinded K r ↔ WellKinded K r' := by
  simp only [WellKinded, h.builtins.mem_iff, h.datas.mem_iff, h.classes.mem_iff, h.functions.mem_iff, h.cFunctions.mem_iff, h.builtinOps.mem_iff,
    h.macros.mem_iff, h.instances.mem_iff, h.inits]

theorem Reordered.all {r r' : Root} (h : Reordered r r') (P : TParam → Prop) : r.All P ↔ r'.All P := by
  simp only [Root.All, h.builtins.mem_iff, h.datas.mem_iff, h.classes.mem_iff, h.functions.mem_iff, h.builtinOps.mem_iff,
    h.macros.mem_iff, h.instances.mem_iff, h.inits]

theorem Reordered.distinct {r r' : Root} (h : Reordered r r') (hd : Distinct r) : Distinct r' :=
  ⟨(h.datas.map _).nodup_iff.1 hd.1, (h.classes.map _).nodup_iff.1 hd.2⟩

/-- **C69**, for modules whose type parameters are all annotated: whether a module is accepted does not depend on the order of its declarations.
Without annotations it does (`order_matters`). -/
theorem order_partial {r r' : Root} (h : Reordered r r') (hd : Distinct r) (ha : r.All (fun p => p.ann ≠ none)) :
    (∃ u T, Ends ext r (.ok u) T) ↔ ∃ u T, Ends ext r' (.ok u) T := by
  rw [kind_inference_annotated r hd ha, kind_inference_annotated r' (h.distinct hd) ((h.all _).1 ha)]
  simp only [h.wellKinded]

/-! ## A module that is accepted or not, depending on the order of the map of classes

Class `A` (1) with the parameter 2 has a method 5 of type 2, whose default has a local function 6 with a type parameter 7 that is only in a
constraint of class `B` (3).  `B`'s parameter 4 is applied to the type 9 in its method 8, so it has the kind `(-> * *)`.  What the bodies of
default methods refer to is not among the dependencies of a class (`classDeps`). -/

def unitExt : Id → Option SrcKind := fun c => if c = 9 then some ⟨.type, rfl⟩ else none
def localScheme : Scheme := ⟨[⟨7, none⟩], [⟨3, [.gen 7]⟩], .con 9⟩
def classA : Class := ⟨1, [⟨2, none⟩], [], [⟨5, ⟨[], [], .gen 2⟩, some (.let_ .nil (.cons 6 (some localScheme) (.node .nil) .nil) (.node .nil))⟩]⟩
def classB : Class := ⟨3, [⟨4, none⟩], [], [⟨8, ⟨[], [], .app (.gen 4) [.con 9]⟩, none⟩]⟩
def ofClasses (cs : List Class) : Root := ⟨[], [], cs, [], [], [], [], [], []⟩

def verdict (x : Option (Except Err Unit × (Id → Option AKind))) : Option Bool := x.map fun x => x.1.isOk

theorem reordered_classes : Reordered (ofClasses [classA, classB]) (ofClasses [classB, classA]) :=
  ⟨.refl _, .refl _, .swap _ _ _, .refl _, .refl _, .refl _, .refl _, .refl _, rfl⟩

theorem Ends.of_run {r : Root} {n : Nat} {res : Except Err Unit} {T : Id → Option AKind} (h : run ext n r = some (res, T)) : Ends ext r res T :=
  ⟨n, fun _ hm => run_mono ext h hm⟩

theorem accepted_of {r : Root} {n : Nat} (h : verdict (run ext n r) = some true) : ∃ u T, Ends ext r (.ok u) T := by
  cases hr : run ext n r with
  | none => simp [verdict, hr] at h
  | some x =>
    obtain ⟨u | u, T⟩ := x
    · simp [verdict, hr, Except.isOk, Except.toBool] at h
    · exact ⟨u, T, .of_run hr⟩

theorem rejected_of {r : Root} {n : Nat} (h : verdict (run ext n r) = some false) : ∃ e T, Ends ext r (.error e) T := by
  cases hr : run ext n r with
  | none => simp [verdict, hr] at h
  | some x =>
    obtain ⟨e | u, T⟩ := x
    · exact ⟨e, T, .of_run hr⟩
    · simp [verdict, hr, Except.isOk, Except.toBool] at h

/-- **C69 fails**: the order in which the classes are listed decides whether the module is accepted. -/
theorem order_matters : ∃ (ext : Id → Option SrcKind) (r r' : Root), Reordered r r' ∧ Distinct r ∧ (∃ u T, Ends ext r (.ok u) T) ∧ ∃ e T, Ends ext r' (.error e) T :=
  ⟨unitExt, ofClasses [classB, classA], ofClasses [classA, classB], ⟨.refl _, .refl _, .swap _ _ _, .refl _, .refl _, .refl _, .refl _, .refl _, rfl⟩,
    by simp [Distinct, ofClasses, classA, classB], accepted_of (n := 40) (by decide +kernel), rejected_of (n := 40) (by decide +kernel)⟩

/-- A class with a method that has a constraint of class `B`.  Constraints of methods are among the dependencies of a class: the order does not matter here. -/
def classC : Class := ⟨11, [⟨14, none⟩], [], [⟨12, ⟨[⟨13, none⟩], [⟨3, [.gen 13]⟩], .con 9⟩, none⟩]⟩

example : (∃ u T, Ends unitExt (ofClasses [classC, classB]) (.ok u) T) ∧ ∃ u T, Ends unitExt (ofClasses [classB, classC]) (.ok u) T :=
  ⟨accepted_of (n := 40) (by decide +kernel), accepted_of (n := 40) (by decide +kernel)⟩

/-- `B` with the superclass `(A (F Unit))`: now `A` comes first in any order. -/
def classB' : Class := ⟨3, [⟨4, none⟩], [⟨1, [.app (.gen 4) [.con 9]]⟩], [⟨8, ⟨[], [], .app (.gen 4) [.con 9]⟩, none⟩]⟩

def theirKinds : Id → AKind
  | 1 => .func [.type] .constraint
  | 2 => .type
  | 3 => .func [.func [.type] .type] .constraint
  | 4 => .func [.type] .type
  | 6 => .func [.func [.type] .type, .satisfaction] .value
  | 7 => .func [.type] .type
  | 9 => .type
  | _ => .value

theorem app_kind {K : Id → AKind} {t : Ty} {c : Id} {k k' : AKind} (h : HasKind K t (.func [k] k')) (hc : K c = k) : HasKind K (.app t [.con c]) k' :=
  .app (ks := [k]) h (.cons (hc ▸ .con c) .nil)

theorem theirs_well_kinded (cs : List Class) (h : ∀ c ∈ cs, c = classA ∨ c = classB') : WellKinded theirKinds (ofClasses cs) := by
  have h7 : HasKind theirKinds (.gen 7) (.func [.type] .type) := .gen 7
  have h4 : HasKind theirKinds (.gen 4) (.func [.type] .type) := .gen 4
  have h2 : HasKind theirKinds (.gen 2) .type := .gen 2
  have h9 : HasKind theirKinds (.con 9) .type := .con 9
  have h49 := app_kind h4 (c := 9) rfl
  refine ⟨by simp [ofClasses], by simp [ofClasses], fun c hc => ?_, by simp [ofClasses], by simp [ofClasses], by simp [ofClasses], by simp [ofClasses],
    by simp [ofClasses], by simp [ofClasses]⟩
  have hA : ConOk theirKinds ⟨1, [.app (.gen 4) [.con 9]]⟩ := ⟨[.type], .cons h49 .nil, rfl⟩
  have hB : ConOk theirKinds ⟨3, [.gen 7]⟩ := ⟨[.func [.type] .type], .cons h7 .nil, rfl⟩
  rcases h c hc with rfl | rfl
  · simp [classA, ClassOk, GenericOk, GenericEq, AnnOk, SchemeOk, IsType, arrow, theirKinds, FirstClass, FirstClasses, ExprOk, ExprsOk, VarsOk, FunsOk, localScheme]
    exact ⟨h2, hB, h9⟩
  · simp [classB', ClassOk, GenericOk, GenericEq, AnnOk, SchemeOk, IsType, arrow, theirKinds, FirstClass, FirstClasses]
    exact ⟨hA, h49⟩

/-- A module that is well kinded, but not accepted, in whatever order its classes come. -/
theorem well_kinded_rejected : ∃ (ext : Id → Option SrcKind) (r : Root), Distinct r ∧ (∃ K, Imports K ext ∧ WellKinded K r) ∧
    ∀ r', Reordered r r' → ∃ e T, Ends ext r' (.error e) T := by
  refine ⟨unitExt, ofClasses [classA, classB'], by simp [Distinct, ofClasses, classA, classB'], ⟨theirKinds, ?_, theirs_well_kinded _ (by simp)⟩, ?_⟩
  · intro c k h
    unfold unitExt at h
    split at h
    · next hc => cases h; subst hc; rfl
    · cases h
  · rintro ⟨b, d, c, f, cf, o, m, i, is⟩ h
    have e1 := h.builtins.nil_eq
    have e2 := h.datas.nil_eq
    have e3 := h.functions.nil_eq
    have e4 := h.cFunctions.nil_eq
    have e5 := h.builtinOps.nil_eq
    have e6 := h.macros.nil_eq
    have e7 := h.instances.nil_eq
    have e8 := h.inits
    have e9 := h.classes
    simp only [ofClasses] at e1 e2 e3 e4 e5 e6 e7 e8 e9
    subst e1 e2 e3 e4 e5 e6 e7 e8
    have hc : c = [classA, classB'] ∨ c = [classB', classA] := by
      have hl := e9.length_eq
      match c, hl with
      | [x, y], _ =>
        have hx : x = classA ∨ x = classB' := by simpa using e9.mem_iff.2 (show x ∈ [x, y] by simp)
        rcases hx with rfl | rfl
        · have := (List.perm_cons classA).1 e9
          simp only [List.singleton_perm_singleton] at this
          simp [this]
        · have h1 := e9.trans (.swap _ _ [])
          have h2 := e9.mem_iff.1 (show classA ∈ [classA, classB'] by simp)
          rcases List.mem_cons.1 h2 with h2 | h2
          · simp [classA, classB'] at h2
          · simp only [List.mem_singleton] at h2
            simp [h2]
    rcases hc with rfl | rfl
    · exact rejected_of (n := 40) (by decide +kernel)
    · exact rejected_of (n := 40) (by decide +kernel)

/-! ## Non-vacuity -/

/-- `(data (Fix F) (fix (F (Fix F))))` and `(data (Pair A B) (pair A B))`. -/
def fix : Data := ⟨1, [⟨2, none⟩], [.app (.gen 2) [.app (.con 1) [.gen 2]]]⟩
def pair : Data := ⟨3, [⟨4, none⟩, ⟨5, none⟩], [.gen 4, .gen 5]⟩
/-- `(class (Monad M) (pure (forall A (-> A (M A)))))`, with `(Monad 6)`, `M 7`, `pure 8`, `A 9`. -/
def monad : Class := ⟨6, [⟨7, none⟩], [], [⟨8, ⟨[⟨9, none⟩], [], .app (.con 20) [.gen 9, .app (.gen 7) [.gen 9]]⟩, none⟩]⟩
/-- `(instance (forall A (Monad (Pair A))))` is refused: `Pair` has two parameters. -/
def monadPair : Inst := ⟨10, [⟨11, none⟩], [], ⟨6, [.app (.con 3) [.gen 11]]⟩, []⟩
/-- `(instance Monad.Box (Monad Box))` with `(data (Box A) (box A))`. -/
def box : Data := ⟨12, [⟨13, none⟩], [.gen 13]⟩
def monadBox : Inst := ⟨14, [], [], ⟨6, [.con 12]⟩, []⟩
def arrow2 : Id → Option SrcKind := fun c => if c = 20 then some ⟨.func [.type, .type] .type, rfl⟩ else none
def goodModule : Root := ⟨[], [pair, fix, box], [monad], [], [], [], [], [monadBox], []⟩
def badModule : Root := ⟨[], [pair, fix, box], [monad], [], [], [], [], [monadPair], []⟩

/-- `(-> (-> * *) *)` -/
def isFixKind : Option AKind → Bool
  | some (.func [.func [.type] .type] .type) => true
  | _ => false

theorem isFixKind_eq {k : Option AKind} (h : isFixKind k = true) : k = some (.func [.func [.type] .type] .type) := by
  unfold isFixKind at h
  split at h
  · rfl
  · cases h

def kindIn (x : Option (Except Err Unit × (Id → Option AKind))) (c : Id) : Option AKind := x.bind (fun x => x.2 c)

example : Distinct goodModule ∧ Distinct badModule := by simp [Distinct, goodModule, badModule, pair, fix, box, monad]

/-- C68: a module with a fixed point of type constructors and a class of type constructors is accepted, and `Fix` has the kind `(-> (-> * *) *)`. -/
theorem good_accepted : ∃ u T, Ends arrow2 goodModule (.ok u) T ∧ T 1 = some (.func [.func [.type] .type] .type) := by
  obtain ⟨u, T, h⟩ := accepted_of (ext := arrow2) (r := goodModule) (n := 40) (by decide +kernel)
  refine ⟨u, T, h, ?_⟩
  obtain ⟨n, hn⟩ := h
  have h40 : isFixKind (kindIn (run arrow2 40 goodModule) 1) = true := by decide +kernel
  cases hr : run arrow2 40 goodModule with
  | none => rw [hr] at h40; simp [kindIn, isFixKind] at h40
  | some x =>
    have := (run_mono arrow2 hr (Nat.le_max_left 40 n)).symm.trans (hn _ (Nat.le_max_right 40 n))
    cases this
    rw [hr] at h40
    exact isFixKind_eq h40

example : ∃ K, Imports K arrow2 ∧ WellKinded K goodModule ∧ K 1 = .func [.func [.type] .type] .type := by
  obtain ⟨u, T, h, h1⟩ := good_accepted
  obtain ⟨⟨K, e1, e2, e3, -⟩, -⟩ := kind_inference_sound goodModule (by simp [Distinct, goodModule, pair, fix, box, monad]) h
  exact ⟨K, e1, e3, e2 1 _ h1⟩

/-- C68: an instance for a type constructor with too many parameters is refused. -/
example : ∃ e T, Ends arrow2 badModule (.error e) T := rejected_of (n := 40) (by decide +kernel)

/-- C68, C69: with annotations, `(data (Fix {F (-> * *)}) (fix (F (Fix F))))` is accepted and `(data (Fix {F *}) …)` is not. -/
def fixAnn (k : SrcKind) : Data := ⟨1, [⟨2, some k⟩], [.app (.gen 2) [.app (.con 1) [.gen 2]]]⟩
def annModule (k : SrcKind) : Root := ⟨[], [fixAnn k], [], [], [], [], [], [], []⟩

example (k : SrcKind) : (annModule k).All (fun p => p.ann ≠ none) := by simp [Root.All, annModule, fixAnn]
example : verdict (run arrow2 40 (annModule ⟨.func [.type] .type, rfl⟩)) = some true := by decide +kernel
example : ¬ ∃ K, Imports K arrow2 ∧ WellKinded K (annModule ⟨.type, rfl⟩) := by
  rw [← kind_inference_annotated _ (by simp [Distinct, annModule, fixAnn]) (by simp [Root.All, annModule, fixAnn])]
  rintro ⟨u, T, h⟩
  obtain ⟨e, T', h'⟩ := rejected_of (ext := arrow2) (r := annModule ⟨.type, rfl⟩) (n := 40) (by decide +kernel)
  cases (h.unique h').1

end Verif.KindInfer
