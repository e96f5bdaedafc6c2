import Verif.TypeUnify.History

/-!
# C21: type unification is sound and most general

The operations are those of `unification/types.rs`; the spec (terms, solutions, most general solutions) is in `Spec.lean`.  A solution respects the kinds of
the unknowns and their levels: no type parameter or unknown of an inner scope escapes.
-/
namespace Verif.TypeUnify
open Verif Verif.Unify Verif.Unify.Cell

variable {Kd : Type} [DecidableEq Kd]

/-- A call returns `v` (with any fuel that is large enough) without a panic. -/
def Returns {α : Type} (f : Nat → Option α) (v : α) : Prop := ∃ n0, ∀ n, n0 ≤ n → f n = some v

/-- Histories in which all unifications succeeded: the pool, the types returned so far with the terms they were made for, and the abstract history. -/
inductive Hist (env : Env Kd) : Pool Kd → List (Ty Kd × Term) → Abs Kd → Prop
  | init : Hist env [] [] ⟨[], [], []⟩
  | newVar {p hs a} (k : Kd) (lv : Nat) : Hist env p hs a →
      Hist env (newVar k lv p).2 (hs ++ [((newVar k lv p).1, .unknown a.unknowns.length)])
        { a with unknowns := a.unknowns ++ [(k, lv)], terms := a.terms ++ [.unknown a.unknowns.length] }
  | con {p hs a} (c : Nat) : Hist env p hs a → Hist env p (hs ++ [(.con c, .con c)]) { a with terms := a.terms ++ [.con c] }
  | gen {p hs a} (g lv : Nat) : Hist env p hs a → Hist env p (hs ++ [(.gen g lv, .gen g lv)]) { a with terms := a.terms ++ [.gen g lv] }
  /-- the callee must have the kind of a function (kind inference made sure, module/sema/kind_inference.rs) -/
  | app {p hs a c k p0} {args : List (Ty Kd × Term)} : Hist env p hs a → c ∈ hs → (∀ x ∈ args, x ∈ hs) → Returns (fun n => getKind env n c.1 p) (k, p0) → env.ret k ≠ none →
      Hist env (newApp c.1 (args.map (·.1)) p).2 (hs ++ [((newApp c.1 (args.map (·.1)) p).1, .app c.2 (args.map (·.2)))])
        { a with terms := a.terms ++ [.app c.2 (args.map (·.2))] }
  | unify {p hs a x y p'} : Hist env p hs a → x ∈ hs → y ∈ hs → Returns (fun n => unify env n x.1 y.1 p) (.ok (), p') →
      Hist env p' hs { a with eqs := a.eqs ++ [(x.2, y.2)] }
  | matchToRight {p hs a x y p'} : Hist env p hs a → x ∈ hs → y ∈ hs → Returns (fun n => matchToRight env n x.1 y.1 p) (.ok (), p') →
      Hist env p' hs { a with eqs := a.eqs ++ [(x.2, y.2)] }
  | getKind {p hs a x k p'} : Hist env p hs a → x ∈ hs → Returns (fun n => getKind env n x.1 p) (k, p') → Hist env p' hs a
  | exportType {p hs a x t p'} : Hist env p hs a → x ∈ hs → Returns (fun n => exportType env n x.1 p) (t, p') → Hist env p' hs a
  | deepestLevel {p hs a x l p'} : Hist env p hs a → x ∈ hs → Returns (fun n => deepestLevel n x.1 p) (l, p') → Hist env p' hs a
  | getVars {p hs a x l vs p'} : Hist env p hs a → x ∈ hs → Returns (fun n => getVars n x.1 l p) (vs, p') → Hist env p' hs a

omit [DecidableEq Kd] in
theorem Returns.unique {α : Type} {f : Nat → Option α} {v w : α} (h : Returns f v) {n0 : Nat} (hw : ∀ n, n0 ≤ n → f n = some w) : v = w := by
  obtain ⟨n1, h1⟩ := h
  have e1 := h1 (max n0 n1) (by omega)
  rw [hw _ (by omega)] at e1
  exact (Option.some.inj e1).symm

omit [DecidableEq Kd] in
theorem belows_of {n : Nat} : ∀ ts : List Term, (∀ t ∈ ts, t.Below n) → Term.Belows n ts
  | [], _ => trivial
  | a :: as, h => ⟨h a (by simp), belows_of as fun t ht => h t (by simp [ht])⟩

omit [DecidableEq Kd] in
theorem evals_map (τ : Nat → AType Kd) : ∀ ts : List Term, Term.evals τ ts = ts.map (Term.eval τ)
  | [] => rfl
  | a :: as => by simp [Term.evals, evals_map τ as]

omit [DecidableEq Kd] in
theorem runAll_ok {S : Type} (g : Ty Kd → S → S) (L : List (Ty Kd)) (s : S) :
    runAll (ε := Empty) (fun t s => .ok (g t s)) L s = .ok (L.foldl (fun s t => g t s) s) := by
  induction L generalizing s with
  | nil => rfl
  | cons x L ih => simp [runAll, ih]

omit [DecidableEq Kd] in
theorem getKind_ret {env : Env Kd} {κ : Nat → Kd} {r : Nat → Nat} {p : Pool Kd} (hw : WF r p) (hk : Kinded env κ p) {t : Ty Kd} (ho : Ok env κ p t) {k : Kd}
    {p' : Pool Kd} (h : Returns (fun n => getKind env n t p) (k, p')) : cellKind env κ t = some k ∧ Compress p p' := by
  obtain ⟨R, hR⟩ := exists_low r t
  obtain ⟨k', hk'⟩ := ho.kind
  obtain ⟨p1, e1, e2⟩ := getKind_spec R t p k' hR hw ho.good hk hk'
  have := h.unique (n0 := R + 1) (fun n hn => e1 n (by omega))
  cases this
  exact ⟨hk', e2⟩

theorem Hist.rep {env : Env Kd} {p : Pool Kd} {hs : List (Ty Kd × Term)} {a : Abs Kd} (h : Hist env p hs a) : Rep env p hs a := by
  induction h with
  | init =>
    exact ⟨⟨fun _ => 0, fun i k hk => by simp at hk, fun i j ⟨k, hk, _⟩ => by simp at hk⟩,
      ⟨fun _ => env.type, ⟨fun i t hi => by simp at hi, fun i k lv hi => by simp at hi, fun i t hi => by simp at hi⟩, by simp⟩, by simp, by simp, rfl,
      fun σ _ => ⟨fun _ => .con 0, ⟨by simp, by simp, by simp⟩, by simp⟩,
      fun τ _ => ⟨fun _ => .con 0, ⟨fun i t hi => by simp at hi, fun i k lv hi => by simp at hi, fun i k lv hi => by simp at hi⟩, by simp⟩⟩
  | newVar k lv _ ih => exact ih.newVar k lv
  | con c _ ih =>
    obtain ⟨κ, hk, ho⟩ := ih.kinded
    exact ih.add hk ho ⟨fun j hj => by simp [refs, asVar, children] at hj, ⟨_, rfl⟩, trivial⟩ trivial (fun _ _ _ _ => rfl)
  | gen g lv _ ih =>
    obtain ⟨κ, hk, ho⟩ := ih.kinded
    exact ih.add hk ho ⟨fun j hj => by simp [refs, asVar, children] at hj, ⟨_, rfl⟩, trivial⟩ trivial (fun _ _ _ _ => rfl)
  | @app p hs a c k p0 args _ hc hargs hret hne ih =>
    obtain ⟨r, hw⟩ := ih.wf
    obtain ⟨κ, hk, ho⟩ := ih.kinded
    obtain ⟨hck, -⟩ := getKind_ret hw hk (ho c hc) hret
    obtain ⟨k', hk'⟩ := Option.ne_none_iff_exists'.1 hne
    have hb : (Term.app c.2 (args.map (·.2))).Below a.unknowns.length :=
      ⟨ih.below c hc, belows_of _ fun t ht => by obtain ⟨x, hx, rfl⟩ := List.mem_map.1 ht; exact ih.below x (hargs x hx)⟩
    cases args with
    | nil =>
      exact ih.add hk ho (ho c hc) hb (fun σ τ _ hst => by simpa [Term.eval, newApp] using hst c hc)
    | cons b args =>
      obtain ⟨⟨κ', h1, h2⟩, h3⟩ := newApp_spec hw hk (args := (b :: args).map (·.1)) (by simp) (ho c hc)
        (fun t ht => by obtain ⟨x, hx, rfl⟩ := List.mem_map.1 ht; exact ho x (hargs x hx)) hck hk'
      have hrep := ih.grow ho h1
      refine hrep.add h1.kinded (fun x hx => h1.ok (ho x hx)) h2 hb (fun σ τ hσ hst => ?_)
      rw [h3 σ hσ]
      simp only [List.map_cons, Term.eval, evals_map, hst c hc, hst b (hargs b (by simp)), List.map_map]
      congr 2
      apply List.map_congr_left
      intro x hx
      exact hst x (hargs x (by simp [hx]))
  | @unify p hs a x y p' _ hx hy hret ih =>
    obtain ⟨r, hw⟩ := ih.wf
    obtain ⟨κ, hk, ho⟩ := ih.kinded
    obtain ⟨R, hR⟩ := exists_low r x.1
    obtain ⟨res, q, n0, e1, e2⟩ := unify_spec _ R r p x.1 y.1 hw hk (Nat.le_refl _) hR (ho x hx) (ho y hy)
    cases hret.unique e1
    exact ih.unified ho hx hy e2
  | @matchToRight p hs a x y p' _ hx hy hret ih =>
    obtain ⟨r, hw⟩ := ih.wf
    obtain ⟨κ, hk, ho⟩ := ih.kinded
    obtain ⟨R, hR⟩ := exists_low r x.1
    obtain ⟨res, q, n0, e1, e2⟩ := match_spec _ R r p x.1 y.1 hw hk (Nat.le_refl _) hR (ho x hx) (ho y hy)
    cases hret.unique e1
    exact ih.unified ho hx hy e2
  | @getKind p hs a x k p' _ hx hret ih =>
    obtain ⟨r, hw⟩ := ih.wf
    obtain ⟨κ, hk, ho⟩ := ih.kinded
    obtain ⟨-, hc⟩ := getKind_ret hw hk (ho x hx) hret
    exact ih.grow ho (.compress hw hk hc)
  | @exportType p hs a x t p' _ hx hret ih =>
    obtain ⟨r, hw⟩ := ih.wf
    obtain ⟨κ, hk, ho⟩ := ih.kinded
    obtain ⟨R, hR⟩ := exists_low r x.1
    obtain ⟨σ, hσ⟩ := exists_principal (env := env) ih.wf
    obtain ⟨q, e1, e2⟩ := exportType_spec R x.1 p hR hw hk (ho x hx) hσ
    cases hret.unique (n0 := R + 1) (fun n hn => e1 n (by omega))
    exact ih.grow ho (.compress hw hk e2)
  | @deepestLevel p hs a x l p' _ hx hret ih =>
    obtain ⟨r, hw⟩ := ih.wf
    obtain ⟨κ, hk, ho⟩ := ih.kinded
    obtain ⟨R, hR⟩ := exists_rankLt r x.1
    obtain ⟨L, q, e1, e2, -⟩ := dfs_spec (ε := Empty) (fun t level => .ok (deepestOne t level)) 0 hw (ho x hx).good hR
    rw [runAll_ok] at e1
    cases hret.unique (w := (L.foldl (fun s t => deepestOne t s) 0, q)) (n0 := R + 1) (fun n hn => by simp only [TypeUnify.deepestLevel, e1 n (by omega)])
    exact ih.grow ho (.compress hw hk e2)
  | @getVars p hs a x l vs p' _ hx hret ih =>
    obtain ⟨r, hw⟩ := ih.wf
    obtain ⟨κ, hk, ho⟩ := ih.kinded
    obtain ⟨R, hR⟩ := exists_rankLt r x.1
    obtain ⟨L, q, e1, e2, -⟩ := dfs_spec (ε := Empty) (fun t vs => .ok (collectOne l t vs)) [] hw (ho x hx).good hR
    rw [runAll_ok] at e1
    cases hret.unique (w := (L.foldl (fun s t => collectOne l t s) [], q)) (n0 := R + 1) (fun n hn => by simp only [TypeUnify.getVars, e1 n (by omega)])
    exact ih.grow ho (.compress hw hk e2)

/-- Adding an equation to a history. -/
def Abs.withEq (a : Abs Kd) (x y : Term) : Abs Kd := { a with eqs := a.eqs ++ [(x, y)] }

/-- **Unification decides.**  After every history, unifying two types returns without a panic, and it returns `Ok` exactly when some assignment solves all
equations so far and the new one, respecting kinds and levels. -/
theorem type_unify_decides (env : Env Kd) (p : Pool Kd) (hs : List (Ty Kd × Term)) (a : Abs Kd) (h : Hist env p hs a) (x y : Ty Kd × Term)
    (hx : x ∈ hs) (hy : y ∈ hs) :
    ∃ res p', Returns (fun n => unify env n x.1 y.1 p) (res, p') ∧ (res = .ok () ↔ ∃ τ, Solves env (a.withEq x.2 y.2) τ) := by
  have hr := h.rep
  obtain ⟨r, hw⟩ := hr.wf
  obtain ⟨κ, hk, ho⟩ := hr.kinded
  obtain ⟨R, hR⟩ := exists_low r x.1
  obtain ⟨res, p', n0, e1, e2⟩ := unify_spec _ R r p x.1 y.1 hw hk (Nat.le_refl _) hR (ho x hx) (ho y hy)
  refine ⟨res, p', ⟨n0, e1⟩, fun hres => ?_, fun hsol => ?_⟩
  · subst hres
    obtain ⟨τ, h1, -⟩ := (hr.unified ho hx hy e2).principal
    exact ⟨τ, h1.1⟩
  · cases res with
    | ok u => rfl
    | error e => exact absurd hsol (hr.refuted hx hy e2 trivial)

/-- **The assignment of the context is a most general solution.**  After every history, what `export` shows is the type under one solution of all
equations so far, and every other solution is an instance of it. -/
theorem type_most_general (env : Env Kd) (p : Pool Kd) (hs : List (Ty Kd × Term)) (a : Abs Kd) (h : Hist env p hs a) :
    ∃ τ₀, MostGeneral env a τ₀ ∧ ∀ x ∈ hs, ∃ p', Returns (fun n => exportType env n x.1 p) ((x.2.eval τ₀).erase, p') := by
  obtain ⟨τ₀, h1, h2⟩ := h.rep.principal
  refine ⟨τ₀, h1, fun x hx => ?_⟩
  obtain ⟨p', n0, e⟩ := h2 x hx
  exact ⟨p', n0, e⟩

/-- After a successful unification the two types export to the same type. -/
theorem type_unify_equal (env : Env Kd) (p : Pool Kd) (hs : List (Ty Kd × Term)) (a : Abs Kd) (h : Hist env p hs a) (x y : Ty Kd × Term)
    (hx : x ∈ hs) (hy : y ∈ hs) (p' : Pool Kd) (hu : Returns (fun n => unify env n x.1 y.1 p) (.ok (), p')) :
    ∃ t p1 p2, Returns (fun n => exportType env n x.1 p') (t, p1) ∧ Returns (fun n => exportType env n y.1 p') (t, p2) := by
  obtain ⟨τ₀, h1, h2⟩ := type_most_general env p' hs _ (.unify h hx hy hu)
  obtain ⟨p1, e1⟩ := h2 x hx
  obtain ⟨p2, e2⟩ := h2 y hy
  have : x.2.eval τ₀ = y.2.eval τ₀ := h1.1.eqs (x.2, y.2) (by simp)
  exact ⟨_, p1, p2, e1, by rw [this]; exact e2⟩

/-- `match_to_right` returns without a panic; `Ok` adds the equation (`Hist.matchToRight`), and if the right side is the same under all solutions (no unknown
is left in it) a failure means that there is no solution. -/
theorem type_match_ground (env : Env Kd) (p : Pool Kd) (hs : List (Ty Kd × Term)) (a : Abs Kd) (h : Hist env p hs a) (x y : Ty Kd × Term)
    (hx : x ∈ hs) (hy : y ∈ hs) :
    ∃ res p', Returns (fun n => matchToRight env n x.1 y.1 p) (res, p') ∧
      (res = .ok () → ∃ τ, Solves env (a.withEq x.2 y.2) τ) ∧
      ((∀ τ τ', Solves env a τ → Solves env a τ' → y.2.eval τ = y.2.eval τ') → res ≠ .ok () → ¬ ∃ τ, Solves env (a.withEq x.2 y.2) τ) := by
  have hr := h.rep
  obtain ⟨r, hw⟩ := hr.wf
  obtain ⟨κ, hk, ho⟩ := hr.kinded
  obtain ⟨R, hR⟩ := exists_low r x.1
  obtain ⟨res, p', n0, e1, e2⟩ := match_spec _ R r p x.1 y.1 hw hk (Nat.le_refl _) hR (ho x hx) (ho y hy)
  refine ⟨res, p', ⟨n0, e1⟩, fun hres => ?_, fun hg hres => ?_⟩
  · subst hres
    obtain ⟨τ, h1, -⟩ := (hr.unified ho hx hy e2).principal
    exact ⟨τ, h1.1⟩
  · cases res with
    | ok u => exact absurd rfl hres
    | error e =>
      refine hr.refuted hx hy e2 (fun σ σ' hσ hσ' => ?_)
      obtain ⟨τ, t1, t2⟩ := hr.fwd σ hσ
      obtain ⟨τ', t3, t4⟩ := hr.fwd σ' hσ'
      rw [← t2 y hy, ← t4 y hy]
      exact hg τ τ' t1 t3

/-- Contexts reached by any history, in which unifications may also have failed. -/
inductive Reached (env : Env Kd) : Pool Kd → List (Ty Kd) → Prop
  | init : Reached env [] []
  | newVar {p hs} (k : Kd) (lv : Nat) : Reached env p hs → Reached env (newVar k lv p).2 (hs ++ [(newVar k lv p).1])
  | con {p hs} (c : Nat) : Reached env p hs → Reached env p (hs ++ [.con c])
  | gen {p hs} (g lv : Nat) : Reached env p hs → Reached env p (hs ++ [.gen g lv])
  | app {p hs c k p0} {args : List (Ty Kd)} : Reached env p hs → c ∈ hs → (∀ x ∈ args, x ∈ hs) → Returns (fun n => getKind env n c p) (k, p0) → env.ret k ≠ none →
      Reached env (newApp c args p).2 (hs ++ [(newApp c args p).1])
  | unify {p hs x y res p'} : Reached env p hs → x ∈ hs → y ∈ hs → Returns (fun n => unify env n x y p) (res, p') → Reached env p' hs
  | matchToRight {p hs x y res p'} : Reached env p hs → x ∈ hs → y ∈ hs → Returns (fun n => matchToRight env n x y p) (res, p') → Reached env p' hs
  | getKind {p hs x k p'} : Reached env p hs → x ∈ hs → Returns (fun n => getKind env n x p) (k, p') → Reached env p' hs
  | exportType {p hs x t p'} : Reached env p hs → x ∈ hs → Returns (fun n => exportType env n x p) (t, p') → Reached env p' hs

theorem Reached.safe {env : Env Kd} {p : Pool Kd} {hs : List (Ty Kd)} (h : Reached env p hs) :
    (∃ r, WF r p) ∧ ∃ κ, Kinded env κ p ∧ ∀ t ∈ hs, Ok env κ p t := by
  have hadd : ∀ {p : Pool Kd} {hs : List (Ty Kd)} {κ : Nat → Kd} {t : Ty Kd}, (∀ t ∈ hs, Ok env κ p t) → Ok env κ p t → ∀ t' ∈ hs ++ [t], Ok env κ p t' := by
    intro p hs κ t h1 h2 t' ht
    rcases List.mem_append.1 ht with ht | ht
    · exact h1 t' ht
    · simp at ht; subst ht; exact h2
  induction h with
  | init => exact ⟨⟨fun _ => 0, fun i k hk => by simp at hk, fun i j ⟨k, hk, _⟩ => by simp at hk⟩,
      ⟨fun _ => env.type, ⟨fun i t hi => by simp at hi, fun i k lv hi => by simp at hi, fun i t hi => by simp at hi⟩, by simp⟩⟩
  | @newVar p hs k lv _ ih =>
    obtain ⟨⟨r, hw⟩, κ, hk, ho⟩ := ih
    obtain ⟨h1, ⟨κ', h2, h3, h4⟩, -⟩ := newVar_spec hw hk k lv
    have hlen : (TypeUnify.newVar k lv p).2.length = p.length + 1 := by simp [TypeUnify.newVar]
    refine ⟨h1, κ', h2, hadd (fun t ht => ⟨fun j hj => ?_, ?_, (ho t ht).proper⟩) ⟨fun j hj => ?_, ⟨_, rfl⟩, trivial⟩⟩
    · have := (ho t ht).good j hj; omega
    · rw [cellKind_agree h3 (ho t ht).good]; exact (ho t ht).kind
    · simp [TypeUnify.newVar, refs, asVar] at hj; omega
  | con c _ ih =>
    obtain ⟨hw, κ, hk, ho⟩ := ih
    exact ⟨hw, κ, hk, hadd ho ⟨fun j hj => by simp [refs, asVar, children] at hj, ⟨_, rfl⟩, trivial⟩⟩
  | gen g lv _ ih =>
    obtain ⟨hw, κ, hk, ho⟩ := ih
    exact ⟨hw, κ, hk, hadd ho ⟨fun j hj => by simp [refs, asVar, children] at hj, ⟨_, rfl⟩, trivial⟩⟩
  | @app p hs c k p0 args _ hc hargs hret hne ih =>
    obtain ⟨⟨r, hw⟩, κ, hk, ho⟩ := ih
    obtain ⟨hck, -⟩ := getKind_ret hw hk (ho c hc) hret
    obtain ⟨k', hk'⟩ := Option.ne_none_iff_exists'.1 hne
    by_cases hn : args = []
    · subst hn
      exact ⟨⟨r, hw⟩, κ, hk, hadd ho (ho c hc)⟩
    · obtain ⟨⟨κ', h1, h2⟩, -⟩ := newApp_spec hw hk hn (ho c hc) (fun t ht => ho t (hargs t ht)) hck hk'
      exact ⟨h1.wf, κ', h1.kinded, hadd (fun t ht => h1.ok (ho t ht)) h2⟩
  | @unify p hs x y res p' _ hx hy hret ih =>
    obtain ⟨⟨r, hw⟩, κ, hk, ho⟩ := ih
    obtain ⟨R, hR⟩ := exists_low r x
    obtain ⟨res, q, n0, e1, e2⟩ := unify_spec _ R r p x y hw hk (Nat.le_refl _) hR (ho x hx) (ho y hy)
    cases hret.unique e1
    exact ⟨e2.wf, κ, e2.kinded, fun t ht => ⟨e2.good (ho t ht).good, (ho t ht).kind, (ho t ht).proper⟩⟩
  | @matchToRight p hs x y res p' _ hx hy hret ih =>
    obtain ⟨⟨r, hw⟩, κ, hk, ho⟩ := ih
    obtain ⟨R, hR⟩ := exists_low r x
    obtain ⟨res, q, n0, e1, e2⟩ := match_spec _ R r p x y hw hk (Nat.le_refl _) hR (ho x hx) (ho y hy)
    cases hret.unique e1
    exact ⟨e2.wf, κ, e2.kinded, fun t ht => ⟨e2.good (ho t ht).good, (ho t ht).kind, (ho t ht).proper⟩⟩
  | @getKind p hs x k p' _ hx hret ih =>
    obtain ⟨⟨r, hw⟩, κ, hk, ho⟩ := ih
    obtain ⟨-, hc⟩ := getKind_ret hw hk (ho x hx) hret
    exact ⟨⟨r, hc.wf hw⟩, κ, hk.compress hw hc, fun t ht => (ho t ht).compress hc⟩
  | @exportType p hs x t p' _ hx hret ih =>
    obtain ⟨⟨r, hw⟩, κ, hk, ho⟩ := ih
    obtain ⟨R, hR⟩ := exists_low r x
    obtain ⟨σ, hσ⟩ := exists_principal (env := env) ⟨r, hw⟩
    obtain ⟨q, e1, hc⟩ := exportType_spec R x p hR hw hk (ho x hx) hσ
    cases hret.unique (n0 := R + 1) (fun n hn => e1 n (by omega))
    exact ⟨⟨r, hc.wf hw⟩, κ, hk.compress hw hc, fun t ht => (ho t ht).compress hc⟩

/-- **No infinite type is created**, also after failed unifications: no cell refers to itself through others. -/
theorem type_acyclic (env : Env Kd) (p : Pool Kd) (hs : List (Ty Kd)) (h : Reached env p hs) :
    (∀ i, ¬ Relation.TransGen (Edge p) i i) ∧ ∀ (i : Nat) (t : Ty Kd), p[i]? = some t → ∀ j ∈ refs t, j < p.length := by
  obtain ⟨⟨r, hw⟩, -⟩ := h.safe
  refine ⟨fun i hi => ?_, hw.closed⟩
  have : ∀ i j, Relation.TransGen (Edge p) i j → r j < r i := by
    intro i j hij
    induction hij with
    | single h => exact hw.ranked _ _ h
    | tail _ h ih => have := hw.ranked _ _ h; omega
  exact Nat.lt_irrefl _ (this i i hi)

/-- In every reached context, also after failures, `unify`, `match_to_right`, `get_kind_id` and `export` return without a panic. -/
theorem type_total (env : Env Kd) (p : Pool Kd) (hs : List (Ty Kd)) (h : Reached env p hs) (x y : Ty Kd) (hx : x ∈ hs) (hy : y ∈ hs) :
    (∃ v, Returns (fun n => unify env n x y p) v) ∧ (∃ v, Returns (fun n => matchToRight env n x y p) v) ∧
      (∃ v, Returns (fun n => getKind env n x p) v) ∧ ∃ v, Returns (fun n => exportType env n x p) v := by
  obtain ⟨⟨r, hw⟩, κ, hk, ho⟩ := h.safe
  obtain ⟨R, hR⟩ := exists_low r x
  obtain ⟨res, q, n0, e1, -⟩ := unify_spec _ R r p x y hw hk (Nat.le_refl _) hR (ho x hx) (ho y hy)
  obtain ⟨res', q', n0', e1', -⟩ := match_spec _ R r p x y hw hk (Nat.le_refl _) hR (ho x hx) (ho y hy)
  obtain ⟨k, hk'⟩ := (ho x hx).kind
  obtain ⟨p1, g1, -⟩ := getKind_spec R x p k hR hw (ho x hx).good hk hk'
  obtain ⟨σ, hσ⟩ := exists_principal (env := env) ⟨r, hw⟩
  obtain ⟨p2, g2, -⟩ := exportType_spec R x p hR hw hk (ho x hx) hσ
  exact ⟨⟨_, n0, e1⟩, ⟨_, n0', e1'⟩, ⟨_, R + 1, fun n hn => g1 n (by omega)⟩, ⟨_, R + 1, fun n hn => g2 n (by omega)⟩⟩

/-! ## Non-vacuity -/

/-- Kinds: 0 is the kind of types, 1 the kind of functions to types.  Constructor 0 is `Int`, 1 is a constructor with arguments. -/
def demoEnv : Env Nat := ⟨0, fun k => if k = 1 then some 0 else none, fun c => c, fun _ => 0⟩

/-- Unknowns `x` (level 0) and `y` (level 1), constructor `F`, type `F y`. -/
def demoPool : Pool Nat := [.var 0 0 0, .var 1 0 1, .con 1]

example : ∃ hs a, Hist demoEnv demoPool hs a ∧ (.var 0 0 0, .unknown 0) ∈ hs ∧ (.app 2 1 2, .app (.con 1) [.unknown 1]) ∈ hs :=
  ⟨_, _, .app (c := (.con 1, .con 1)) (args := [(.var 1 0 1, .unknown 1)]) (k := 1) (.con 1 (.newVar 0 1 (.newVar 0 0 .init)))
    (by simp [newVar]) (by simp [newVar]) ⟨1, fun n hn => by obtain ⟨m, rfl⟩ : ∃ m, n = m + 1 := ⟨n - 1, by omega⟩; rfl⟩ (by decide),
    by simp [newVar, newApp, allocBind, allocBinds, fromIndexCount], by simp [newVar, newApp, allocBind, allocBinds, fromIndexCount]⟩

/-- `x = F y`: `x` is bound and `y` is moved to the level of `x`. -/
example : unify demoEnv 20 (.var 0 0 0) (.app 2 1 2) demoPool = some (.ok (), [.app 2 1 2, .var 1 0 0, .con 1]) := rfl
/-- `y = F y`: the occurs check fails. -/
example : unify demoEnv 20 (.var 1 0 1) (.app 2 1 2) demoPool = some (.error .occursCheckFailed, demoPool) := rfl
/-- a type parameter of level 1 must not escape to `x` of level 0 -/
example : (unify demoEnv 20 (.var 0 0 0) (.gen 5 1) demoPool).map (·.1) = some (.error .mismatch) := rfl
/-- `x` is of kind 0, `F` is not. -/
example : (unify demoEnv 20 (.var 0 0 0) (.con 1) demoPool).map (·.1) = some (.error .mismatch) := rfl

/-- `match_to_right` is not one-sided: matching `F x x` with `F w Int` binds `w`, an unknown of the right side. -/
theorem match_binds_right :
    (matchToRight demoEnv 20 (.app 2 3 5) (.app 2 5 7) [.var 0 0 0, .var 1 0 0, .con 1, .var 0 0 0, .var 0 0 0, .var 1 0 0, .con 0]).map
      (fun r => (r.1, r.2[1]?)) = some (.ok (), some (.con 0)) := rfl

end Verif.TypeUnify
