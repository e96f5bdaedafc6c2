import Verif.Inline.Total
import Verif.Closure.Props

/-!
# C63: a transparent function inlined means the same as called

Inlining puts the arguments where the parameters are.  That keeps the meaning of a program when the arguments are pure (variables, constants, functions,
and data made of those) and the body does not return early.  For other arguments and bodies it does not, see below.
-/
namespace Verif.Inline

open Verif.Closure

/-- What is asked of the program before a function is normalised: the transparent functions are as they should be, and the function is well-scoped, has
names of its own, and gives pure arguments to transparent functions. -/
structure Ready (t : Ct → Bool) (P : Prog) (next : Nat) (c : Ct) : Prop where
  trans : ∀ c d, t c = true → P c = some d → TransOK t next d
  scope : ∀ d, P c = some d → OK (d.params ++ (match d.env with | some (e, ys) => e :: ys | none => [])) [] d.body
  vars : ∀ d, P c = some d → ∀ z, z ∈ d.params ∨ (∃ e ys, d.env = some (e, ys) ∧ z ∈ e :: ys) → Away t P next z
  defs : ∀ d, P c = some d → ∀ z ∈ d.body.defs, z < next ∧ ∀ c' d', c' ≠ c → t c' = true → P c' = some d' → z ∉ d'.body.defs
  opaque_ : t c = false
  calls : ∀ d, P c = some d → PureCalls t d.body

theorem ready_rel {t : Ct → Bool} {P P' : Prog} {fuel next next' : Nat} {c : Ct} (hr : Ready t P next c) (h : normFun t P fuel c next = some (P', next')) :
    ProgR P P' := by
  simp only [normFun, Option.bind_eq_bind, Option.bind_eq_some_iff] at h
  obtain ⟨d, hd, ⟨b, n⟩, hb, h⟩ := h
  cases h
  intro c'
  by_cases e : c' = c
  · subst e
    refine .inr ⟨d, { d with body := b }, hd, by simp, rfl, rfl, .inr ?_⟩
    refine (inl_rel hr.trans d.body hb (hr.scope d hd) ?_ ?_ (hr.calls d hd) (Nat.le_refl _)).1
    · intro z hz
      refine hr.vars d hd z ?_
      rcases List.mem_append.1 hz with hz | hz
      · exact .inl hz
      · cases he : d.env with
        | none => rw [he] at hz; cases hz
        | some env => rw [he] at hz; exact .inr ⟨env.1, env.2, rfl, hz⟩
    · intro z hz
      refine ⟨(hr.defs d hd z hz).1, fun c2 d2 ht h2 => ?_⟩
      refine (hr.defs d hd z hz).2 c2 d2 ?_ ht h2
      rintro rfl
      rw [hr.opaque_] at ht
      cases ht
  · cases hc : P c' with
    | none => exact .inl ⟨rfl, by simp [e, hc]⟩
    | some d' => exact .inr ⟨d', d', rfl, by simp [e, hc], rfl, rfl, .inl rfl⟩

theorem ends_iff {P P' : Prog} {main main' : Expr} (h : ∀ k, Sync k (fun n => (eval (apply P n) n main .nil).catch) (fun n => (eval (apply P' n) n main' .nil).catch))
    (hs : Safe P main) : Safe P' main' ∧ ∀ r, Ends P main r ↔ Ends P' main' r := by
  have back : ∀ n, run P' main' n ≠ .timeout → ∃ N, run P main N = run P' main' n := by
    intro n hn
    rcases (h n).2 n (Nat.le_refl _) { mem := [], out := [] } with ht | ⟨N, hN⟩
    · exact (hn ht).elim
    · rcases hN N (Nat.le_refl _) with ⟨_, e⟩ | ⟨f, _⟩ | e
      · exact (hs N e).elim
      · exact f.elim
      · exact ⟨N, e⟩
  refine ⟨fun n hn => ?_, fun r => ⟨?_, ?_⟩⟩
  · obtain ⟨N, e⟩ := back n (by rw [hn]; nofun)
    exact hs N (e.trans hn)
  · rintro ⟨hr, n, rfl⟩
    refine ⟨hr, ?_⟩
    rcases (h n).1 n (Nat.le_refl _) { mem := [], out := [] } with ht | ⟨N, hN⟩
    · exact (hr ht).elim
    · rcases hN N (Nat.le_refl _) with ⟨f, _⟩ | ⟨_, e⟩ | e
      · exact f.elim
      · exact (hs n e).elim
      · exact ⟨N, e⟩
  · rintro ⟨hr, n, rfl⟩
    exact ⟨hr, back n hr⟩

/-- C63: normalising a function inlines the transparent functions it calls, and the program means what it meant. -/
theorem inline_keeps_meaning_partial {t : Ct → Bool} {P P' : Prog} {fuel next next' : Nat} {c : Ct} {main : Expr} (hr : Ready t P next c)
    (h : normFun t P fuel c next = some (P', next')) (hs : Safe P main) : Safe P' main ∧ ∀ r, Ends P main r ↔ Ends P' main r :=
  ends_iff (run_sync (ready_rel hr h) (.inl rfl)) hs

/-- One function after the other.  A transparent function is normalised as if it was not one: it does not call itself. -/
inductive Normalised : Prog → Prog → Prop
  | done (P : Prog) : Normalised P P
  | step {t : Ct → Bool} {P P1 P2 : Prog} {fuel next next' : Nat} {c : Ct} (hr : Ready t P next c) (h : normFun t P fuel c next = some (P1, next'))
      (hs : Normalised P1 P2) : Normalised P P2

/-- C63: all of them. -/
theorem inline_all_partial {P P' : Prog} {main : Expr} (h : Normalised P P') (hs : Safe P main) :
    Safe P' main ∧ ∀ r, Ends P main r ↔ Ends P' main r := by
  induction h with
  | done P => exact ⟨hs, fun _ => .rfl⟩
  | step hr h _ ih =>
    obtain ⟨s1, e1⟩ := inline_keeps_meaning_partial hr h hs
    obtain ⟨s2, e2⟩ := ih s1
    exact ⟨s2, fun r => (e1 r).trans (e2 r)⟩

/-- C63: a call with pure arguments is inlined without a panic. -/
theorem inline_no_panic_partial {t : Ct → Bool} {next : Nat} {d : Def} {as : Exprs} (hd : TransOK t next d) (hf : Flat d.body) (hp : Pures as)
    (hl : d.params.length = (Exprs.toList as).length) : ∃ e next', callTransparent d as next = some (e, next') := by
  have hm : ∀ z a, look (d.params.zip (Exprs.toList as)) z = some a → Pure a := fun z a h => toList_pure as hp a (look_zip _ _ h).2
  obtain ⟨e, s, h⟩ := total (s := ⟨next, []⟩) (replaceRt (d.params.zip (Exprs.toList as)) d.body) (flat_replace hm d.body hf)
    (by rw [defs_replace hm]; exact hd.names) (fun _ _ => rfl)
  exact ⟨e, s.next, by simp [callTransparent, hd.env, hl, h]⟩

/-! ## A program with transparent functions -/

/-- `0: (a b) -> let c = a + b; c + c`, transparent; `1: (f x) -> f(x, x)`, transparent; `2: (x) -> print 0(x, 3); 1(0, x)`. -/
def prog : Prog
  | 0 => some ⟨none, [0, 1], .letVar 2 (.prim .add (args [.var 0, .var 1])) (.prim .add (args [.var 2, .var 2]))⟩
  | 1 => some ⟨none, [3, 4], .call (.var 3) (args [.var 4, .var 4])⟩
  | 2 => some ⟨none, [5], .seq (.prim .print (args [.call (.sfun 0) (args [.var 5, .int 3])])) (.call (.sfun 1) (args [.sfun 0, .var 5]))⟩
  | _ => none

def transparent : Ct → Bool := fun c => c == 0 || c == 1

/-- The normalised function: both calls are gone, and so is the one that came out of the second. -/
def expected : Expr :=
  .seq (.prim .print (args [.letVar 6 (.prim .add (args [.var 5, .int 3])) (.prim .add (args [.var 6, .var 6]))]))
    (.letVar 7 (.prim .add (args [.var 5, .var 5])) (.prim .add (args [.var 7, .var 7])))

example : (normFun transparent prog 5 2 6).map (fun q => (q.1 2).map Def.body) = some (some expected) := rfl
example : shown (run prog (.call (.sfun 2) (args [.int 4])) 9) = some ([14], some 16) := by decide +kernel
example : (normFun transparent prog 5 2 6).map (fun q => shown (run q.1 (.call (.sfun 2) (args [.int 4])) 9)) = some (some ([14], some 16)) := by
  decide +kernel

/-- The theorem applies to it. -/
example : Ready transparent prog 6 2 where
  trans := by
    intro c d ht h
    match c with
    | 0 =>
      cases h
      exact ⟨rfl, by simp [NoRet, NoRet.go, NoRet.gos, args], by decide, by simp [OK, OKs, args], by decide, by decide, trivial⟩
    | 1 =>
      cases h
      exact ⟨rfl, by simp [NoRet, NoRet.go, NoRet.gos, args], by decide, by simp [OK, OKs, args], by decide, by decide, by simp [RootOK, Pures, Pure, args]⟩
    | 2 => cases ht
    | c + 3 => cases h
  scope := by intro d h; cases h; simp [OK, OKs, args]
  vars := by
    intro d h z hz
    cases h
    have : z = 5 := by simpa using hz
    subst this
    refine ⟨by decide, fun c d ht h => ?_⟩
    match c with
    | 0 => cases h; decide
    | 1 => cases h; decide
    | 2 => cases ht
    | c + 3 => cases h
  defs := by intro d h z hz; cases h; cases hz
  opaque_ := rfl
  calls := by intro d h; cases h; simp [PureCalls, PureCallss, Pures, Pure, args, transparent]

/-! ## What goes wrong otherwise -/

/-- A function and a call of it, before and after. -/
def both (d : Def) (as : List Expr) : Option (Option (List Int × Option Int)) × Option (Option (List Int × Option Int)) :=
  let P : Prog := fun c => if c = 0 then some d else none
  (some (shown (run P (.call (.sfun 0) (args as)) 9)), (callTransparent d (args as) 50).map fun q => shown (run P q.1 9))

/-- Prints a number and is it. -/
def noisy (n : Int) : Expr := .seq (.prim .print (args [.int n])) (.int n)

/-- An argument that is not used is not evaluated: `hash!` of `Hash.unit`, std/tuple.llrl:27. -/
theorem drops_effects : both ⟨none, [0], .int 1⟩ [noisy 7] = (some (some ([7], some 1)), some (some ([], some 1))) := by decide +kernel

/-- Arguments are evaluated where they are used: `display!` of `Display.String`, std/display.llrl:36. -/
theorem reorders_effects : both ⟨none, [0, 1], .prim .sub (args [.var 1, .var 0])⟩ [noisy 7, noisy 8] =
    (some (some ([7, 8], some 1)), some (some ([8, 7], some 1))) := by decide +kernel

/-- And as often as they are used. -/
theorem doubles_effects : both ⟨none, [0], .prim .add (args [.var 0, .var 0])⟩ [noisy 7] = (some (some ([7], some 14)), some (some ([7, 7], some 14))) := by
  decide +kernel

/-- A read is late too. -/
theorem reads_late : both ⟨none, [0], .seq (.prim .print (args [.int 1])) (.var 0)⟩ [.seq (.prim .print (args [.int 2])) (.int 3)] =
    (some (some ([2, 1], some 3)), some (some ([1, 2], some 3))) := by decide +kernel

/-- `return` leaves the caller instead of the function. -/
theorem returns_too_far :
    let P : Prog := fun c => if c = 0 then some ⟨none, [0], .ret (.var 0)⟩ else none
    let caller := fun e => Expr.prim .add (args [e, .int 100])
    shown (run P (caller (.call (.sfun 0) (args [.int 1]))) 9) = some ([], some 101) ∧
    (callTransparent ⟨none, [0], .ret (.var 0)⟩ (args [.int 1]) 50).map (fun q => shown (run P (caller q.1) 9)) = some (some ([], some 1)) := by
  decide +kernel

/-- An argument that defines a variable and is used twice defines it twice, and the assertion of `after_rt_def` fails. -/
theorem panics : both ⟨none, [0], .prim .add (args [.var 0, .var 0])⟩ [.letVar 9 (.int 1) (.var 9)] = (some (some ([], some 2)), none) := by decide +kernel

/-- A transparent function that calls itself is put into itself without end. -/
theorem recursion_never_ends (fuel next : Nat) :
    afterRt (fun _ => true) (fun c => if c = 0 then some ⟨none, [], .call (.sfun 0) .nil⟩ else none) fuel (.call (.sfun 0) .nil) (.sfun 0) .nil next = none := by
  induction fuel generalizing next with
  | zero => rfl
  | succ fuel ih =>
    simp only [afterRt, if_true]
    exact ih next

end Verif.Inline
