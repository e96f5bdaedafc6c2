import Verif.Closure.Drive

/-!
# C62: closure conversion keeps the meaning of a program
-/
namespace Verif.Closure

/-- C62.  The program without local functions cannot be told from the one with them: with any fuel, unless the source is stuck, both go on or both
end with the same result, the same output and the same memory. -/
theorem closure_conversion_correct {order : List Id → List Id} (ho : ∀ l, (order l).Perm l) {n rt ct : Nat} {P P' : Program} (hP : P.WF rt ct)
    (h : normalize order n rt ct P = some P') (k : Nat) (hs : run P.fn P.main k ≠ .stuck) : Same (run P.fn P.main k) (run P'.fn P'.main k) := by
  obtain ⟨h1, h2, _⟩ := normalize_parts ho hP h
  have hr := run_sim h1 h2 k
  have hnr : ∀ v s, run P.fn P.main k ≠ .ret v s := by
    intro v s e
    simp only [run, M.catch] at e
    split at e
    · cases e
    · rename_i h' ; exact h' _ _ e
  generalize run P.fn P.main k = a at hr hs hnr
  generalize run P'.fn P'.main k = b at hr
  cases hr with
  | timeout => exact trivial
  | stuck => exact absurd rfl hs
  | ok hv hst => exact ⟨hv.see, hst.out, hst.see⟩
  | ret hv hst => exact absurd rfl (hnr _ _)

/-- C62.  Nothing is left of the local functions, and every definition there was keeps its name, its environment and its parameters. -/
theorem closure_conversion_flat {order : List Id → List Id} (ho : ∀ l, (order l).Perm l) {n rt ct : Nat} {P P' : Program} (hP : P.WF rt ct)
    (h : normalize order n rt ct P = some P') : Flat P'.main ∧ (∀ q ∈ P'.defs, Flat q.2.body) ∧
      ∀ c d, P.fn c = some d → ∃ b, P'.fn c = some { d with body := b } := by
  obtain ⟨h1, _, h3, h4⟩ := normalize_parts ho hP h
  exact ⟨h3, h4, fun c d hd => (h1 c d hd).imp fun _ hb => hb.1⟩

/-- C62.  Normalisation ends on every program: with a fuel given by its size and the uses in its groups. -/
theorem closure_conversion_ends {order : List Id → List Id} (ho : ∀ l, (order l).Perm l) (rt ct : Nat) (P : Program) (n : Nat)
    (hn : qcost P.defs + P.main.cost < n) : ∃ P', normalize order n rt ct P = some P' := normalize_total ho rt ct P n hn

/-! ## Non-vacuity -/

def args : List Expr → Exprs
  | [] => .nil
  | e :: es => .cons e (args es)

/-- What a run printed and the number it ended with. -/
def shown : Out Val → Option (List Int × Option Int)
  | .ok (.int n) s => some (s.out, some n)
  | .ok _ s => some (s.out, none)
  | _ => none

/-- `let x = 10; fun f(a) { fun g(b) { x + (a + b) }; print x; g }; f(5)(7)`, a static function that calls what it is given twice, and two functions
that call each other and both see a pointer they count in. -/
def sample : Program where
  defs := [(0, ⟨none, [40, 41], .call (.var 40) (args [.call (.var 40) (args [.var 41])])⟩)]
  main := .letVar 0 (.int 10) <|
    .letFun (.cons 1 [2] (.letFun (.cons 3 [4] (.prim .add (args [.var 0, .prim .add (args [.var 2, .var 4])])) .nil)
      (.seq (.prim .print (args [.var 0])) (.lfun 3))) .nil) <|
    .letVar 5 (.prim .alloc (args [.int 0])) <|
    .letFun (.cons 6 [8] (.seq (.prim .store (args [.prim .add (args [.int 1, .prim .load (args [.var 5])]), .var 5]))
        (.ite (.prim .eq (args [.var 8, .int 0])) (.ret (.int 1)) (.call (.lfun 7) (args [.prim .sub (args [.var 8, .int 1])]))))
      (.cons 7 [9] (.ite (.prim .eq (args [.var 9, .int 0])) (.int 0) (.call (.lfun 6) (args [.prim .sub (args [.var 9, .int 1])]))) .nil)) <|
    .letFun (.cons 10 [11] (.prim .add (args [.var 11, .call (.lfun 6) (args [.var 11])])) .nil) <|
    .seq (.prim .print (args [.call (.lfun 6) (args [.int 7])])) <|
    .seq (.prim .print (args [.prim .load (args [.var 5])])) <|
    .seq (.prim .print (args [.call (.sfun 0) (args [.lfun 10, .int 4])])) <|
    .case (.prim (.data 3) (args [.call (.lfun 1) (args [.int 5])])) (.cons (.data 3 (.cons (.var 12 .wild) .nil))
      (.call (.var 12) (args [.int 7])) .nil)

theorem sample_wf : sample.WF 50 1 := by
  refine ⟨by decide, by decide, ?_, ?_, by decide⟩
  · intro q hq
    simp only [sample, List.mem_singleton] at hq
    subst hq
    exact ⟨by simp [OK, OKs, args, Def.scope], by simp [Def.scope], by simp [args, Expr.defs, Exprs.defs]⟩
  · simp [sample, OK, OKs, OKf, OKc, args, Funs.names, Pat.vars, Pats.vars]

example : (normalize id 100 50 1 sample).map (fun P => P.defs.length) = some 6 := by decide +kernel
example : shown (run sample.fn sample.main 20) = some ([0, 4, 5, 10], some 22) := by decide +kernel
example : (normalize id 100 50 1 sample).map (fun P => shown (run P.fn P.main 20)) = some (some ([0, 4, 5, 10], some 22)) := by decide +kernel
example : (normalize List.reverse 100 50 1 sample).map (fun P => shown (run P.fn P.main 20)) = some (some ([0, 4, 5, 10], some 22)) := by decide +kernel
example : shown (run sample.fn sample.main 3) = none := by decide +kernel

/-- A name defined twice, `let x = 1; fun f() { print x; let x = 2; x }; f()`: the outer one counts as defined in the function and is not captured. -/
def shadowing : Program where
  defs := []
  main := .letVar 0 (.int 1) (.letFun (.cons 1 [] (.seq (.prim .print (args [.var 0])) (.letVar 0 (.int 2) (.var 0))) .nil) (.call (.lfun 1) .nil))

/-- Without distinct names the conversion is wrong: the source prints and ends, the result is stuck. -/
theorem closure_conversion_needs_distinct_names :
    shown (run shadowing.fn shadowing.main 5) = some ([1], some 2) ∧
    (normalize id 20 10 0 shadowing).map (fun P => shown (run P.fn P.main 5)) = some none := by decide +kernel

end Verif.Closure
