import Verif.KindUnify.History

/-!
# C20: kind unification is sound, complete and terminating

The operations are those of `unification/kind.rs`; the spec (terms, assignments, solutions) is in `Spec.lean`.
-/
namespace Verif.KindUnify
open Verif Verif.Unify Verif.Unify.Cell

/-- The contexts that occur: reached by some history, in which unifications may also have failed. -/
def Reached (s : State) : Prop := ∃ ops os n0, ValidAll .init ops ∧ ∀ n, n0 ≤ n → run n ops .init = some (os, s)

theorem Reached.safe {s : State} (h : Reached s) : Safe s := by
  obtain ⟨ops, os, n0, hv, hr⟩ := h
  obtain ⟨os', s', n1, e1, e2, -⟩ := run_spec ops .init _ .init init_rep hv
  have h1 := hr (max n0 n1) (by omega)
  rw [e1 _ (by omega)] at h1
  cases h1
  exact e2

/-- Every history of creating, unifying and exporting kinds comes to an end without a panic, and up to the first failing unification
every answer is right: a unification succeeds exactly when some assignment of the unknowns solves all equations so far and the new one,
and an exported kind is the kind under a most general solution of the equations so far. -/
theorem kind_history (ops : List Op) (hv : ValidAll .init ops) :
    ∃ os s n0, (∀ n, n0 ≤ n → run n ops .init = some (os, s)) ∧ Answers .init ops os := by
  obtain ⟨os, s, n0, h1, -, h3⟩ := run_spec ops .init _ .init init_rep hv
  exact ⟨os, s, n0, h1, h3⟩

/-- No cyclic kind is ever created: in no reached context a cell refers to itself through others, also after failures; and all references
are to existing cells. -/
theorem kind_acyclic (s : State) (h : Reached s) :
    (∀ i, ¬ Relation.TransGen (Edge s.pool) i i) ∧ ∀ (i : Nat) (k : Kind), s.pool[i]? = some k → ∀ j ∈ refs k, j < s.pool.length := by
  obtain ⟨r, hw⟩ := h.safe.inv.wf
  refine ⟨fun i hi => ?_, hw.closed⟩
  have : ∀ i j, Relation.TransGen (Edge s.pool) i j → r j < r i := by
    intro i j hij
    induction hij with
    | single h => exact hw.ranked _ _ h
    | tail _ h ih => have := hw.ranked _ _ h; omega
  exact Nat.lt_irrefl _ (this i i hi)

/-- In every reached context (whatever failed before), unifying two kinds returns; if it returns `Ok` the two kinds export to the
same kind afterwards, and its effect on any other kind is a substitution of unknowns. -/
theorem kind_unify_equal (s : State) (h : Reached s) (a b : Kind) (ha : a ∈ s.handles) (hb : b ∈ s.handles) :
    ∃ res p', (∃ n0, ∀ n, n0 ≤ n → unify n a b s.pool = some (res, p')) ∧
      (res = .ok () → ∃ k p1 p2, ∃ n0, ∀ n, n0 ≤ n → exportKind n a p' = some (k, p1) ∧ exportKind n b p1 = some (k, p2)) ∧
      ∃ ρ, ∀ c ∈ s.handles, ∃ k k' p1 p2, ∃ n0, ∀ n, n0 ≤ n → exportKind n c s.pool = some (k, p1) ∧ exportKind n c p' = some (k', p2) ∧ k' = k.subst ρ := by
  have hs := h.safe
  obtain ⟨r, hw⟩ := hs.inv.wf
  obtain ⟨R, hR⟩ := exists_low r a
  obtain ⟨res, p', n0, e1, e2⟩ := unify_spec (numRoots s.pool) R r s.pool a b hw (Nat.le_refl _) hR (hs.good a ha) (hs.good b hb) (hs.proper a ha) (hs.proper b hb)
  have hex : ∀ (c : Kind) (p : Pool) (σ : Assign), Inv p → Principal p σ → Good p c → c.Proper →
      ∃ p' n0, (∀ n, n0 ≤ n → exportKind n c p = some (c.sem σ, p')) ∧ Compress p p' := by
    intro c p σ hi hσ hg hp
    obtain ⟨r, hw⟩ := hi.wf
    obtain ⟨R, hR⟩ := exists_low r c
    obtain ⟨p', g1, g2⟩ := exportKind_spec R c p hR hw hg hp hi.proper hσ
    exact ⟨p', R + 1, fun n hn => g1 n (by omega), g2⟩
  obtain ⟨σ0, hσ0⟩ := exists_principal hs.inv.wf
  obtain ⟨σ, hσ⟩ := exists_principal e2.wf
  have hi' := e2.inv hs.inv
  refine ⟨res, p', ⟨n0, e1⟩, fun hr => ?_, σ, fun c hc => ?_⟩
  · obtain ⟨p1, n1, g1, g2⟩ := hex a p' σ hi' hσ (e2.good (hs.good a ha)) (hs.proper a ha)
    obtain ⟨r', hw'⟩ := hi'.wf
    have hu : Unified p' (fun _ => True) (.ok ()) p1 := Unified.of_compress hw' g2 (fun _ _ _ => trivial) (fun e he => by cases he)
    obtain ⟨p2, n2, g3, g4⟩ := hex b p1 σ (hi'.compress g2) (hσ.compress hw' g2) (hu.good (e2.good (hs.good b hb))) (hs.proper b hb)
    have heq : a.sem σ = b.sem σ := ((e2.ok hr σ).1 hσ.1).2
    exact ⟨a.sem σ, p1, p2, max n1 n2, fun n hn => ⟨g1 n (by omega), by rw [heq]; exact g3 n (by omega)⟩⟩
  · obtain ⟨p1, n1, g1, g2⟩ := hex c s.pool σ0 hs.inv hσ0 (hs.good c hc) (hs.proper c hc)
    obtain ⟨p2, n2, g3, g4⟩ := hex c p' σ hi' hσ (e2.good (hs.good c hc)) (hs.proper c hc)
    exact ⟨c.sem σ0, c.sem σ, p1, p2, max n1 n2, fun n hn => ⟨g1 n (by omega), g3 n (by omega), hσ0.instance hw (e2.sub σ hσ.1) (hs.good c hc)⟩⟩

/-- `default_vars` with a constant kind never fails (kind_inference.rs:133 unwraps the result), and afterwards the kind is what it was
with every unknown replaced by the default. -/
theorem kind_default (s : State) (h : Reached s) (d : Kind) (hd : constant d = true) (c : AKind) (hc : ∀ σ, d.sem σ = c) (a : Kind) (ha : a ∈ s.handles) :
    ∃ k p0 p' p1, ∃ n0, ∀ n, n0 ≤ n → exportKind n a s.pool = some (k, p0) ∧ defaultVars d n a s.pool = some (.ok (), p') ∧
      exportKind n a p' = some (k.subst (fun _ => c), p1) := by
  have hs := h.safe
  obtain ⟨r, hw⟩ := hs.inv.wf
  obtain ⟨R, hR⟩ := exists_low r a
  obtain ⟨σ0, hσ0⟩ := exists_principal hs.inv.wf
  have hcd : d.Const := by cases d <;> simp_all [constant, Kind.Const, asVar, children]
  obtain ⟨p0, g1, g2⟩ := exportKind_spec R a s.pool hR hw (hs.good a ha) (hs.proper a ha) hs.inv.proper hσ0
  obtain ⟨p', n1, g3, g4, g5, -⟩ := defaultVars_spec hcd c hc (numRoots s.pool) R r s.pool a hw (Nat.le_refl _) hR (hs.good a ha) (hs.proper a ha)
  obtain ⟨σ, hσ⟩ := exists_principal g4.wf
  obtain ⟨r', hw'⟩ := g4.wf
  obtain ⟨R', hR'⟩ := exists_low r' a
  have hg' : Good p' a := fun j hj => by rw [g4.len]; exact hs.good a ha j hj
  obtain ⟨p1, g6, g7⟩ := exportKind_spec R' a p' hR' hw' hg' (hs.proper a ha) (g4.proper hs.inv.proper) hσ
  exact ⟨a.sem σ0, p0, p', p1, max n1 (max (R + 1) (R' + 1)), fun n hn => ⟨g1 n (by omega), g3 n (by omega), by
    rw [← g5 σ hσ.1 σ0 hσ0]; exact g6 n (by omega)⟩⟩

mutual
theorem noError_default : ∀ k : AKind, (k.subst (fun _ => .type)).noError = true
  | .func args ret => by simp [AKind.subst, AKind.noError, noErrors_default args, noError_default ret]
  | .error _ => rfl
  | .type => rfl
  | .constraint => rfl
  | .satisfaction => rfl
  | .value => rfl
  | .mac => rfl
theorem noErrors_default : ∀ ks : List AKind, AKind.noErrors (AKind.substs (fun _ => .type) ks) = true
  | [] => rfl
  | k :: ks => by simp [AKind.substs, AKind.noErrors, noError_default k, noErrors_default ks]
end

/-- After defaulting with `Type` (kind_inference.rs:133) the kind has no unknown left, so `fix_kind_of` finds no error. -/
theorem kind_default_type (s : State) (h : Reached s) (a : Kind) (ha : a ∈ s.handles) :
    ∃ k p' p1, ∃ n0, ∀ n, n0 ≤ n → defaultVars .type n a s.pool = some (.ok (), p') ∧ exportKind n a p' = some (k, p1) ∧ k.noError = true := by
  obtain ⟨k, p0, p', p1, n0, h1⟩ := kind_default s h .type rfl .type (fun _ => rfl) a ha
  exact ⟨_, p', p1, n0, fun n hn => ⟨(h1 n hn).2.1, (h1 n hn).2.2, noError_default k⟩⟩

/-! ## Non-vacuity -/

/-- Two unknowns `x`, `y` and the equation `(-> x *) = (-> (-> y *) *)`: solvable, `x` is exported as `(-> y *)`. -/
def demo : List Op := [.newVar, .newVar, .con .type, .newFun [0] 2, .newFun [1] 2, .newFun [4] 2, .unify 3 5, .export 0]

example : ValidAll .init demo := by simp [demo, ValidAll, Abs.Valid, Abs.next, Abs.init, constant]

example : (run 20 demo .init).map (·.1) =
    some [.kind, .kind, .kind, .kind, .kind, .kind, .unified (.ok ()), .exported (.func [.error 22] .type)] := by rfl

example : Reached ⟨new ++ [.var 21], [.var 21]⟩ := ⟨[.newVar], [.kind], 0, by simp [ValidAll, Abs.Valid], fun _ _ => rfl⟩

/-- `x = (-> x *)` has no solution: the occurs check fails, and the context can still be used. -/
def demo2 : List Op := [.newVar, .con .type, .newFun [0] 1, .unify 0 2, .unify 1 2, .unify 0 1, .export 2]

example : ValidAll .init demo2 := by simp [demo2, ValidAll, Abs.Valid, Abs.next, Abs.init, constant]

example : (run 20 demo2 .init).map (·.1) = some [.kind, .kind, .kind, .unified (.error .occursCheckFailed), .unified (.error .mismatch),
    .unified (.ok ()), .exported (.func [.type] .type)] := by rfl

end Verif.KindUnify
