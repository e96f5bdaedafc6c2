import Verif.PatMatch.Props
/-!
# C07, C08: cases, and where the check is not exact
-/
namespace Verif.PatMatch

open Spec

/-! A lawful order on tags exists. -/

def encTag : Tag → List Nat
  | .const (.integer s v) => [0, s.toNat, v]
  | .const (.fp v) => [1, v]
  | .const (.string s) => 2 :: s.toList.map Char.toNat
  | .const (.char c) => [3, c.toNat]
  | .const .syntaxSexp => [4]
  | .finite c cs => 5 :: c.use :: c.arity :: cs.flatMap fun c => [c.use, c.arity]

theorem char_toNat_inj {a b : Char} (h : a.toNat = b.toNat) : a = b := by
  apply Char.ext
  exact UInt32.toNat_inj.1 h

theorem map_toNat_inj {a b : List Char} (h : a.map Char.toNat = b.map Char.toNat) : a = b := by
  induction a generalizing b with
  | nil => cases b with | nil => rfl | cons _ _ => cases h
  | cons x a ih =>
    cases b with
    | nil => cases h
    | cons y b =>
      simp only [List.map_cons, List.cons.injEq] at h
      rw [char_toNat_inj h.1, ih h.2]

theorem sibs_inj {a b : List FiniteCon} (h : (a.flatMap fun c => [c.use, c.arity]) = b.flatMap fun c => [c.use, c.arity]) : a = b := by
  induction a generalizing b with
  | nil => cases b with | nil => rfl | cons _ _ => simp at h
  | cons x a ih =>
    cases b with
    | nil => simp at h
    | cons y b =>
      obtain ⟨u, r⟩ := x
      obtain ⟨u', r'⟩ := y
      simp only [List.flatMap_cons, List.cons_append, List.nil_append, List.cons.injEq] at h
      obtain ⟨rfl, rfl, h⟩ := h
      rw [ih h]

theorem encTag_inj {a b : Tag} (h : encTag a = encTag b) : a = b := by
  cases a with
  | const c =>
    cases b with
    | const c' =>
      cases c <;> cases c' <;> simp only [encTag, List.cons.injEq, reduceCtorEq, and_true, false_and, and_false, true_and, Nat.reduceEqDiff] at h
      · rename_i s v s' v'; obtain ⟨h1, rfl⟩ := h; cases s <;> cases s' <;> simp_all
      · rw [h]
      · rw [String.toList_inj.1 (map_toNat_inj h)]
      · rw [char_toNat_inj h]
      · rfl
    | finite c' cs => cases c <;> simp [encTag] at h
  | finite c cs =>
    cases b with
    | const c' => cases c' <;> simp [encTag] at h
    | finite c' cs' =>
      obtain ⟨u, r⟩ := c
      obtain ⟨u', r'⟩ := c'
      simp only [encTag, List.cons.injEq, true_and] at h
      obtain ⟨rfl, rfl, h⟩ := h
      rw [sibs_inj h]

def tagOrd (a b : Tag) : Ordering := compare (encTag a) (encTag b)

instance : Std.TransCmp tagOrd where
  eq_swap {a b} := Std.OrientedCmp.eq_swap (cmp := (compare : List Nat → List Nat → Ordering)) (a := encTag a) (b := encTag b)
  isLE_trans {a b c} h1 h2 := Std.TransCmp.isLE_trans (cmp := (compare : List Nat → List Nat → Ordering)) (a := encTag a) (b := encTag b) (c := encTag c) h1 h2

instance : Std.LawfulEqCmp tagOrd where
  compare_self {a} := Std.ReflCmp.compare_self (cmp := (compare : List Nat → List Nat → Ordering)) (a := encTag a)
  eq_of_compare {a b} h := encTag_inj (Std.LawfulEqCmp.eq_of_compare (cmp := (compare : List Nat → List Nat → Ordering)) h)

/-! Types: bytes, `(Option byte)`, pairs of those, a type without values and `Option` of it. -/

inductive T where
  | byte | opt | pair | void | optVoid

/-- The 8-bit types take integer literals of either signedness. -/
def byteDen : Const → Option Nat
  | .integer _ v => some (v % 256)
  | _ => none

def just : FiniteCon := ⟨10, 1⟩
def nothing : FiniteCon := ⟨11, 0⟩
def pairCon : FiniteCon := ⟨20, 2⟩

def sig : Sig T Nat where
  shape
    | .byte => .atom (· < 256) byteDen
    | .opt => .data [(just, [.byte]), (nothing, [])]
    | .pair => .data [(pairCon, [.opt, .opt])]
    | .void => .data []
    | .optVoid => .data [(just, [.void]), (nothing, [])]

/-- The same types without the empty ones. -/
def sig' : Sig (Fin 3) Nat where
  shape
    | 0 => .atom (· < 256) byteDen
    | 1 => .data [(just, [0]), (nothing, [])]
    | 2 => .data [(pairCon, [1, 1])]

def decls : Decls where
  typeOf := fun u => if u = 10 ∨ u = 11 then some 1 else if u = 20 then some 2 else none
  consOf := fun t => if t = 1 then [just, nothing] else if t = 2 then [pairCon] else []

theorem sig_ok : sig.Ok decls where
  names {τ cons} h := by cases τ <;> simp only [sig, Shape.data.injEq, reduceCtorEq] at h <;> subst h <;> decide
  arity {τ cons c τs} h hc := by
    cases τ <;> simp only [sig, Shape.data.injEq, reduceCtorEq] at h <;> subst h <;> simp at hc
    · rcases hc with ⟨rfl, rfl⟩ | ⟨rfl, rfl⟩ <;> rfl
    · obtain ⟨rfl, rfl⟩ := hc; rfl
    · rcases hc with ⟨rfl, rfl⟩ | ⟨rfl, rfl⟩ <;> rfl
  decl {τ cons c τs} h hc := by
    cases τ <;> simp only [sig, Shape.data.injEq, reduceCtorEq] at h <;> subst h <;> simp at hc
    · rcases hc with ⟨rfl, rfl⟩ | ⟨rfl, rfl⟩ <;> exact ⟨1, rfl, rfl⟩
    · obtain ⟨rfl, rfl⟩ := hc; exact ⟨2, rfl, rfl⟩
    · rcases hc with ⟨rfl, rfl⟩ | ⟨rfl, rfl⟩ <;> exact ⟨1, rfl, rfl⟩
  quoted {τ dom den} h := by cases τ <;> simp only [sig, Shape.atom.injEq, reduceCtorEq] at h; obtain ⟨_, rfl⟩ := h; rfl

theorem sig'_cases (τ : Fin 3) : τ = 0 ∨ τ = 1 ∨ τ = 2 := by
  match τ with
  | 0 => exact .inl rfl
  | 1 => exact .inr (.inl rfl)
  | 2 => exact .inr (.inr rfl)

theorem sig'_ok : sig'.Ok decls where
  names {τ cons} h := by
    rcases sig'_cases τ with rfl | rfl | rfl <;> simp only [sig', Shape.data.injEq, reduceCtorEq] at h <;> subst h <;> decide
  arity {τ cons c τs} h hc := by
    rcases sig'_cases τ with rfl | rfl | rfl <;> simp only [sig', Shape.data.injEq, reduceCtorEq] at h <;> subst h <;> simp at hc
    · rcases hc with ⟨rfl, rfl⟩ | ⟨rfl, rfl⟩ <;> rfl
    · obtain ⟨rfl, rfl⟩ := hc; rfl
  decl {τ cons c τs} h hc := by
    rcases sig'_cases τ with rfl | rfl | rfl <;> simp only [sig', Shape.data.injEq, reduceCtorEq] at h <;> subst h <;> simp at hc
    · rcases hc with ⟨rfl, rfl⟩ | ⟨rfl, rfl⟩ <;> exact ⟨1, rfl, rfl⟩
    · obtain ⟨rfl, rfl⟩ := hc; exact ⟨2, rfl, rfl⟩
  quoted {τ dom den} h := by
    rcases sig'_cases τ with rfl | rfl | rfl <;> simp only [sig', Shape.atom.injEq, reduceCtorEq] at h; obtain ⟨_, rfl⟩ := h; rfl

theorem sig'_opt : HasTy sig' (.con 11 []) 1 := .con (c := nothing) (τs := []) rfl (by simp) .nil

theorem sig'_inhabited : sig'.Inhabited := by
  intro τ
  rcases sig'_cases τ with rfl | rfl | rfl
  · exact ⟨.atom 0, .atom rfl (by decide)⟩
  · exact ⟨_, sig'_opt⟩
  · exact ⟨.con 20 [_, _], .con (c := pairCon) (τs := [1, 1]) rfl (by simp) (.cons sig'_opt (.cons sig'_opt .nil))⟩

theorem sig'_roomy (vs : List Nat) (h : ∃ x, x < 256 ∧ ∀ v ∈ vs, v % 256 ≠ x) : sig'.Roomy (vs.map (.integer false)) := by
  intro τ dom den hs
  rcases sig'_cases τ with rfl | rfl | rfl <;> simp only [sig', Shape.atom.injEq, reduceCtorEq] at hs
  obtain ⟨rfl, rfl⟩ := hs
  obtain ⟨x, hx, hne⟩ := h
  refine ⟨x, hx, fun c hc => ?_⟩
  obtain ⟨v, hv, rfl⟩ := List.mem_map.1 hc
  simp only [byteDen, ne_eq, Option.some.injEq]
  exact hne v hv

theorem sig'_distinct (vs : List Nat) (h : ∀ v ∈ vs, ∀ w ∈ vs, v % 256 = w % 256 → v = w) : sig'.Distinct (vs.map (.integer false)) := by
  intro τ dom den hs
  rcases sig'_cases τ with rfl | rfl | rfl <;> simp only [sig', Shape.atom.injEq, reduceCtorEq] at hs
  obtain ⟨rfl, rfl⟩ := hs
  intro c hc c' hc' x hx hx'
  obtain ⟨v, hv, rfl⟩ := List.mem_map.1 hc
  obtain ⟨w, hw, rfl⟩ := List.mem_map.1 hc'
  simp only [byteDen, Option.some.injEq] at hx hx'
  rw [h v hv w hw (hx.trans hx'.symm)]

/-- `(: (just 3) _)`, `(: x nothing)`, `(: (just _) y)` over pairs. -/
def clausesEx : List SPat :=
  [.decon 20 [.decon 10 [.const (.integer false 3)], .wild], .decon 20 [.var 0, .decon 11 []], .decon 20 [.decon 10 [.wild], .var 1]]

theorem clausesEx_typed : ∀ p ∈ clausesEx, STyped sig' 2 p := by
  have hp : (pairCon, [(1 : Fin 3), 1]) ∈ [(pairCon, [(1 : Fin 3), 1])] := by simp
  have hj : (just, [(0 : Fin 3)]) ∈ [(just, [(0 : Fin 3)]), (nothing, [])] := by simp
  have hn : (nothing, []) ∈ [(just, [(0 : Fin 3)]), (nothing, [])] := by simp
  intro p h
  simp only [clausesEx, List.mem_cons, List.not_mem_nil, or_false] at h
  rcases h with rfl | rfl | rfl
  · exact .decon (c := pairCon) (S := sig') (τ := 2) rfl hp (.cons (.decon (c := just) (S := sig') (τ := 1) rfl hj
      (.cons (.const (S := sig') (τ := 0) rfl rfl (by decide)) .nil)) (.cons .wild .nil))
  · exact .decon (c := pairCon) (S := sig') (τ := 2) rfl hp (.cons .var (.cons (.decon (c := nothing) (S := sig') (τ := 1) rfl hn .nil) .nil))
  · exact .decon (c := pairCon) (S := sig') (τ := 2) rfl hp (.cons (.decon (c := just) (S := sig') (τ := 1) rfl hj (.cons .wild .nil)) (.cons .var .nil))

/-- The hypotheses of the theorems of C07 and C08 are met by it. -/
example : sig'.Ok decls ∧ sig'.Inhabited ∧ sig'.Roomy (sconstsL clausesEx) ∧ sig'.Distinct (sconstsL clausesEx) ∧
    ∀ p ∈ clausesEx, STyped sig' 2 p :=
  ⟨sig'_ok, sig'_inhabited, sig'_roomy [3] ⟨0, by decide, by simp⟩, sig'_distinct [3] (by simp), clausesEx_typed⟩

theorem defaults_con (t : Tag) (ps : List Pat) (r : Row) : Row.defaults (.con t ps :: r) = none := rfl
theorem defaults_wild (r : Row) : Row.defaults (.wild :: r) = some r := rfl
theorem cmp10 : compare 1 0 = Ordering.gt := rfl
theorem cmp01 : compare 0 1 = Ordering.lt := rfl
theorem cmp1011 : compare 10 11 = Ordering.lt := rfl
theorem cmp1110 : compare 11 10 = Ordering.gt := rfl

theorem missing_cons (cmp : Tag → Tag → Ordering) (p : Pat) (r : Row) (m' : Matrix) (n : Nat) : missing cmp ((p :: r) :: m') (n + 1) =
    if isComplete (headTags cmp ((p :: r) :: m')) then
      (headTags cmp ((p :: r) :: m')).flatMap fun t => (missing cmp (specialize ((p :: r) :: m') t) (n + t.arity)).map (Row.restore t)
    else (missing cmp (defaults ((p :: r) :: m')) n).flatMap fun tail =>
          (missingHeads (headTags cmp ((p :: r) :: m'))).map fun head => head :: tail := by
  rw [missing]
  split
  · conv => rhs; rw [← List.attach_map_subtype_val (headTags cmp ((p :: r) :: m')), List.flatMap_map]
    congr
    funext ⟨t, h⟩
    have : n.succ + t.arity - 1 = n + t.arity := by omega
    show (missing cmp _ (n.succ + t.arity - 1)).map _ = _
    rw [this]
  · rfl
theorem missing_nil (cmp : Tag → Tag → Ordering) (n : Nat) : missing cmp [] n = [List.replicate n .wild] := by rw [missing]
theorem missing_empty (cmp : Tag → Tag → Ordering) (m : Matrix) (n : Nat) : missing cmp ([] :: m) n = [] := by rw [missing]

/-- It is rejected: a pair of `nothing` and `just` is missing. -/
theorem clausesEx_rejected : validateMatch tagOrd decls clausesEx = some (.error (.nonExhaustive
    [.con (.finite pairCon [pairCon]) [.con (.finite nothing [just, nothing]) [], .con (.finite just [just, nothing]) [.wild]]])) := by
  simp [validateMatch, clausesEx, simplifyL, simplify, check, checkRows, uselessCheck, useful, headTags, insertTag, tagOrd, encTag,
    exhaustivenessCheck, missing_nil, missing_empty, missing_cons tagOrd _ _ _ 0, missing_cons tagOrd _ _ _ 1, heads, incompatibleL, Pat.incompatible, specialize, Row.specialize, Row.headTag, isComplete, defaults, defaults_con, defaults_wild, List.filterMap_cons,
    Tag.arity, Tag.siblingCount, tagOf, decls, just, nothing, pairCon, missingHeads, Tag.siblings, FiniteCon.tags, Row.restore, cmp10, cmp01, cmp1011, cmp1110]

/-! ## Where the check is not exact -/

/-- C08 does not hold as stated: `5` and `+5` are different literals of the same value; the second clause of
`(match x [5 …] [+5 …] [_ …])` is never needed, but the match is accepted. -/
theorem useless_missed_refuted :
    ∃ clauses, (∀ p ∈ clauses, STyped sig .byte p) ∧ validateMatch tagOrd decls clauses = some (.ok ()) ∧
      ∃ pre p post, clauses = pre ++ p :: post ∧ ¬ Needed sig .byte pre p := by
  refine ⟨[.const (.integer false 5), .const (.integer true 5), .wild], ?_, ?_, [.const (.integer false 5)], .const (.integer true 5), [.wild], rfl, ?_⟩
  · intro p h
    simp only [List.mem_cons, List.not_mem_nil, or_false] at h
    rcases h with rfl | rfl | rfl
    · exact .const (S := sig) (τ := .byte) rfl rfl (by decide)
    · exact .const (S := sig) (τ := .byte) rfl rfl (by decide)
    · exact .wild
  · simp [validateMatch, simplifyL, simplify, check, checkRows, uselessCheck, useful, missing, headTags, insertTag, tagOrd, encTag,
      exhaustivenessCheck, incompatibleL, Pat.incompatible, specialize, Row.specialize, Row.headTag, isComplete, defaults, defaults_con, defaults_wild, List.filterMap_cons,
      Tag.arity, Tag.siblingCount, cmp10]
  · rintro ⟨v, hv, hm, hno⟩
    cases hm with
    | @const _ dom den _ x hs hc =>
      simp only [sig, Shape.atom.injEq] at hs
      obtain ⟨rfl, rfl⟩ := hs
      simp only [byteDen, Option.some.injEq] at hc
      subst hc
      exact hno (.const (.integer false 5)) (by simp) (.const (S := sig) (τ := .byte) rfl rfl)

/-- C07 does not hold as stated: for the single clause `5` the reported missing pattern is `_`, which matches 5 as well. -/
theorem missing_overlap_refuted :
    ∃ clauses ms, (∀ p ∈ clauses, STyped sig .byte p) ∧ validateMatch tagOrd decls clauses = some (.error (.nonExhaustive ms)) ∧
      ∃ m ∈ ms, ∃ v, HasTy sig v .byte ∧ PMatches sig .byte m v ∧ ∃ p ∈ clauses, SMatches sig .byte p v := by
  refine ⟨[.const (.integer false 5)], [.wild], ?_, ?_, .wild, by simp, .atom 5, .atom (S := sig) (τ := .byte) rfl (by decide), .wild,
    .const (.integer false 5), by simp, .const (S := sig) (τ := .byte) rfl rfl⟩
  · intro p h
    simp only [List.mem_singleton] at h
    subst h
    exact .const (S := sig) (τ := .byte) rfl rfl (by decide)
  · simp [validateMatch, simplifyL, simplify, check, checkRows, uselessCheck, useful, missing, headTags, insertTag,
      exhaustivenessCheck, Row.headTag, isComplete, defaults, defaults_con, defaults_wild, List.filterMap_cons, Tag.siblingCount, missingHeads, Tag.siblings, heads]

/-- C07 needs inhabited types: `nothing` matches every value of `(Option Void)`, but the match is rejected (the FIXME at
validator.rs:49). -/
theorem empty_type_refuted :
    ∃ clauses ms, (∀ p ∈ clauses, STyped sig .optVoid p) ∧ validateMatch tagOrd decls clauses = some (.error (.nonExhaustive ms)) ∧
      ∀ v, HasTy sig v .optVoid → ∃ p ∈ clauses, SMatches sig .optVoid p v := by
  refine ⟨[.decon 11 []], [.con (.finite just [just, nothing]) [.wild]], ?_, ?_, ?_⟩
  · intro p h
    simp only [List.mem_singleton] at h
    subst h
    exact .decon (c := nothing) (τs := []) (S := sig) (τ := .optVoid) rfl (by simp) .nil
  · simp [validateMatch, simplifyL, simplify, check, checkRows, uselessCheck, useful, missing, headTags, insertTag,
      exhaustivenessCheck, Row.headTag, isComplete, defaults, defaults_con, defaults_wild, List.filterMap_cons, Tag.siblingCount, missingHeads, Tag.siblings, heads, tagOf, decls,
      FiniteCon.tags, just, nothing, Tag.arity]
  · intro v hv
    refine ⟨_, List.mem_singleton.2 rfl, ?_⟩
    cases hv with
    | atom hs => simp [sig] at hs
    | con hs hc ha =>
      simp only [sig, Shape.data.injEq] at hs
      subst hs
      simp at hc
      rcases hc with ⟨rfl, rfl⟩ | ⟨rfl, rfl⟩
      · cases ha with
        | cons h _ =>
          cases h with
          | atom hs => simp [sig] at hs
          | con hs hc _ => simp only [sig, Shape.data.injEq] at hs; subst hs; cases hc
      · cases ha
        exact .decon (c := nothing) (τs := []) (S := sig) (τ := .optVoid) rfl (by simp) .nil

section
variable {cmp : Tag → Tag → Ordering} [Std.TransCmp cmp] [Std.LawfulEqCmp cmp]

/-- C07 needs types of more values than the literals written: clauses that are all literals are never accepted, not even the
256 literals of an 8-bit type. -/
theorem literals_never_exhaust {d : Decls} (cs : List Const) : validateMatch cmp d (cs.map .const) ≠ some (.ok ()) := by
  have hsimp : ∀ (cs : List Const) qs, simplifyL d (cs.map .const) = some qs → qs = cs.map fun c => Pat.con (.const c) [] := by
    intro cs
    induction cs with
    | nil => intro qs h; simp only [List.map_nil, simplifyL, Option.some.injEq] at h; exact h.symm
    | cons c cs ih =>
      intro qs h
      simp only [List.map_cons, simplifyL] at h
      cases hq : simplifyL d (cs.map .const) with
      | none => cases c <;> simp [hq, simplify] at h
      | some qs' =>
        have := ih qs' hq
        subst this
        cases c <;> simp [hq, simplify] at h <;> exact h.symm
  have hsub : ∀ (rows m m' : Matrix), checkRows cmp m rows = .ok m' → ∀ r ∈ m', r ∈ m ∨ r ∈ rows := by
    intro rows
    induction rows with
    | nil => intro m m' h; simp only [checkRows, Except.ok.injEq] at h; subst h; exact fun r hr => .inl hr
    | cons x rows ih =>
      intro m m' h r hr
      simp only [checkRows] at h
      cases hu : uselessCheck cmp m x with
      | error _ => rw [hu] at h; cases h
      | ok m1 =>
        rw [hu] at h
        rcases ih m1 m' h r hr with h1 | h1
        · simp only [uselessCheck] at hu
          split at hu
          · simp only [Except.ok.injEq] at hu
            subst hu
            rcases List.mem_append.1 h1 with h1 | h1
            · exact .inl (List.mem_filter.1 h1).1
            · simp only [List.mem_singleton] at h1
              subst h1
              exact .inr (by simp)
          · cases hu
        · exact .inr (by simp [h1])
  intro h
  simp only [validateMatch] at h
  cases hq : simplifyL d (cs.map .const) with
  | none => rw [hq] at h; cases h
  | some qs =>
    rw [hq] at h
    have := hsimp cs qs hq
    match qs, h with
    | p :: ps, h =>
      simp only at h
      cases hc : check cmp ((p :: ps).map fun p => [p]) with
      | error e => rw [hc] at h; cases e with
        | useless r => cases r <;> simp at h
        | nonExhaustive m => simp only [Option.map_eq_some_iff] at h; obtain ⟨_, _, h⟩ := h; cases h
      | ok u =>
        simp only [check] at hc
        cases hr : checkRows cmp [] ((p :: ps).map fun p => [p]) with
        | error r => rw [hr] at hc; cases hc
        | ok m =>
          have hm : ∀ r ∈ m, ∃ c, r = [Pat.con (.const c) []] := by
            intro r hrm
            rcases hsub _ _ _ hr r hrm with h' | h'
            · cases h'
            · rw [this] at h'
              obtain ⟨q, hq', rfl⟩ := List.mem_map.1 h'
              obtain ⟨c, _, rfl⟩ := List.mem_map.1 hq'
              exact ⟨c, rfl⟩
          rw [hr] at hc
          have hne : exhaustivenessCheck cmp m ≠ [] := by
            match m, hm with
            | [], _ => simp [exhaustivenessCheck, missing]
            | r :: m, hm =>
              obtain ⟨c, rfl⟩ := hm r (by simp)
              have hd : defaults ([Pat.con (.const c) []] :: m) = [] := by
                apply List.eq_nil_iff_forall_not_mem.2
                intro r hr
                obtain ⟨q, hq, he⟩ := List.mem_filterMap.1 hr
                obtain ⟨c', rfl⟩ := hm q hq
                cases he
              have hcp : ∀ ts : List Tag, (∀ t ∈ ts, ∃ c, t = Tag.const c) → isComplete ts = false ∧ missingHeads ts = [.wild] := by
                intro ts hts
                match ts with
                | [] => exact ⟨rfl, rfl⟩
                | t :: ts =>
                  obtain ⟨c, rfl⟩ := hts t (by simp)
                  exact ⟨rfl, rfl⟩
              have := hcp (headTags cmp ([Pat.con (.const c) []] :: m)) (by
                intro t ht
                obtain ⟨ps, r, hin⟩ := mem_headTags.1 ht
                obtain ⟨c', he⟩ := hm _ hin
                simp only [List.cons.injEq, Pat.con.injEq] at he
                exact ⟨c', he.1.1⟩)
              simp [exhaustivenessCheck, missing, this.1, this.2, hd]
          simp only at hc
          cases hc

end

/-- The 256 literals of an 8-bit type. -/
example : validateMatch tagOrd decls (((List.range 256).map (Const.integer false)).map .const) ≠ some (.ok ()) := literals_never_exhaust _

end Verif.PatMatch
