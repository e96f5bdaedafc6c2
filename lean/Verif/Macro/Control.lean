import Verif.Macro.Match

/-!
# C79: the control macros

Each macro expands to an expression that comes to what the macro is said to come to.
-/

namespace Verif.Macro

open Sexp

variable {σ : Type} {h : Host σ} {ρ : Binds}

/-- A body comes to this, with enough fuel. -/
def BodyEvals (h : Host σ) (ρ : Binds) (body : Sexp) (st : σ) (o : Out) (st' : σ) : Prop :=
  ∃ n0, ∀ n, n0 ≤ n → evalSeq (eval h n ρ) body st = some (o, st')

/-- What is chosen from some clauses comes to this, with enough fuel. -/
def SelectEvals (h : Host σ) (ρ : Binds) (clauses : Sexp) (v : Val) (st : σ) (o : Out)
    (st' : σ) : Prop :=
  ∃ n0, ∀ n, n0 ≤ n → select (patMatch h n) (eval h n) ρ clauses v st = some (o, st')

theorem bodyEvals_of_seq {es : List Sexp} {st st' : σ} {o : Out}
    (hs : Seq (Evals h ρ) es st o st') : BodyEvals h ρ (list es) st o st' := by
  induction hs with
  | nil => exact ⟨0, fun _ _ => rfl⟩
  | last he => exact he
  | @next e es st v st' o st'' hn he _ ih =>
    obtain ⟨n1, he⟩ := he
    obtain ⟨n2, ih⟩ := ih
    refine ⟨n1 + n2, fun n hn' => ?_⟩
    have e1 := he n (by omega)
    have e2 := ih n (by omega)
    cases es with
    | nil => exact absurd rfl hn
    | cons e' es =>
      show andThen (eval h n ρ e st) _ = _
      rw [e1]
      exact e2
  | @ret e es st r st' hn he =>
    obtain ⟨n1, he⟩ := he
    refine ⟨n1, fun n hn' => ?_⟩
    have e1 := he n (by omega)
    cases es with
    | nil => exact absurd rfl hn
    | cons e' es =>
      show andThen (eval h n ρ e st) _ = _
      rw [e1]
      rfl

/-- One more expression at the end of a body. -/
theorem seq_snoc {V : Sexp → σ → Out → σ → Prop} {es : List Sexp} {e : Sexp} {st st' st'' : σ}
    {v : Val} {o : Out} (hs : Seq V es st (.val v) st') (he : V e st' o st'') :
    Seq V (es ++ [e]) st o st'' := by
  generalize hv : Out.val v = w at hs
  induction hs with
  | nil => exact .last he
  | last h1 =>
    subst hv
    exact .next (by simp) h1 (.last he)
  | next hn h1 _ ih => exact .next (by simp) h1 (ih he hv)
  | ret => cases hv

theorem seq_snoc_ret {V : Sexp → σ → Out → σ → Prop} {es : List Sexp} {e : Sexp} {st st' : σ}
    {r : Val} (hs : Seq V es st (.ret r) st') : Seq V (es ++ [e]) st (.ret r) st' := by
  generalize hv : Out.ret r = w at hs
  induction hs with
  | nil => cases hv
  | last h1 =>
    subst hv
    exact .ret (by simp) h1
  | next hn h1 _ ih => exact .next (by simp) h1 (ih hv)
  | ret hn h1 => exact .ret (by simp) h1

theorem evals_step {e : Sexp} {st st' : σ} {o : Out} {f : Nat → Option (Out × σ)}
    (hf : ∃ n0, ∀ n, n0 ≤ n → f n = some (o, st')) (he : ∀ n, eval h (n + 1) ρ e st = f n) :
    Evals h ρ e st o st' := by
  obtain ⟨n0, hf⟩ := hf
  refine ⟨n0 + 1, fun n hn => ?_⟩
  obtain ⟨n, rfl⟩ : ∃ m, n = m + 1 := ⟨n - 1, by omega⟩
  rw [he]
  exact hf n (by omega)

/-- Goes on after a value. -/
theorem andThen_val {f : Nat → Option (Out × σ)} {k : Nat → Val → σ → Option (Out × σ)}
    {v : Val} {st' st'' : σ} {o : Out} (hf : ∃ n0, ∀ n, n0 ≤ n → f n = some (.val v, st'))
    (hk : ∃ n0, ∀ n, n0 ≤ n → k n v st' = some (o, st'')) :
    ∃ n0, ∀ n, n0 ≤ n → andThen (f n) (k n) = some (o, st'') := by
  obtain ⟨n1, hf⟩ := hf
  obtain ⟨n2, hk⟩ := hk
  refine ⟨n1 + n2, fun n hn => ?_⟩
  rw [hf n (by omega)]
  exact hk n (by omega)

/-- Ends with a `return`. -/
theorem andThen_ret {f : Nat → Option (Out × σ)} {k : Nat → Val → σ → Option (Out × σ)}
    {r : Val} {st' : σ} (hf : ∃ n0, ∀ n, n0 ≤ n → f n = some (.ret r, st')) :
    ∃ n0, ∀ n, n0 ≤ n → andThen (f n) (k n) = some (.ret r, st') := by
  obtain ⟨n1, hf⟩ := hf
  refine ⟨n1, fun n hn => ?_⟩
  rw [hf n hn]
  rfl

theorem evals_begin {body : Sexp} {st st' : σ} {o : Out} (hb : BodyEvals h ρ body st o st') :
    Evals h ρ (beginForm body) st o st' :=
  evals_step hb fun _ => rfl

theorem evals_bool (b : Bool) (st : σ) : Evals h ρ (.bool b) st (.val (.bool b)) st :=
  evals_step (f := fun _ => some (.val (.bool b), st)) ⟨0, fun _ _ => rfl⟩ fun _ => rfl

theorem evals_unit (st : σ) : Evals h ρ (.sym .unit) st (.val .unit) st :=
  evals_step (f := fun _ => some (.val .unit, st)) ⟨0, fun _ _ => rfl⟩ fun _ => rfl

theorem evals_none (st : σ) : Evals h ρ (.use .none) st (.val .none) st :=
  evals_step (f := fun _ => some (.val .none, st)) ⟨0, fun _ _ => rfl⟩ fun _ => rfl

theorem evals_if_true {c t e : Sexp} {st st' st'' : σ} {o : Out}
    (hc : Evals h ρ c st (.val (.bool true)) st') (ht : Evals h ρ t st' o st'') :
    Evals h ρ (list [.sym .ifS, c, t, e]) st o st'' :=
  evals_step (andThen_val (k := fun n v st =>
      match v with
      | .bool true => eval h n ρ t st
      | .bool false => eval h n ρ e st
      | _ => none) hc ht) fun _ => rfl

theorem evals_if_false {c t e : Sexp} {st st' st'' : σ} {o : Out}
    (hc : Evals h ρ c st (.val (.bool false)) st') (he : Evals h ρ e st' o st'') :
    Evals h ρ (list [.sym .ifS, c, t, e]) st o st'' :=
  evals_step (andThen_val (k := fun n v st =>
      match v with
      | .bool true => eval h n ρ t st
      | .bool false => eval h n ρ e st
      | _ => none) hc he) fun _ => rfl

theorem evals_if_ret {c t e : Sexp} {st st' : σ} {r : Val}
    (hc : Evals h ρ c st (.ret r) st') : Evals h ρ (list [.sym .ifS, c, t, e]) st (.ret r) st' :=
  evals_step (andThen_ret (k := fun n v st =>
      match v with
      | .bool true => eval h n ρ t st
      | .bool false => eval h n ρ e st
      | _ => none) hc) fun _ => rfl

theorem evals_match {e clauses : Sexp} {st st' st'' : σ} {v : Val} {o : Out}
    (he : Evals h ρ e st (.val v) st') (hs : SelectEvals h ρ clauses v st' o st'') :
    Evals h ρ (.cons (.sym .matchS) (.cons e clauses)) st o st'' :=
  evals_step (andThen_val (k := fun n v st => select (patMatch h n) (eval h n) ρ clauses v st)
    he hs) fun _ => rfl

theorem evals_match_ret {e clauses : Sexp} {st st' : σ} {r : Val}
    (he : Evals h ρ e st (.ret r) st') :
    Evals h ρ (.cons (.sym .matchS) (.cons e clauses)) st (.ret r) st' :=
  evals_step (andThen_ret (k := fun n v st => select (patMatch h n) (eval h n) ρ clauses v st)
    he) fun _ => rfl

theorem select_here {p body clauses : Sexp} {v : Val} {b : Binds} {st st' : σ} {o : Out}
    (hp : PatGives h p v (some b)) (hb : BodyEvals h (b ++ ρ) body st o st') :
    SelectEvals h ρ (.cons (.cons p body) clauses) v st o st' := by
  obtain ⟨n1, hp⟩ := hp
  obtain ⟨n2, hb⟩ := hb
  refine ⟨n1 + n2, fun n hn => ?_⟩
  rw [select, hp n (by omega)]
  exact hb n (by omega)

theorem select_next {p body clauses : Sexp} {v : Val} {st st' : σ} {o : Out}
    (hp : PatGives h p v none) (hs : SelectEvals h ρ clauses v st o st') :
    SelectEvals h ρ (.cons (.cons p body) clauses) v st o st' := by
  obtain ⟨n1, hp⟩ := hp
  obtain ⟨n2, hs⟩ := hs
  refine ⟨n1 + n2, fun n hn => ?_⟩
  rw [select, hp n (by omega)]
  exact hs n (by omega)

theorem bodyEvals_one {e : Sexp} {st st' : σ} {o : Out} (he : Evals h ρ e st o st') :
    BodyEvals h ρ (list [e]) st o st' := he

/-- The last clause, `[_ e]`. -/
theorem select_wildcard {e : Sexp} {v : Val} {st st' : σ} {o : Out}
    (he : Evals h ρ e st o st') :
    SelectEvals h ρ (list [list [.sym .wildcard, e]]) v st o st' :=
  select_here (b := []) (patGives_const 1 fun _ => rfl) (bodyEvals_one he)

/-- `(some e)`. -/
theorem evals_some {e : Sexp} {st st' : σ} {v : Val} (he : Evals h ρ e st (.val v) st') :
    Evals h ρ (list [.use .some, e]) st (.val (.some v)) st' :=
  evals_step (andThen_val (k := fun _ v st => some (.val (.some v), st)) he
    ⟨0, fun _ _ => rfl⟩) fun _ => rfl

theorem evals_some_ret {e : Sexp} {st st' : σ} {r : Val} (he : Evals h ρ e st (.ret r) st') :
    Evals h ρ (list [.use .some, e]) st (.ret r) st' :=
  evals_step (andThen_ret (k := fun _ v st => some (.val (.some v), st)) he) fun _ => rfl

theorem evals_someOut {e : Sexp} {st st' : σ} {o : Out} (he : Evals h ρ e st o st') :
    Evals h ρ (list [.use .some, e]) st o.inSome st' := by
  cases o with
  | val v => exact evals_some he
  | ret r => exact evals_some_ret he

/-- What `expand-matches-body` makes of patterns. -/
def matchesCode (thenE : Sexp) : List (Sexp × List Sexp) → Sexp
  | [] => list [.use .some, thenE]
  | (p, init) :: bs => list [.sym .matchS, beginForm (list init), list [p, matchesCode thenE bs],
      list [.sym .wildcard, .use .none]]

theorem expandMatchesBody_write (thenE : Sexp) (bs : List (Sexp × List Sexp)) :
    expandMatchesBody thenE (writeBinds bs) = .ok (matchesCode thenE bs) := by
  induction bs with
  | nil => rfl
  | cons b bs ih =>
    show expandMatchesBody thenE (.cons (.cons b.1 (list b.2)) (writeBinds bs)) = _
    rw [expandMatchesBody, ih]
    rfl

/-- How the nested matches come out. -/
theorem matchesCode_evals {thenE : Sexp} {bs : List (Sexp × List Sexp)} {st st' : σ} {m : Matched}
    (hm : Matching (Evals h) (PatGives h) ρ bs st m st') :
    (∀ ρ', m = .all ρ' → ∀ o st'', Evals h ρ' thenE st' o st'' →
      Evals h ρ (matchesCode thenE bs) st o.inSome st'') ∧
    (m = .failed → Evals h ρ (matchesCode thenE bs) st (.val .none) st') ∧
    (∀ r, m = .ret r → Evals h ρ (matchesCode thenE bs) st (.ret r) st') := by
  induction hm with
  | nil =>
    refine ⟨?_, nofun, nofun⟩
    rintro _ ⟨⟩ o st'' he
    exact evals_someOut he
  | next hi hp _ ih =>
    have hi' := evals_begin (bodyEvals_of_seq hi)
    refine ⟨fun ρ' hm o st'' he => ?_, fun hm => ?_, fun r hm => ?_⟩
    · exact evals_match hi' (select_here hp (bodyEvals_one (ih.1 ρ' hm o st'' he)))
    · exact evals_match hi' (select_here hp (bodyEvals_one (ih.2.1 hm)))
    · exact evals_match hi' (select_here hp (bodyEvals_one (ih.2.2 r hm)))
  | failed hi hp =>
    have hi' := evals_begin (bodyEvals_of_seq hi)
    exact ⟨nofun, fun _ => evals_match hi' (select_next hp (select_wildcard (evals_none _))), nofun⟩
  | ret hi =>
    refine ⟨nofun, nofun, ?_⟩
    rintro _ ⟨⟩
    exact evals_match_ret (evals_begin (bodyEvals_of_seq hi))

/-- What patterns with two branches come to. -/
inductive Branches (V : Binds → Sexp → σ → Out → σ → Prop)
    (P : Sexp → Val → Option Binds → Prop) (ρ : Binds) (bs : List (Sexp × List Sexp))
    (thenE elseE : Sexp) : σ → Out → σ → Prop
  | all {st ρ' st' o st''} : Matching V P ρ bs st (.all ρ') st' → V ρ' thenE st' o st'' →
      Branches V P ρ bs thenE elseE st o st''
  | failed {st st' o st''} : Matching V P ρ bs st .failed st' → V ρ elseE st' o st'' →
      Branches V P ρ bs thenE elseE st o st''
  | ret {st r st'} : Matching V P ρ bs st (.ret r) st' →
      Branches V P ρ bs thenE elseE st (.ret r) st'

theorem patGives_some {p : Sexp} {v : Val} {r : Option Binds} (hp : PatGives h p v r) :
    PatGives h (list [.use .some, p]) (.some v) r := by
  obtain ⟨n1, hp⟩ := hp
  refine ⟨n1 + 1, fun n hn => ?_⟩
  obtain ⟨n, rfl⟩ : ∃ m, n = m + 1 := ⟨n - 1, by omega⟩
  exact hp n (by omega)

/-- What `expand-matches` makes of patterns and branches. -/
def branchCode (tmp : Nat) (bs : List (Sexp × List Sexp)) (thenE elseE : Sexp) : Sexp :=
  list [.sym .matchS, matchesCode thenE bs,
    list [list [.use .some, list [.sym .letS, .sym (.gen tmp)]], .sym (.gen tmp)],
    list [.use .none, elseE]]

theorem expandMatches_write (tmp : Nat) (bs : List (Sexp × List Sexp)) (thenE elseE : Sexp) :
    expandMatches tmp (writeBinds bs) thenE elseE = .ok (branchCode tmp bs thenE elseE) := by
  rw [expandMatches, expandMatchesBody_write]
  rfl

/-- The branch is chosen by the patterns; the variables are known in the first branch only. -/
theorem branchCode_evals (tmp : Nat) {bs : List (Sexp × List Sexp)} {thenE elseE : Sexp}
    {st st' : σ} {o : Out} (hb : Branches (Evals h) (PatGives h) ρ bs thenE elseE st o st') :
    Evals h ρ (branchCode tmp bs thenE elseE) st o st' := by
  cases hb with
  | all hm he =>
    have := (matchesCode_evals hm).1 _ rfl _ _ he
    cases o with
    | ret r => exact evals_match_ret this
    | val v =>
      refine evals_match this (select_here (b := [(.gen tmp, v)])
        (patGives_some (patGives_let _ _)) (bodyEvals_one ?_))
      exact evals_step (f := fun _ => some (.val v, st')) ⟨0, fun _ _ => rfl⟩
        fun n => by simp [eval, lookup]
  | failed hm he =>
    refine evals_match ((matchesCode_evals hm).2.1 rfl) (select_next ?_ ?_)
    · exact patGives_const 1 fun _ => rfl
    · exact select_here (b := []) (patGives_const 1 fun _ => rfl) (bodyEvals_one he)
  | ret hm => exact evals_match_ret ((matchesCode_evals hm).2.2 _ rfl)

/-- `expand-matches` for any patterns and branches. -/
theorem expandMatches_evals (tmp : Nat) {bs : List (Sexp × List Sexp)} {thenE elseE : Sexp}
    {st st' : σ} {o : Out} (hb : Branches (Evals h) (PatGives h) ρ bs thenE elseE st o st') :
    ∃ e, expandMatches tmp (writeBinds bs) thenE elseE = .ok e ∧ Evals h ρ e st o st' :=
  ⟨_, expandMatches_write _ _ _ _, branchCode_evals tmp hb⟩

/-- C79: `if-match`. -/
theorem ifMatch_evals (m : Sexp) (tmp : Nat) {bs : List (Sexp × List Sexp)} {thenE elseE : Sexp}
    {st st' : σ} {o : Out} (hb : Branches (Evals h) (PatGives h) ρ bs thenE elseE st o st') :
    ∃ e, ifMatchMacro tmp (list [m, writeBinds bs, thenE, elseE]) = .ok e ∧
      Evals h ρ e st o st' := expandMatches_evals tmp hb

theorem bodyThen_list (es : List Sexp) (e : Sexp) :
    bodyThen (list es) e = .ok (list (es ++ [e])) := by
  rw [bodyThen, qqAppend_list]
  show Except.ok _ = Except.ok _
  congr 1
  induction es with
  | nil => rfl
  | cons a es ih => exact congrArg (Sexp.cons a) ih

/-- C79: `when-match` runs its body if the patterns match. -/
theorem whenMatch_evals (m : Sexp) (tmp : Nat) {bs : List (Sexp × List Sexp)} {body : List Sexp}
    {st st' : σ} {o : Out}
    (hb : (∃ ρ' st1 v, Matching (Evals h) (PatGives h) ρ bs st (.all ρ') st1 ∧
        Seq (Evals h ρ') body st1 (.val v) st' ∧ o = .val .unit) ∨
      (∃ ρ' st1 r, Matching (Evals h) (PatGives h) ρ bs st (.all ρ') st1 ∧
        Seq (Evals h ρ') body st1 (.ret r) st' ∧ o = .ret r) ∨
      (Matching (Evals h) (PatGives h) ρ bs st .failed st' ∧ o = .val .unit) ∨
      ∃ r, Matching (Evals h) (PatGives h) ρ bs st (.ret r) st' ∧ o = .ret r) :
    ∃ e, whenMatchMacro tmp (.cons m (.cons (writeBinds bs) (list body))) = .ok e ∧
      Evals h ρ e st o st' := by
  rw [whenMatchMacro, bodyThen_list]
  apply expandMatches_evals
  obtain ⟨ρ', st1, v, hm, hs, rfl⟩ | ⟨ρ', st1, r, hm, hs, rfl⟩ | ⟨hm, rfl⟩ | ⟨r, hm, rfl⟩ := hb
  · exact .all hm (evals_begin (bodyEvals_of_seq (seq_snoc hs (evals_unit _))))
  · exact .all hm (evals_begin (bodyEvals_of_seq (seq_snoc_ret hs)))
  · exact .failed hm (evals_unit _)
  · exact .ret hm

/-- C79: `with?` comes to `some` of its body if the patterns match, to `none` otherwise. -/
theorem withOpt_evals (m : Sexp) (tmp : Nat) {bs : List (Sexp × List Sexp)} {body : List Sexp}
    {st st' : σ} {o : Out}
    (hb : (∃ ρ' st1 o', Matching (Evals h) (PatGives h) ρ bs st (.all ρ') st1 ∧
        Seq (Evals h ρ') body st1 o' st' ∧ o = o'.inSome) ∨
      (Matching (Evals h) (PatGives h) ρ bs st .failed st' ∧ o = .val .none) ∨
      ∃ r, Matching (Evals h) (PatGives h) ρ bs st (.ret r) st' ∧ o = .ret r) :
    ∃ e, withOptMacro tmp (.cons m (.cons (writeBinds bs) (list body))) = .ok e ∧
      Evals h ρ e st o st' := by
  rw [withOptMacro]
  apply expandMatches_evals
  obtain ⟨ρ', st1, v, hm, hs, rfl⟩ | ⟨hm, rfl⟩ | ⟨r, hm, rfl⟩ := hb
  · exact .all hm (evals_someOut (evals_begin (bodyEvals_of_seq hs)))
  · exact .failed hm (evals_none _)
  · exact .ret hm

/-- C79: `while-match` runs its body as long as the patterns match. -/
theorem whileMatch_evals (m : Sexp) (tmp : Nat) {bs : List (Sexp × List Sexp)} {body : List Sexp}
    {st st' : σ} {o : Out} (hw : WhileMatch (Evals h) (PatGives h) ρ bs body st o st') :
    ∃ e, whileMatchMacro tmp (.cons m (.cons (writeBinds bs) (list body))) = .ok e ∧
      Evals h ρ e st o st' := by
  obtain ⟨c, hc⟩ : ∃ c, expandMatches tmp (writeBinds bs) (beginForm (list (body ++ [.bool true])))
      (.bool false) = .ok c := ⟨_, by rw [expandMatches, expandMatchesBody_write]⟩
  refine ⟨list [.sym .whileS, c], by rw [whileMatchMacro, bodyThen_list]; simp only [hc], ?_⟩
  have key : ∀ {st o st'}, Branches (Evals h) (PatGives h) ρ bs
      (beginForm (list (body ++ [.bool true]))) (.bool false) st o st' →
      Evals h ρ c st o st' := by
    intro st o st' hb
    obtain ⟨e, he, hv⟩ := expandMatches_evals tmp hb
    rw [hc] at he
    cases he
    exact hv
  let k : Nat → Val → σ → Option (Out × σ) := fun n v st =>
    match v with
    | .bool true => eval h n ρ (list [.sym .whileS, c]) st
    | .bool false => some (.val .unit, st)
    | _ => none
  have step : ∀ st n, eval h (n + 1) ρ (list [.sym .whileS, c]) st =
      andThen (eval h n ρ c st) (k n) := by
    intro st n
    show andThen (eval h n ρ c st) _ = andThen (eval h n ρ c st) _
    congr 1
  induction hw with
  | done hm =>
    exact evals_step (andThen_val (k := k) (key (.failed hm (evals_bool _ _))) ⟨0, fun _ _ => rfl⟩) (step _)
  | again hm hs _ ih =>
    exact evals_step (andThen_val (k := k) (key (.all hm (evals_begin (bodyEvals_of_seq
      (seq_snoc hs (evals_bool _ _)))))) ih) (step _)
  | bodyRet hm hs =>
    exact evals_step (andThen_ret (k := k) (key (.all hm (evals_begin (bodyEvals_of_seq
      (seq_snoc_ret hs)))))) (step _)
  | ret hm => exact evals_step (andThen_ret (k := k) (key (.ret hm))) (step _)

/-- What `expand-cond` makes of clauses. -/
def condCode (tmp : Nat) : List Clause → Sexp
  | [] => .sym .unit
  | .otherwise body :: _ => beginForm (list body)
  | .whenTrue c body :: cs => list [.sym .ifS, c, beginForm (list body), condCode tmp cs]
  | .isTrue c body :: cs => list [.sym .ifS, c, beginForm (list body), condCode tmp cs]
  | .whenMatch bs body :: cs => branchCode tmp bs (beginForm (list body)) (condCode tmp cs)
  | .whenMatch1 p e body :: cs => list [.sym .matchS, e, .cons p (list body),
      list [.sym .wildcard, condCode tmp cs]]

theorem expandCond_write (tmp : Nat) (cs : List Clause) (hw : WellWritten cs) :
    expandCond tmp (list (cs.map Clause.written)) = .ok (condCode tmp cs) := by
  induction cs with
  | nil => rfl
  | cons c cs ih =>
    cases c with
    | otherwise body =>
      obtain rfl : cs = [] := hw
      rfl
    | whenTrue c body =>
      show expandCond tmp (.cons (.cons (.sym .whenS) (.cons c (list body))) (list _)) = _
      rw [expandCond, ih hw]
      rfl
    | isTrue c body =>
      obtain ⟨h1, h2, h3, h4, hw⟩ := hw
      show expandCond tmp (.cons (.cons c (list body)) (list _)) = _
      rw [expandCond, ih hw]
      · rfl
      · exact fun e _ => h1 (by assumption)
      · exact fun _ _ e _ => h2 e
      · exact fun _ _ e _ => h3 e
      · exact fun _ _ _ e _ => h4 e
    | whenMatch bs body =>
      show expandCond tmp (.cons (.cons (.sym .whenMatch) (.cons (writeBinds bs) (list body)))
        (list _)) = _
      rw [expandCond, ih hw]
      exact expandMatches_write _ _ _ _
    | whenMatch1 p e body =>
      show expandCond tmp (.cons (.cons (.sym .whenMatch1) (.cons p (.cons e (list body))))
        (list _)) = _
      rw [expandCond, ih hw]
      rfl

/-- C79: `cond` comes to the body of the first clause that applies. -/
theorem cond_evals (m : Sexp) (tmp : Nat) {cs : List Clause} (hw : WellWritten cs) {st st' : σ}
    {o : Out} (hc : CondRuns (Evals h) (PatGives h) ρ cs st o st') :
    ∃ e, condMacro tmp (.cons m (list (cs.map Clause.written))) = .ok e ∧
      Evals h ρ e st o st' := by
  refine ⟨condCode tmp cs, expandCond_write tmp cs hw, ?_⟩
  clear hw
  induction hc with
  | nil => exact evals_unit _
  | otherwise hs => exact evals_begin (bodyEvals_of_seq hs)
  | whenTrue he hs => exact evals_if_true he (evals_begin (bodyEvals_of_seq hs))
  | whenFalse he _ ih => exact evals_if_false he ih
  | whenRet he => exact evals_if_ret he
  | isTrue he hs => exact evals_if_true he (evals_begin (bodyEvals_of_seq hs))
  | isFalse he _ ih => exact evals_if_false he ih
  | isRet he => exact evals_if_ret he
  | allMatch hm hs => exact branchCode_evals _ (.all hm (evals_begin (bodyEvals_of_seq hs)))
  | matchFails hm _ ih => exact branchCode_evals _ (.failed hm ih)
  | matchRet hm => exact branchCode_evals _ (.ret hm)
  | match1 he hp hs => exact evals_match he (select_here hp (bodyEvals_of_seq hs))
  | match1Fails he hp _ ih => exact evals_match he (select_next hp (select_wildcard ih))
  | match1Ret he => exact evals_match_ret he

/-- What `expand-cond?` makes of clauses. -/
def condOptCode (tmp : Nat) : List Clause → Sexp
  | [] => .use .none
  | .otherwise _ :: _ => .nil
  | .whenTrue c body :: cs | .isTrue c body :: cs =>
    list [.sym .ifS, c, list [.use .some, beginForm (list body)], condOptCode tmp cs]
  | .whenMatch bs body :: cs =>
    branchCode tmp bs (list [.use .some, beginForm (list body)]) (condOptCode tmp cs)
  | .whenMatch1 p e body :: cs =>
    list [.sym .matchS, e, list [p, list [.use .some, beginForm (list body)]],
      list [.sym .wildcard, condOptCode tmp cs]]

theorem expandCondOpt_write (tmp : Nat) (cs : List Clause) (hw : WellWritten cs)
    (ho : ∀ body, Clause.otherwise body ∉ cs) :
    expandCondOpt tmp (list (cs.map Clause.written)) = .ok (condOptCode tmp cs) := by
  induction cs with
  | nil => rfl
  | cons c cs ih =>
    have ih := fun hw => ih hw fun body hb => ho body (by simp [hb])
    cases c with
    | otherwise body => exact absurd (by simp) (ho body)
    | whenTrue c body =>
      show expandCondOpt tmp (.cons (.cons (.sym .whenS) (.cons c (list body))) (list _)) = _
      rw [expandCondOpt, ih hw]
      rfl
    | isTrue c body =>
      obtain ⟨h1, h2, h3, h4, hw⟩ := hw
      show expandCondOpt tmp (.cons (.cons c (list body)) (list _)) = _
      rw [expandCondOpt, ih hw]
      · rfl
      · exact fun _ _ e _ => h2 e
      · exact fun _ _ e _ => h3 e
      · exact fun _ _ _ e _ => h4 e
    | whenMatch bs body =>
      show expandCondOpt tmp (.cons (.cons (.sym .whenMatch) (.cons (writeBinds bs) (list body)))
        (list _)) = _
      rw [expandCondOpt, ih hw]
      exact expandMatches_write _ _ _ _
    | whenMatch1 p e body =>
      show expandCondOpt tmp (.cons (.cons (.sym .whenMatch1) (.cons p (.cons e (list body))))
        (list _)) = _
      rw [expandCondOpt, ih hw]
      rfl

/-- C79: `cond?` comes to `some` of the body of the first clause that applies, or to `none`. -/
theorem condOpt_evals (m : Sexp) (tmp : Nat) {cs : List Clause} (hw : WellWritten cs)
    (ho : ∀ body, Clause.otherwise body ∉ cs) {st st' : σ} {o : Out}
    (hc : CondOptRuns (Evals h) (PatGives h) ρ cs st o st') :
    ∃ e, condOptMacro tmp (.cons m (list (cs.map Clause.written))) = .ok e ∧
      Evals h ρ e st o st' := by
  refine ⟨condOptCode tmp cs, expandCondOpt_write tmp cs hw ho, ?_⟩
  clear hw ho
  induction hc with
  | nil => exact evals_none _
  | ofTrue hc he hs =>
    have := evals_someOut (evals_begin (bodyEvals_of_seq hs))
    obtain rfl | rfl := hc <;> exact evals_if_true he this
  | ofFalse hc he _ ih => obtain rfl | rfl := hc <;> exact evals_if_false he ih
  | ofRet hc he => obtain rfl | rfl := hc <;> exact evals_if_ret he
  | allMatch hm hs =>
    exact branchCode_evals _ (.all hm (evals_someOut (evals_begin (bodyEvals_of_seq hs))))
  | matchFails hm _ ih => exact branchCode_evals _ (.failed hm ih)
  | matchRet hm => exact branchCode_evals _ (.ret hm)
  | match1 he hp hs =>
    exact evals_match he (select_here hp (evals_someOut (evals_begin (bodyEvals_of_seq hs))))
  | match1Fails he hp _ ih => exact evals_match he (select_next hp (select_wildcard ih))
  | match1Ret he => exact evals_match_ret he

/-- C79: `if-match1`. -/
theorem ifMatch1_evals (m p e thenE elseE : Sexp) {st st' st'' : σ} {v : Val} {r : Option Binds}
    {o : Out} (he : Evals h ρ e st (.val v) st') (hp : PatGives h p v r)
    (hb : match r with
      | some b => Evals h (b ++ ρ) thenE st' o st''
      | none => Evals h ρ elseE st' o st'') :
    ∃ c, ifMatch1Macro (list [m, p, e, thenE, elseE]) = .ok c ∧ Evals h ρ c st o st'' := by
  refine ⟨_, rfl, evals_match he ?_⟩
  cases r with
  | some b => exact select_here hp hb
  | none => exact select_next hp (select_wildcard hb)

/-- C79: `when-match1` runs its body if the pattern matches, and comes to `unit`. -/
theorem whenMatch1_evals (m p e : Sexp) {body : List Sexp} {st st' st'' : σ} {v : Val}
    {r : Option Binds} (he : Evals h ρ e st (.val v) st') (hp : PatGives h p v r)
    (hb : match r with
      | some b => ∃ v, Seq (Evals h (b ++ ρ)) body st' (.val v) st''
      | none => st'' = st') :
    ∃ c, whenMatch1Macro (.cons m (.cons p (.cons e (list body)))) = .ok c ∧
      Evals h ρ c st (.val .unit) st'' := by
  refine ⟨list [.sym .matchS, e, .cons p (list (body ++ [.sym .unit])), list [.sym .wildcard]],
    by rw [whenMatch1Macro, bodyThen_list], evals_match he ?_⟩
  cases r with
  | some b =>
    obtain ⟨v, hs⟩ := hb
    exact select_here hp (bodyEvals_of_seq (seq_snoc hs (evals_unit _)))
  | none =>
    obtain rfl : st'' = st' := hb
    exact select_next hp (select_here (b := []) (patGives_const 1 fun _ => rfl)
      (bodyEvals_of_seq .nil))

/-- C79: `while-match1` is `while-match` with one pattern. -/
theorem whileMatch1_evals (m p e : Sexp) {body : List Sexp} {st st' : σ} {o : Out}
    (hw : WhileMatch (Evals h) (PatGives h) ρ [(p, [e])] body st o st') :
    ∃ c, whileMatch1Macro (.cons m (.cons p (.cons e (list body)))) = .ok c ∧
      Evals h ρ c st o st' := by
  refine ⟨list [.sym .whileS, list [.sym .matchS, e, .cons p (list (body ++ [.bool true])),
    list [.sym .wildcard, .bool false]]], by rw [whileMatch1Macro, bodyThen_list], ?_⟩
  generalize hc : list [.sym .matchS, e, .cons p (list (body ++ [.bool true])),
    list [.sym .wildcard, .bool false]] = c
  let k : Nat → Val → σ → Option (Out × σ) := fun n v st =>
    match v with
    | .bool true => eval h n ρ (list [.sym .whileS, c]) st
    | .bool false => some (.val .unit, st)
    | _ => none
  have step : ∀ st n, eval h (n + 1) ρ (list [.sym .whileS, c]) st =
      andThen (eval h n ρ c st) (k n) := by
    intro st n
    show andThen (eval h n ρ c st) _ = andThen (eval h n ρ c st) _
    congr 1
  have one : ∀ {st o st'}, Seq (Evals h ρ) [e] st o st' → Evals h ρ e st o st' := by
    intro st o st' hs
    cases hs with
    | last he => exact he
    | next hn => exact absurd rfl hn
    | ret hn => exact absurd rfl hn
  induction hw with
  | done hm =>
    refine evals_step (andThen_val (k := k) (v := .bool false) ?_ ⟨0, fun _ _ => rfl⟩) (step _)
    subst hc
    cases hm with
    | next _ _ hm => cases hm
    | failed hi hp => exact evals_match (one hi) (select_next hp (select_wildcard (evals_bool _ _)))
  | again hm hs _ ih =>
    refine evals_step (andThen_val (k := k) (v := .bool true) ?_ ih) (step _)
    subst hc
    cases hm with
    | next hi hp hm =>
      cases hm
      exact evals_match (one hi) (select_here hp (bodyEvals_of_seq (seq_snoc hs (evals_bool _ _))))
  | bodyRet hm hs =>
    refine evals_step (andThen_ret (k := k) ?_) (step _)
    subst hc
    cases hm with
    | next hi hp hm =>
      cases hm
      exact evals_match (one hi) (select_here hp (bodyEvals_of_seq (seq_snoc_ret hs)))
  | ret hm =>
    refine evals_step (andThen_ret (k := k) ?_) (step _)
    subst hc
    cases hm with
    | next _ _ hm => cases hm
    | ret hi => exact evals_match_ret (one hi)

/-- `([x init …] …)` as it is written. -/
def writeVars (bs : List (Text × List Sexp)) : Sexp :=
  list (bs.map fun b => .cons (.sym b.1) (list b.2))

/-- C79: `let*` gives the variables their values in order. -/
theorem letStar_evals (m : Sexp) {bs : List (Text × List Sexp)} {body : List Sexp} {st st' : σ}
    {o : Out} (hl : LetStar (Evals h) ρ bs body st o st') :
    ∃ e, letStarMacro (.cons m (.cons (writeVars bs) (list body))) = .ok e ∧
      Evals h ρ e st o st' := by
  show ∃ e, expandLetStar (beginForm (list body)) (writeVars bs) = .ok e ∧ _
  have code : ∀ bs : List (Text × List Sexp), ∃ e,
      expandLetStar (beginForm (list body)) (writeVars bs) = .ok e := by
    intro bs
    induction bs with
    | nil => exact ⟨_, rfl⟩
    | cons b bs ih =>
      obtain ⟨e, he⟩ := ih
      refine ⟨list [.sym .letS, list [.cons (.sym b.1) (list b.2)], e], ?_⟩
      show expandLetStar _ (.cons (.cons (.sym b.1) (list b.2)) (writeVars bs)) = _
      rw [expandLetStar, he]
  induction hl with
  | nil hs => exact ⟨_, rfl, evals_begin (bodyEvals_of_seq hs)⟩
  | @next ρ x init bs body st v st' o st'' hi _ ih =>
    obtain ⟨e, he, hv⟩ := ih code
    refine ⟨list [.sym .letS, list [.cons (.sym x) (list init)], e], ?_, ?_⟩
    · show expandLetStar _ (.cons (.cons (.sym x) (list init)) (writeVars bs)) = _
      rw [expandLetStar, he]
    · exact evals_step (andThen_val
        (k := fun n v st => evalSeq (eval h n ((x, v) :: ρ)) (list [e]) st)
        (bodyEvals_of_seq hi) (bodyEvals_one hv)) fun _ => rfl
  | @ret ρ x init bs body st r st' hi =>
    obtain ⟨e, he⟩ := code bs
    refine ⟨list [.sym .letS, list [.cons (.sym x) (list init)], e], ?_, ?_⟩
    · show expandLetStar _ (.cons (.cons (.sym x) (list init)) (writeVars bs)) = _
      rw [expandLetStar, he]
    · exact evals_step (andThen_ret
        (k := fun n v st => evalSeq (eval h n ((x, v) :: ρ)) (list [e]) st)
        (bodyEvals_of_seq hi)) fun _ => rfl

/-- C79: `with` goes on with the variables of its patterns, if all of them match. -/
theorem with_evals (m : Sexp) {bs : List (Sexp × List Sexp)} {body : List Sexp} {st st' st'' : σ}
    {ρ' : Binds} {o : Out} (hm : Matching (Evals h) (PatGives h) ρ bs st (.all ρ') st')
    (hs : Seq (Evals h ρ') body st' o st'') :
    ∃ e, withMacro (.cons m (.cons (writeBinds bs) (list body))) = .ok e ∧
      Evals h ρ e st o st'' := by
  show ∃ e, expandExhaustiveMatches (beginForm (list body)) (writeBinds bs) = .ok e ∧ _
  generalize hM : Matched.all ρ' = M at hm
  induction hm with
  | nil =>
    cases hM
    exact ⟨_, rfl, evals_begin (bodyEvals_of_seq hs)⟩
  | @next ρ p init bs st v st' b m st'' hi hp _ ih =>
    obtain ⟨e, he, hv⟩ := ih hs hM
    refine ⟨list [.sym .matchS, beginForm (list init), list [p, e]], ?_, ?_⟩
    · show expandExhaustiveMatches _ (.cons (.cons p (list init)) (writeBinds bs)) = _
      rw [expandExhaustiveMatches, he]
    · exact evals_match (evals_begin (bodyEvals_of_seq hi)) (select_here hp (bodyEvals_one hv))
  | failed => cases hM
  | ret => cases hM

/-- C79: `when` runs its body if the condition is true, and comes to `unit`. -/
theorem when_evals (m c : Sexp) {body : List Sexp} {st st' st'' : σ} {b : Bool}
    (hc : Evals h ρ c st (.val (.bool b)) st')
    (hb : if b then ∃ v, Seq (Evals h ρ) body st' (.val v) st'' else st'' = st') :
    ∃ e, whenMacro (.cons m (.cons c (list body))) = .ok e ∧
      Evals h ρ e st (.val .unit) st'' := by
  refine ⟨list [.sym .ifS, c, beginForm (list (body ++ [.sym .unit])), .sym .unit],
    by rw [whenMacro, bodyThen_list], ?_⟩
  cases b with
  | true =>
    obtain ⟨v, hs⟩ := hb
    exact evals_if_true hc (evals_begin (bodyEvals_of_seq (seq_snoc hs (evals_unit _))))
  | false =>
    obtain rfl : st'' = st' := by simpa using hb
    exact evals_if_false hc (evals_unit _)

/-- C79: `when?` comes to `some` of its body if the condition is true, to `none` otherwise. -/
theorem whenOpt_evals (m c : Sexp) {body : List Sexp} {st st' st'' : σ} {b : Bool} {o : Out}
    (hc : Evals h ρ c st (.val (.bool b)) st')
    (hb : if b then ∃ o', Seq (Evals h ρ) body st' o' st'' ∧ o = o'.inSome
      else o = .val .none ∧ st'' = st') :
    ∃ e, whenOptMacro (.cons m (.cons c (list body))) = .ok e ∧ Evals h ρ e st o st'' := by
  refine ⟨_, rfl, ?_⟩
  cases b with
  | true =>
    obtain ⟨v, hs, rfl⟩ := hb
    exact evals_if_true hc (evals_someOut (evals_begin (bodyEvals_of_seq hs)))
  | false =>
    obtain ⟨rfl, rfl⟩ : o = .val .none ∧ st'' = st' := by simpa using hb
    exact evals_if_false hc (evals_none _)

/-- C79: `is?` says if a pattern matches. -/
theorem is_evals (m p e : Sexp) {st st' : σ} {v : Val} {r : Option Binds}
    (he : Evals h ρ e st (.val v) st') (hp : PatGives h p v r) :
    ∃ c, isMacro (list [m, p, e]) = .ok c ∧ Evals h ρ c st (.val (.bool r.isSome)) st' := by
  refine ⟨_, rfl, evals_match he ?_⟩
  cases r with
  | some b => exact select_here hp (bodyEvals_one (evals_bool _ _))
  | none => exact select_next hp (select_wildcard (evals_bool _ _))

theorem listTo_snoc (xs : List Sexp) (y tail : Sexp) :
    listTo (xs ++ [y]) tail = listTo xs (.cons y tail) := by
  induction xs with
  | nil => rfl
  | cons a as ih => exact congrArg (Sexp.cons a) ih

/-- C79: `|>` applies the forms to the target, one after the other. -/
theorem thread_eq (m target : Sexp) (fs : List ThreadForm) (hf : ∀ f ∈ fs, f.Ok) :
    threadMacro (.cons m (.cons target (list (fs.map ThreadForm.written)))) =
      .ok (fs.foldl ThreadForm.apply target) := by
  show expandThread target (list (fs.map ThreadForm.written)) = _
  induction fs generalizing target with
  | nil => rfl
  | cons f fs ih =>
    have ih := fun t => ih t fun g hg => hf g (by simp [hg])
    have hf := hf f (by simp)
    cases f with
    | function f =>
      show expandThread target (.cons f (list (fs.map ThreadForm.written))) = _
      rw [expandThread]
      · exact ih _
      · exact hf.2
      · exact hf.1
    | call f args =>
      show expandThread target (.cons (.cons f (list args)) (list (fs.map ThreadForm.written))) = _
      rw [expandThread, qqAppend_list]
      have : Sexp.cons f (listTo args (.cons target .nil)) = ThreadForm.apply target (.call f args) := by
        show Sexp.cons f _ = Sexp.cons f (listTo (args ++ [target]) .nil)
        rw [listTo_snoc]
      show expandThread (Sexp.cons f (listTo args (.cons target .nil))) _ = _
      rw [this]
      exact ih _
    | callIt =>
      show expandThread target (.cons .nil (list (fs.map ThreadForm.written))) = _
      rw [expandThread]
      exact ih _

/-! ## Examples -/

/-- A counter: `(dec)` takes one off and comes to `some` of what is left, or to `none`;
`pos` is true as long as it is not zero. -/
def counter : Host Nat where
  eval _ e st :=
    match e with
    | .sym (.other "pos") => some (.val (.bool (0 < st)), st)
    | .cons (.sym (.other "dec")) .nil =>
      match st with
      | 0 => some (.val .none, 0)
      | n + 1 => some (.val (.some (.u64 n)), n)
    | _ => none
  pat _ _ := none

/-- `(while-match ([(some (let y)) (dec)]))` counts down to zero. -/
example : ∃ e, whileMatchMacro 0 (.cons .nil (.cons (writeBinds
      [(list [.use .some, list [.sym .letS, .sym (.other "y")]],
        [list [.sym (.other "dec")]])]) (list []))) = .ok e ∧
    eval counter 40 [] e 3 = some (.val .unit, 0) := ⟨_, rfl, by decide +kernel⟩

/-- `(cond [when-match ([(some (let y)) (dec)] [(some (let z)) (dec)]) y] [pos #t] [else #f])`:
one is not enough for two patterns, and it is gone. -/
example : ∃ e, condMacro 0 (.cons .nil (list ([
      .whenMatch [(list [.use .some, list [.sym .letS, .sym (.other "y")]],
          [list [.sym (.other "dec")]]),
        (list [.use .some, list [.sym .letS, .sym (.other "z")]],
          [list [.sym (.other "dec")]])] [.sym (.other "y")],
      .isTrue (.sym (.other "pos")) [.bool true],
      .otherwise [.bool false]] |>.map Clause.written))) = .ok e ∧
    eval counter 40 [] e 3 = some (.val (.u64 2), 1) ∧
    eval counter 40 [] e 1 = some (.val (.bool false), 0) :=
  ⟨_, rfl, by decide +kernel, by decide +kernel⟩

example : threadMacro (list [.nil, .sym .xS, .sym .eS, list [.sym .unit, .nil], .nil]) =
    .ok (list [list [.sym .unit, .nil, list [.sym .eS, .sym .xS]]]) := rfl

end Verif.Macro
