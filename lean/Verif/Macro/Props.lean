import Verif.Macro.Control
import Verif.Macro.Lists

/-!
# C76 and C77: quasi-quotations and `s/match`
-/

namespace Verif.Macro

open Sexp

variable {σ : Type} {h : Host σ} {ρ : Binds}

/-- C76: a quasi-quotation expands to an expression that comes to the template, filled. -/
theorem quasiquote_fills (q s : Sexp) {st : σ} {o : Out} {st' : σ}
    (hf : Fills (Evals h ρ) (read s) st o st') :
    ∃ e, quasiquoteMacro (list [q, s]) = .ok e ∧ Evals h ρ e st o st' :=
  ⟨_, rfl, qqExpand_fills hf s rfl⟩

/-- Expressions come to one thing. -/
theorem evals_unique {e : Sexp} {st : σ} {o o' : Out} {st1 st2 : σ}
    (h1 : Evals h ρ e st o st1) (h2 : Evals h ρ e st o' st2) : o = o' ∧ st1 = st2 := by
  obtain ⟨n1, h1⟩ := h1
  obtain ⟨n2, h2⟩ := h2
  have e1 := h1 (n1 + n2) (by omega)
  have e2 := h2 (n1 + n2) (by omega)
  rw [e1] at e2
  cases e2
  exact ⟨rfl, rfl⟩

/-- C76: and to nothing else. -/
theorem quasiquote_only (q s : Sexp) {st : σ} {o o' : Out} {st' st'' : σ}
    (hf : Fills (Evals h ρ) (read s) st o st') {e : Sexp}
    (he : quasiquoteMacro (list [q, s]) = .ok e) (hv : Evals h ρ e st o' st'') :
    o' = o ∧ st'' = st' := by
  cases he
  exact evals_unique hv (qqExpand_fills hf s rfl)

/-- Clauses as they are written. -/
def writeClauses (cs : List (Sexp × Sexp)) : Sexp :=
  list (cs.map fun c => .cons c.1 c.2)

/-- The clauses of `s/match` expand to the clauses of `match`. -/
theorem expandClauses_write (cs : List (Sexp × Sexp)) :
    expandClauses (writeClauses cs) = .ok (writeClauses (cs.map fun c => (expandPat c.1, c.2))) := by
  induction cs with
  | nil => rfl
  | cons c cs ih =>
    show expandClauses (.cons (.cons c.1 c.2) (writeClauses cs)) = _
    rw [expandClauses, ih]
    rfl

/-- Patterns of clauses that the theorem is about: `,@` at the end of lists only, and the
patterns of the language can be matched with anything. -/
def GoodClauses (h : Host σ) (cs : List (Sexp × Sexp)) : Prop :=
  ∀ c ∈ cs, SplicesLast (read c.1) ∧
    ∀ p ∈ subpatterns (read c.1), ∀ v, ∃ r, PatGives h p (.sexp v) r

theorem select_chooses (cs : List (Sexp × Sexp)) (hg : GoodClauses h cs) {v body : Sexp}
    {b : Binds} (hc : Chooses (fun p v b => PatGives h p (.sexp v) (some b)) v cs body b)
    {st : σ} {o : Out} {st' : σ} (hb : BodyEvals h (b ++ ρ) body st o st') :
    ∃ n0, ∀ n, n0 ≤ n →
      select (patMatch h n) (eval h n) ρ (writeClauses (cs.map fun c => (expandPat c.1, c.2)))
        (.sexp v) st = some (o, st') := by
  induction hc with
  | @here pat body b cs hf =>
    obtain ⟨hl, hs⟩ := hg (pat, body) (by simp)
    obtain ⟨r, ⟨n1, hr⟩, er⟩ := expandPat_fits _ pat rfl hl hs v
    obtain ⟨n2, hb⟩ := hb
    refine ⟨n1 + n2, fun n hn => ?_⟩
    have e1 := hr n (by omega)
    rw [(er b).2 hf] at e1
    show select _ _ ρ (.cons (.cons (expandPat pat) body) _) _ _ = _
    rw [select, e1]
    exact hb n (by omega)
  | @there pat body' body b cs hn _ ih =>
    obtain ⟨hl, hs⟩ := hg (pat, body') (by simp)
    obtain ⟨r, ⟨n1, hr⟩, er⟩ := expandPat_fits _ pat rfl hl hs v
    obtain ⟨n2, ih⟩ := ih (fun c hc => hg c (by simp [hc])) hb
    refine ⟨n1 + n2, fun n hn' => ?_⟩
    have e1 := hr n (by omega)
    cases r with
    | some b => exact absurd ((er b).1 rfl) (hn b)
    | none =>
      show select _ _ ρ (.cons (.cons (expandPat pat) body') _) _ _ = _
      rw [select, e1]
      exact ih n (by omega)

/-- C77: `s/match` goes on with the body of the first clause that the value fits, with the
variables in the pattern. Missing: `,@` before other elements of a list, see
`sMatch_middle`. -/
theorem sMatch_partial (m target : Sexp) (cs : List (Sexp × Sexp)) (hg : GoodClauses h cs)
    {st st' st'' : σ} {v body : Sexp} {b : Binds} {o : Out}
    (ht : Evals h ρ target st (.val (.sexp v)) st')
    (hc : Chooses (fun p v b => PatGives h p (.sexp v) (some b)) v cs body b)
    (hb : BodyEvals h (b ++ ρ) body st' o st'') :
    ∃ e, sMatchMacro (.cons m (.cons target (writeClauses cs))) = .ok e ∧
      Evals h ρ e st o st'' := by
  refine ⟨.cons (.sym .matchS) (.cons target
    (writeClauses (cs.map fun c => (expandPat c.1, c.2)))), ?_, ?_⟩
  · rw [sMatchMacro, expandClauses_write]
  · obtain ⟨n1, ht⟩ := ht
    obtain ⟨n2, hs⟩ := select_chooses (ρ := ρ) cs hg hc hb
    refine ⟨n1 + n2 + 1, fun n hn => ?_⟩
    obtain ⟨n, rfl⟩ : ∃ m, n = m + 1 := ⟨n - 1, by omega⟩
    have e1 := ht n (by omega)
    show andThen (eval h n ρ target st) _ = _
    rw [e1]
    exact hs n (by omega)

/-- A quasi-quotation of variables fits its own template, with their values. -/
theorem fits_fills {P : Sexp → Sexp → Binds → Prop} {V : Sexp → σ → Out → σ → Prop}
    (val : Text → Sexp)
    (hV : ∀ x st o st', V (.sym x) st o st' → o = .val (.sexp (val x)))
    {t : Tmpl} {st : σ} {o : Out} {st' : σ} (hf : Fills V t st o st') (ht : Variables t) :
    ∃ s, o = .val (.sexp s) ∧ Fits P t s ((variables t).map fun x => (x, .sexp (val x))) := by
  induction hf with
  | atom => exact ⟨_, rfl, .atom ht.1 ht.2⟩
  | hole he =>
    obtain ⟨x, rfl⟩ := ht
    exact ⟨_, hV _ _ _ _ he, .var⟩
  | pair _ _ iha ihd =>
    obtain ⟨s, es, hs⟩ := iha ht.1
    obtain ⟨t, et, ht⟩ := ihd ht.2
    cases es
    cases et
    refine ⟨_, rfl, ?_⟩
    rw [variables, List.map_append]
    exact .pair hs ht
  | pairRetCar _ iha =>
    obtain ⟨s, es, _⟩ := iha ht.1
    cases es
  | pairRetCdr _ _ _ ihd =>
    obtain ⟨s, es, _⟩ := ihd ht.2
    cases es
  | last he =>
    obtain ⟨⟨x, rfl⟩, _⟩ := ht
    exact ⟨_, hV _ _ _ _ he, .lastVar⟩
  | splice hn => exact absurd ht.2 hn
  | spliceNotList hn => exact absurd ht.2 hn
  | spliceRet hn => exact absurd ht.2 hn
  | spliceRetRest hn => exact absurd ht.2 hn

theorem variables_last {t : Tmpl} (ht : Variables t) : SplicesLast t := by
  induction t with
  | atom => trivial
  | hole => trivial
  | splice => exact ht.2
  | pair a d iha ihd => exact ⟨iha ht.1, ihd ht.2⟩

theorem variables_subpatterns {t : Tmpl} (ht : Variables t) : subpatterns t = [] := by
  induction t with
  | atom s =>
    cases s with
    | use c => exact absurd rfl (ht.2 c)
    | _ => rfl
  | hole e =>
    obtain ⟨x, rfl⟩ := ht
    rfl
  | splice e rest ih =>
    obtain ⟨⟨x, rfl⟩, rfl⟩ := ht
    rfl
  | pair a d iha ihd => simp [subpatterns, iha ht.1, ihd ht.2]

/-- C77: a pattern of variables takes apart what the quasi-quotation that is written in the
same way has put together: it matches and the variables are what they were. -/
theorem match_quasiquote (s : Sexp) (hv : Variables (read s)) (val : Text → Sexp)
    (hρ : ∀ x st o st', Evals h ρ (.sym x) st o st' → o = .val (.sexp (val x)))
    {st : σ} {o : Out} {st' : σ} (hf : Fills (Evals h ρ) (read s) st o st') :
    ∃ v, o = .val (.sexp v) ∧
      PatGives h (expandPat s) (.sexp v)
        (some ((variables (read s)).map fun x => (x, .sexp (val x)))) := by
  obtain ⟨v, rfl, hfit⟩ :=
    fits_fills (P := fun p v b => PatGives h p (.sexp v) (some b)) val hρ hf hv
  obtain ⟨r, hr, er⟩ := expandPat_fits _ s rfl (variables_last hv)
    (by rw [variables_subpatterns hv]; simp) v (h := h)
  rw [(er _).2 hfit] at hr
  exact ⟨v, rfl, hr⟩

/-- `(s:list e …)` comes to the list of what the expressions come to. -/
theorem sList_evals {es vs : List Sexp} {st st' : σ} (m : Sexp)
    (he : InOrder (Evals h ρ) es st vs st') :
    ∃ e, sListMacro (.cons m (list es)) = .ok e ∧ Evals h ρ e st (.val (.sexp (list vs))) st' := by
  refine ⟨_, rfl, ?_⟩
  induction he with
  | nil =>
    refine ⟨2, fun n hn => ?_⟩
    obtain ⟨n, rfl⟩ : ∃ m, n = m + 2 := ⟨n - 2, by omega⟩
    rfl
  | @cons e es st v st' vs st'' h0 _ ih =>
    obtain ⟨n1, h0⟩ := h0
    obtain ⟨n2, h1⟩ := ih
    refine ⟨n1 + n2 + 2, fun n hn => ?_⟩
    obtain ⟨n, rfl⟩ : ∃ m, n = m + 2 := ⟨n - 2, by omega⟩
    have e1 := h0 n (by omega)
    have e2 := h1 n (by omega)
    have : eval h (n + 2) ρ (expandList (list (e :: es))) st =
      evalArgs (eval h n ρ) (.cons e (.cons (expandList (list es)) .nil)) st
        fun vs st => given (construct .cons vs) st := rfl
    rw [this]
    simp only [evalArgs, e1, e2, andThen, construct, given]
    rfl

/-- `(try? e)` comes to what is in `(some v)`. -/
theorem tryOpt_some {e : Sexp} {st st' : σ} {v : Val}
    (he : Evals h ρ e st (.val (.some v)) st') :
    Evals h ρ (list [.use .tryOpt, e]) st (.val v) st' := by
  obtain ⟨n1, he⟩ := he
  refine ⟨n1 + 5, fun n hn => ?_⟩
  obtain ⟨n, rfl⟩ : ∃ m, n = m + 5 := ⟨n - 5, by omega⟩
  have e1 := he (n + 3) (by omega)
  show andThen (eval h (n + 3) ρ e st) _ = _
  rw [e1]
  rfl

/-- `(try? e)` returns `none`, if `e` comes to it. -/
theorem tryOpt_none {e : Sexp} {st st' : σ} (he : Evals h ρ e st (.val .none) st') :
    Evals h ρ (list [.use .tryOpt, e]) st (.ret .none) st' := by
  obtain ⟨n1, he⟩ := he
  refine ⟨n1 + 5, fun n hn => ?_⟩
  obtain ⟨n, rfl⟩ : ∃ m, n = m + 5 := ⟨n - 5, by omega⟩
  have e1 := he (n + 3) (by omega)
  show andThen (eval h (n + 3) ρ e st) _ = _
  rw [e1]
  rfl

/-! ## Examples -/

/-- A host that knows nothing else. -/
def bare : Host Unit := ⟨fun _ _ _ => none, fun _ _ => none⟩

/-- A symbol that the macros do not mention. -/
def symb (s : String) : Sexp := .sym (.other s)

/-- `,e`. -/
def unq (e : Sexp) : Sexp := list [.sym .unquote, e]

/-- `,@e`. -/
def spl (e : Sexp) : Sexp := list [.sym .unquoteSplicing, e]

/-- The values of `a`, `b` and `c` in the examples. -/
def someBinds : Binds :=
  [(.other "a", .sexp (.integer false 1)),
   (.other "b", .sexp (list [symb "p", symb "q"])),
   (.other "c", .sexp (.str (.other "s")))]

/-- `` `(f ,a (,@b x) ,@c) `` -/
def sample : Sexp :=
  list [symb "f", unq (symb "a"), list [spl (symb "b"), .sym .xS], spl (symb "c")]

example : quasiquoteMacro (list [.nil, sample]) = .ok (qqExpand sample) ∧
    eval bare 30 someBinds (qqExpand sample) () =
      some (.val (.sexp (.listTo
        [symb "f", .integer false 1, list [symb "p", symb "q", .sym .xS]]
        (.str (.other "s")))), ()) := ⟨rfl, by decide +kernel⟩

/-- `,@` of something that is not a list is an error, unless it is the last. -/
example : eval bare 30 someBinds (qqExpand (list [spl (symb "c"), symb "z"])) () =
    some (.ret (.err (.str .spliceError)), ()) := by decide +kernel

/-- `(f ,x (1 ,@y) . ,z)` -/
def samplePat : Sexp :=
  .cons (symb "f") (.cons (unq (symb "x"))
    (.cons (list [.integer false 1, spl (symb "y")]) (unq (symb "z"))))

example : SplicesLast (read samplePat) ∧ Variables (read samplePat) ∧
    variables (read samplePat) = [.other "x", .other "y", .other "z"] := by
  refine ⟨?_, ?_, by decide +kernel⟩ <;>
    simp [samplePat, symb, unq, spl, list, listTo, read, SplicesLast, Variables]

example : patMatch bare 30 (expandPat samplePat)
      (.sexp (list [symb "f", .nil, list [.integer false 1, symb "p", symb "q"], symb "r"])) =
    some (some [(.other "x", .sexp .nil), (.other "y", .sexp (list [symb "p", symb "q"])),
      (.other "z", .sexp (list [symb "r"]))]) := by decide +kernel

/-- C77 is false when `,@` stands before other elements: `(,@xs y)` expands to a pattern that
matches the text `((unquote-splicing xs) y)` instead. -/
theorem sMatch_middle :
    let pat := list [spl (symb "xs"), symb "y"]
    let v := list [.integer false 1, .integer false 2, symb "y"]
    Fits (fun p v b => PatGives bare p (.sexp v) (some b)) (read pat) v
      [(.other "xs", .sexp (list [.integer false 1, .integer false 2]))] ∧
    PatGives bare (expandPat pat) (.sexp v) none ∧
    PatGives bare (expandPat pat) (.sexp pat) (some []) := by
  refine ⟨?_, ?_, ?_⟩
  · exact Fits.spliceVar (as := [.integer false 1, .integer false 2]) (by decide +kernel)
      (Fits.pair (b := []) (c := []) (.atom (by decide) nofun) (.atom (by decide) nofun))
  · refine patGives_const 30 fun n => ?_
    rfl
  · refine patGives_const 30 fun n => ?_
    rfl

end Verif.Macro
