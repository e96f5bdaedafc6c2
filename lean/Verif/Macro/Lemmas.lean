import Verif.Macro.Model

/-!
# Templates, and the evaluation of what the macros expand to
-/

namespace Verif.Macro

open Sexp

/-- A template that is read is written as what was read. -/
theorem written_read (s : Sexp) : (read s).written = s := by
  fun_induction read s <;> simp_all [Tmpl.written, list, listTo]

/-- Only `()` is read as `()`. -/
theorem read_nil_iff (s : Sexp) : read s = .atom .nil ↔ s = .nil := by
  constructor
  · intro h
    rw [← written_read s, h]
    rfl
  · rintro rfl
    rfl

/-- `qq-append` puts a proper list before something. -/
theorem qqAppend_list (as : List Sexp) (t : Sexp) : qqAppend (list as) t = .ok (listTo as t) := by
  induction as with
  | nil => rfl
  | cons a as ih =>
    show qqAppend (.cons a (list as)) t = _
    rw [qqAppend, ih]
    rfl

/-- `qq-append` refuses what is not a proper list. -/
theorem qqAppend_notList (s t : Sexp) (h : ∀ as, s ≠ list as) :
    qqAppend s t = .error .spliceError := by
  induction s with
  | cons a d _ ih =>
    rw [qqAppend, ih]
    intro as has
    exact h (a :: as) (by rw [has]; rfl)
  | nil => exact absurd rfl (h [])
  | _ => rfl

variable {σ : Type} {h : Host σ} {ρ : Binds}

theorem evals_quote (s : Sexp) (st : σ) :
    Evals h ρ (list [.sym .quote, s]) st (.val (.sexp s)) st :=
  ⟨1, fun n hn => by
    obtain ⟨n, rfl⟩ := Nat.exists_eq_add_of_le' hn
    rfl⟩

theorem eval_sCons (n : Nat) (a d : Sexp) (st : σ) :
    eval h (n + 3) ρ (list [.use (.s .cons), a, d]) st =
      evalArgs (eval h n ρ) (.cons a (.cons d .nil)) st
        fun vs st => given (construct .cons vs) st := rfl

theorem eval_qqAppend (n : Nat) (a b : Sexp) (st : σ) :
    eval h (n + 1) ρ (list [.use .qqAppend, a, b]) st =
      evalArgs (eval h n ρ) (.cons a (.cons b .nil)) st fun vs st =>
        match vs with
        | [.sexp a, .sexp b] => some (.val (resultVal (qqAppend a b)), st)
        | _ => none := rfl

/-- `(s:cons a d)`, when both come to S-expressions. -/
theorem evals_cons {a d : Sexp} {st st' st'' : σ} {s t : Sexp}
    (ha : Evals h ρ a st (.val (.sexp s)) st') (hd : Evals h ρ d st' (.val (.sexp t)) st'') :
    Evals h ρ (list [.use (.s .cons), a, d]) st (.val (.sexp (.cons s t))) st'' := by
  obtain ⟨n1, ha⟩ := ha
  obtain ⟨n2, hd⟩ := hd
  refine ⟨n1 + n2 + 3, fun n hn => ?_⟩
  obtain ⟨n, rfl⟩ : ∃ m, n = m + 3 := ⟨n - 3, by omega⟩
  have e1 := ha n (by omega)
  have e2 := hd n (by omega)
  rw [eval_sCons]
  simp [evalArgs, e1, e2, andThen, construct, given]

theorem evals_cons_ret {a d : Sexp} {st st' : σ} {r : Val}
    (ha : Evals h ρ a st (.ret r) st') :
    Evals h ρ (list [.use (.s .cons), a, d]) st (.ret r) st' := by
  obtain ⟨n1, ha⟩ := ha
  refine ⟨n1 + 3, fun n hn => ?_⟩
  obtain ⟨n, rfl⟩ : ∃ m, n = m + 3 := ⟨n - 3, by omega⟩
  have e1 := ha n (by omega)
  rw [eval_sCons]
  simp [evalArgs, e1, andThen]

theorem evals_cons_ret' {a d : Sexp} {st st' st'' : σ} {s : Val} {r : Val}
    (ha : Evals h ρ a st (.val s) st') (hd : Evals h ρ d st' (.ret r) st'') :
    Evals h ρ (list [.use (.s .cons), a, d]) st (.ret r) st'' := by
  obtain ⟨n1, ha⟩ := ha
  obtain ⟨n2, hd⟩ := hd
  refine ⟨n1 + n2 + 3, fun n hn => ?_⟩
  obtain ⟨n, rfl⟩ : ∃ m, n = m + 3 := ⟨n - 3, by omega⟩
  have e1 := ha n (by omega)
  have e2 := hd n (by omega)
  rw [eval_sCons]
  simp [evalArgs, e1, e2, andThen]

/-- `(try! e)`, when `e` comes to `(ok v)`. -/
theorem evals_tryBang_ok {e : Sexp} {st st' : σ} {v : Val}
    (he : Evals h ρ e st (.val (.ok v)) st') :
    Evals h ρ (list [.use .tryBang, e]) st (.val v) st' := by
  obtain ⟨n1, he⟩ := he
  refine ⟨n1 + 5, fun n hn => ?_⟩
  obtain ⟨n, rfl⟩ : ∃ m, n = m + 5 := ⟨n - 5, by omega⟩
  have e1 := he (n + 3) (by omega)
  show andThen (eval h (n + 3) ρ e st) _ = _
  rw [e1]
  rfl

/-- `(try! e)`, when `e` comes to `(err v)`. -/
theorem evals_tryBang_err {e : Sexp} {st st' : σ} {v : Val}
    (he : Evals h ρ e st (.val (.err v)) st') :
    Evals h ρ (list [.use .tryBang, e]) st (.ret (.err v)) st' := by
  obtain ⟨n1, he⟩ := he
  refine ⟨n1 + 6, fun n hn => ?_⟩
  obtain ⟨n, rfl⟩ : ∃ m, n = m + 6 := ⟨n - 6, by omega⟩
  have e1 := he (n + 4) (by omega)
  show andThen (eval h (n + 4) ρ e st) _ = _
  rw [e1]
  rfl

theorem evals_tryBang_ret {e : Sexp} {st st' : σ} {r : Val}
    (he : Evals h ρ e st (.ret r) st') :
    Evals h ρ (list [.use .tryBang, e]) st (.ret r) st' := by
  obtain ⟨n1, he⟩ := he
  refine ⟨n1 + 5, fun n hn => ?_⟩
  obtain ⟨n, rfl⟩ : ∃ m, n = m + 5 := ⟨n - 5, by omega⟩
  have e1 := he (n + 3) (by omega)
  show andThen (eval h (n + 3) ρ e st) _ = _
  rw [e1]
  rfl

/-- `(qq-append a b)`. -/
theorem evals_qqAppend {a b : Sexp} {st st' st'' : σ} {s t : Sexp}
    (ha : Evals h ρ a st (.val (.sexp s)) st') (hb : Evals h ρ b st' (.val (.sexp t)) st'') :
    Evals h ρ (list [.use .qqAppend, a, b]) st (.val (resultVal (qqAppend s t))) st'' := by
  obtain ⟨n1, ha⟩ := ha
  obtain ⟨n2, hb⟩ := hb
  refine ⟨n1 + n2 + 1, fun n hn => ?_⟩
  obtain ⟨n, rfl⟩ : ∃ m, n = m + 1 := ⟨n - 1, by omega⟩
  have e1 := ha n (by omega)
  have e2 := hb n (by omega)
  rw [eval_qqAppend]
  simp [evalArgs, e1, e2, andThen]

theorem evals_qqAppend_ret {a b : Sexp} {st st' : σ} {r : Val}
    (ha : Evals h ρ a st (.ret r) st') :
    Evals h ρ (list [.use .qqAppend, a, b]) st (.ret r) st' := by
  obtain ⟨n1, ha⟩ := ha
  refine ⟨n1 + 1, fun n hn => ?_⟩
  obtain ⟨n, rfl⟩ : ∃ m, n = m + 1 := ⟨n - 1, by omega⟩
  have e1 := ha n (by omega)
  rw [eval_qqAppend]
  simp [evalArgs, e1, andThen]

theorem evals_qqAppend_ret' {a b : Sexp} {st st' st'' : σ} {s r : Val}
    (ha : Evals h ρ a st (.val s) st') (hb : Evals h ρ b st' (.ret r) st'') :
    Evals h ρ (list [.use .qqAppend, a, b]) st (.ret r) st'' := by
  obtain ⟨n1, ha⟩ := ha
  obtain ⟨n2, hb⟩ := hb
  refine ⟨n1 + n2 + 1, fun n hn => ?_⟩
  obtain ⟨n, rfl⟩ : ∃ m, n = m + 1 := ⟨n - 1, by omega⟩
  have e1 := ha n (by omega)
  have e2 := hb n (by omega)
  rw [eval_qqAppend]
  simp [evalArgs, e1, e2, andThen]

/-- What is read as `,e`. -/
theorem of_read_hole {s e : Sexp} (h : read s = .hole e) :
    s = .cons (.sym .unquote) (.cons e .nil) := by
  rw [← written_read s, h]
  rfl

/-- What is read as `,@e` and something. -/
theorem of_read_splice {s e : Sexp} {r : Tmpl} (h : read s = .splice e r) :
    ∃ rest, read rest = r ∧ s = .cons (.cons (.sym .unquoteSplicing) (.cons e .nil)) rest := by
  revert h
  fun_cases read s <;> intro h
  · cases h
  · cases h
    exact ⟨_, rfl, rfl⟩
  · cases h
  · cases h

/-- What is read as a pair. -/
theorem of_read_pair {s : Sexp} {a d : Tmpl} (h : read s = .pair a d) :
    ∃ car cdr, read car = a ∧ read cdr = d ∧ s = .cons car cdr ∧
      (∀ e, car = .sym .unquote → cdr = .cons e .nil → False) ∧
      (∀ e, car = .cons (.sym .unquoteSplicing) (.cons e .nil) → False) := by
  revert h
  fun_cases read s <;> intro h
  · cases h
  · cases h
  · cases h
    exact ⟨_, _, rfl, rfl, rfl, by assumption, by assumption⟩
  · cases h

/-- What is read as something that stands for itself. -/
theorem of_read_atom {s a : Sexp} (h : read s = .atom a) :
    s = a ∧ ∀ car cdr, s ≠ .cons car cdr := by
  revert h
  fun_cases read s <;> intro h
  · cases h
  · cases h
  · cases h
  · cases h
    exact ⟨rfl, by assumption⟩

/-- `qq-expand` of something spliced that is not the last. -/
theorem qqExpand_splice (e rest : Sexp) (h : rest ≠ .nil) :
    qqExpand (.cons (.cons (.sym .unquoteSplicing) (.cons e .nil)) rest) =
      list [.use .tryBang, list [.use .qqAppend, e, qqExpand rest]] := by
  rw [qqExpand]
  exact h

/-- `qq-expand` of a pair. -/
theorem qqExpand_pair (car cdr : Sexp)
    (h1 : ∀ e, car = .sym .unquote → cdr = .cons e .nil → False)
    (h2 : ∀ e, car = .cons (.sym .unquoteSplicing) (.cons e .nil) → False) :
    qqExpand (.cons car cdr) = list [.use (.s .cons), qqExpand car, qqExpand cdr] := by
  rw [qqExpand]
  · exact h1
  · exact fun e h _ => h2 e h
  · exact h2

/-- `qq-expand` of something that stands for itself. -/
theorem qqExpand_atom (s : Sexp) (h : ∀ car cdr, s ≠ .cons car cdr) :
    qqExpand s = list [.sym .quote, s] := by
  cases s with
  | cons car cdr => exact absurd rfl (h car cdr)
  | _ => rfl

/-- The expansion of a quasi-quotation comes to what fills the template. -/
theorem qqExpand_fills {t : Tmpl} {st : σ} {o : Out} {st' : σ}
    (hf : Fills (Evals h ρ) t st o st') (s : Sexp) (ht : read s = t) :
    Evals h ρ (qqExpand s) st o st' := by
  induction hf generalizing s with
  | atom =>
    obtain ⟨rfl, hc⟩ := of_read_atom ht
    rw [qqExpand_atom _ hc]
    exact evals_quote _ _
  | hole he =>
    rw [of_read_hole ht, qqExpand]
    exact he
  | pair _ _ iha ihd =>
    obtain ⟨car, cdr, ha, hd, rfl, h1, h2⟩ := of_read_pair ht
    rw [qqExpand_pair _ _ h1 h2]
    exact evals_cons (iha _ ha) (ihd _ hd)
  | pairRetCar _ iha =>
    obtain ⟨car, cdr, ha, hd, rfl, h1, h2⟩ := of_read_pair ht
    rw [qqExpand_pair _ _ h1 h2]
    exact evals_cons_ret (iha _ ha)
  | pairRetCdr _ _ iha ihd =>
    obtain ⟨car, cdr, ha, hd, rfl, h1, h2⟩ := of_read_pair ht
    rw [qqExpand_pair _ _ h1 h2]
    exact evals_cons_ret' (iha _ ha) (ihd _ hd)
  | last he =>
    obtain ⟨rest, hr, rfl⟩ := of_read_splice ht
    rw [(read_nil_iff rest).1 hr, qqExpand]
    exact he
  | splice hn he _ ih =>
    obtain ⟨rest, hr, rfl⟩ := of_read_splice ht
    rw [qqExpand_splice _ _ fun h => hn (by rw [← hr, h]; rfl)]
    have := evals_qqAppend he (ih _ hr)
    rw [qqAppend_list] at this
    exact evals_tryBang_ok this
  | spliceNotList hn he hl _ ih =>
    obtain ⟨rest, hr, rfl⟩ := of_read_splice ht
    rw [qqExpand_splice _ _ fun h => hn (by rw [← hr, h]; rfl)]
    have := evals_qqAppend he (ih _ hr)
    rw [qqAppend_notList _ _ hl] at this
    exact evals_tryBang_err this
  | spliceRet hn he =>
    obtain ⟨rest, hr, rfl⟩ := of_read_splice ht
    rw [qqExpand_splice _ _ fun h => hn (by rw [← hr, h]; rfl)]
    exact evals_tryBang_ret (evals_qqAppend_ret he)
  | spliceRetRest hn he _ ih =>
    obtain ⟨rest, hr, rfl⟩ := of_read_splice ht
    rw [qqExpand_splice _ _ fun h => hn (by rw [← hr, h]; rfl)]
    exact evals_tryBang_ret (evals_qqAppend_ret' he (ih _ hr))

end Verif.Macro
