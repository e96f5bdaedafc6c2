import Verif.Macro.Lemmas
import Mathlib.Tactic.SplitIfs

/-!
# What the patterns of `s/match` expand to
-/

namespace Verif.Macro

open Sexp

variable {σ : Type} {h : Host σ} {ρ : Binds}

theorem patGives_const {p : Sexp} {v : Val} {r : Option Binds} (k : Nat)
    (e : ∀ n, patMatch h (n + k) p v = some r) : PatGives h p v r :=
  ⟨k, fun n hn => by
    obtain ⟨n, rfl⟩ := Nat.exists_eq_add_of_le' hn
    exact e n⟩

/-- The macros `s:k` in patterns. -/
theorem patMatch_s1 (n : Nat) (k : Kind) (hk : k.arity = 1) (p v : Sexp) :
    patMatch h (n + 3) (list [.use (.s k), p]) (.sexp v) =
      if (fields v).1 = k then matchAll (patMatch h n) (list [p]) (fields v).2 else some none := by
  cases k <;> first | rfl | cases hk

theorem patMatch_s2 (n : Nat) (k : Kind) (hk : k.arity = 2) (p q v : Sexp) :
    patMatch h (n + 3) (list [.use (.s k), p, q]) (.sexp v) =
      if (fields v).1 = k then matchAll (patMatch h n) (list [p, q]) (fields v).2
      else some none := by
  cases k <;> first | rfl | cases hk

/-- What stands for itself matches only itself. -/
theorem patGives_atom (a v : Sexp) (hc : ∀ car cdr, a ≠ .cons car cdr)
    (hw : a ≠ .sym .wildcard) (hu : ∀ c, a ≠ .use c) :
    PatGives h (expandPat a) (.sexp v) (if v = a then some [] else none) := by
  cases a with
  | cons car cdr => exact absurd rfl (hc car cdr)
  | use c => exact absurd rfl (hu c)
  | nil =>
    refine patGives_const 3 fun n => ?_
    show some (if Val.sexp v = .sexp .nil then some [] else none) = _
    simp
  | integer b k =>
    refine patGives_const 4 fun n => ?_
    show patMatch h (n + 1 + 3) (list [.use (.s .integer), .bool b, .integer false k]) (.sexp v) = _
    rw [patMatch_s2 _ _ rfl]
    cases v <;> simp [fields, matchAll, patMatch, list, listTo]
    split_ifs <;> simp_all
  | fpnumber k =>
    refine patGives_const 4 fun n => ?_
    show patMatch h (n + 1 + 3) (list [.use (.s .fpnumber), .fpnumber k]) (.sexp v) = _
    rw [patMatch_s1 _ _ rfl]
    cases v <;> simp [fields, matchAll, patMatch, list, listTo]
    split_ifs <;> simp_all
  | bool k =>
    refine patGives_const 4 fun n => ?_
    show patMatch h (n + 1 + 3) (list [.use (.s .bool), .bool k]) (.sexp v) = _
    rw [patMatch_s1 _ _ rfl]
    cases v <;> simp [fields, matchAll, patMatch, list, listTo]
    split_ifs <;> simp_all
  | str k =>
    refine patGives_const 4 fun n => ?_
    show patMatch h (n + 1 + 3) (list [.use (.s .string), .str k]) (.sexp v) = _
    rw [patMatch_s1 _ _ rfl]
    cases v <;> simp [fields, matchAll, patMatch, list, listTo]
    split_ifs <;> simp_all
  | char k =>
    refine patGives_const 4 fun n => ?_
    show patMatch h (n + 1 + 3) (list [.use (.s .char), .char k]) (.sexp v) = _
    rw [patMatch_s1 _ _ rfl]
    cases v <;> simp [fields, matchAll, patMatch, list, listTo]
    split_ifs <;> simp_all
  | sym x =>
    refine patGives_const 4 fun n => ?_
    have : expandPat (.sym x) = list [.use (.s .symbol), .str x] := by
      cases x <;> first | rfl | exact absurd rfl hw
    rw [this]
    show patMatch h (n + 1 + 3) (list [.use (.s .symbol), .str x]) (.sexp v) = _
    rw [patMatch_s1 _ _ rfl]
    cases v <;> simp [fields, matchAll, patMatch, list, listTo]
    split_ifs <;> simp_all

/-- `(s:cons p q)` matches nothing but a pair. -/
theorem patGives_cons_not {p q v : Sexp} (hv : ∀ a d, v ≠ .cons a d) :
    PatGives h (list [.use (.s .cons), p, q]) (.sexp v) none := by
  refine patGives_const 3 fun n => ?_
  rw [patMatch_s2 _ _ rfl]
  cases v with
  | cons a d => exact absurd rfl (hv a d)
  | _ => rfl

/-- Two patterns match if each does. -/
def both : Option Binds → Option Binds → Option Binds
  | some b, some c => some (b ++ c)
  | _, _ => none

theorem both_eq_some {r r' : Option Binds} {b : Binds} :
    both r r' = some b ↔ ∃ c d, r = some c ∧ r' = some d ∧ b = c ++ d := by
  cases r <;> cases r' <;> simp [both, eq_comm]

/-- `(s:cons p q)` and a pair. -/
theorem patGives_cons {p q a d : Sexp} {r r' : Option Binds} (hp : PatGives h p (.sexp a) r)
    (hq : PatGives h q (.sexp d) r') :
    PatGives h (list [.use (.s .cons), p, q]) (.sexp (.cons a d)) (both r r') := by
  obtain ⟨n1, hp⟩ := hp
  obtain ⟨n2, hq⟩ := hq
  refine ⟨n1 + n2 + 3, fun n hn => ?_⟩
  obtain ⟨n, rfl⟩ : ∃ m, n = m + 3 := ⟨n - 3, by omega⟩
  have e1 := hp n (by omega)
  have e2 := hq n (by omega)
  rw [patMatch_s2 _ _ rfl]
  cases r <;> cases r' <;> simp [fields, matchAll, list, listTo, e1, e2, both]

/-- `expand-pat` of a pair. -/
theorem expandPat_pair (car cdr : Sexp)
    (h1 : ∀ e, car = .sym .unquote → cdr = .cons e .nil → False)
    (h2 : ∀ e, car = .cons (.sym .unquoteSplicing) (.cons e .nil) → False) :
    expandPat (.cons car cdr) = list [.use (.s .cons), expandPat car, expandPat cdr] := by
  rw [expandPat]
  · exact fun x h => h1 _ h
  · exact h1
  · exact fun x h _ => h2 _ h
  · exact fun e h _ => h2 e h

/-- `expand-pat` of `,p`. -/
theorem expandPat_hole (p : Sexp) (hp : ∀ x, p ≠ .sym x) :
    expandPat (.cons (.sym .unquote) (.cons p .nil)) = p := by
  cases p with
  | sym x => exact absurd rfl (hp x)
  | _ => rfl

/-- `expand-pat` of `(,@p)`. -/
theorem expandPat_splice (p : Sexp) (hp : ∀ x, p ≠ .sym x) :
    expandPat (.cons (.cons (.sym .unquoteSplicing) (.cons p .nil)) .nil) = p := by
  cases p with
  | sym x => exact absurd rfl (hp x)
  | _ => rfl

theorem patGives_let (x : Text) (v : Val) :
    PatGives h (list [.sym .letS, .sym x]) v (some [(x, v)]) :=
  patGives_const 1 fun _ => rfl

theorem patGives_unique {p : Sexp} {v : Val} {r r' : Option Binds} (h1 : PatGives h p v r)
    (h2 : PatGives h p v r') : r = r' := by
  obtain ⟨n1, h1⟩ := h1
  obtain ⟨n2, h2⟩ := h2
  have e1 := h1 (n1 + n2) (by omega)
  have e2 := h2 (n1 + n2) (by omega)
  exact Option.some.inj (e1.symm.trans e2)

/-- The pattern that a template expands to matches exactly what fits the template, if the
patterns of the language in it can be matched with anything. -/
theorem expandPat_fits (t : Tmpl) (s : Sexp) (ht : read s = t) (hl : SplicesLast t)
    (hs : ∀ p ∈ subpatterns t, ∀ v, ∃ r, PatGives h p (.sexp v) r) (v : Sexp) :
    ∃ r, PatGives h (expandPat s) (.sexp v) r ∧
      ∀ b, r = some b ↔ Fits (fun p v b => PatGives h p (.sexp v) (some b)) t v b := by
  induction t generalizing s v with
  | atom a =>
    obtain ⟨rfl, hc⟩ := of_read_atom ht
    by_cases hw : s = .sym .wildcard
    · subst hw
      refine ⟨some [], patGives_const 1 fun _ => rfl, fun b => ⟨?_, ?_⟩⟩
      · rintro ⟨⟩
        exact .wildcard
      · intro hf
        cases hf with
        | wildcard => rfl
        | atom hn => exact absurd rfl hn
    by_cases hu : ∃ c, s = .use c
    · obtain ⟨c, rfl⟩ := hu
      obtain ⟨r, hr⟩ := hs (.use c) (by simp [subpatterns]) v
      refine ⟨r, hr, fun b => ⟨?_, ?_⟩⟩
      · rintro rfl
        exact .use hr
      · intro hf
        cases hf with
        | atom _ hn => exact absurd rfl (hn c)
        | use hp => exact patGives_unique hr hp
    · have hu' : ∀ c, s ≠ .use c := fun c e => hu ⟨c, e⟩
      refine ⟨_, patGives_atom s v hc hw hu', fun b => ⟨?_, ?_⟩⟩
      · intro e
        by_cases hv : v = s
        · rw [if_pos hv] at e
          cases e
          subst hv
          exact .atom hw hu'
        · rw [if_neg hv] at e
          cases e
      · intro hf
        cases hf with
        | wildcard => exact absurd rfl hw
        | atom => simp
        | use => exact absurd rfl (hu' _)
  | hole p =>
    rw [of_read_hole ht]
    by_cases hp : ∃ x, p = .sym x
    · obtain ⟨x, rfl⟩ := hp
      refine ⟨_, patGives_let x _, fun b => ⟨?_, ?_⟩⟩
      · rintro ⟨⟩
        exact .var
      · intro hf
        cases hf with
        | var => rfl
        | pat hn => exact absurd rfl (hn x)
    · have hp' : ∀ x, p ≠ .sym x := fun x e => hp ⟨x, e⟩
      obtain ⟨r, hr⟩ := hs p (by
        cases p with
        | sym x => exact absurd rfl (hp' x)
        | _ => simp [subpatterns]) v
      rw [expandPat_hole p hp']
      refine ⟨r, hr, fun b => ⟨?_, ?_⟩⟩
      · rintro rfl
        exact .pat hp' hr
      · intro hf
        cases hf with
        | var => exact absurd rfl (hp' _)
        | pat _ hb => exact patGives_unique hr hb
  | splice p rest ih =>
    obtain ⟨rest, hr, rfl⟩ := of_read_splice ht
    obtain rfl : _ = Tmpl.atom .nil := hl
    obtain rfl := (read_nil_iff rest).1 hr
    by_cases hp : ∃ x, p = .sym x
    · obtain ⟨x, rfl⟩ := hp
      refine ⟨_, patGives_let x _, fun b => ⟨?_, ?_⟩⟩
      · rintro ⟨⟩
        exact .lastVar
      · intro hf
        cases hf with
        | lastVar => rfl
        | lastPat hn => exact absurd rfl (hn x)
        | spliceVar hn => exact absurd rfl hn
        | splicePat hn => exact absurd rfl hn
    · have hp' : ∀ x, p ≠ .sym x := fun x e => hp ⟨x, e⟩
      obtain ⟨r, hr⟩ := hs p (by
        cases p with
        | sym x => exact absurd rfl (hp' x)
        | _ => simp [subpatterns]) v
      rw [expandPat_splice p hp']
      refine ⟨r, hr, fun b => ⟨?_, ?_⟩⟩
      · rintro rfl
        exact .lastPat hp' hr
      · intro hf
        cases hf with
        | lastVar => exact absurd rfl (hp' _)
        | lastPat _ hb => exact patGives_unique hr hb
        | spliceVar hn => exact absurd rfl hn
        | splicePat hn => exact absurd rfl hn
  | pair a d iha ihd =>
    obtain ⟨car, cdr, ha, hd, rfl, h1, h2⟩ := of_read_pair ht
    rw [expandPat_pair _ _ h1 h2]
    by_cases hv : ∃ x y, v = .cons x y
    · obtain ⟨x, y, rfl⟩ := hv
      obtain ⟨r, hr, er⟩ := iha car ha hl.1 (fun p hp => hs p (by simp [subpatterns, hp])) x
      obtain ⟨r', hr', er'⟩ := ihd cdr hd hl.2 (fun p hp => hs p (by simp [subpatterns, hp])) y
      refine ⟨_, patGives_cons hr hr', fun b => ⟨?_, ?_⟩⟩
      · intro e
        obtain ⟨c, d, rfl, rfl, rfl⟩ := both_eq_some.1 e
        exact .pair ((er _).1 rfl) ((er' _).1 rfl)
      · intro hf
        cases hf with
        | pair hf hf' =>
          rw [(er _).2 hf, (er' _).2 hf']
          rfl
    · refine ⟨none, patGives_cons_not fun x y e => hv ⟨x, y, e⟩, fun b => ⟨?_, ?_⟩⟩
      · rintro ⟨⟩
      · intro hf
        cases hf with
        | pair => exact absurd ⟨_, _, rfl⟩ hv

end Verif.Macro
