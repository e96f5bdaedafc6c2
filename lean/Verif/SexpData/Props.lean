import Verif.Parser.Props
import Verif.SexpData.Display

/-!
# C80 and C81: S-expressions that are handed to macros
-/

namespace Verif.SexpData

variable {L F U : Type}

/-- C80: a macro gets the S-expression that is there in the program. -/
theorem fromHost_same (s : Host L F U) (h : s.Ok) :
    ∃ c, Same s c ∧ ∃ n0, ∀ n, n0 ≤ n → fromHost n s = some c :=
  ⟨toCells s, same_toCells s h, gives_toCells s h⟩

theorem fromHost_mono (n : Nat) (s : Host L F U) (c : Cell L F U) (hc : fromHost n s = some c)
    (k : Nat) : fromHost (n + k) s = some c := by
  induction n generalizing s c with
  | zero => simp [fromHost] at hc
  | succ n ih =>
    rw [Nat.add_right_comm]
    unfold fromHost at hc ⊢
    split at hc <;> try (simp_all; done)
    split at hc
    · simp at hc
    · rename_i h1
      split at hc
      · simp at hc
      · rename_i h2
        simp only [*, ih _ _ h1, ih _ _ h2]

theorem fromHost_unique {n : Nat} {s : Host L F U} {c d : Cell L F U} (hc : fromHost n s = some c)
    (hd : Gives s d) : c = d := by
  obtain ⟨n0, hd⟩ := hd
  have h1 := fromHost_mono n s c hc n0
  rw [hd (n + n0) (by omega)] at h1
  exact (Option.some.inj h1).symm

/-- C80: what a macro gives back as it is, is what it got, with all locations. -/
theorem host_roundtrip (s : Host L F U) (h : s.Ok) (n : Nat) (c : Cell L F U)
    (hc : fromHost n s = some c) : intoHost c = s := by
  rw [fromHost_unique hc (gives_toCells s h), into_toCells s h]

/-- C80: what a macro made becomes an S-expression of the compiler, and this is again the same
cells; only the locations of the cells after the first one of a list are lost. -/
theorem cell_roundtrip (c : Cell L F U) :
    (intoHost c).Ok ∧ Same (intoHost c) (c.relocated none) ∧
      ∃ n0, ∀ n, n0 ≤ n → fromHost n (intoHost c) = some (c.relocated none) := by
  have e : toCells (intoHost c) = c.relocated none := by
    rw [← toCells_into]
    cases intoHost c <;> rfl
  refine ⟨ok_into c, ?_, ?_⟩
  · rw [← e]
    exact same_toCells _ (ok_into c)
  · rw [← e]
    exact gives_toCells _ (ok_into c)

/-- C80: different S-expressions of the compiler are different for a macro. -/
theorem fromHost_injective (s t : Host L F U) (hs : s.Ok) (ht : t.Ok) (n m : Nat) (c : Cell L F U)
    (h1 : fromHost n s = some c) (h2 : fromHost m t = some c) : s = t := by
  rw [← host_roundtrip s hs n c h1, host_roundtrip t ht m c h2]

/-- C80: a list and its cells. -/
example : fromHost 9 (.list 1 [.symbol 2 ['f'], .listLike 3 (.integer 4 false 5) [] (.bool 6 true)] :
    Host Nat Unit Unit) =
    some (.cons 1 (.symbol 2 ['f']) (.cons 1 (.cons 3 (.integer 4 false 5) (.bool 6 true)) (.nil 1))) :=
  rfl

/-- C80: the locations 2 and 3 are lost. -/
example : (Cell.cons 1 (.bool 5 true) (.cons 2 (.bool 6 true) (.nil 3)) : Cell Nat Unit Unit).relocated
    none = .cons 1 (.bool 5 true) (.cons 1 (.bool 6 true) (.nil 1)) := rfl

/-- A native value that is not a captured use panics. -/
theorem foreign_panics (l : L) (n : Nat) : fromHost n (.native l : Host L F U) = none := by
  cases n <;> rfl

/-- C80: a dotted list built with `SexpRep::list_like` is what `SexpRep::cons` builds element by element,
whatever follows the dot; nothing is lost, and no list stays after a dot. -/
theorem hostListLike_conses (l : L) (h : Host L F U) (i : List (Host L F U)) (t : Host L F U) :
    hostListLike l h i t = hostCons l h (i.foldr (hostCons l) t) := by
  induction i generalizing h with
  | nil => cases t <;> rfl
  | cons x xs ih =>
    rw [List.foldr_cons, ← ih x]
    cases t <;> simp [hostListLike, hostCons]

/-- C80: and it is a well-formed S-expression. -/
theorem hostListLike_ok (l : L) (h : Host L F U) (i : List (Host L F U)) (t : Host L F U) (hh : h.Ok)
    (hi : ∀ x ∈ i, x.Ok) (ht : t.Ok) : (hostListLike l h i t).Ok := by
  rw [hostListLike_conses]
  apply ok_hostCons l _ _ hh
  induction i with
  | nil => exact ht
  | cons x xs ih => exact ok_hostCons l _ _ (hi x (by simp)) (ih fun y hy => hi y (by simp [hy]))

/-- `(a b . (c . d))` is `(a b c . d)`. -/
example : hostListLike () (.symbol () ['a']) [.symbol () ['b']]
    (.listLike () (.symbol () ['c']) [] (.symbol () ['d']) : Host Unit Unit Unit) =
    .listLike () (.symbol () ['a']) [.symbol () ['b'], .symbol () ['c']] (.symbol () ['d']) := rfl

variable {showF64 printF64 : F → List Char} {useText : U → List Char}

/-- C81, partial: the standard library writes an S-expression as the compiler does. Missing: the
lists of `OddTry`, which the theorems below show to be written differently, and captured uses. -/
theorem display_text_partial (s : Host L F U) (ho : s.Ok) (hp : s.Plain showF64 printF64 useText)
    (n : Nat) (c : Cell L F U) (hc : fromHost n s = some c) :
    ∃ n0, ∀ k, n0 ≤ k → display showF64 k c = some ((s.erase useText).text printF64) := by
  rw [fromHost_unique hc (gives_toCells s ho)]
  exact shows_text s ho hp

/-- C81: so it is read back, if the compiler would read its own text back (C44). -/
theorem display_parse_partial {parseF64 : List Char → Option F} (hP : Parser.Punct parseF64)
    (s : Host L F U) (ho : s.Ok) (hp : s.Plain showF64 printF64 useText)
    (hf : Parser.Spec.Faithful parseF64 printF64 (s.erase useText))
    (n : Nat) (c : Cell L F U) (hc : fromHost n s = some c) :
    ∃ text, (∃ n0, ∀ k, n0 ≤ k → display showF64 k c = some text) ∧
      Parser.ReadsAs parseF64 text [s.erase useText] :=
  ⟨_, display_text_partial s ho hp n c hc, Parser.print_parse_partial hP _ hf⟩

/-- `(try? ())`: the compiler writes `()?`, the standard library `(try? ())`. -/
theorem try_nil_differs : ∃ s : Host Unit Unit Unit, s.Ok ∧
    (s.erase fun _ => []).text (fun _ => []) = "()?".toList ∧
    ∃ c, fromHost 9 s = some c ∧ display (fun _ => []) 9 c = some "(try? ())".toList :=
  ⟨.list () [.symbol () "try?".toList, .list () []], by simp [Host.Ok, Host.OkAll],
    by decide +kernel, _, rfl, by decide +kernel⟩

/-- `(try! (a . b))`: the compiler writes `(try! (a . b))`, the standard library `(a . b)!`. -/
theorem try_dotted_differs : ∃ s : Host Unit Unit Unit, s.Ok ∧
    (s.erase fun _ => []).text (fun _ => []) = "(try! (a . b))".toList ∧
    ∃ c, fromHost 9 s = some c ∧ display (fun _ => []) 9 c = some "(a . b)!".toList :=
  ⟨.list () [.symbol () "try!".toList, .listLike () (.symbol () ['a']) [] (.symbol () ['b'])],
    by simp [Host.Ok, Host.OkAll, Host.isList], by decide +kernel, _, rfl, by decide +kernel⟩

/-- Abbreviations, strings, annotations and dots. -/
def demo : Host Unit Unit Unit :=
  .list () [.symbol () "annotate".toList,
    .list () [.symbol () "try?".toList,
      .list () [.symbol () ['f'], .list () [.symbol () "quote".toList, .string () ['a', '"']],
        .integer () true (2 ^ 64 - 7)]],
    .symbol () ['T'], .listLike () (.symbol () ['x']) [.bool () true] (.char () '\n')]

example : demo.Ok ∧ (∃ c, fromHost 20 demo = some c ∧
    display (fun _ => []) 20 c = some "(f '\"a\\\"\" -7)? {T (x #t . #\\\\n)}".toList) ∧
    (demo.erase fun _ => []).text (fun _ => []) =
      "(f '\"a\\\"\" -7)? {T (x #t . #\\\\n)}".toList :=
  ⟨by simp [demo, Host.Ok, Host.OkAll, Host.isList], ⟨_, rfl, by decide +kernel⟩, by decide +kernel⟩

end Verif.SexpData
