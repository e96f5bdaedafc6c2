/-!
# Exhaustiveness and usefulness of match clauses (llrl0/src/pattern_matching, module/sema/validator.rs)

Simplifications: `Rc<[FiniteCon]>` is a list; node ids are numbers; floating point constants are represented by a number
standing for the `OrderedFloat` value; `BTreeSet<&Tag>` is a strictly ascending list with respect to an arbitrary lawful
order `cmp` (the derived order is only used to fix the order of iteration).  `debug_assert!`s are not modelled.
A panic is `none`.
-/
namespace Verif.PatMatch

/-- llrl0/src/ast/consts.rs:6-13 `Const`; a `SyntaxSexp` never occurs in patterns (asserted, validator.rs:122-126), its content
is left out. -/
inductive Const where
  | integer (signed : Bool) (v : Nat)
  | fp (v : Nat)
  | string (s : String)
  | char (c : Char)
  | syntaxSexp
  deriving DecidableEq, Repr

/-- llrl0/src/pattern_matching/pattern.rs:98-102 `FiniteCon`. -/
structure FiniteCon where
  use : Nat
  arity : Nat
  deriving DecidableEq, Repr

/-- pattern.rs:54-58 `Tag`. -/
inductive Tag where
  | const (c : Const)
  | finite (con : FiniteCon) (siblings : List FiniteCon)
  deriving DecidableEq, Repr

/-- pattern.rs:8-12 `Pattern`. -/
inductive Pat where
  | con (tag : Tag) (ps : List Pat)
  | wild
  deriving Repr

/-- row.rs:5-8 `Row`, matrix.rs:4-7 `Matrix`. -/
abbrev Row := List Pat
abbrev Matrix := List Row

/-- pattern.rs:61-66 `Tag::arity`. -/
def Tag.arity : Tag → Nat
  | .const _ => 0
  | .finite c _ => c.arity

/-- pattern.rs:68-73 `Tag::sibling_count`. -/
def Tag.siblingCount : Tag → Option Nat
  | .const _ => none
  | .finite _ cs => some cs.length

/-- pattern.rs:104-110 `FiniteCon::tags`. -/
def FiniteCon.tags (cons : List FiniteCon) : List Tag := cons.map fun c => .finite c cons

/-- pattern.rs:75-80 `Tag::siblings`. -/
def Tag.siblings : Tag → Option (List Tag)
  | .const _ => none
  | .finite _ cs => some (FiniteCon.tags cs)

/-- pattern.rs:82-87 `Tag::is_complete`. -/
def isComplete : List Tag → Bool
  | [] => false
  | t :: ts => t.siblingCount == some (t :: ts).length

mutual
/-- pattern.rs:22-33 `Pattern::is_incompatible_with`. -/
def Pat.incompatible : Pat → Pat → Bool
  | .con ta pa, .con tb pb => ta != tb || incompatibleL pa pb
  | _, _ => false
/-- row.rs:31-37 `Row::is_incompatible_with`; also the `zip`/`any` of pattern.rs:26-29. -/
def incompatibleL : List Pat → List Pat → Bool
  | a :: as, b :: bs => a.incompatible b || incompatibleL as bs
  | _, _ => false
end

/-- row.rs:67-84 `Row::specialize`. -/
def Row.specialize (tag : Tag) : Row → Option Row
  | [] => none
  | .con t ps :: row => if t = tag then some (ps ++ row) else none
  | .wild :: row => some (List.replicate tag.arity .wild ++ row)

/-- row.rs:86-89 `Row::restore_specialized`. -/
def Row.restore (tag : Tag) (row : Row) : Row := .con tag (row.take tag.arity) :: row.drop tag.arity

/-- row.rs:91-101 `Row::defaults`. -/
def Row.defaults : Row → Option Row
  | .wild :: row => some row
  | _ => none

/-- matrix.rs:167-173 `Matrix::specialize`. -/
def specialize (m : Matrix) (tag : Tag) : Matrix := m.filterMap (Row.specialize tag)

/-- matrix.rs:181-187 `Matrix::defaults`. -/
def defaults (m : Matrix) : Matrix := m.filterMap Row.defaults

/-- Insertion into the ordered set of tags (`BTreeSet::insert`). -/
def insertTag (cmp : Tag → Tag → Ordering) (t : Tag) : List Tag → List Tag
  | [] => [t]
  | u :: us =>
    match cmp t u with
    | .lt => t :: u :: us
    | .eq => u :: us
    | .gt => u :: insertTag cmp t us

/-- row.rs:39-43 `Row::collect_head_tags` (with pattern.rs:35-42). -/
def Row.headTag (cmp : Tag → Tag → Ordering) (set : List Tag) : Row → List Tag
  | .con t _ :: _ => insertTag cmp t set
  | _ => set

/-- matrix.rs:54-59 `Matrix::collect_head_tags`. -/
def headTags (cmp : Tag → Tag → Ordering) (m : Matrix) : List Tag := m.foldl (Row.headTag cmp) []

/-! Termination measure of the two recursions: the number of constructors in the patterns. -/

mutual
def Pat.size : Pat → Nat
  | .con _ ps => 1 + sizeL ps
  | .wild => 0
def sizeL : List Pat → Nat
  | [] => 0
  | p :: ps => p.size + sizeL ps
end

def sizeM : Matrix → Nat
  | [] => 0
  | r :: m => sizeL r + sizeM m

theorem sizeL_append (a b : List Pat) : sizeL (a ++ b) = sizeL a + sizeL b := by
  induction a with
  | nil => simp [sizeL]
  | cons p a ih => simp only [List.cons_append, sizeL, ih]; omega

theorem sizeL_wild (n : Nat) : sizeL (List.replicate n .wild) = 0 := by
  induction n with
  | zero => rfl
  | succ n ih => simp only [List.replicate_succ, sizeL, Pat.size, ih]

theorem specialize_size_row {t : Tag} {r r' : Row} (h : Row.specialize t r = some r') : sizeL r' ≤ sizeL r := by
  cases r with
  | nil => cases h
  | cons p r =>
    cases p with
    | wild => simp only [Row.specialize, Option.some.injEq] at h; subst h; simp [sizeL_append, sizeL_wild, sizeL, Pat.size]
    | con u ps =>
      simp only [Row.specialize] at h
      split at h
      · simp only [Option.some.injEq] at h; subst h; simp only [sizeL_append, sizeL, Pat.size]; omega
      · cases h

theorem specialize_size (m : Matrix) (t : Tag) : sizeM (specialize m t) ≤ sizeM m := by
  induction m with
  | nil => exact Nat.le_refl _
  | cons r m ih =>
    simp only [specialize, List.filterMap_cons] at ih ⊢
    cases h : Row.specialize t r with
    | none => simp only [sizeM]; omega
    | some r' => simp only [sizeM]; have := specialize_size_row h; omega

theorem specialize_size_lt {m : Matrix} {t u : Tag} {ps : List Pat} {r : Row} (h : (.con u ps :: r) ∈ m) :
    sizeM (specialize m t) < sizeM m := by
  induction m with
  | nil => cases h
  | cons q m ih =>
    simp only [specialize, List.filterMap_cons]
    rcases List.mem_cons.1 h with h | h
    · subst h
      have hm := specialize_size m t
      simp only [specialize] at hm
      by_cases htu : u = t
      · simp only [Row.specialize, if_pos htu, sizeM, sizeL, sizeL_append, Pat.size]; omega
      · simp only [Row.specialize, if_neg htu, sizeM, sizeL, Pat.size]; omega
    · have := ih h
      simp only [specialize] at this
      cases hq : Row.specialize t q with
      | none => simp only [sizeM]; omega
      | some q' => simp only [sizeM]; have := specialize_size_row hq; omega

theorem defaults_size (m : Matrix) : sizeM (defaults m) ≤ sizeM m := by
  induction m with
  | nil => exact Nat.le_refl _
  | cons r m ih =>
    simp only [defaults, List.filterMap_cons] at ih ⊢
    match r with
    | [] => simp only [Row.defaults, sizeM]; omega
    | .wild :: r => simp only [Row.defaults, sizeM, sizeL, Pat.size]; omega
    | .con _ _ :: r => simp only [Row.defaults, sizeM]; omega

theorem mem_insertTag_imp {cmp : Tag → Tag → Ordering} {t u : Tag} {l : List Tag} (h : u ∈ insertTag cmp t l) : u = t ∨ u ∈ l := by
  induction l with
  | nil => simpa [insertTag] using h
  | cons a l ih =>
    simp only [insertTag] at h
    split at h
    · simpa using h
    · exact .inr h
    · rcases List.mem_cons.1 h with h | h
      · exact .inr (by simp [h])
      · rcases ih h with h | h
        · exact .inl h
        · exact .inr (by simp [h])

theorem headTags_head' {cmp : Tag → Tag → Ordering} {m : Matrix} {s : List Tag} {t : Tag} (h : t ∈ m.foldl (Row.headTag cmp) s) :
    t ∈ s ∨ ∃ ps r, (.con t ps :: r) ∈ m := by
  induction m generalizing s with
  | nil => exact .inl h
  | cons q m ih =>
    simp only [List.foldl_cons] at h
    rcases ih h with h | ⟨ps, r, h⟩
    · match q with
      | [] => exact .inl h
      | .wild :: _ => exact .inl h
      | .con u ps :: r =>
        simp only [Row.headTag] at h
        rcases mem_insertTag_imp h with h | h
        · subst h; exact .inr ⟨ps, r, by simp⟩
        · exact .inl h
    · exact .inr ⟨ps, r, by simp [h]⟩

theorem headTags_head {cmp : Tag → Tag → Ordering} {m : Matrix} {t : Tag} (h : t ∈ headTags cmp m) : ∃ ps r, (.con t ps :: r) ∈ m := by
  rcases headTags_head' h with h | h
  · cases h
  · exact h

/-- matrix.rs:79-114 `Matrix::compute_usefulness`. -/
def useful (cmp : Tag → Tag → Ordering) (m : Matrix) (row : Row) : Bool :=
  if m.isEmpty then true
  else
    match row with
    | [] => false
    | .con tag ps :: row => useful cmp (specialize m tag) (ps ++ row)
    | .wild :: row =>
      if isComplete (headTags cmp m) then
        (headTags cmp m).attach.any fun ⟨t, _⟩ => useful cmp (specialize m t) (List.replicate t.arity .wild ++ row)
      else useful cmp (defaults m) row
termination_by (sizeM m + sizeL row, row.length)
decreasing_by
  · have := specialize_size m tag
    simp only [sizeL_append, sizeL, Pat.size]
    exact Prod.Lex.left _ _ (by omega)
  · next ht =>
    obtain ⟨qs, r, hm⟩ := headTags_head ht
    have := specialize_size_lt (t := t) hm
    simp only [sizeL_append, sizeL, Pat.size, sizeL_wild]
    exact Prod.Lex.left _ _ (by omega)
  · have := defaults_size m
    simp only [sizeL, Pat.size]
    rcases Nat.lt_or_eq_of_le this with h | h
    · exact Prod.Lex.left _ _ (by omega)
    · rw [h, Nat.zero_add]; exact Prod.Lex.right _ (by simp)

/-- matrix.rs:137-150: the heads put before the missing tails of an incomplete column. -/
def missingHeads (tags : List Tag) : List Pat :=
  match tags with
  | [] => [.wild]
  | t :: _ =>
    match t.siblings with
    | none => [.wild]
    | some sibs => (sibs.filter fun s => !(tags.contains s)).map fun s => .con s (List.replicate s.arity .wild)

/-- matrix.rs:116-165 `Matrix::compute_missing`. -/
def missing (cmp : Tag → Tag → Ordering) (m : Matrix) (columns : Nat) : Matrix :=
  match m with
  | [] => [List.replicate columns .wild]
  | [] :: _ => []
  | (p :: r) :: m' =>
    if isComplete (headTags cmp ((p :: r) :: m')) then
      (headTags cmp ((p :: r) :: m')).attach.flatMap fun ⟨t, _⟩ =>
        (missing cmp (specialize ((p :: r) :: m') t) (columns + t.arity - 1)).map (Row.restore t)
    else
      match columns with
      | 0 => []  -- unreachable: the columns are those of the matrix (`column_len - 1` would underflow)
      | columns + 1 =>
        (missing cmp (defaults ((p :: r) :: m')) columns).flatMap fun tail =>
          (missingHeads (headTags cmp ((p :: r) :: m'))).map fun head => head :: tail
termination_by (sizeM m, columns)
decreasing_by
  · next ht =>
    obtain ⟨qs, r', hm⟩ := headTags_head ht
    have := specialize_size_lt (t := t) hm
    exact Prod.Lex.left _ _ (by assumption)
  · have := defaults_size ((p :: r) :: m')
    rcases Nat.lt_or_eq_of_le this with h | h
    · exact Prod.Lex.left _ _ h
    · rw [h]; exact Prod.Lex.right _ (by simp)

/-- pattern_matching.rs:33-41 `useless_check`. -/
def uselessCheck (cmp : Tag → Tag → Ordering) (m : Matrix) (row : Row) : Except Row Matrix :=
  let related := m.filter fun r => !(incompatibleL r row)
  if useful cmp related row then .ok (m.filter (fun r => useful cmp [row] r) ++ [row])
  else .error row

/-- pattern_matching.rs:43-46 `exhaustiveness_check`. -/
def exhaustivenessCheck (cmp : Tag → Tag → Ordering) (m : Matrix) : Matrix :=
  missing cmp m (match m with | [] => 0 | r :: _ => r.length)

/-- pattern_matching.rs:16-20 `Error`. -/
inductive Error where
  | useless (row : Row)
  | nonExhaustive (m : Matrix)

/-- pattern_matching.rs:24-26: the loop of `check`. -/
def checkRows (cmp : Tag → Tag → Ordering) (m : Matrix) : List Row → Except Row Matrix
  | [] => .ok m
  | r :: rs =>
    match uselessCheck cmp m r with
    | .error r => .error r
    | .ok m => checkRows cmp m rs

/-- pattern_matching.rs:22-31 `check`. -/
def check (cmp : Tag → Tag → Ordering) (rows : List Row) : Except Error Unit :=
  match checkRows cmp [] rows with
  | .error r => .error (.useless r)
  | .ok m =>
    match exhaustivenessCheck cmp m with
    | [] => .ok ()
    | miss => .error (.nonExhaustive miss)

/-! ## From the patterns of the AST (validator.rs) -/

/-- llrl0/src/ast/pattern.rs:32-38 `PatternRep` with `PatternVar` (`as` is a variable with `as_pat`) and `PatternDecon`
(absent `fields` are the empty list, as at validator.rs:111-115). -/
inductive SPat where
  | var (id : Nat)
  | as (id : Nat) (p : SPat)
  | wild
  | decon (use : Nat) (fields : List SPat)
  | const (c : Const)
  deriving Repr

/-- What validator.rs asks the module set: the type constructor of a value constructor (validator.rs:89-92) and the value
constructors of a type constructor (validator.rs:65-81). -/
structure Decls where
  typeOf : Nat → Option Nat
  consOf : Nat → List FiniteCon

/-- validator.rs:84-101 `tag_of`; the caches are left out (they memoize a pure function). -/
def tagOf (d : Decls) (use : Nat) : Option Tag :=
  (d.typeOf use).bind fun tc => ((d.consOf tc).find? fun c => c.use = use).map fun c => .finite c (d.consOf tc)

mutual
/-- validator.rs:103-130 `simplify_pattern`. -/
def simplify (d : Decls) : SPat → Option Pat
  | .var _ => some .wild
  | .as _ p => simplify d p
  | .wild => some .wild
  | .decon use fields =>
    match simplifyL d fields with
    | none => none
    | some ps => (tagOf d use).map fun t => .con t ps
  | .const .syntaxSexp => none
  | .const c => some (.con (.const c) [])
def simplifyL (d : Decls) : List SPat → Option (List Pat)
  | [] => some []
  | p :: ps =>
    match simplify d p, simplifyL d ps with
    | some p, some ps => some (p :: ps)
    | _, _ => none
end

/-- The two errors of validator.rs:41-62. -/
inductive VError where
  | useless (p : Pat)
  | nonExhaustive (ps : List Pat)

/-- `Row::take_head().unwrap()` on every row. -/
def heads : Matrix → Option (List Pat)
  | [] => some []
  | [] :: _ => none
  | (p :: _) :: m => (heads m).map (p :: ·)

/-- validator.rs:41-63 `validate_match`. -/
def validateMatch (cmp : Tag → Tag → Ordering) (d : Decls) (clauses : List SPat) : Option (Except VError Unit) :=
  match simplifyL d clauses with
  | none => none
  | some rows =>
    match rows with
    | [] => some (.error (.nonExhaustive [.wild]))
    | p :: ps =>
      match check cmp ((p :: ps).map fun p => [p]) with
      | .ok () => some (.ok ())
      | .error (.useless (p :: _)) => some (.error (.useless p))
      | .error (.useless []) => none
      | .error (.nonExhaustive m) => (heads m).map fun ps => .error (.nonExhaustive ps)

end Verif.PatMatch
