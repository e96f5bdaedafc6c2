import Verif.PatMatch.Spec
import Verif.Util.Lists
/-!
# Matching of simplified patterns
-/
namespace Verif.PatMatch

open Spec

variable {Ty Lit : Type}

/-- A tag of a type, with the types of its fields. -/
inductive TagTy (S : Sig Ty Lit) : Ty → Tag → List Ty → Prop
  | const {τ dom den c x} (hs : S.shape τ = .atom dom den) (hc : den c = some x) (hx : dom x) : TagTy S τ (.const c) []
  | finite {τ cons c τs} (hs : S.shape τ = .data cons) (hc : (c, τs) ∈ cons) : TagTy S τ (.finite c (cons.map (·.1))) τs

mutual
inductive PTyped (S : Sig Ty Lit) : Ty → Pat → Prop
  | wild {τ} : PTyped S τ .wild
  | con {τ t τs ps} (ht : TagTy S τ t τs) (h : PTypedL S τs ps) : PTyped S τ (.con t ps)
inductive PTypedL (S : Sig Ty Lit) : List Ty → List Pat → Prop
  | nil : PTypedL S [] []
  | cons {τ τs p ps} (h : PTyped S τ p) (hs : PTypedL S τs ps) : PTypedL S (τ :: τs) (p :: ps)
end

mutual
def Pat.consts : Pat → List Const
  | .wild => []
  | .con (.const c) ps => c :: constsL ps
  | .con (.finite _ _) ps => constsL ps
def constsL : List Pat → List Const
  | [] => []
  | p :: ps => Pat.consts p ++ constsL ps
end

def constsM : Matrix → List Const
  | [] => []
  | r :: m => constsL r ++ constsM m

theorem constsL_append (a b : List Pat) : constsL (a ++ b) = constsL a ++ constsL b := by
  induction a with
  | nil => rfl
  | cons p a ih => simp only [List.cons_append, constsL, ih, List.append_assoc]

theorem constsL_wild (n : Nat) : constsL (List.replicate n .wild) = [] := by
  induction n with
  | zero => rfl
  | succ n ih => simp [List.replicate_succ, constsL, Pat.consts, ih]

theorem mem_constsM {m : Matrix} {c : Const} : c ∈ constsM m ↔ ∃ r ∈ m, c ∈ constsL r := by
  induction m with
  | nil => simp [constsM]
  | cons r m ih => simp [constsM, ih]

/-! ## Sets of tags -/

section tags
variable {cmp : Tag → Tag → Ordering} [Std.TransCmp cmp] [Std.LawfulEqCmp cmp]

theorem mem_insertTag {t u : Tag} {l : List Tag} : u ∈ insertTag cmp t l ↔ u = t ∨ u ∈ l := by
  refine ⟨mem_insertTag_imp, ?_⟩
  induction l with
  | nil => simp [insertTag]
  | cons a l ih =>
    simp only [insertTag]
    intro h
    split
    · simpa using h
    · next heq =>
      have := Std.LawfulEqCmp.eq_of_compare heq
      rcases h with h | h
      · subst h; subst this; simp
      · exact h
    · rcases h with h | h
      · exact List.mem_cons.2 (.inr (ih (.inl h)))
      · rcases List.mem_cons.1 h with h | h
        · simp [h]
        · exact List.mem_cons.2 (.inr (ih (.inr h)))

theorem insertTag_sorted {t : Tag} {l : List Tag} (h : l.Pairwise fun a b => cmp a b = .lt) :
    (insertTag cmp t l).Pairwise fun a b => cmp a b = .lt := by
  induction l with
  | nil => simp [insertTag]
  | cons a l ih =>
    have ⟨h1, h2⟩ := List.pairwise_cons.1 h
    simp only [insertTag]
    split
    · next hlt =>
      refine List.pairwise_cons.2 ⟨?_, h⟩
      intro b hb
      rcases List.mem_cons.1 hb with hb | hb
      · subst hb; exact hlt
      · exact Std.TransCmp.lt_trans hlt (h1 b hb)
    · exact h
    · next hgt =>
      refine List.pairwise_cons.2 ⟨?_, ih h2⟩
      intro b hb
      rcases mem_insertTag_imp hb with hb | hb
      · subst hb; exact Std.OrientedCmp.gt_iff_lt.1 hgt
      · exact h1 b hb

theorem headTags_sorted' {m : Matrix} {s : List Tag} (h : s.Pairwise fun a b => cmp a b = .lt) :
    (m.foldl (Row.headTag cmp) s).Pairwise fun a b => cmp a b = .lt := by
  induction m generalizing s with
  | nil => exact h
  | cons r m ih =>
    simp only [List.foldl_cons]
    apply ih
    match r with
    | [] => exact h
    | .wild :: _ => exact h
    | .con t _ :: _ => exact insertTag_sorted h

theorem headTags_nodup (m : Matrix) : (headTags cmp m).Nodup :=
  List.Pairwise.imp (S := fun a b => a ≠ b) (fun {a b} h => by
    intro hab; subst hab; rw [Std.ReflCmp.compare_self (cmp := cmp)] at h; cases h) (headTags_sorted' (m := m) (cmp := cmp) List.Pairwise.nil)

theorem mem_headTags' {m : Matrix} {s : List Tag} {t : Tag} :
    t ∈ m.foldl (Row.headTag cmp) s ↔ t ∈ s ∨ ∃ ps r, (.con t ps :: r) ∈ m := by
  refine ⟨headTags_head', ?_⟩
  induction m generalizing s with
  | nil => simp
  | cons q m ih =>
    simp only [List.foldl_cons]
    intro h
    apply ih
    rcases h with h | ⟨ps, r, h⟩
    · left
      match q with
      | [] => exact h
      | .wild :: _ => exact h
      | .con u _ :: _ => exact mem_insertTag.2 (.inr h)
    · rcases List.mem_cons.1 h with h | h
      · subst h; left; exact mem_insertTag.2 (.inl rfl)
      · exact .inr ⟨ps, r, h⟩

theorem mem_headTags {m : Matrix} {t : Tag} : t ∈ headTags cmp m ↔ ∃ ps r, (.con t ps :: r) ∈ m := by
  rw [headTags, mem_headTags']; simp

end tags

/-! ## Lists of values -/

theorem Spec.HasTys.append {S : Sig Ty Lit} {a b : List (Value Lit)} {τa τb : List Ty} (ha : HasTys S a τa) (hb : HasTys S b τb) :
    HasTys S (a ++ b) (τa ++ τb) := by
  induction τa generalizing a with
  | nil => cases ha; exact hb
  | cons τ τa ih => cases ha with | cons h hs => exact .cons h (ih hs)

theorem Spec.HasTys.split {S : Sig Ty Lit} {w : List (Value Lit)} {τa τb : List Ty} (h : HasTys S w (τa ++ τb)) :
    ∃ a b, w = a ++ b ∧ HasTys S a τa ∧ HasTys S b τb := by
  induction τa generalizing w with
  | nil => exact ⟨[], w, rfl, .nil, h⟩
  | cons τ τa ih =>
    cases h with
    | cons h hs =>
      obtain ⟨a, b, rfl, ha, hb⟩ := ih hs
      exact ⟨_ :: a, b, rfl, .cons h ha, hb⟩

theorem Spec.HasTys.length {S : Sig Ty Lit} {w : List (Value Lit)} {τs : List Ty} (h : HasTys S w τs) : w.length = τs.length := by
  induction τs generalizing w with
  | nil => cases h; rfl
  | cons τ τs ih => cases h with | cons h hs => simp [ih hs]

theorem PTypedL.length {S : Sig Ty Lit} {ps : List Pat} {τs : List Ty} (h : PTypedL S τs ps) : ps.length = τs.length := by
  induction τs generalizing ps with
  | nil => cases h; rfl
  | cons τ τs ih => cases h with | cons h hs => simp [ih hs]

theorem PTypedL.append {S : Sig Ty Lit} {a b : List Pat} {τa τb : List Ty} (ha : PTypedL S τa a) (hb : PTypedL S τb b) :
    PTypedL S (τa ++ τb) (a ++ b) := by
  induction τa generalizing a with
  | nil => cases ha; exact hb
  | cons τ τa ih => cases ha with | cons h hs => exact .cons h (ih hs)

theorem PTypedL.wild {S : Sig Ty Lit} (τs : List Ty) : PTypedL S τs (List.replicate τs.length .wild) := by
  induction τs with
  | nil => exact .nil
  | cons τ τs ih => exact .cons .wild ih

theorem PTypedL.split {S : Sig Ty Lit} {p : List Pat} {τa τb : List Ty} (h : PTypedL S (τa ++ τb) p) :
    PTypedL S τa (p.take τa.length) ∧ PTypedL S τb (p.drop τa.length) := by
  induction τa generalizing p with
  | nil => exact ⟨.nil, h⟩
  | cons τ τa ih =>
    cases h with
    | cons h hs => exact ⟨.cons h (ih hs).1, (ih hs).2⟩

theorem Spec.PMatchesL.append {S : Sig Ty Lit} {τa τb : List Ty} {p q : List Pat} {a b : List (Value Lit)}
    (h1 : PMatchesL S τa p a) (h2 : PMatchesL S τb q b) : PMatchesL S (τa ++ τb) (p ++ q) (a ++ b) := by
  induction τa generalizing p a with
  | nil => cases h1; exact h2
  | cons τ τa ih => cases h1 with | cons h hs => exact .cons h (ih hs)

theorem Spec.PMatchesL.split {S : Sig Ty Lit} {τa τb : List Ty} {p q : List Pat} {a b : List (Value Lit)} (hp : p.length = τa.length)
    (ha : a.length = τa.length) (h : PMatchesL S (τa ++ τb) (p ++ q) (a ++ b)) : PMatchesL S τa p a ∧ PMatchesL S τb q b := by
  induction τa generalizing p a with
  | nil =>
    simp only [List.length_nil, List.length_eq_zero_iff] at hp ha
    subst hp; subst ha; exact ⟨.nil, h⟩
  | cons τ τa ih =>
    match p, a, hp, ha with
    | x :: p, v :: a, hp, ha =>
      cases h with
      | cons h hs =>
        have := ih (by simpa using hp) (by simpa using ha) hs
        exact ⟨.cons h this.1, this.2⟩

theorem Spec.PMatchesL.wild {S : Sig Ty Lit} {τs : List Ty} {vs : List (Value Lit)} (h : vs.length = τs.length) :
    PMatchesL S τs (List.replicate τs.length .wild) vs := by
  induction τs generalizing vs with
  | nil => simp only [List.length_nil, List.length_eq_zero_iff] at h; subst h; exact .nil
  | cons τ τs ih =>
    match vs, h with
    | v :: vs, h => exact .cons .wild (ih (by simpa using h))

theorem Spec.PMatchesL.lengths {S : Sig Ty Lit} {τs : List Ty} {ps : List Pat} {vs : List (Value Lit)} (h : PMatchesL S τs ps vs) :
    ps.length = τs.length ∧ vs.length = τs.length := by
  induction τs generalizing ps vs with
  | nil => cases h; exact ⟨rfl, rfl⟩
  | cons τ τs ih => cases h with | cons h hs => simp [ih hs]

theorem exists_values {S : Sig Ty Lit} (hi : S.Inhabited) (τs : List Ty) : ∃ vs, HasTys S vs τs := by
  induction τs with
  | nil => exact ⟨[], .nil⟩
  | cons τ τs ih =>
    obtain ⟨vs, h⟩ := ih
    obtain ⟨v, hv⟩ := hi τ
    exact ⟨v :: vs, .cons hv h⟩

mutual
/-- Every well-typed pattern matches a value. -/
theorem exists_match {S : Sig Ty Lit} (hi : S.Inhabited) :
    (p : Pat) → (τ : Ty) → PTyped S τ p → ∃ v, HasTy S v τ ∧ PMatches S τ p v
  | .wild, τ, _ => (hi τ).imp fun v h => ⟨h, .wild⟩
  | .con t ps, τ, h => by
    cases h with
    | con ht hp =>
      cases ht with
      | const hs hc hx => cases hp; exact ⟨_, .atom hs hx, .const hs hc⟩
      | finite hs hc =>
        obtain ⟨vs, h1, h2⟩ := exists_matchL hi ps _ hp
        exact ⟨_, .con hs hc h1, .con hs hc h2⟩
theorem exists_matchL {S : Sig Ty Lit} (hi : S.Inhabited) :
    (ps : List Pat) → (τs : List Ty) → PTypedL S τs ps → ∃ vs, HasTys S vs τs ∧ PMatchesL S τs ps vs
  | [], _, h => by cases h; exact ⟨[], .nil, .nil⟩
  | p :: ps, _, h => by
    cases h with
    | cons h hs =>
      obtain ⟨v, h1, h2⟩ := exists_match hi p _ h
      obtain ⟨vs, h3, h4⟩ := exists_matchL hi ps _ hs
      exact ⟨v :: vs, .cons h1 h3, .cons h2 h4⟩
end

/-! ## Tags of a type -/

/-- What the model needs from the declarations. -/
structure SigOk (S : Sig Ty Lit) : Prop where
  names : ∀ {τ cons}, S.shape τ = .data cons → (cons.map fun c => c.1.use).Nodup
  arity : ∀ {τ cons c τs}, S.shape τ = .data cons → (c, τs) ∈ cons → c.arity = τs.length

theorem names_inj {cons : List (FiniteCon × List Ty)} (h : (cons.map fun c => c.1.use).Nodup) {c c' : FiniteCon × List Ty}
    (hc : c ∈ cons) (hc' : c' ∈ cons) (he : c.1.use = c'.1.use) : c = c' := by
  induction cons with
  | nil => cases hc
  | cons a l ih =>
    have ⟨h1, h2⟩ := List.nodup_cons.1 h
    rcases List.mem_cons.1 hc with k | k <;> rcases List.mem_cons.1 hc' with k' | k'
    · rw [k, k']
    · subst k; exact absurd (List.mem_map.2 ⟨c', k', he.symm⟩ : _ ∈ l.map fun c => c.1.use) h1
    · subst k'; exact absurd (List.mem_map.2 ⟨c, k, he⟩ : _ ∈ l.map fun c => c.1.use) h1
    · exact ih h2 k k'

theorem TagTy.arity {S : Sig Ty Lit} (hS : SigOk S) {τ : Ty} {t : Tag} {τs : List Ty} (h : TagTy S τ t τs) : t.arity = τs.length := by
  cases h with
  | const => rfl
  | finite hs hc => exact hS.arity hs hc

theorem TagTy.unique {S : Sig Ty Lit} (hS : SigOk S) {τ : Ty} {t : Tag} {τs τs' : List Ty} (h : TagTy S τ t τs) (h' : TagTy S τ t τs') :
    τs = τs' := by
  cases h with
  | const hs hc hx => cases h'; rfl
  | @finite cons c _ hs hc =>
    generalize ht : Tag.finite c (cons.map (·.1)) = t at h'
    cases h' with
    | const => cases ht
    | finite hs' hc' =>
      rw [hs] at hs'
      injection hs' with hs'
      subst hs'
      injection ht with hcc
      subst hcc
      exact congrArg Prod.snd (names_inj (hS.names hs) hc hc' rfl)

/-- The value built with tag `t` and arguments `args`. -/
inductive Built (S : Sig Ty Lit) (τ : Ty) : Tag → List (Value Lit) → Value Lit → Prop
  | const {dom den c x} (hs : S.shape τ = .atom dom den) (hc : den c = some x) : Built S τ (.const c) [] (.atom x)
  | finite {cons c τs args} (hs : S.shape τ = .data cons) (hc : (c, τs) ∈ cons) : Built S τ (.finite c (cons.map (·.1))) args (.con c.use args)

theorem TagTy.build {S : Sig Ty Lit} {τ : Ty} {t : Tag} {τs : List Ty} (h : TagTy S τ t τs) {args : List (Value Lit)}
    (ha : HasTys S args τs) : ∃ v, HasTy S v τ ∧ Built S τ t args v := by
  cases h with
  | const hs hc hx => cases ha; exact ⟨_, .atom hs hx, .const hs hc⟩
  | finite hs hc => exact ⟨_, .con hs hc ha, .finite hs hc⟩

/-- A constructor pattern matches what its tag builds from matching arguments, and nothing else. -/
theorem match_con {S : Sig Ty Lit} (hS : SigOk S) {τ : Ty} {t : Tag} {τs : List Ty} (ht : TagTy S τ t τs) {ps : List Pat} {v : Value Lit} (hv : HasTy S v τ) :
    PMatches S τ (.con t ps) v → ∃ args, Built S τ t args v ∧ HasTys S args τs ∧ PMatchesL S τs ps args := by
  intro h
  cases ht with
  | const hs hc hx =>
    cases h with
    | const hs' hc' => exact ⟨[], .const hs' hc', .nil, .nil⟩
  | finite hs hc =>
    cases h with
    | con hs' hc' h =>
      have : _ := hs.symm.trans hs'
      injection this with this
      subst this
      have := names_inj (hS.names hs) hc hc' rfl
      injection this with _ this
      subst this
      generalize hw : Value.con _ _ = w at hv
      cases hv with
      | atom => cases hw
      | con hs'' hc'' ha =>
        injection hw with hu ha'
        subst ha'
        have : _ := hs.symm.trans hs''
        injection this with this
        subst this
        have := names_inj (hS.names hs) hc hc'' hu
        injection this with h1 h2
        subst h2
        rw [← hu]
        exact ⟨_, .finite hs hc, ha, h⟩

theorem match_built {S : Sig Ty Lit} (hS : SigOk S) {τ : Ty} {t : Tag} {τs : List Ty} (ht : TagTy S τ t τs) {ps : List Pat}
    (hp : PTypedL S τs ps) {args : List (Value Lit)} {v : Value Lit} (hb : Built S τ t args v) :
    PMatches S τ (.con t ps) v ↔ PMatchesL S τs ps args := by
  cases hb with
  | const hs hc =>
    cases ht; cases hp
    exact ⟨fun _ => .nil, fun _ => .const hs hc⟩
  | @finite cons c τs0 args hs hc =>
    have : τs = τs0 := ht.unique hS (.finite hs hc)
    subst this
    constructor
    · intro h
      cases h with
      | con hs' hc' h =>
        have : _ := hs.symm.trans hs'
        injection this with this
        subst this
        have := names_inj (hS.names hs) hc hc' rfl
        injection this with _ this
        subst this
        exact h
    · exact fun h => .con hs hc h

/-- A pattern with another tag does not match what tag `t` builds (literals must denote different values). -/
theorem match_other {S : Sig Ty Lit} (hS : SigOk S) {cs : List Const} (hd : S.Distinct cs) {τ : Ty} {t u : Tag} {τu : List Ty}
    (hu : TagTy S τ u τu) (htu : u ≠ t) (hct : ∀ c, t = .const c → c ∈ cs) (hcu : ∀ c, u = .const c → c ∈ cs)
    {args : List (Value Lit)} {v : Value Lit} (hb : Built S τ t args v) {ps : List Pat} : ¬ PMatches S τ (.con u ps) v := by
  intro h
  cases hb with
  | const hs hc =>
    cases h with
    | const hs' hc' =>
      have : _ := hs.symm.trans hs'
      injection this with _ hden
      subst hden
      exact htu (congrArg Tag.const (hd _ _ _ hs _ (hcu _ rfl) _ (hct _ rfl) _ hc' hc))
  | @finite cons c τs args hs hc =>
    generalize hw : Value.con c.use args = w at h
    cases h with
    | const => cases hw
    | @con _ cons' c' τs' sibs ps' vs hs' hc' h =>
      injection hw with hw1 hw2
      have : _ := hs.symm.trans hs'
      injection this with this
      subst this
      have hcc := names_inj (hS.names hs) hc hc' hw1
      injection hcc with hcc _
      subst hcc
      generalize hU : Tag.finite c sibs = U at hu
      cases hu with
      | const => cases hU
      | finite hs'' hc'' =>
        injection hU with h1 h2
        subst h1
        have : _ := hs.symm.trans hs''
        injection this with this
        subst this
        exact htu (by rw [h2])

/-! ## Specialisation and defaults -/

def PTypedM (S : Sig Ty Lit) (τs : List Ty) (m : Matrix) : Prop := ∀ r ∈ m, PTypedL S τs r

theorem specialize_typed {S : Sig Ty Lit} (hS : SigOk S) {τ : Ty} {τs τt : List Ty} {t : Tag} (ht : TagTy S τ t τt) {m : Matrix}
    (hm : PTypedM S (τ :: τs) m) : PTypedM S (τt ++ τs) (specialize m t) := by
  intro r hr
  obtain ⟨q, hq, h⟩ := List.mem_filterMap.1 hr
  have := hm q hq
  match q, this with
  | .wild :: q, .cons _ hs =>
    simp only [Row.specialize, Option.some.injEq] at h
    subst h
    rw [ht.arity hS]
    exact (PTypedL.wild τt).append hs
  | .con u ps :: q, .cons (.con hu hp) hs =>
    simp only [Row.specialize] at h
    split at h
    · next hut =>
      simp only [Option.some.injEq] at h
      subst h; subst hut
      rw [← hu.unique hS ht]
      exact hp.append hs
    · cases h

theorem defaults_typed {S : Sig Ty Lit} {τ : Ty} {τs : List Ty} {m : Matrix} (hm : PTypedM S (τ :: τs) m) : PTypedM S τs (defaults m) := by
  intro r hr
  obtain ⟨q, hq, h⟩ := List.mem_filterMap.1 hr
  have := hm q hq
  match q, this with
  | .wild :: q, .cons _ hs => simp only [Row.defaults, Option.some.injEq] at h; subst h; exact hs
  | .con _ _ :: _, _ => cases h

/-- A row of the specialised matrix that matches the arguments comes from a row that matches the value. -/
theorem specialize_back {S : Sig Ty Lit} (hS : SigOk S) {τ : Ty} {τs τt : List Ty} {t : Tag} (ht : TagTy S τ t τt) {m : Matrix}
    (hm : PTypedM S (τ :: τs) m) {args vs : List (Value Lit)} {v : Value Lit} (hb : Built S τ t args v) (ha : args.length = τt.length) {r : Row}
    (hr : r ∈ specialize m t) (h : PMatchesL S (τt ++ τs) r (args ++ vs)) : ∃ q ∈ m, PMatchesL S (τ :: τs) q (v :: vs) := by
  obtain ⟨q, hq, he⟩ := List.mem_filterMap.1 hr
  refine ⟨q, hq, ?_⟩
  have := hm q hq
  match q, this with
  | .wild :: q, .cons _ hs =>
    simp only [Row.specialize, Option.some.injEq] at he
    subst he
    rw [ht.arity hS] at h
    exact .cons .wild (h.split (by simp) ha).2
  | .con u ps :: q, .cons (.con hu hp) hs =>
    simp only [Row.specialize] at he
    split at he
    · next hut =>
      simp only [Option.some.injEq] at he
      subst he; subst hut
      have := hu.unique hS ht
      subst this
      have := h.split hp.length ha
      exact .cons ((match_built hS ht hp hb).2 this.1) this.2
    · cases he

/-- A row that matches the value leaves a row of the specialised matrix that matches the arguments. -/
theorem specialize_forth {S : Sig Ty Lit} (hS : SigOk S) {cs : List Const} (hd : S.Distinct cs) {τ : Ty} {τs τt : List Ty} {t : Tag}
    (ht : TagTy S τ t τt) {m : Matrix} (hm : PTypedM S (τ :: τs) m) (hct : ∀ c, t = .const c → c ∈ cs) (hcm : ∀ c ∈ constsM m, c ∈ cs)
    {args vs : List (Value Lit)} {v : Value Lit} (hb : Built S τ t args v) (ha : args.length = τt.length) {q : Row}
    (hq : q ∈ m) (h : PMatchesL S (τ :: τs) q (v :: vs)) : ∃ r ∈ specialize m t, PMatchesL S (τt ++ τs) r (args ++ vs) := by
  have := hm q hq
  match q, this, h with
  | .wild :: q, .cons _ hs, .cons _ h =>
    refine ⟨_, List.mem_filterMap.2 ⟨_, hq, rfl⟩, ?_⟩
    rw [ht.arity hS]
    exact (PMatchesL.wild ha).append h
  | .con u ps :: q, .cons (.con hu hp) hs, .cons h1 h =>
    by_cases hut : u = t
    · subst hut
      have := hu.unique hS ht
      subst this
      refine ⟨_, List.mem_filterMap.2 ⟨_, hq, by rw [Row.specialize, if_pos rfl]⟩, ?_⟩
      exact ((match_built hS ht hp hb).1 h1).append h
    · refine absurd h1 (match_other hS hd hu hut hct ?_ hb)
      intro c hc
      subst hc
      exact hcm c (mem_constsM.2 ⟨_, hq, by simp [constsL, Pat.consts]⟩)

theorem defaults_back {S : Sig Ty Lit} {τ : Ty} {τs : List Ty} {m : Matrix} {v : Value Lit} {vs : List (Value Lit)} {r : Row} (hr : r ∈ defaults m)
    (h : PMatchesL S τs r vs) : ∃ q ∈ m, PMatchesL S (τ :: τs) q (v :: vs) := by
  obtain ⟨q, hq, he⟩ := List.mem_filterMap.1 hr
  refine ⟨q, hq, ?_⟩
  match q with
  | .wild :: q => simp only [Row.defaults, Option.some.injEq] at he; subst he; exact .cons .wild h
  | .con _ _ :: _ => cases he
  | [] => cases he

theorem defaults_forth {S : Sig Ty Lit} {τ : Ty} {τs : List Ty} {m : Matrix} {v : Value Lit} {vs : List (Value Lit)}
    (hv : ∀ t ps r, (.con t ps :: r) ∈ m → ¬ PMatches S τ (.con t ps) v) {q : Row} (hq : q ∈ m) (h : PMatchesL S (τ :: τs) q (v :: vs)) :
    ∃ r ∈ defaults m, PMatchesL S τs r vs := by
  match q, h with
  | .wild :: q, .cons _ h => exact ⟨q, List.mem_filterMap.2 ⟨_, hq, rfl⟩, h⟩
  | .con t ps :: q, .cons h1 _ => exact absurd h1 (hv t ps q hq)

theorem constsM_specialize {m : Matrix} {t : Tag} {c : Const} (h : c ∈ constsM (specialize m t)) : c ∈ constsM m := by
  obtain ⟨r, hr, hc⟩ := mem_constsM.1 h
  obtain ⟨q, hq, he⟩ := List.mem_filterMap.1 hr
  refine mem_constsM.2 ⟨q, hq, ?_⟩
  match q with
  | [] => cases he
  | .wild :: q =>
    simp only [Row.specialize, Option.some.injEq] at he
    subst he
    simpa [constsL_append, constsL_wild, constsL, Pat.consts] using hc
  | .con u ps :: q =>
    simp only [Row.specialize] at he
    split at he
    · simp only [Option.some.injEq] at he
      subst he
      rw [constsL_append] at hc
      cases u with
      | const c' => simp only [constsL, Pat.consts, List.mem_append, List.mem_cons] at hc ⊢; rcases hc with hc | hc <;> simp [hc]
      | finite _ _ => simpa [constsL, Pat.consts] using hc
    · cases he

theorem constsM_defaults {m : Matrix} {c : Const} (h : c ∈ constsM (defaults m)) : c ∈ constsM m := by
  obtain ⟨r, hr, hc⟩ := mem_constsM.1 h
  obtain ⟨q, hq, he⟩ := List.mem_filterMap.1 hr
  refine mem_constsM.2 ⟨q, hq, ?_⟩
  match q with
  | [] => cases he
  | .wild :: q => simp only [Row.defaults, Option.some.injEq] at he; subst he; simpa [constsL, Pat.consts] using hc
  | .con _ _ :: _ => cases he

/-! ## Complete and incomplete columns -/

section column
variable {cmp : Tag → Tag → Ordering} [Std.TransCmp cmp] [Std.LawfulEqCmp cmp]

theorem headTag_typed {S : Sig Ty Lit} {τ : Ty} {τs : List Ty} {m : Matrix} (hm : PTypedM S (τ :: τs) m) {t : Tag}
    (h : t ∈ headTags cmp m) : ∃ τt, TagTy S τ t τt := by
  obtain ⟨ps, r, h⟩ := mem_headTags.1 h
  have := hm _ h
  match this with
  | .cons (.con ht _) _ => exact ⟨_, ht⟩

theorem headTags_sub {S : Sig Ty Lit} {τ : Ty} {τs : List Ty} {m : Matrix} (hm : PTypedM S (τ :: τs) m)
    {cons : List (FiniteCon × List Ty)} (hs : S.shape τ = .data cons) {t : Tag} (h : t ∈ headTags cmp m) :
    t ∈ FiniteCon.tags (cons.map (·.1)) := by
  obtain ⟨τt, ht⟩ := headTag_typed hm h
  cases ht with
  | const hs' => rw [hs] at hs'; cases hs'
  | finite hs' hc =>
    rw [hs] at hs'
    injection hs' with hs'
    subst hs'
    exact List.mem_map.2 ⟨_, List.mem_map.2 ⟨_, hc, rfl⟩, rfl⟩

/-- In a complete column every value is built by one of the tags. -/
theorem complete_built {S : Sig Ty Lit} {τ : Ty} {τs : List Ty} {m : Matrix} (hm : PTypedM S (τ :: τs) m)
    (hc : isComplete (headTags cmp m) = true) {v : Value Lit} (hv : HasTy S v τ) :
    ∃ t ∈ headTags cmp m, ∃ τt args, TagTy S τ t τt ∧ Built S τ t args v ∧ HasTys S args τt := by
  have hnd := headTags_nodup (cmp := cmp) m
  have hsub := fun cons hs t => headTags_sub (cmp := cmp) (S := S) (τ := τ) hm (cons := cons) hs (t := t)
  have hty := fun t h => headTag_typed (cmp := cmp) hm (t := t) h
  generalize hts : headTags cmp m = ts at hc hnd hsub hty
  match ts with
  | [] => cases hc
  | t :: ts =>
    obtain ⟨τt, ht⟩ := hty t (by simp)
    cases ht with
    | const => simp [isComplete, Tag.siblingCount] at hc
    | @finite cons c τs' hs hmem =>
      simp only [isComplete, Tag.siblingCount, beq_iff_eq, Option.some.injEq] at hc
      cases hv with
      | atom hs' => rw [hs] at hs'; cases hs'
      | @con _ cons' c' τs'' args hs' hc' ha =>
        rw [hs] at hs'
        injection hs' with hs'
        subst hs'
        have hall : Tag.finite c' (cons.map (·.1)) ∈ Tag.finite c (cons.map (·.1)) :: ts := by
          by_cases hin : Tag.finite c' (cons.map (·.1)) ∈ Tag.finite c (cons.map (·.1)) :: ts
          · exact hin
          · exfalso
            have hnd' : (Tag.finite c' (cons.map (·.1)) :: Tag.finite c (cons.map (·.1)) :: ts).Nodup := List.nodup_cons.2 ⟨hin, hnd⟩
            have hle := Verif.nodup_length_le hnd' (u := FiniteCon.tags (cons.map (·.1))) (by
              intro x hx
              rcases List.mem_cons.1 hx with hx | hx
              · subst hx; exact List.mem_map.2 ⟨_, List.mem_map.2 ⟨_, hc', rfl⟩, rfl⟩
              · exact hsub cons hs x hx)
            simp only [FiniteCon.tags, List.length_map, List.length_cons] at hle hc
            omega
        exact ⟨_, hall, _, args, .finite hs hc', .finite hs hc', ha⟩

/-- In an incomplete column some value is built by none of the tags. -/
theorem incomplete_escape {S : Sig Ty Lit} (hS : SigOk S) (hi : S.Inhabited) {cs : List Const} (hr : S.Roomy cs) {τ : Ty} {τs : List Ty}
    {m : Matrix} (hm : PTypedM S (τ :: τs) m) (hcm : ∀ c ∈ constsM m, c ∈ cs) (hc : isComplete (headTags cmp m) = false) {p : Pat}
    (hp : p ∈ missingHeads (headTags cmp m)) :
    PTyped S τ p ∧ ∃ v, HasTy S v τ ∧ PMatches S τ p v ∧ ∀ t ps r, (.con t ps :: r) ∈ m → ¬ PMatches S τ (.con t ps) v := by
  have hnd := headTags_nodup (cmp := cmp) m
  have hsub := fun cons hs t => headTags_sub (cmp := cmp) (S := S) (τ := τ) hm (cons := cons) hs (t := t)
  have hty := fun t h => headTag_typed (cmp := cmp) hm (t := t) h
  have hmem := fun t => mem_headTags (cmp := cmp) (m := m) (t := t)
  generalize hts : headTags cmp m = ts at hc hnd hsub hty hp hmem
  match ts with
  | [] =>
    simp only [missingHeads, List.mem_singleton] at hp
    subst hp
    obtain ⟨v, hv⟩ := hi τ
    refine ⟨.wild, v, hv, .wild, ?_⟩
    intro t ps r h
    exact absurd ((hmem t).2 ⟨ps, r, h⟩) (by simp)
  | t :: ts =>
    obtain ⟨τt, ht⟩ := hty t (by simp)
    cases ht with
    | const hs _ _ =>
      simp only [missingHeads, Tag.siblings, List.mem_singleton] at hp
      subst hp
      obtain ⟨x, hx, hne⟩ := hr τ _ _ hs
      refine ⟨.wild, .atom x, .atom hs hx, .wild, ?_⟩
      intro u ps r h hmat
      cases hmat with
      | const hs' hc' =>
        rw [hs] at hs'
        injection hs' with _ hden
        subst hden
        exact hne _ (hcm _ (mem_constsM.2 ⟨_, h, by simp [constsL, Pat.consts]⟩)) hc'
    | @finite cons c τs' hs hmemc =>
      simp only [missingHeads, Tag.siblings] at hp
      obtain ⟨s, hsf, rfl⟩ := List.mem_map.1 hp
      obtain ⟨hsib, hnot⟩ := List.mem_filter.1 hsf
      obtain ⟨c', hc', rfl⟩ := List.mem_map.1 hsib
      obtain ⟨⟨c', τc⟩, hc'', rfl⟩ := List.mem_map.1 hc'
      simp only [Tag.arity]
      rw [hS.arity hs hc'']
      obtain ⟨args, ha⟩ := exists_values hi τc
      have htt : TagTy S τ (.finite c' (cons.map (·.1))) τc := .finite hs hc''
      refine ⟨.con htt (PTypedL.wild τc), .con c'.use args, .con hs hc'' ha, .con hs hc'' (PMatchesL.wild ha.length), ?_⟩
      intro u ps r h hmat
      obtain ⟨τu, hu⟩ := hty u ((hmem u).2 ⟨ps, r, h⟩)
      have hnu : u ≠ .finite c' (cons.map (·.1)) := by
        rintro rfl
        have := (hmem _).2 ⟨ps, r, h⟩
        simp only [List.contains_eq_mem, Bool.not_eq_true', decide_eq_false_iff_not] at hnot
        exact hnot this
      have hb : Built S τ (.finite c' (cons.map (·.1))) args (.con c'.use args) := .finite hs hc''
      cases hu with
      | const hs' => rw [hs] at hs'; cases hs'
      | finite hs' hcu =>
        exact match_other hS (cs := []) (fun _ _ _ _ _ hc => by cases hc) (.finite hs' hcu) hnu (fun _ h => by cases h) (fun _ h => by cases h) hb hmat

theorem missingHeads_ne_nil {S : Sig Ty Lit} (hS : SigOk S) {τ : Ty} {τs : List Ty} {m : Matrix} (hm : PTypedM S (τ :: τs) m)
    (hc : isComplete (headTags cmp m) = false) : missingHeads (headTags cmp m) ≠ [] := by
  have hnd := headTags_nodup (cmp := cmp) m
  have hsub := fun cons hs t => headTags_sub (cmp := cmp) (S := S) (τ := τ) hm (cons := cons) hs (t := t)
  have hty := fun t h => headTag_typed (cmp := cmp) hm (t := t) h
  generalize hts : headTags cmp m = ts at hc hnd hsub hty
  match ts with
  | [] => simp [missingHeads]
  | t :: ts =>
    obtain ⟨τt, ht⟩ := hty t (by simp)
    cases ht with
    | const hs _ _ => simp [missingHeads, Tag.siblings]
    | @finite cons c τs' hs hmemc =>
      simp only [missingHeads, Tag.siblings]
      intro he
      simp only [List.map_eq_nil_iff, List.filter_eq_nil_iff] at he
      have hndn : (FiniteCon.tags (cons.map (·.1))).Nodup := by
        have := hS.names hs
        unfold FiniteCon.tags
        rw [List.map_map]
        rw [List.nodup_iff_pairwise_ne, List.pairwise_map] at this ⊢
        refine this.imp ?_
        intro a b hab h
        simp only [Function.comp, Tag.finite.injEq] at h
        exact hab (by rw [h.1])
      have hle := Verif.nodup_length_le hndn (u := Tag.finite c (cons.map (·.1)) :: ts) (by
        intro x hx
        have := he x hx
        simp only [List.contains_eq_mem, Bool.not_eq_true', decide_eq_false_iff_not, Decidable.not_not] at this
        exact this)
      have hle2 := Verif.nodup_length_le hnd (u := FiniteCon.tags (cons.map (·.1))) (fun x hx => hsub cons hs x hx)
      simp only [isComplete, Tag.siblingCount] at hc
      rw [beq_eq_false_iff_ne] at hc
      simp only [FiniteCon.tags, List.length_map] at hle hle2
      simp only [List.length_map] at hc
      exact hc (congrArg some (by omega))

end column

end Verif.PatMatch
