import Verif.Import.Model

/-!
# Specification of import and export names

Uses of the model: only its data types (`Name`, `Target`, `Import`).
-/
namespace Verif.Import.Spec
open Verif.Import

/-- `Fixed p f front`: the pattern `p` has the fixed part `f`, in front (`f_`) or at the end (`_f`) of the name.
A text with an underscore at both ends counts as `_f`. -/
inductive Fixed : Name → Name → Bool → Prop
  | front (f) : f ≠ [] → f.head? ≠ some '_' → Fixed (f ++ ['_']) f true
  | back (f) : f ≠ [] → Fixed ('_' :: f) f false

/-- The text is a pattern rather than a name. -/
def IsPattern (p : Name) : Prop := p = ['_'] ∨ ∃ f b, Fixed p f b

/-- `Build p r n`: `n` is the pattern `p` with `r` for the underscore. -/
def Build (p r n : Name) : Prop :=
  (p = ['_'] ∧ n = r) ∨ (∃ f, Fixed p f true ∧ n = f ++ r) ∨ (∃ f, Fixed p f false ∧ n = r ++ f)

/-- `Shape p n r`: the name `n` has the shape of the pattern `p`, with `r` where the underscore is
(which stands for at least one character, except in the pattern that is just an underscore). -/
def Shape (p n r : Name) : Prop := Build p r n ∧ (p ≠ ['_'] → r ≠ [])

variable {K : Type}

/-- The target is well formed and, if it is a single name, exported. -/
def TargetOk (exports : List (Name × K)) (t : Target) : Prop :=
  (IsPattern t.sym → ∀ d, t.name = some d → IsPattern d) ∧
  (¬ IsPattern t.sym → ∃ k, (t.sym, k) ∈ exports)

/-- The target says that `n` means `k`. -/
def TargetSays (exports : List (Name × K)) (t : Target) (n : Name) (k : K) : Prop :=
  (IsPattern t.sym ∧ ∃ m r, (m, k) ∈ exports ∧ Shape t.sym m r ∧ Build (t.name.getD t.sym) r n) ∨
  (¬ IsPattern t.sym ∧ (t.sym, k) ∈ exports ∧ n = t.name.getD t.sym)

/-- Some import says that `n` means `k`. -/
def Says (imports : List (Import K)) (n : Name) (k : K) : Prop :=
  ∃ i ∈ imports, ∃ t ∈ i.targets, TargetSays i.exports t n k

/-- The entries of a `HashMap`: one per key. -/
def Entries (l : List (Name × K)) : Prop := (l.map Prod.fst).Nodup

end Verif.Import.Spec
