/-!
# Specification for topological sorting: dependencies between items
-/
namespace Verif.TopoSort.Spec

variable {K V : Type}

/-- Item `p` depends on item `q` of `data` through any number (possibly zero) of direct dependencies between items of `data`. -/
inductive DependsOn (deps : V → List K) (data : List (K × V)) : K × V → K × V → Prop
  | refl (p) : DependsOn deps data p p
  | step {p q r} : q ∈ data → q.1 ∈ deps p.2 → DependsOn deps data q r → DependsOn deps data p r

theorem DependsOn.trans {deps : V → List K} {data p q r} (h : DependsOn deps data p q) (h' : DependsOn deps data q r) :
    DependsOn deps data p r := by
  induction h with
  | refl => exact h'
  | step h1 h2 _ ih => exact .step h1 h2 (ih h')

end Verif.TopoSort.Spec
