import Verif.KindInfer.Fix
import Verif.TopoSort.Props
import Mathlib.Tactic.Tauto

/-! # What inference demands of declarations and modules -/
namespace Verif.KindInfer
open Verif Verif.KindUnify

variable {ext : Id → Option SrcKind} {U : Id → Prop} {Q : (Id → AKind) → Prop}

/-- The parameters without annotation are in `U`. -/
def Open (U : Id → Prop) (p : TParam) : Prop := p.ann = none → U p.id

theorem setup_works (c : Id) (ps : List TParam) (cons : Nat) {ret : Kind} {ret' : AKind} (h : constant ret = true) (h' : retOf ret = ret') :
    Works ext U Q (setupGeneric ext c ps cons ret) (fun K => GenericEq K c ps cons ret') (fun _ => False) := by
  subst h'; exact setupGeneric_works c ps cons ret h

theorem inferAnn_works (c : Id) (s : Scheme) (hU : ∀ p ∈ s.params, Open U p) : Works ext U Q (inferAnn ext c s) (fun K => AnnOk K c s) (Generic c s.params) := by
  refine ((setup_works c s.params s.cons.length (ret := .value) (ret' := .value) rfl rfl).seq ((inferScheme_works s).seq
    ((fixGeneric_works c s.params s.cons.length .value rfl hU).weaken (fun K h => h.1.2)))).congr (fun K => ?_) (fun d h => .inr (.inr h))
  simp only [AnnOk, GenericOk]
  tauto

/-! ## Expressions -/

def VarInits (K : Id → AKind) : Vars → Prop
  | .nil => True
  | .cons _ e vs => ExprOk K e ∧ VarInits K vs

def VarAnns (K : Id → AKind) : Vars → Prop
  | .nil => True
  | .cons ann _ vs => (∀ t, ann = some t → IsType K t) ∧ VarAnns K vs

theorem varsOk_iff (K : Id → AKind) : ∀ vs : Vars, VarsOk K vs ↔ VarInits K vs ∧ VarAnns K vs
  | .nil => by simp [VarsOk, VarInits, VarAnns]
  | .cons ann e vs => by
    simp only [VarsOk, VarInits, VarAnns, varsOk_iff K vs]
    tauto

theorem inferAnns_works : ∀ (vs : Vars) {Q : (Id → AKind) → Prop}, Works ext U Q (inferAnns ext vs) (fun K => VarAnns K vs) (fun _ => False)
  | .nil, _ => by unfold inferAnns; exact Works.nothing.congr (by simp [VarAnns]) (by simp)
  | .cons none e vs, _ => by unfold inferAnns; exact (inferAnns_works vs).congr (by simp [VarAnns]) (by simp)
  | .cons (some t) e vs, _ => by
    unfold inferAnns
    exact ((inferType_works t).seq (inferAnns_works vs)).congr (by simp [VarAnns]) (by simp)

mutual
theorem inferExpr_works : ∀ (e : Expr) (_ : e.All (Open U)) {Q : (Id → AKind) → Prop}, Works ext U Q (inferExpr ext e) (fun K => ExprOk K e) (fun d => e.Declares d)
  | .node es, hU, _ => by
    simp only [Expr.All] at hU
    unfold inferExpr; exact (inferExprs_works es hU).congr (by simp [ExprOk]) (by simp [Expr.Declares])
  | .annotate b t, hU, _ => by
    simp only [Expr.All] at hU
    unfold inferExpr
    exact ((inferExpr_works b hU).seq (inferType_works t)).congr (by simp [ExprOk]) (by simp [Expr.Declares])
  | .let_ vs fs b, hU, _ => by
    simp only [Expr.All] at hU
    unfold inferExpr
    refine ((inferInits_works vs hU.1).seq ((inferExpr_works b hU.2.2).seq ((inferFuns_works fs hU.2.1).seq (inferAnns_works vs)))).congr (fun K => ?_) (fun d => ?_)
    · simp only [ExprOk, varsOk_iff]; tauto
    · simp only [Expr.Declares]; tauto
theorem inferExprs_works : ∀ (es : Exprs) (_ : es.All (Open U)) {Q : (Id → AKind) → Prop}, Works ext U Q (inferExprs ext es) (fun K => ExprsOk K es) (fun d => es.Declares d)
  | .nil, _, _ => by unfold inferExprs; exact Works.nothing.congr (by simp [ExprsOk]) (by simp [Exprs.Declares])
  | .cons e es, hU, _ => by
    simp only [Exprs.All] at hU
    unfold inferExprs
    exact ((inferExpr_works e hU.1).seq (inferExprs_works es hU.2)).congr (by simp [ExprsOk]) (by simp [Exprs.Declares])
theorem inferInits_works : ∀ (vs : Vars) (_ : vs.All (Open U)) {Q : (Id → AKind) → Prop}, Works ext U Q (inferInits ext vs) (fun K => VarInits K vs) (fun d => vs.Declares d)
  | .nil, _, _ => by unfold inferInits; exact Works.nothing.congr (by simp [VarInits]) (by simp [Vars.Declares])
  | .cons ann e vs, hU, _ => by
    simp only [Vars.All] at hU
    unfold inferInits
    exact ((inferExpr_works e hU.1).seq (inferInits_works vs hU.2)).congr (by simp [VarInits]) (by simp [Vars.Declares])
theorem inferFuns_works : ∀ (fs : Funs) (_ : fs.All (Open U)) {Q : (Id → AKind) → Prop}, Works ext U Q (inferFuns ext fs) (fun K => FunsOk K fs) (fun d => fs.Declares d)
  | .nil, _, _ => by unfold inferFuns; exact Works.nothing.congr (by simp [FunsOk]) (by simp [Funs.Declares])
  | .cons c none e fs, hU, _ => by
    simp only [Funs.All] at hU
    unfold inferFuns
    exact (Works.nothing.seq ((inferExpr_works e hU.2.1).seq (inferFuns_works fs hU.2.2))).congr (by simp [FunsOk]) (by simp [Funs.Declares])
  | .cons c (some s) e fs, hU, _ => by
    simp only [Funs.All] at hU
    unfold inferFuns
    exact ((inferAnn_works c s (hU.1 s rfl)).seq ((inferExpr_works e hU.2.1).seq (inferFuns_works fs hU.2.2))).congr (by simp [FunsOk]) (by simp [Funs.Declares])
end

/-! ## Declarations -/

theorem inferDatas_works (g : List Data) (hU : ∀ d ∈ g, ∀ p ∈ d.params, Open U p) : Works ext U Q (inferDatas ext g) (fun K => ∀ d ∈ g, DataOk K d) (fun c => ∃ d ∈ g, Generic d.id d.params c) := by
  refine ((Works.each g (fun d _ => setup_works d.id d.params 0 (ret := .type) (ret' := .type) rfl rfl)).seq ((Works.each (g.flatMap (·.fields)) (fun t _ => inferType_works t)).seq
    (Works.each g (fun d hd => (fixGeneric_works d.id d.params 0 .type rfl (hU d hd)).weaken (fun K h => h.1.2 d hd))))).congr (fun K => ?_) (fun c h => .inr (.inr h))
  simp only [DataOk, GenericOk, List.mem_flatMap]
  constructor
  · rintro ⟨h1, h2, h3⟩ d hd
    exact ⟨⟨h1 d hd, h3 d hd⟩, fun t ht => h2 t ⟨d, hd, ht⟩⟩
  · intro h
    exact ⟨fun d hd => (h d hd).1.1, fun t ⟨d, hd, ht⟩ => (h d hd).2 t ht, fun d hd => (h d hd).1.2⟩

theorem inferBuiltin_works (d : Builtin) (hU : ∀ p ∈ d.params, Open U p) : Works ext U Q (inferBuiltin ext d) (fun K => GenericOk K d.id d.params 0 .type) (Generic d.id d.params) :=
  ((setup_works d.id d.params 0 (ret := .type) (ret' := .type) rfl rfl).seq ((fixGeneric_works d.id d.params 0 .type rfl hU).weaken (fun K h => h.2))).congr
    (fun K => Iff.rfl) (fun d h => .inr h)

theorem inferDefault_works (m : Method) (hU : m.All (Open U)) :
    Works ext U Q (inferDefault ext m) (fun K => ∀ e, m.default = some e → ExprOk K e) (fun d => ∃ e, m.default = some e ∧ e.Declares d) := by
  unfold inferDefault
  have hU := hU.2
  cases hm : m.default with
  | none => exact Works.nothing.congr (by simp) (by simp)
  | some e => exact (inferExpr_works e (hU e hm)).congr (by simp) (by simp)

theorem inferClasses_works (g : List Class) (hU : ∀ c ∈ g, (∀ p ∈ c.params, Open U p) ∧ ∀ m ∈ c.methods, m.All (Open U)) :
    Works ext U Q (inferClasses ext g) (fun K => ∀ c ∈ g, ClassOk K c) (fun d => ∃ c ∈ g, Generic c.id c.params d ∨ ∃ m ∈ c.methods, m.Declares d) := by
  have h1 : ∀ c ∈ g, ∀ {Q}, Works ext U Q (do
      setupGeneric ext c.id c.params 0 .constraint
      each (fun m => setupGeneric ext m.id m.ann.params m.ann.cons.length .value) c.methods)
      (fun K => GenericEq K c.id c.params 0 .constraint ∧ ∀ m ∈ c.methods, GenericEq K m.id m.ann.params m.ann.cons.length .value) (fun _ => False) := fun c _ {_} =>
    ((setup_works c.id c.params 0 (ret := .constraint) (ret' := .constraint) rfl rfl).seq (Works.each c.methods (fun m _ => setup_works m.id m.ann.params m.ann.cons.length (ret := .value) (ret' := .value) rfl rfl))).congr
      (fun _ => Iff.rfl) (by simp)
  have h2 : ∀ c ∈ g, ∀ {Q}, Works ext U Q (do
      each (inferCon ext) c.superclasses
      each (fun m => inferScheme ext m.ann) c.methods)
      (fun K => (∀ s ∈ c.superclasses, ConOk K s) ∧ ∀ m ∈ c.methods, SchemeOk K m.ann) (fun _ => False) := fun c _ {_} =>
    ((Works.each c.superclasses (fun s _ => inferCon_works s)).seq (Works.each c.methods (fun m _ => inferScheme_works m.ann))).congr (fun _ => Iff.rfl) (by simp)
  have h3 : ∀ c ∈ g, Works ext U (fun K => GenericEq K c.id c.params 0 .constraint ∧ ∀ m ∈ c.methods, GenericEq K m.id m.ann.params m.ann.cons.length .value) (do
      fixGeneric ext c.id c.params
      each (fun m => fixGeneric ext m.id m.ann.params) c.methods)
      (fun K => (∀ p ∈ c.params, FirstClass (K p.id)) ∧ ∀ m ∈ c.methods, ∀ p ∈ m.ann.params, FirstClass (K p.id))
      (fun d => Generic c.id c.params d ∨ ∃ m ∈ c.methods, Generic m.id m.ann.params d) := fun c hc =>
    (((fixGeneric_works c.id c.params 0 .constraint rfl (hU c hc).1).weaken (fun K h => h.1)).seq (Works.each c.methods (fun m hm =>
      (fixGeneric_works m.id m.ann.params m.ann.cons.length .value rfl ((hU c hc).2 m hm).1).weaken (fun K h => h.1.2 m hm)))).congr (fun _ => Iff.rfl) (fun _ h => h)
  refine ((Works.each g (fun c hc => h1 c hc)).seq ((Works.each g (fun c hc => h2 c hc)).seq ((Works.each g (fun c hc => (h3 c hc).weaken (fun K h => h.1.2 c hc))).seq
    (Works.each (g.flatMap (·.methods)) (fun m hm => inferDefault_works m (by obtain ⟨c, hc, hm⟩ := List.mem_flatMap.1 hm; exact (hU c hc).2 m hm)))))).congr (fun K => ?_) ?_
  · simp only [ClassOk, AnnOk, GenericOk, List.mem_flatMap]
    constructor
    · rintro ⟨e1, e2, e3, e4⟩ c hc
      exact ⟨⟨(e1 c hc).1, (e3 c hc).1⟩, (e2 c hc).1, fun m hm => ⟨⟨⟨(e1 c hc).2 m hm, (e3 c hc).2 m hm⟩, (e2 c hc).2 m hm⟩, e4 m ⟨c, hc, hm⟩⟩⟩
    · intro h
      exact ⟨fun c hc => ⟨(h c hc).1.1, fun m hm => ((h c hc).2.2 m hm).1.1.1⟩, fun c hc => ⟨(h c hc).2.1, fun m hm => ((h c hc).2.2 m hm).1.2⟩,
        fun c hc => ⟨(h c hc).1.2, fun m hm => ((h c hc).2.2 m hm).1.1.2⟩, fun m ⟨c, hc, hm⟩ => ((h c hc).2.2 m hm).2⟩
  · rintro d ⟨c, hc, h | ⟨m, hm, h | h⟩⟩
    · exact .inr (.inr (.inl ⟨c, hc, .inl h⟩))
    · exact .inr (.inr (.inl ⟨c, hc, .inr ⟨m, hm, h⟩⟩))
    · exact .inr (.inr (.inr ⟨m, List.mem_flatMap.2 ⟨c, hc, hm⟩, h⟩))

theorem whenAnn_works {f : Fun} {g : Scheme → M Unit} {D : Scheme → (Id → AKind) → Prop} {R : Scheme → Id → Prop}
    (h : ∀ s, f.ann = some s → Works ext U Q (g s) (D s) (R s)) :
    Works ext U Q (whenAnn f g) (fun K => ∀ s, f.ann = some s → D s K) (fun d => ∃ s, f.ann = some s ∧ R s d) := by
  unfold whenAnn
  cases hf : f.ann with
  | none => exact Works.nothing.congr (by simp) (by simp)
  | some s => exact (h s hf).congr (by simp) (by simp)

theorem inferFun_works (f : Fun) (hU : f.All (Open U)) : Works ext U Q (inferFun ext f) (fun K => FunOk K f) (fun d => f.Declares d) :=
  ((whenAnn_works (fun s hs => inferAnn_works f.id s (hU.1 s hs))).seq (inferExpr_works f.body hU.2)).congr (fun _ => Iff.rfl) (fun _ h => h)

theorem inferInst_works (i : Inst) (hU : (∀ p ∈ i.params, Open U p) ∧ ∀ m ∈ i.methods, m.All (Open U)) :
    Works ext U Q (inferInst ext i) (fun K => InstOk K i) (fun d => Generic i.id i.params d ∨ ∃ m ∈ i.methods, m.Declares d) := by
  refine ((setup_works i.id i.params i.cons.length (ret := .satisfaction) (ret' := .satisfaction) rfl rfl).seq
    ((Works.each i.methods (fun m _ => whenAnn_works (fun s _ => setup_works m.id s.params s.cons.length (ret := .value) (ret' := .value) rfl rfl))).seq
    ((Works.each i.cons (fun c _ => inferCon_works c)).seq ((inferCon_works i.target).seq
    ((Works.each i.methods (fun m _ => whenAnn_works (fun s _ => inferScheme_works s))).seq
    (((fixGeneric_works i.id i.params i.cons.length .satisfaction rfl hU.1).weaken (fun K h => h.1.1.1.1.2)).seq
    ((Works.each i.methods (fun m hm => whenAnn_works (fun s hs => (fixGeneric_works m.id s.params s.cons.length .value rfl ((hU.2 m hm).1 s hs)).weaken
      (fun K h => h.1.1.1.1.2 m hm s hs)))).seq
    (Works.each i.methods (fun m hm => inferExpr_works m.body (hU.2 m hm).2))))))))).congr (fun K => ?_) ?_
  · simp only [InstOk, FunOk, AnnOk, GenericOk]
    constructor
    · rintro ⟨e1, e2, e3, e4, e5, e6, e7, e8⟩
      exact ⟨⟨e1, e6⟩, e3, e4, fun m hm => ⟨fun s hs => ⟨⟨e2 m hm s hs, e7 m hm s hs⟩, e5 m hm s hs⟩, e8 m hm⟩⟩
    · rintro ⟨⟨e1, e6⟩, e3, e4, e5⟩
      exact ⟨e1, fun m hm s hs => ((e5 m hm).1 s hs).1.1, e3, e4, fun m hm s hs => ((e5 m hm).1 s hs).2, e6, fun m hm s hs => ((e5 m hm).1 s hs).1.2,
        fun m hm => (e5 m hm).2⟩
  · rintro d (h | ⟨m, hm, h | h⟩)
    · exact .inr (.inr (.inr (.inr (.inr (.inl h)))))
    · exact .inr (.inr (.inr (.inr (.inr (.inr (.inl ⟨m, hm, h⟩))))))
    · exact .inr (.inr (.inr (.inr (.inr (.inr (.inr ⟨m, hm, h⟩))))))

theorem groups_works {α} {deps : α → List Id} {id : α → Id} {items : List α} (hn : (items.map id).Nodup) {f : List α → M Unit} {D : α → (Id → AKind) → Prop}
    {R : α → Id → Prop} (h : ∀ g, (∀ a ∈ g, a ∈ items) → Works ext U Q (f g) (fun K => ∀ a ∈ g, D a K) (fun d => ∃ a ∈ g, R a d)) :
    Works ext U Q (groups deps id items f) (fun K => ∀ a ∈ items, D a K) (fun d => ∃ a ∈ items, R a d) := by
  have hn' : ((items.map fun a => (id a, a)).map Prod.fst).Nodup := by simpa [Function.comp_def] using hn
  obtain ⟨gs, ho⟩ := TopoSort.output_exists deps (items.map fun a => (id a, a)) hn'
  have hp := (TopoSort.sort_partition deps _ hn' ho).1
  have hmem : ∀ a, a ∈ items ↔ ∃ g ∈ gs.map (List.map Prod.snd), a ∈ g := by
    intro a
    have h1 : a ∈ items ↔ (id a, a) ∈ items.map fun a => (id a, a) := by simp
    rw [h1, ← hp.mem_iff, List.mem_flatten]
    constructor
    · rintro ⟨g, hg, ha⟩
      exact ⟨g.map Prod.snd, List.mem_map.2 ⟨g, hg, rfl⟩, List.mem_map.2 ⟨_, ha, rfl⟩⟩
    · rintro ⟨g', hg', ha⟩
      obtain ⟨g, hg, rfl⟩ := List.mem_map.1 hg'
      obtain ⟨⟨c, b⟩, hb, rfl⟩ := List.mem_map.1 ha
      have := hp.mem_iff.1 (List.mem_flatten.2 ⟨g, hg, hb⟩)
      obtain ⟨b', -, e⟩ := List.mem_map.1 this
      cases e
      exact ⟨g, hg, hb⟩
  unfold groups
  rw [ho.1]
  refine (Works.each _ (fun g hg => h g (fun a ha => (hmem a).2 ⟨g, hg, ha⟩))).congr (fun K => ?_) (fun d => ?_)
  · constructor
    · intro e a ha
      obtain ⟨g, hg, hag⟩ := (hmem a).1 ha
      exact e g hg a hag
    · intro e g hg a ha
      exact e a ((hmem a).2 ⟨g, hg, ha⟩)
  · rintro ⟨a, ha, hr⟩
    obtain ⟨g, hg, hag⟩ := (hmem a).1 ha
    exact ⟨g, hg, a, hag, hr⟩

/-- The constructs of a module are declared once (they are the keys of `HashMap`s, root.rs:6-11). -/
def Distinct (r : Root) : Prop := (r.datas.map (·.id)).Nodup ∧ (r.classes.map (·.id)).Nodup

theorem inferRoot_works (r : Root) (hd : Distinct r) (hU : r.All (Open U)) : Works ext U Q (inferRoot ext r) (fun K => WellKinded K r) (fun d => r.Declares d) := by
  obtain ⟨u1, u2, u3, u4, u5, u6, u7, u8⟩ := hU
  refine ((Works.each r.builtins (fun b hb => inferBuiltin_works b (u1 b hb))).seq ((groups_works hd.1 (fun g hg => inferDatas_works g (fun d h => u2 d (hg d h)))).seq
    ((Works.each r.builtins (fun b _ => Works.each b.fields (fun t _ => inferType_works t))).seq
    ((groups_works hd.2 (fun g hg => inferClasses_works g (fun c h => u3 c (hg c h)))).seq ((Works.each r.functions (fun f hf => inferFun_works f (u4 f hf))).seq
    ((Works.each r.cFunctions (fun t _ => inferType_works t)).seq ((Works.each r.builtinOps (fun o ho => inferAnn_works o.id o.ann (u5 o ho))).seq
    ((Works.each r.macros (fun e he => inferExpr_works e (u6 e he))).seq ((Works.each r.instances (fun i hi => inferInst_works i (u7 i hi))).seq
    (Works.each r.inits (fun e he => inferExpr_works e (u8 e he)))))))))))).congr (fun K => ?_) (fun d => ?_)
  · simp only [WellKinded, BuiltinOk]
    constructor
    · rintro ⟨e1, e2, e3, e4, e5, e6, e7, e8, e9, e10⟩
      exact ⟨fun b hb => ⟨e1 b hb, e3 b hb⟩, e2, e4, e5, e6, e7, e8, e9, e10⟩
    · rintro ⟨e1, e2, e4, e5, e6, e7, e8, e9, e10⟩
      exact ⟨fun b hb => (e1 b hb).1, e2, fun b hb => (e1 b hb).2, e4, e5, e6, e7, e8, e9, e10⟩
  · rintro (h | h | h | h | h | h | h | h)
    · exact .inl h
    · exact .inr (.inl h)
    · exact .inr (.inr (.inr (.inl h)))
    · exact .inr (.inr (.inr (.inr (.inl h))))
    · exact .inr (.inr (.inr (.inr (.inr (.inr (.inl h))))))
    · exact .inr (.inr (.inr (.inr (.inr (.inr (.inr (.inl h)))))))
    · exact .inr (.inr (.inr (.inr (.inr (.inr (.inr (.inr (.inl h))))))))
    · exact .inr (.inr (.inr (.inr (.inr (.inr (.inr (.inr (.inr h))))))))

end Verif.KindInfer
