import Verif.KindInfer.Model

/-! # More fuel does not change a result -/
namespace Verif.KindInfer
open Verif Verif.KindUnify Verif.Unify Verif.Unify.Cell

/-- `b` returns what `a` returns, if that does. -/
def Le {α} (a b : Option α) : Prop := ∀ x, a = some x → b = some x

theorem Le.rfl {α} {a : Option α} : Le a a := fun _ h => h

theorem Le.none {α} {b : Option α} : Le none b := fun _ h => by cases h

theorem Le.trans {α} {a b c : Option α} (h : Le a b) (h' : Le b c) : Le a c := fun x hx => h' x (h x hx)

theorem Le.steps {α} {f : Nat → Option α} (h : ∀ n, Le (f n) (f (n + 1))) {n m : Nat} (hn : n ≤ m) : Le (f n) (f m) := by
  induction hn with
  | refl => exact .rfl
  | step _ ih => exact ih.trans (h _)

theorem resolveVar_step : ∀ (n v : Nat) (p : Pool), Le (resolveVar n v p) (resolveVar (n + 1) v p)
  | 0, _, _ => .none
  | n + 1, v, p => by
    unfold resolveVar
    cases p[v]? with
    | none => exact .none
    | some k =>
      simp only
      cases asVar k with
      | none => exact .rfl
      | some w =>
        simp only
        split
        · cases h : resolveVar n w p with
          | none => exact .none
          | some r => simp only [resolveVar_step n w p r h]; exact .rfl
        · exact .rfl

theorem resolve_step (n : Nat) (k : Kind) (p : Pool) : Le (resolve n k p) (resolve (n + 1) k p) := by
  unfold resolve
  cases asVar k with
  | none => exact .rfl
  | some v => exact resolveVar_step n v p

theorem forEach_le {ε σ : Type} {f g : Nat → σ → Pool → Option (Except ε σ × Pool)} (h : ∀ c s p, Le (f c s p) (g c s p)) :
    ∀ (cs : List Nat) (s : σ) (p : Pool), Le (forEach f cs s p) (forEach g cs s p)
  | [], _, _ => .rfl
  | c :: cs, s, p => by
    unfold forEach
    cases hf : f c s p with
    | none => exact .none
    | some r =>
      rw [h c s p r hf]
      obtain ⟨r | r, p'⟩ := r
      · exact .rfl
      · exact forEach_le h cs r p'

theorem dfsVar_step {ε σ : Type} (f : Kind → σ → Except ε σ) : ∀ (n v : Nat) (s : σ) (p : Pool), Le (dfsVar f n v s p) (dfsVar f (n + 1) v s p)
  | 0, _, _, _ => .none
  | n + 1, v, s, p => by
    unfold dfsVar
    cases hr : resolveVar n v p with
    | none => exact .none
    | some r =>
      rw [resolveVar_step n v p r hr]
      simp only
      cases hf : forEach (dfsVar f n) (children r.1) s r.2 with
      | none => exact .none
      | some q => rw [forEach_le (dfsVar_step f n) _ _ _ q hf]; exact .rfl

theorem occursCheck_step (n : Nat) (k : Kind) (v : Nat) (p : Pool) : Le (occursCheck n k v p) (occursCheck (n + 1) k v p) := by
  unfold occursCheck dfs
  cases hr : resolve n k p with
  | none => exact .none
  | some r =>
    rw [resolve_step n k p r hr]
    simp only
    cases hf : forEach (dfsVar (fun k _ => if k = Kind.var v then Except.error () else Except.ok ()) n) (children r.1) () r.2 with
    | none => exact .none
    | some q => rw [forEach_le (dfsVar_step _ n) _ _ _ q hf]; exact .rfl

theorem bindVar_step (n v : Nat) (k : Kind) (p : Pool) : Le (bindVar n v k p) (bindVar (n + 1) v k p) := by
  unfold bindVar
  cases h : occursCheck n k v p with
  | none => exact .none
  | some r => rw [occursCheck_step n k v p r h]; exact .rfl

theorem forEach2_le {f g : Nat → Nat → Pool → Option (Except Error Unit × Pool)} (h : ∀ a b p, Le (f a b p) (g a b p)) :
    ∀ (l : List (Nat × Nat)) (p : Pool), Le (forEach2 f l p) (forEach2 g l p)
  | [], _ => .rfl
  | (a, b) :: l, p => by
    unfold forEach2
    cases hf : f a b p with
    | none => exact .none
    | some r =>
      rw [h a b p r hf]
      obtain ⟨r | r, p'⟩ := r
      · exact .rfl
      · exact forEach2_le h l p'

theorem unify_step : ∀ (n : Nat) (a b : Kind) (p : Pool), Le (unify n a b p) (unify (n + 1) a b p)
  | 0, _, _, _ => .none
  | n + 1, a, b, p => by
    unfold unify
    cases h1 : resolve n a p with
    | none => exact .none
    | some r1 =>
      rw [resolve_step n a p r1 h1]
      obtain ⟨a, p⟩ := r1
      simp only
      cases h2 : resolve n b p with
      | none => exact .none
      | some r2 =>
        rw [resolve_step n b p r2 h2]
        obtain ⟨b, p⟩ := r2
        simp only
        split
        · exact .rfl
        · split
          · exact bindVar_step n _ _ p
          · exact bindVar_step n _ _ p
          · split
            · exact .rfl
            · rename_i alo ahi ar blo bhi br _ _
              cases h3 : forEach2 (fun a b => unify n (.var a) (.var b)) ((vars alo ahi).zip (vars blo bhi)) p with
              | none => exact .none
              | some r =>
                rw [forEach2_le (fun a b => unify_step n (.var a) (.var b)) _ _ r h3]
                obtain ⟨r | r, p⟩ := r
                · exact .rfl
                · exact unify_step n _ _ p
          · exact .rfl

theorem defaultVars_step (d : Kind) : ∀ (n : Nat) (k : Kind) (p : Pool), Le (defaultVars d n k p) (defaultVars d (n + 1) k p)
  | 0, _, _ => .none
  | n + 1, k, p => by
    unfold defaultVars
    cases h1 : resolve n k p with
    | none => exact .none
    | some r1 =>
      rw [resolve_step n k p r1 h1]
      obtain ⟨k, p⟩ := r1
      cases k with
      | var v => exact unify_step n _ _ p
      | func lo hi ret =>
        simp only
        cases h3 : forEach (fun c _ => defaultVars d n (.var c)) (vars lo hi) () p with
        | none => exact .none
        | some r =>
          rw [forEach_le (fun c _ => defaultVars_step d n (.var c)) _ _ _ r h3]
          obtain ⟨r | r, p⟩ := r
          · exact .rfl
          · exact defaultVars_step d n _ p
      | type => exact .rfl
      | constraint => exact .rfl
      | satisfaction => exact .rfl
      | value => exact .rfl
      | mac => exact .rfl

theorem exportAll_le {f g : Nat → Pool → Option (AKind × Pool)} (h : ∀ c p, Le (f c p) (g c p)) :
    ∀ (cs : List Nat) (p : Pool), Le (exportAll f cs p) (exportAll g cs p)
  | [], _ => .rfl
  | c :: cs, p => by
    unfold exportAll
    cases hf : f c p with
    | none => exact .none
    | some r =>
      rw [h c p r hf]
      simp only
      cases ht : exportAll f cs r.2 with
      | none => exact .none
      | some q => rw [exportAll_le h cs r.2 q ht]; exact .rfl

theorem exportKind_step : ∀ (n : Nat) (k : Kind) (p : Pool), Le (exportKind n k p) (exportKind (n + 1) k p)
  | 0, _, _ => .none
  | n + 1, k, p => by
    unfold exportKind
    cases h1 : resolve n k p with
    | none => exact .none
    | some r1 =>
      rw [resolve_step n k p r1 h1]
      obtain ⟨k, p⟩ := r1
      cases k with
      | func lo hi ret =>
        simp only
        cases h2 : exportAll (fun c => exportKind n (.var c)) (vars lo hi) p with
        | none => exact .none
        | some r =>
          rw [exportAll_le (fun c => exportKind_step n (.var c)) _ _ r h2]
          simp only
          cases h3 : exportKind n (.var ret) r.2 with
          | none => exact .none
          | some q => rw [exportKind_step n _ _ q h3]; exact .rfl
      | var v => exact .rfl
      | type => exact .rfl
      | constraint => exact .rfl
      | satisfaction => exact .rfl
      | value => exact .rfl
      | mac => exact .rfl

/-! ## Actions -/

/-- The result of an action does not depend on how much fuel there was. -/
def Mono {α} (m : M α) : Prop := ∀ n s, Le (m n s) (m (n + 1) s)

theorem Mono.pure {α} (a : α) : Mono (pure a) := fun _ _ => .rfl

theorem Mono.bind {α β} {m : M α} {f : α → M β} (h : Mono m) (hf : ∀ a, Mono (f a)) : Mono (m >>= f) := by
  intro n s
  simp only [Bind.bind]
  cases hm : m n s with
  | none => exact .none
  | some r =>
    rw [h n s r hm]
    obtain ⟨r | r, s'⟩ := r
    · exact .rfl
    · exact hf r n s'

theorem Mono.each {α} {f : α → M Unit} (h : ∀ a, Mono (f a)) : ∀ l : List α, Mono (each f l)
  | [] => .pure ()
  | a :: l => .bind (h a) (fun _ => Mono.each h l)

theorem mono_unify (a b : Kind) : Mono (unifyM a b) := fun n s => by
  unfold unifyM
  cases h : unify n a b s.pool with
  | none => exact .none
  | some r => rw [unify_step n a b s.pool r h]; exact .rfl

theorem mono_default (k : Kind) : Mono (defaultM k) := fun n s => by
  unfold defaultM
  cases h : defaultVars .type n k s.pool with
  | none => exact .none
  | some r => rw [defaultVars_step .type n k s.pool r h]; exact .rfl

theorem mono_export (k : Kind) : Mono (exportM k) := fun n s => by
  unfold exportM
  cases h : exportKind n k s.pool with
  | none => exact .none
  | some r => rw [exportKind_step n k s.pool r h]; exact .rfl

variable (ext : Id → Option SrcKind)

theorem mono_kindOf (c : Id) : Mono (kindOf ext c) := fun n s => by
  unfold kindOf
  cases s.kinds c with
  | some k => exact .rfl
  | none =>
    simp only [freshKind]
    cases ext c with
    | none => exact .rfl
    | some a => exact .rfl

theorem mono_fixKindOf (c : Id) (b : Bool) : Mono (fixKindOf ext c b) :=
  .bind (mono_kindOf ext c) fun k => .bind (mono_export k) fun k n s => by
    split
    · exact .rfl
    · split
      · exact .rfl
      · exact .rfl

theorem mono_setupParam (p : TParam) : Mono (setupParam ext p) := by
  unfold setupParam
  refine .bind (mono_kindOf ext _) fun k => ?_
  cases p.ann with
  | none => exact .pure _
  | some a => exact .bind (fun _ _ => .rfl) fun a => .bind (mono_unify k a) fun _ => .pure _

theorem mono_setupParams : ∀ ps : List TParam, Mono (setupParams ext ps)
  | [] => .pure _
  | p :: ps => .bind (mono_setupParam ext p) fun _ => .bind (mono_setupParams ps) fun _ => .pure _

theorem mono_setupGeneric (c : Id) (ps : List TParam) (cons : Nat) (ret : Kind) : Mono (setupGeneric ext c ps cons ret) := by
  refine .bind (mono_kindOf ext _) fun a => .bind ?_ fun b => mono_unify a b
  unfold genericKind
  split
  · exact .pure _
  · exact .bind (mono_setupParams ext ps) fun _ _ _ => .rfl

theorem mono_fixParam (p : TParam) : Mono (fixParam ext p) :=
  .bind (mono_kindOf ext p.id) fun k => .bind (mono_default k) fun _ => mono_fixKindOf ext p.id true

theorem mono_fixGeneric (c : Id) (ps : List TParam) : Mono (fixGeneric ext c ps) :=
  .bind (.each (mono_fixParam ext) ps) fun _ => mono_fixKindOf ext c false

mutual
theorem mono_inferTy : ∀ t : Ty, Mono (inferTy ext t)
  | .con c => by unfold inferTy; exact mono_kindOf ext c
  | .gen c => by unfold inferTy; exact mono_kindOf ext c
  | .app t ts => by
    unfold inferTy
    exact .bind (mono_inferTy t) fun c => .bind (mono_inferTys ts) fun args => .bind (fun _ _ => .rfl) fun ret => .bind (fun _ _ => .rfl) fun f =>
      .bind (mono_unify c f) fun _ => .pure _
theorem mono_inferTys : ∀ ts : List Ty, Mono (inferTys ext ts)
  | [] => by unfold inferTys; exact .pure _
  | t :: ts => by unfold inferTys; exact .bind (mono_inferTy t) fun _ => .bind (mono_inferTys ts) fun _ => .pure _
end

theorem mono_inferType (t : Ty) : Mono (inferType ext t) := .bind (mono_inferTy ext t) fun k => mono_unify k .type

theorem mono_inferCon (c : Con) : Mono (inferCon ext c) :=
  .bind (mono_kindOf ext c.cls) fun con => .bind (mono_inferTys ext c.args) fun _ => .bind (fun _ _ => .rfl) fun k => mono_unify k con

theorem mono_inferScheme (s : Scheme) : Mono (inferScheme ext s) := .bind (.each (mono_inferCon ext) s.cons) fun _ => mono_inferType ext s.body

theorem mono_inferAnn (c : Id) (s : Scheme) : Mono (inferAnn ext c s) :=
  .bind (mono_setupGeneric ext _ _ _ _) fun _ => .bind (mono_inferScheme ext s) fun _ => mono_fixGeneric ext _ _

theorem mono_inferAnns : ∀ vs : Vars, Mono (inferAnns ext vs)
  | .nil => by unfold inferAnns; exact .pure _
  | .cons none e vs => by unfold inferAnns; exact mono_inferAnns vs
  | .cons (some t) e vs => by unfold inferAnns; exact .bind (mono_inferType ext t) fun _ => mono_inferAnns vs

mutual
theorem mono_inferExpr : ∀ e : Expr, Mono (inferExpr ext e)
  | .node es => by unfold inferExpr; exact mono_inferExprs es
  | .annotate b t => by unfold inferExpr; exact .bind (mono_inferExpr b) fun _ => mono_inferType ext t
  | .let_ vs fs b => by
    unfold inferExpr
    exact .bind (mono_inferInits vs) fun _ => .bind (mono_inferExpr b) fun _ => .bind (mono_inferFuns fs) fun _ => mono_inferAnns ext vs
theorem mono_inferExprs : ∀ e : Exprs, Mono (inferExprs ext e)
  | .nil => by unfold inferExprs; exact .pure _
  | .cons e es => by unfold inferExprs; exact .bind (mono_inferExpr e) fun _ => mono_inferExprs es
theorem mono_inferInits : ∀ e : Vars, Mono (inferInits ext e)
  | .nil => by unfold inferInits; exact .pure _
  | .cons _ e vs => by unfold inferInits; exact .bind (mono_inferExpr e) fun _ => mono_inferInits vs
theorem mono_inferFuns : ∀ e : Funs, Mono (inferFuns ext e)
  | .nil => by unfold inferFuns; exact .pure _
  | .cons c none e fs => by unfold inferFuns; exact .bind (.pure _) fun _ => .bind (mono_inferExpr e) fun _ => mono_inferFuns fs
  | .cons c (some s) e fs => by unfold inferFuns; exact .bind (mono_inferAnn ext c s) fun _ => .bind (mono_inferExpr e) fun _ => mono_inferFuns fs
end

theorem mono_whenAnn {f : Fun} {g : Scheme → M Unit} (h : ∀ s, Mono (g s)) : Mono (whenAnn f g) := by
  unfold whenAnn
  cases f.ann with
  | none => exact .pure _
  | some s => exact h s

theorem mono_inferDatas (g : List Data) : Mono (inferDatas ext g) :=
  .bind (.each (fun _ => mono_setupGeneric ext _ _ _ _) g) fun _ => .bind (.each (mono_inferType ext) _) fun _ => .each (fun _ => mono_fixGeneric ext _ _) g

theorem mono_inferClasses (g : List Class) : Mono (inferClasses ext g) :=
  .bind (.each (fun c => .bind (mono_setupGeneric ext _ _ _ _) fun _ => .each (fun _ => mono_setupGeneric ext _ _ _ _) c.methods) g) fun _ =>
    .bind (.each (fun c => .bind (.each (mono_inferCon ext) _) fun _ => .each (fun m => mono_inferScheme ext m.ann) c.methods) g) fun _ =>
    .bind (.each (fun c => .bind (mono_fixGeneric ext _ _) fun _ => .each (fun _ => mono_fixGeneric ext _ _) c.methods) g) fun _ =>
    .each (fun m => by
      unfold inferDefault
      cases m.default with
      | none => exact .pure _
      | some e => exact mono_inferExpr ext e) _

theorem mono_inferInst (i : Inst) : Mono (inferInst ext i) :=
  .bind (mono_setupGeneric ext _ _ _ _) fun _ => .bind (.each (fun _ => mono_whenAnn fun _ => mono_setupGeneric ext _ _ _ _) _) fun _ =>
    .bind (.each (mono_inferCon ext) _) fun _ => .bind (mono_inferCon ext _) fun _ => .bind (.each (fun _ => mono_whenAnn (mono_inferScheme ext)) _) fun _ =>
    .bind (mono_fixGeneric ext _ _) fun _ => .bind (.each (fun _ => mono_whenAnn fun _ => mono_fixGeneric ext _ _) _) fun _ =>
    .each (fun m : Fun => mono_inferExpr ext m.body) _

theorem mono_inferBuiltin (b : Builtin) : Mono (inferBuiltin ext b) := .bind (mono_setupGeneric ext _ _ _ _) fun _ => mono_fixGeneric ext _ _

theorem mono_inferFun (f : Fun) : Mono (inferFun ext f) := .bind (mono_whenAnn (mono_inferAnn ext f.id)) fun _ => mono_inferExpr ext f.body

theorem mono_groups {α} (deps : α → List Id) (id : α → Id) (items : List α) {f : List α → M Unit} (h : ∀ g, Mono (f g)) : Mono (groups deps id items f) := by
  unfold groups
  split
  · exact fun _ _ => .none
  · exact .each h _

theorem mono_inferRoot (r : Root) : Mono (inferRoot ext r) :=
  .bind (.each (mono_inferBuiltin ext) _) fun _ => .bind (mono_groups _ _ _ (mono_inferDatas ext)) fun _ =>
    .bind (.each (fun b : Builtin => .each (mono_inferType ext) b.fields) _) fun _ => .bind (mono_groups _ _ _ (mono_inferClasses ext)) fun _ =>
    .bind (.each (mono_inferFun ext) _) fun _ => .bind (.each (mono_inferType ext) _) fun _ =>
    .bind (.each (fun o : BuiltinOp => mono_inferAnn ext o.id o.ann) _) fun _ => .bind (.each (mono_inferExpr ext) _) fun _ => .bind (.each (mono_inferInst ext) _) fun _ =>
    .each (mono_inferExpr ext) _

/-- A run that returns returns the same with more fuel. -/
theorem run_mono {r : Root} {n : Nat} {x : Except Err Unit × (Id → Option AKind)} (h : run ext n r = some x) {m : Nat} (hm : n ≤ m) : run ext m r = some x := by
  unfold run at h ⊢
  obtain ⟨y, hy, rfl⟩ := Option.map_eq_some_iff.1 h
  rw [Le.steps (f := fun n => inferRoot ext r n .init) (fun n => mono_inferRoot ext r n _) hm y hy]
  rfl

end Verif.KindInfer
