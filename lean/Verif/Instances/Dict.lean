import Verif.Instances.Sound

/-! # Dictionaries -/
namespace Verif.Instances

open Verif.Infer

variable {W : World} {ar : Nat → Nat}

def Sats.ofList : List Sat → Sats
  | [] => .nil
  | s :: ss => .cons s (ofList ss)

theorem Sats.ofList_toList : ∀ ss : Sats, Sats.ofList ss.toList = ss
  | .nil => rfl
  | .cons _ ss => congrArg₂ Sats.cons rfl (Sats.ofList_toList ss)

/-- The satisfactions of the superclasses of instances prove them. -/
def Supers (W : World) (X : Nat → List Sat) : Prop := ∀ i k, W.cls (W.inst i).target.cls = some k →
  ProvesAll W ((W.inst i).ctx.map (Con.map Ty.flat)) (Sats.ofList (X i)) (k.supers.map fun s => (s.goal.inst (assoc k.gs (W.inst i).target.args)).map Ty.flat)

theorem proves_assoc {P : List Con} (f : Con → Goal) : ∀ {cs : List Con} {ss : List Sat} {c : Con} {s : Sat}, ProvesAll W P (Sats.ofList ss) (cs.map f) → (cs.map Con.id).Nodup → c ∈ cs →
    assoc (cs.map Con.id) ss c.id = some s → Proves W P s (f c)
  | [], _, _, _, _, _, h, _ => nomatch h
  | _ :: _, [], _, _, h, _, _, _ => nomatch h
  | b :: cs, x :: ss, c, s, h, nd, hc, ha => by
    obtain ⟨g, gs, e, h1, h2⟩ := h
    obtain ⟨rfl, rfl⟩ := List.cons.inj e
    have nd := List.nodup_cons.1 nd
    rw [show assoc (List.map Con.id (b :: cs)) (x :: ss) c.id = if c.id = b.id then some x else assoc (cs.map Con.id) ss c.id from rfl] at ha
    split at ha
    · rename_i e
      cases ha
      rcases List.mem_cons.1 hc with rfl | hc
      · exact h1
      · exact absurd (e ▸ List.mem_map_of_mem hc) nd.1
    · rename_i e
      rcases List.mem_cons.1 hc with rfl | hc
      · exact absurd rfl e
      · exact proves_assoc f h2 nd.2 hc ha

theorem proves_assoc_some {P : List Con} (f : Con → Goal) : ∀ {cs : List Con} {ss : List Sat} {c : Con}, ProvesAll W P (Sats.ofList ss) (cs.map f) → c ∈ cs →
    ∃ s, assoc (cs.map Con.id) ss c.id = some s
  | _ :: _, [], _, h, _ => nomatch h
  | b :: cs, x :: ss, c, h, hc => by
    obtain ⟨g, gs, e, h1, h2⟩ := h
    obtain ⟨rfl, rfl⟩ := List.cons.inj e
    by_cases e : c.id = b.id
    · exact ⟨x, if_pos e⟩
    · obtain ⟨s, hs⟩ := proves_assoc_some f h2 ((List.mem_cons.1 hc).resolve_left fun h => e (congrArg _ h))
      exact ⟨s, (if_neg e).trans hs⟩

theorem right_assoc (f : Con → Goal) : ∀ {cs : List Con} {ds : Dicts} {c : Con} {d : Dict}, RightAll W ds (cs.map f) → (cs.map Con.id).Nodup → c ∈ cs →
    assoc (cs.map Con.id) ds.toList c.id = some d → Right W d (f c)
  | [], _, _, _, _, _, h, _ => nomatch h
  | _ :: _, .nil, _, _, h, _, _, _ => nomatch h
  | b :: cs, .cons x ds, c, d, h, nd, hc, ha => by
    obtain ⟨g, gs, e, h1, h2⟩ := h
    obtain ⟨rfl, rfl⟩ := List.cons.inj e
    have nd := List.nodup_cons.1 nd
    rw [show assoc (List.map Con.id (b :: cs)) (Dicts.cons x ds).toList c.id = if c.id = b.id then some x else assoc (cs.map Con.id) ds.toList c.id from rfl] at ha
    split at ha
    · rename_i e
      cases ha
      rcases List.mem_cons.1 hc with rfl | hc
      · exact h1
      · exact absurd (e ▸ List.mem_map_of_mem hc) nd.1
    · rename_i e
      rcases List.mem_cons.1 hc with rfl | hc
      · exact absurd rfl e
      · exact right_assoc f h2 nd.2 hc ha

theorem right_assoc_some (f : Con → Goal) : ∀ {cs : List Con} {ds : Dicts} {c : Con}, RightAll W ds (cs.map f) → c ∈ cs → ∃ d, assoc (cs.map Con.id) ds.toList c.id = some d
  | _ :: _, .nil, _, h, _ => nomatch h
  | b :: cs, .cons x ds, c, h, hc => by
    obtain ⟨g, gs, e, h1, h2⟩ := h
    obtain ⟨rfl, rfl⟩ := List.cons.inj e
    by_cases e : c.id = b.id
    · exact ⟨x, if_pos e⟩
    · obtain ⟨s, hs⟩ := right_assoc_some f h2 ((List.mem_cons.1 hc).resolve_left fun h => e (congrArg _ h))
      exact ⟨s, (if_neg e).trans hs⟩

mutual
theorem flat_inst {gs : List Nat} {tys : List Ty} (e : tys.length = gs.length) : ∀ {t : Ty}, t.All (fun _ => False) (fun g _ => g ∈ gs) → (Ty.flat t).inst (assoc gs tys) = t.inst (assoc gs tys)
  | .con _, _ => rfl
  | .app _ _, h => congrArg₂ Ty.app (flat_inst e h.1) (flats_inst e h.2)
  | .gen g l, h => by
    show (assoc gs tys g).getD _ = (assoc gs tys g).getD _
    obtain ⟨t, h1, _⟩ := assoc_mem h e
    rw [h1]; rfl
  | .unk _, h => h.elim
theorem flats_inst {gs : List Nat} {tys : List Ty} (e : tys.length = gs.length) : ∀ {t : Tys}, t.All (fun _ => False) (fun g _ => g ∈ gs) →
    (t.inst fun g => some (.gen g 0)).inst (assoc gs tys) = t.inst (assoc gs tys)
  | .nil, _ => rfl
  | .cons _ _, h => congrArg₂ Tys.cons (flat_inst e h.1) (flats_inst e h.2)
end

theorem Goal.flat_closed {gs : List Nat} {tys : List Ty} (e : tys.length = gs.length) {g : Goal} (h : g.Closed gs) : (g.map Ty.flat).inst (assoc gs tys) = g.inst (assoc gs tys) := by
  show (⟨_, _⟩ : Goal) = ⟨_, _⟩
  congr 1
  show (g.args.map _).map _ = g.args.map _
  rw [List.map_map]
  exact List.map_congr_left fun t ht => flat_inst e (h t ht)

/-- Constraints for closed types of closed constraints are closed. -/
theorem Goal.closed_inst {hs gs : List Nat} {tys : List Ty} (e : tys.length = gs.length) {g : Goal} (h : g.Closed gs) (ht : ∀ t ∈ tys, Written (· ∈ hs) t) : (g.inst (assoc gs tys)).Closed hs := by
  intro t h1
  obtain ⟨u, hu, rfl⟩ := List.mem_map.1 h1
  show Ty.All _ _ _
  rw [Ty.all_inst]
  refine (h u hu).imp (fun _ h => h) fun g l hg => ?_
  obtain ⟨v, h1, h2⟩ := assoc_mem hg e
  rw [h1]; exact ht v h2

/-- The premises have right dictionaries. -/
def Env (W : World) (θ : Nat → Option Ty) (δ : Nat → Option Dict) (P : List Con) : Prop := ∀ c ∈ P, ∀ d, δ c.id = some d → Right W d (c.goal.inst θ)

theorem get_env (ok : W.OK) {i : Nat} {tys : List Ty} {ds : Dicts} {g : Goal} (h : Right W (.mk i tys ds) g) :
    Env W (assoc (W.inst i).gs tys) (assoc ((W.inst i).ctx.map Con.id) ds.toList) ((W.inst i).ctx.map (Con.map Ty.flat)) := by
  obtain ⟨_, h2, _, h4⟩ := h
  intro c hc d hd
  obtain ⟨c, hc', rfl⟩ := List.mem_map.1 hc
  have := right_assoc _ h4 (ok.ctxIds i) hc' hd
  show Right W d ((c.goal.map Ty.flat).inst _)
  rwa [Goal.flat_closed h2 (ok.ctx i c hc')]

theorem get_goal (ok : W.OK) (ha : W.Arity ar) {i : Nat} {tys : List Ty} {g : Goal} (h2 : tys.length = (W.inst i).gs.length) (h3 : (W.inst i).target.inst (assoc (W.inst i).gs tys) = g)
    {k : ClassCon} (hk : W.cls g.cls = some k) {c : Con} (hc : c ∈ k.supers) :
      ((c.goal.inst (assoc k.gs (W.inst i).target.args)).map Ty.flat).inst (assoc (W.inst i).gs tys) = c.goal.inst (assoc k.gs g.args) := by
  have cl := ok.sup _ _ hk c hc
  subst h3
  have len : (W.inst i).target.args.length = k.gs.length := (show _ = _ from (ha.inst i).1).trans (ha.cls _ _ hk).1.symm
  rw [Goal.flat_closed h2 (Goal.closed_inst len cl (ok.target i))]
  exact Goal.map_closed (hom_inst _) cl len

mutual
theorem eval_right {X : Nat → List Sat} (ok : W.OK) (ha : W.Arity ar) (hX : Supers W X) : ∀ (k : Nat) {θ : Nat → Option Ty} {δ : Nat → Option Dict} {P : List Con} {S : Sat} {g : Goal} {D : Dict},
    (∀ c ∈ P, c.goal.Arity ar) → Env W θ δ P → Proves W P S g → eval W X k θ δ S = some D → Right W D (g.inst θ)
  | 0, _, _, _, _, _, _, _, _, _, h => nomatch h
  | k + 1, θ, δ, P, .premise id path, g, D, aP, env, pr, h => by
    simp only [eval, Option.bind_eq_bind, Option.bind_eq_some_iff] at h
    obtain ⟨d, hd, h⟩ := h
    obtain ⟨c, hc, rfl, hs⟩ := pr
    exact walk_right ok ha hX k (aP c hc).map (env c hc d hd) (hs.map (hom_inst θ) ok ha (aP c hc)) h
  | k + 1, θ, δ, P, .inst i tys ss, g, D, aP, env, pr, h => by
    simp only [eval, Option.bind_eq_bind, Option.bind_eq_some_iff] at h
    obtain ⟨ds, hd, h⟩ := h
    cases h
    obtain ⟨h1, h2, rfl, h4⟩ := pr
    refine ⟨h1, by rw [List.length_map]; exact h2, (Goal.map_closed (hom_inst θ) (ok.target i) h2).symm, ?_⟩
    have := evals_right ok ha hX k aP env h4 hd
    rw [List.map_map] at this
    rwa [show List.map (Goal.inst θ ∘ fun c => c.goal.inst (assoc (W.inst i).gs tys)) (W.inst i).ctx = List.map (fun c => c.goal.inst (assoc (W.inst i).gs (tys.map (Ty.inst θ)))) (W.inst i).ctx from
      List.map_congr_left fun c hc => Goal.map_closed (hom_inst θ) (ok.ctx i c hc) h2] at this
theorem evals_right {X : Nat → List Sat} (ok : W.OK) (ha : W.Arity ar) (hX : Supers W X) : ∀ (k : Nat) {θ : Nat → Option Ty} {δ : Nat → Option Dict} {P : List Con} {S : Sats} {gs : List Goal} {D : Dicts},
    (∀ c ∈ P, c.goal.Arity ar) → Env W θ δ P → ProvesAll W P S gs → evals W X k θ δ S = some D → RightAll W D (gs.map (Goal.inst θ))
  | 0, _, _, _, _, _, _, _, _, _, h => nomatch h
  | k + 1, θ, δ, P, .nil, gs, D, aP, env, pr, h => by
    cases h; cases pr; rfl
  | k + 1, θ, δ, P, .cons s ss, gs, D, aP, env, pr, h => by
    simp only [evals, Option.bind_eq_bind, Option.bind_eq_some_iff] at h
    obtain ⟨d, hd, ds, hds, h⟩ := h
    cases h
    obtain ⟨g, gs, rfl, p1, p2⟩ := pr
    exact ⟨_, _, rfl, eval_right ok ha hX k aP env p1 hd, evals_right ok ha hX k aP env p2 hds⟩
theorem walk_right {X : Nat → List Sat} (ok : W.OK) (ha : W.Arity ar) (hX : Supers W X) : ∀ (k : Nat) {d D : Dict} {path : List Nat} {g g' : Goal}, g.Arity ar → Right W d g → Sup W g path g' →
    walk W X k d path = some D → Right W D g'
  | 0, _, _, _, _, _, _, _, _, h => nomatch h
  | k + 1, d, D, [], g, g', _, hd, hs, h => by
    cases h; cases hs; exact hd
  | k + 1, d, D, id :: path, g, g', ag, hd, hs, h => by
    simp only [walk, Option.bind_eq_bind, Option.bind_eq_some_iff] at h
    obtain ⟨d1, h1, h2⟩ := h
    cases hs with
    | up hk hc hs => exact walk_right ok ha hX k (((ha.cls _ _ hk).2 _ hc).map) (get_right ok ha hX k hd hk hc h1) hs h2
theorem get_right {X : Nat → List Sat} (ok : W.OK) (ha : W.Arity ar) (hX : Supers W X) : ∀ (k : Nat) {d D : Dict} {g : Goal} {c : ClassCon} {s : Con}, Right W d g → W.cls g.cls = some c → s ∈ c.supers →
    get W X k d s.id = some D → Right W D (s.goal.inst (assoc c.gs g.args))
  | 0, _, _, _, _, _, _, _, _, h => nomatch h
  | k + 1, .mk i tys ds, D, g, c, s, hd, hk, hs, h => by
    simp only [get, Option.bind_eq_bind, Option.bind_eq_some_iff] at h
    obtain ⟨c', hc', S, hS, h⟩ := h
    have hd' := hd
    obtain ⟨_, h2, h3, _⟩ := hd'
    have ek : W.cls (W.inst i).target.cls = some c := by rw [← hk, ← h3]; rfl
    rw [ek] at hc'; cases hc'
    have pr := proves_assoc _ (hX i c ek) (ok.ids _ _ ek) hs hS
    have aP : ∀ x ∈ (W.inst i).ctx.map (Con.map Ty.flat), x.goal.Arity ar := fun x hx => by
      obtain ⟨y, hy, rfl⟩ := List.mem_map.1 hx
      exact Goal.Arity.map ((ha.inst i).2 y hy)
    have := eval_right ok ha hX k aP (get_env ok hd) pr h
    rwa [get_goal ok ha h2 h3 hk hs] at this
end

/-- What `infer_instance_satisfaction` finds proves the superclasses of an instance. -/
theorem superclasses_ok {k : Nat} (ok : W.OK) (ha : W.Arity ar) {i : Nat} {s s' : St} {ss : Sats} (w : WF s) (h : superclasses k W i s = some (some ss, s')) :
    ∃ c, W.cls (W.inst i).target.cls = some c ∧ ProvesAll W ((W.inst i).ctx.map (Con.map Ty.flat)) (ss.map (fin s'.σ)) (c.supers.map fun s => (s.goal.inst (assoc c.gs (W.inst i).target.args)).map Ty.flat) := by
  simp only [superclasses, Option.bind_eq_bind, Option.bind_eq_some_iff] at h
  obtain ⟨E, hE, c, hc, h⟩ := h
  have len : (W.inst i).target.args.length = c.gs.length := (show _ = _ from (ha.inst i).1).trans (ha.cls _ _ hc).1.symm
  have cl : ∀ x ∈ c.supers, (x.goal.inst (assoc c.gs (W.inst i).target.args)).Closed (W.inst i).gs := fun x hx => Goal.closed_inst len (ok.sup _ _ hc x hx) (ok.target i)
  have flat : ∀ {g : Goal}, g.Closed (W.inst i).gs → g.map (fin s'.σ) = g.map Ty.flat := fun hg => by
    show (⟨_, _⟩ : Goal) = ⟨_, _⟩
    congr 1
    exact List.map_congr_left fun t ht => by unfold fin; rw [Ty.subst_none (hg t ht)]
  have fa := allOf_ok (build_ok ok ha (ha.inst i).2 (fun e he => (installs_iff hE e).1 he) limit) _ h w (fun g hg => by
    obtain ⟨x, hx, rfl⟩ := List.mem_map.1 hg
    refine ⟨fun t ht => ?_, Goal.Arity.map ((ha.cls _ _ hc).2 x hx)⟩
    unfold In
    rw [Ty.subst_none (cl x hx t ht)]
    exact (cl x hx t ht).imp (fun _ h => h.elim) fun _ _ _ => trivial)
  have := fa.sat ss rfl s'.σ fa.wf.done
  refine ⟨c, hc, ?_⟩
  rw [List.map_map] at this
  rwa [show List.map (Goal.map (fin s'.σ) ∘ fun s => s.goal.inst (assoc c.gs (W.inst i).target.args)) c.supers = c.supers.map fun s => (s.goal.inst (assoc c.gs (W.inst i).target.args)).map Ty.flat from
    List.map_congr_left fun x hx => flat (cl x hx), show List.map (Con.map (fin s'.σ)) (W.inst i).ctx = (W.inst i).ctx.map (Con.map Ty.flat) from
    List.map_congr_left fun x hx => by
      show (⟨_, _⟩ : Con) = ⟨_, _⟩
      congr 1
      exact flat (ok.ctx i x hx)] at this

/-! ### It ends when instances require something smaller -/

mutual
theorem eval_mono {X : Nat → List Sat} : ∀ {k : Nat} {θ : Nat → Option Ty} {δ : Nat → Option Dict} {S : Sat} {D : Dict}, eval W X k θ δ S = some D → ∀ {n}, k ≤ n → eval W X n θ δ S = some D
  | 0, _, _, _, _, h, _, _ => nomatch h
  | _ + 1, _, _, _, _, _, 0, l => nomatch l
  | k + 1, θ, δ, .premise id path, D, h, n + 1, l => by
    simp only [eval, Option.bind_eq_bind, Option.bind_eq_some_iff] at h ⊢
    obtain ⟨d, hd, h⟩ := h
    exact ⟨d, hd, walk_mono h (Nat.le_of_succ_le_succ l)⟩
  | k + 1, θ, δ, .inst i tys ss, D, h, n + 1, l => by
    simp only [eval, Option.bind_eq_bind, Option.bind_eq_some_iff] at h ⊢
    obtain ⟨ds, hd, h⟩ := h
    exact ⟨ds, evals_mono hd (Nat.le_of_succ_le_succ l), h⟩
theorem evals_mono {X : Nat → List Sat} : ∀ {k : Nat} {θ : Nat → Option Ty} {δ : Nat → Option Dict} {S : Sats} {D : Dicts}, evals W X k θ δ S = some D → ∀ {n}, k ≤ n → evals W X n θ δ S = some D
  | 0, _, _, _, _, h, _, _ => nomatch h
  | _ + 1, _, _, _, _, _, 0, l => nomatch l
  | k + 1, θ, δ, .nil, D, h, n + 1, l => h
  | k + 1, θ, δ, .cons s ss, D, h, n + 1, l => by
    simp only [evals, Option.bind_eq_bind, Option.bind_eq_some_iff] at h ⊢
    obtain ⟨d, hd, ds, hds, h⟩ := h
    exact ⟨d, eval_mono hd (Nat.le_of_succ_le_succ l), ds, evals_mono hds (Nat.le_of_succ_le_succ l), h⟩
theorem walk_mono {X : Nat → List Sat} : ∀ {k : Nat} {d D : Dict} {path : List Nat}, walk W X k d path = some D → ∀ {n}, k ≤ n → walk W X n d path = some D
  | 0, _, _, _, h, _, _ => nomatch h
  | _ + 1, _, _, _, _, 0, l => nomatch l
  | k + 1, d, D, [], h, n + 1, l => h
  | k + 1, d, D, id :: path, h, n + 1, l => by
    simp only [walk, Option.bind_eq_bind, Option.bind_eq_some_iff] at h ⊢
    obtain ⟨d1, h1, h2⟩ := h
    exact ⟨d1, get_mono h1 (Nat.le_of_succ_le_succ l), walk_mono h2 (Nat.le_of_succ_le_succ l)⟩
theorem get_mono {X : Nat → List Sat} : ∀ {k : Nat} {d D : Dict} {id : Nat}, get W X k d id = some D → ∀ {n}, k ≤ n → get W X n d id = some D
  | 0, _, _, _, h, _, _ => nomatch h
  | _ + 1, _, _, _, _, 0, l => nomatch l
  | k + 1, .mk i tys ds, D, id, h, n + 1, l => by
    simp only [get, Option.bind_eq_bind, Option.bind_eq_some_iff] at h ⊢
    obtain ⟨c, hc, S, hS, h⟩ := h
    exact ⟨c, hc, S, hS, eval_mono h (Nat.le_of_succ_le_succ l)⟩
end

/-- Superclasses of what is smaller than `n` are found. -/
def Gets (W : World) (X : Nat → List Sat) (n : Nat) : Prop := ∀ (g : Goal) (d : Dict) c s, g.size < n → Right W d g → W.cls g.cls = some c → s ∈ c.supers → ∃ k D, get W X k d s.id = some D

theorem walk_ends {X : Nat → List Sat} (ok : W.OK) (ha : W.Arity ar) (hX : Supers W X) (sm : W.Smaller) {n : Nat} (hn : Gets W X n) {path : List Nat} {g g' : Goal} (hs : Sup W g path g') :
    g.Arity ar → g.size < n → ∀ d, Right W d g → ∃ k D, walk W X k d path = some D := by
  induction hs with
  | here g => exact fun _ _ d _ => ⟨1, d, rfl⟩
  | up hk hc _ ih =>
    intro ag hg d hd
    obtain ⟨k1, d1, h1⟩ := hn _ d _ _ hg hd hk hc
    have r1 := get_right ok ha hX k1 hd hk hc h1
    obtain ⟨k2, D, h2⟩ := ih (((ha.cls _ _ hk).2 _ hc).map) (Nat.lt_of_le_of_lt (sm.sup _ _ hk ((show _ = _ from ag).trans (ha.cls _ _ hk).1.symm) _ hc) hg) d1 r1
    refine ⟨k1 + k2 + 1, D, ?_⟩
    simp only [walk, Option.bind_eq_bind, Option.bind_eq_some_iff]
    exact ⟨d1, get_mono h1 (by omega), walk_mono h2 (by omega)⟩

mutual
theorem eval_ends_of {X : Nat → List Sat} (ok : W.OK) (ha : W.Arity ar) (hX : Supers W X) (sm : W.Smaller) {n : Nat} (hn : Gets W X n) {θ : Nat → Option Ty} {δ : Nat → Option Dict} {P : List Con}
    (aP : ∀ c ∈ P, c.goal.Arity ar) (env : Env W θ δ P) (all : ∀ c ∈ P, ∃ d, δ c.id = some d) (hP : ∀ c ∈ P, (c.goal.inst θ).size < n) : ∀ (S : Sat) {g : Goal}, Proves W P S g → ∃ k D, eval W X k θ δ S = some D
  | .premise id path, g, ⟨c, hc, e, hs⟩ => by
    obtain ⟨d, hd⟩ := all c hc
    obtain ⟨k, D, h⟩ := walk_ends ok ha hX sm hn (hs.map (hom_inst θ) ok ha (aP c hc)) (aP c hc).map (hP c hc) d (env c hc d hd)
    refine ⟨k + 1, D, ?_⟩
    simp only [eval, Option.bind_eq_bind, Option.bind_eq_some_iff]
    exact ⟨d, e ▸ hd, h⟩
  | .inst i tys ss, g, ⟨_, _, _, h4⟩ => by
    obtain ⟨k, D, h⟩ := evals_ends_of ok ha hX sm hn aP env all hP ss h4
    refine ⟨k + 1, .mk i (tys.map (Ty.inst θ)) D, ?_⟩
    simp only [eval, Option.bind_eq_bind, Option.bind_eq_some_iff]
    exact ⟨D, h, rfl⟩
theorem evals_ends_of {X : Nat → List Sat} (ok : W.OK) (ha : W.Arity ar) (hX : Supers W X) (sm : W.Smaller) {n : Nat} (hn : Gets W X n) {θ : Nat → Option Ty} {δ : Nat → Option Dict} {P : List Con}
    (aP : ∀ c ∈ P, c.goal.Arity ar) (env : Env W θ δ P) (all : ∀ c ∈ P, ∃ d, δ c.id = some d) (hP : ∀ c ∈ P, (c.goal.inst θ).size < n) : ∀ (S : Sats) {gs : List Goal}, ProvesAll W P S gs → ∃ k D, evals W X k θ δ S = some D
  | .nil, _, _ => ⟨1, .nil, rfl⟩
  | .cons s ss, _, ⟨_, _, _, p1, p2⟩ => by
    obtain ⟨k1, d, h1⟩ := eval_ends_of ok ha hX sm hn aP env all hP s p1
    obtain ⟨k2, ds, h2⟩ := evals_ends_of ok ha hX sm hn aP env all hP ss p2
    refine ⟨k1 + k2 + 1, .cons d ds, ?_⟩
    simp only [evals, Option.bind_eq_bind, Option.bind_eq_some_iff]
    exact ⟨d, eval_mono h1 (by omega), ds, evals_mono h2 (by omega), rfl⟩
end

theorem gets {X : Nat → List Sat} (ok : W.OK) (ha : W.Arity ar) (hX : Supers W X) (sm : W.Smaller) (n : Nat) : Gets W X n := by
  induction n with
  | zero => exact fun _ _ _ _ h => nomatch h
  | succ n ih =>
    intro g d c s hg hd hk hs
    obtain ⟨i, tys, ds⟩ := d
    have hd' := hd
    obtain ⟨_, h2, h3, h4⟩ := hd'
    have ek : W.cls (W.inst i).target.cls = some c := by rw [← hk, ← h3]; rfl
    obtain ⟨S, hS⟩ := proves_assoc_some _ (hX i c ek) hs
    have pr := proves_assoc _ (hX i c ek) (ok.ids _ _ ek) hs hS
    have fits : ∀ x ∈ (W.inst i).ctx.map (Con.map Ty.flat), ∃ y ∈ (W.inst i).ctx, x = y.map Ty.flat ∧ x.goal.inst (assoc (W.inst i).gs tys) = y.goal.inst (assoc (W.inst i).gs tys) := fun x hx => by
      obtain ⟨y, hy, rfl⟩ := List.mem_map.1 hx
      exact ⟨y, hy, rfl, Goal.flat_closed h2 (ok.ctx i y hy)⟩
    have fin : ∃ k D, eval W X k (assoc (W.inst i).gs tys) (assoc ((W.inst i).ctx.map Con.id) ds.toList) S = some D := by
      refine eval_ends_of (P := (W.inst i).ctx.map (Con.map Ty.flat)) (n := n) ok ha hX sm ih ?_ (get_env ok hd) ?_ ?_ S pr
      · intro x hx
        obtain ⟨y, hy, rfl, _⟩ := fits x hx
        exact Goal.Arity.map ((ha.inst i).2 y hy)
      · intro x hx
        obtain ⟨y, hy, rfl, _⟩ := fits x hx
        exact right_assoc_some (c := y) _ h4 hy
      · intro x hx
        obtain ⟨y, hy, rfl, e⟩ := fits x hx
        rw [e]
        have := sm.ctx i tys h2 y hy
        rw [h3] at this
        omega
    obtain ⟨k, D, h⟩ := fin
    refine ⟨k + 1, D, ?_⟩
    simp only [get, Option.bind_eq_bind, Option.bind_eq_some_iff]
    exact ⟨c, ek, S, hS, h⟩

end Verif.Instances
