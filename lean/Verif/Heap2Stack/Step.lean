import Verif.Heap2Stack.Sim

/-
The two runs stay in step, by induction on the number of steps.
-/

namespace Verif.Heap2Stack

variable {prog : List Fn} {prim : Prim} {P : List Nat} {L : Links}

theorem sim_val {fr : Nat} {v : V} {σ σ' : State} (hv : v.clean (hidden P)) (hi : Inv P L σ σ')
    (hf : fr < σ.frames) :
    Sim P L fr (V.clean (hidden P)) (.ok (.ok v, σ)) (.ok (.ok v, σ')) := ⟨σ', rfl, hi, hf, hv⟩

theorem sim_exit {α : Type} {Q : α → Prop} {fr : Nat} {x : Exit} {σ σ' : State}
    (hv : x.clean (hidden P)) (hi : Inv P L σ σ') (hf : fr < σ.frames) :
    Sim P L fr Q (.ok (.error x, σ)) (.ok (.error x, σ')) := ⟨σ', rfl, hi, hf, hv⟩

theorem left_sub {A B : List Nat} : ∀ s ∈ A, s ∈ A ++ B := fun _ h => List.mem_append.2 (Or.inl h)

theorem right_sub {A B : List Nat} : ∀ s ∈ B, s ∈ A ++ B := fun _ h => List.mem_append.2 (Or.inr h)

/-- Loading through a pointer. -/
theorem sim_load {fr : Nat} {v : V} {σ σ' : State} (hv : v.clean (hidden P)) (hi : Inv P L σ σ')
    (hf : fr < σ.frames) :
    Sim P L fr (V.clean (hidden P))
      (match (generalizing := false) v with
        | .ptr a =>
          match σ.mem a with
          | some w => .ok (.ok w, σ)
          | none => .error .stuck
        | _ => .error .stuck)
      (match (generalizing := false) v with
        | .ptr a =>
          match σ'.mem a with
          | some w => .ok (.ok w, σ')
          | none => .error .stuck
        | _ => .error .stuck) := by
  cases v with
  | ptr a =>
    obtain ⟨h1, h2⟩ := hi.agree a hv
    simp only [← h1]
    cases hm : σ.mem a with
    | none => exact True.intro
    | some w => exact sim_val (h2 w hm) hi hf
  | _ => exact True.intro

/-- Storing through a pointer. -/
theorem sim_store {fr : Nat} {v p : V} {σ σ' : State} (hv : v.clean (hidden P))
    (hp : p.clean (hidden P)) (hi : Inv P L σ σ') (hf : fr < σ.frames) :
    Sim P L fr (V.clean (hidden P))
      (match (generalizing := false) p with
        | .ptr a =>
          match σ.mem a with
          | some _ => .ok (.ok (.word 0), { σ with mem := σ.mem.set a v })
          | none => .error .stuck
        | _ => .error .stuck)
      (match (generalizing := false) p with
        | .ptr a =>
          match σ'.mem a with
          | some _ => .ok (.ok (.word 0), { σ' with mem := σ'.mem.set a v })
          | none => .error .stuck
        | _ => .error .stuck) := by
  cases p with
  | ptr a =>
    obtain ⟨h1, h2⟩ := hi.agree a hp
    simp only [← h1]
    cases hm : σ.mem a with
    | none => exact True.intro
    | some w =>
      have := hi.setOpen hp hv σ.tick (Nat.le_refl _)
      refine sim_val trivial ?_ hf
      have e : ({ σ' with mem := σ'.mem.set a v } : State) =
          { σ' with mem := σ'.mem.set a v, tick := σ.tick } := by rw [← hi.tick]
      rw [e]; exact this
  | _ => exact True.intro

/-- A let that moves its first allocation or not, given the step before. -/
theorem steps_letVar (n : Nat) (ih : ∀ m < n + 1, Steps prog prim P m) (fr : Nat) (ρ ρ' : Env)
    (x : Nat) (i : Rt) (vs : Vars) (b : Rt) (σ σ' : State)
    (ho : Ok P none (.letVar (.cons x i vs) b)) (hn : (sites (.letVar (.cons x i vs) b)).Nodup)
    (hs : SiteOk fr L (sites (.letVar (.cons x i vs) b)))
    (he : EnvOk P L (escs (.letVar (.cons x i vs) b)) ρ ρ') (hi : Inv P L σ σ')
    (hf : fr < σ.frames) :
    Sim P L fr (V.clean (hidden P)) (eval prog prim (n + 1) fr ρ (.letVar (.cons x i vs) b) σ)
      (eval (markFns P prog) prim (n + 1) fr ρ' (mark P false (.letVar (.cons x i vs) b)) σ') := by
  simp only [Ok, OkVars, sites, sitesVars, escs, escsVars, List.nodup_append] at ho hn hs he
  obtain ⟨⟨⟨ni, nv, d1⟩, nb, d2⟩, ⟨oi, ov⟩, ob⟩ := And.intro hn ho
  have orest : Ok P none (.letVar vs b) := by
    simp only [Ok]
    exact ⟨okVars_mono vs _ _ (fun y hy => by
      rw [List.mem_append] at hy
      simp only [List.mem_append]
      exact hy.imp Or.inr id) ov, ob⟩
  have nrest : (sites (.letVar vs b)).Nodup := by
    simp only [sites, List.nodup_append]
    exact ⟨nv, nb, fun a ha c hc => d2 a (right_sub a ha) c hc⟩
  have srest : SiteOk fr L (sites (.letVar vs b)) := hs.mono (fun y hy => by
    simp only [sites, List.mem_append] at hy ⊢
    exact hy.imp Or.inr id)
  have erest : ∀ y ∈ escs (.letVar vs b), y ∈ escs i ++ escsVars vs ++ escs b := fun y hy => by
    simp only [escs, List.mem_append] at hy ⊢
    exact hy.imp Or.inr id
  have si : SiteOk fr L (sites i) := hs.mono (fun y hy => left_sub y (left_sub y hy))
  have ei : EnvOk P L (escs i) ρ ρ' := he.mono (fun y hy => left_sub y (left_sub y hy))
  simp only [eval, mark, markVars]
  rcases init_cases i x _ oi with ⟨s, j, rfl, hsP, hx, oj⟩ | ⟨e1, oi'⟩
  · cases n with
    | zero => simp only [eval]; rfl
    | succ k =>
      simp only [sites, List.nodup_cons] at ni si
      simp only [eval, mark, hsP, and_true, if_true]
      have hj := (ih k (by omega)).eval fr ρ ρ' j σ σ' L oj ni.2
        (si.mono (fun y hy => List.mem_cons_of_mem _ hy))
        (ei.mono (fun y hy => by simpa only [escs] using hy)) hi hf
      -- the value of the initial expression, then the new link
      generalize eval prog prim k fr ρ j σ = r at hj
      generalize eval (markFns P prog) prim k fr ρ' (mark P false j) σ' = r' at hj
      match r, hj with
      | .error .stuck, _ => exact True.intro
      | .error .fuel, h => simp only [Sim] at h; subst h; rfl
      | .ok (.error y, τ), h =>
        obtain ⟨τ', rfl, h1, h2, h3⟩ := h
        exact ⟨τ', rfl, h1, h2, h3⟩
      | .ok (.ok v, τ), h =>
        obtain ⟨τ', rfl, h1, h2, h3⟩ := h
        simp only [Res.bind]
        refine Sim.weaken (l := (.heap τ.tick s, .stack fr s)) ?_
        have hinv := h1.newLink (fr := fr) hsP h3 h2 (fun a hl => hs a s hl (by simp [sites]))
        refine (ih (k + 1) (by omega)).eval fr _ _ (.letVar vs b) _ _ _ orest nrest ?_ ?_
          hinv h2
        · intro a t hl
          rcases List.mem_cons.1 hl with e | hl
          · cases e
            simp only [sites, List.mem_append, not_or]
            exact ⟨fun q => d1 s (by simp [sites]) s q rfl,
              fun q => d2 s (by simp [sites]) s q rfl⟩
          · exact srest a t hl
        · intro y
          by_cases e : y = x
          · subst e
            refine Or.inr ⟨fun q => hx (by
              simp only [escs, List.mem_append] at q
              simp only [escsVars, List.mem_append]
              exact q.imp Or.inr id), .heap τ.tick s, .stack fr s, List.mem_cons_self .., ?_, ?_⟩
            · simp [Env.set]
            · simp [Env.set]
          · have := (he.mono erest).cons (l := (Addr.heap τ.tick s, Addr.stack fr s)) y
            simpa only [Env.set, if_neg e] using this
  · rw [e1]
    refine sim_bind ((ih n (Nat.lt_succ_self n)).eval fr ρ ρ' i σ σ' L oi' ni si ei hi hf) ?_
    intro v τ τ' hv hi' hf'
    exact (ih n (Nat.lt_succ_self n)).eval fr _ _ (.letVar vs b) τ τ' L orest nrest srest
      ((he.mono erest).set x v hv) hi' hf'

theorem steps_load (n : Nat) (ih : ∀ m < n + 1, Steps prog prim P m) (fr : Nat) (ρ ρ' : Env)
    (p : Rt) (σ σ' : State) (ho : Ok P none (.load p)) (hn : (sites (.load p)).Nodup)
    (hs : SiteOk fr L (sites (.load p))) (he : EnvOk P L (escs (.load p)) ρ ρ')
    (hi : Inv P L σ σ') (hf : fr < σ.frames) :
    Sim P L fr (V.clean (hidden P)) (eval prog prim (n + 1) fr ρ (.load p) σ)
      (eval (markFns P prog) prim (n + 1) fr ρ' (mark P false (.load p)) σ') := by
  simp only [Ok, sites] at ho hn hs
  simp only [eval, mark]
  rcases load_cases p with ⟨x, rfl⟩ | ⟨-, e2⟩
  · cases n with
    | zero => simp only [eval]; rfl
    | succ k =>
      simp only [eval, mark]
      rcases he x with ⟨h1, h2⟩ | ⟨-, a, q, hl, h1, h2⟩
      · rw [h1]
        cases hx : ρ x with
        | none => exact True.intro
        | some v => exact sim_load (h2 v hx) hi hf
      · rw [h1, h2]
        obtain ⟨-, -, -, -, v, m1, m2, hv⟩ := hi.link a q hl
        simp only [Res.bind, m1, m2]
        exact sim_val hv hi hf
  · rw [e2] at he
    refine sim_bind ((ih n (Nat.lt_succ_self n)).eval fr ρ ρ' p σ σ' L ho hn hs he hi hf) ?_
    intro v τ τ' hv hi' hf'
    exact sim_load hv hi' hf'

theorem steps_store (n : Nat) (ih : ∀ m < n + 1, Steps prog prim P m) (fr : Nat) (ρ ρ' : Env)
    (w p : Rt) (σ σ' : State) (ho : Ok P none (.store w p)) (hn : (sites (.store w p)).Nodup)
    (hs : SiteOk fr L (sites (.store w p))) (he : EnvOk P L (escs (.store w p)) ρ ρ')
    (hi : Inv P L σ σ') (hf : fr < σ.frames) :
    Sim P L fr (V.clean (hidden P)) (eval prog prim (n + 1) fr ρ (.store w p) σ)
      (eval (markFns P prog) prim (n + 1) fr ρ' (mark P false (.store w p)) σ') := by
  simp only [Ok, sites, List.nodup_append] at ho hn hs
  simp only [eval, mark]
  have ew : EnvOk P L (escs w) ρ ρ' := by
    rcases store_cases w p with ⟨x, rfl⟩ | ⟨-, e2⟩
    · simpa only [escs] using he
    · rw [e2] at he; exact he.mono left_sub
  refine sim_bind ((ih n (Nat.lt_succ_self n)).eval fr ρ ρ' w σ σ' L ho.1 hn.1
    (hs.mono left_sub) ew hi hf) ?_
  intro v τ τ' hv hi' hf'
  rcases store_cases w p with ⟨x, rfl⟩ | ⟨-, e2⟩
  · cases n with
    | zero => simp only [eval]; rfl
    | succ k =>
      simp only [eval, mark]
      rcases he x with ⟨h1, h2⟩ | ⟨-, a, q, hl, h1, h2⟩
      · rw [h1]
        cases hx : ρ x with
        | none => exact True.intro
        | some v' => exact sim_store hv (h2 v' hx) hi' hf'
      · rw [h1, h2]
        obtain ⟨-, -, -, -, v', m1, m2, hv'⟩ := hi'.link a q hl
        simp only [Res.bind, m1, m2]
        exact sim_val trivial (hi'.setLink hl hv) hf'
  · rw [e2] at he
    refine sim_bind ((ih n (Nat.lt_succ_self n)).eval fr ρ ρ' p τ τ' L ho.2 hn.2.1
      (hs.mono right_sub) (he.mono right_sub) hi' hf') ?_
    intro q υ υ' hq hi'' hf''
    exact sim_store hv hq hi'' hf''

theorem markFns_get (prog : List Fn) (f : Nat) :
    (markFns P prog)[f]? = (prog[f]?).map fun f => { f with body := mark P false f.body } := by
  simp [markFns]

theorem steps (hP : ∀ f ∈ prog, Ok P none f.body ∧ (sites f.body).Nodup) (hprim : prim.Local) :
    ∀ n, Steps prog prim P n := by
  intro n
  induction n using Nat.strongRecOn with
  | _ n ih =>
  cases n with
  | zero =>
    refine ⟨?_, ?_, ?_, ?_⟩
    · intros; simp only [eval]; rfl
    · intros; simp only [evalList]; rfl
    · intros; simp only [apply]; rfl
    · intros; simp only [handle]; rfl
  | succ n =>
  have IH := ih n (Nat.lt_succ_self n)
  refine ⟨?_, ?_, ?_, ?_⟩
  · intro fr ρ ρ' e σ σ' L ho hn hs he hi hf
    cases e with
    | var x =>
      simp only [eval, mark]
      rcases he x with ⟨h1, h2⟩ | ⟨h1, -⟩
      · rw [h1]
        cases hx : ρ x with
        | none => exact True.intro
        | some v => exact sim_val (h2 v hx) hi hf
      · exact absurd (by simp [escs]) h1
    | fn f => simp only [eval, mark]; exact sim_val trivial hi hf
    | never => simp only [eval]; exact True.intro
    | clos f e =>
      simp only [Ok, sites, escs] at ho hn hs he
      simp only [eval, mark]
      refine sim_bind (IH.eval fr ρ ρ' e σ σ' L ho hn hs he hi hf) ?_
      intro v τ τ' hv hi' hf'
      exact sim_val hv hi' hf'
    | panic e =>
      simp only [Ok, sites, escs] at ho hn hs he
      simp only [eval, mark]
      refine sim_bind (IH.eval fr ρ ρ' e σ σ' L ho hn hs he hi hf) ?_
      intro v τ τ' hv hi' hf'
      exact sim_exit hv hi' hf'
    | ret e =>
      simp only [Ok, sites, escs] at ho hn hs he
      simp only [eval, mark]
      refine sim_bind (IH.eval fr ρ ρ' e σ σ' L ho hn hs he hi hf) ?_
      intro v τ τ' hv hi' hf'
      exact sim_exit hv hi' hf'
    | prim op as =>
      simp only [Ok, sites, escs] at ho hn hs he
      simp only [eval, mark]
      refine sim_bind (IH.list fr ρ ρ' as σ σ' L ho hn hs he hi hf) ?_
      intro vs τ τ' hv hi' hf'
      cases hp : prim op vs τ.mem τ.tick with
      | none => exact True.intro
      | some q =>
        obtain ⟨v, m, t⟩ := q
        obtain ⟨h1, h2, h3, m', h4, h5, h6⟩ := hprim P op vs _ _ _ _ _ _ hi'.agree hv hp
        rw [hi'.tick, h4]
        refine sim_val h2 ⟨rfl, hi'.frames, h5, ?_, hi'.inj⟩ hf'
        intro a p hl
        obtain ⟨l1, l2, ⟨k, s, e, hk⟩, l4, w, l5, l6, l7⟩ := hi'.link a p hl
        exact ⟨l1, l2, ⟨k, s, e, Nat.lt_of_lt_of_le hk h1⟩, l4, w, (h3 a l1).trans l5,
          (h6 p l2).trans l6, l7⟩
    | contCall k as =>
      simp only [Ok, sites, escs] at ho hn hs he
      simp only [eval, mark]
      refine sim_bind (IH.list fr ρ ρ' as σ σ' L ho hn hs he hi hf) ?_
      intro vs τ τ' hv hi' hf'
      exact sim_exit hv hi' hf'
    | call c as =>
      simp only [Ok, sites, escs, List.nodup_append] at ho hn hs he
      simp only [eval, mark]
      refine sim_bind (IH.list fr ρ ρ' as σ σ' L ho.2 hn.2.1 (hs.mono right_sub)
        (he.mono right_sub) hi hf) ?_
      intro vs τ τ' hv hi' hf'
      refine sim_bind (IH.eval fr ρ ρ' c τ τ' L ho.1 hn.1 (hs.mono left_sub)
        (he.mono left_sub) hi' hf') ?_
      intro f υ υ' hfc hi'' hf''
      exact IH.app fr f vs υ υ' L hfc hv hi'' hf''
    | load p => exact steps_load n ih fr ρ ρ' p σ σ' ho hn hs he hi hf
    | store v p => exact steps_store n ih fr ρ ρ' v p σ σ' ho hn hs he hi hf
    | alloc l s i =>
      simp only [Ok, sites, escs, List.nodup_cons] at ho hn hs he
      have hsP : s ∉ P := fun q => by
        obtain ⟨-, x, E, e, -⟩ := ho.1 q; cases e
      simp only [eval, mark]
      refine sim_bind (IH.eval fr ρ ρ' i σ σ' L ho.2 hn.2
        (hs.mono (fun y hy => List.mem_cons_of_mem _ hy)) he hi hf) ?_
      intro v τ τ' hv hi' hf'
      cases l with
      | heap =>
        have ha : hidden P (.heap τ.tick s) = false := by simp [hidden, hsP]
        have := hi'.setOpen ha hv (τ.tick + 1) (Nat.le_succ _)
        simp only [hi'.tick]
        exact sim_val ha this hf'
      | stackStatic =>
        have ha : hidden P (.stack fr s) = false := by simp [hidden, hsP]
        have := hi'.setOpen ha hv (τ.tick + 1) (Nat.le_succ _)
        simp only [hi'.tick]
        exact sim_val ha this hf'
    | seq ss e =>
      simp only [Ok, sites, escs, List.nodup_append] at ho hn hs he
      simp only [eval, mark]
      refine sim_bind (IH.list fr ρ ρ' ss σ σ' L ho.1 hn.1 (hs.mono left_sub)
        (he.mono left_sub) hi hf) ?_
      intro vs τ τ' hv hi' hf'
      exact IH.eval fr ρ ρ' e τ τ' L ho.2 hn.2.1 (hs.mono right_sub) (he.mono right_sub) hi' hf'
    | ite c t e =>
      simp only [Ok, sites, escs] at ho hn hs he
      rw [List.nodup_append] at hn
      have hn1 := List.nodup_append.1 hn.1
      simp only [eval, mark]
      refine sim_bind (IH.eval fr ρ ρ' c σ σ' L ho.1 hn1.1
        (hs.mono fun y hy => left_sub y (left_sub y hy))
        (he.mono fun y hy => left_sub y (left_sub y hy)) hi hf) ?_
      intro v τ τ' hv hi' hf'
      cases v with
      | word k =>
        cases k with
        | zero =>
          exact IH.eval fr ρ ρ' e τ τ' L ho.2.2 hn.2.1 (hs.mono right_sub) (he.mono right_sub)
            hi' hf'
        | succ k =>
          exact IH.eval fr ρ ρ' t τ τ' L ho.2.1 hn1.2.1
            (hs.mono fun y hy => left_sub y (right_sub y hy))
            (he.mono fun y hy => left_sub y (right_sub y hy)) hi' hf'
      | _ => exact True.intro
    | «while» c b =>
      have ho' := ho
      have hn' := hn
      have hs' := hs
      have he' := he
      simp only [Ok, sites, escs, List.nodup_append] at ho hn hs he
      simp only [eval, mark]
      refine sim_bind (IH.eval fr ρ ρ' c σ σ' L ho.1 hn.1 (hs.mono left_sub)
        (he.mono left_sub) hi hf) ?_
      intro v τ τ' hv hi' hf'
      cases v with
      | word k =>
        cases k with
        | zero => exact sim_val trivial hi' hf'
        | succ k =>
          refine sim_bind (IH.eval fr ρ ρ' b τ τ' L ho.2 hn.2.1 (hs.mono right_sub)
            (he.mono right_sub) hi' hf') ?_
          intro _ υ υ' _ hi'' hf''
          have := IH.eval fr ρ ρ' (.while c b) υ υ' L ho' hn' hs' he' hi'' hf''
          simpa only [mark] using this
      | _ => exact True.intro
    | letVar vs b =>
      cases vs with
      | nil =>
        simp only [Ok, sites, escs, sitesVars, escsVars, List.nil_append] at ho hn hs he
        simp only [eval, mark, markVars]
        exact IH.eval fr ρ ρ' b σ σ' L ho.2 hn hs he hi hf
      | cons x i vs => exact steps_letVar n ih fr ρ ρ' x i vs b σ σ' ho hn hs he hi hf
    | letCont ks b =>
      simp only [Ok, sites, escs, List.nodup_append] at ho hn hs he
      simp only [eval, mark]
      exact IH.handle fr ρ ρ' ks _ _ L ho.1 hn.1 (hs.mono left_sub) (he.mono left_sub)
        (IH.eval fr ρ ρ' b σ σ' L ho.2 hn.2.1 (hs.mono right_sub) (he.mono right_sub) hi hf)
  · intro fr ρ ρ' es σ σ' L ho hn hs he hi hf
    cases es with
    | nil =>
      simp only [evalList, markList]
      exact ⟨σ', rfl, hi, hf, by simp⟩
    | cons e es =>
      simp only [OkList, sitesList, escsList, List.nodup_append] at ho hn hs he
      simp only [evalList, markList]
      refine sim_bind (IH.eval fr ρ ρ' e σ σ' L ho.1 hn.1 (hs.mono left_sub)
        (he.mono left_sub) hi hf) ?_
      intro v τ τ' hv hi' hf'
      refine sim_bind (IH.list fr ρ ρ' es τ τ' L ho.2 hn.2.1 (hs.mono right_sub)
        (he.mono right_sub) hi' hf') ?_
      intro vs υ υ' hvs hi'' hf''
      exact ⟨υ', rfl, hi'', hf'', fun w hw => (List.mem_cons.1 hw).elim (fun e => e ▸ hv) (hvs w)⟩
  · intro fr f vs σ σ' L hfc hv hi hf
    cases f with
    | clos f env =>
      simp only [apply, markFns_get]
      cases hg : prog[f]? with
      | none => exact True.intro
      | some fn =>
        simp only [Option.map_some]
        have hmem := List.mem_of_getElem? hg
        cases h1 : Env.setEnv (fun _ => none) fn.env env with
        | none => exact True.intro
        | some ρ₀ =>
          simp only [Option.bind_some]
          cases h2 : ρ₀.setAll fn.params vs with
          | none => exact True.intro
          | some ρ =>
            have e0 : EnvOk P L (escs fn.body) (fun _ => none) (fun _ => none) :=
              fun x => Or.inl ⟨rfl, fun v h => by cases h⟩
            obtain ⟨ρ₀', g1, e1⟩ := EnvOk.setEnv fn.env env _ _ _ e0 hfc h1
            obtain ⟨ρ', g2, e2⟩ := EnvOk.setAll fn.params vs _ _ _ e1 hv h2
            rw [h1] at g1; cases g1
            rw [h2] at g2; cases g2
            have hlt : ∀ a p, (a, p) ∈ L → ∀ s, p ≠ .stack σ.frames s := by
              intro a p hl s e
              obtain ⟨-, -, -, ⟨g, t, e', hg'⟩, -⟩ := hi.link a p hl
              rw [e] at e'; cases e'; exact Nat.lt_irrefl _ hg'
            have hinv : Inv P L { σ with frames := σ.frames + 1 }
                { σ' with frames := σ.frames + 1 } := by
              refine ⟨hi.tick, rfl, hi.agree, ?_, hi.inj⟩
              intro a p hl
              obtain ⟨l1, l2, l3, ⟨g, s, e, hg'⟩, l5⟩ := hi.link a p hl
              exact ⟨l1, l2, l3, ⟨g, s, e, Nat.lt_succ_of_lt hg'⟩, l5⟩
            have hrun := IH.eval σ.frames ρ ρ fn.body _ _ L (hP fn hmem).1 (hP fn hmem).2
              (fun a s hl _ => hlt a _ hl s rfl) e2 hinv (Nat.lt_succ_self _)
            simp only [hi.frames]
            generalize eval prog prim n σ.frames ρ fn.body { σ with frames := σ.frames + 1 } = r
              at hrun
            generalize eval (markFns P prog) prim n σ.frames ρ (mark P false fn.body)
              { σ' with frames := σ.frames + 1 } = r' at hrun
            match r, hrun with
            | .error .stuck, _ => exact True.intro
            | .error .fuel, h => simp only [Sim] at h; subst h; rfl
            | .ok (.ok v, τ), h =>
              obtain ⟨τ', rfl, q1, q2, q3⟩ := h
              exact ⟨_, rfl, q1.pop σ.frames hlt, Nat.lt_trans hf q2, q3⟩
            | .ok (.error (.ret v), τ), h =>
              obtain ⟨τ', rfl, q1, q2, q3⟩ := h
              exact ⟨_, rfl, q1.pop σ.frames hlt, Nat.lt_trans hf q2, q3⟩
            | .ok (.error (.panic v), τ), h =>
              obtain ⟨τ', rfl, q1, q2, q3⟩ := h
              exact ⟨_, rfl, q1, Nat.lt_trans hf q2, q3⟩
            | .ok (.error (.jump k v), τ), h => exact True.intro
    | _ => exact True.intro
  · intro fr ρ ρ' ks r r' L ho hn hs he hr
    match r, hr with
    | .error .stuck, _ => simp only [handle]; exact True.intro
    | .error .fuel, h => simp only [Sim] at h; subst h; simp only [handle]; rfl
    | .ok (.ok v, τ), h =>
      obtain ⟨τ', rfl, q⟩ := h
      simp only [handle]; exact ⟨τ', rfl, q⟩
    | .ok (.error (.ret v), τ), h =>
      obtain ⟨τ', rfl, q⟩ := h
      simp only [handle]; exact ⟨τ', rfl, q⟩
    | .ok (.error (.panic v), τ), h =>
      obtain ⟨τ', rfl, q⟩ := h
      simp only [handle]; exact ⟨τ', rfl, q⟩
    | .ok (.error (.jump k vs), τ), h =>
      obtain ⟨τ', rfl, q1, q2, q3⟩ := h
      simp only [handle, find_mark]
      cases hk : ks.find k with
      | none => exact ⟨τ', rfl, q1, q2, q3⟩
      | some q =>
        obtain ⟨ps, b⟩ := q
        obtain ⟨o1, o2, o3, o4⟩ := find_ok ks k ps b hk ho hn
        simp only [Option.map_some]
        cases h1 : ρ.setAll ps vs with
        | none => exact True.intro
        | some ρ₁ =>
          obtain ⟨ρ₁', g1, e1⟩ := EnvOk.setAll ps vs _ _ _ he q3 h1
          simp only [g1]
          exact IH.handle fr ρ ρ' ks _ _ L ho hn hs he
            (IH.eval fr ρ₁ ρ₁' b τ τ' L o1 o2 (hs.mono o3) (e1.mono o4) q1 q2)

end Verif.Heap2Stack
