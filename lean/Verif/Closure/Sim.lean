import Verif.Closure.Model

/-!
# The relation between an expression and its conversion, and that related expressions behave alike
-/
namespace Verif.Closure

/-- Where a source variable lives in the target. -/
abbrev SMap := Id → Option Id

/-- Which static function a local function is, and the variable with its environment. -/
abbrev FMap := Id → Option (Ct × Option Id)

/-- A target variable is hidden by a new binding. -/
def SMap.hide (x : Id) (σ : SMap) : SMap := fun z => if σ z = some x then none else σ z

def SMap.bind (x : Id) (σ : SMap) : SMap := fun z => if z = x then some x else σ.hide x z

def FMap.hide (x : Id) (φ : FMap) : FMap := fun g =>
  match φ g with
  | some (c, some y) => if y = x then none else some (c, some y)
  | r => r

def SMap.bindAll : List Id → SMap → SMap
  | [], σ => σ
  | x :: xs, σ => bindAll xs (σ.bind x)

def FMap.hideAll : List Id → FMap → FMap
  | [], φ => φ
  | x :: xs, φ => hideAll xs (φ.hide x)

/-- Inside a lifted function: what is in its environment. -/
def SMap.inside (r : List (Id × Id)) (σ : SMap) : SMap := fun z => (σ z).bind (look r)

def FMap.inside (r : List (Id × Id)) (φ : FMap) : FMap := fun g =>
  match φ g with
  | some (c, some y) => (look r y).map fun y' => (c, some y')
  | r => r

/-- With the functions of a group. -/
def FMap.own (lifted : List (Id × Ct)) (ee : Option Id) (φ : FMap) : FMap := fun g =>
  match look lifted g with
  | some c => some (c, ee)
  | none => φ g

mutual
/-- The target is the source with its local functions converted; `T` are the target variables in scope, `P'` the static functions. -/
def CC (P' : Prog) : List Id → SMap → FMap → Expr → Expr → Prop
  | _, σ, _, .var x, e' => ∃ y, σ x = some y ∧ e' = .var y
  | _, _, φ, .lfun f, e' => ∃ c, (φ f = some (c, none) ∧ e' = .sfun c) ∨ ∃ y, φ f = some (c, some y) ∧ e' = .sfunEnv c (.var y)
  | _, _, _, .sfun c, e' => e' = .sfun c
  | T, σ, φ, .sfunEnv c e, e' => ∃ e1, CC P' T σ φ e e1 ∧ e' = .sfunEnv c e1
  | _, _, _, .int n, e' => e' = .int n
  | T, σ, φ, .call f as, e' => ∃ f1 as1, CC P' T σ φ f f1 ∧ CCs P' T σ φ as as1 ∧ e' = .call f1 as1
  | T, σ, φ, .prim p as, e' => ∃ as1, CCs P' T σ φ as as1 ∧ e' = .prim p as1
  | T, σ, φ, .seq a b, e' => ∃ a1 b1, CC P' T σ φ a a1 ∧ CC P' T σ φ b b1 ∧ e' = .seq a1 b1
  | T, σ, φ, .ite c t e, e' => ∃ c1 t1 e1, CC P' T σ φ c c1 ∧ CC P' T σ φ t t1 ∧ CC P' T σ φ e e1 ∧ e' = .ite c1 t1 e1
  | T, σ, φ, .while c b, e' => ∃ c1 b1, CC P' T σ φ c c1 ∧ CC P' T σ φ b b1 ∧ e' = .while c1 b1
  | T, σ, φ, .case e cs, e' => ∃ e1 cs1, CC P' T σ φ e e1 ∧ CCc P' T σ φ cs cs1 ∧ e' = .case e1 cs1
  | T, σ, φ, .ret e, e' => ∃ e1, CC P' T σ φ e e1 ∧ e' = .ret e1
  | _, _, _, .never, e' => e' = .never
  | T, σ, φ, .letVar x e b, e' => ∃ e1 b1, CC P' T σ φ e e1 ∧ CC P' (x :: T) (σ.bind x) (φ.hide x) b b1 ∧ e' = .letVar x e1 b1
  | T, σ, φ, .letFun fs b, e' => ∃ (r : List (Id × Id)) (lifted : List (Id × Ct)) (ee : Option Id) (b1 : Expr),
      (r.map (·.2)).Nodup ∧ (∀ y ∈ r.map (·.1), y ∈ T) ∧
      (∀ g, (look lifted g).isSome = (fs.find g).isSome) ∧
      CCf P' (match ee with | some e => e :: r.map (·.2) | none => []) (σ.inside r) ((φ.inside r).own lifted ee) (r.map (·.2)) lifted ee fs ∧
      match ee with
      | none => r = [] ∧ CC P' T σ (φ.own lifted none) b b1 ∧ e' = b1
      | some e => e ∉ r.map (·.2) ∧ CC P' (e :: T) (σ.hide e) ((φ.hide e).own lifted (some e)) b b1 ∧
          e' = .letVar e (.prim .env (varsOf (r.map (·.1)))) b1
def CCs (P' : Prog) : List Id → SMap → FMap → Exprs → Exprs → Prop
  | _, _, _, .nil, es' => es' = .nil
  | T, σ, φ, .cons e es, es' => ∃ e1 es1, CC P' T σ φ e e1 ∧ CCs P' T σ φ es es1 ∧ es' = .cons e1 es1
def CCc (P' : Prog) : List Id → SMap → FMap → Clauses → Clauses → Prop
  | _, _, _, .nil, cs' => cs' = .nil
  | T, σ, φ, .cons p b cs, cs' => ∃ b1 cs1, CC P' (p.vars ++ T) (σ.bindAll p.vars) (φ.hideAll p.vars) b b1 ∧ CCc P' T σ φ cs cs1 ∧
      cs' = .cons p b1 cs1
/-- Every function of the group is lifted. -/
def CCf (P' : Prog) : List Id → SMap → FMap → List Id → List (Id × Ct) → Option Id → Funs → Prop
  | _, _, _, _, _, _, .nil => True
  | T, σ, φ, ys, lifted, ee, .cons f ps b fs =>
      (∃ c b1, look lifted f = some c ∧ P' c = some ⟨ee.map (fun e => (e, ys)), ps, b1⟩ ∧ CC P' (ps ++ T) (σ.bindAll ps) (φ.hideAll ps) b b1) ∧
      CCf P' T σ φ ys lifted ee fs
end

/-- The value of a lifted function. -/
def target (ee : Option Id) (c : Ct) (vs : Vals) : Val :=
  match ee with
  | none => .sclos c
  | some _ => .sclosEnv c vs

mutual
/-- Values that behave alike: a local function and the static function it was lifted to, with an environment that has what it sees. -/
inductive VR (P' : Prog) : Val → Val → Prop
  | int (n : Int) : VR P' (.int n) (.int n)
  | data (t : Nat) {vs vs' : Vals} (h : VsR P' vs vs') : VR P' (.data t vs) (.data t vs')
  | ptr (a : Nat) : VR P' (.ptr a) (.ptr a)
  | env {vs vs' : Vals} (h : VsR P' vs vs') : VR P' (.env vs) (.env vs')
  | sclos (c : Ct) : VR P' (.sclos c) (.sclos c)
  | sclosEnv (c : Ct) {vs vs' : Vals} (h : VsR P' vs vs') : VR P' (.sclosEnv c vs) (.sclosEnv c vs')
  | lclos {fs : Funs} {f : Id} {ρ ρ' : Env} {c : Ct} {vs : Vals} {t : Val} (T : List Id) (σ : SMap) (φ : FMap) (ys : List Id)
      (lifted : List (Id × Ct)) (ee : Option Id)
      (hc : look lifted f = some c) (ht : t = target ee c vs) (hρ : entry (ee.map fun e => (e, ys)) vs = some ρ')
      (hd : ∀ g, (look lifted g).isSome = (fs.find g).isSome)
      (hf : CCf P' T σ (φ.own lifted ee) ys lifted ee fs)
      (hT : ∀ y ∈ T, (ρ'.lookupVar y).isSome)
      (he : ∀ e, ee = some e → ρ'.lookupVar e = some (.env vs))
      (hv : ∀ x y, σ x = some y → (ρ.lookupVar x).isSome ∧ (ρ'.lookupVar y).isSome)
      (hv' : ∀ x y v v', σ x = some y → ρ.lookupVar x = some v → ρ'.lookupVar y = some v' → VR P' v v')
      (hs : ∀ g c, φ g = some (c, none) → (ρ.lookupFun g).isSome)
      (hs' : ∀ g c v, φ g = some (c, none) → ρ.lookupFun g = some v → VR P' v (.sclos c))
      (hn : ∀ g c y, φ g = some (c, some y) → (ρ.lookupFun g).isSome ∧ ∃ ws, ρ'.lookupVar y = some (.env ws))
      (hn' : ∀ g c y v ws, φ g = some (c, some y) → ρ.lookupFun g = some v → ρ'.lookupVar y = some (.env ws) → VR P' v (.sclosEnv c ws)) :
      VR P' (.lclos fs f ρ) t
inductive VsR (P' : Prog) : Vals → Vals → Prop
  | nil : VsR P' .nil .nil
  | cons {v v' : Val} {vs vs' : Vals} (h : VR P' v v') (hs : VsR P' vs vs') : VsR P' (.cons v vs) (.cons v' vs')
end

/-- Environments that behave alike. -/
structure ER (P' : Prog) (T : List Id) (σ : SMap) (φ : FMap) (ρ ρ' : Env) : Prop where
  scope : ∀ y ∈ T, (ρ'.lookupVar y).isSome
  vars : ∀ x y, σ x = some y → ∃ v v', ρ.lookupVar x = some v ∧ ρ'.lookupVar y = some v' ∧ VR P' v v'
  sfuns : ∀ g c, φ g = some (c, none) → ∃ v, ρ.lookupFun g = some v ∧ VR P' v (.sclos c)
  efuns : ∀ g c y, φ g = some (c, some y) → ∃ v ws, ρ.lookupFun g = some v ∧ ρ'.lookupVar y = some (.env ws) ∧ VR P' v (.sclosEnv c ws)

/-- States that behave alike. -/
structure SR (P' : Prog) (s s' : St) : Prop where
  len : s.mem.length = s'.mem.length
  mem : ∀ (i : Nat) (v v' : Val), s.mem[i]? = some v → s'.mem[i]? = some v' → VR P' v v'
  out : s.out = s'.out

/-- Ends that are alike: a source that is stuck promises nothing. -/
inductive OutR (P' : Prog) {α β : Type} (R : α → β → Prop) : Out α → Out β → Prop
  | timeout : OutR P' R .timeout .timeout
  | stuck (o : Out β) : OutR P' R .stuck o
  | ok {a : α} {b : β} {s s' : St} (h : R a b) (hs : SR P' s s') : OutR P' R (.ok a s) (.ok b s')
  | ret {v v' : Val} {s s' : St} (h : VR P' v v') (hs : SR P' s s') : OutR P' R (.ret v s) (.ret v' s')

def MR (P' : Prog) {α β : Type} (R : α → β → Prop) (m : M α) (m' : M β) : Prop := ∀ s s', SR P' s s' → OutR P' R (m s) (m' s')

variable {P' : Prog}

theorem MR.bind {α β γ δ : Type} {R : α → β → Prop} {Q : γ → δ → Prop} {m : M α} {m' : M β} {k : α → M γ} {k' : β → M δ}
    (h : MR P' R m m') (hk : ∀ a b, R a b → MR P' Q (k a) (k' b)) : MR P' Q (m.bind k) (m'.bind k') := by
  intro s s' hs
  have := h s s' hs
  simp only [M.bind]
  revert this
  generalize m s = o
  generalize m' s' = o'
  intro this
  cases this with
  | timeout => exact .timeout
  | stuck => exact .stuck _
  | ok hr hs => exact hk _ _ hr _ _ hs
  | ret hv hs => exact .ret hv hs

theorem MR.pure {α β : Type} {R : α → β → Prop} {a : α} {b : β} (h : R a b) : MR P' R (M.pure a) (M.pure b) := fun _ _ hs => .ok h hs

theorem MR.stuck {α β : Type} {R : α → β → Prop} {m' : M β} : MR P' R (M.stuck : M α) m' := fun _ _ _ => .stuck _

theorem MR.stuck_bind {α β γ : Type} {R : α → β → Prop} {k : γ → M α} {m' : M β} : MR P' R (M.bind M.stuck k) m' := fun _ _ _ => .stuck _

theorem MR.catch {m m' : M Val} (h : MR P' (VR P') m m') : MR P' (VR P') m.catch m'.catch := by
  intro s s' hs
  have := h s s' hs
  simp only [M.catch]
  revert this
  generalize m s = o
  generalize m' s' = o'
  intro this
  cases this with
  | timeout => exact .timeout
  | stuck => exact .stuck _
  | ok hr hs => exact .ok hr hs
  | ret hv hs => exact .ok hv hs

theorem SR.get {s s' : St} (h : SR P' s s') {i : Nat} {v : Val} (hv : s.mem[i]? = some v) : ∃ v', s'.mem[i]? = some v' ∧ VR P' v v' := by
  have hi : i < s.mem.length := by
    rcases Nat.lt_or_ge i s.mem.length with hi | hi
    · exact hi
    · rw [List.getElem?_eq_none hi] at hv; cases hv
  have hi' : i < s'.mem.length := h.len ▸ hi
  exact ⟨s'.mem[i], List.getElem?_eq_getElem hi', h.mem i v _ hv (List.getElem?_eq_getElem hi')⟩

theorem prim_sim (p : Prim) {as as' : Vals} (h : VsR P' as as') : MR P' (VR P') (primStep p as) (primStep p as') := by
  have u : VR P' unit unit := .data 0 .nil
  cases p with
  | data t => exact MR.pure (.data t h)
  | env => exact MR.pure (.env h)
  | alloc =>
    cases h with
    | nil => exact MR.stuck
    | cons h1 h2 =>
      cases h2 with
      | cons _ _ => exact MR.stuck
      | nil =>
        intro s s' hs
        simp only [primStep]
        rw [hs.len]
        refine .ok (.ptr _) ⟨by simp [hs.len], ?_, hs.out⟩
        intro i a b ha hb
        simp only [List.getElem?_append] at ha hb
        rw [hs.len] at ha
        split at ha
        · rw [if_pos ‹_›] at hb
          exact hs.mem i a b ha hb
        · rw [if_neg ‹_›] at hb
          generalize i - s'.mem.length = j at ha hb
          cases j with
          | zero =>
            simp only [List.getElem?_cons_zero, Option.some.injEq] at ha hb
            subst ha; subst hb; exact h1
          | succ j => simp at ha
  | load =>
    cases h with
    | nil => exact MR.stuck
    | cons h1 h2 =>
      cases h2 with
      | cons _ _ => cases h1 <;> exact MR.stuck
      | nil =>
        cases h1 with
        | ptr a =>
          intro s s' hs
          simp only [primStep]
          cases e : s.mem[a]? with
          | none => exact .stuck _
          | some v =>
            obtain ⟨v', e', hv⟩ := hs.get e
            rw [e']
            exact .ok hv hs
        | _ => exact MR.stuck
  | store =>
    cases h with
    | nil => exact MR.stuck
    | cons h1 h2 =>
      cases h2 with
      | nil => cases h1 <;> exact MR.stuck
      | cons h2 h3 =>
        cases h3 with
        | cons _ _ => cases h2 <;> exact MR.stuck
        | nil =>
          cases h2 with
          | ptr a =>
            intro s s' hs
            simp only [primStep]
            rw [hs.len]
            split
            · refine .ok u ⟨by simp [hs.len], ?_, hs.out⟩
              intro i x y hx hy
              simp only [List.getElem?_set, hs.len] at hx hy
              split at hx
              · rw [if_pos ‹a = i›, if_pos ‹_›] at hy
                cases hx; cases hy; exact h1
              · rw [if_neg ‹_›] at hy
                exact hs.mem i x y hx hy
            · exact .stuck _
          | _ => exact MR.stuck
  | print =>
    cases h with
    | nil => exact MR.stuck
    | cons h1 h2 =>
      cases h2 with
      | cons _ _ => cases h1 <;> exact MR.stuck
      | nil =>
        cases h1 with
        | int n =>
          intro s s' hs
          exact .ok u ⟨hs.len, hs.mem, by simp [hs.out]⟩
        | _ => exact MR.stuck
  | _ =>
    cases h with
    | nil => exact MR.stuck
    | cons h1 h2 =>
      cases h2 with
      | nil => cases h1 <;> exact MR.stuck
      | cons h2 h3 =>
        cases h3 with
        | cons _ _ => cases h1 <;> cases h2 <;> exact MR.stuck
        | nil =>
          cases h1 with
          | int a =>
            cases h2 with
            | int b => exact MR.pure (.int _)
            | _ => exact MR.stuck
          | _ => exact MR.stuck

/-! ## Environments -/

theorem ER.var {T : List Id} {σ : SMap} {φ : FMap} {ρ ρ' : Env} (h : ER P' T σ φ ρ ρ') (x : Id) {v v' : Val} (hv : VR P' v v') :
    ER P' (x :: T) (σ.bind x) (φ.hide x) (.var x v ρ) (.var x v' ρ') := by
  refine ⟨?_, ?_, ?_, ?_⟩
  · intro y hy
    simp only [Env.lookupVar]
    split
    · rfl
    · exact h.scope y ((List.mem_cons.1 hy).resolve_left fun e => ‹¬x = y› e.symm)
  · intro z y hz
    simp only [SMap.bind, SMap.hide] at hz
    simp only [Env.lookupVar]
    split at hz
    · cases hz
      subst_vars
      exact ⟨v, v', by simp, by simp, hv⟩
    · split at hz
      · cases hz
      · rename_i h1 h2
        have : x ≠ y := fun e => h2 (by rw [hz, e])
        rw [if_neg (Ne.symm h1), if_neg this]
        exact h.vars z y hz
  · intro g c hg
    simp only [FMap.hide] at hg
    refine h.sfuns g c ?_
    revert hg
    generalize φ g = q
    rcases q with _ | ⟨c', _ | y⟩
    · exact id
    · exact id
    · simp only; split <;> intro hg <;> cases hg
  · intro g c y hg
    simp only [FMap.hide] at hg
    have : φ g = some (c, some y) ∧ y ≠ x := by
      revert hg
      generalize φ g = q
      rcases q with _ | ⟨c', _ | y'⟩
      · intro hg; cases hg
      · intro hg; cases hg
      · simp only; split <;> intro hg <;> cases hg
        exact ⟨rfl, ‹_›⟩
    obtain ⟨w, ws, h1, h2, h3⟩ := h.efuns g c y this.1
    exact ⟨w, ws, h1, by simp only [Env.lookupVar]; rw [if_neg (Ne.symm this.2)]; exact h2, h3⟩

theorem ER.mono {T T' : List Id} {σ : SMap} {φ : FMap} {ρ ρ' : Env} (h : ER P' T σ φ ρ ρ') (hT : ∀ y ∈ T', y ∈ T) : ER P' T' σ φ ρ ρ' :=
  ⟨fun y hy => h.scope y (hT y hy), h.vars, h.sfuns, h.efuns⟩

theorem ER.bindAll : ∀ (xs : List Id) {T : List Id} {σ : SMap} {φ : FMap} {ρ ρ' : Env} {vs vs' : Vals} {ρ1 : Env}, ER P' T σ φ ρ ρ' → VsR P' vs vs' →
    Env.bindAll xs vs ρ = some ρ1 → ∃ ρ1', Env.bindAll xs vs' ρ' = some ρ1' ∧ ER P' (xs ++ T) (σ.bindAll xs) (φ.hideAll xs) ρ1 ρ1'
  | [], T, σ, φ, ρ, ρ', vs, vs', ρ1, h, hv, e => by
    cases hv with
    | nil => simp only [Env.bindAll, Option.some.injEq] at e; subst e; exact ⟨ρ', rfl, h⟩
    | cons _ _ => simp [Env.bindAll] at e
  | x :: xs, T, σ, φ, ρ, ρ', vs, vs', ρ1, h, hv, e => by
    cases hv with
    | nil => simp [Env.bindAll] at e
    | cons h1 h2 =>
      simp only [Env.bindAll] at e ⊢
      obtain ⟨ρ1', e', h'⟩ := ER.bindAll xs (h.var x h1) h2 e
      exact ⟨ρ1', e', h'.mono fun y hy => by simp at hy ⊢; rcases hy with hy | hy | hy <;> simp [hy]⟩

theorem bindAll_append (xs zs : List Id) (σ : SMap) : σ.bindAll (xs ++ zs) = (σ.bindAll xs).bindAll zs := by
  induction xs generalizing σ with
  | nil => rfl
  | cons x xs ih => exact ih _

theorem hideAll_append (xs zs : List Id) (φ : FMap) : φ.hideAll (xs ++ zs) = (φ.hideAll xs).hideAll zs := by
  induction xs generalizing φ with
  | nil => rfl
  | cons x xs ih => exact ih _

/-- Matching: alike, with the same variables bound. -/
def MatchR (P' : Prog) (T : List Id) (σ : SMap) (φ : FMap) (m m' : Matched) : Prop :=
  match m with
  | .stuck => True
  | .no => m' = .no
  | .yes ρ => ∃ ρ', m' = .yes ρ' ∧ ER P' T σ φ ρ ρ'

mutual
theorem pmatch_sim {s s' : St} (hs : SR P' s s') : ∀ (p : Pat) {v v' : Val} (_ : VR P' v v') {T : List Id} {σ : SMap} {φ : FMap} {ρ ρ' : Env}
    (_ : ER P' T σ φ ρ ρ'), MatchR P' (p.vars ++ T) (σ.bindAll p.vars) (φ.hideAll p.vars) (pmatch s.mem p v ρ) (pmatch s'.mem p v' ρ')
  | .wild, v, v', hv, T, σ, φ, ρ, ρ', h => ⟨ρ', by simp [pmatch], h⟩
  | .var x p, v, v', hv, T, σ, φ, ρ, ρ', h => by
    have := pmatch_sim hs p hv (h.var x hv)
    simp only [pmatch, Pat.vars]
    revert this
    generalize pmatch s.mem p v _ = m
    cases m with
    | stuck => exact id
    | no => exact id
    | yes ρ1 =>
      rintro ⟨ρ1', e, h'⟩
      exact ⟨ρ1', e, h'.mono fun y hy => by simp at hy ⊢; rcases hy with hy | hy | hy <;> simp [hy]⟩
  | .int n, v, v', hv, T, σ, φ, ρ, ρ', h => by
    cases hv with
    | int m =>
      simp only [pmatch]
      split
      · exact ⟨ρ', rfl, h⟩
      · rfl
    | _ => exact trivial
  | .data t ps, v, v', hv, T, σ, φ, ρ, ρ', h => by
    cases hv with
    | data u hv =>
      simp only [pmatch]
      split
      · exact pmatchs_sim hs ps hv h
      · rfl
    | _ => exact trivial
  | .deref p, v, v', hv, T, σ, φ, ρ, ρ', h => by
    cases hv with
    | ptr a =>
      simp only [pmatch]
      cases e : s.mem[a]? with
      | none => exact trivial
      | some v =>
        obtain ⟨v', e', hv⟩ := hs.get e
        rw [e']
        exact pmatch_sim hs p hv h
    | _ => exact trivial
theorem pmatchs_sim {s s' : St} (hs : SR P' s s') : ∀ (ps : Pats) {vs vs' : Vals} (_ : VsR P' vs vs') {T : List Id} {σ : SMap} {φ : FMap} {ρ ρ' : Env}
    (_ : ER P' T σ φ ρ ρ'), MatchR P' (ps.vars ++ T) (σ.bindAll ps.vars) (φ.hideAll ps.vars) (pmatchs s.mem ps vs ρ) (pmatchs s'.mem ps vs' ρ')
  | .nil, vs, vs', hv, T, σ, φ, ρ, ρ', h => by
    cases hv with
    | nil => exact ⟨ρ', by simp [pmatchs], h⟩
    | cons _ _ => exact trivial
  | .cons p ps, vs, vs', hv, T, σ, φ, ρ, ρ', h => by
    cases hv with
    | nil => exact trivial
    | cons h1 h2 =>
      have := pmatch_sim hs p h1 h
      simp only [pmatchs, Pats.vars]
      revert this
      generalize pmatch s.mem p _ ρ = m
      generalize pmatch s'.mem p _ ρ' = m'
      cases m with
      | stuck => exact fun _ => trivial
      | no => intro e; cases e; rfl
      | yes ρ1 =>
        rintro ⟨ρ1', rfl, h'⟩
        have := pmatchs_sim hs ps h2 h'
        rw [bindAll_append, hideAll_append]
        simp only
        revert this
        generalize pmatchs s.mem ps _ ρ1 = m
        cases m with
        | stuck => exact id
        | no => exact id
        | yes ρ2 =>
          rintro ⟨ρ2', e, h'⟩
          exact ⟨ρ2', e, h'.mono fun y hy => by simp at hy ⊢; rcases hy with hy | hy | hy <;> simp [hy]⟩
end

/-! ## The simulation -/

theorem ER.lookups {T : List Id} {σ : SMap} {φ : FMap} {ρ ρ' : Env} (h : ER P' T σ φ ρ ρ') : ∀ (ys : List Id), (∀ y ∈ ys, y ∈ T) →
    ∃ vs : Vals, (∀ (app : Val → Vals → M Val) (k : Nat), evals app k (varsOf ys) ρ' = M.pure vs) ∧
      (∀ (ns : List Id) (ρ0 : Env), ns.length = ys.length → ∃ ρ1, Env.bindAll ns vs ρ0 = some ρ1 ∧
        (∀ z, z ∉ ns → ρ1.lookupVar z = ρ0.lookupVar z) ∧
        (∀ n ∈ ns, (ρ1.lookupVar n).isSome) ∧
        (ns.Nodup → ∀ y n, look (ys.zip ns) y = some n → ρ1.lookupVar n = ρ'.lookupVar y))
  | [], _ => ⟨.nil, fun _ _ => rfl, fun ns ρ0 hl => by
      cases ns with
      | nil => exact ⟨ρ0, rfl, fun _ _ => rfl, nofun, fun _ => nofun⟩
      | cons _ _ => cases hl⟩
  | y :: ys, hy => by
    obtain ⟨vs, h1, h2⟩ := ER.lookups h ys fun z hz => hy z (List.mem_cons_of_mem _ hz)
    have hyT := h.scope y (hy y List.mem_cons_self)
    obtain ⟨v, hv⟩ := Option.isSome_iff_exists.1 hyT
    refine ⟨.cons v vs, ?_, ?_⟩
    · intro app k
      simp only [varsOf, evals, eval, hv, h1]
      rfl
    · intro ns ρ0 hl
      cases ns with
      | nil => cases hl
      | cons n ns =>
        obtain ⟨ρ1, e, a, b, c⟩ := h2 ns (.var n v ρ0) (Nat.succ.inj hl)
        refine ⟨ρ1, e, ?_, ?_, ?_⟩
        · intro z hz
          rw [a z fun m => hz (List.mem_cons_of_mem _ m)]
          simp only [Env.lookupVar]
          rw [if_neg fun e => hz (by rw [e]; exact List.mem_cons_self)]
        · intro m hm
          by_cases hm' : m ∈ ns
          · exact b m hm'
          · rw [a m hm']
            simp only [Env.lookupVar]
            rw [if_pos ((List.mem_cons.1 hm).resolve_right hm').symm]
            rfl
        · intro hd z m hz
          simp only [List.zip_cons_cons, look] at hz
          split at hz
          · cases hz
            subst_vars
            rw [a n (List.nodup_cons.1 hd).1, hv]
            simp [Env.lookupVar]
          · exact c (List.nodup_cons.1 hd).2 z m hz

/-- What the functions of a group see, with the group itself. -/
theorem ER.group {T : List Id} {σ : SMap} {φ : FMap} {ρ ρ' : Env} {fs : Funs} {ys : List Id} {lifted : List (Id × Ct)} {ee : Option Id} {vs : Vals}
    {ρ0 : Env} {T0 : List Id} {σ0 : SMap} {φ0 : FMap}
    (h : ER P' T σ φ ρ ρ')
    (he : ∀ e, ee = some e → ρ'.lookupVar e = some (.env vs))
    (h0 : ER P' T0 σ0 φ0 ρ ρ0)
    (h0e : ∀ e, ee = some e → ρ0.lookupVar e = some (.env vs))
    (hρ : entry (ee.map fun e => (e, ys)) vs = some ρ0)
    (hd : ∀ g, (look lifted g).isSome = (fs.find g).isSome)
    (hf : CCf P' T0 σ0 (φ0.own lifted ee) ys lifted ee fs) :
    ER P' T σ (φ.own lifted ee) (.funs fs ρ) ρ' := by
  have key : ∀ g c, look lifted g = some c → VR P' (.lclos fs g ρ) (target ee c vs) := by
    intro g c hg
    refine .lclos T0 σ0 φ0 ys lifted ee hg rfl hρ hd hf h0.scope h0e ?_ ?_ ?_ ?_ ?_ ?_
    · intro x y hx
      obtain ⟨v, v', a, b, _⟩ := h0.vars x y hx
      simp [a, b]
    · intro x y v v' hx ha hb
      obtain ⟨w, w', a, b, c⟩ := h0.vars x y hx
      rw [a] at ha; rw [b] at hb; cases ha; cases hb; exact c
    · intro g c hg
      obtain ⟨v, a, _⟩ := h0.sfuns g c hg
      simp [a]
    · intro g c v hg ha
      obtain ⟨w, a, b⟩ := h0.sfuns g c hg
      rw [a] at ha; cases ha; exact b
    · intro g c y hg
      obtain ⟨v, ws, a, b, _⟩ := h0.efuns g c y hg
      exact ⟨by simp [a], ws, b⟩
    · intro g c y v ws hg ha hb
      obtain ⟨w, ws', a, b, d⟩ := h0.efuns g c y hg
      rw [a] at ha; rw [b] at hb; cases ha; cases hb; exact d
  refine ⟨h.scope, ?_, ?_, ?_⟩
  · intro x y hx
    exact h.vars x y hx
  · intro g c hg
    simp only [FMap.own] at hg
    simp only [Env.lookupFun]
    have hdg := hd g
    cases hl : look lifted g with
    | some c' =>
      rw [hl] at hg hdg
      simp only [Option.some.injEq, Prod.mk.injEq] at hg
      obtain ⟨d, hfd⟩ := Option.isSome_iff_exists.1 hdg.symm
      rw [hfd]
      refine ⟨_, rfl, ?_⟩
      have := key g c' hl
      rw [hg.2, hg.1] at this
      exact this
    | none =>
      rw [hl] at hg hdg
      cases hfd : fs.find g with
      | some d => rw [hfd] at hdg; cases hdg
      | none => exact h.sfuns g c hg
  · intro g c y hg
    simp only [FMap.own] at hg
    simp only [Env.lookupFun]
    have hdg := hd g
    cases hl : look lifted g with
    | some c' =>
      rw [hl] at hg hdg
      simp only [Option.some.injEq, Prod.mk.injEq] at hg
      obtain ⟨d, hfd⟩ := Option.isSome_iff_exists.1 hdg.symm
      rw [hfd]
      refine ⟨_, vs, rfl, he y hg.2, ?_⟩
      have := key g c' hl
      rw [hg.2, hg.1] at this
      exact this
    | none =>
      rw [hl] at hg hdg
      cases hfd : fs.find g with
      | some d => rw [hfd] at hdg; cases hdg
      | none => exact h.efuns g c y hg

/-- A variable of the target that hides others. -/
theorem ER.hide {T : List Id} {σ : SMap} {φ : FMap} {ρ ρ' : Env} (h : ER P' T σ φ ρ ρ') (e : Id) (v : Val) :
    ER P' (e :: T) (σ.hide e) (φ.hide e) ρ (.var e v ρ') := by
  refine ⟨?_, ?_, ?_, ?_⟩
  · intro y hy
    simp only [Env.lookupVar]
    split
    · rfl
    · exact h.scope y ((List.mem_cons.1 hy).resolve_left fun e' => ‹¬e = y› e'.symm)
  · intro x y hx
    simp only [SMap.hide] at hx
    split at hx
    · cases hx
    · rename_i h2
      have : e ≠ y := fun e' => h2 (by rw [hx, e'])
      simp only [Env.lookupVar]
      rw [if_neg this]
      exact h.vars x y hx
  · intro g c hg
    simp only [FMap.hide] at hg
    refine h.sfuns g c ?_
    revert hg
    generalize φ g = q
    rcases q with _ | ⟨c', _ | y⟩
    · exact id
    · exact id
    · simp only; split <;> intro hg <;> cases hg
  · intro g c y hg
    simp only [FMap.hide] at hg
    have : φ g = some (c, some y) ∧ y ≠ e := by
      revert hg
      generalize φ g = q
      rcases q with _ | ⟨c', _ | y'⟩
      · intro hg; cases hg
      · intro hg; cases hg
      · simp only; split <;> intro hg <;> cases hg
        exact ⟨rfl, ‹_›⟩
    obtain ⟨w, ws, h1, h2, h3⟩ := h.efuns g c y this.1
    exact ⟨w, ws, h1, by simp only [Env.lookupVar]; rw [if_neg (Ne.symm this.2)]; exact h2, h3⟩

theorem zip_fst_snd : ∀ (r : List (Id × Id)), (r.map (·.1)).zip (r.map (·.2)) = r
  | [] => rfl
  | (a, b) :: r => by simp [zip_fst_snd r]

/-- Inside: what the environment of the lifted functions holds. -/
theorem ER.inside {T : List Id} {σ : SMap} {φ : FMap} {ρ ρ' ρ1 : Env} (h : ER P' T σ φ ρ ρ') (r : List (Id × Id)) (T0 : List Id)
    (hT : ∀ y ∈ T0, (ρ1.lookupVar y).isSome)
    (hr : ∀ y n, look r y = some n → ρ1.lookupVar n = ρ'.lookupVar y) : ER P' T0 (σ.inside r) (φ.inside r) ρ ρ1 := by
  refine ⟨hT, ?_, ?_, ?_⟩
  · intro x n hx
    simp only [SMap.inside] at hx
    cases hσ : σ x with
    | none => rw [hσ] at hx; cases hx
    | some y =>
      rw [hσ] at hx
      obtain ⟨v, v', a, b, c⟩ := h.vars x y hσ
      exact ⟨v, v', a, by rw [hr y n hx, b], c⟩
  · intro g c hg
    simp only [FMap.inside] at hg
    refine h.sfuns g c ?_
    revert hg
    generalize φ g = q
    rcases q with _ | ⟨c', _ | y⟩
    · exact id
    · exact id
    · simp only
      cases look r y <;> intro hg <;> cases hg
  · intro g c n hg
    simp only [FMap.inside] at hg
    have : ∃ y, φ g = some (c, some y) ∧ look r y = some n := by
      revert hg
      generalize φ g = q
      rcases q with _ | ⟨c', _ | y⟩
      · intro hg; cases hg
      · intro hg; cases hg
      · simp only
        cases e : look r y with
        | none => intro hg; cases hg
        | some n' => intro hg; cases hg; exact ⟨y, rfl, e⟩
    obtain ⟨y, h1, h2⟩ := this
    obtain ⟨v, ws, a, b, d⟩ := h.efuns g c y h1
    exact ⟨v, ws, a, by rw [hr y n h2, b], d⟩

theorem branch_sim {v v' : Val} (hv : VR P' v v') {t e t' e' : M Val} (ht : MR P' (VR P') t t') (he : MR P' (VR P') e e') :
    MR P' (VR P') (branch v t e) (branch v' t' e') := by
  cases hv with
  | int n =>
    simp only [branch]
    split
    · exact he
    · exact ht
  | _ => exact MR.stuck

theorem loop_sim {c b c' b' : M Val} (hc : MR P' (VR P') c c') (hb : MR P' (VR P') b b') : ∀ k, MR P' (VR P') (loop k c b) (loop k c' b')
  | 0 => fun _ _ _ => .timeout
  | k + 1 => MR.bind hc fun _ _ hv => branch_sim hv (MR.bind hb fun _ _ _ => loop_sim hc hb k) (MR.pure (.data 0 .nil))

mutual
theorem eval_sim {app app' : Val → Vals → M Val} (ha : ∀ v v' as as', VR P' v v' → VsR P' as as' → MR P' (VR P') (app v as) (app' v' as')) (k : Nat) :
    ∀ (e : Expr) {e' : Expr} {T : List Id} {σ : SMap} {φ : FMap} {ρ ρ' : Env}, CC P' T σ φ e e' → ER P' T σ φ ρ ρ' →
      MR P' (VR P') (eval app k e ρ) (eval app' k e' ρ')
  | .var x, e', T, σ, φ, ρ, ρ', hc, h => by
    obtain ⟨y, hy, rfl⟩ := hc
    obtain ⟨v, v', a, b, c⟩ := h.vars x y hy
    simp only [eval, a, b]
    exact MR.pure c
  | .lfun f, e', T, σ, φ, ρ, ρ', hc, h => by
    obtain ⟨c, ⟨hy, rfl⟩ | ⟨y, hy, rfl⟩⟩ := hc
    · obtain ⟨v, a, b⟩ := h.sfuns f c hy
      simp only [eval, a]
      exact MR.pure b
    · obtain ⟨v, ws, a, b, d⟩ := h.efuns f c y hy
      simp only [eval, a, b]
      exact fun _ _ hs => .ok d hs
  | .sfun c, e', T, σ, φ, ρ, ρ', hc, h => by cases hc; exact MR.pure (.sclos c)
  | .sfunEnv c e, e', T, σ, φ, ρ, ρ', hc, h => by
    obtain ⟨e1, he, rfl⟩ := hc
    refine MR.bind (eval_sim ha k e he h) fun v v' hv => ?_
    cases hv with
    | env hv => exact MR.pure (.sclosEnv c hv)
    | _ => exact MR.stuck
  | .int n, e', T, σ, φ, ρ, ρ', hc, h => by cases hc; exact MR.pure (.int n)
  | .call f as, e', T, σ, φ, ρ, ρ', hc, h => by
    obtain ⟨f1, as1, h1, h2, rfl⟩ := hc
    exact MR.bind (eval_sim ha k f h1 h) fun v v' hv => MR.bind (evals_sim ha k as h2 h) fun vs vs' hvs => ha v v' vs vs' hv hvs
  | .prim p as, e', T, σ, φ, ρ, ρ', hc, h => by
    obtain ⟨as1, h2, rfl⟩ := hc
    exact MR.bind (evals_sim ha k as h2 h) fun vs vs' hvs => prim_sim p hvs
  | .seq a b, e', T, σ, φ, ρ, ρ', hc, h => by
    obtain ⟨a1, b1, h1, h2, rfl⟩ := hc
    exact MR.bind (eval_sim ha k a h1 h) fun _ _ _ => eval_sim ha k b h2 h
  | .ite c t e, e', T, σ, φ, ρ, ρ', hc, h => by
    obtain ⟨c1, t1, e1, h1, h2, h3, rfl⟩ := hc
    exact MR.bind (eval_sim ha k c h1 h) fun v v' hv => branch_sim hv (eval_sim ha k t h2 h) (eval_sim ha k e h3 h)
  | .while c b, e', T, σ, φ, ρ, ρ', hc, h => by
    obtain ⟨c1, b1, h1, h2, rfl⟩ := hc
    exact loop_sim (eval_sim ha k c h1 h) (eval_sim ha k b h2 h) k
  | .case e cs, e', T, σ, φ, ρ, ρ', hc, h => by
    obtain ⟨e1, cs1, h1, h2, rfl⟩ := hc
    exact MR.bind (eval_sim ha k e h1 h) fun v v' hv => evalClauses_sim ha k cs h2 hv h
  | .ret e, e', T, σ, φ, ρ, ρ', hc, h => by
    obtain ⟨e1, h1, rfl⟩ := hc
    exact MR.bind (eval_sim ha k e h1 h) fun v v' hv _ _ hs => .ret hv hs
  | .never, e', T, σ, φ, ρ, ρ', hc, h => MR.stuck
  | .letVar x e b, e', T, σ, φ, ρ, ρ', hc, h => by
    obtain ⟨e1, b1, h1, h2, rfl⟩ := hc
    exact MR.bind (eval_sim ha k e h1 h) fun v v' hv => eval_sim ha k b h2 (h.var x hv)
  | .letFun fs b, e', T, σ, φ, ρ, ρ', hc, h => by
    obtain ⟨r, lifted, ee, b1, hn, hT, hd, hf, hb⟩ := hc
    simp only [eval]
    cases ee with
    | none =>
      obtain ⟨rfl, hb, rfl⟩ := hb
      refine eval_sim ha k b hb ?_
      have h0 : ER P' [] (σ.inside []) (φ.inside []) ρ .nil := h.inside [] [] nofun nofun
      exact ER.group (vs := .nil) (ys := []) h nofun h0 nofun rfl hd hf
    | some e =>
      obtain ⟨he, hb, rfl⟩ := hb
      obtain ⟨vs, hev, hbind⟩ := h.lookups (r.map (·.1)) hT
      obtain ⟨ρ0, e0, keep, some0, look0⟩ := hbind (r.map (·.2)) (.var e (.env vs) .nil) (by simp)
      rw [zip_fst_snd] at look0
      have hev' : eval app' k (.letVar e (.prim .env (varsOf (r.map (·.1)))) b1) ρ' = eval app' k b1 (.var e (.env vs) ρ') := by
        simp only [eval, hev]
        rfl
      rw [hev']
      refine eval_sim ha k b hb ?_
      have hee : ρ0.lookupVar e = some (.env vs) := by
        rw [keep e he]
        simp [Env.lookupVar]
      have h0 : ER P' (e :: r.map (·.2)) (σ.inside r) (φ.inside r) ρ ρ0 := by
        refine h.inside r _ ?_ (look0 hn)
        intro y hy
        rcases List.mem_cons.1 hy with rfl | hy
        · rw [hee]; rfl
        · exact some0 y hy
      refine ER.group (vs := vs) (h.hide e (.env vs)) ?_ h0 ?_ (show entry (some (e, r.map (·.2))) vs = some ρ0 from e0) hd hf
      · intro e2 he2; cases he2
        simp [Env.lookupVar]
      · intro e2 he2; cases he2
        exact hee
theorem evals_sim {app app' : Val → Vals → M Val} (ha : ∀ v v' as as', VR P' v v' → VsR P' as as' → MR P' (VR P') (app v as) (app' v' as')) (k : Nat) :
    ∀ (es : Exprs) {es' : Exprs} {T : List Id} {σ : SMap} {φ : FMap} {ρ ρ' : Env}, CCs P' T σ φ es es' → ER P' T σ φ ρ ρ' →
      MR P' (VsR P') (evals app k es ρ) (evals app' k es' ρ')
  | .nil, es', T, σ, φ, ρ, ρ', hc, h => by cases hc; exact MR.pure .nil
  | .cons e es, es', T, σ, φ, ρ, ρ', hc, h => by
    obtain ⟨e1, es1, h1, h2, rfl⟩ := hc
    exact MR.bind (eval_sim ha k e h1 h) fun v v' hv => MR.bind (evals_sim ha k es h2 h) fun vs vs' hvs => MR.pure (.cons hv hvs)
theorem evalClauses_sim {app app' : Val → Vals → M Val} (ha : ∀ v v' as as', VR P' v v' → VsR P' as as' → MR P' (VR P') (app v as) (app' v' as'))
    (k : Nat) : ∀ (cs : Clauses) {cs' : Clauses} {T : List Id} {σ : SMap} {φ : FMap} {ρ ρ' : Env} {v v' : Val}, CCc P' T σ φ cs cs' → VR P' v v' →
      ER P' T σ φ ρ ρ' → MR P' (VR P') (evalClauses app k cs v ρ) (evalClauses app' k cs' v' ρ')
  | .nil, cs', T, σ, φ, ρ, ρ', v, v', hc, hv, h => MR.stuck
  | .cons p b cs, cs', T, σ, φ, ρ, ρ', v, v', hc, hv, h => by
    obtain ⟨b1, cs1, h1, h2, rfl⟩ := hc
    intro s s' hs
    have := pmatch_sim hs p hv h
    simp only [evalClauses]
    revert this
    generalize pmatch s.mem p v ρ = m
    cases m with
    | stuck => exact fun _ => .stuck _
    | no =>
      intro e
      rw [show pmatch s'.mem p v' ρ' = .no from e]
      exact evalClauses_sim ha k cs h2 hv h s s' hs
    | yes ρ1 =>
      rintro ⟨ρ1', e, h'⟩
      rw [e]
      exact eval_sim ha k b h1 h' s s' hs
end

/-- Programs: every definition of the source is in the target with its body converted. -/
def PR (P P' : Prog) : Prop :=
  ∀ c d, P c = some d → ∃ b', P' c = some { d with body := b' } ∧
    CC P' (d.params ++ (match d.env with | some (e, ys) => e :: ys | none => []))
      (SMap.bindAll d.params (match d.env with | some (e, ys) => SMap.bindAll ys (SMap.bind e fun _ => none) | none => fun _ => none))
      (fun _ => none) d.body b'

theorem hideAll_none : ∀ (xs : List Id), FMap.hideAll xs (fun _ => none) = fun _ => none
  | [] => rfl
  | x :: xs => by
    rw [FMap.hideAll]
    exact hideAll_none xs

theorem ER.empty : ER P' [] (fun _ => none) (fun _ => none) .nil .nil := ⟨nofun, nofun, nofun, nofun⟩

theorem find_ccf {T : List Id} {σ : SMap} {φ : FMap} {ys : List Id} {lifted : List (Id × Ct)} {ee : Option Id} : ∀ {fs : Funs} {f : Id} {ps : List Id}
    {b : Expr}, CCf P' T σ φ ys lifted ee fs → fs.find f = some (ps, b) →
    ∃ c b1, look lifted f = some c ∧ P' c = some ⟨ee.map (fun e => (e, ys)), ps, b1⟩ ∧ CC P' (ps ++ T) (σ.bindAll ps) (φ.hideAll ps) b b1
  | .nil, _, _, _, _, h => nomatch h
  | .cons g qs a fs, f, ps, b, hc, h => by
    simp only [Funs.find] at h
    split at h
    · cases h
      subst_vars
      exact hc.1
    · exact find_ccf hc.2 h

theorem apply_sim {P : Prog} (hP : PR P P') : ∀ (k : Nat) (v v' : Val) (as as' : Vals), VR P' v v' → VsR P' as as' →
    MR P' (VR P') (apply P k v as) (apply P' k v' as')
  | 0, _, _, _, _, _, _ => fun _ _ _ => .timeout
  | k + 1, v, v', as, as', hv, has => by
    have ih := apply_sim hP k
    have params : ∀ {T : List Id} {σ : SMap} {φ : FMap} {ρ ρ' : Env} (ps : List Id) {b b1 : Expr}, ER P' T σ φ ρ ρ' →
        CC P' (ps ++ T) (σ.bindAll ps) (φ.hideAll ps) b b1 →
        MR P' (VR P') ((M.of (Env.bindAll ps as ρ)).bind fun ρ => (eval (apply P k) k b ρ).catch)
          ((M.of (Env.bindAll ps as' ρ')).bind fun ρ => (eval (apply P' k) k b1 ρ).catch) := by
      intro T σ φ ρ ρ' ps b b1 h hb
      cases e : Env.bindAll ps as ρ with
      | none => exact MR.stuck_bind
      | some ρ1 =>
        obtain ⟨ρ1', e', h'⟩ := ER.bindAll ps h has e
        rw [e']
        exact (MR.catch (eval_sim ih k b hb h'))
    cases hv with
    | int => exact MR.stuck
    | data => exact MR.stuck
    | ptr => exact MR.stuck
    | env => exact MR.stuck
    | sclos c =>
      simp only [apply]
      cases e : P c with
      | none => exact MR.stuck_bind
      | some d =>
        obtain ⟨b', e', hb⟩ := hP c d e
        rw [e']
        cases he : d.env with
        | some q =>
          intro s s' hs
          simp only [M.of, M.bind, M.pure, he]
          exact .stuck _
        | none =>
          have := params d.params (ER.empty (P' := P')) (b := d.body) (b1 := b') (by rw [hideAll_none]; rw [he] at hb; exact hb)
          intro s s' hs
          simp only [M.of, M.bind, M.pure, he]
          exact this s s' hs
    | sclosEnv c hvs =>
      rename_i vs vs'
      simp only [apply]
      cases e : P c with
      | none => exact MR.stuck_bind
      | some d =>
        obtain ⟨b', e', hb⟩ := hP c d e
        rw [e']
        cases he : d.env with
        | none =>
          intro s s' hs
          simp only [M.of, M.bind, M.pure, he]
          exact .stuck _
        | some q =>
          obtain ⟨q, ys⟩ := q
          rw [he] at hb
          cases hen : entry (some (q, ys)) vs with
          | none =>
            intro s s' hs
            simp only [M.of, M.bind, M.pure, he, hen]
            exact .stuck _
          | some ρ =>
            have hq : ER P' [q] (SMap.bind q fun _ => none) (fun _ => none) (.var q (.env vs) .nil) (.var q (.env vs') .nil) :=
              ER.var ER.empty q (.env hvs)
            obtain ⟨ρ1, e1, h1⟩ := ER.bindAll ys hq hvs hen
            rw [hideAll_none] at h1
            have h1 : ER P' (q :: ys) _ _ _ _ := { h1 with scope := fun y hy => h1.scope y (by simpa [or_comm] using hy) }
            have := params d.params h1 (b := d.body) (b1 := b') (by rw [hideAll_none]; exact hb)
            intro s s' hs
            have e1' : entry (some (q, ys)) vs' = some ρ1 := e1
            simp only [M.of, M.bind, M.pure, he, hen, e1']
            exact this s s' hs
    | lclos T σ φ ys lifted ee hc ht hρ hd hf hT he hv hv' hs hs' hn hn' =>
      rename_i fs f ρ ρ' c vs
      have h0 : ER P' T σ φ ρ ρ' := by
        refine ⟨hT, ?_, ?_, ?_⟩
        · intro x y hx
          obtain ⟨a, b⟩ := hv x y hx
          obtain ⟨v, a⟩ := Option.isSome_iff_exists.1 a
          obtain ⟨v', b⟩ := Option.isSome_iff_exists.1 b
          exact ⟨v, v', a, b, hv' x y v v' hx a b⟩
        · intro g c hg
          obtain ⟨v, a⟩ := Option.isSome_iff_exists.1 (hs g c hg)
          exact ⟨v, a, hs' g c v hg a⟩
        · intro g c y hg
          obtain ⟨a, ws, b⟩ := hn g c y hg
          obtain ⟨v, a⟩ := Option.isSome_iff_exists.1 a
          exact ⟨v, ws, a, b, hn' g c y v ws hg a b⟩
      have h1 : ER P' T σ (φ.own lifted ee) (.funs fs ρ) ρ' := ER.group (vs := vs) (ys := ys) h0 he h0 he hρ hd hf
      simp only [apply]
      cases e : fs.find f with
      | none => exact MR.stuck_bind
      | some d =>
        obtain ⟨ps, b⟩ := d
        obtain ⟨c2, b1, hc2, hP', hb⟩ := find_ccf hf e
        rw [hc] at hc2
        cases hc2
        have := params ps h1 hb
        subst ht
        cases ee with
        | none =>
          simp only [target, apply, hP']
          cases hρ
          intro s s' hs
          simp only [M.of, M.bind, M.pure, Option.map]
          exact this s s' hs
        | some e0 =>
          simp only [target, apply, hP']
          intro s s' hs
          simp only [Option.map] at hρ
          simp only [M.of, M.bind, M.pure, Option.map, hρ]
          exact this s s' hs

/-- Related programs end alike. -/
theorem run_sim {P : Prog} (hP : PR P P') {main main' : Expr} (hm : CC P' [] (fun _ => none) (fun _ => none) main main') (k : Nat) :
    OutR P' (VR P') (run P main k) (run P' main' k) :=
  MR.catch (eval_sim (apply_sim hP k) k main hm ER.empty) _ _ ⟨rfl, nofun, rfl⟩

end Verif.Closure
