import Verif.Branch.Spec
namespace Verif.Branch

open Verif Spec

variable {V : Type}

/-! ## The meaning of parts -/

/-- The value of the place a part describes. -/
def value (S : Sem V) (v : V) : Part → Option V
  | .root _ => some v
  | .bind _ q | .null q | .const _ q => value S v q
  | .deref q | .nonNull q => (value S v q).bind S.load
  | .elem _ i q => (value S v q).bind (S.elem i)
  | .reint ty q => (value S v q).bind (S.reint ty)
  | .body q => (value S v q).bind S.body

/-- The part's own condition on the value of its parent. -/
def ptest (S : Sem V) : Part → V → Option Bool
  | .nonNull _, x => some !(S.isNull x)
  | .null _, x => some (S.isNull x)
  | .const c _, x => if S.equals c x then some true else if c = .unit then none else some false
  | _, _ => some true

def step (a : Option Bool) (b : Option V) (t : V → Option Bool) : Option Bool :=
  match a with
  | none => none
  | some false => some false
  | some true => b.bind t

/-- Whether the conditions of a part and all its ancestors hold, checked from the root. -/
def sat (S : Sem V) (v : V) : Part → Option Bool
  | .root _ => some true
  | .bind i q => step (sat S v q) (value S v q) (ptest S (.bind i q))
  | .null q => step (sat S v q) (value S v q) (ptest S (.null q))
  | .const c q => step (sat S v q) (value S v q) (ptest S (.const c q))
  | .deref q => step (sat S v q) (value S v q) (ptest S (.deref q))
  | .nonNull q => step (sat S v q) (value S v q) (ptest S (.nonNull q))
  | .elem t i q => step (sat S v q) (value S v q) (ptest S (.elem t i q))
  | .reint t q => step (sat S v q) (value S v q) (ptest S (.reint t q))
  | .body q => step (sat S v q) (value S v q) (ptest S (.body q))

def isRoot : Part → Bool
  | .root _ => true
  | _ => false

def container : Part → Bool
  | .bind _ _ | .null _ | .const _ _ => false
  | _ => true

/-- All strict ancestors are containers, the root has type `ty`, and the constants are among `cs`. -/
def wf (ty : Nat) (cs : List Const) : Part → Prop
  | .root t => t = ty
  | .const c q => c ∈ cs ∧ container q = true ∧ wf ty cs q
  | .bind _ q | .null q | .deref q | .nonNull q | .elem _ _ q | .reint _ q | .body q =>
    container q = true ∧ wf ty cs q

theorem wf_parent {ty cs} {p : Part} (h : wf ty cs p) : wf ty cs p.parent ∧ container p.parent = true := by
  cases p <;> simp_all [wf, Part.parent, container]

theorem sat_eq (S : Sem V) (v : V) {p : Part} (h : isRoot p = false) :
    sat S v p = step (sat S v p.parent) (value S v p.parent) (ptest S p) := by
  cases p <;> first | rfl | simp [isRoot] at h

theorem value_get (S : Sem V) (v : V) {p : Part} {g : Get} (h : p.get = some g) :
    value S v p = (value S v p.parent).bind (evalGet S g) := by
  cases p <;> simp [Part.get] at h <;> subst h <;> rfl

theorem ptest_some (S : Sem V) {p : Part} {t : Test} (h : p.test = some t) (x : V) :
    ptest S p x = some (evalTest S t x) := by
  cases p with
  | const c q =>
    cases c <;> simp [Part.test] at h <;> subst h <;> simp [ptest, evalTest] <;> (split <;> simp_all)
  | _ => simp [Part.test] at h <;> subst h <;> rfl

theorem ptest_none (S : Sem V) {p : Part} (h : p.test = none) (x : V) :
    ptest S p x = some true ∨ ptest S p x = none := by
  cases p with
  | const c q =>
    cases c <;> simp [Part.test] at h
    simp only [ptest]
    split <;> simp
  | nonNull q => simp [Part.test] at h
  | null q => simp [Part.test] at h
  | _ => exact .inl rfl

/-- Running through the parts of one clause. -/
def evalParts (S : Sem V) (v : V) : List Part → Option (Option (List V))
  | [] => some (some [])
  | p :: ps =>
    match sat S v p with
    | none => none
    | some false => some none
    | some true =>
      if p.isBind then
        match value S v p with
        | none => none
        | some x =>
          match evalParts S v ps with
          | none => none
          | some none => some none
          | some (some vs) => some (some (x :: vs))
      else evalParts S v ps

def evalClauses (S : Sem V) (v : V) : List Clause → Option (Out V)
  | [] => some .never
  | (ps, id) :: rest =>
    match evalParts S v ps with
    | none => none
    | some none => evalClauses S v rest
    | some (some vs) => some (.call id vs)

/-- The remaining parts of a clause, with the arguments found so far. -/
def evalRest (S : Sem V) (v : V) (as : List V) (ps : List Part) (id : Nat) (rest : List Clause) : Option (Out V) :=
  match evalParts S v ps with
  | none => none
  | some none => evalClauses S v rest
  | some (some vs) => some (.call id (as ++ vs))

/-! ## Progress -/

/-- Structural facts about the progress: the root has a variable, and the parent of a satisfied part too. -/
structure Good (ty : Nat) (cs : List Const) (g : Progress) : Prop where
  root : ∃ r, HMap.get g.determined (.root ty) = some (some (some r))
  parent : ∀ p o, HMap.get g.determined p = some (some o) → isRoot p = false →
    ∃ x, HMap.get g.determined p.parent = some (some (some x))
  range : ∀ r ps, HMap.get g.range r = some ps → ∀ q ∈ ps, isRoot q = false ∧ q.parent = r ∧ wf ty cs q ∧
    ∃ o, HMap.get g.determined q = some (some o)

theorem part_satisfied {g : Progress} {p : Part} {o : Option Nat} :
    g.part p = .satisfied o ↔ HMap.get g.determined p = some (some o) := by
  unfold Progress.part
  split
  · next var h => simp [h]
  · next h => simp [h]
  · next h =>
    simp only [h, reduceCtorEq, iff_false]
    split
    · split <;> simp
    · simp

theorem part_unsatisfied {g : Progress} {p : Part} (h : g.part p = .unsatisfied) :
    HMap.get g.determined p = some none ∨
      ∃ ps q, HMap.get g.range p.parent = some ps ∧ q ∈ ps ∧ q.excludes p = true := by
  unfold Progress.part at h
  split at h
  · cases h
  · next h' => exact .inl h'
  · split at h
    · next ps hps =>
      split at h
      · next hany =>
        obtain ⟨q, hq, he⟩ := List.any_eq_true.1 hany
        exact .inr ⟨ps, q, hps, hq, he⟩
      · cases h
    · cases h

theorem part_notKnown {g : Progress} {p : Part} (h : g.part p = .notKnown) : HMap.get g.determined p = none := by
  unfold Progress.part at h
  split at h
  · cases h
  · cases h
  · assumption

theorem push_fields (g : Progress) (p : Part) (x : Nat) :
    (g.push p x).determined = g.determined ∧ (g.push p x).range = g.range := by
  unfold Progress.push
  split <;> exact ⟨rfl, rfl⟩

theorem passed_eq {g : Progress} {p : Part} (h : HMap.get g.determined p = none) :
    g.passed p = some { g with
      range := HMap.insert g.range p.parent ((HMap.get g.range p.parent).getD [] ++ [p]),
      determined := HMap.insert g.determined p (some none) } := by
  simp [Progress.passed, h]

theorem failed_eq {g : Progress} {p : Part} (h : HMap.get g.determined p = none) :
    g.failed p = some { g with determined := HMap.insert g.determined p none } := by
  simp [Progress.failed, h]

theorem setVar_eq {g : Progress} {p : Part} {n} (h : HMap.get g.determined p = some (some none)) :
    g.setVar p n = some { g with determined := HMap.insert g.determined p (some (some n)) } := by
  simp [Progress.setVar, h]

theorem Good.args {ty cs} {g : Progress} (h : Good ty cs g) (as) : Good ty cs { g with args := as } :=
  ⟨h.root, h.parent, h.range⟩

theorem Good.push {ty cs} {g : Progress} (h : Good ty cs g) (p x) : Good ty cs (g.push p x) := by
  unfold Progress.push
  split
  · exact h.args _
  · exact h

theorem parent_ne {p : Part} (h : isRoot p = false) : p.parent ≠ p := by
  intro he
  have := congrArg sizeOf he
  cases p <;> simp [Part.parent, isRoot] at * <;> omega

theorem Good.passed {ty cs} {g g' : Progress} {p : Part} (h : Good ty cs g) (hp : wf ty cs p) (hr : isRoot p = false)
    {x} (hpar : HMap.get g.determined p.parent = some (some (some x)))
    (hg : g.passed p = some g') : Good ty cs g' := by
  unfold Progress.passed at hg
  split at hg
  · cases hg
  next hn =>
  cases hg
  refine ⟨?_, ?_, ?_⟩
  · obtain ⟨r, hroot⟩ := h.root
    refine ⟨r, ?_⟩
    show HMap.get (HMap.insert _ _ _) _ = _
    rw [HMap.get_insert, if_neg]
    · exact hroot
    · intro he
      rw [← he] at hr
      simp [isRoot] at hr
  · intro q o hq hqr
    simp only [HMap.get_insert] at hq ⊢
    split at hq
    · next he =>
      subst he
      rw [if_neg (parent_ne hr)]
      exact ⟨x, hpar⟩
    · obtain ⟨y, hy⟩ := h.parent q o hq hqr
      rw [if_neg]
      · exact ⟨y, hy⟩
      · intro he
        rw [he] at hy
        rw [hn] at hy
        cases hy
  · intro r ps hps q hq
    simp only [HMap.get_insert] at hps ⊢
    have key : ∀ ps, HMap.get g.range r = some ps → q ∈ ps → isRoot q = false ∧ q.parent = r ∧ wf ty cs q ∧
        ∃ o, (if q = p then some (some none) else HMap.get g.determined q) = some (some o) := by
      intro ps hps hq
      obtain ⟨a, b, c, o, d⟩ := h.range r ps hps q hq
      refine ⟨a, b, c, ?_⟩
      split
      · exact ⟨none, rfl⟩
      · exact ⟨o, d⟩
    split at hps
    · next he =>
      cases hps
      rcases List.mem_append.1 hq with hq | hq
      · cases hr' : HMap.get g.range p.parent with
        | none => rw [hr'] at hq; simp at hq
        | some ps' =>
          rw [hr'] at hq
          exact key ps' (he ▸ hr') hq
      · simp only [List.mem_singleton] at hq
        subst hq
        exact ⟨hr, he.symm, hp, none, by rw [if_pos rfl]⟩
    · exact key ps hps hq

theorem Good.failed {ty cs} {g g' : Progress} {p : Part} (h : Good ty cs g) (hr : isRoot p = false)
    (hg : g.failed p = some g') : Good ty cs g' := by
  unfold Progress.failed at hg
  split at hg
  · cases hg
  next hn =>
  cases hg
  have aux : ∀ q o, HMap.get g.determined q = some (some o) →
      HMap.get (HMap.insert g.determined p none) q = some (some o) := by
    intro q o hq
    rw [HMap.get_insert, if_neg]
    · exact hq
    · intro he
      rw [he, hn] at hq
      cases hq
  refine ⟨?_, ?_, ?_⟩
  · obtain ⟨r, hroot⟩ := h.root
    exact ⟨r, aux _ _ hroot⟩
  · intro q o hq hqr
    simp only [HMap.get_insert] at hq
    split at hq
    · cases hq
    · obtain ⟨y, hy⟩ := h.parent q o hq hqr
      exact ⟨y, aux _ _ hy⟩
  · intro r ps hps q hq
    obtain ⟨a, b, c, o, d⟩ := h.range r ps hps q hq
    exact ⟨a, b, c, o, aux _ _ d⟩

theorem Good.setVar {ty cs} {g g' : Progress} {p : Part} {n} (h : Good ty cs g)
    (hg : g.setVar p n = some g') : Good ty cs g' := by
  unfold Progress.setVar at hg
  split at hg
  · next hn =>
    cases hg
    refine ⟨?_, ?_, ?_⟩
    · obtain ⟨r, hroot⟩ := h.root
      simp only [HMap.get_insert]
      split
      · exact ⟨n, rfl⟩
      · exact ⟨r, hroot⟩
    · intro q o hq hqr
      simp only [HMap.get_insert] at hq ⊢
      have : ∃ o, HMap.get g.determined q = some (some o) := by
        split at hq
        · next he => exact ⟨none, he ▸ hn⟩
        · exact ⟨o, hq⟩
      obtain ⟨o', ho'⟩ := this
      obtain ⟨y, hy⟩ := h.parent q o' ho' hqr
      split
      · exact ⟨n, rfl⟩
      · exact ⟨y, hy⟩
    · intro r ps hps q hq
      obtain ⟨a, b, c, o, d⟩ := h.range r ps hps q hq
      refine ⟨a, b, c, ?_⟩
      simp only [HMap.get_insert]
      split
      · exact ⟨_, rfl⟩
      · exact ⟨o, d⟩
  · cases hg

/-- A part that needs a variable while its own parent has one. -/
theorem Good.letParent {ty cs} {g : Progress} (h : Good ty cs g) {p : Part} (hp : wf ty cs p) (hc : container p = true)
    (hs : g.part p = .satisfied none) :
    isRoot p = false ∧ (∃ y, g.part p.parent = .satisfied (some y)) ∧ ∃ get, p.get = some get := by
  rw [part_satisfied] at hs
  have hr : isRoot p = false := by
    cases p with
    | root t =>
      obtain ⟨r, hroot⟩ := h.root
      have ht : t = ty := hp
      rw [ht, hroot] at hs
      cases hs
    | _ => rfl
  refine ⟨hr, ?_, ?_⟩
  · obtain ⟨y, hy⟩ := h.parent _ _ hs hr
    exact ⟨y, part_satisfied.2 hy⟩
  · cases p <;> simp [Part.get, container, isRoot] at *

theorem notKnown_not_root {ty cs} {g : Progress} (h : Good ty cs g) {p : Part} (hp : wf ty cs p)
    (hk : g.part p = .notKnown) : isRoot p = false := by
  cases p with
  | root t =>
    obtain ⟨r, hroot⟩ := h.root
    have ht : t = ty := hp
    have := part_notKnown hk
    rw [ht, hroot] at this
    cases this
  | _ => rfl

/-! ## The expansion always succeeds -/

theorem expand_mono : ∀ f : Nat,
    (∀ n g cs r, expandMatches f n g cs = some r → expandMatches (f + 1) n g cs = some r) ∧
    (∀ n g ps id cs r, expandParts f n g ps id cs = some r → expandParts (f + 1) n g ps id cs = some r) := by
  intro f
  induction f with
  | zero => exact ⟨by intros; simp_all [expandMatches], by intros; simp_all [expandParts]⟩
  | succ f ih =>
    obtain ⟨ihM, ihP⟩ := ih
    constructor
    · intro n g cs r h
      cases cs with
      | nil => simpa [expandMatches] using h
      | cons c cs =>
        obtain ⟨ps, id⟩ := c
        rw [expandMatches] at h ⊢
        exact ihP _ _ _ _ _ _ h
    · intro n g ps id cs r h
      cases ps with
      | nil => simpa [expandParts] using h
      | cons p ps =>
        rw [expandParts] at h ⊢
        split at h
        · exact ihP _ _ _ _ _ _ h
        · exact ihM _ _ _ _ h
        · split at h
          · split at h
            · split at h
              · cases h
              · split at h
                · cases h
                · next hs =>
                  simp only [ihP _ _ _ _ _ _ hs]
                  split at h
                  · cases h
                  · split at h
                    · cases h
                    · next hs' =>
                      simp only [ihM _ _ _ _ hs']
                      exact h
            · split at h
              · cases h
              · exact ihP _ _ _ _ _ _ h
          · split at h
            · split at h
              · cases h
              · split at h
                · cases h
                · next hs =>
                  simp only [ihP _ _ _ _ _ _ hs]
                  exact h
            · cases h
          · exact ihM _ _ _ _ h
          · exact ihP _ _ _ _ _ _ h

theorem expandMatches_le {f f' n g cs r} (h : expandMatches f n g cs = some r) (hle : f ≤ f') :
    expandMatches f' n g cs = some r := by
  induction hle with
  | refl => exact h
  | step _ ih => exact (expand_mono _).1 _ _ _ _ ih

theorem expandParts_le {f f' n g ps id cs r} (h : expandParts f n g ps id cs = some r) (hle : f ≤ f') :
    expandParts f' n g ps id cs = some r := by
  induction hle with
  | refl => exact h
  | step _ ih => exact (expand_mono _).2 _ _ _ _ _ _ ih

def TotM (n : Nat) (g : Progress) (cs : List Clause) : Prop := ∃ f r, expandMatches f n g cs = some r
def TotP (n : Nat) (g : Progress) (ps : List Part) (id : Nat) (cs : List Clause) : Prop :=
  ∃ f r, expandParts f n g ps id cs = some r

/-- One part, once its parent has a variable. -/
theorem tot_tested {ty cs} {rest : List Clause} {id : Nat} {p : Part} {ps : List Part}
    (hp : wf ty cs p)
    (hfail : ∀ n g, Good ty cs g → TotM n g rest)
    (hcont : ∀ n g, Good ty cs g → (∃ o, g.part p = .satisfied o) → TotP n g ps id rest)
    {n g} (hg : Good ty cs g) {x} (hx : g.part p.parent = .satisfied (some x)) : TotP n g (p :: ps) id rest := by
  cases hk : g.part p with
  | satisfied o =>
    obtain ⟨f, r, h⟩ := hcont n g hg ⟨o, hk⟩
    exact ⟨f + 1, r, by rw [expandParts, hk]; exact h⟩
  | unsatisfied =>
    obtain ⟨f, r, h⟩ := hfail n _ (hg.args [])
    exact ⟨f + 1, r, by rw [expandParts, hk]; exact h⟩
  | notKnown =>
    have hr := notKnown_not_root hg hp hk
    have hn := part_notKnown hk
    have hx' := part_satisfied.1 hx
    have hn' : HMap.get (g.push p x).determined p = none := by rw [(push_fields g p x).1]; exact hn
    have hx'' : HMap.get (g.push p x).determined p.parent = some (some (some x)) := by
      rw [(push_fields g p x).1]; exact hx'
    have hpassed := passed_eq hn'
    generalize hgs : ({ g.push p x with
      range := HMap.insert (g.push p x).range p.parent ((HMap.get (g.push p x).range p.parent).getD [] ++ [p]),
      determined := HMap.insert (g.push p x).determined p (some none) } : Progress) = gs at hpassed
    have hgood := (hg.push p x).passed hp hr hx'' hpassed
    have hsat : gs.part p = .satisfied none := by
      rw [part_satisfied, ← hgs]
      show HMap.get (HMap.insert _ _ _) _ = _
      rw [HMap.get_insert, if_pos rfl]
    cases ht : p.test with
    | none =>
      obtain ⟨f, r, h⟩ := hcont n _ hgood ⟨none, hsat⟩
      exact ⟨f + 1, r, by rw [expandParts, hk]; simp only [hx, ht, hpassed]; exact h⟩
    | some t =>
      obtain ⟨f, ⟨a, m⟩, h⟩ := hcont n _ hgood ⟨none, hsat⟩
      have hfailed := failed_eq hn
      obtain ⟨f', ⟨b, k⟩, h'⟩ := hfail m _ ((hg.failed hr hfailed).args [])
      refine ⟨max f f' + 1, (.ite t x a b, k), ?_⟩
      rw [expandParts, hk]
      simp only [hx, ht, hpassed, expandParts_le h (Nat.le_max_left f f'), hfailed,
        expandMatches_le h' (Nat.le_max_right f f')]

theorem tot_part {ty cs} {rest : List Clause} {id : Nat} (p : Part) : ∀ {ps : List Part},
    wf ty cs p →
    (∀ n g, Good ty cs g → TotM n g rest) →
    (∀ n g, Good ty cs g → (∃ o, g.part p = .satisfied o) → TotP n g ps id rest) →
    ∀ {n g}, Good ty cs g → TotP n g (p :: ps) id rest := by
  generalize hsz : sizeOf p = k
  induction k using Nat.strongRecOn generalizing p with
  | ind k ih =>
  intro ps hp hfail hcont n g hg
  obtain ⟨hpp, hpc⟩ := wf_parent hp
  -- when the parent is satisfied
  have hsatp : ∀ n g, Good ty cs g → (∃ o, g.part p.parent = .satisfied o) → TotP n g (p :: ps) id rest := by
    intro n g hg ⟨o, ho⟩
    cases o with
    | some x => exact tot_tested hp hfail hcont hg ho
    | none =>
      cases hk : g.part p with
      | satisfied o =>
        obtain ⟨f, r, h⟩ := hcont n g hg ⟨o, hk⟩
        exact ⟨f + 1, r, by rw [expandParts, hk]; exact h⟩
      | unsatisfied =>
        obtain ⟨f, r, h⟩ := hfail n _ (hg.args [])
        exact ⟨f + 1, r, by rw [expandParts, hk]; exact h⟩
      | notKnown =>
        obtain ⟨_, ⟨y, hy⟩, get, hget⟩ := hg.letParent hpp hpc ho
        have hset := setVar_eq (n := n) (part_satisfied.1 ho)
        generalize hgs : ({ g with determined := HMap.insert g.determined p.parent (some (some n)) } : Progress) = gs
          at hset
        have hx : gs.part p.parent = .satisfied (some n) := by
          rw [part_satisfied, ← hgs]
          show HMap.get (HMap.insert _ _ _) _ = _
          rw [HMap.get_insert, if_pos rfl]
        obtain ⟨f, ⟨b, m⟩, h⟩ := tot_tested (n := n + 1) hp hfail hcont (hg.setVar hset) hx
        refine ⟨f + 1, (.letv n get y b, m), ?_⟩
        rw [expandParts, hk]
        simp only [ho, hy, hget, hset, h]
  cases hk : g.part p with
  | satisfied o =>
    obtain ⟨f, r, h⟩ := hcont n g hg ⟨o, hk⟩
    exact ⟨f + 1, r, by rw [expandParts, hk]; exact h⟩
  | unsatisfied =>
    obtain ⟨f, r, h⟩ := hfail n _ (hg.args [])
    exact ⟨f + 1, r, by rw [expandParts, hk]; exact h⟩
  | notKnown =>
    have hr := notKnown_not_root hg hp hk
    cases hkp : g.part p.parent with
    | satisfied o => exact hsatp n g hg ⟨o, hkp⟩
    | unsatisfied =>
      obtain ⟨f, r, h⟩ := hfail n _ (hg.args [])
      exact ⟨f + 1, r, by rw [expandParts, hk]; simp only [hkp]; exact h⟩
    | notKnown =>
      have hlt : sizeOf p.parent < k := by
        subst hsz
        cases p <;> simp [Part.parent, isRoot] at * <;> omega
      obtain ⟨f, r, h⟩ := ih (sizeOf p.parent) hlt p.parent rfl (ps := p :: ps) hpp hfail hsatp (n := n) hg
      exact ⟨f + 1, r, by rw [expandParts, hk]; simp only [hkp]; exact h⟩

theorem tot_parts {ty cs} {rest : List Clause} {id : Nat} (ps : List Part) (hps : ∀ p ∈ ps, wf ty cs p)
    (hfail : ∀ n g, Good ty cs g → TotM n g rest) : ∀ n g, Good ty cs g → TotP n g ps id rest := by
  induction ps with
  | nil => exact fun n g _ => ⟨1, (.call id g.args, n), by rw [expandParts]⟩
  | cons p ps ih =>
    intro n g hg
    exact tot_part p (hps p (by simp)) hfail
      (fun n g hg _ => ih (fun q hq => hps q (by simp [hq])) n g hg) hg

theorem tot_matches {ty cs} (cl : List Clause) (hcl : ∀ c ∈ cl, ∀ p ∈ c.1, wf ty cs p) :
    ∀ n g, Good ty cs g → TotM n g cl := by
  induction cl with
  | nil => exact fun n g _ => ⟨1, (.never, n), by rw [expandMatches]⟩
  | cons c cl ih =>
    obtain ⟨ps, id⟩ := c
    intro n g hg
    obtain ⟨f, r, h⟩ := tot_parts (id := id) ps (hcl (ps, id) (by simp)) (ih fun c hc => hcl c (by simp [hc])) n g hg
    exact ⟨f + 1, r, by rw [expandMatches]; exact h⟩

/-! ## What the tree computes -/

theorem counter_mono : ∀ f : Nat,
    (∀ n g cs t m, expandMatches f n g cs = some (t, m) → n ≤ m) ∧
    (∀ n g ps id cs t m, expandParts f n g ps id cs = some (t, m) → n ≤ m) := by
  intro f
  induction f with
  | zero => exact ⟨by intros; simp_all [expandMatches], by intros; simp_all [expandParts]⟩
  | succ f ih =>
    obtain ⟨ihM, ihP⟩ := ih
    constructor
    · intro n g cs t m h
      cases cs with
      | nil => rw [expandMatches] at h; cases h; exact Nat.le_refl _
      | cons c cs =>
        obtain ⟨ps, id⟩ := c
        rw [expandMatches] at h
        exact ihP _ _ _ _ _ _ _ h
    · intro n g ps id cs t m h
      cases ps with
      | nil => rw [expandParts] at h; cases h; exact Nat.le_refl _
      | cons p ps =>
        rw [expandParts] at h
        split at h
        · exact ihP _ _ _ _ _ _ _ h
        · exact ihM _ _ _ _ _ h
        · split at h
          · split at h
            · split at h
              · cases h
              · split at h
                · cases h
                · next hs =>
                  split at h
                  · cases h
                  · split at h
                    · cases h
                    · next hs' =>
                      cases h
                      exact Nat.le_trans (ihP _ _ _ _ _ _ _ hs) (ihM _ _ _ _ _ hs')
            · split at h
              · cases h
              · exact ihP _ _ _ _ _ _ _ h
          · split at h
            · split at h
              · cases h
              · split at h
                · cases h
                · next hs =>
                  cases h
                  have := ihP _ _ _ _ _ _ _ hs
                  omega
            · cases h
          · exact ihM _ _ _ _ _ h
          · exact ihP _ _ _ _ _ _ _ h

/-- What the progress says is true of the value, and its variables hold the values of their parts. -/
structure Inv (S : Sem V) (v : V) (ρ : Nat → Option V) (n : Nat) (g : Progress) : Prop where
  ok : ∀ p o, HMap.get g.determined p = some (some o) → sat S v p = some true
  var : ∀ p x, HMap.get g.determined p = some (some (some x)) → x < n ∧ ∃ w, ρ x = some w ∧ value S v p = some w
  err : ∀ p, HMap.get g.determined p = some none → sat S v p = some false

theorem Inv.congr {S : Sem V} {v ρ n m} {g g' : Progress} (h : Inv S v ρ n g) (hm : n ≤ m)
    (hd : g'.determined = g.determined) : Inv S v ρ m g' := by
  refine ⟨?_, ?_, ?_⟩ <;> rw [hd]
  · exact h.ok
  · intro p x hx
    obtain ⟨a, b⟩ := h.var p x hx
    exact ⟨by omega, b⟩
  · exact h.err

theorem sat_excluded {S : Sem V} {v : V} {ty cs} (hd : Distinct S cs) {p q : Part} (hp : wf ty cs p) (hq : wf ty cs q)
    (he : q.excludes p = true) (hs : sat S v q = some true) : sat S v p ≠ some true := by
  intro hsp
  have aux : ∀ {p : Part}, isRoot p = false → sat S v p = some true →
      ∃ x, value S v p.parent = some x ∧ ptest S p x = some true := by
    intro p hr hs
    rw [sat_eq S v hr] at hs
    unfold step at hs
    split at hs
    · cases hs
    · cases hs
    · cases hv : value S v p.parent with
      | none => rw [hv] at hs; cases hs
      | some x => rw [hv] at hs; exact ⟨x, rfl, hs⟩
  cases q <;> cases p <;> simp [Part.excludes] at he
  · subst he
    obtain ⟨x, hx, ht⟩ := aux rfl hs
    obtain ⟨y, hy, ht'⟩ := aux rfl hsp
    simp only [Part.parent] at hx hy
    rw [hx] at hy
    cases hy
    simp [ptest] at ht ht'
    rw [ht] at ht'
    cases ht'
  · subst he
    obtain ⟨x, hx, ht⟩ := aux rfl hs
    obtain ⟨y, hy, ht'⟩ := aux rfl hsp
    simp only [Part.parent] at hx hy
    rw [hx] at hy
    cases hy
    simp [ptest] at ht ht'
    rw [ht] at ht'
    cases ht'
  · obtain ⟨hne, he⟩ := he
    subst he
    obtain ⟨x, hx, ht⟩ := aux rfl hs
    obtain ⟨y, hy, ht'⟩ := aux rfl hsp
    simp only [Part.parent] at hx hy
    rw [hx] at hy
    cases hy
    have eqOf : ∀ c q, ptest S (.const c q) x = some true → S.equals c x = true := by
      intro c q h
      simp only [ptest] at h
      split at h
      · assumption
      · split at h <;> cases h
    exact hne (hd _ hq.1 _ hp.1 x (eqOf _ _ ht) (eqOf _ _ ht'))

theorem part_unsat_sound {S : Sem V} {v : V} {ρ n g} {ty cs} (hd : Distinct S cs) (hg : Good ty cs g)
    (hi : Inv S v ρ n g) {p : Part} (hp : wf ty cs p) (hu : g.part p = .unsatisfied) : sat S v p ≠ some true := by
  rcases part_unsatisfied hu with h | ⟨ps, q, h1, h2, h3⟩
  · rw [hi.err p h]; simp
  · obtain ⟨_, _, hwq, o, ho⟩ := hg.range _ _ h1 q h2
    exact sat_excluded hd hp hwq h3 (hi.ok q o ho)

/-- The bind parts still to come are all different and not yet looked at. -/
def Todo (g : Progress) (ps : List Part) (rest : List Clause) : Prop :=
  ((ps ++ (rest.map (·.1)).flatten).filter Part.isBind).Nodup ∧
    ∀ p ∈ ps ++ (rest.map (·.1)).flatten, p.isBind = true → HMap.get g.determined p = none

theorem Todo.tail {g : Progress} {p ps rest} (h : Todo g (p :: ps) rest) : Todo g ps rest := by
  obtain ⟨h1, h2⟩ := h
  refine ⟨?_, fun q hq => h2 q (by simp only [List.cons_append, List.mem_cons]; exact .inr hq)⟩
  simp only [List.cons_append, List.filter_cons] at h1
  split at h1
  · exact (List.nodup_cons.1 h1).2
  · exact h1

theorem Todo.fail {g : Progress} {ps rest} (h : Todo g ps rest) : Todo g [] rest := by
  induction ps with
  | nil => exact h
  | cons p ps ih => exact ih h.tail

theorem Todo.cons {g : Progress} {p ps rest} (h : Todo g ps rest) (hb : p.isBind = false) : Todo g (p :: ps) rest := by
  obtain ⟨h1, h2⟩ := h
  refine ⟨?_, ?_⟩
  · simp only [List.cons_append, List.filter_cons, hb]
    exact h1
  · intro q hq hqb
    rw [List.cons_append, List.mem_cons] at hq
    rcases hq with he | hq
    · rw [he, hb] at hqb; cases hqb
    · exact h2 q hq hqb

theorem Todo.insert {g g' : Progress} {p o ps rest} (h : Todo g ps rest)
    (hd : g'.determined = HMap.insert g.determined p o)
    (hp : p.isBind = true → p ∉ ps ++ (rest.map (·.1)).flatten) : Todo g' ps rest := by
  refine ⟨h.1, fun q hq hb => ?_⟩
  rw [hd, HMap.get_insert, if_neg]
  · exact h.2 q hq hb
  · intro he
    subst he
    exact hp hb hq

theorem Todo.congr {g g' : Progress} {ps rest} (h : Todo g ps rest)
    (hd : g'.determined = g.determined) : Todo g' ps rest := by
  refine ⟨h.1, fun q hq hb => ?_⟩
  rw [hd]
  exact h.2 q hq hb

theorem Todo.head {g : Progress} {p ps rest} (h : Todo g (p :: ps) rest) (hb : p.isBind = true) :
    p ∉ ps ++ (rest.map (·.1)).flatten := by
  have h1 := h.1
  simp only [List.cons_append, List.filter_cons, hb, if_pos] at h1
  intro hm
  exact (List.nodup_cons.1 h1).1 (List.mem_filter.2 ⟨hm, hb⟩)

theorem vals_append {ρ : Nat → Option V} : ∀ {xs as x w}, vals ρ xs = some as → ρ x = some w →
    vals ρ (xs ++ [x]) = some (as ++ [w]) := by
  intro xs
  induction xs with
  | nil => intro as x w h hx; cases h; simp [vals, hx]
  | cons y ys ih =>
    intro as x w h hx
    simp only [vals] at h
    split at h
    · next a bs h1 h2 =>
      cases h
      simp [vals, h1, ih h2 hx]
    · cases h

theorem vals_congr {ρ ρ' : Nat → Option V} : ∀ {xs as}, vals ρ xs = some as → (∀ x w, ρ x = some w → ρ' x = some w) →
    vals ρ' xs = some as := by
  intro xs
  induction xs with
  | nil => intro as h _; exact h
  | cons y ys ih =>
    intro as h hx
    simp only [vals] at h
    split at h
    · next a bs h1 h2 =>
      cases h
      simp [vals, hx _ _ h1, ih h2 hx]
    · cases h

theorem container_not_bind {p : Part} (h : container p = true) : p.isBind = false := by
  cases p <;> simp [container, Part.isBind] at *

theorem evalRest_defined {S : Sem V} {v as p ps id rest out} (h : evalRest S v as (p :: ps) id rest = some out) :
    ∃ b, sat S v p = some b := by
  cases hs : sat S v p with
  | some b => exact ⟨b, rfl⟩
  | none => simp [evalRest, evalParts, hs] at h

theorem evalRest_false {S : Sem V} {v as p ps id rest} (h : sat S v p = some false) :
    evalRest S v as (p :: ps) id rest = evalClauses S v rest := by
  simp [evalRest, evalParts, h]

theorem evalRest_true {S : Sem V} {v as p ps id rest} (h : sat S v p = some true) (hb : p.isBind = false) :
    evalRest S v as (p :: ps) id rest = evalRest S v as ps id rest := by
  simp only [evalRest, evalParts, h, hb]
  rfl

theorem evalRest_bind {S : Sem V} {v as p ps id rest x} (h : sat S v p = some true) (hb : p.isBind = true)
    (hv : value S v p = some x) :
    evalRest S v as (p :: ps) id rest = evalRest S v (as ++ [x]) ps id rest := by
  simp only [evalRest, evalParts, h, hb, hv]
  cases evalParts S v ps with
  | none => rfl
  | some o => cases o <;> simp

theorem sat_parent {S : Sem V} {v : V} {p : Part} {b} (hr : isRoot p = false) (h : sat S v p = some b) :
    sat S v p.parent = some false ∧ b = false ∨
      sat S v p.parent = some true ∧ ∃ x, value S v p.parent = some x ∧ ptest S p x = some b := by
  rw [sat_eq S v hr] at h
  unfold step at h
  split at h
  · cases h
  · next hs => cases h; exact .inl ⟨hs, rfl⟩
  · next hs =>
    refine .inr ⟨hs, ?_⟩
    cases hv : value S v p.parent with
    | none => rw [hv] at h; cases h
    | some x => rw [hv] at h; exact ⟨x, rfl, h⟩

theorem Inv.passed {S : Sem V} {v : V} {ρ n} {g g' : Progress} {p : Part} (h : Inv S v ρ n g)
    (hs : sat S v p = some true) (hd : g'.determined = HMap.insert g.determined p (some none)) : Inv S v ρ n g' := by
  refine ⟨?_, ?_, ?_⟩ <;> rw [hd]
  · intro q o hq
    rw [HMap.get_insert] at hq
    split at hq
    · next he => rw [he]; exact hs
    · exact h.ok q o hq
  · intro q x hq
    rw [HMap.get_insert] at hq
    split at hq
    · cases hq
    · exact h.var q x hq
  · intro q hq
    rw [HMap.get_insert] at hq
    split at hq
    · cases hq
    · exact h.err q hq

theorem Inv.failed {S : Sem V} {v : V} {ρ n} {g g' : Progress} {p : Part} (h : Inv S v ρ n g)
    (hs : sat S v p = some false) (hd : g'.determined = HMap.insert g.determined p none) : Inv S v ρ n g' := by
  refine ⟨?_, ?_, ?_⟩ <;> rw [hd]
  · intro q o hq
    rw [HMap.get_insert] at hq
    split at hq
    · cases hq
    · exact h.ok q o hq
  · intro q x hq
    rw [HMap.get_insert] at hq
    split at hq
    · cases hq
    · exact h.var q x hq
  · intro q hq
    rw [HMap.get_insert] at hq
    split at hq
    · next he => rw [he]; exact hs
    · exact h.err q hq

theorem tree_correct {S : Sem V} {v : V} {ty : Nat} {cs : List Const} (hdist : Distinct S cs) : ∀ f : Nat,
    (∀ n g cl t m ρ out, expandMatches f n g cl = some (t, m) → Good ty cs g → Inv S v ρ n g → g.args = [] →
      Todo g [] cl → (∀ c ∈ cl, ∀ p ∈ c.1, wf ty cs p) → (∀ z, n ≤ z → ρ z = none) →
      evalClauses S v cl = some out → eval S t ρ = some out) ∧
    (∀ n g ps id cl t m ρ as out, expandParts f n g ps id cl = some (t, m) → Good ty cs g → Inv S v ρ n g →
      vals ρ g.args = some as → Todo g ps cl → (∀ p ∈ ps, wf ty cs p) → (∀ c ∈ cl, ∀ p ∈ c.1, wf ty cs p) →
      (∀ z, n ≤ z → ρ z = none) →
      evalRest S v as ps id cl = some out → eval S t ρ = some out) := by
  intro f
  induction f with
  | zero => exact ⟨by intros; simp_all [expandMatches], by intros; simp_all [expandParts]⟩
  | succ f ih =>
  obtain ⟨ihM, ihP⟩ := ih
  constructor
  · intro n g cl t m ρ out h hg hi ha htodo hw hz he
    cases cl with
    | nil =>
      rw [expandMatches] at h
      cases h
      simpa [evalClauses, eval] using he
    | cons c cl =>
      obtain ⟨ps, id⟩ := c
      rw [expandMatches] at h
      refine ihP _ _ _ _ _ _ _ ρ [] out h hg hi (by rw [ha]; rfl) ?_ (hw (ps, id) (by simp)) (fun c hc => hw c (by simp [hc]))
        hz ?_
      · simpa [Todo] using htodo
      · simpa [evalRest, evalClauses] using he
  · intro n g ps id cl t m ρ as out h hg hi ha htodo hps hw hz he
    cases ps with
    | nil =>
      rw [expandParts] at h
      cases h
      simp only [evalRest, evalParts, List.append_nil] at he
      cases he
      simp [eval, ha]
    | cons p ps =>
      have hp := hps p (by simp)
      have hps' : ∀ q ∈ ps, wf ty cs q := fun q hq => hps q (by simp [hq])
      obtain ⟨hpp, hpc⟩ := wf_parent hp
      obtain ⟨b, hb⟩ := evalRest_defined he
      -- the failure continuation
      have hfail : ∀ k g' t m, n ≤ k → g'.args = [] → Good ty cs g' → Inv S v ρ k g' → Todo g' [] cl →
          sat S v p = some false → expandMatches f k g' cl = some (t, m) → eval S t ρ = some out := by
        intro k g' t m hk ha' hg' hi' ht' hs h
        rw [evalRest_false hs] at he
        exact ihM _ _ _ _ _ ρ out h hg' hi' ha' ht' hw (fun z hz' => hz z (by omega)) he
      rw [expandParts] at h
      split at h
      · next o hk =>
        have hdet := part_satisfied.1 hk
        have hnb : p.isBind = false := by
          cases hbp : p.isBind with
          | false => rfl
          | true =>
            have := htodo.2 p (by simp) hbp
            rw [this] at hdet
            cases hdet
        rw [evalRest_true (hi.ok p o hdet) hnb] at he
        exact ihP _ _ _ _ _ _ _ ρ as out h hg hi ha htodo.tail hps' hw hz he
      · next hk =>
        have hs : sat S v p = some false := by
          have := part_unsat_sound hdist hg hi hp hk
          cases b with
          | false => exact hb
          | true => exact absurd hb this
        exact hfail n _ _ _ (Nat.le_refl _) rfl (hg.args []) (hi.congr (Nat.le_refl _) rfl)
          (htodo.fail.congr rfl) hs h
      · next hk =>
        have hr := notKnown_not_root hg hp hk
        have hn := part_notKnown hk
        split at h
        · next x hx =>
          obtain ⟨hxn, w, hρ, hval⟩ := hi.var _ _ (part_satisfied.1 hx)
          have hokp := hi.ok _ _ (part_satisfied.1 hx)
          have hn' : HMap.get (g.push p x).determined p = none := by rw [(push_fields g p x).1]; exact hn
          have hx'' : HMap.get (g.push p x).determined p.parent = some (some (some x)) := by
            rw [(push_fields g p x).1]; exact part_satisfied.1 hx
          have hpt : ptest S p w = some b := by
            rcases sat_parent hr hb with ⟨hsf, _⟩ | ⟨_, y, hy, hty⟩
            · rw [hokp] at hsf; cases hsf
            · rw [hval] at hy; cases hy; exact hty
          -- the success continuation
          have hsucc : ∀ gs t m, (g.push p x).passed p = some gs → sat S v p = some true →
              expandParts f n gs ps id cl = some (t, m) → eval S t ρ = some out := by
            intro gs t m hpa hs h
            have hgood := (hg.push p x).passed hp hr hx'' hpa
            rw [passed_eq hn'] at hpa
            cases hpa
            have hargs : ∃ as', vals ρ (g.push p x).args = some as' ∧ evalRest S v as' ps id cl = some out := by
              unfold Progress.push
              cases hbp : p.isBind with
              | false =>
                rw [evalRest_true hs hbp] at he
                exact ⟨as, ha, he⟩
              | true =>
                have hvp : value S v p = some w := by
                  rw [← hval]
                  cases p <;> simp [Part.isBind] at hbp
                  rfl
                rw [evalRest_bind hs hbp hvp] at he
                exact ⟨as ++ [w], vals_append ha hρ, he⟩
            obtain ⟨as', ha', he'⟩ := hargs
            refine ihP _ _ _ _ _ _ _ ρ as' out h hgood ?_ ha' ?_ hps' hw hz he'
            · exact hi.passed hs (by rw [(push_fields g p x).1])
            · exact htodo.tail.insert (by rw [(push_fields g p x).1]) fun hbp => htodo.head hbp
          split at h
          · next t' ht =>
            split at h
            · cases h
            next gs hpa =>
            split at h
            · cases h
            next a n' hs1 =>
            split at h
            · cases h
            next gf hfa =>
            split at h
            · cases h
            next b' n'' hs2 =>
            cases h
            have hle := (counter_mono f).2 _ _ _ _ _ _ _ hs1
            simp only [eval, hρ, Option.bind]
            rw [ptest_some S ht] at hpt
            cases hpt
            cases hev : evalTest S t' w with
            | true =>
              rw [if_pos rfl]
              rw [hev] at hb
              exact hsucc gs a _ hpa hb hs1
            | false =>
              rw [if_neg (by simp)]
              rw [hev] at hb
              have hgf := hg.failed hr hfa
              rw [failed_eq hn] at hfa
              cases hfa
              refine hfail _ _ _ _ hle rfl (hgf.args []) ?_ ?_ hb hs2
              · exact (hi.congr hle rfl).failed hb rfl
              · exact htodo.fail.insert rfl fun hbp hm => htodo.head hbp (by
                  simp only [List.nil_append] at hm
                  exact List.mem_append.2 (.inr hm))
          · next ht =>
            split at h
            · cases h
            next gs hpa =>
            have : b = true := by
              rcases ptest_none S ht w with h1 | h1
              · rw [h1] at hpt; exact (Option.some.inj hpt).symm
              · rw [h1] at hpt; cases hpt
            subst this
            exact hsucc gs _ _ hpa hb h
        · next hx =>
          obtain ⟨hpr, ⟨y, hy⟩, get, hget⟩ := hg.letParent hpp hpc hx
          simp only [hy, hget] at h
          have hset := setVar_eq (n := n) (part_satisfied.1 hx)
          simp only [hset] at h
          split at h
          · cases h
          next b' m' hs1 =>
          cases h
          have hgood := hg.setVar hset
          obtain ⟨hyn, w, hρ, hval⟩ := hi.var _ _ (part_satisfied.1 hy)
          have hokp := hi.ok _ _ (part_satisfied.1 hx)
          have hvp : ∃ u, value S v p.parent = some u := by
            rcases sat_parent hr hb with ⟨hsf, _⟩ | ⟨_, u, hu, _⟩
            · rw [hokp] at hsf; cases hsf
            · exact ⟨u, hu⟩
          obtain ⟨u, hu⟩ := hvp
          have hgetv : evalGet S get w = some u := by
            have := value_get S v hget
            rw [hval, hu] at this
            exact this.symm
          simp only [eval, hρ, Option.bind, hgetv]
          have hext : ∀ z w', ρ z = some w' → (if z = n then some u else ρ z) = some w' := by
            intro z w' hzw
            rw [if_neg]
            · exact hzw
            · intro hzn
              rw [hz z (by omega)] at hzw
              cases hzw
          refine ihP _ _ _ _ _ _ _ _ as out hs1 hgood ?_ (vals_congr ha hext) ?_ hps hw ?_ he
          · refine ⟨?_, ?_, ?_⟩
            · intro q o hq
              simp only [HMap.get_insert] at hq
              split at hq
              · next heq => rw [heq]; exact hokp
              · exact hi.ok q o hq
            · intro q x hq
              simp only [HMap.get_insert] at hq
              split at hq
              · next heq =>
                cases hq
                exact ⟨by omega, u, by simp, heq ▸ hu⟩
              · obtain ⟨h1, w', h2, h3⟩ := hi.var q x hq
                exact ⟨by omega, w', hext _ _ h2, h3⟩
            · intro q hq
              simp only [HMap.get_insert] at hq
              split at hq
              · cases hq
              · exact hi.err q hq
          · exact htodo.insert rfl fun hbp => by
              rw [container_not_bind hpc] at hbp
              cases hbp
          · intro z hzz
            rw [if_neg (by omega)]
            exact hz z (by omega)
        · next hx =>
          have hs : sat S v p = some false := by
            rcases sat_parent hr hb with ⟨_, hbf⟩ | ⟨hst, _⟩
            · rw [hb, hbf]
            · exact absurd hst (part_unsat_sound hdist hg hi hpp hx)
          exact hfail n _ _ _ (Nat.le_refl _) rfl (hg.args []) (hi.congr (Nat.le_refl _) rfl)
            (htodo.fail.congr rfl) hs h
        · next hx =>
          have hcb := container_not_bind hpc
          refine ihP _ _ _ _ _ _ _ ρ as out h hg hi ha (htodo.cons hcb) ?_ hw hz ?_
          · intro q hq
            simp only [List.mem_cons] at hq
            rcases hq with hq | hq
            · rw [hq]; exact hpp
            · exact hps q (by simp only [List.mem_cons]; exact hq)
          · rcases sat_parent hr hb with ⟨hsf, hbf⟩ | ⟨hst, _⟩
            · rw [evalRest_false hsf]
              rw [evalRest_false (by rw [hb, hbf])] at he
              exact he
            · rw [evalRest_true hst hcb]
              exact he

/-! ## Flattening -/

theorem evalParts_append (S : Sem V) (v : V) (a b : List Part) :
    evalParts S v (a ++ b) =
      match evalParts S v a with
      | none => none
      | some none => some none
      | some (some xs) =>
        match evalParts S v b with
        | none => none
        | some none => some none
        | some (some ys) => some (some (xs ++ ys)) := by
  induction a with
  | nil =>
    simp only [List.nil_append, evalParts]
    cases evalParts S v b with
    | none => rfl
    | some o => cases o <;> rfl
  | cons p a ih =>
    simp only [List.cons_append, evalParts, ih]
    generalize evalParts S v a = ea
    generalize evalParts S v b = eb
    generalize value S v p = vp
    generalize sat S v p = sp
    generalize p.isBind = bp
    rcases sp with _ | _ | _
    · rfl
    · rfl
    rcases bp with _ | _
    · rfl
    rcases vp with _ | x
    · rfl
    rcases ea with _ | _ | xs
    · rfl
    · rfl
    rcases eb with _ | _ | ys <;> rfl

mutual
theorem collect_lazy (S : Sem V) : ∀ (p : Pat) (parent : Part),
    ((collect p parent).added = true → smatch S p none = none) ∧
    ((collect p parent).added = false → (collect p parent).parts = [] ∧ (collect p parent).binds = [] ∧
      ∀ v, smatch S p v = some (.ok []))
  | .var id, parent => by simp [collect, smatch]
  | .as id p, parent => by simp [collect, smatch]
  | .wild, parent => by simp [collect, smatch]
  | .deref p, parent => by
    have := collect_lazy S p (.deref parent)
    simp only [collect, smatch, Option.bind_none]
    exact ⟨this.1, fun h => ⟨(this.2 h).1, (this.2 h).2.1, fun v => (this.2 h).2.2 _⟩⟩
  | .nonNull p, parent => by
    simp only [collect, smatch, Option.bind_none]
    split <;> simp
  | .null, parent => by simp [collect, smatch]
  | .struct args, parent => by
    simp only [collect, smatch]
    exact collectArgs_lazy S args 0 parent
  | .reint ty p, parent => by
    have := collect_lazy S p (.reint ty parent)
    simp only [collect, smatch, Option.bind_none]
    exact ⟨this.1, fun h => ⟨(this.2 h).1, (this.2 h).2.1, fun v => (this.2 h).2.2 _⟩⟩
  | .syntax p, parent => by
    have := collect_lazy S p (.body parent)
    simp only [collect, smatch, Option.bind_none]
    exact ⟨this.1, fun h => ⟨(this.2 h).1, (this.2 h).2.1, fun v => (this.2 h).2.2 _⟩⟩
  | .const c, parent => by simp [collect, smatch]
theorem collectArgs_lazy (S : Sem V) : ∀ (args : List (Nat × Pat)) (i : Nat) (parent : Part),
    ((collectArgs args i parent).added = true → smatchArgs S args i none = none) ∧
    ((collectArgs args i parent).added = false → (collectArgs args i parent).parts = [] ∧
      (collectArgs args i parent).binds = [] ∧ ∀ v, smatchArgs S args i v = some (.ok []))
  | [], i, parent => by simp [collectArgs, smatchArgs]
  | (ty, p) :: args, i, parent => by
    have h1 := collect_lazy S p (.elem ty i parent)
    have h2 := collectArgs_lazy S args (i + 1) parent
    simp only [collectArgs, Flat.append, smatchArgs, Option.bind_none]
    constructor
    · intro h
      cases ha : (collect p (.elem ty i parent)).added with
      | true => rw [h1.1 ha]
      | false =>
        rw [(h1.2 ha).2.2]
        rw [ha] at h
        simp only [Bool.false_or] at h
        rw [h2.1 h]
    · intro h
      simp only [Bool.or_eq_false_iff] at h
      obtain ⟨a, b, c⟩ := h1.2 h.1
      obtain ⟨a', b', c'⟩ := h2.2 h.2
      refine ⟨by rw [a, a']; rfl, by rw [b, b']; rfl, fun v => ?_⟩
      rw [c, c']
      rfl
end

theorem sat_false_child {S : Sem V} {v : V} {q : Part} (hr : isRoot q = false) (h : sat S v q.parent = some false) :
    sat S v q = some false := by
  rw [sat_eq S v hr, h]
  rfl

mutual
theorem collect_first (S : Sem V) (v : V) : ∀ (p : Pat) (parent : Part), (collect p parent).added = true →
    ∃ q qs, (collect p parent).parts = q :: qs ∧ (sat S v parent = some false → sat S v q = some false)
  | .var id, parent, _ => ⟨_, _, rfl, fun h => sat_false_child rfl h⟩
  | .as id p, parent, _ => ⟨_, _, rfl, fun h => sat_false_child rfl h⟩
  | .wild, parent, h => by simp [collect] at h
  | .deref p, parent, h => by
    simp only [collect] at h ⊢
    obtain ⟨q, qs, h1, h2⟩ := collect_first S v p _ h
    exact ⟨q, qs, h1, fun h => h2 (sat_false_child rfl h)⟩
  | .nonNull p, parent, h => by
    simp only [collect]
    split
    · next h =>
      obtain ⟨q, qs, h1, h2⟩ := collect_first S v p _ h
      exact ⟨q, qs, h1, fun h => h2 (sat_false_child rfl h)⟩
    · next h =>
      rw [((collect_lazy S p (.nonNull parent)).2 (by simpa using h)).1]
      exact ⟨_, _, rfl, fun h => sat_false_child rfl h⟩
  | .null, parent, _ => ⟨_, _, rfl, fun h => sat_false_child rfl h⟩
  | .struct args, parent, h => by
    simp only [collect] at h ⊢
    exact collectArgs_first S v args 0 parent h
  | .reint ty p, parent, h => by
    simp only [collect] at h ⊢
    obtain ⟨q, qs, h1, h2⟩ := collect_first S v p _ h
    exact ⟨q, qs, h1, fun h => h2 (sat_false_child rfl h)⟩
  | .syntax p, parent, h => by
    simp only [collect] at h ⊢
    obtain ⟨q, qs, h1, h2⟩ := collect_first S v p _ h
    exact ⟨q, qs, h1, fun h => h2 (sat_false_child rfl h)⟩
  | .const c, parent, _ => ⟨_, _, rfl, fun h => sat_false_child rfl h⟩
theorem collectArgs_first (S : Sem V) (v : V) : ∀ (args : List (Nat × Pat)) (i : Nat) (parent : Part),
    (collectArgs args i parent).added = true →
    ∃ q qs, (collectArgs args i parent).parts = q :: qs ∧ (sat S v parent = some false → sat S v q = some false)
  | [], i, parent, h => by simp [collectArgs] at h
  | (ty, p) :: args, i, parent, h => by
    simp only [collectArgs, Flat.append] at h ⊢
    cases ha : (collect p (.elem ty i parent)).added with
    | true =>
      obtain ⟨q, qs, h1, h2⟩ := collect_first S v p _ ha
      rw [h1]
      exact ⟨q, _, rfl, fun h => h2 (sat_false_child rfl h)⟩
    | false =>
      rw [ha] at h
      obtain ⟨q, qs, h1, h2⟩ := collectArgs_first S v args (i + 1) parent (by simpa using h)
      rw [((collect_lazy S p (.elem ty i parent)).2 ha).1, h1]
      exact ⟨q, qs, rfl, h2⟩
end

/-- The arguments a clause passes. -/
def resVals : Res V → Option (List V)
  | .fail => none
  | .ok bs => some (bs.map (·.2))

def resBinds (r : Res V) (xs : List Nat) : Prop :=
  match r with
  | .fail => True
  | .ok bs => bs.map (·.1) = xs

/-- A pattern behind an access that has no condition of its own. -/
theorem collect_access (S : Sem V) (v : V) {p : Pat} {q : Part} (hr : isRoot q = false)
    (ht : ∀ x, ptest S q x = some true) (hs : sat S v q.parent = some true) {r}
    (hnone : value S v q.parent = none → value S v q = none)
    (h : smatch S p (value S v q) = some r)
    (ih : sat S v q = some true → evalParts S v (collect p q).parts = some (resVals r) ∧ resBinds r (collect p q).binds) :
    evalParts S v (collect p q).parts = some (resVals r) ∧ resBinds r (collect p q).binds := by
  cases hv : value S v q.parent with
  | some x =>
    apply ih
    rw [sat_eq S v hr, hs, hv]
    exact ht x
  | none =>
    rw [hnone hv] at h
    have hl := collect_lazy S p q
    cases ha : (collect p q).added with
    | true => rw [hl.1 ha] at h; cases h
    | false =>
      obtain ⟨a, b, c⟩ := hl.2 ha
      rw [c] at h
      cases h
      rw [a, b]
      exact ⟨rfl, rfl⟩

mutual
theorem collect_correct (S : Sem V) (v : V) : ∀ (p : Pat) (parent : Part) (r : Res V), sat S v parent = some true →
    smatch S p (value S v parent) = some r →
    evalParts S v (collect p parent).parts = some (resVals r) ∧ resBinds r (collect p parent).binds
  | .var id, parent, r, hs, h => by
    simp only [smatch] at h
    cases hv : value S v parent with
    | none => rw [hv] at h; cases h
    | some x =>
      rw [hv] at h
      cases h
      simp [collect, evalParts, sat, hs, hv, step, ptest, Part.isBind, value, resVals, resBinds]
  | .as id p, parent, r, hs, h => by
    simp only [smatch] at h
    cases hv : value S v parent with
    | none => rw [hv] at h; cases h
    | some x =>
      simp only [hv, Option.bind_some] at h
      cases hm : smatch S p (some x) with
      | none => rw [hm] at h; cases h
      | some r' =>
        obtain ⟨h1, h2⟩ := collect_correct S v p parent r' hs (by rw [hv]; exact hm)
        simp only [hm] at h
        cases r' <;> cases h <;>
          simp_all [collect, evalParts, sat, step, ptest, Part.isBind, value, resVals, resBinds]
  | .wild, parent, r, hs, h => by
    simp only [smatch] at h
    cases h
    exact ⟨rfl, rfl⟩
  | .deref p, parent, r, hs, h => by
    simp only [smatch] at h
    exact collect_access S v (p := p) (q := .deref parent) rfl (fun _ => rfl) hs
      (by intro h; simp only [Part.parent] at h; simp [value, h]) h (fun hs' => collect_correct S v p _ r hs' h)
  | .nonNull p, parent, r, hs, h => by
    simp only [smatch] at h
    cases hv : value S v parent with
    | none => rw [hv] at h; cases h
    | some x =>
      simp only [hv, Option.bind_some] at h
      have hsn : sat S v (.nonNull parent) = some !(S.isNull x) := by
        simp [sat, hs, hv, step, ptest]
      have hvn : value S v (.nonNull parent) = S.load x := by simp [value, hv]
      have hl := collect_lazy S p (.nonNull parent)
      cases hx : S.isNull x with
      | true =>
        simp only [hx, if_true] at h
        cases h
        rw [hx] at hsn
        refine ⟨?_, trivial⟩
        simp only [collect]
        split
        · next ha =>
          obtain ⟨q, qs, h1, h2⟩ := collect_first S v p (.nonNull parent) ha
          rw [h1, evalParts, h2 hsn]
          rfl
        · next ha =>
          rw [(hl.2 (by simpa using ha)).1, List.nil_append, evalParts, hsn]
          rfl
      | false =>
        simp only [hx, if_false, Bool.false_eq_true] at h
        rw [hx] at hsn
        obtain ⟨h1, h2⟩ := collect_correct S v p (.nonNull parent) r hsn (by rw [hvn]; exact h)
        simp only [collect]
        split
        · exact ⟨h1, h2⟩
        · next ha =>
          obtain ⟨a, b, c⟩ := hl.2 (by simpa using ha)
          rw [c] at h
          cases h
          simp [a, b, evalParts, hsn, Part.isBind, resVals, resBinds]
  | .null, parent, r, hs, h => by
    simp only [smatch] at h
    cases hv : value S v parent with
    | none => rw [hv] at h; cases h
    | some x =>
      simp only [hv, Option.bind_some] at h
      cases hx : S.isNull x <;> simp only [hx] at h <;> cases h <;>
        simp [collect, evalParts, sat, hs, hv, step, ptest, Part.isBind, hx, resVals, resBinds]
  | .struct args, parent, r, hs, h => by
    simp only [smatch] at h
    exact collectArgs_correct S v args 0 parent r hs h
  | .reint ty p, parent, r, hs, h => by
    simp only [smatch] at h
    exact collect_access S v (p := p) (q := .reint ty parent) rfl (fun _ => rfl) hs
      (by intro h; simp only [Part.parent] at h; simp [value, h]) h (fun hs' => collect_correct S v p _ r hs' h)
  | .syntax p, parent, r, hs, h => by
    simp only [smatch] at h
    exact collect_access S v (p := p) (q := .body parent) rfl (fun _ => rfl) hs
      (by intro h; simp only [Part.parent] at h; simp [value, h]) h (fun hs' => collect_correct S v p _ r hs' h)
  | .const c, parent, r, hs, h => by
    simp only [smatch] at h
    cases hv : value S v parent with
    | none => rw [hv] at h; cases h
    | some x =>
      simp only [hv, Option.bind_some] at h
      split at h
      · next hx =>
        cases h
        simp [collect, evalParts, sat, hs, hv, step, ptest, Part.isBind, hx, resVals, resBinds]
      · split at h
        · cases h
        · next hx hc =>
          cases h
          simp [collect, evalParts, sat, hs, hv, step, ptest, hx, hc, resVals, resBinds]
theorem collectArgs_correct (S : Sem V) (v : V) : ∀ (args : List (Nat × Pat)) (i : Nat) (parent : Part) (r : Res V),
    sat S v parent = some true → smatchArgs S args i (value S v parent) = some r →
    evalParts S v (collectArgs args i parent).parts = some (resVals r) ∧ resBinds r (collectArgs args i parent).binds
  | [], i, parent, r, hs, h => by
    simp only [smatchArgs] at h
    cases h
    exact ⟨rfl, rfl⟩
  | (ty, p) :: args, i, parent, r, hs, h => by
    simp only [smatchArgs] at h
    have key : ∀ r', smatch S p ((value S v parent).bind (S.elem i)) = some r' →
        evalParts S v (collect p (.elem ty i parent)).parts = some (resVals r') ∧
          resBinds r' (collect p (.elem ty i parent)).binds := by
      intro r' h'
      exact collect_access S v (p := p) (q := .elem ty i parent) rfl (fun _ => rfl) hs
        (by intro h; simp only [Part.parent] at h; simp [value, h]) h' (fun hs' => collect_correct S v p _ r' hs' h')
    simp only [collectArgs, Flat.append, evalParts_append]
    split at h
    · cases h
    · next hm =>
      cases h
      rw [(key _ hm).1]
      exact ⟨rfl, trivial⟩
    · next bs hm =>
      obtain ⟨k1, k2⟩ := key _ hm
      split at h
      · cases h
      · next hm' =>
        cases h
        obtain ⟨j1, j2⟩ := collectArgs_correct S v args (i + 1) parent _ hs hm'
        rw [k1, j1]
        exact ⟨rfl, trivial⟩
      · next bs' hm' =>
        cases h
        obtain ⟨j1, j2⟩ := collectArgs_correct S v args (i + 1) parent _ hs hm'
        rw [k1, j1]
        simp only [resVals, resBinds] at k2 j2 ⊢
        simp [k2, j2]
end

end Verif.Branch
