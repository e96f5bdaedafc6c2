import Verif.Scope.Model

/-!
# C16: leaving a local scope restores the outer bindings

Specification: an environment is a stack of frames over a top-level table; looking a name up finds the innermost frame that defines it.
-/
namespace Verif.Scope

variable {C : Type}

namespace Spec

/-- Lookup in nested frames (innermost first), then in the top-level table. -/
def lookup (top : String → Option C) (frames : List (List (String × C))) (name : String) : Option C :=
  match frames with
  | [] => top name
  | f :: fs => match f.find? (fun e => e.1 = name) with
    | some e => some e.2
    | none => lookup top fs name

/-- Operations of a client of scopes. -/
inductive Op (C : Type) | enter | define (name : String) (c : C) | leave

/-- The effect of an operation on the frames; `none` when it has to be refused: a name is defined twice in a
frame, or there is no open frame. -/
def step : List (List (String × C)) → Op C → Option (List (List (String × C)))
  | frames, .enter => some ([] :: frames)
  | [], .define _ _ => none
  | f :: fs, .define name c => if f.any (fun e => e.1 = name) then none else some (((name, c) :: f) :: fs)
  | [], .leave => none
  | _ :: fs, .leave => some fs

end Spec
open Spec

/-- One step of the model; leaving may drain the stash in any order. -/
inductive Step : State C → Op C → State C → Prop
  | enter (s) : Step s .enter (enter s)
  | define (s name c s') : define s name c = (s', none) → Step s (.define name c) s'
  | leave (s stash outer drained) : s.stashes = stash :: outer → drained.Perm stash →
      Step s .leave (leave s drained)

/-- Any number of steps. -/
inductive Steps : State C → List (Op C) → State C → Prop
  | nil (s) : Steps s [] s
  | cons (s op s' ops s'') : Step s op s' → Steps s' ops s'' → Steps s (op :: ops) s''

/-- The relation between the model's state and the frames. -/
def Rel (top : String → Option C) : List (HMap String (Option C)) → List (List (String × C)) → Prop
  | [], [] => True
  | st :: sts, f :: fs =>
    (HMap.keys st).Nodup ∧
    (∀ n, st.get n = if f.any (fun e => e.1 = n) then some (lookup top fs n) else none) ∧
    Rel top sts fs
  | _, _ => False

theorem restore_get (d : List (String × Option C)) (m : HMap String C) (hn : (HMap.keys d).Nodup) (n : String) :
    (restore d m).get n = match HMap.get d n with | some o => o | none => m.get n := by
  induction d generalizing m with
  | nil => simp [restore, HMap.get]
  | cons e d ih =>
    obtain ⟨a, o⟩ := e
    simp only [HMap.keys, List.map_cons, List.nodup_cons] at hn
    have hnone : HMap.get d a = none := by
      cases h : HMap.get d a with
      | none => rfl
      | some v => exact absurd ((HMap.mem_keys_iff d a).2 (by simp [h])) hn.1
    cases o with
    | some c =>
      simp only [restore]
      rw [ih _ hn.2, HMap.get_insert]
      by_cases h : a = n
      · subst h; simp [HMap.get, hnone]
      · simp [HMap.get, h, Ne.symm h]
    | none =>
      simp only [restore]
      rw [ih _ hn.2, HMap.get_remove]
      by_cases h : a = n
      · subst h; simp [HMap.get, hnone]
      · simp [HMap.get, h, Ne.symm h]

theorem find_any {f : List (String × C)} {n} : (f.find? (fun e => e.1 = n)).isSome = f.any (fun e => e.1 = n) := by
  induction f with
  | nil => rfl
  | cons e f ih => simp only [List.find?_cons, List.any_cons]; cases h : decide (e.1 = n) <;> simp_all

theorem step_sim {top : String → Option C} {s s' : State C} {op : Op C} {frames}
    (hrel : Rel top s.stashes frames) (hget : ∀ n, get s n = lookup top frames n) (hs : Step s op s') :
    ∃ frames', Spec.step frames op = some frames' ∧ Rel top s'.stashes frames' ∧
      ∀ n, get s' n = lookup top frames' n := by
  cases hs with
  | enter =>
    refine ⟨[] :: frames, by cases frames <;> rfl, ?_, ?_⟩
    · exact ⟨by simp [HMap.keys], by simp [HMap.get], hrel⟩
    · intro n; simpa [lookup, get, enter] using hget n
  | define name c _ hd =>
    obtain ⟨map, stashes⟩ := s
    cases stashes with
    | nil => simp [define] at hd
    | cons st sts =>
      cases frames with
      | nil => simp [Rel] at hrel
      | cons f fs =>
        obtain ⟨hnd, hst, hr⟩ := hrel
        simp only [define] at hd
        split at hd
        · split at hd <;> simp at hd
        · next hnone =>
          simp only [Prod.mk.injEq, and_true] at hd
          subst hd
          have hfn : (f.any fun e => e.1 = name) = false := by
            rw [hst name] at hnone
            cases h : (f.any fun e => decide (e.1 = name)) <;> simp_all
          refine ⟨((name, c) :: f) :: fs, by simp [Spec.step, hfn], ?_, ?_⟩
          · refine ⟨HMap.nodup_insert hnd _ _, ?_, hr⟩
            intro n
            rw [HMap.get_insert]
            by_cases h : n = name
            · subst h
              simp only [if_true, List.any_cons, decide_true, Bool.true_or]
              have := hget n
              simp only [get, lookup] at this
              rw [this]
              have hf : f.find? (fun e => e.1 = n) = none := by
                rw [← find_any] at hfn; simpa using hfn
              rw [hf]
            · rw [if_neg h, hst n, List.any_cons, decide_eq_false (fun e => h e.symm), Bool.false_or]
          · intro n
            simp only [get, lookup, List.find?_cons]
            rw [HMap.get_insert, HMap.get_remove]
            by_cases h : n = name
            · subst h; simp
            · simp only [h, if_false, Ne.symm h, decide_false]
              have := hget n
              simpa [get, lookup] using this
  | leave st outer drained hstash hperm =>
    obtain ⟨map, stashes⟩ := s
    simp only at hstash
    subst hstash
    cases frames with
    | nil => simp [Rel] at hrel
    | cons f fs =>
      obtain ⟨hnd, hst, hr⟩ := hrel
      refine ⟨fs, rfl, hr, ?_⟩
      intro n
      simp only [get, leave]
      have hnd' : (HMap.keys drained).Nodup := (hperm.map Prod.fst).nodup_iff.2 hnd
      rw [restore_get _ _ hnd', HMap.get_perm hnd' hperm, hst n]
      have := hget n
      simp only [get, lookup] at this
      cases hf : f.find? (fun e => e.1 = n) with
      | none =>
        have : f.any (fun e => e.1 = n) = false := by rw [← find_any, hf]; rfl
        rw [this]; simp_all
      | some e =>
        have : f.any (fun e => e.1 = n) = true := by rw [← find_any, hf]; rfl
        rw [this]; simp

/-- **C16 (successful runs), as a refinement.** Any sequence of enter / successful define / leave behaves like a stack of
frames: every name means what the innermost frame that defines it says, or else what the top level says. -/
theorem scopes_refine_frames (top : HMap String C) (ops : List (Op C)) (s : State C) (h : Steps ⟨top, []⟩ ops s) :
    ∃ frames, ops.foldlM Spec.step [] = some frames ∧ ∀ n, get s n = lookup top.get frames n := by
  have gen : ∀ (s0 : State C) frames0 ops s, Rel top.get s0.stashes frames0 →
      (∀ n, get s0 n = lookup top.get frames0 n) → Steps s0 ops s →
      ∃ frames, ops.foldlM Spec.step frames0 = some frames ∧ ∀ n, get s n = lookup top.get frames n := by
    intro s0 frames0 ops s hr hg hs
    induction hs generalizing frames0 with
    | nil => exact ⟨frames0, rfl, hg⟩
    | cons s op s' ops s'' h1 _ ih =>
      obtain ⟨f', hf', hr', hg'⟩ := step_sim hr hg h1
      obtain ⟨f'', hf'', hg''⟩ := ih _ hr' hg'
      exact ⟨f'', by simp [List.foldlM_cons, hf', hf''], hg''⟩
  exact gen ⟨top, []⟩ [] _ _ trivial (fun n => rfl) h

/-- **C16, scope by scope.** If the operations between a scope's beginning and its end are balanced (`body` opens and closes
nested scopes only), then after the scope ends each name means what it meant before it began. -/
theorem leaving_restores (s s2 : State C) (pre : List (Op C)) (top : HMap String C) (body : List (Op C))
    (hpre : Steps ⟨top, []⟩ pre s) (hbody : Steps s (.enter :: body ++ [.leave]) s2)
    (frames f0) (hf : pre.foldlM Spec.step [] = some frames)
    (hbal : body.foldlM Spec.step ([] :: frames) = some (f0 :: frames)) :
    ∀ n, get s2 n = get s n := by
  have happ : ∀ {a b c : State C} {o1 o2}, Steps a o1 b → Steps b o2 c → Steps a (o1 ++ o2) c := by
    intro a b c o1 o2 h1 h2
    induction h1 with
    | nil => exact h2
    | cons _ _ _ _ _ h _ ih => exact .cons _ _ _ _ _ h (ih h2)
  obtain ⟨fa, ha, hga⟩ := scopes_refine_frames top pre s hpre
  obtain ⟨fb, hb, hgb⟩ := scopes_refine_frames top _ s2 (happ hpre hbody)
  rw [hf] at ha; cases ha
  rw [List.foldlM_append, hf] at hb
  simp only [Option.bind_eq_bind, Option.bind_some, List.cons_append, List.foldlM_cons, Spec.step] at hb
  rw [List.foldlM_append, hbal] at hb
  simp [Spec.step] at hb
  subst hb
  intro n; rw [hga, hgb]

/-- **C16, duplicates.** In any state reached by successful operations, defining a name succeeds exactly when the innermost
frame does not have it yet; otherwise it is reported as duplicated (no panic). -/
theorem define_reports_duplicates (top : HMap String C) (ops : List (Op C)) (s : State C) (h : Steps ⟨top, []⟩ ops s)
    (f fs) (hf : ops.foldlM Spec.step [] = some (f :: fs)) (name : String) (c : C) :
    (define s name c).2 = if f.any (fun e => e.1 = name) then some (.duplicatedIdentifier name) else none := by
  have gen : ∀ (s0 : State C) frames0 ops s frames, Rel top.get s0.stashes frames0 →
      (∀ n, get s0 n = lookup top.get frames0 n) → Steps s0 ops s → ops.foldlM Spec.step frames0 = some frames →
      Rel top.get s.stashes frames ∧ ∀ n, get s n = lookup top.get frames n := by
    intro s0 frames0 ops s frames hr hg hs hfr
    induction hs generalizing frames0 with
    | nil => simp at hfr; subst hfr; exact ⟨hr, hg⟩
    | cons s op s' ops s'' h1 _ ih =>
      obtain ⟨f', hf', hr', hg'⟩ := step_sim hr hg h1
      rw [List.foldlM_cons, hf'] at hfr
      exact ih _ hr' hg' hfr
  obtain ⟨hr, hg⟩ := gen ⟨top, []⟩ [] _ _ _ trivial (fun n => rfl) h hf
  obtain ⟨map, stashes⟩ := s
  cases stashes with
  | nil => simp [Rel] at hr
  | cons st sts =>
    obtain ⟨hnd, hst, _⟩ := hr
    simp only [define, hst name]
    cases hany : (f.any fun e => decide (e.1 = name)) with
    | false => simp
    | true =>
      simp only [if_true, Option.isSome_some, HMap.get_insert]
      have hg := hg name
      simp only [get, lookup] at hg
      rw [← find_any] at hany
      obtain ⟨e, he⟩ := Option.isSome_iff_exists.1 hany
      rw [he] at hg
      rw [hg]

/-- **C16 is violated on the error path.** After a duplicate definition was reported, leaving the scope does not bring back the
outer meaning: `x` meant `0` outside, and means `1` (the first inner definition) after the scope is left. The compiler abandons the module
at this error, which is why this stays invisible. -/
theorem duplicate_corrupts_outer :
    ∃ (s s1 s2 s3 : State Nat) (d : List (String × Option Nat)),
      get s "x" = some 0 ∧ define (enter s) "x" 1 = (s1, none) ∧
      define s1 "x" 2 = (s2, some (.duplicatedIdentifier "x")) ∧
      s2.stashes.head? = some d ∧ s3 = leave s2 d ∧ get s3 "x" = some 1 := by
  refine ⟨⟨[("x", 0)], []⟩, _, _, _, _, ?_, rfl, rfl, rfl, rfl, ?_⟩ <;> decide

/-- A third definition of the same name after that error panics (`unwrap` on `None` at scope.rs:104). -/
theorem third_definition_panics :
    ∃ (s s1 s2 : State Nat), define (enter s) "x" 1 = (s1, none) ∧
      define s1 "x" 2 = (s2, some (.duplicatedIdentifier "x")) ∧ (define s2 "x" 3).2 = some .panic :=
  ⟨⟨[], []⟩, _, _, rfl, rfl, by decide⟩

-- non-vacuity: shadowing in two nested scopes
example : ∃ s : State Nat, Steps ⟨[("x", 0)], []⟩ [.enter, .define "x" 1, .enter, .define "x" 2, .define "y" 3, .leave] s ∧
    get s "x" = some 1 ∧ get s "y" = none := by
  refine ⟨_, .cons _ _ _ _ _ (.enter _) (.cons _ _ _ _ _ (.define _ _ _ _ rfl) (.cons _ _ _ _ _ (.enter _)
    (.cons _ _ _ _ _ (.define _ _ _ _ rfl) (.cons _ _ _ _ _ (.define _ _ _ _ rfl)
    (.cons _ _ _ _ _ (.leave _ _ _ _ rfl (List.Perm.refl _)) (.nil _)))))), ?_, ?_⟩ <;> decide

/-- A definition at the top level is reported exactly when the name already means something else; otherwise the name means the
construct and no other name changes. -/
theorem topDefine_spec [DecidableEq C] (map : HMap String C) (name : String) (c : C) :
    ((topDefine map name c).2 = some (.multipleDeclarations name) ↔ ∃ old, map.get name = some old ∧ old ≠ c) ∧
    ((topDefine map name c).2 = none ↔ ∀ old, map.get name = some old → old = c) ∧
    ∀ n, (topDefine map name c).1.get n = if n = name then some c else map.get n := by
  refine ⟨?_, ?_, fun n => by simp only [topDefine]; exact HMap.get_insert _ _ _ _⟩
  · unfold topDefine
    cases map.get name with
    | none => simp
    | some old => by_cases h : old = c <;> simp [h]
  · unfold topDefine
    cases map.get name with
    | none => simp
    | some old => by_cases h : old = c <;> simp [h]

end Verif.Scope
