import Verif.Heap2Stack.Step

/-
Property C43: moving heap allocations to the stack.
-/

namespace Verif.Heap2Stack

theorem run_mark : ∀ (prog : List Fn) (S : List Nat), (∀ f ∈ prog, (binders f.body).Nodup) →
    (prog.flatMap fun f => sites f.body).Nodup →
    ∃ P, (∀ s ∈ P, s ∈ prog.flatMap fun f => sites f.body) ∧ run prog S = markFns P prog ∧
      ∀ f ∈ prog, Ok P none f.body ∧ (sites f.body).Nodup
  | [], _, _, _ => ⟨[], by simp, rfl, by simp⟩
  | f :: fs, S, hb, hs => by
    rw [List.flatMap_cons, List.nodup_append] at hs
    obtain ⟨P, h1, h2, h3⟩ := (pass_mark f.body S hs.1 (hb f (List.mem_cons_self ..))).1
    obtain ⟨Q, q1, q2, q3⟩ := run_mark fs (pass f.body S).2
      (fun g hg => hb g (List.mem_cons_of_mem _ hg)) hs.2.1
    have c1 := mark_congr f.body P (P ++ Q) false none (iff_left hs.2.2 q1)
    have c2 : ∀ g ∈ fs, mark Q false g.body = mark (P ++ Q) false g.body ∧
        (Ok Q none g.body ↔ Ok (P ++ Q) none g.body) := fun g hg =>
      mark_congr g.body Q (P ++ Q) false none (fun s hs' =>
        iff_right hs.2.2 h1 s (List.mem_flatMap.2 ⟨g, hg, hs'⟩))
    refine ⟨P ++ Q, ?_, ?_, ?_⟩
    · rw [List.flatMap_cons]; exact sub_append h1 q1
    · simp only [run, markFns, List.map_cons, h2, c1.1]
      congr 1
      rw [q2]
      simp only [markFns]
      exact List.map_congr_left (fun g hg => by rw [(c2 g hg).1])
    · intro g hg
      rcases List.mem_cons.1 hg with rfl | hg
      · exact ⟨c1.2.1 h3, hs.1⟩
      · exact ⟨(c2 g hg).2.1 (q3 g hg).1, (q3 g hg).2⟩

/-- The pass changes nothing but the place of some allocations, each the initial value of a
variable that, in the `let` that binds it, occurs only as what is loaded from or stored to: its
address is not stored, returned, captured or passed on. -/
theorem heap2stack_moves (prog : List Fn) (S : List Nat) (hw : WellNamed prog) (i : Nat) (f : Fn)
    (hf : prog[i]? = some f) :
    ∃ f', (run prog S)[i]? = some f' ∧ f'.env = f.env ∧ f'.params = f.params ∧
      Moves f.body f'.body := by
  obtain ⟨P, -, h2, h3⟩ := run_mark prog S hw.1 hw.2
  refine ⟨{ f with body := mark P false f.body }, ?_, rfl, rfl, ?_⟩
  · rw [h2, markFns_get, hf]; rfl
  · exact mark_moves f.body P (h3 f (List.mem_of_getElem? hf)).1

/-- Addresses that were there before the program started. -/
def notObj : Addr → Bool
  | .obj _ => false
  | _ => true

theorem clean_of_notObj {P : List Nat} : ∀ v : V, v.clean notObj → v.clean (hidden P)
  | .word _ => fun _ => trivial
  | .ptr (.obj _) => fun _ => rfl
  | .ptr (.heap _ _) => fun h => by simp [V.clean, notObj] at h
  | .ptr (.stack _ _) => fun h => by simp [V.clean, notObj] at h
  | .pair v w => fun h => ⟨clean_of_notObj v h.1, clean_of_notObj w h.2⟩
  | .clos _ v => fun h => clean_of_notObj (P := P) v h

theorem same_of_sim {P : List Nat} {L : Links} {fr : Nat} {r r' : Res V}
    (h : Sim P L fr (V.clean (hidden P)) r r') : SameOutcome (hidden P) r r' := by
  match r, h with
  | .error .stuck, _ => exact True.intro
  | .error .fuel, h => exact h
  | .ok (.ok v, σ), h =>
    obtain ⟨σ', rfl, h1, -⟩ := h; exact ⟨σ', rfl, fun a ha => (h1.agree a ha).1⟩
  | .ok (.error x, σ), h =>
    obtain ⟨σ', rfl, h1, -⟩ := h; exact ⟨σ', rfl, fun a ha => (h1.agree a ha).1⟩

/-- Any call in a program gives the same outcome after the pass, after any number of steps: the
same value, the same exit, or still running.  The memory is the same outside the cells of some
allocations of the program. -/
theorem heap2stack_same (prog : List Fn) (S : List Nat) (hw : WellNamed prog) (prim : Prim)
    (hprim : prim.Local) :
    ∃ P, (∀ s ∈ P, s ∈ prog.flatMap fun f => sites f.body) ∧
      ∀ (n : Nat) (f : V) (vs : List V) (σ : State), 0 < σ.frames → f.clean notObj →
        (∀ v ∈ vs, v.clean notObj) → (∀ a v, σ.mem a = some v → v.clean notObj) →
        SameOutcome (hidden P) (apply prog prim n f vs σ) (apply (run prog S) prim n f vs σ) := by
  obtain ⟨P, h1, h2, h3⟩ := run_mark prog S hw.1 hw.2
  refine ⟨P, h1, fun n f vs σ hf hc hv hm => ?_⟩
  rw [h2]
  exact same_of_sim ((steps h3 hprim n).app 0 f vs σ σ [] (clean_of_notObj f hc)
    (fun v h => clean_of_notObj v (hv v h))
    ⟨rfl, rfl, fun a _ => ⟨rfl, fun v h => clean_of_notObj v (hm a v h)⟩,
      fun a p h => by simp at h, fun a p b q h => by simp at h⟩ hf)

/-- The value of a call is the same after the pass. -/
theorem heap2stack_value (prog : List Fn) (S : List Nat) (hw : WellNamed prog) (prim : Prim)
    (hprim : prim.Local) (n : Nat) (f : V) (vs : List V) (σ σ₁ : State) (v : V)
    (hf : 0 < σ.frames) (hc : f.clean notObj) (hv : ∀ v ∈ vs, v.clean notObj)
    (hm : ∀ a v, σ.mem a = some v → v.clean notObj)
    (hr : apply prog prim n f vs σ = .ok (.ok v, σ₁)) :
    ∃ σ₁', apply (run prog S) prim n f vs σ = .ok (.ok v, σ₁') := by
  obtain ⟨P, -, h⟩ := heap2stack_same prog S hw prim hprim
  have := h n f vs σ hf hc hv hm
  rw [hr] at this
  obtain ⟨σ', e, -⟩ := this
  exact ⟨σ', e⟩

/-! ### Operations for examples -/

/-- Some operations: constants, addition, subtraction, pairs, comparison of pointers, a new
object, and a copy from one cell to another. -/
def ops : Prim
  | 0, [.word a, .word b], m, t => some (.word (a + b), m, t)
  | 1, [.word a, .word b], m, t => some (.word (a - b), m, t)
  | 2, [v, w], m, t => some (.pair v w, m, t)
  | 3, [.pair v _], m, t => some (v, m, t)
  | 4, [.ptr a, .ptr b], m, t => some (.word (if a = b then 1 else 0), m, t)
  | 5, [v], m, t => some (.ptr (.obj t), m.set (.obj t) v, t + 1)
  | 6, [.ptr a, .ptr b], m, t => (m a).map fun v => (.word 0, m.set b v, t)
  | n + 10, [], m, t => some (.word n, m, t)
  | _, _, _, _ => none

theorem agree_set {hid : Addr → Bool} {m m' : Mem} (h : Agree hid m m') (a : Addr) (v : V)
    (hv : v.clean hid) : Agree hid (m.set a v) (m'.set a v) := by
  intro b hb
  by_cases e : b = a
  · subst e
    rw [Mem.set_eq, Mem.set_eq]
    exact ⟨rfl, fun w hw => by cases hw; exact hv⟩
  · rw [Mem.set_ne _ _ e, Mem.set_ne _ _ e]; exact h b hb

theorem ops_local : ops.Local := by
  intro ss op vs m m' t v m₁ t₁ ha hv h
  unfold ops at h
  split at h
  · cases h
    exact ⟨Nat.le_refl _, trivial, fun _ _ => rfl, m', rfl, ha, fun _ _ => rfl⟩
  · cases h
    exact ⟨Nat.le_refl _, trivial, fun _ _ => rfl, m', rfl, ha, fun _ _ => rfl⟩
  · cases h
    exact ⟨Nat.le_refl _, ⟨hv _ (by simp), hv _ (by simp)⟩, fun _ _ => rfl, m', rfl, ha,
      fun _ _ => rfl⟩
  · cases h
    exact ⟨Nat.le_refl _, (hv _ (List.mem_singleton.2 rfl)).1, fun _ _ => rfl, m', rfl, ha,
      fun _ _ => rfl⟩
  · cases h
    exact ⟨Nat.le_refl _, trivial, fun _ _ => rfl, m', rfl, ha, fun _ _ => rfl⟩
  · cases h
    refine ⟨Nat.le_succ _, rfl, fun a q => ?_, _, rfl, agree_set ha _ _ (hv _ (by simp)),
      fun a q => ?_⟩
    · rw [Mem.set_ne]; intro e; subst e; cases q
    · rw [Mem.set_ne]; intro e; subst e; cases q
  · rename_i a b
    have hb : hidden ss b = false := hv (.ptr b) (by simp)
    have ha' : hidden ss a = false := hv (.ptr a) (by simp)
    cases hm : m a with
    | none => rw [hm] at h; cases h
    | some w =>
      rw [hm] at h
      cases h
      have hw := (ha a ha').2 w hm
      refine ⟨Nat.le_refl _, trivial, fun c q => ?_, m'.set b w, ?_, agree_set ha _ _ hw,
        fun c q => ?_⟩
      · rw [Mem.set_ne]; intro e; subst e; rw [hb] at q; cases q
      · simp only [ops, ← (ha a ha').1, hm, Option.map_some]
      · rw [Mem.set_ne]; intro e; subst e; rw [hb] at q; cases q
  · cases h
    exact ⟨Nat.le_refl _, trivial, fun _ _ => rfl, m', rfl, ha, fun _ _ => rfl⟩
  · cases h

/-! ### A program with a loop, a local function result and an escaping cell -/

/-- A constant. -/
def num (n : Nat) : Rt := .prim (n + 10) .nil

/-- Operands. -/
def two (a b : Rt) : Rts := .cons a (.cons b .nil)

/-- `let i = alloc n, s = alloc 0, r = alloc 0; while *i { let t = alloc (*s + *i); s := *t;
i := *i - 1 }; r := *s; r`: the three cells `i`, `s` and `t` do not escape, the cell `r` does. -/
def sumBody : Rt :=
  .letVar (.cons 1 (.alloc .heap 1 (.var 0)) (.cons 2 (.alloc .heap 2 (num 0))
      (.cons 3 (.alloc .heap 3 (num 0)) .nil)))
    (.seq (.cons (.while (.load (.var 1))
        (.letVar (.cons 4 (.alloc .heap 4 (.prim 0 (two (.load (.var 2)) (.load (.var 1))))) .nil)
          (.seq (.cons (.store (.load (.var 4)) (.var 2)) .nil)
            (.store (.prim 1 (two (.load (.var 1)) (num 1))) (.var 1)))))
      (.cons (.store (.load (.var 2)) (.var 3)) .nil))
      (.var 3))

/-- The function above, and one that loads what it gives for a number. -/
def sumProg : List Fn :=
  [⟨[], [0], sumBody⟩,
   ⟨[], [0], .letVar (.cons 1 (.call (.fn 0) (.cons (.var 0) .nil)) .nil) (.load (.var 1))⟩]

/-- The places of the allocations that are the initial values of the variables of a `let`. -/
def places : Vars → List Loc
  | .nil => []
  | .cons _ (.alloc l _ _) vs => l :: places vs
  | .cons _ _ vs => places vs

/-- The places of the allocations of the outermost `let`. -/
def outerPlaces : Rt → List Loc
  | .letVar vs _ => places vs
  | _ => []

/-- A state to start from. -/
def start : State := ⟨fun _ => none, 0, 1⟩

/-- The value that a run gives. -/
def valueOf : Res V → Option V
  | .ok (.ok v, _) => some v
  | _ => none

/-- The names of the example are as the theorems require. -/
example : WellNamed sumProg := by
  refine ⟨?_, by decide +kernel⟩
  intro f hf
  simp only [sumProg, List.mem_cons, List.not_mem_nil, or_false] at hf
  rcases hf with rfl | rfl <;> decide +kernel

/-- Two of the three cells of the outer `let` are moved, the escaping one is not. -/
example : ((run sumProg []).map fun f => outerPlaces f.body) =
    [[.stackStatic, .stackStatic, .heap], []] := by decide +kernel

/-- Both programs give 10 for 4. -/
example : valueOf (apply sumProg ops 60 (.clos 1 (.word 0)) [.word 4] start) = some (.word 10) ∧
    valueOf (apply (run sumProg []) ops 60 (.clos 1 (.word 0)) [.word 4] start) =
      some (.word 10) := by decide +kernel

/-- The places of a frame are gone when it is left: a function that gives the address of a cell
in the stack gives something that cannot be loaded from. -/
example : valueOf (apply [⟨[], [], .alloc .stackStatic 1 (num 7)⟩,
      ⟨[], [], .load (.call (.fn 0) .nil)⟩] ops 60 (.clos 1 (.word 0)) [] start) = none ∧
    valueOf (apply [⟨[], [], .alloc .heap 1 (num 7)⟩,
      ⟨[], [], .load (.call (.fn 0) .nil)⟩] ops 60 (.clos 1 (.word 0)) [] start) =
      some (.word 7) := by decide +kernel

/-! ### The names matter -/

/-- `let x = alloc 7; let r = (x, 0); let x = alloc 8 in *x; fst r`, with `x` twice. -/
def twice : List Fn :=
  [⟨[], [], .letVar (.cons 1 (.alloc .heap 1 (num 7)) .nil)
      (.letVar (.cons 2 (.prim 2 (two (.var 1) (num 0))) .nil)
        (.seq (.cons (.letVar (.cons 1 (.alloc .heap 2 (num 8)) .nil) (.load (.var 1))) .nil)
          (.prim 3 (.cons (.var 2) .nil))))⟩,
   ⟨[], [], .load (.call (.fn 0) .nil)⟩]

/-- With a variable bound twice the pass would move an allocation that escapes, and change the
result of the program: the inner binding puts the name back into the set.  The ids that
`RtIdGen` gives are new, so this does not happen. -/
theorem heap2stack_needs_names :
    ¬ WellNamed twice ∧
    valueOf (apply twice ops 60 (.clos 1 (.word 0)) [] start) = some (.word 7) ∧
    valueOf (apply (run twice []) ops 60 (.clos 1 (.word 0)) [] start) = none := by
  refine ⟨fun h => ?_, by decide +kernel, by decide +kernel⟩
  have := h.1 _ (List.mem_cons_self ..)
  revert this
  decide +kernel

end Verif.Heap2Stack
