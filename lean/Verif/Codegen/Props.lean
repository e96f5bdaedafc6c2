import Verif.Codegen.SimFun

/-!
# C64: the code the chibi backend generates computes what functions mean
-/
namespace Verif.Codegen
open Spec
open Verif (HMap)

/-! ### All labels are different, all functions are where they should be -/

theorem plain_envCode {off : HMap Nat Int} : ∀ {bs : List Binder} {o : Nat} {c : Code}, envCode off bs o = some c → Plain c
  | [], _, _, h => by cases h; exact .nil
  | b :: bs, o, c, h => by
    rw [envCode] at h
    simp only [Option.bind_eq_bind, Option.bind_eq_some_iff] at h
    obtain ⟨d, -, c', hc', h⟩ := h
    cases h
    exact ((plain_loadV _ _ _).append (plain_storeV _ _ _)).append (plain_envCode hc')

theorem plain_prologue {f : Fun} {fr : StackFrame.St} {c : Code} (h : prologue f fr = some c) : Plain c := by
  have hr : Plain (match fr.retPtr with | some o => [.st .rbp o .rdi] | none => []) := by
    split
    · exact .cons rfl .nil
    · exact .nil
  unfold prologue at h
  cases hfe : f.env with
  | none =>
    rw [hfe] at h; cases h
    exact (((Plain.cons rfl (.cons rfl .nil)).append (plain_extend _)).append hr).append .nil
  | some ie =>
    rw [hfe] at h
    simp only [Option.bind_eq_bind, Option.bind_eq_some_iff] at h
    obtain ⟨o, -, ce, hce, c2, hc2, h⟩ := h
    cases hc2; cases h
    exact (((Plain.cons rfl (.cons rfl .nil)).append (plain_extend _)).append hr).append (.cons rfl (plain_envCode hce))

/-- The labels of a function. -/
theorem compFun_labels {fx : Bool} {f : Fun} {n n' : Nat} {c : Code} (h : compFun fx f n = some (c, n')) :
    n ≤ n' ∧ (∀ l, cl l c ≤ 1) ∧ (∀ l, l < n ∨ n' ≤ l → cl l c = 0) ∧ ∀ g, cf g c = if f.id = g then 1 else 0 := by
  unfold compFun at h
  simp only [Option.bind_eq_bind, Option.bind_eq_some_iff] at h
  obtain ⟨c0, hp, ⟨c1, l, st'⟩, hc1, h⟩ := h
  have hl := (fact _ _ _ _ _ _ _ hc1).lab
  have p0 := plain_prologue hp
  obtain ⟨z, he, hz⟩ : ∃ z, Plain z ∧ epilogue f (StackFrame.collect f.frame) n = .label n :: z := by
    unfold epilogue
    split
    · exact ⟨_, ((Plain.cons rfl .nil).append (plain_storeV .rax 0 f.ret)).append (.cons rfl (.cons rfl (.cons rfl .nil))), rfl⟩
    · exact ⟨_, .cons rfl (.cons rfl (.cons rfl .nil)), rfl⟩
  have hc : c = .fn f.id :: (c0 ++ (c1 ++ (.label n :: z))) ∧ n' = st'.next := by
    cases l with
    | none => cases h; simp [hz]
    | some x =>
      dsimp only at h
      split at h
      · cases h; simp [hz]
      · cases h
  obtain ⟨rfl, rfl⟩ := hc
  have le := hl.le
  simp only at le
  refine ⟨by omega, fun x => ?_, fun x hx => ?_, fun g => ?_⟩
  · rw [cl_fn, cl_append, cl_append, cl_label, p0.cl, he.cl]
    have := hl.one x
    split
    · next e => have := hl.out x (.inl (by simp only; omega)); omega
    · omega
  · rw [cl_fn, cl_append, cl_append, cl_label, p0.cl, he.cl]
    have := hl.out x (by simp only; omega)
    split <;> omega
  · rw [cf_fn, cf_append, cf_append, cf_label, p0.cf, he.cf, hl.fn]; omega

theorem compAll_labels {fx : Bool} : ∀ {fs : List Fun} {n : Nat} {C : Code}, compAll fx fs n = some C →
    (∀ l, cl l C ≤ 1) ∧ (∀ l, l < n → cl l C = 0) ∧ ∀ g, cf g C = (fs.map Fun.id).count g
  | [], n, C, h => by cases h; exact ⟨fun _ => by simp [cl_nil], fun _ _ => rfl, fun _ => rfl⟩
  | f :: fs, n, C, h => by
    rw [compAll] at h
    simp only [Option.bind_eq_bind, Option.bind_eq_some_iff] at h
    obtain ⟨⟨c, n'⟩, hc, c', hc', h⟩ := h
    cases h
    dsimp only at hc hc' ⊢
    obtain ⟨a1, a2, a3, a4⟩ := compFun_labels hc
    obtain ⟨b1, b2, b3⟩ := compAll_labels hc'
    refine ⟨fun l => ?_, fun l hl => ?_, fun g => ?_⟩
    · rw [cl_append]; have := a2 l; have := b1 l; have := a3 l; have := b2 l; omega
    · rw [cl_append, a3 l (.inl hl), b2 l (by omega)]
    · rw [cf_append, a4, b3, List.map_cons, List.count_cons]
      simp only [beq_iff_eq]; omega

theorem compAll_at {fx : Bool} {C0 : Code} : ∀ {fs : List Fun} {n : Nat} {C : Code} {pc : Int}, compAll fx fs n = some C → At C0 pc C → ∀ f ∈ fs, ∃ n c n' pc, compFun fx f n = some (c, n') ∧ At C0 pc c
  | [], _, _, _, _, _, f, hf => by cases hf
  | g :: fs, n, C, pc, h, ha, f, hf => by
    rw [compAll] at h
    simp only [Option.bind_eq_bind, Option.bind_eq_some_iff] at h
    obtain ⟨⟨c, n'⟩, hc, c', hc', h⟩ := h
    cases h
    rcases List.mem_cons.1 hf with rfl | hf
    · exact ⟨n, c, n', pc, hc, ha.left⟩
    · exact compAll_at hc' ha.right f hf

theorem compFun_head {fx : Bool} {f : Fun} {n n' : Nat} {c : Code} (h : compFun fx f n = some (c, n')) : ∃ t, c = .fn f.id :: t := by
  unfold compFun at h
  simp only [Option.bind_eq_bind, Option.bind_eq_some_iff] at h
  obtain ⟨c0, hp, ⟨c1, l, st'⟩, hc1, h⟩ := h
  cases l with
  | none => cases h; exact ⟨_, rfl⟩
  | some x =>
    dsimp only at h
    split at h
    · cases h; exact ⟨_, rfl⟩
    · cases h

theorem compAll_prog {fx : Bool} {fs : List Fun} {C : Code} (w : World) (hc : compAll fx fs 0 = some C) (hid : (fs.map Fun.id).Nodup) (hv : ∀ f ∈ fs, f.frame.Valid ∧ Flat f.body)
    (ht : fx = false → ∀ f ∈ fs, Tame f.body) : Prog fx w C (env w C fs !fx) := by
  obtain ⟨h1, -, h3⟩ := compAll_labels hc
  have u : Uniq C := ⟨h1, fun g => by rw [h3]; exact List.nodup_iff_count.1 hid g⟩
  refine ⟨u, rfl, fun _ => rfl, rfl, fun f hf => ⟨(hv f hf).1, fun e => ht e f hf, (hv f hf).2, ?_⟩⟩
  obtain ⟨n, c, n', pc, hcf, ha⟩ := compAll_at hc (C0 := C) (pc := 0) ⟨[], [], by simp, rfl⟩ f hf
  obtain ⟨t, rfl⟩ := compFun_head hcf
  refine ⟨n, _, n', hcf, ?_⟩
  show At C (find C (.fn f.id)) _
  rw [u.find_fn ha]; exact ha

theorem correct_of_prog {fx : Bool} {w : World} {C : Code} {fs : List Fun} {rtl : Bool} (P : Prog fx w C (env w C fs rtl)) : Correct w C fs rtl := by
  intro f hf k e args s v s' hap hb m D hc hs
  have im : inMemory f = msz f.ret := rfl
  obtain ⟨m', st, sy, pc, sp, bp, vl, kp, rv⟩ := (sim_all P k).app f hf e args s v s' m D hap ⟨hs.brk, hs.out, hs.heap, hb⟩ hc.pc hc.aligned hc.above hc.stack hc.pushed hc.rsi hc.rdi
  obtain ⟨n, hn⟩ := st.run
  refine ⟨n, m', hn, ⟨pc, sp, bp, fun h => ?_, fun h => ?_, kp⟩, sy.mem, sy.brk, sy.out⟩
  · have h0 : msz f.ret = 0 := if_pos h
    rw [if_pos h0] at rv
    rw [← vl]
    rcases v with _ | ⟨x, _ | ⟨y, _ | ⟨z, v⟩⟩⟩
    · rfl
    · rw [rv.2]; rfl
    · rw [rv.2.1, rv.2.2]; rfl
    · rw [← vl] at h; simp only [List.length_cons] at h; omega
  · have h0 : msz f.ret ≠ 0 := by unfold msz; rw [if_neg (by omega)]; omega
    rw [if_neg h0] at rv
    exact rv.symm

/-- C64, for the generator with three changes: its code computes what every function of every program means. -/
theorem codegen_correct {fs : List Fun} {C : Code} (hc : compAll true fs 0 = some C) (hid : (fs.map Fun.id).Nodup) (hv : ∀ f ∈ fs, f.frame.Valid ∧ Flat f.body) (w : World) :
    Correct w C fs false :=
  correct_of_prog (compAll_prog w hc hid hv (by simp))

/-- C64 in part, for the generator as it is: its code computes what every function means when all callees and all arguments of C functions have
types, control can reach the end of the body of every loop, and arguments of C functions mean what they do from right to left.  What is missing
are the programs of `no_code_for_callee`, `depth_after_loop` and `order_of_arguments`, where the code is wrong. -/
theorem codegen_correct_partial {fs : List Fun} {C : Code} (hc : compAll false fs 0 = some C) (hid : (fs.map Fun.id).Nodup) (hv : ∀ f ∈ fs, f.frame.Valid ∧ Flat f.body)
    (ht : ∀ f ∈ fs, Tame f.body) (w : World) : Correct w C fs true :=
  correct_of_prog (compAll_prog w hc hid hv (fun _ => ht))

/-! ### Where the code is wrong -/

/-- C functions answer with the number of calls before; calls leave zeros. -/
def world : World := ⟨fun out _ _ => (out.length, 0), fun _ _ => 0⟩

/-- Memory with zeros, nothing allocated, no calls made. -/
def s0 : S := ⟨fun _ => 0, 0, []⟩

/-- The first function has just been called, without arguments, from outside of the code. -/
def boot : M := ⟨fun | .rsp => -8 | .rax => 7 | _ => 0, fun a => if a = -8 then -1 else 0, 0, 0, []⟩

/-- A function without environment and parameters that gives one eightbyte. -/
def plainFun (id : Nat) (body : Rt) : Fun := ⟨id, none, [], 1, body⟩

theorem boot_called {C : Code} {body : Rt} (h : find C (.fn 0) = 0) : Called C (plainFun 0 body) 0 [] 0 boot :=
  ⟨h.symm, by decide, rfl, rfl, fun h => (h rfl).elim, by decide, by show (0 : Int) + 8 * ((0 : Nat) : Int) ≤ 0; decide⟩

theorem run_none {w : World} {C : Code} {k : Nat} : ∀ {n : Nat} {m : M}, run w C n m = none → run w C (n + k) m = none
  | 0, m, h => by cases h
  | n + 1, m, h => by
    rw [show n + 1 + k = (n + k) + 1 by omega]
    unfold run at h ⊢
    cases hs : step w C m with
    | none => rfl
    | some m1 =>
      rw [hs] at h
      exact run_none (n := n) h

/-- Until the machine stops it is never in such a state. -/
def never (w : World) (C : Code) (good : M → Bool) (K : Nat) (m : M) : Bool :=
  (run w C K m).isNone && (List.range K).all fun n => (run w C n m).all fun m' => !good m'

theorem never_good {w : World} {C : Code} {good : M → Bool} {K : Nat} {m : M} (h : never w C good K m = true) {n : Nat} {m' : M} (hr : run w C n m = some m') : good m' = false := by
  unfold never at h
  simp only [Bool.and_eq_true, Option.isNone_iff_eq_none, List.all_eq_true, List.mem_range] at h
  by_cases hn : n < K
  · have := h.2 n hn
    rw [hr] at this
    simpa using this
  · have := run_none (k := n - K) h.1
    rw [show K + (n - K) = n by omega, hr] at this
    cases this

/-- The code is wrong if the first function means `v` and calls `out`, and it never returns with them. -/
theorem wrong {C : Code} {body : Rt} {fs : List Fun} {K : Nat} {v : Int} {out : List (Nat × List Int)} {rtl : Bool} (h0 : find C (.fn 0) = 0)
    (he : (apply (env world C (plainFun 0 body :: fs) rtl) 20 (plainFun 0 body) 0 [] s0).map (fun r => (r.1, r.2.out)) = some ([v], out))
    (hn : never world C (fun m => m.pc = -1 ∧ m.r .rax = v ∧ m.out = out) K boot = true) : ¬ Correct world C (plainFun 0 body :: fs) rtl := by
  intro h
  rw [Option.map_eq_some_iff] at he
  obtain ⟨⟨v', s'⟩, he, hv⟩ := he
  obtain ⟨rfl, rfl⟩ := Prod.mk.inj hv
  obtain ⟨n, m', hr, ret, sa⟩ := h _ (.head _) 20 0 [] s0 _ s' he (Int.le_refl _) boot 0 (boot_called h0) ⟨fun a ha => by
    show (if a = -8 then (-1 : Int) else 0) = 0; rw [if_neg (by omega)], rfl, rfl⟩
  have := never_good hn hr
  have e := ret.small (by show 1 ≤ 2; omega)
  simp only [decide_eq_false_iff_not, not_and] at this
  exact this ret.pc (by have := List.cons.inj e; exact this.1.symm) sa.out

theorem some_getD {α : Type} {o : Option (List α)} (h : o.isSome = true) : o = some (o.getD []) := by
  cases o with
  | none => cases h
  | some l => rfl

theorem valid {f : Fun} (h : (f.frame.envBinders.map Prod.fst ++ f.params.map Prod.fst ++ StackFrame.Spec.binders f.frame.body).Nodup) : f.frame.Valid := ⟨h, fun h => by cases h⟩

/-- `((return 5))` -/
def callee : List Fun := [plainFun 0 (.call (.ret (.const 5)) [] 1 .nil)]

/-- A callee without a type, codegen.rs:406-407: no code at all is generated for it, and the function returns whatever is in `rax`. -/
theorem no_code_for_callee : ∃ C, compAll false callee 0 = some C ∧ (callee.map Fun.id).Nodup ∧ (∀ f ∈ callee, f.frame.Valid ∧ Flat f.body) ∧
    ¬ Correct world C callee true :=
  ⟨_, some_getD (by decide +kernel), by decide, List.forall_mem_singleton.2 ⟨valid (by decide), by simp [Flat, FlatL, plainFun]⟩,
    wrong (K := 20) (v := 5) (out := []) (by decide +kernel) (by decide +kernel) (by decide +kernel)⟩

/-- `(while #f (+ 1 (return 9))) (f1)` where `f1` gives 3. -/
def afterLoop : List Fun :=
  [plainFun 0 (.seq (.cons (.loop (.const 0) (.bin .add (.const 1) (.ret (.const 9)))) .nil) (.call (.sfun 1) [] 1 .nil)), plainFun 1 (.const 3)]

/-- A loop whose body never finishes, codegen.rs:578-594: what the body has pushed is still counted after the loop, which leaves the stack misaligned at the next call. -/
theorem depth_after_loop : ∃ C, compAll false afterLoop 0 = some C ∧ (afterLoop.map Fun.id).Nodup ∧ (∀ f ∈ afterLoop, f.frame.Valid ∧ Flat f.body) ∧
    ¬ Correct world C afterLoop true :=
  ⟨_, some_getD (by decide +kernel), by decide, List.forall_mem_cons.2 ⟨⟨valid (by decide), by simp [Flat, FlatL, plainFun]⟩, List.forall_mem_singleton.2 ⟨valid (by decide), trivial⟩⟩,
    wrong (K := 40) (v := 3) (out := []) (by decide +kernel) (by decide +kernel) (by decide +kernel)⟩

/-- `(c9 (c1) (c2))` for three C functions. -/
def nestedCalls : List Fun := [plainFun 0 (.ccall 9 1 (.cons (.ccall 1 1 .nil) (.cons (.ccall 2 1 .nil) .nil)))]

/-- Arguments of a C function, codegen.rs:472: the last one is evaluated first. -/
theorem order_of_arguments : ∃ C, compAll false nestedCalls 0 = some C ∧ (nestedCalls.map Fun.id).Nodup ∧ (∀ f ∈ nestedCalls, f.frame.Valid ∧ Flat f.body ∧ Tame f.body) ∧
    ¬ Correct world C nestedCalls false :=
  ⟨_, some_getD (by decide +kernel), by decide, List.forall_mem_singleton.2 ⟨valid (by decide), by simp [Flat, FlatL, plainFun], by simp [Tame, TameL, tysOf, tyOf, plainFun]⟩,
    wrong (K := 30) (v := 2) (out := [(1, []), (2, []), (9, [0, 1])]) (by decide +kernel) (by decide +kernel) (by decide +kernel)⟩

/-- The second argument of a jump to `k1` jumps to `k2` while it evaluates the arguments of another jump to `k1`. -/
def nestedJumps : List Fun :=
  [plainFun 0 (.letCont (.cons 1 [(1, 1), (2, 1)] (.var 1 1) .nil)
    (.jump 1 none (.cons (.const 1) (.cons (.letCont (.cons 2 [] (.const 4) .nil) (.jump 1 none (.cons (.const 2) (.cons (.jump 2 none .nil) .nil)))) .nil))))]

/-- Why jumps are kept out of the arguments of jumps: an argument is stored to its parameter at once, codegen.rs:527-531, and a jump that is abandoned halfway has overwritten it.
`Branch` never makes such jumps. -/
theorem jump_in_jump (fx rtl : Bool) : ∃ C, compAll fx nestedJumps 0 = some C ∧ (nestedJumps.map Fun.id).Nodup ∧ (∀ f ∈ nestedJumps, f.frame.Valid ∧ Tame f.body) ∧
    ¬ Correct world C nestedJumps rtl := by
  cases fx <;> cases rtl <;> exact
  ⟨_, some_getD (by decide +kernel), by decide, List.forall_mem_singleton.2 ⟨valid (by decide), by simp [Tame, TameL, TameC, plainFun]⟩,
    wrong (K := 40) (v := 1) (out := []) (by decide +kernel) (by decide +kernel) (by decide +kernel)⟩

/-! ### The theorems are not empty -/

/-- A closure of two elements with parameters of one and three eightbytes, that gives three. -/
def closure : Fun where
  id := 1
  env := some (10, [(11, 1), (12, 2)])
  params := [(13, 1), (14, 3)]
  ret := 3
  body := .mkStruct [1, 1, 1] (.cons (.bin .add (.var 11 1) (.var 13 1)) (.cons (.elem 1 1 (.var 12 2)) (.cons (.elem 2 1 (.var 14 3)) .nil)))

/-- Counts to three in a heap cell, calling a C function each time, and passes the result of the closure to a continuation. -/
def sample : List Fun :=
  [plainFun 0 (.letVar (.cons (1, 1) (.alloc (.const 0)) .nil)
    (.seq (.cons (.loop (.bin .lt (.load 1 (.var 1 1)) (.const 3))
        (.seq (.cons (.ccall 5 1 (.cons (.load 1 (.var 1 1)) .nil)) .nil) (.store (.bin .add (.load 1 (.var 1 1)) (.const 1)) (.var 1 1)))) .nil)
      (.letCont (.cons 1 [(2, 3)] (.bin .mul (.elem 0 1 (.var 2 3)) (.elem 2 1 (.var 2 3))) .nil)
        (.ite (.bin .eq (.load 1 (.var 1 1)) (.const 3))
          (.jump 1 none (.cons (.call (.clos 1 (.mkEnv (.cons (.const 4) (.cons (.mkStruct [1, 1] (.cons (.const 5) (.cons (.const 6) .nil))) .nil)))) [1, 3] 3
            (.cons (.load 1 (.var 1 1)) (.cons (.mkStruct [1, 1, 1] (.cons (.const 7) (.cons (.const 8) (.cons (.const 9) .nil)))) .nil))) .nil))
          (.ret (.const 0)))))),
   closure]

/-- The hypotheses of both theorems hold for the program. -/
theorem sample_fits : (sample.map Fun.id).Nodup ∧ (∀ f ∈ sample, f.frame.Valid ∧ Flat f.body) ∧ ∀ f ∈ sample, Tame f.body :=
  ⟨by decide, List.forall_mem_cons.2 ⟨⟨valid (by decide), by simp [Flat, FlatL, FlatV, FlatC, noJump, noJumpL, plainFun]⟩,
      List.forall_mem_singleton.2 ⟨valid (by decide), by simp [Flat, FlatL, closure]⟩⟩,
    List.forall_mem_cons.2 ⟨by simp [Tame, TameL, TameV, TameC, tyOf, tysOf, falls, fallsL, plainFun],
      List.forall_mem_singleton.2 (by simp [Tame, TameL, closure])⟩⟩

/-- What the code of the program does, by the theorem, from any state in which the first function has been called: `(4 + 3) * 9` after three calls. -/
example (fx rtl : Bool) (h : rtl = !fx) : ∃ C, compAll fx sample 0 = some C ∧ ∃ n m', run world C n boot = some m' ∧ m'.pc = -1 ∧ m'.r .rsp = 0 ∧ m'.r .rax = 63 ∧
    m'.out = [(5, [0]), (5, [1]), (5, [2])] := by
  have key : ∀ C, compAll fx sample 0 = some C → Correct world C sample rtl → find C (.fn 0) = 0 →
      (apply (env world C sample rtl) 20 (sample.headD closure) 0 [] s0).map (fun r => (r.1, r.2.out)) = some ([63], [(5, [0]), (5, [1]), (5, [2])]) →
      ∃ C, compAll fx sample 0 = some C ∧ ∃ n m', run world C n boot = some m' ∧ m'.pc = -1 ∧ m'.r .rsp = 0 ∧ m'.r .rax = 63 ∧
        m'.out = [(5, [0]), (5, [1]), (5, [2])] := by
    intro C hC h h0 he
    rw [Option.map_eq_some_iff] at he
    obtain ⟨⟨v', s'⟩, he, hv⟩ := he
    obtain ⟨rfl, hv⟩ := Prod.mk.inj hv
    obtain ⟨n, m', hr, ret, sa⟩ := h _ (.head _) 20 0 [] s0 _ s' he (Int.le_refl _) boot 0 (boot_called h0) ⟨fun a ha => by
      show (if a = -8 then (-1 : Int) else 0) = 0; rw [if_neg (by omega)], rfl, rfl⟩
    have e := ret.small (by show 1 ≤ 2; omega)
    exact ⟨C, hC, n, m', hr, ret.pc, ret.rsp, (List.cons.inj e).1.symm, sa.out.trans hv⟩
  subst h
  have hc : ∀ fx, compAll fx sample 0 = some ((compAll fx sample 0).getD []) := by intro fx; cases fx <;> exact some_getD (by decide +kernel)
  cases fx
  · exact key _ (hc _) (codegen_correct_partial (hc _) sample_fits.1 sample_fits.2.1 sample_fits.2.2 world) (by decide +kernel) (by decide +kernel)
  · exact key _ (hc _) (codegen_correct (hc _) sample_fits.1 sample_fits.2.1 world) (by decide +kernel) (by decide +kernel)

/-- The same, by running the code of both variants. -/
example : ∀ fx : Bool, (run world ((compAll fx sample 0).getD []) 250 boot).isNone ∧ (List.range 250).any fun n =>
    (run world ((compAll fx sample 0).getD []) n boot).any fun m => m.pc = -1 ∧ m.r .rax = 63 ∧ m.out = [(5, [0]), (5, [1]), (5, [2])] := by
  decide +kernel

end Verif.Codegen
