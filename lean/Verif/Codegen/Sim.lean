import Verif.Codegen.Base

/-!
# The claims of the simulation, and expressions without jumps
-/
namespace Verif.Codegen
open Spec
open StackFrame.Spec (Reach ReachAny ReachVars ReachConts HasCont Apart Disjoint)
open StackFrame (slot)
open Verif (HMap)

/-- A function is right for the generator and its code is in the program. -/
structure FunOK (fx : Bool) (C : Code) (E : Env) (f : Fun) : Prop where
  valid : f.frame.Valid
  tame : fx = false → Tame f.body
  flat : Flat f.body
  code : ∃ n c n', compFun fx f n = some (c, n') ∧ At C (E.addr f.id) c

/-- A program that contains the code of its functions, in its surroundings. -/
structure Prog (fx : Bool) (w : World) (C : Code) (E : Env) : Prop where
  uniq : Uniq C
  ext : E.ext = w.ext
  addr : ∀ c, E.addr c = find C (.fn c)
  rtl : E.rtl = !fx
  fns : ∀ f ∈ E.fns, FunOK fx C E f

/-- What is claimed of an expression, with that much fuel. -/
def SimAt (fx : Bool) (w : World) (C : Code) (E : Env) (k : Nat) (e : Rt) : Prop :=
  ∀ (F : Fr) (K : Scope) (ρ : Vals) (s : S) (res : Res) (s' : S) (L : LConts) (st : St) (c : Code) (l : Option Nat) (st' : St) (G : List (Int × Nat)) (m : M),
    F.OK → F.cx.fx = fx → eval E k K ρ e s = some (res, s') → comp F.cx L e st = some (c, l, st') → (fx = false → Tame e) → Flat e →
    Room F L K G (Reach (skel e)) (noJump e) → Sit F G ρ s m st.depth → At C m.pc c →
    ∃ m', Go w C F G (m.r .rsp) s' m m' ∧ Post C F L K (m.r .rsp) (m.pc + c.length) l res m'

/-- Of expressions one after another. -/
def SimSeq (fx : Bool) (w : World) (C : Code) (E : Env) (k : Nat) (es : Rts) : Prop :=
  ∀ (F : Fr) (K : Scope) (ρ : Vals) (s : S) (res : Except Res (List (List Int))) (s' : S) (L : LConts) (st : St) (c : Code) (l : Bool) (st' : St) (G : List (Int × Nat)) (m : M),
    F.OK → F.cx.fx = fx → evals E k K ρ es s = some (res, s') → compSeq F.cx L es st = some (c, l, st') → (fx = false → TameL es) → FlatL es →
    Room F L K G (ReachAny (skels es)) (noJumpL es) → Sit F G ρ s m st.depth → At C m.pc c →
    ∃ m', Go w C F G (m.r .rsp) s' m m' ∧ match res with
      | .ok _ => l = true ∧ m'.pc = m.pc + c.length ∧ m'.r .rsp = m.r .rsp
      | .error r => Esc C F L K r m'

/-- Of arguments that are pushed. -/
def SimArgs (fx : Bool) (w : World) (C : Code) (E : Env) (k : Nat) (es : Rts) : Prop :=
  ∀ (F : Fr) (K : Scope) (ρ : Vals) (s : S) (res : Except Res (List (List Int))) (s' : S) (L : LConts) (st : St) (c : Code) (l : Option (List Nat)) (st' : St) (G : List (Int × Nat)) (m : M),
    F.OK → F.cx.fx = fx → evals E k K ρ es s = some (res, s') → compArgs F.cx L es st = some (c, l, st') → (fx = false → TameL es) → FlatL es →
    Room F L K G (ReachAny (skels es)) (noJumpL es) → Sit F G ρ s m st.depth → At C m.pc c →
    ∃ m', Go w C F G (m.r .rsp) s' m m' ∧ match res with
      | .ok vs => l = some (vs.map List.length) ∧ m'.pc = m.pc + c.length ∧ OnStack m' (m.r .rsp) vs.reverse.flatten
      | .error r => Esc C F L K r m'

/-- Of arguments that are pushed from the last to the first. -/
def SimArgsR (fx : Bool) (w : World) (C : Code) (E : Env) (k : Nat) (es : Rts) : Prop :=
  ∀ (F : Fr) (K : Scope) (ρ : Vals) (s : S) (res : Except Res (List (List Int))) (s' : S) (L : LConts) (st : St) (c : Code) (l : Option (List Nat)) (st' : St) (G : List (Int × Nat)) (m : M),
    F.OK → F.cx.fx = fx → evalsR E k K ρ es s = some (res, s') → compArgsR F.cx L es st = some (c, l, st') → (fx = false → TameL es) → FlatL es →
    Room F L K G (ReachAny (skels es)) (noJumpL es) → Sit F G ρ s m st.depth → At C m.pc c →
    ∃ m', Go w C F G (m.r .rsp) s' m m' ∧ match res with
      | .ok vs => l = some (vs.map List.length).reverse ∧ m'.pc = m.pc + c.length ∧ OnStack m' (m.r .rsp) vs.flatten
      | .error r => Esc C F L K r m'

/-- Of the arguments of a jump. -/
def SimStores (fx : Bool) (w : World) (C : Code) (E : Env) (k : Nat) (es : Rts) : Prop :=
  ∀ (ps : List Binder) (F : Fr) (K : Scope) (ρ : Vals) (s : S) (res : Except Res (List (List Int))) (s' : S) (L : LConts) (st : St) (c : Code) (l : Bool) (st' : St) (G : List (Int × Nat)) (m : M),
    F.OK → F.cx.fx = fx → evals E k K ρ es s = some (res, s') → compStores F.cx L es ps st = some (c, l, st') → (fx = false → TameL es) → FlatL es → noJumpL es = true →
    (∀ X, ReachAny (skels es) X ∨ X = [] → Fits F G (ps.map (slot F.cx.off) ++ X.map (slot F.cx.off))) → Sit F G ρ s m st.depth → At C m.pc c →
    ∃ m', Go w C F G (m.r .rsp) s' m m' ∧ match res with
      | .ok vs => l = true ∧ m'.pc = m.pc + c.length ∧ m'.r .rsp = m.r .rsp ∧ Stored F m' ps vs
      | .error r => Esc C F L K r m'

/-- Of the components of a structure; the area for it is on the stack. -/
def SimStruct (fx : Bool) (w : World) (C : Code) (E : Env) (k : Nat) (es : Rts) : Prop :=
  ∀ (tys : List Nat) (o : Nat) (F : Fr) (K : Scope) (ρ : Vals) (s : S) (res : Except Res (List (List Int))) (s' : S) (L : LConts) (st : St) (c : Code) (l : Bool) (st' : St) (G : List (Int × Nat)) (m : M),
    F.OK → F.cx.fx = fx → evals E k K ρ es s = some (res, s') → compStruct F.cx L es tys o st = some (c, l, st') → (fx = false → TameL es) → FlatL es →
    Room F L K G (ReachAny (skels es)) (noJumpL es) → Sit F G ρ s m st.depth → At C m.pc c → F.R + (o + sum tys) ≤ st.depth →
    ∃ m', Go w C F G (m.r .rsp + 8 * ((o + sum tys : Nat) : Int)) s' m m' ∧ match res with
      | .ok vs => l = true ∧ m'.pc = m.pc + c.length ∧ m'.r .rsp = m.r .rsp ∧ vs.flatten.length = sum tys ∧
          (∀ a, m.r .rsp ≤ a → a < m.r .rsp + 8 * (o : Int) → m'.mem a = m.mem a) ∧ Spec.read m'.mem (m.r .rsp + 8 * (o : Int)) (sum tys) = vs.flatten
      | .error r => Esc C F L K r m'

/-- Of the elements of an environment; its address is on top of the stack. -/
def SimEnv (fx : Bool) (w : World) (C : Code) (E : Env) (k : Nat) (es : Rts) : Prop :=
  ∀ (p : Int) (o : Nat) (F : Fr) (K : Scope) (ρ : Vals) (s : S) (res : Option Res) (s' : S) (L : LConts) (st : St) (c : Code) (l : Option (List Nat)) (st' : St) (G : List (Int × Nat)) (m : M),
    F.OK → F.cx.fx = fx → evalEnv E k K ρ es (p + 8 * (o : Int)) s = some (res, s') → compEnv F.cx L es o st = some (c, l, st') → (fx = false → TameL es) → FlatL es →
    Room F L K G (ReachAny (skels es)) (noJumpL es) → Sit F G ρ s m st.depth → At C m.pc c → F.R + 1 ≤ st.depth → 0 ≤ p → m.mem (m.r .rsp) = p →
    ∃ m', Go w C F G (m.r .rsp) s' m m' ∧ match res with
      | none => l.isSome = true ∧ m'.pc = m.pc + c.length ∧ m'.r .rsp = m.r .rsp
      | some r => Esc C F L K r m'

/-- Of variables; `body` is what they are bound in. -/
def SimVars (fx : Bool) (w : World) (C : Code) (E : Env) (k : Nat) (vs : Vars) : Prop :=
  ∀ (body : Rt) (F : Fr) (K : Scope) (ρ : Vals) (s : S) (res : Except Res Vals) (s' : S) (L : LConts) (st : St) (c : Code) (l : Bool) (st' : St) (G : List (Int × Nat)) (m : M),
    F.OK → F.cx.fx = fx → evalVars E k K ρ vs s = some (res, s') → compVars F.cx L vs st = some (c, l, st') → (fx = false → TameV vs) → FlatV vs →
    Room F L K G (ReachVars (skelV vs) (skel body)) (noJumpV vs && noJump body) → Sit F G ρ s m st.depth → At C m.pc c →
    ∃ m', Go w C F G (m.r .rsp) s' m m' ∧ match res with
      | .ok ρ' => l = true ∧ m'.pc = m.pc + c.length ∧ ∃ G', (∀ r ∈ G, r ∈ G') ∧ Room F L K G' (Reach (skel body)) (noJump body) ∧ Sit F G' ρ' s' m' st.depth
      | .error r => Esc C F L K r m'

/-- Of a call of a function. -/
def SimApp (w : World) (C : Code) (E : Env) (k : Nat) (f : Fun) : Prop :=
  ∀ (env : Int) (args : List (List Int)) (s : S) (v : List Int) (s' : S) (m : M) (D : Int),
    apply E k f env args s = some (v, s') → Sync s m → m.pc = E.addr f.id → m.r .rsp % 16 = 8 → m.r .rsp + 8 + 8 * (args.reverse.flatten.length : Int) ≤ D →
    D + 8 * (msz f.ret : Int) ≤ 0 → Spec.read m.mem (m.r .rsp + 8) args.reverse.flatten.length = args.reverse.flatten → m.r .rsi = env → (msz f.ret ≠ 0 → m.r .rdi = D) →
    ∃ m', Steps w C m m' ∧ Sync s' m' ∧ m'.pc = m.mem (m.r .rsp) ∧ m'.r .rsp = m.r .rsp + 8 ∧ m'.r .rbp = m.r .rbp ∧ v.length = f.ret ∧
      (∀ a, m.r .rsp + 8 ≤ a → a < 0 → a < D ∨ D + 8 * (msz f.ret : Int) ≤ a → m'.mem a = m.mem a) ∧
      (if msz f.ret = 0 then Held m' (m.r .rsp + 8) v else Spec.read m'.mem D f.ret = v)

/-- All claims. -/
structure Sim (fx : Bool) (w : World) (C : Code) (E : Env) (k : Nat) : Prop where
  e : ∀ e, SimAt fx w C E k e
  seq : ∀ es, SimSeq fx w C E k es
  args : ∀ es, SimArgs fx w C E k es
  argsR : ∀ es, SimArgsR fx w C E k es
  stores : ∀ es, SimStores fx w C E k es
  struct : ∀ es, SimStruct fx w C E k es
  env : ∀ es, SimEnv fx w C E k es
  vars : ∀ vs, SimVars fx w C E k vs
  app : ∀ f ∈ E.fns, SimApp w C E k f

set_option hygiene false in
/-- Introduce what a claim about an expression is about. -/
macro "si" : tactic => `(tactic| intro F K ρ s res s' L st c l st' G m hF hx he hc ht hf hr hs ha)

/-- Split an evaluation: the first part and the rest. -/
macro "eb" h:ident r:ident s:ident h1:ident : tactic =>
  `(tactic| (simp only [Option.bind_eq_bind, Option.bind_eq_some_iff] at $h:ident; obtain ⟨⟨$r:ident, $s:ident⟩, $h1:ident, $h:ident⟩ := $h:ident; dsimp only at $h:ident))

variable {fx : Bool} {w : World} {C : Code} {E : Env} {k : Nat}

theorem lo_le {F : Fr} {G ρ s m} {d : Nat} (h : Sit F G ρ s m d) : m.r .rsp ≤ F.B - 8 * (F.R : Int) := by
  have := h.rsp; have := h.dep; omega

theorem lo_neg {F : Fr} {G ρ s m} {d : Nat} (hF : F.OK) (h : Sit F G ρ s m d) : m.r .rsp ≤ 0 := by
  have := lo_le h; have := hF.neg; omega

theorem Fact.depth1 {cx : Cx} {e : Rt} {s s' : St} {c : Code} {n : Nat} (h : Fact cx (Tame e) s c s' (falls e) (some n).isSome ((some n).elim 0 msz)) (ht : cx.fx = false → Tame e) :
    s'.depth = s.depth + msz n := h.depth ht rfl

theorem sim_var (x n : Nat) : SimAt fx w C E (k + 1) (.var x n) := by
  si
  rw [eval] at he; rw [comp] at hc
  simp only [Option.bind_eq_bind, Option.bind_eq_some_iff] at hc
  obtain ⟨o, ho, hc⟩ := hc
  cases hc
  split at he
  · next hn =>
    cases he
    subst hn
    by_cases hz : ρ x = []
    · rw [hz] at ha ⊢
      exact ⟨m, .refl hs.sync hs.rbp, rfl, by simp [loadV], rfl⟩
    · obtain ⟨o', h1, h2, h3⟩ := hs.env x hz
      rw [ho] at h1; cases h1
      have g := (hs.gok _ h2).1
      have := lo_le hs
      have hb := hs.rbp
      obtain ⟨m', st, pc, held, kp, -⟩ := load_run (w := w) (.inl rfl) ha (by simp only at g; omega)
      rw [hb, h3] at held
      exact ⟨m', (Go.refl hs.sync hs.rbp).keep st kp (Int.le_refl _) (lo_neg hF hs), rfl, pc, held⟩
  · cases he

theorem sim_sfun (P : Prog fx w C E) (f : Nat) : SimAt fx w C E (k + 1) (.sfun f) := by
  si
  rw [eval] at he; rw [comp] at hc; cases he; cases hc
  refine ⟨_, (Go.refl hs.sync hs.rbp).regs ((ha.exec rfl).trans (At.exec (At.tail ha) rfl)) rfl ?_ rfl rfl, rfl, ?_, ?_, ?_, ?_⟩
  · simp [upd]
  · simp; omega
  · simp [upd]
  · simp [upd, P.addr]
  · simp [upd]

theorem sim_clos (P : Prog fx w C E) (ih : Sim fx w C E k) (f : Nat) (e : Rt) : SimAt fx w C E (k + 1) (.clos f e) := by
  si
  rw [eval] at he; rw [comp] at hc
  eb he r1 s1 he1
  ob hc c1 l1 st1 hc1
  have q := fun a => ih.e e F K ρ s r1 s1 L st c1 l1 st1 G m hF hx he1 hc1 (fun e => ht e) hf (hr.sub (fun X hX => .node (.head hX)) (fun h => h)) hs a
  have a1 : At C m.pc c1 := by
    cases l1 with
    | none => cases hc; exact ha
    | some n =>
      dsimp only at hc; split at hc
      · cases hc; exact ha.left
      · cases hc
  obtain ⟨m1, g1, p1⟩ := q a1
  rcases r1 with v | v | ⟨j, vs⟩
  · obtain ⟨rfl, pc1, hd1⟩ := p1
    rcases v with _ | ⟨p, _ | ⟨_, _⟩⟩
    · cases he
    · cases he
      cases hc
      have a2 := ha.right; rw [← pc1] at a2
      refine ⟨_, g1.regs ((a2.exec rfl).trans (At.exec (At.tail a2) rfl)) rfl ?_ rfl rfl, rfl, ?_, ?_, ?_, ?_⟩
      · simp [upd]
      · simp [pc1]; omega
      · simp [upd, hd1.1]
      · simp [upd, P.addr]
      · simp [upd, hd1.2]
    · cases he
  · cases he; exact ⟨m1, g1, p1⟩
  · cases he; exact ⟨m1, g1, p1⟩

theorem sim_const (i : Int) : SimAt fx w C E (k + 1) (.const i) := by
  si
  rw [eval] at he; rw [comp] at hc; cases he; cases hc
  refine ⟨_, (Go.refl hs.sync hs.rbp).regs (ha.exec rfl) rfl ?_ rfl rfl, rfl, rfl, ?_, ?_⟩ <;> simp [upd]

theorem sim_unit : SimAt fx w C E (k + 1) .unit := by
  si
  rw [eval] at he; rw [comp] at hc; cases he; cases hc
  exact ⟨m, .refl hs.sync hs.rbp, rfl, by simp, rfl⟩

theorem sim_bin (ih : Sim fx w C E k) (op : Op) (a b : Rt) : SimAt fx w C E (k + 1) (.bin op a b) := by
  si
  rw [eval] at he; rw [comp] at hc
  eb he r1 s1 he1
  ob hc c1 l1 st1 hc1
  have ta : fx = false → Tame a := fun e => (ht e).1
  have tb : fx = false → Tame b := fun e => (ht e).2
  have a1 : At C m.pc c1 := by
    cases l1 with
    | none => cases hc; exact ha
    | some n =>
      dsimp only at hc
      ob hc c2 l2 st2 hc2
      cases l2 with
      | none => cases hc; exact ha.left.left
      | some n2 => dsimp only at hc; split at hc <;> cases hc; exact ha.left.left.left
  obtain ⟨m1, g1, p1⟩ := ih.e a F K ρ s r1 s1 L st c1 l1 st1 G m hF hx he1 hc1 ta hf.1 (hr.sub (fun X hX => .node (.head hX)) (fun h => by simp [noJump, h])) hs a1
  rcases r1 with v | v | ⟨j, vs⟩
  · obtain ⟨rfl, pc1, hd1⟩ := p1
    have d1 := (fact a F.cx L st c1 _ st1 hc1).depth1 (fun e => ta (hx.symm.trans e))
    dsimp only at hc
    ob hc c2 l2 st2 hc2
    eb he r2 s2 he2
    have a2 : At C m.pc (c1 ++ (pushV v.length ++ c2)) := by
      cases l2 with
      | none => cases hc; simpa only [List.append_assoc] using ha
      | some n2 => dsimp only at hc; split at hc <;> cases hc; exact (show At C m.pc ((c1 ++ (pushV v.length ++ c2)) ++ _) by simpa only [List.append_assoc] using ha).left
    have a3 := a2.right; rw [← pc1] at a3
    obtain ⟨m2, st2', pc2, os2, kp2, -⟩ := push_run (w := w) a3.left hd1
    have g2 := g1.keep st2' kp2 (Int.le_refl _) (lo_neg hF hs)
    have a4 := a3.right; rw [← pc2] at a4
    have r2' : m2.r .rsp = F.B - 8 * ((st1.depth + rsz v.length : Nat) : Int) := by
      have := os2.1; have := hs.rsp; have := msz_add_rsz v.length; omega
    have hs2 := hs.next g2 (lo_le hs) r2' (by have := hs.dep; omega)
    obtain ⟨m3, g3, p3⟩ := ih.e b F K ρ s1 r2 s2 L _ c2 l2 st2 G m2 hF hx he2 hc2 tb hf.2 (hr.sub (fun X hX => .node (.tail (.head hX))) (fun h => by simp [noJump, h])) hs2 a4
    have lo2 : m2.r .rsp ≤ m.r .rsp := by have := os2.1; omega
    rcases r2 with y | y | ⟨j, vs⟩
    · obtain ⟨rfl, pc3, hd3⟩ := p3
      rcases v with _ | ⟨x, _ | ⟨_, _⟩⟩
      · cases he
      · rcases y with _ | ⟨y, _ | ⟨_, _⟩⟩
        · cases he
        · cases he
          cases hc
          have a5 : At C m3.pc (binCode op) := by
            have := ha.right
            simp only [List.length_append] at this
            have e : m3.pc = m.pc + ((c1.length + (pushV 1).length + c2.length : Nat) : Int) := by rw [pc3, pc2, pc1]; simp; omega
            rw [e]; exact this
          have hx1 : m2.mem (m2.r .rsp) = x := by have := os2.2; simp only [List.length_cons, List.length_nil, Spec.read, List.cons.injEq, and_true] at this; exact this
          obtain ⟨m4, st4, pc4, hd4, kp4⟩ := bin_run (w := w) (r0 := m.r .rsp) a5 (by rw [hd3.1, os2.1]; simp) (by
            rw [hd3.1, g3.kept _ (Int.le_refl _) (by have o := os2.1; have := lo_neg hF hs; simp only [List.length_cons, List.length_nil] at o; omega) (.inl (by have o := os2.1; have := lo_le hs; simp only [List.length_cons, List.length_nil] at o; omega)), hx1]) hd3.2
          refine ⟨m4, (g2.trans g3 lo2).keep st4 kp4 (Int.le_refl _) (lo_neg hF hs), rfl, ?_, hd4⟩
          rw [pc4, pc3, pc2, pc1]; simp; omega
        · cases he
      · cases he
    · cases he; exact ⟨m3, g2.trans g3 lo2, p3⟩
    · cases he; exact ⟨m3, g2.trans g3 lo2, p3⟩
  · cases he; exact ⟨m1, g1, p1⟩
  · cases he; exact ⟨m1, g1, p1⟩

theorem sim_load (ih : Sim fx w C E k) (n : Nat) (p : Rt) : SimAt fx w C E (k + 1) (.load n p) := by
  si
  rw [eval] at he; rw [comp] at hc
  eb he r1 s1 he1
  ob hc c1 l1 st1 hc1
  have a1 : At C m.pc c1 := by
    cases l1 with
    | none => cases hc; exact ha
    | some n => dsimp only at hc; split at hc <;> cases hc; exact ha.left.left
  obtain ⟨m1, g1, p1⟩ := ih.e p F K ρ s r1 s1 L st c1 l1 st1 G m hF hx he1 hc1 ht hf (hr.sub (fun X hX => .node (.head hX)) (fun h => h)) hs a1
  rcases r1 with v | v | ⟨j, vs⟩
  · obtain ⟨rfl, pc1, hd1⟩ := p1
    rcases v with _ | ⟨p, _ | ⟨_, _⟩⟩
    · cases he
    · dsimp only at he; split at he
      · next hp =>
        cases he; cases hc
        simp only [List.append_assoc] at ha
        have a2 := ha.right; rw [← pc1] at a2
        have g2 := g1.regs (m2 := { m1 with r := upd m1.r .rdi (m1.r .rax), pc := m1.pc + 1 }) (At.exec a2 rfl) rfl (by simp [upd]) rfl rfl
        have e2 : (upd m1.r .rdi (m1.r .rax)) .rsp = m.r .rsp := by rw [upd_ne _ _ (by decide), hd1.1]
        have e3 : (upd m1.r .rdi (m1.r .rax)) .rdi = p := by rw [upd_same, hd1.2]
        obtain ⟨m3, st3, pc3, hd3, kp3, -⟩ := load_run (w := w) (b := .rdi) (n := n) (o := 0) (m := { m1 with r := upd m1.r .rdi (m1.r .rax), pc := m1.pc + 1 }) (.inr (.inl rfl)) a2.right (by
          simp only [e2, e3]; have := lo_neg hF hs; omega)
        simp only [e2, e3] at hd3 kp3
        refine ⟨m3, g2.keep st3 kp3 (Int.le_refl _) (lo_neg hF hs), by rw [read_length], ?_, ?_⟩
        · rw [pc3]; simp [pc1]; omega
        · rw [show p + 0 = p by omega] at hd3
          rwa [read_congr fun a h1 _ => (g1.sync.mem a (by omega)).symm]
      · cases he
    · cases he
  · cases he; exact ⟨m1, g1, p1⟩
  · cases he; exact ⟨m1, g1, p1⟩

theorem sim_store (ih : Sim fx w C E k) (a b : Rt) : SimAt fx w C E (k + 1) (.store a b) := by
  si
  rw [eval] at he; rw [comp] at hc
  eb he r1 s1 he1
  ob hc c1 l1 st1 hc1
  have ta : fx = false → Tame a := fun e => (ht e).1
  have tb : fx = false → Tame b := fun e => (ht e).2
  have a1 : At C m.pc c1 := by
    cases l1 with
    | none => cases hc; exact ha
    | some n =>
      dsimp only at hc
      ob hc c2 l2 st2 hc2
      cases l2 with
      | none => cases hc; exact ha.left.left
      | some n2 => dsimp only at hc; split at hc <;> cases hc; exact ha.left.left.left.left.left
  obtain ⟨m1, g1, p1⟩ := ih.e a F K ρ s r1 s1 L st c1 l1 st1 G m hF hx he1 hc1 ta hf.1 (hr.sub (fun X hX => .node (.head hX)) (fun h => by simp [noJump, h])) hs a1
  rcases r1 with v | v | ⟨j, vs⟩
  · obtain ⟨rfl, pc1, hd1⟩ := p1
    have d1 := (fact a F.cx L st c1 _ st1 hc1).depth1 (fun e => ta (hx.symm.trans e))
    dsimp only at hc
    ob hc c2 l2 st2 hc2
    eb he r2 s2 he2
    have a2 : At C m.pc (c1 ++ (pushV v.length ++ c2)) := by
      cases l2 with
      | none => cases hc; simpa only [List.append_assoc] using ha
      | some n2 => dsimp only at hc; split at hc <;> cases hc; exact (show At C m.pc ((c1 ++ (pushV v.length ++ c2)) ++ _) by simpa only [List.append_assoc] using ha).left
    have a3 := a2.right; rw [← pc1] at a3
    obtain ⟨m2, st2', pc2, os2, kp2, -⟩ := push_run (w := w) a3.left hd1
    have g2 := g1.keep st2' kp2 (Int.le_refl _) (lo_neg hF hs)
    have a4 := a3.right; rw [← pc2] at a4
    have r2' : m2.r .rsp = F.B - 8 * ((st1.depth + rsz v.length : Nat) : Int) := by
      have := os2.1; have := hs.rsp; have := msz_add_rsz v.length; omega
    have hs2 := hs.next g2 (lo_le hs) r2' (by have := hs.dep; omega)
    obtain ⟨m3, g3, p3⟩ := ih.e b F K ρ s1 r2 s2 L _ c2 l2 st2 G m2 hF hx he2 hc2 tb hf.2 (hr.sub (fun X hX => .node (.tail (.head hX))) (fun h => by simp [noJump, h])) hs2 a4
    have lo2 : m2.r .rsp ≤ m.r .rsp := by have := os2.1; omega
    rcases r2 with y | y | ⟨j, vs⟩
    · obtain ⟨rfl, pc3, hd3⟩ := p3
      rcases y with _ | ⟨p, _ | ⟨_, _⟩⟩
      · cases he
      · dsimp only at he; split at he
        · next hp =>
          cases he; cases hc
          have a5 : At C m3.pc ([.mov .rdi .rax] ++ (popV v.length ++ storeV .rdi 0 v.length)) := by
            have := (show At C m.pc ((c1 ++ (pushV v.length ++ c2)) ++ ([.mov .rdi .rax] ++ (popV v.length ++ storeV .rdi 0 v.length))) by simpa only [List.append_assoc] using ha).right
            rw [show m3.pc = m.pc + ((c1 ++ (pushV v.length ++ c2)).length : Int) by rw [pc3, pc2, pc1]; simp only [List.length_append]; omega]; exact this
          have g4 := (g2.trans g3 lo2).regs (m2 := { m3 with r := upd m3.r .rdi (m3.r .rax), pc := m3.pc + 1 }) (At.exec a5 rfl) rfl (by simp [upd]) rfl rfl
          have e2 : (upd m3.r .rdi (m3.r .rax)) .rsp = m2.r .rsp := by rw [upd_ne _ _ (by decide), hd3.1]
          have e3 : (upd m3.r .rdi (m3.r .rax)) .rdi = p := by rw [upd_same, hd3.2]
          have os4 : OnStack { m3 with r := upd m3.r .rdi (m3.r .rax), pc := m3.pc + 1 } (m.r .rsp) v := by
            refine ⟨by simp only [e2]; exact os2.1, ?_⟩
            simp only [e2]
            refine (read_congr fun a h1 h2 => g3.kept a h1 ?_ (.inl ?_)).trans os2.2
            · have := os2.1; have := lo_neg hF hs; omega
            · have := os2.1; have := lo_le hs; omega
          have a6 := a5.right
          obtain ⟨m5, st5, pc5, hd5, mm5, bp5, bk5, ou5, kr5⟩ := pop_run (w := w) (m := { m3 with r := upd m3.r .rdi (m3.r .rax), pc := m3.pc + 1 }) a6.left os4
          have g5 := g4.regs st5 mm5 bp5 bk5 ou5
          have e5 : m5.r .rdi = p := by rw [kr5.rdi]; exact e3
          have a7 := a6.right; rw [show ([Instr.mov Reg.rdi Reg.rax].length : Int) = 1 from rfl] at a7; rw [← pc5] at a7
          obtain ⟨m6, st6, pc6, rsp6, mm6, bp6, bk6, ou6, -⟩ := store_run (w := w) (by decide) (by decide) a7 hd5 (by rw [e5]; have := lo_neg hF hs; omega)
          rw [e5, show p + 0 = p by omega] at mm6
          refine ⟨m6, g5.heap st6 mm6 bp6 bk6 ou6 hp, rfl, ?_, rsp6⟩
          rw [pc6, pc5, pc3, pc2, pc1]; simp only [List.length_append, List.length_cons, List.length_nil]; omega
        · cases he
      · cases he
    · cases he; exact ⟨m3, g2.trans g3 lo2, p3⟩
    · cases he; exact ⟨m3, g2.trans g3 lo2, p3⟩
  · cases he; exact ⟨m1, g1, p1⟩
  · cases he; exact ⟨m1, g1, p1⟩

theorem sim_elem (ih : Sim fx w C E k) (o n : Nat) (e : Rt) : SimAt fx w C E (k + 1) (.elem o n e) := by
  si
  rw [eval] at he; rw [comp] at hc
  eb he r1 s1 he1
  ob hc c1 l1 st1 hc1
  have a1 : At C m.pc c1 := by
    cases l1 with
    | none => cases hc; exact ha
    | some n => dsimp only at hc; split at hc <;> cases hc; exact ha.left
  obtain ⟨m1, g1, p1⟩ := ih.e e F K ρ s r1 s1 L st c1 l1 st1 G m hF hx he1 hc1 ht hf (hr.sub (fun X hX => .node (.head hX)) (fun h => h)) hs a1
  rcases r1 with v | v | ⟨j, vs⟩
  · obtain ⟨rfl, pc1, hd1⟩ := p1
    dsimp only at he hc
    split at he
    · next hle =>
      rw [if_pos hle] at hc
      cases he; cases hc
      have a2 := ha.right; rw [← pc1] at a2
      obtain ⟨m2, st2, pc2, hd2, kp2⟩ := elem_run (w := w) hle a2 hd1
      refine ⟨m2, g1.keep st2 kp2 (Int.le_refl _) (lo_neg hF hs), ?_, ?_, hd2⟩
      · rw [List.length_take, List.length_drop]; congr 1; omega
      · rw [pc2, pc1, List.length_append]; omega
    · cases he
  · cases he; exact ⟨m1, g1, p1⟩
  · cases he; exact ⟨m1, g1, p1⟩

theorem sim_ret (ih : Sim fx w C E k) (e : Rt) : SimAt fx w C E (k + 1) (.ret e) := by
  si
  rw [eval] at he; rw [comp] at hc
  eb he r1 s1 he1
  ob hc c1 l1 st1 hc1
  have a1 : At C m.pc c1 := by split at hc <;> cases hc <;> first | exact ha.left | exact ha
  obtain ⟨m1, g1, p1⟩ := ih.e e F K ρ s r1 s1 L st c1 l1 st1 G m hF hx he1 hc1 ht hf (hr.sub (fun X hX => .node (.head hX)) (fun h => h)) hs a1
  rcases r1 with v | v | ⟨j, vs⟩
  · obtain ⟨rfl, pc1, hd1⟩ := p1
    cases he; cases hc
    have a2 := ha.right; rw [← pc1] at a2
    refine ⟨_, g1.regs (a2.exec rfl) rfl rfl rfl rfl, rfl, m.r .rsp, by have := lo_le hs; omega, ?_⟩
    rcases v with _ | ⟨x, _ | ⟨y, _ | ⟨z, v⟩⟩⟩ <;> exact hd1
  · cases he; exact ⟨m1, g1, p1⟩
  · cases he; exact ⟨m1, g1, p1⟩

theorem sim_seq (ih : Sim fx w C E k) (es : Rts) (e : Rt) : SimAt fx w C E (k + 1) (.seq es e) := by
  si
  rw [eval] at he; rw [comp] at hc
  eb he r1 s1 he1
  ob hc c1 l1 st1 hc1
  have a1 : At C m.pc c1 := by
    split at hc
    · ob hc c2 l2 st2 hc2; cases hc; exact ha.left
    · cases hc; exact ha
  obtain ⟨m1, g1, p1⟩ := ih.seq es F K ρ s r1 s1 L st c1 l1 st1 G m hF hx he1 hc1 (fun e => (ht e).1) hf.1 (hr.sub (fun X hX => .node (.head (.node hX))) (fun h => by simp [noJump, h])) hs a1
  rcases r1 with r1 | vs
  · cases he
    refine ⟨m1, g1, ?_⟩
    rcases res with v | v | ⟨j, vs⟩
    · exact p1.elim
    · exact p1
    · exact p1
  · obtain ⟨rfl, pc1, rsp1⟩ := p1
    dsimp only at he hc
    have d1 := (factSeq es F.cx L st c1 _ st1 hc1).depth (fun e => (ht (hx.symm.trans e)).1) rfl
    rw [if_pos rfl] at hc
    ob hc c2 l2 st2 hc2
    cases hc
    have a2 := ha.right; rw [← pc1] at a2
    obtain ⟨m2, g2, p2⟩ := ih.e e F K ρ s1 res s' L st1 c2 l st' G m1 hF hx he hc2 (fun e => (ht e).2) hf.2 (hr.sub (fun X hX => .node (.tail (.head hX))) (fun h => by simp [noJump, h]))
      (hs.next g1 (lo_le hs) (by rw [rsp1, hs.rsp, d1]; rfl) (by rw [d1]; exact hs.dep)) a2
    refine ⟨m2, g1.trans g2 (by omega), ?_⟩
    rcases res with v | v | ⟨j, vs⟩
    · obtain ⟨h1, h2, h3⟩ := p2
      refine ⟨h1, ?_, by rw [← rsp1]; exact h3⟩
      rw [h2, pc1, List.length_append]; omega
    · exact p2
    · exact p2

end Verif.Codegen
