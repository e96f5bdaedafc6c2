import Verif.Codegen.SimCtl

/-!
# Branches, loops and continuations
-/
namespace Verif.Codegen
open Spec
open StackFrame.Spec (Reach ReachAny ReachVars ReachConts HasCont Apart Disjoint)
open StackFrame (slot)
open Verif (HMap)

variable {fx : Bool} {w : World} {C : Code} {E : Env} {k : Nat}

theorem held_pc {m : M} {r0 v pc} (h : Held m r0 v) : Held { m with pc := pc } r0 v := by
  rcases v with _ | ⟨x, _ | ⟨y, _ | ⟨z, v⟩⟩⟩ <;> exact h

/-- A label is passed. -/
theorem pass_label {F : Fr} {G lo s1 m m1 l c} (g : Go w C F G lo s1 m m1) (h : At C m1.pc (.label l :: c)) : Go w C F G lo s1 m { m1 with pc := m1.pc + 1 } :=
  g.regs (h.exec rfl) rfl rfl rfl rfl

theorem sim_ite (P : Prog fx w C E) (ih : Sim fx w C E k) (e0 e1 e2 : Rt) : SimAt fx w C E (k + 1) (.ite e0 e1 e2) := by
  si
  rw [eval] at he; rw [comp] at hc
  eb he r0 s0 he0
  ob hc c0 l0 st0 hc0
  have t0 : fx = false → Tame e0 := fun e => (ht e).1
  have key : (l0 = none ∧ c = c0) ∨ (l0 = some 1 ∧ ∃ c1 r1 st1 c2 r2 st2, comp F.cx L e1 { st0 with next := st0.next + 2 } = some (c1, r1, st1) ∧
      comp F.cx L e2 { st1 with depth := st0.depth } = some (c2, r2, st2) ∧
      c = c0 ++ ([.jz st0.next] ++ (c1 ++ ((if r1.isSome then [.jmp (st0.next + 1)] else []) ++ ([.label st0.next] ++ (c2 ++ [.label (st0.next + 1)]))))) ∧
      (∀ n, r1 = some n → l = some n) ∧ (∀ n, r2 = some n → l = some n)) := by
    cases l0 with
    | none => cases hc; exact .inl ⟨rfl, rfl⟩
    | some n =>
      dsimp only at hc
      split at hc
      · next hn =>
        subst hn
        ob hc c1 r1 st1 hc1
        ob hc c2 r2 st2 hc2
        refine .inr ⟨rfl, c1, r1, st1, c2, r2, st2, hc1, hc2, ?_⟩
        cases r1 with
        | none =>
          cases r2 with
          | none => cases hc; exact ⟨by simp, by simp, by simp⟩
          | some n2 => cases hc; exact ⟨by simp, by simp, by simp⟩
        | some n1 =>
          cases r2 with
          | none => cases hc; exact ⟨by simp, by simp, by simp⟩
          | some n2 =>
            dsimp only at hc; split at hc
            · next h => cases hc; exact ⟨by simp, by simp, by simp [h.1]⟩
            · cases hc
      · cases hc
  have a0 : At C m.pc c0 := by
    rcases key with ⟨-, rfl⟩ | ⟨-, c1, r1, st1, c2, r2, st2, -, -, rfl, -⟩
    · exact ha
    · exact ha.left
  obtain ⟨m0, g0, p0⟩ := ih.e e0 F K ρ s r0 s0 L st c0 l0 st0 G m hF hx he0 hc0 t0 hf.1 (hr.sub (fun X hX => .node (.head hX)) (fun h => by simp [noJump, h])) hs a0
  rcases r0 with v | v | ⟨j, vs⟩
  · obtain ⟨hl0, pc0, hd0⟩ := p0
    have d0 := fact e0 F.cx L st c0 _ st0 hc0
    rcases key with ⟨h, -⟩ | ⟨h1, c1, r1, st1, c2, r2, st2, hc1, hc2, rfl, hl1, hl2⟩
    · rw [h] at hl0; cases hl0
    · subst h1
      have d0 : st0.depth = st.depth := by have := d0.depth1 (fun e => t0 (hx.symm.trans e)); rw [this]; rfl
      rcases v with _ | ⟨b, _ | ⟨_, _⟩⟩
      · cases he
      · dsimp only at he
        have a1 := ha.right; rw [← pc0] at a1
        have a2 := a1.right
        have a3 := a2.right
        have a4 := a3.right
        have a5 := a4.right
        have a6 := a5.right
        have fe := P.uniq.find_label a4
        have fc := P.uniq.find_label a6
        by_cases hb : b = 0
        · rw [if_pos hb] at he
          have g1 := g0.regs (m2 := { m0 with pc := find C (.label st0.next) }) (At.exec a1 (by simp only [exec, hd0.2, hb, if_true])) rfl rfl rfl rfl
          have g2 := pass_label g1 (by simp only [fe]; exact a4)
          have sp : m0.r .rsp = m.r .rsp := hd0.1
          obtain ⟨m3, g3, p3⟩ := ih.e e2 F K ρ s0 res s' L _ c2 r2 st2 G { m0 with pc := find C (.label st0.next) + 1 } hF hx he hc2 (fun e => (ht e).2.2) hf.2.2
            (hr.sub (fun X hX => .node (.tail (.tail (.head hX)))) (fun h => by simp [noJump, h]))
            (hs.next g2 (lo_le hs) (by show m0.r .rsp = F.B - 8 * (st0.depth : Int); rw [sp, hs.rsp, d0]) (by show F.R ≤ st0.depth; rw [d0]; exact hs.dep)) (by simp only [fe]; exact a5.left)
          have g := g2.trans g3 (by show m0.r .rsp ≤ _; omega)
          rcases res with v | v | ⟨j, vs⟩
          · obtain ⟨q1, q2, q3⟩ := p3
            have a7 : At C m3.pc [.label (st0.next + 1)] := by rw [q2]; simp only [fe]; exact a6
            refine ⟨_, pass_label g a7, hl2 _ q1, ?_, held_pc (by rw [← sp]; exact q3)⟩
            simp only [q2, fe, pc0, List.length_append, List.length_cons, List.length_nil]; omega
          · exact ⟨m3, g, p3⟩
          · exact ⟨m3, g, p3⟩
        · rw [if_neg hb] at he
          have g1 := g0.regs (m2 := { m0 with pc := m0.pc + 1 }) (At.exec a1 (by simp only [exec, hd0.2, hb, if_false])) rfl rfl rfl rfl
          have sp : m0.r .rsp = m.r .rsp := hd0.1
          obtain ⟨m3, g3, p3⟩ := ih.e e1 F K ρ s0 res s' L _ c1 r1 st1 G { m0 with pc := m0.pc + 1 } hF hx he hc1 (fun e => (ht e).2.1) hf.2.1
            (hr.sub (fun X hX => .node (.tail (.head hX))) (fun h => by simp [noJump, h]))
            (hs.next g1 (lo_le hs) (by show m0.r .rsp = F.B - 8 * (st0.depth : Int); rw [sp, hs.rsp, d0]) (by show F.R ≤ st0.depth; rw [d0]; exact hs.dep)) a2.left
          have g := g1.trans g3 (by show m0.r .rsp ≤ _; omega)
          rcases res with v | v | ⟨j, vs⟩
          · obtain ⟨q1, q2, q3⟩ := p3
            subst q1
            have a7 : At C m3.pc [.jmp (st0.next + 1)] := by rw [q2]; exact a3.left
            have g4 := g.regs (m2 := { m3 with pc := find C (.label (st0.next + 1)) }) (At.exec a7 rfl) rfl rfl rfl rfl
            refine ⟨_, pass_label g4 (by simp only [fc]; exact a6), hl1 _ rfl, ?_, held_pc (by rw [← sp]; exact q3)⟩
            simp only [fc, pc0, List.length_append, List.length_cons, List.length_nil]; omega
          · exact ⟨m3, g, p3⟩
          · exact ⟨m3, g, p3⟩
      · cases he
  · cases he; exact ⟨m0, g0, p0⟩
  · cases he; exact ⟨m0, g0, p0⟩

theorem sim_loop (P : Prog fx w C E) (ih : Sim fx w C E k) (e0 e1 : Rt) : SimAt fx w C E (k + 1) (.loop e0 e1) := by
  si
  have hc' := hc
  rw [eval] at he; rw [comp] at hc
  eb he r0 s0 he0
  ob hc c0 l0 st0 hc0
  have t0 : fx = false → Tame e0 := fun e => (ht e).1
  have key : (l0 = none ∧ c = [.label st.next] ++ c0) ∨ (l0 = some 1 ∧ l = some 0 ∧ ∃ c1 r1 st1, comp F.cx L e1 st0 = some (c1, r1, st1) ∧
      c = [.label st.next] ++ (c0 ++ ([.jz (st.next + 1)] ++ (c1 ++ ((match r1 with | some m => shrink (msz m) ++ [.jmp st.next] | none => []) ++ [.label (st.next + 1)]))))) := by
    cases l0 with
    | none => cases hc; exact .inl ⟨rfl, rfl⟩
    | some n =>
      dsimp only at hc
      split at hc
      · next hn =>
        subst hn
        ob hc c1 r1 st1 hc1
        cases hc
        exact .inr ⟨rfl, rfl, c1, r1, st1, hc1, by cases r1 <;> simp only [List.append_assoc] <;> rfl⟩
      · cases hc
  have ae : At C m.pc ([.label st.next] ++ c0) := by
    rcases key with ⟨-, rfl⟩ | ⟨-, -, c1, r1, st1, -, rfl⟩
    · exact ha
    · exact (show At C m.pc (([.label st.next] ++ c0) ++ _) by rw [List.append_assoc]; exact ha).left
  have fi := P.uniq.find_label ae
  have gi := pass_label (Go.refl (w := w) (C := C) (G := G) (lo := m.r .rsp) hs.sync hs.rbp) ae
  obtain ⟨m0, g0', p0⟩ := ih.e e0 F K ρ s r0 s0 L _ c0 l0 st0 G { m with pc := m.pc + 1 } hF hx he0 hc0 t0 hf.1 (hr.sub (fun X hX => .node (.head hX)) (fun h => by simp [noJump, h]))
    ⟨hs.rbp, hs.rsp, hs.dep, ⟨hs.sync.brk, hs.sync.out, hs.sync.mem, hs.sync.pos⟩, hs.env, hs.gok⟩ ae.right
  have g0 := gi.trans g0' (Int.le_refl _)
  rcases r0 with v | v | ⟨j, vs⟩
  · obtain ⟨hl0, pc0, hd0⟩ := p0
    have d0 := fact e0 F.cx L _ c0 _ st0 hc0
    rcases key with ⟨h, -⟩ | ⟨h1, rfl, c1, r1, st1, hc1, rfl⟩
    · rw [h] at hl0; cases hl0
    · subst h1
      have d0 : st0.depth = st.depth := by have := d0.depth1 (fun e => t0 (hx.symm.trans e)); rw [this]; rfl
      rcases v with _ | ⟨b, _ | ⟨_, _⟩⟩
      · cases he
      · dsimp only at he
        have a1 := ha.right.right; rw [show m.pc + (([Instr.label st.next] : Code).length : Int) = m.pc + 1 from rfl] at a1; rw [show m.pc + 1 + (c0.length : Int) = m0.pc from pc0.symm] at a1
        have a2 := a1.right
        have a3 := a2.right
        have a4 := a3.right
        have fc := P.uniq.find_label a4
        have sp : m0.r .rsp = m.r .rsp := hd0.1
        by_cases hb : b = 0
        · rw [if_pos hb] at he; cases he
          have g1 := g0.regs (m2 := { m0 with pc := find C (.label (st.next + 1)) }) (At.exec a1 (by simp only [exec, hd0.2, hb, if_true])) rfl rfl rfl rfl
          refine ⟨_, pass_label g1 (by simp only [fc]; exact a4), rfl, ?_, sp⟩
          simp only [fc, pc0, List.length_append, List.length_cons, List.length_nil]; omega
        · rw [if_neg hb] at he
          eb he rb sb heb
          have g1 := g0.regs (m2 := { m0 with pc := m0.pc + 1 }) (At.exec a1 (by simp only [exec, hd0.2, hb, if_false])) rfl rfl rfl rfl
          obtain ⟨m3, g3, p3⟩ := ih.e e1 F K ρ s0 rb sb L _ c1 r1 st1 G { m0 with pc := m0.pc + 1 } hF hx heb hc1 (fun e => (ht e).2.1) hf.2
            (hr.sub (fun X hX => .node (.tail (.head hX))) (fun h => by simp [noJump, h]))
            (hs.next g1 (lo_le hs) (by show m0.r .rsp = F.B - 8 * (st0.depth : Int); rw [sp, hs.rsp, d0]) (by rw [d0]; exact hs.dep)) a2.left
          have g := g1.trans g3 (by show m0.r .rsp ≤ _; omega)
          rcases rb with v | v | ⟨j, vs⟩
          · obtain ⟨q1, q2, q3⟩ := p3
            subst q1
            dsimp only at he
            have a5 := a3.left; rw [show m0.pc + (([Instr.jz (st.next + 1)] : Code).length : Int) + (c1.length : Int) = m3.pc by rw [q2]; rfl] at a5
            obtain ⟨m4, st4, pc4, rsp4, rg4, mm4, bk4, ou4⟩ := shrink_run (w := w) a5.left
            have g4 := g.regs st4 mm4 (rg4 _ (by decide)) bk4 ou4
            have a6 := a5.right; rw [← pc4] at a6
            have g5 := g4.regs (m2 := { m4 with pc := find C (.label st.next) }) (At.exec a6 rfl) rfl rfl rfl rfl
            have sp4 : m4.r .rsp = m.r .rsp := by rw [rsp4, q3.rsp]; show m0.r .rsp - _ + _ = _; omega
            obtain ⟨m6, g6, p6⟩ := ih.e (.loop e0 e1) F K ρ sb res s' L st _ (some 0) st' G { m4 with pc := find C (.label st.next) } hF hx he hc' ht hf hr
              (hs.next g5 (lo_le hs) (by show m4.r .rsp = _; rw [sp4, hs.rsp]) hs.dep) (by simp only [fi]; exact ha)
            refine ⟨m6, g5.trans g6 (by show m4.r .rsp ≤ _; omega), ?_⟩
            rcases res with v | v | ⟨j, vs⟩
            · obtain ⟨z1, z2, z3⟩ := p6
              refine ⟨z1, by rw [z2]; simp only [fi], by rw [← sp4]; exact z3⟩
            · exact p6
            · exact p6
          · cases he; exact ⟨m3, g, p3⟩
          · cases he; exact ⟨m3, g, p3⟩
      · cases he
  · cases he; exact ⟨m0, g0, p0⟩
  · cases he; exact ⟨m0, g0, p0⟩

/-! ### Continuations -/

theorem addConts_ne {d x} : ∀ {cs : Conts} {l : Nat} {L : LConts}, x ∉ contIds cs → addConts d cs l L x = L x
  | .nil, _, _, _ => rfl
  | .cons y ps b cs, l, L, h => by
    simp only [contIds, List.mem_cons, not_or] at h
    rw [addConts, addConts_ne h.2, if_neg h.1]

theorem found {x ps b} : ∀ {cs : Conts}, findCont cs x = some (ps, b) → x ∈ contIds cs ∧ HasCont (skelC cs) ps ∧ (∀ X, Reach (skel b) X → ReachConts (skelC cs) (ps ++ X)) ∧
    (FlatC cs → Flat b) ∧ (TameC cs → Tame b) ∧ (noJump b = false → noJumpC cs = false)
  | .nil, h => by cases h
  | .cons y qs b' cs, h => by
    rw [findCont] at h
    split at h
    · next e => cases h; subst e; exact ⟨.head _, .head, fun X hX => .head hX, fun h => h.1, fun h => h.1, fun h => by simp [noJumpC, h]⟩
    · obtain ⟨h1, h2, h3, h4, h5, h6⟩ := found h
      exact ⟨.tail _ h1, .tail h2, fun X hX => .tail (h3 X hX), fun h => h4 h.2, fun h => h5 h.2, fun h => by simp [noJumpC, h6 h]⟩

theorem find_mem {x} : ∀ {cs : Conts}, x ∈ contIds cs → ∃ ps b, findCont cs x = some (ps, b)
  | .nil, h => by cases h
  | .cons y ps b cs, h => by
    rw [findCont]
    by_cases e : x = y
    · exact ⟨ps, b, if_pos e⟩
    · rw [if_neg e]
      exact find_mem ((List.mem_cons.1 h).resolve_left e)

/-- Where the code of a continuation is. -/
structure ContAt (cx : Cx) (L : LConts) (cs : Conts) (l lm d : Nat) (r : Option (Nat × Nat)) (c : Code) (x : Nat) (ps : List Binder) (b : Rt) : Prop where
  code : ∃ lx rest ly pre cb lb stb stb' post, (∀ L0, addConts d cs l L0 x = some (lx, ps, d)) ∧ c = pre ++ ([.label lx] ++ (cb ++ post)) ∧
    comp cx (addConts d rest ly L) b { depth := d, next := stb } = some (cb, lb, stb') ∧ (∀ y ∈ contIds rest, y ∈ contIds cs) ∧
    (∀ n, lb = some n → (∃ t, post = [.jmp lm] ++ t) ∧ r.map Prod.fst = some n)

theorem conts_at {cx : Cx} {L : LConts} : ∀ {cs : Conts} {l lm d mm st c r st'}, compConts cx L cs l lm d mm st = some (c, r, st') → (contIds cs).Nodup →
    (∀ z, mm = some z → r = some z) ∧ (∃ pre, c = pre ++ [.label lm]) ∧ ∀ x ps b, findCont cs x = some (ps, b) → ContAt cx L cs l lm d r c x ps b
  | .nil, l, lm, d, mm, st, c, r, st', h, hn => by
    rw [compConts] at h; cases h
    exact ⟨fun z h => h, ⟨[], rfl⟩, fun x ps b h => by cases h⟩
  | .cons y qs b' cs, l, lm, d, mm, st, c, r, st', h, hn => by
    rw [compConts] at h
    ob h c1 l1 st1 h1
    obtain ⟨hn1, hn2⟩ := List.nodup_cons.1 hn
    have key : ∃ j c2 mm2 st2, compConts cx L cs (l + 1) lm d mm2 st1 = some (c2, r, st2) ∧ c = [.label l] ++ (c1 ++ (j ++ c2)) ∧
        (∀ z, mm = some z → mm2 = some z) ∧ (∀ n, l1 = some n → j = [.jmp lm] ∧ ∃ d, mm2 = some (n, d)) := by
      cases l1 with
      | none =>
        dsimp only at h
        ob h c2 m2 st2 h2; cases h
        exact ⟨[], c2, mm, st', h2, by simp only [List.append_assoc, List.nil_append], fun z h => h, fun n h => by cases h⟩
      | some n =>
        dsimp only at h
        split at h
        · next hm =>
          ob h c2 m2 st2 h2; cases h
          refine ⟨[.jmp lm], c2, _, st', h2, by simp only [List.append_assoc], fun z h => ?_, fun n h => ?_⟩
          · rcases hm with hm | hm
            · rw [hm] at h; cases h
            · rw [← hm, h]
          · cases h; exact ⟨rfl, _, rfl⟩
        · cases h
    obtain ⟨j, c2, mm2, st2, h2, rfl, hm, hj⟩ := key
    obtain ⟨i1, ⟨pre, i2⟩, i3⟩ := conts_at h2 hn2
    refine ⟨fun z h => i1 z (hm z h), ⟨[.label l] ++ (c1 ++ (j ++ pre)), by simp only [i2, List.append_assoc]⟩, fun x ps b hf => ?_⟩
    rw [findCont] at hf
    split at hf
    · next e =>
      cases hf; subst e
      refine ⟨l, cs, l + 1, [], c1, l1, st.next, st1, j ++ c2, fun L0 => ?_, rfl, h1, fun y h => .tail _ h, fun n hl => ?_⟩
      · rw [addConts, addConts_ne hn1, if_pos rfl]
      · obtain ⟨rfl, d', hd⟩ := hj n hl
        exact ⟨⟨c2, rfl⟩, by rw [i1 _ hd]; rfl⟩
    · next e =>
      obtain ⟨lx, rest, ly, pre', cb, lb, stb, stb', post, k1, k2, k3, k4, k5⟩ := (i3 x ps b hf).code
      exact ⟨lx, rest, ly, [.label l] ++ (c1 ++ (j ++ pre')), cb, lb, stb, stb', post, fun L0 => k1 _, by simp only [k2, List.append_assoc], k3, fun y h => .tail _ (k4 y h), k5⟩

theorem Stored.env {F : Fr} {m : M} : ∀ {ps : List Binder} {vs : List (List Int)} {G ρ ρ'}, Stored F m ps vs → bindAll ρ ps vs = some ρ' → EnvOK F G ρ m →
    EnvOK F (ps.map (slot F.cx.off) ++ G) ρ' m
  | [], [], G, ρ, ρ', _, h, he => by cases h; exact he
  | p :: ps, v :: vs, G, ρ, ρ', hst, h, he => by
    rw [bindAll, if_pos hst.1] at h
    have e1 : EnvOK F (slot F.cx.off p :: G) (bind ρ p.1 v) m := by
      by_cases hv : v = []
      · subst hv
        intro y hy
        unfold Spec.bind at hy ⊢
        split at hy
        · exact (hy rfl).elim
        · next e =>
          rw [if_neg e]
          obtain ⟨o, h1, h2, h3⟩ := he y hy
          exact ⟨o, h1, .tail _ h2, h3⟩
      · obtain ⟨o, h1, h2⟩ := hst.2.1 hv
        rw [slot_eq h1, ← hst.1]
        exact he.bind h1 h2
    refine (hst.2.2.env h e1).mono fun r hr => ?_
    simp only [List.mem_append, List.mem_cons, List.map_cons] at hr ⊢
    rcases hr with h | h | h
    · exact .inl (.inr h)
    · exact .inl (.inl h)
    · exact .inr h
  | [], _ :: _, _, _, _, _, h, _ => by cases h
  | _ :: _, [], _, _, _, _, h, _ => by cases h

theorem Stored.pc {F : Fr} {m : M} {pc} : ∀ {ps : List Binder} {vs : List (List Int)}, Stored F m ps vs → Stored F { m with pc := pc } ps vs
  | [], [], h => h
  | _ :: _, _ :: _, h => ⟨h.1, h.2.1, h.2.2.pc⟩
  | [], _ :: _, h => h
  | _ :: _, [], h => h

theorem Fits.perm {F : Fr} {G Y Z} (h : Fits F G Y) (p : Y.Perm Z) : Fits F G Z :=
  ⟨((p.append_left G).pairwise_iff fun {_ _} h => Or.symm h).1 h.disj, fun r hr => h.lo r (p.mem_iff.2 hr), fun r hr => h.hi r (p.mem_iff.2 hr)⟩

theorem Fits.swap {F : Fr} {G Y Z X} (h : Fits F G (Y ++ (Z ++ X))) : Fits F G (Z ++ (Y ++ X)) := by
  refine h.perm ?_
  rw [← List.append_assoc, ← List.append_assoc]
  exact List.perm_append_comm.append_right X

theorem GOK.append {F : Fr} {G Y} (h : GOK F G) (hf : Fits F G Y) (hF : F.OK) : GOK F (Y ++ G) := by
  intro q hq
  rcases List.mem_append.1 hq with hq | hq
  · have := hf.lo q hq; have := hf.hi q hq; have := hF.neg; omega
  · exact h q hq

theorem sim_letCont (P : Prog fx w C E) (ih : Sim fx w C E k) (cs : Conts) (b : Rt) : SimAt fx w C E (k + 1) (.letCont cs b) := by
  si
  rw [eval] at he; rw [comp] at hc
  split at he
  · next hK =>
    eb he r1 s1 he1
    ob hc c1 l1 st1 hc1
    ob hc c2 mr st2 hc2
    cases hc
    obtain ⟨i1, ⟨pre, i2⟩, i3⟩ := conts_at hc2 hK.1
    simp only [List.append_assoc] at ha
    have a2 := ha.right
    have a3 := a2.right
    have a4 : At C (m.pc + c1.length + ((if l1.isSome then [.jmp (st.next + cs.length)] else [] : Code).length : Int) + pre.length) [.label (st.next + cs.length)] := by
      have := a3; rw [i2] at this; exact this.right
    have fm := P.uniq.find_label a4
    have rm : Room F (addConts st.depth cs st.next L) (contIds cs ++ K) G (Reach (skel b)) (noJump b) := by
      refine ⟨fun X hX => hr.fits X (.letContBody hX), fun hj x hx l ps d hl X hX => ?_⟩
      by_cases hxc : x ∈ contIds cs
      · obtain ⟨qs, b', hfx⟩ := find_mem hxc
        obtain ⟨lx, rest, ly, pre', cb, lb, stb, stb', post, k1, -⟩ := (i3 x qs b' hfx).code
        rw [k1] at hl; cases hl
        rw [← List.map_append]
        exact hr.fits _ (.letContArgs (found hfx).2.1 hX)
      · rw [addConts_ne hxc] at hl
        exact hr.conts (by simp [noJump, hj]) x ((List.mem_append.1 hx).resolve_left hxc) l ps d hl X (.letContBody hX)
    obtain ⟨m1, g1, p1⟩ := ih.e b F (contIds cs ++ K) ρ s r1 s1 _ _ c1 l1 st1 G m hF hx he1 hc1 (fun e => (ht e).2) hf.2 rm ⟨hs.rbp, hs.rsp, hs.dep, hs.sync, hs.env, hs.gok⟩ ha.left
    have fin : ∀ (m3 : M) v, m3.pc = find C (.label (st.next + cs.length)) → Held m3 (m.r .rsp) v → mr.map Prod.fst = some v.length → Go w C F G (m.r .rsp) s' m m3 →
        ∃ m', Go w C F G (m.r .rsp) s' m m' ∧ Post C F L K (m.r .rsp) (m.pc + ((c1 ++ (if l1.isSome then [.jmp (st.next + cs.length)] else []) ++ c2 : Code).length : Int)) (mr.map Prod.fst) (.val v) m' := by
      intro m3 v h1 h2 h3 g
      refine ⟨_, pass_label g (by rw [h1, fm]; exact a4), h3, ?_, held_pc h2⟩
      simp only [h1, fm, i2, List.length_append, List.length_cons, List.length_nil]; omega
    rcases r1 with v | v | ⟨j, vs⟩
    · cases he
      obtain ⟨rfl, pc1, hd1⟩ := p1
      have a5 := a2.left; rw [← pc1] at a5
      refine fin { m1 with pc := find C (.label (st.next + cs.length)) } v rfl (held_pc hd1) ?_ (g1.regs (At.exec a5 rfl) rfl rfl rfl rfl)
      rw [i1 _ rfl]; rfl
    · cases he
      exact ⟨m1, g1, p1⟩
    · dsimp only at he
      obtain ⟨hj, lj, qs, dj, hL, pc1, sp1, sto⟩ := p1
      cases hfc : findCont cs j with
      | none =>
        rw [hfc] at he
        cases he
        have hjn : j ∉ contIds cs := fun h => by
          obtain ⟨ps, b', h'⟩ := find_mem h
          rw [hfc] at h'; cases h'
        rw [addConts_ne hjn] at hL
        exact ⟨m1, g1, (List.mem_append.1 hj).resolve_left hjn, lj, qs, dj, hL, pc1, sp1, sto⟩
      | some pb =>
        obtain ⟨ps, b'⟩ := pb
        rw [hfc] at he
        simp only [Option.bind_eq_bind, Option.bind_eq_some_iff] at he
        obtain ⟨ρ', hb, he⟩ := he
        obtain ⟨lx, rest, ly, pre', cb, lb, stb, stb', post, k1, k2, k3, k4, k5⟩ := (i3 j ps b' hfc).code
        rw [k1] at hL; cases hL
        obtain ⟨-, fd2, fd3, fd4, fd5, fd6⟩ := found hfc
        have a6 : At C (m.pc + c1.length + ((if l1.isSome then [.jmp (st.next + cs.length)] else [] : Code).length : Int) + pre'.length) ([.label lj] ++ (cb ++ post)) := by
          have := a3; rw [k2] at this; exact this.right
        have fj := P.uniq.find_label a6
        have g2 := pass_label g1 (by rw [pc1, fj]; exact a6)
        have rest_ne : ∀ y ∈ K, addConts st.depth rest ly L y = L y := fun y hy => addConts_ne fun h => hK.2 y (k4 y h) hy
        have fit : ∀ X, Reach (skel b') X → Fits F G (qs.map (slot F.cx.off) ++ X.map (slot F.cx.off)) := fun X hX => by
          rw [← List.map_append]; exact hr.fits _ (.letCont (fd3 X hX))
        have rm' : Room F (addConts st.depth rest ly L) K (qs.map (slot F.cx.off) ++ G) (Reach (skel b')) (noJump b') := by
          refine ⟨fun X hX => (fit X hX).move, fun hj x hx l ps d hl X hX => ?_⟩
          rw [rest_ne x hx] at hl
          have := hr.conts (by simp [noJump, fd6 hj]) x hx l ps d hl _ (.letCont (fd3 X hX))
          rw [List.map_append] at this
          exact this.swap.move
        have hs2 := hs.next g2 (lo_le hs) (d1 := st.depth) sp1 hs.dep
        have fit0 : Fits F G (qs.map (slot F.cx.off)) := by
          have := fit [] .here
          rwa [List.map_nil, List.append_nil] at this
        obtain ⟨m3, g3, p3⟩ := ih.e b' F K ρ' s1 res s' _ _ cb lb stb' (qs.map (slot F.cx.off) ++ G) { m1 with pc := m1.pc + 1 } hF hx he k3 (fun e => fd5 (ht e).1) (fd4 hf.1) rm'
          ⟨hs2.rbp, hs2.rsp, hs2.dep, hs2.sync, sto.pc.env hb hs2.env, hs2.gok.append fit0 hF⟩ (by simp only [pc1, fj]; exact a6.right.left)
        have sp : m1.r .rsp = m.r .rsp := by rw [sp1, hs.rsp]
        have g := g2.trans (g3.sub fun r hr => List.mem_append_right _ hr) (by show m1.r .rsp ≤ _; omega)
        rcases res with v | v | ⟨j', vs'⟩
        · obtain ⟨z1, z2, z3⟩ := p3
          obtain ⟨⟨t, rfl⟩, hmr⟩ := k5 _ z1
          have a7 : At C m3.pc ([.jmp (st.next + cs.length)] ++ t) := by
            rw [z2]; simp only [pc1, fj]; exact a6.right.right
          exact fin { m3 with pc := find C (.label (st.next + cs.length)) } v rfl (held_pc (by rw [← sp]; exact z3)) hmr (g.regs (At.exec a7 rfl) rfl rfl rfl rfl)
        · exact ⟨m3, g, p3⟩
        · obtain ⟨z1, lz, pz, dz, z2, z3⟩ := p3
          exact ⟨m3, g, z1, lz, pz, dz, by rw [← rest_ne _ z1]; exact z2, z3⟩
  · cases he

end Verif.Codegen
