import Verif.Codegen.SimList

/-!
# Allocation, control and bindings
-/
namespace Verif.Codegen
open Spec
open StackFrame.Spec (Reach ReachAny ReachVars ReachConts HasCont Apart Disjoint)
open StackFrame (slot)
open Verif (HMap)

variable {fx : Bool} {w : World} {C : Code} {E : Env} {k : Nat}

/-- Memory is allocated and its address pushed. -/
theorem alloc_run {F : Fr} {G ρ s m} {d n : Nat} (hF : F.OK) (hs : Sit F G ρ s m d) (h : At C m.pc (mallocCode d (8 * n) ++ pushV 1)) :
    ∃ m', Go w C F G (m.r .rsp) { s with brk := s.brk + 8 * (n : Int) } m m' ∧ m'.pc = m.pc + (mallocCode d (8 * n) ++ pushV 1).length ∧ OnStack m' (m.r .rsp) [s.brk] ∧
      Sit F G ρ { s with brk := s.brk + 8 * (n : Int) } m' (d + 1) := by
  obtain ⟨m1, st1, pc1, rsp1, bp1, ax1, mm1, bk1, ou1⟩ := malloc_run (w := w) h.left hF.al hs.rsp
  have g1 : Go w C F G (m.r .rsp) { s with brk := s.brk + 8 * (n : Int) } m m1 := by
    refine ⟨st1, ⟨?_, ou1.trans hs.sync.out, fun a ha => by rw [mm1]; exact hs.sync.mem a ha, ?_⟩, bp1.trans hs.rbp, fun a _ _ _ => by rw [mm1]⟩
    · rw [bk1, hs.sync.brk]; simp
    · have := hs.sync.pos; simp only; omega
  have a2 := h.right; rw [← pc1] at a2
  obtain ⟨m2, st2, pc2, os2, kp2, -⟩ := push_run (w := w) (v := [m.brk]) a2 ⟨rsp1, ax1⟩
  have g2 := g1.keep st2 kp2 (Int.le_refl _) (lo_neg hF hs)
  rw [hs.sync.brk] at os2
  refine ⟨m2, g2, ?_, os2, hs.next g2 (lo_le hs) ?_ (by have := hs.dep; omega)⟩
  · rw [pc2, pc1, List.length_append]; simp; omega
  · rw [os2.1, hs.rsp]; simp; omega

theorem OnStack.top {m r0 p} (h : OnStack m r0 [p]) : m.r .rsp = r0 - 8 ∧ m.mem (m.r .rsp) = p := by
  obtain ⟨h1, h2⟩ := h
  simp only [List.length_cons, List.length_nil, Spec.read, List.cons.injEq, and_true] at h1 h2
  exact ⟨by omega, h2⟩

theorem sim_alloc (ih : Sim fx w C E k) (e : Rt) : SimAt fx w C E (k + 1) (.alloc e) := by
  si
  rw [eval] at he; rw [comp] at hc
  cases hty : tyOf e with
  | none =>
    rw [hty] at he hc
    dsimp only at he hc
    ob hc c1 l1 st1 hc1
    have a1 : l1.isSome = false ∧ c = c1 := by
      split at hc
      · cases hc
      · next h => cases hc; exact ⟨by simpa using h, rfl⟩
    rw [a1.2] at ha
    obtain ⟨m1, g1, p1⟩ := ih.e e F K ρ s res s' L st c1 l1 st1 G m hF hx he hc1 ht hf (hr.sub (fun X hX => .node (.head hX)) (fun h => h)) hs ha
    refine ⟨m1, g1, ?_⟩
    rcases res with v | v | ⟨j, vs⟩
    · obtain ⟨rfl, -, -⟩ := p1; cases a1.1
    · exact p1
    · exact p1
  | some n =>
    rw [hty] at he hc
    dsimp only at he hc
    eb he r1 s1 he1
    ob hc c1 l1 st1 hc1
    have a1 : ∃ t, c = (mallocCode st.depth (8 * n) ++ pushV 1) ++ (c1 ++ t) := by
      cases l1 with
      | none => cases hc; exact ⟨[], by simp⟩
      | some q => dsimp only at hc; split at hc <;> cases hc; exact ⟨[.ld .rdi .rsp (8 * (msz n : Int))] ++ (storeV .rdi 0 n ++ popV 1), by simp only [List.append_assoc]⟩
    obtain ⟨t, rfl⟩ := a1
    obtain ⟨m1, g1, pc1, os1, hs1⟩ := alloc_run (w := w) hF hs ha.left
    obtain ⟨sp1, tp1⟩ := os1.top
    have a2 := ha.right; rw [← pc1] at a2
    obtain ⟨m2, g2, p2⟩ := ih.e e F K ρ _ r1 s1 L _ c1 l1 st1 G m1 hF hx he1 hc1 ht hf (hr.sub (fun X hX => .node (.head hX)) (fun h => h)) hs1 a2.left
    have g := g1.trans g2 (by omega)
    rcases r1 with v | v | ⟨j, vs⟩
    · obtain ⟨rfl, pc2, hd2⟩ := p2
      dsimp only at hc he
      split at hc
      · next hvn =>
        cases he
        have a3 := a2.right; rw [← pc2] at a3
        have ht' : t = [.ld .rdi .rsp (8 * (msz n : Int))] ++ (storeV .rdi 0 n ++ popV 1) := by
          simp only [Option.some.injEq, Prod.mk.injEq, List.append_assoc, List.append_cancel_left_eq] at hc
          exact hc.1.symm
        have hl : l = some 1 := by simp only [Option.some.injEq, Prod.mk.injEq] at hc; exact hc.2.1.symm
        subst ht' hl hvn
        have l1 := lo_le hs1; have l0 := lo_neg hF hs; have lo0 := lo_le hs; have rs0 := hs1.rsp
        have k2 : m2.mem (m1.r .rsp) = s.brk := by rw [g2.kept _ (Int.le_refl _) (by omega) (.inl (by omega)), tp1]
        have hsp := hd2.rsp
        have g3 := g.regs (m2 := { m2 with r := upd m2.r .rdi (m2.mem (m2.r .rsp + 8 * (msz v.length : Int))), pc := m2.pc + 1 }) (At.exec a3 rfl) rfl (by simp [upd]) rfl rfl
        have e2 : upd m2.r .rdi (m2.mem (m2.r .rsp + 8 * (msz v.length : Int))) .rdi = s.brk := by
          rw [upd_same, hsp, show m1.r .rsp - 8 * (msz v.length : Int) + 8 * (msz v.length : Int) = m1.r .rsp by omega, k2]
        have hpos := hs.sync.pos
        obtain ⟨m3, st3, pc3, rsp3, mm3, bp3, bk3, ou3, -⟩ := store_run (w := w) (b := .rdi) (o := 0) (m := { m2 with r := upd m2.r .rdi (m2.mem (m2.r .rsp + 8 * (msz v.length : Int))), pc := m2.pc + 1 })
          (by decide) (by decide) a3.right.left (held_rdi hd2) (by simp only [e2]; omega)
        simp only [e2, Int.add_zero] at mm3
        have g4 := g3.heap st3 mm3 bp3 bk3 ou3 hpos
        have a4 := a3.right.right
        rw [show ([Instr.ld Reg.rdi Reg.rsp (8 * (msz v.length : Int))].length : Int) = 1 from rfl, ← pc3] at a4
        have os3 : OnStack m3 (m.r .rsp) [s.brk] := by
          refine ⟨by rw [rsp3, sp1]; simp, ?_⟩
          rw [rsp3]; simp only [List.length_cons, List.length_nil, Spec.read]
          rw [mm3, write_out (by omega)]; simp only [k2]
        obtain ⟨m5, st5, pc5, hd5, mm5, bp5, bk5, ou5, -⟩ := pop_run (w := w) a4 os3
        refine ⟨m5, g4.regs st5 mm5 bp5 bk5 ou5, rfl, ?_, hd5⟩
        have pc5' : m5.pc = m3.pc + ((popV 1).length : Int) := pc5
        simp only [List.length_append, List.length_cons, List.length_nil] at pc1 pc2 pc3 ⊢; omega
      · cases hc
    · cases he; exact ⟨m2, g, p2⟩
    · cases he; exact ⟨m2, g, p2⟩

theorem sim_mkEnv (ih : Sim fx w C E k) (es : Rts) : SimAt fx w C E (k + 1) (.mkEnv es) := by
  si
  rw [eval] at he; rw [comp] at hc
  cases hty : tysOf es with
  | none =>
    rw [hty] at he hc
    dsimp only at he hc
    eb he r1 s1 he1
    ob hc c1 l1 st1 hc1
    have a1 : c = c1 := by
      split at hc <;> cases hc; rfl
    rw [a1] at ha
    obtain ⟨m1, g1, p1⟩ := ih.seq es F K ρ s r1 s1 L st c1 l1 st1 G m hF hx he1 hc1 ht hf (hr.sub (fun X hX => .node hX) (fun h => h)) hs ha
    rcases r1 with r1 | vs
    · cases he; exact ⟨m1, g1, p1.post⟩
    · cases he
  | some ns =>
    rw [hty] at he hc
    dsimp only at he hc
    eb he r1 s1 he1
    ob hc c1 l1 st1 hc1
    have a1 : ∃ t, c = (mallocCode st.depth (8 * sum ns) ++ pushV 1) ++ (c1 ++ t) := by
      cases l1 with
      | none => cases hc; exact ⟨[], by simp⟩
      | some q => dsimp only at hc; split at hc <;> cases hc; exact ⟨popV 1, by simp only [List.append_assoc]⟩
    obtain ⟨t, rfl⟩ := a1
    obtain ⟨m1, g1, pc1, os1, hs1⟩ := alloc_run (w := w) hF hs ha.left
    obtain ⟨sp1, tp1⟩ := os1.top
    have a2 := ha.right; rw [← pc1] at a2
    obtain ⟨m2, g2, p2⟩ := ih.env es s.brk 0 F K ρ _ r1 s1 L _ c1 l1 st1 G m1 hF hx (by rw [show s.brk + 8 * ((0 : Nat) : Int) = s.brk by omega]; exact he1) hc1 ht hf (hr.sub (fun X hX => .node hX) (fun h => h)) hs1 a2.left
      (by have := hs.dep; simp only; omega) hs.sync.pos tp1
    have g := g1.trans g2 (by omega)
    rcases r1 with _ | r1
    · obtain ⟨h1, pc2, sp2⟩ := p2
      cases l1 with
      | none => cases h1
      | some ms =>
      dsimp only at hc he
      split at hc
      · next hvn =>
        cases he
        have a3 := a2.right; rw [← pc2] at a3
        have ht' : t = popV 1 := by
          simp only [Option.some.injEq, Prod.mk.injEq, List.append_assoc, List.append_cancel_left_eq] at hc
          exact hc.1.symm
        have hl : l = some 1 := by simp only [Option.some.injEq, Prod.mk.injEq] at hc; exact hc.2.1.symm
        subst ht' hl
        have l1 := lo_le hs1; have l0 := lo_neg hF hs; have lo0 := lo_le hs
        have os2 : OnStack m2 (m.r .rsp) [s.brk] := by
          refine ⟨by rw [sp2, sp1]; simp, ?_⟩
          rw [sp2]; simp only [List.length_cons, List.length_nil, Spec.read]
          rw [g2.kept _ (Int.le_refl _) (by omega) (.inl (by omega)), tp1]
        obtain ⟨m5, st5, pc5, hd5, mm5, bp5, bk5, ou5, -⟩ := pop_run (w := w) a3 os2
        refine ⟨m5, g.regs st5 mm5 bp5 bk5 ou5, rfl, ?_, hd5⟩
        have pc5' : m5.pc = m2.pc + ((popV 1).length : Int) := pc5
        simp only [List.length_append, List.length_cons, List.length_nil] at pc1 pc2 ⊢; omega
      · cases hc
    · cases he; exact ⟨m2, g, p2.post⟩

theorem sim_mkStruct (ih : Sim fx w C E k) (tys : List Nat) (es : Rts) : SimAt fx w C E (k + 1) (.mkStruct tys es) := by
  si
  rw [eval] at he; rw [comp] at hc
  eb he r1 s1 he1
  dsimp only at hc
  ob hc c1 l1 st1 hc1
  have a1 : ∃ t, c = extend (sum tys) ++ (c1 ++ t) := by
    split at hc <;> cases hc
    · exact ⟨popV (sum tys), by simp only [List.append_assoc]⟩
    · exact ⟨[], by simp⟩
  obtain ⟨t, rfl⟩ := a1
  obtain ⟨m1, st1', pc1, rsp1, rg1, mm1, bk1, ou1⟩ := extend_run (w := w) ha.left
  have g1 := (Go.refl (w := w) (C := C) (G := G) (lo := m.r .rsp) hs.sync hs.rbp).regs st1' mm1 (rg1 _ (by decide)) bk1 ou1
  have a2 := ha.right; rw [← pc1] at a2
  have hs1 := hs.next (d1 := st.depth + sum tys) g1 (lo_le hs) (by rw [rsp1, hs.rsp]; omega) (by have := hs.dep; omega)
  obtain ⟨m2, g2, p2⟩ := ih.struct es tys 0 F K ρ s r1 s1 L _ c1 l1 st1 G m1 hF hx he1 hc1 ht hf (hr.sub (fun X hX => .node hX) (fun h => h)) hs1 a2.left
    (by have := hs.dep; simp only; omega)
  have g := g1.trans g2 (by rw [rsp1]; omega)
  rcases r1 with r1 | vs
  · cases he; exact ⟨m2, g, p2.post⟩
  · obtain ⟨rfl, pc2, sp2, ln2, -, rd2⟩ := p2
    cases he
    rw [if_pos rfl] at hc
    have ht' : t = popV (sum tys) := by
      simp only [Option.some.injEq, Prod.mk.injEq, List.append_assoc, List.append_cancel_left_eq] at hc
      exact hc.1.symm
    have hl : l = some (sum tys) := by simp only [Option.some.injEq, Prod.mk.injEq] at hc; exact hc.2.1.symm
    subst ht' hl
    have os2 : OnStack m2 (m.r .rsp) vs.flatten := by
      refine ⟨by rw [sp2, rsp1, ln2], ?_⟩
      rw [sp2, ln2]; simpa using rd2
    have a3 := a2.right; rw [← pc2] at a3
    obtain ⟨m5, st5, pc5, hd5, mm5, bp5, bk5, ou5, -⟩ := pop_run (w := w) (by rw [ln2]; exact a3) os2
    refine ⟨m5, g.regs st5 mm5 bp5 bk5 ou5, by rw [ln2], ?_, hd5⟩
    rw [pc5, ln2]; simp only [List.length_append] at *; omega

theorem sim_jump (ih : Sim fx w C E k) (j : Nat) (ret : Option Nat) (es : Rts) : SimAt fx w C E (k + 1) (.jump j ret es) := by
  si
  rw [eval] at he; rw [comp] at hc
  split at he
  · next hK =>
    eb he r1 s1 he1
    simp only [Option.bind_eq_bind, Option.bind_eq_some_iff] at hc
    obtain ⟨⟨lb, ps, d⟩, hL, hc⟩ := hc
    dsimp only at hc
    obtain ⟨⟨c1, l1, st1⟩, hc1, hc⟩ := hc
    dsimp only at hc
    have a1 : ∃ t, c = c1 ++ t := by
      split at hc
      · split at hc <;> cases hc; exact ⟨_, rfl⟩
      · cases hc; exact ⟨[], by simp⟩
    obtain ⟨t, rfl⟩ := a1
    obtain ⟨m1, g1, p1⟩ := ih.stores es ps F K ρ s r1 s1 L st c1 l1 st1 G m hF hx he1 hc1 ht hf.2 hf.1
      (fun X hX => hr.conts rfl j hK lb ps d hL X (hX.elim (fun h => .node h) (fun h => by rw [h]; exact .here))) hs ha.left
    rcases r1 with r1 | vs
    · cases he; exact ⟨m1, g1, p1.post⟩
    · obtain ⟨rfl, pc1, sp1, sto1⟩ := p1
      cases he
      have d1 := (factStores es ps F.cx L st c1 _ st1 hc1).depth (fun e => ht (hx.symm.trans e)) rfl
      rw [if_pos rfl] at hc
      split at hc
      · next hd =>
        have ht' : t = [.jmp lb] := by
          simp only [Option.some.injEq, Prod.mk.injEq, List.append_cancel_left_eq] at hc
          exact hc.1.symm
        subst ht'
        have a2 := ha.right; rw [← pc1] at a2
        refine ⟨_, g1.regs (a2.exec rfl) rfl rfl rfl rfl, hK, lb, ps, d, hL, rfl, ?_, ?_⟩
        · show m1.r .rsp = _
          rw [sp1, hs.rsp, hd, d1]; simp
        · have : ∀ ps vs, Stored F m1 ps vs → Stored F { m1 with pc := find C (.label lb) } ps vs := by
            intro ps
            induction ps with
            | nil => intro vs h; cases vs <;> exact h
            | cons p ps ih =>
              intro vs h
              cases vs with
              | nil => exact h
              | cons v vs => exact ⟨h.1, h.2.1, ih vs h.2.2⟩
          exact this _ _ sto1
      · cases hc
  · cases he

theorem sim_letVar (ih : Sim fx w C E k) (vs : Vars) (b : Rt) : SimAt fx w C E (k + 1) (.letVar vs b) := by
  si
  rw [eval] at he; rw [comp] at hc
  eb he r1 s1 he1
  ob hc c1 l1 st1 hc1
  have a1 : At C m.pc c1 := by
    split at hc
    · ob hc c2 l2 st2 hc2; cases hc; exact ha.left
    · cases hc; exact ha
  obtain ⟨m1, g1, p1⟩ := ih.vars vs b F K ρ s r1 s1 L st c1 l1 st1 G m hF hx he1 hc1 (fun e => (ht e).1) hf.1 (hr.sub (fun X hX => .letVar hX) (fun h => h)) hs a1
  rcases r1 with r1 | ρ'
  · cases he
    exact ⟨m1, g1, p1.post⟩
  · obtain ⟨rfl, pc1, G', hG, hr', hs'⟩ := p1
    dsimp only at he hc
    have d1 := (factVars vs F.cx L st c1 _ st1 hc1).depth (fun e => (ht (hx.symm.trans e)).1) rfl
    rw [if_pos rfl] at hc
    ob hc c2 l2 st2 hc2
    cases hc
    have a2 := ha.right; rw [← pc1] at a2
    have d1' : st1.depth = st.depth := d1
    have sp1 : m1.r .rsp = m.r .rsp := by rw [hs'.rsp, hs.rsp]
    obtain ⟨m2, g2, p2⟩ := ih.e b F K ρ' s1 res s' L st1 c2 l st' G' m1 hF hx he hc2 (fun e => (ht e).2) hf.2 hr' (by rw [d1']; exact hs') a2
    refine ⟨m2, g1.trans (g2.sub hG) (by omega), ?_⟩
    rcases res with v | v | ⟨j, vs⟩
    · obtain ⟨h1, h2, h3⟩ := p2
      refine ⟨h1, ?_, by rw [← sp1]; exact h3⟩
      rw [h2, pc1, List.length_append]; omega
    · exact p2
    · exact p2

end Verif.Codegen
