import Verif.Codegen.SimJump

/-!
# Calls
-/
namespace Verif.Codegen
open Spec
open StackFrame.Spec (Reach ReachAny ReachVars ReachConts HasCont Apart Disjoint)
open StackFrame (slot)
open Verif (HMap)

variable {fx : Bool} {w : World} {C : Code} {E : Env} {k : Nat}

theorem held_move {m m' : M} {r0 r1 : Int} {v : List Int} (h : Held m r0 v) (hv : msz v.length = 0) (hr : m'.r .rsp = r1) (ha : m'.r .rax = m.r .rax) (hd : m'.r .rdx = m.r .rdx) :
    Held m' r1 v := by
  rcases v with _ | ⟨x, _ | ⟨y, _ | ⟨z, v⟩⟩⟩
  · exact hr
  · exact ⟨hr, ha.trans h.2⟩
  · exact ⟨hr, ha.trans h.2.1, hd.trans h.2.2⟩
  · simp [msz] at hv

theorem sim_call (P : Prog fx w C E) (ih : Sim fx w C E k) (e : Rt) (tys : List Nat) (ret : Nat) (es : Rts) : SimAt fx w C E (k + 1) (.call e tys ret es) := by
  si
  rw [eval] at he; rw [comp] at hc
  eb he r1 s1 he1
  have te : fx = false → Tame e := fun h => (ht h).2.1
  have tes : fx = false → TameL es := fun h => (ht h).2.2
  have rme := hr.sub (Q' := Reach (skel e)) (nj' := noJump e) (fun X hX => .node (.head hX)) (fun h => by simp [noJump, h])
  have rmes := hr.sub (Q' := ReachAny (skels es)) (nj' := noJumpL es) (fun X hX => .node (.tail hX)) (fun h => by simp [noJump, h])
  cases hty : tyOf e with
  | none =>
    rw [hty] at hc
    cases fx with
    | false => exact ((ht rfl).1 hty).elim
    | true =>
      dsimp only at hc
      rw [if_pos hx] at hc
      ob hc c1 l1 st1 hc1
      have a1 : ∃ t, c = c1 ++ t := by
        cases l1 with
        | false => cases hc; exact ⟨[], by simp⟩
        | true =>
          rw [if_pos rfl] at hc
          ob hc c2 l2 st2 hc2
          split at hc
          · cases hc
          · cases hc; exact ⟨c2, rfl⟩
      obtain ⟨t, rfl⟩ := a1
      obtain ⟨m1, g1, p1⟩ := ih.seq es F K ρ s r1 s1 L st c1 l1 st1 G m hF hx he1 hc1 tes hf.2 rmes hs ha.left
      cases r1 with
      | error r => cases he; exact ⟨m1, g1, p1.post⟩
      | ok vs =>
        obtain ⟨rfl, pc1, sp1⟩ := p1
        dsimp only at he
        have d1 := (factSeq es F.cx L st c1 _ st1 hc1).depth (fun e => tes (hx.symm.trans e)) rfl
        rw [if_pos rfl] at hc
        ob hc c2 l2 st2 hc2
        split at hc
        · cases hc
        · next hl2 =>
          simp only [Option.some.injEq, Prod.mk.injEq, List.append_cancel_left_eq] at hc
          obtain ⟨rfl, rfl, rfl⟩ := hc
          eb he r2 s2 he2
          have a2 := ha.right; rw [← pc1] at a2
          obtain ⟨m2, g2, p2⟩ := ih.e e F K ρ s1 r2 s2 L st1 c2 l2 st2 G m1 hF hx he2 hc2 te hf.1 rme (hs.next g1 (lo_le hs) (by rw [sp1, hs.rsp, d1]; rfl) (by rw [d1]; exact hs.dep)) a2
          have g := g1.trans g2 (by omega)
          rcases r2 with v | v | ⟨j, vs⟩
          · obtain ⟨h, -⟩ := p2
            rw [h] at hl2; simp at hl2
          · cases he; exact ⟨m2, g, p2⟩
          · cases he; exact ⟨m2, g, p2⟩
  | some ty =>
    rw [hty] at hc
    dsimp only at hc
    generalize hpad : (st.depth + msz ret + sum tys) % 2 = pad at hc
    ob hc c1 l1 st1 hc1
    have a1 : ∃ t, c = extend (msz ret + pad) ++ (c1 ++ t) := by
      cases l1 with
      | none => cases hc; exact ⟨[], by simp⟩
      | some ns =>
        dsimp only at hc
        split at hc
        · ob hc c2 l2 st2 hc2
          cases l2 with
          | none => cases hc; exact ⟨c2, by simp only [List.append_assoc]⟩
          | some n =>
            dsimp only at hc
            split at hc
            · cases hc; exact ⟨_, by simp only [List.append_assoc]; rfl⟩
            · cases hc
        · cases hc
    obtain ⟨t, rfl⟩ := a1
    obtain ⟨m0, st0, pc0, rsp0, rg0, mm0, bk0, ou0⟩ := extend_run (w := w) ha.left
    have g0 := (Go.refl (w := w) (C := C) (G := G) (lo := m.r .rsp) hs.sync hs.rbp).regs st0 mm0 (rg0 _ (by decide)) bk0 ou0
    have a1 := ha.right; rw [← pc0] at a1
    have hs0 : Sit F G ρ s m0 (st.depth + (msz ret + pad)) := hs.next g0 (lo_le hs) (by rw [rsp0, hs.rsp]; omega) (by have := hs.dep; omega)
    obtain ⟨m1, g1, p1⟩ := ih.args es F K ρ s r1 s1 L _ c1 l1 st1 G m0 hF hx he1 hc1 tes hf.2 rmes hs0 a1.left
    have g01 := g0.trans g1 (by omega)
    cases r1 with
    | error r => cases he; exact ⟨m1, g01, p1.post⟩
    | ok vs =>
      obtain ⟨rfl, pc1, os1⟩ := p1
      dsimp only at he hc
      have d1 := (factArgs es F.cx L _ c1 _ st1 hc1).depth (fun e => tes (hx.symm.trans e)) rfl
      split at hc
      · next hns =>
        have d1' : st1.depth = st.depth + (msz ret + pad) + sum tys := by rw [← hns]; exact d1
        have len : (vs.reverse.flatten.length : Int) = sum tys := by rw [← hns, sum_lengths, flatten_rev_length]
        ob hc c2 l2 st2 hc2
        have a2 : ∃ u, t = c2 ++ u := by
          cases l2 with
          | none =>
            simp only [Option.some.injEq, Prod.mk.injEq, List.append_assoc, List.append_cancel_left_eq] at hc
            exact ⟨[], by rw [← hc.1]; simp⟩
          | some n =>
            dsimp only at hc
            split at hc
            · simp only [Option.some.injEq, Prod.mk.injEq, List.append_assoc, List.append_cancel_left_eq] at hc
              exact ⟨_, hc.1.symm⟩
            · cases hc
        obtain ⟨u, rfl⟩ := a2
        have a2 := a1.right; rw [← pc1] at a2
        eb he r2 s2 he2
        have hs1 : Sit F G ρ s1 m1 st1.depth := by
          refine hs.next g01 (lo_le hs) ?_ ?_
          · have := os1.1; have := hs.rsp; rw [d1']; omega
          · have := hs.dep; omega
        obtain ⟨m2, g2, p2⟩ := ih.e e F K ρ s1 r2 s2 L st1 c2 l2 st2 G m1 hF hx he2 hc2 te hf.1 rme hs1 a2.left
        have sp1 : m1.r .rsp = m.r .rsp - 8 * ((msz ret + pad + sum tys : Nat) : Int) := by have := os1.1; omega
        have g02 := g01.trans g2 (by omega)
        rcases r2 with v | v | ⟨j, vs'⟩
        · obtain ⟨rfl, pc2, hd2⟩ := p2
          rcases v with _ | ⟨a, _ | ⟨env, _ | ⟨_, _⟩⟩⟩
          · cases he
          · cases he
          · dsimp only at he hc
            rw [if_pos (show [a, env].length = 2 from rfl)] at hc
            simp only [Option.some.injEq, Prod.mk.injEq, List.append_assoc, List.append_cancel_left_eq] at hc
            obtain ⟨rfl, rfl, rfl⟩ := hc
            simp only [Option.bind_eq_bind, Option.bind_eq_some_iff] at he
            obtain ⟨f, hfind, he⟩ := he
            have hfm := List.mem_of_find?_eq_some hfind
            have hfa : E.addr f.id = a := by simpa using List.find?_some hfind
            split at he
            · next hret =>
              simp only [Option.bind_eq_some_iff] at he
              obtain ⟨⟨v, s3⟩, hap, he⟩ := he
              cases he
              obtain ⟨sp2, ax2, dx2⟩ := hd2
              have a3 := a2.right; rw [← pc2] at a3
              -- `mov rsi, rdx`
              have t3 : Steps w C m2 { m2 with r := upd m2.r .rsi (m2.r .rdx), pc := m2.pc + 1 } := At.exec a3 rfl
              have a4 := a3.right
              -- `lea rdi, ...`
              obtain ⟨m4, t4, pc4, sp4, bp4, ax4, si4, di4, mm4, bk4, ou4⟩ : ∃ m4, Steps w C { m2 with r := upd m2.r .rsi (m2.r .rdx), pc := m2.pc + 1 } m4 ∧
                  m4.pc = m2.pc + 1 + ((if msz ret = 0 then [] else [.lea .rdi .rsp (8 * ((sum tys + pad : Nat) : Int))] : Code).length : Int) ∧ m4.r .rsp = m1.r .rsp ∧
                  m4.r .rbp = m2.r .rbp ∧ m4.r .rax = a ∧ m4.r .rsi = env ∧ (msz ret ≠ 0 → m4.r .rdi = m.r .rsp - 8 * (msz ret : Int)) ∧ m4.mem = m2.mem ∧ m4.brk = m2.brk ∧
                  m4.out = m2.out := by
                split
                · next h0 =>
                  refine ⟨_, .refl, by simp, ?_, ?_, ?_, ?_, fun h => (h h0).elim, rfl, rfl, rfl⟩
                  · simp only [upd_ne _ _ (by decide : Reg.rsp ≠ .rsi)]; exact sp2
                  · simp only [upd_ne _ _ (by decide : Reg.rbp ≠ .rsi)]
                  · simp only [upd_ne _ _ (by decide : Reg.rax ≠ .rsi)]; exact ax2
                  · simp only [upd_same]; exact dx2
                · next h0 =>
                  rw [if_neg h0] at a4
                  refine ⟨_, At.exec (m := { m2 with r := upd m2.r .rsi (m2.r .rdx), pc := m2.pc + 1 }) a4 rfl, rfl, ?_, ?_, ?_, ?_, fun h => ?_, rfl, rfl, rfl⟩
                  · simp only [upd_ne _ _ (by decide : Reg.rsp ≠ .rsi), upd_ne _ _ (by decide : Reg.rsp ≠ .rdi)]; exact sp2
                  · simp only [upd_ne _ _ (by decide : Reg.rbp ≠ .rsi), upd_ne _ _ (by decide : Reg.rbp ≠ .rdi)]
                  · simp only [upd_ne _ _ (by decide : Reg.rax ≠ .rsi), upd_ne _ _ (by decide : Reg.rax ≠ .rdi)]; exact ax2
                  · simp only [upd_ne _ _ (by decide : Reg.rsi ≠ .rdi), upd_same]; exact dx2
                  · simp only [upd_ne _ _ (by decide : Reg.rsp ≠ .rsi), upd_same]; rw [sp2, sp1]; omega
              have g4 : Go w C F G (m.r .rsp) s2 m m4 := g02.regs (t3.trans t4) mm4 bp4 bk4 ou4
              -- `call`
              have a5 := a4.right
              rw [show m2.pc + (([.mov .rsi .rdx] : Code).length : Int) + ((if msz ret = 0 then [] else [.lea .rdi .rsp (8 * ((sum tys + pad : Nat) : Int))] : Code).length : Int) = m4.pc from pc4.symm] at a5
              have al4 : m4.r .rsp % 16 = 0 := by
                have := hF.al; have := hs1.rsp; omega
              have t5 : Steps w C m4 { m4 with r := upd m4.r .rsp (m4.r .rsp - 8), mem := upd m4.mem (m4.r .rsp - 8) (m4.pc + 1), pc := m4.r .rax } :=
                At.exec a5 (by simp only [exec]; rw [if_pos al4])
              have neg := lo_neg hF hs
              have sy4 := g4.sync
              have rd1 : Spec.read m4.mem (m4.r .rsp) vs.reverse.flatten.length = vs.reverse.flatten := by
                rw [mm4, sp4]
                have dep := hs.dep; have rs := hs.rsp
                refine (read_congr fun x h1 h2 => ?_).trans os1.2
                have h3 : x < m.r .rsp := by omega
                exact g2.kept x (by omega) (by omega) (.inl (by omega))
              obtain ⟨m6, t6, sy6, pc6, sp6, bp6, len6, kp6, hd6⟩ := ih.app f hfm env vs s2 v s3
                { m4 with r := upd m4.r .rsp (m4.r .rsp - 8), mem := upd m4.mem (m4.r .rsp - 8) (m4.pc + 1), pc := m4.r .rax } (m.r .rsp - 8 * (msz ret : Int)) hap
                ⟨sy4.brk, sy4.out, fun x hx => by
                  show upd m4.mem _ _ x = _
                  rw [upd_ne _ _ (by omega)]; exact sy4.mem x hx, sy4.pos⟩
                (by show m4.r .rax = _; rw [ax4, hfa])
                (by simp only [upd_same]; omega)
                (by simp only [upd_same]; omega)
                (by rw [hret]; omega)
                (by
                  simp only [upd_same]
                  refine Eq.trans (read_congr fun x h1 h2 => ?_) (Eq.trans (by rw [show m4.r .rsp - 8 + 8 = m4.r .rsp by omega]) rd1)
                  rw [upd_ne _ _ (by omega)])
                (by simp only [upd_ne _ _ (by decide : Reg.rsi ≠ .rsp)]; exact si4)
                (by rw [hret]; simp only [upd_ne _ _ (by decide : Reg.rdi ≠ .rsp)]; exact di4)
              simp only [upd_same, upd_ne _ _ (by decide : Reg.rbp ≠ .rsp)] at pc6 sp6 bp6 kp6 hd6
              have g6 : Go w C F G (m.r .rsp) s3 m m6 := by
                refine ⟨(g4.steps.trans t5).trans t6, sy6, bp6.trans g4.rbp, fun x h1 h2 h3 => ?_⟩
                rw [kp6 x (by omega) h2 (.inr (by rw [hret]; omega)), upd_ne _ _ (by omega)]
                exact g4.kept x h1 h2 h3
              have a6 := a5.right; rw [show m4.pc + (([.callr] : Code).length : Int) = m6.pc from pc6.symm] at a6
              obtain ⟨m7, t7, pc7, rsp7, rg7, mm7, bk7, ou7⟩ := shrink_run (w := w) a6
              refine ⟨m7, g6.regs t7 mm7 (rg7 _ (by decide)) bk7 ou7, ?_, ?_, ?_⟩
              · rw [len6, hret]
              · rw [pc7, pc6, pc4, pc2, pc1, pc0]
                simp only [List.length_append, List.length_cons, List.length_nil]; omega
              · rw [hret] at hd6 len6
                by_cases h0 : msz ret = 0
                · rw [if_pos h0] at hd6
                  exact held_move hd6 (by rw [len6]; exact h0) (by rw [rsp7, sp6]; omega) (rg7 _ (by decide)) (rg7 _ (by decide))
                · rw [if_neg h0] at hd6
                  have h2 : 2 < ret ∧ msz ret = ret := by
                    unfold msz at h0 ⊢
                    split at h0
                    · exact (h0 rfl).elim
                    · next h => rw [if_neg h]; omega
                  refine (held_mem (by rw [len6]; exact h2.1)).2 ⟨?_, ?_⟩
                  · rw [rsp7, sp6, len6]; omega
                  · rw [mm7, len6, rsp7, sp6, show m4.r .rsp - 8 + 8 + 8 * ((sum tys + pad : Nat) : Int) = m.r .rsp - 8 * (msz ret : Int) by omega]; exact hd6
            · cases he
          · cases he
        · cases he; exact ⟨m2, g02, p2⟩
        · cases he; exact ⟨m2, g02, p2⟩
      · cases hc

theorem ones {vs : List (List Int)} (h : vs.map List.length = List.replicate (vs.map List.length).length 1) : ∃ xs : List Int, vs = xs.map fun x => [x] := by
  induction vs with
  | nil => exact ⟨[], rfl⟩
  | cons v vs ih =>
    simp only [List.map_cons, List.length_cons, List.replicate_succ, List.cons.injEq] at h
    obtain ⟨xs, rfl⟩ := ih h.2
    rcases v with _ | ⟨x, _ | ⟨_, _⟩⟩
    · simp at h
    · exact ⟨x :: xs, rfl⟩
    · simp at h

theorem flatten_ones (xs : List Int) : (xs.map fun x => [x]).flatten = xs := by
  induction xs with
  | nil => rfl
  | cons x xs ih => rw [List.map_cons, List.flatten_cons, ih]; rfl

theorem flatten_ones_rev (xs : List Int) : (xs.map fun x => [x]).reverse.flatten = xs.reverse := by
  rw [← List.map_reverse, flatten_ones]

/-- What is left of a call of a C function when its arguments are on the stack. -/
theorem ext_run {F : Fr} {G ρ s s1 m m1 sym ret c pad} {d : Nat} {xs : List Int} (P : Prog fx w C E) (hF : F.OK) (hs : Sit F G ρ s m d) (hpad : d % 2 = pad) (g : Go w C F G (m.r .rsp) s1 m m1) (hn : xs.length ≤ 6) (hret : ret ≤ 2)
    (rs : List Reg) (ys : List Int) (hrs : rs = (order fx (cRegs.take xs.length)).reverse) (hys : ys = if fx then xs.reverse else xs)
    (os : OnStack m1 (m.r .rsp - 8 * (pad : Int)) ys) (ha : At C m1.pc (rs.map .pop ++ ([.ext sym xs.length ret] ++ (shrink pad ++ c)))) :
    ∃ m', Go w C F G (m.r .rsp) { s1 with out := s1.out ++ [(sym, xs)] } m m' ∧ m'.pc = m1.pc + ((rs.map .pop ++ ([.ext sym xs.length ret] ++ shrink pad) : Code).length : Int) ∧
      Held m' (m.r .rsp) ([(E.ext s1.out sym xs).1, (E.ext s1.out sym xs).2].take ret) := by
  have nd : ∀ n ≤ 6, (cRegs.take n).Nodup ∧ Reg.rsp ∉ cRegs.take n ∧ Reg.rbp ∉ cRegs.take n ∧ (cRegs.take n).length = n := by decide
  obtain ⟨n1, n2, n3, n4⟩ := nd _ hn
  have ly : ys.length = xs.length := by rw [hys]; split <;> simp
  have hr : rs.Nodup ∧ Reg.rsp ∉ rs ∧ Reg.rbp ∉ rs ∧ rs.length = xs.length := by
    rw [hrs]; unfold order
    split
    · exact ⟨(List.reverse_perm _).nodup_iff.2 n1, by simpa using n2, by simpa using n3, by simpa using n4⟩
    · rw [List.reverse_reverse]; exact ⟨n1, n2, n3, n4⟩
  obtain ⟨os1, os2⟩ := os
  obtain ⟨m2, t2, pc2, sp2, mm2, bk2, ou2, rg2, ot2⟩ := pops_run (w := w) (C := C) rs (m := m1) (vs := ys) hr.1 hr.2.1 hr.2.2.1 ha.left (by rw [hr.2.2.2, ← ly]; exact os2)
  have g2 := g.regs t2 mm2 (ot2 _ hr.2.2.1 (by decide)) bk2 ou2
  have regs : (sysV.take xs.length).map m2.r = xs := by
    rw [show sysV = cRegs from rfl]
    rw [hrs, hys] at rg2; unfold order at rg2
    split at rg2
    · rw [List.map_reverse] at rg2; exact List.reverse_inj.1 rg2
    · rw [List.reverse_reverse] at rg2; exact rg2
  have a2 := ha.right
  rw [List.length_map, ← pc2] at a2
  have sp2' : m2.r .rsp = m.r .rsp - 8 * (pad : Int) := by rw [sp2, os1, hr.2.2.2, ly]; omega
  have al : m2.r .rsp % 16 = 0 := by have := hF.al; have := hs.rsp; omega
  have t3 : Steps w C m2 { m2 with r := clobber w m2 (w.ext m2.out sym xs).1 (w.ext m2.out sym xs).2, out := m2.out ++ [(sym, xs)], pc := m2.pc + 1 } := by
    refine At.exec a2 ?_
    simp only [exec]; rw [if_pos al, regs]
  have sy := g2.sync
  have g3 : Go w C F G (m.r .rsp) { s1 with out := s1.out ++ [(sym, xs)] } m { m2 with r := clobber w m2 (w.ext m2.out sym xs).1 (w.ext m2.out sym xs).2, out := m2.out ++ [(sym, xs)], pc := m2.pc + 1 } :=
    ⟨g2.steps.trans t3, ⟨sy.brk, by show m2.out ++ _ = _; rw [sy.out], sy.mem, sy.pos⟩, g2.rbp, g2.kept⟩
  obtain ⟨m4, t4, pc4, sp4, rg4, mm4, bk4, ou4⟩ := shrink_run (w := w) (m := { m2 with r := clobber w m2 (w.ext m2.out sym xs).1 (w.ext m2.out sym xs).2, out := m2.out ++ [(sym, xs)], pc := m2.pc + 1 }) a2.right.left
  have sp4' : m4.r .rsp = m.r .rsp := by
    rw [sp4]; show m2.r .rsp + _ = _; rw [sp2']; omega
  refine ⟨m4, g3.regs t4 mm4 (rg4 _ (by decide)) bk4 ou4, ?_, ?_⟩
  · rw [pc4]; simp only [pc2, List.length_append, List.length_map, List.length_cons, List.length_nil]; omega
  · have ax : m4.r .rax = (E.ext s1.out sym xs).1 := by rw [rg4 _ (by decide), P.ext, ← sy.out]; rfl
    have dx : m4.r .rdx = (E.ext s1.out sym xs).2 := by rw [rg4 _ (by decide), P.ext, ← sy.out]; rfl
    rcases ret with _ | _ | _ | n
    · exact sp4'
    · exact ⟨sp4', ax⟩
    · exact ⟨sp4', ax, dx⟩
    · omega

theorem sim_ccall (P : Prog fx w C E) (ih : Sim fx w C E k) (sym ret : Nat) (es : Rts) : SimAt fx w C E (k + 1) (.ccall sym ret es) := by
  si
  rw [eval] at he; rw [comp] at hc
  have tes : fx = false → TameL es := fun h => (ht h).2
  have rmes := hr.sub (Q' := ReachAny (skels es)) (nj' := noJumpL es) (fun X hX => .node hX) (fun h => h)
  rw [if_neg (by rw [hx]; exact fun h => (ht h.1).1 h.2)] at hc
  eb he r1 s1 he1
  generalize hpad : st.depth % 2 = pad at hc
  ob hc c1 l1 st1 hc1
  have a1 : ∃ t, c = extend pad ++ (c1 ++ t) := by
    cases l1 with
    | none => cases hc; exact ⟨[], by simp⟩
    | some ns =>
      dsimp only at hc
      split at hc
      · cases hc; exact ⟨_, by simp only [List.append_assoc]; rfl⟩
      · cases hc
  obtain ⟨t, rfl⟩ := a1
  obtain ⟨m0, st0, pc0, rsp0, rg0, mm0, bk0, ou0⟩ := extend_run (w := w) ha.left
  have g0 := (Go.refl (w := w) (C := C) (G := G) (lo := m.r .rsp) hs.sync hs.rbp).regs st0 mm0 (rg0 _ (by decide)) bk0 ou0
  have a1 := ha.right; rw [← pc0] at a1
  have hs0 : Sit F G ρ s m0 (st.depth + pad) := hs.next g0 (lo_le hs) (by rw [rsp0, hs.rsp]; omega) (by have := hs.dep; omega)
  have key : ∃ m1, Go w C F G (m0.r .rsp) s1 m0 m1 ∧
      (∀ vs, r1 = .ok vs → l1 = some (if fx then vs.map List.length else (vs.map List.length).reverse) ∧ m1.pc = m0.pc + c1.length ∧
        OnStack m1 (m0.r .rsp) (if fx then vs.reverse.flatten else vs.flatten)) ∧ (∀ r, r1 = .error r → Esc C F L K r m1) := by
    cases fx with
    | true =>
      rw [if_pos hx] at hc1
      rw [P.rtl] at he1
      obtain ⟨m1, g1, p1⟩ := ih.args es F K ρ s r1 s1 L _ c1 l1 st1 G m0 hF hx he1 hc1 tes hf rmes hs0 a1.left
      exact ⟨m1, g1, fun vs h => by subst h; exact p1, fun r h => by subst h; exact p1⟩
    | false =>
      rw [if_neg (by rw [hx]; decide)] at hc1
      rw [P.rtl] at he1
      obtain ⟨m1, g1, p1⟩ := ih.argsR es F K ρ s r1 s1 L _ c1 l1 st1 G m0 hF hx he1 hc1 tes hf rmes hs0 a1.left
      exact ⟨m1, g1, fun vs h => by subst h; exact p1, fun r h => by subst h; exact p1⟩
  obtain ⟨m1, g1, p1, p2⟩ := key
  have g01 := g0.trans g1 (by omega)
  cases r1 with
  | error r => cases he; exact ⟨m1, g01, (p2 _ rfl).post⟩
  | ok vs =>
    obtain ⟨hl1, pc1, os1⟩ := p1 _ rfl
    generalize hns : (if fx then vs.map List.length else (vs.map List.length).reverse) = ns at hl1
    subst hl1
    dsimp only at he hc
    cases he
    split at hc
    · next hn =>
      simp only [Option.some.injEq, Prod.mk.injEq, List.append_assoc, List.append_cancel_left_eq] at hc
      obtain ⟨rfl, rfl, rfl⟩ := hc
      obtain ⟨h1, h2, h3⟩ := hn
      have hv : ∃ xs : List Int, vs = xs.map fun x => [x] := by
        apply ones
        cases fx with
        | true => rw [← hns] at h2; exact h2
        | false =>
          rw [← hns] at h2
          simp only [Bool.false_eq_true, if_false] at h2
          have := congrArg List.reverse h2
          rwa [List.reverse_reverse, List.reverse_replicate, List.length_reverse] at this
      obtain ⟨xs, rfl⟩ := hv
      have ln : ns.length = xs.length := by rw [← hns]; split <;> simp
      rw [ln] at h1 a1 ⊢
      rw [flatten_ones, flatten_ones_rev, rsp0] at os1
      rw [flatten_ones]
      have a2 := a1.right; rw [← pc1, hx] at a2
      obtain ⟨m2, g2, pc2, hd2⟩ := ext_run (c := []) P hF hs hpad g01 h1 h3 _ _ rfl rfl os1 (by rw [List.append_nil]; exact a2)
      refine ⟨m2, g2, ?_, ?_, hd2⟩
      · rcases ret with _ | _ | _ | n
        · rfl
        · rfl
        · rfl
        · omega
      · rw [pc2, pc1, pc0, hx]
        simp only [List.length_append]; omega
    · cases hc

end Verif.Codegen
