import Verif.Codegen.Sim

/-!
# Several expressions
-/
namespace Verif.Codegen
open Spec
open StackFrame.Spec (Reach ReachAny ReachVars ReachConts HasCont Apart Disjoint)
open StackFrame (slot)
open Verif (HMap)

variable {fx : Bool} {w : World} {C : Code} {E : Env} {k : Nat}

/-- A `return` or jump passes through. -/
theorem Esc.post {F L K lo pc l r m} (h : Esc C F L K r m) : Post C F L K lo pc l r m := by
  rcases r with v | v | ⟨j, vs⟩
  · exact h.elim
  · exact h
  · exact h

theorem sim_seqs (ih : Sim fx w C E k) (es : Rts) : SimSeq fx w C E (k + 1) es := by
  si
  cases es with
  | nil =>
    rw [evals] at he; rw [compSeq] at hc; cases he; cases hc
    exact ⟨m, .refl hs.sync hs.rbp, rfl, by simp, rfl⟩
  | cons e es =>
    rw [evals] at he; rw [compSeq] at hc
    eb he r1 s1 he1
    ob hc c1 l1 st1 hc1
    have te : fx = false → Tame e := fun h => (ht h).1
    have a1 : At C m.pc c1 := by
      cases l1 with
      | none => cases hc; exact ha
      | some n => dsimp only at hc; ob hc c2 l2 st2 hc2; cases hc; exact ha.left.left
    obtain ⟨m1, g1, p1⟩ := ih.e e F K ρ s r1 s1 L st c1 l1 st1 G m hF hx he1 hc1 te hf.1 (hr.sub (fun X hX => .head hX) (fun h => by simp [noJumpL, h])) hs a1
    rcases r1 with v | v | ⟨j, vs⟩
    · obtain ⟨rfl, pc1, hd1⟩ := p1
      have d1 := (fact e F.cx L st c1 _ st1 hc1).depth1 (fun e => te (hx.symm.trans e))
      dsimp only at hc
      ob hc c2 l2 st2 hc2
      eb he r2 s2 he2
      cases hc
      simp only [List.append_assoc] at ha
      have a2 := ha.right; rw [← pc1] at a2
      obtain ⟨m2, st2', pc2, rsp2, rg2, mm2, bk2, ou2⟩ := shrink_run (w := w) a2.left
      have g2 := g1.regs st2' mm2 (rg2 _ (by decide)) bk2 ou2
      have a3 := a2.right; rw [← pc2] at a3
      have e2 : m2.r .rsp = m.r .rsp := by rw [rsp2, hd1.rsp]; omega
      obtain ⟨m3, g3, p3⟩ := ih.seq es F K ρ s1 r2 s2 L _ c2 l st' G m2 hF hx he2 hc2 (fun h => (ht h).2) hf.2 (hr.sub (fun X hX => .tail hX) (fun h => by simp [noJumpL, h]))
        (hs.next g2 (lo_le hs) (by rw [e2, hs.rsp, d1]; simp) (by rw [d1]; simp [hs.dep])) a3
      have g := g2.trans g3 (by omega)
      rcases r2 with r2 | vs
      · cases he; exact ⟨m3, g, p3⟩
      · cases he
        obtain ⟨h1, h2, h3⟩ := p3
        refine ⟨m3, g, h1, ?_, h3.trans e2⟩
        rw [h2, pc2, pc1]; simp only [List.length_append]; omega
    · cases he; exact ⟨m1, g1, p1⟩
    · cases he; exact ⟨m1, g1, p1⟩

theorem sum_lengths (vs : List (List Int)) : sum (vs.map List.length) = vs.flatten.length := by
  induction vs with
  | nil => rfl
  | cons v vs ih => rw [List.map_cons, sum, ih, List.flatten_cons, List.length_append]

theorem flatten_rev_length (vs : List (List Int)) : vs.reverse.flatten.length = vs.flatten.length := by
  induction vs with
  | nil => rfl
  | cons v vs ih => simp only [List.reverse_cons, List.flatten_append, List.flatten_cons, List.flatten_nil, List.append_nil, List.length_append, ih]; omega

/-- One value on top of others. -/
theorem OnStack.push {F : Fr} {G lo s' m1 m2 r0 u v} (h1 : OnStack m1 r0 u) (h2 : OnStack m2 (m1.r .rsp) v) (g : Go w C F G lo s' m1 m2) (hl : lo ≤ m1.r .rsp)
    (hr : r0 ≤ F.B - 8 * (F.R : Int)) (h0 : r0 ≤ 0) : OnStack m2 r0 (v ++ u) := by
  refine ⟨by have := h1.1; have := h2.1; rw [List.length_append]; omega, ?_⟩
  rw [List.length_append, read_add, h2.2]
  congr 1
  have e : m2.r .rsp + 8 * (v.length : Int) = m1.r .rsp := by have := h2.1; omega
  rw [e]
  refine (read_congr fun a ha hb => ?_).trans h1.2
  have := h1.1
  exact g.kept a (by omega) (by omega) (.inl (by omega))

theorem sim_args (ih : Sim fx w C E k) (es : Rts) : SimArgs fx w C E (k + 1) es := by
  si
  cases es with
  | nil =>
    rw [evals] at he; rw [compArgs] at hc; cases he; cases hc
    exact ⟨m, .refl hs.sync hs.rbp, rfl, by simp, by simp [OnStack], rfl⟩
  | cons e es =>
    rw [evals] at he; rw [compArgs] at hc
    eb he r1 s1 he1
    ob hc c1 l1 st1 hc1
    have te : fx = false → Tame e := fun h => (ht h).1
    have a1 : At C m.pc c1 := by
      cases l1 with
      | none => cases hc; exact ha
      | some n => dsimp only at hc; ob hc c2 l2 st2 hc2; cases hc; exact ha.left.left
    obtain ⟨m1, g1, p1⟩ := ih.e e F K ρ s r1 s1 L st c1 l1 st1 G m hF hx he1 hc1 te hf.1 (hr.sub (fun X hX => .head hX) (fun h => by simp [noJumpL, h])) hs a1
    rcases r1 with v | v | ⟨j, vs⟩
    · obtain ⟨rfl, pc1, hd1⟩ := p1
      have d1 := (fact e F.cx L st c1 _ st1 hc1).depth1 (fun e => te (hx.symm.trans e))
      dsimp only at hc
      ob hc c2 l2 st2 hc2
      eb he r2 s2 he2
      cases hc
      simp only [List.append_assoc] at ha
      have a2 := ha.right; rw [← pc1] at a2
      obtain ⟨m2, st2', pc2, os2, kp2, -⟩ := push_run (w := w) a2.left hd1
      have g2 := g1.keep st2' kp2 (Int.le_refl _) (lo_neg hF hs)
      have a3 := a2.right; rw [← pc2] at a3
      have r2' : m2.r .rsp = F.B - 8 * ((st1.depth + rsz v.length : Nat) : Int) := by
        have := os2.1; have := hs.rsp; have := msz_add_rsz v.length; omega
      obtain ⟨m3, g3, p3⟩ := ih.args es F K ρ s1 r2 s2 L _ c2 l2 st' G m2 hF hx he2 hc2 (fun h => (ht h).2) hf.2 (hr.sub (fun X hX => .tail hX) (fun h => by simp [noJumpL, h]))
        (hs.next g2 (lo_le hs) r2' (show F.R ≤ st1.depth + rsz v.length by have := hs.dep; omega)) a3
      have lo2 : m2.r .rsp ≤ m.r .rsp := by have := os2.1; omega
      have g := g2.trans g3 lo2
      rcases r2 with r2 | vs
      · cases he; exact ⟨m3, g, p3⟩
      · cases he
        obtain ⟨h1, h2, h3⟩ := p3
        refine ⟨m3, g, by rw [h1]; rfl, ?_, ?_⟩
        · rw [h2, pc2, pc1]; simp only [List.length_append]; omega
        · rw [List.reverse_cons, List.flatten_append, List.flatten_cons, List.flatten_nil, List.append_nil]
          exact os2.push h3 g3 (Int.le_refl _) (lo_le hs) (lo_neg hF hs)
    · cases he; exact ⟨m1, g1, p1⟩
    · cases he; exact ⟨m1, g1, p1⟩

theorem sim_argsR (ih : Sim fx w C E k) (es : Rts) : SimArgsR fx w C E (k + 1) es := by
  si
  cases es with
  | nil =>
    rw [evalsR] at he; rw [compArgsR] at hc; cases he; cases hc
    exact ⟨m, .refl hs.sync hs.rbp, rfl, by simp, by simp [OnStack], rfl⟩
  | cons e es =>
    rw [evalsR] at he; rw [compArgsR] at hc
    eb he r1 s1 he1
    ob hc c1 l1 st1 hc1
    have te : fx = false → Tame e := fun h => (ht h).1
    have a1 : At C m.pc c1 := by
      cases l1 with
      | none => cases hc; exact ha
      | some n =>
        dsimp only at hc; ob hc c2 l2 st2 hc2
        cases l2 with
        | none => cases hc; exact ha.left
        | some => cases hc; exact ha.left.left
    obtain ⟨m1, g1, p1⟩ := ih.argsR es F K ρ s r1 s1 L st c1 l1 st1 G m hF hx he1 hc1 (fun h => (ht h).2) hf.2 (hr.sub (fun X hX => .tail hX) (fun h => by simp [noJumpL, h])) hs a1
    rcases r1 with r1 | vs
    · cases he; exact ⟨m1, g1, p1⟩
    · obtain ⟨rfl, pc1, os1⟩ := p1
      have d1 := (factArgsR es F.cx L st c1 _ st1 hc1).depth (fun e => (ht (hx.symm.trans e)).2) rfl
      have sr : sum (vs.map List.length).reverse = vs.flatten.length := by
        rw [← List.map_reverse, sum_lengths, flatten_rev_length]
      simp only [Option.elim, sr] at d1
      dsimp only at hc
      ob hc c2 l2 st2 hc2
      eb he r2 s2 he2
      have a2 : At C m1.pc c2 := by
        rw [pc1]
        cases l2 with
        | none => cases hc; exact ha.right
        | some => cases hc; exact ha.left.right
      have r1' : m1.r .rsp = F.B - 8 * (st1.depth : Int) := by have := os1.1; have := hs.rsp; omega
      obtain ⟨m2, g2, p2⟩ := ih.e e F K ρ s1 r2 s2 L st1 c2 l2 st2 G m1 hF hx he2 hc2 te hf.1 (hr.sub (fun X hX => .head hX) (fun h => by simp [noJumpL, h]))
        (hs.next g1 (lo_le hs) r1' (by have := hs.dep; omega)) a2
      have lo1 : m1.r .rsp ≤ m.r .rsp := by have := os1.1; omega
      have g := g1.trans g2 lo1
      rcases r2 with v | v | ⟨j, vs⟩
      · obtain ⟨rfl, pc2, hd2⟩ := p2
        cases he; cases hc
        have a3 : At C m2.pc (pushV v.length) := by
          have := ha.right; rw [List.length_append] at this
          rw [show m2.pc = m.pc + ((c1.length + c2.length : Nat) : Int) by rw [pc2, pc1]; omega]; exact this
        obtain ⟨m3, st3, pc3, os3, kp3, -⟩ := push_run (w := w) a3 hd2
        have h0 := lo_neg hF hs
        have g3 := g2.keep st3 kp3 (Int.le_refl _) (by omega)
        refine ⟨m3, g1.trans g3 lo1, by simp, ?_, os1.push os3 g3 (Int.le_refl _) (lo_le hs) h0⟩
        rw [pc3, pc2, pc1]; simp only [List.length_append]; omega
      · cases he; exact ⟨m2, g, p2⟩
      · cases he; exact ⟨m2, g, p2⟩

/-! ### Storing in slots -/

theorem slot_eq {m : HMap Nat Int} {x : Binder} {o : Int} (h : HMap.get m x.1 = some o) : slot m x = (o, x.2) := by
  unfold slot StackFrame.off; rw [h]; rfl

theorem Fits.safe {F : Fr} {G r Y} (h : Fits F G (r :: Y)) {a : Int} (h1 : F.B + r.1 ≤ a) (h2 : a < F.B + r.1 + 8 * (r.2 : Int)) (hs : Safe F G a) : False := by
  have l := h.lo r (by simp); have i := h.hi r (by simp)
  rcases hs with hs | hs | ⟨q, hq, h3, h4⟩
  · omega
  · omega
  · have := (List.pairwise_append.1 h.disj).2.2 q hq r (by simp)
    unfold Apart at this; omega

theorem Fits.drop {F : Fr} {G Y Z} (h : Fits F G (Z ++ Y)) : Fits F G Y :=
  ⟨h.disj.sublist ((List.sublist_append_right Z Y).append_left G), fun r hr => h.lo r (by simp [hr]), fun r hr => h.hi r (by simp [hr])⟩

theorem Fits.move {F : Fr} {G Y Z} (h : Fits F G (Z ++ Y)) : Fits F (Z ++ G) Y := by
  refine ⟨?_, fun r hr => h.lo r (by simp [hr]), fun r hr => h.hi r (by simp [hr])⟩
  have := h.disj
  rw [← List.append_assoc] at this
  exact ((List.perm_append_comm.append_right Y).pairwise_iff fun {_ _} h => Or.symm h).1 this

theorem GOK.cons {F : Fr} {G r Y} (h : GOK F G) (hf : Fits F G (r :: Y)) (hF : F.OK) : GOK F (r :: G) := by
  intro q hq
  rcases List.mem_cons.1 hq with rfl | hq
  · have := hf.lo q (by simp); have := hf.hi q (by simp); have := hF.neg; omega
  · exact h q hq

theorem EnvOK.bind {F : Fr} {G ρ m x o v} (h : EnvOK F G ρ m) (ho : HMap.get F.cx.off x = some o) (hv : Spec.read m.mem (F.B + o) v.length = v) :
    EnvOK F ((o, v.length) :: G) (bind ρ x v) m := by
  intro y hy
  unfold Spec.bind at hy ⊢
  by_cases e : y = x
  · subst e; simp only [if_true]
    exact ⟨o, ho, by simp, hv⟩
  · simp only [e, if_false] at hy ⊢
    obtain ⟨o', h1, h2, h3⟩ := h y hy
    exact ⟨o', h1, by simp [h2], h3⟩

theorem EnvOK.mono {F : Fr} {G G' ρ m} (h : EnvOK F G ρ m) (hg : ∀ r ∈ G, r ∈ G') : EnvOK F G' ρ m := by
  intro y hy
  obtain ⟨o', h1, h2, h3⟩ := h y hy
  exact ⟨o', h1, hg _ h2, h3⟩

/-- Store the last value in a slot. -/
theorem store_slot {F : Fr} {G Y lo s1 m m1 r0 v o} (g : Go w C F G lo s1 m m1) (hF : F.OK) (ha : At C m1.pc (storeV .rbp o v.length)) (hd : Held m1 r0 v)
    (hf : Fits F G ((o, v.length) :: Y)) (hr : r0 ≤ F.B - 8 * (F.R : Int)) :
    ∃ m2, Go w C F G lo s1 m m2 ∧ m2.pc = m1.pc + (storeV .rbp o v.length).length ∧ m2.r .rsp = r0 ∧ Spec.read m2.mem (F.B + o) v.length = v := by
  have l := hf.lo _ (List.mem_cons_self ..); have i := hf.hi _ (List.mem_cons_self ..)
  simp only at l i
  obtain ⟨m2, st2, pc2, rsp2, mm2, bp2, bk2, ou2, -⟩ := store_run (w := w) (by decide) (by decide) ha hd (by rw [g.rbp]; omega)
  rw [g.rbp] at mm2
  refine ⟨m2, g.stack st2 mm2 bp2 bk2 ou2 (by have := hF.neg; omega) (fun a _ h1 h2 h3 => hf.safe h1 h2 h3), pc2, rsp2, ?_⟩
  rw [mm2]; exact read_write _ _ _

theorem sim_stores (ih : Sim fx w C E k) (es : Rts) : SimStores fx w C E (k + 1) es := by
  intro ps
  intro F K ρ s res s' L st c l st' G m hF hx he hc ht hf hn hr hs ha
  cases es with
  | nil =>
    rw [evals] at he; cases he
    cases ps with
    | nil => rw [compStores] at hc; cases hc; exact ⟨m, .refl hs.sync hs.rbp, rfl, by simp, rfl, trivial⟩
    | cons => simp [compStores] at hc
  | cons e es =>
    cases ps with
    | nil => simp [compStores] at hc
    | cons p ps =>
    rw [evals] at he; rw [compStores] at hc
    simp only [noJumpL, Bool.and_eq_true] at hn
    eb he r1 s1 he1
    ob hc c1 l1 st1 hc1
    have te : fx = false → Tame e := fun h => (ht h).1
    have a1 : At C m.pc c1 := by
      cases l1 with
      | none => cases hc; exact ha
      | some n =>
        dsimp only at hc; split at hc
        · simp only [Option.bind_eq_bind, Option.bind_eq_some_iff] at hc
          obtain ⟨o, ho, hc⟩ := hc
          ob hc c2 l2 st2 hc2; cases hc; exact ha.left.left
        · cases hc
    have rm : Room F L K G (Reach (skel e)) (noJump e) := ⟨fun X hX => (hr X (.inl (.head hX))).drop, fun h => by rw [hn.1] at h; cases h⟩
    obtain ⟨m1, g1, p1⟩ := ih.e e F K ρ s r1 s1 L st c1 l1 st1 G m hF hx he1 hc1 te hf.1 rm hs a1
    rcases r1 with v | v | ⟨j, vs⟩
    · obtain ⟨rfl, pc1, hd1⟩ := p1
      have d1 := (fact e F.cx L st c1 _ st1 hc1).depth1 (fun e => te (hx.symm.trans e))
      dsimp only at hc
      split at hc
      · next hsz =>
        simp only [Option.bind_eq_bind, Option.bind_eq_some_iff] at hc
        obtain ⟨o, ho, hc⟩ := hc
        ob hc c2 l2 st2 hc2
        eb he r2 s2 he2
        cases hc
        simp only [List.append_assoc] at ha
        have a2 := ha.right; rw [← pc1] at a2
        have fit : ∀ X, ReachAny (skels es) X ∨ X = [] → Fits F G ((o, v.length) :: (ps.map (slot F.cx.off) ++ X.map (slot F.cx.off))) := by
          intro X hX
          have := hr X (hX.imp (fun h => .tail h) (fun h => h))
          rw [List.map_cons, slot_eq ho, ← hsz] at this
          exact this
        obtain ⟨m2, g2, pc2, rsp2, rd2⟩ := store_slot g1 hF a2.left hd1 (fit [] (.inr rfl)) (lo_le hs)
        have a3 := a2.right; rw [← pc2] at a3
        have hs2 : Sit F ((o, v.length) :: G) ρ s1 m2 (st1.depth - msz v.length) := by
          have := hs.next (d1 := st1.depth - msz v.length) g2 (lo_le hs) (by rw [rsp2, hs.rsp, d1]; simp) (by rw [d1]; simp [hs.dep])
          exact ⟨this.rbp, this.rsp, this.dep, this.sync, this.env.mono (fun r hr => by simp [hr]), this.gok.cons (fit [] (.inr rfl)) hF⟩
        obtain ⟨m3, g3, p3⟩ := ih.stores es ps F K ρ s1 r2 s2 L _ c2 l st' ((o, v.length) :: G) m2 hF hx he2 hc2 (fun h => (ht h).2) hf.2 hn.2
          (fun X hX => (fit X hX).move (Z := [(o, v.length)])) hs2 a3
        have g := g2.trans (g3.sub (G := G) (fun r hr => by simp [hr])) (by omega)
        rcases r2 with r2 | vs
        · cases he; exact ⟨m3, g, p3⟩
        · cases he
          obtain ⟨h1, h2, h3, h4⟩ := p3
          refine ⟨m3, g, h1, ?_, h3.trans rsp2, hsz, fun _ => ⟨o, ho, ?_⟩, h4⟩
          · rw [h2, pc2, pc1]; simp only [List.length_append]; omega
          · have := hs2.gok (o, v.length) (by simp)
            have l2 := lo_le hs2
            refine (read_congr fun a i j => g3.kept a (by simp only at this; omega) (by simp only at this; omega) (.inr (.inr ⟨(o, v.length), by simp, i, j⟩))).trans rd2
      · cases hc
    · cases he; exact ⟨m1, g1, p1⟩
    · cases he; exact ⟨m1, g1, p1⟩

theorem sim_struct (ih : Sim fx w C E k) (es : Rts) : SimStruct fx w C E (k + 1) es := by
  intro tys o
  intro F K ρ s res s' L st c l st' G m hF hx he hc ht hf hr hs ha hd
  cases es with
  | nil =>
    rw [evals] at he; cases he
    cases tys with
    | nil => rw [compStruct] at hc; cases hc; exact ⟨m, .refl hs.sync hs.rbp, rfl, by simp, rfl, rfl, fun _ _ _ => rfl, rfl⟩
    | cons => simp [compStruct] at hc
  | cons e es =>
    cases tys with
    | nil => simp [compStruct] at hc
    | cons t tys =>
    rw [evals] at he; rw [compStruct] at hc
    eb he r1 s1 he1
    ob hc c1 l1 st1 hc1
    have te : fx = false → Tame e := fun h => (ht h).1
    have a1 : At C m.pc c1 := by
      cases l1 with
      | none => cases hc; exact ha
      | some n =>
        dsimp only at hc; split at hc
        · ob hc c2 l2 st2 hc2; cases hc; exact ha.left.left.left
        · cases hc
    obtain ⟨m1, g1, p1⟩ := ih.e e F K ρ s r1 s1 L st c1 l1 st1 G m hF hx he1 hc1 te hf.1 (hr.sub (fun X hX => .head hX) (fun h => by simp [noJumpL, h])) hs a1
    have hle : m.r .rsp ≤ m.r .rsp + 8 * ((o + sum (t :: tys) : Nat) : Int) := by omega
    rcases r1 with v | v | ⟨j, vs⟩
    · obtain ⟨rfl, pc1, hd1⟩ := p1
      have d1 := (fact e F.cx L st c1 _ st1 hc1).depth1 (fun e => te (hx.symm.trans e))
      dsimp only at hc
      split at hc
      · next hsz =>
        subst hsz
        ob hc c2 l2 st2 hc2
        eb he r2 s2 he2
        cases hc
        simp only [List.append_assoc] at ha
        rw [sum] at hd hle ⊢
        have a2 := ha.right; rw [← pc1] at a2
        have hsp := hd1.rsp
        have g2 := g1.regs (m2 := { m1 with r := upd m1.r .rdi (m1.r .rsp + 8 * ((o + msz v.length : Nat) : Int)), pc := m1.pc + 1 }) (At.exec a2 rfl) rfl (by simp [upd]) rfl rfl
        have hd2 : Held { m1 with r := upd m1.r .rdi (m1.r .rsp + 8 * ((o + msz v.length : Nat) : Int)), pc := m1.pc + 1 } (m.r .rsp) v := by
          rcases v with _ | ⟨x, _ | ⟨y, _ | ⟨z, v⟩⟩⟩
          · simpa [Held, upd] using hd1
          · simpa [Held, upd] using hd1
          · simpa [Held, upd] using hd1
          · simpa [Held, upd] using hd1
        have e2 : upd m1.r .rdi (m1.r .rsp + 8 * ((o + msz v.length : Nat) : Int)) .rdi = m.r .rsp + 8 * (o : Int) := by rw [upd_same, hsp]; omega
        obtain ⟨m3, st3, pc3, rsp3, mm3, bp3, bk3, ou3, -⟩ := store_run (w := w) (b := .rdi) (o := 0) (m := { m1 with r := upd m1.r .rdi (m1.r .rsp + 8 * ((o + msz v.length : Nat) : Int)), pc := m1.pc + 1 })
          (by decide) (by decide) a2.right.left hd2 (by simp only [e2]; omega)
        simp only [e2, Int.add_zero] at mm3
        have hB := hF.neg
        have hsr := hs.rsp
        have g3 := (g2.lo (lo := m.r .rsp + 8 * ((o + (v.length + sum tys) : Nat) : Int)) hle).stack st3 mm3 bp3 bk3 ou3 (by omega) (fun a h1 _ h2 _ => by omega)
        -- nothing else on the stack is touched
        have k3 : ∀ a, m.r .rsp ≤ a → a < m.r .rsp + 8 * (o : Int) → m3.mem a = m.mem a := by
          intro a h1 h2
          rw [mm3, write_out (by omega)]
          exact g1.kept a h1 (by omega) (.inl (by omega))
        have a3 := a2.right.right
        rw [show ([Instr.lea Reg.rdi Reg.rsp (8 * ((o + msz v.length : Nat) : Int))].length : Int) = 1 from rfl] at a3
        rw [← pc3] at a3
        have dd : st1.depth - msz v.length = st.depth := by omega
        have hs3 : Sit F G ρ s1 m3 (st1.depth - msz v.length) := by
          rw [dd]; exact hs.next g3 (by omega) (by rw [rsp3, hs.rsp]) hs.dep
        obtain ⟨m4, g4, p4⟩ := ih.struct es tys (o + v.length) F K ρ s1 r2 s2 L _ c2 l st' G m3 hF hx he2 hc2 (fun h => (ht h).2) hf.2 (hr.sub (fun X hX => .tail hX) (fun h => by simp [noJumpL, h])) hs3 a3 (by
          show F.R + (o + v.length + sum tys) ≤ st1.depth - msz v.length; omega)
        have g := g3.trans g4 (by omega)
        rcases r2 with r2 | vs
        · cases he; exact ⟨m4, g, p4⟩
        · cases he
          obtain ⟨h1, h2, h3, h4, h5, h6⟩ := p4
          refine ⟨m4, g, h1, ?_, h3.trans rsp3, ?_, fun a i j => ?_, ?_⟩
          · rw [h2, pc3]; simp only [List.length_append, List.length_cons, List.length_nil, pc1]; omega
          · rw [List.flatten_cons, List.length_append, h4]
          · rw [h5 a (by omega) (by omega)]; exact k3 a i j
          · rw [read_add, List.flatten_cons]
            congr 1
            · refine (read_congr fun a i j => h5 a (by omega) (by omega)).trans ?_
              rw [mm3]; exact read_write _ _ _
            · rw [← h6, rsp3]; congr 1; omega
      · cases hc
    · cases he; exact ⟨m1, g1.lo hle, p1⟩
    · cases he; exact ⟨m1, g1.lo hle, p1⟩

theorem held_rdi {m : M} {r0 v x pc} (h : Held m r0 v) : Held { m with r := upd m.r .rdi x, pc := pc } r0 v := by
  rcases v with _ | ⟨x, _ | ⟨y, _ | ⟨z, v⟩⟩⟩ <;> simpa [Held, upd] using h

theorem sim_env (ih : Sim fx w C E k) (es : Rts) : SimEnv fx w C E (k + 1) es := by
  intro p o
  intro F K ρ s res s' L st c l st' G m hF hx he hc ht hf hr hs ha hd hp hm
  cases es with
  | nil =>
    rw [evalEnv] at he; cases he
    rw [compEnv] at hc; cases hc; exact ⟨m, .refl hs.sync hs.rbp, rfl, by simp, rfl⟩
  | cons e es =>
    rw [evalEnv] at he; rw [compEnv] at hc
    eb he r1 s1 he1
    ob hc c1 l1 st1 hc1
    have te : fx = false → Tame e := fun h => (ht h).1
    have a1 : At C m.pc c1 := by
      cases l1 with
      | none => cases hc; exact ha
      | some n => dsimp only at hc; ob hc c2 l2 st2 hc2; cases hc; exact ha.left.left.left
    obtain ⟨m1, g1, p1⟩ := ih.e e F K ρ s r1 s1 L st c1 l1 st1 G m hF hx he1 hc1 te hf.1 (hr.sub (fun X hX => .head hX) (fun h => by simp [noJumpL, h])) hs a1
    rcases r1 with v | v | ⟨j, vs⟩
    · obtain ⟨rfl, pc1, hd1⟩ := p1
      have d1 := (fact e F.cx L st c1 _ st1 hc1).depth1 (fun e => te (hx.symm.trans e))
      dsimp only at hc
      ob hc c2 l2 st2 hc2
      cases hc
      simp only [List.append_assoc] at ha
      have a2 := ha.right; rw [← pc1] at a2
      have hsp := hd1.rsp
      have hsr := hs.rsp
      have hB := hF.neg
      have k1 : m1.mem (m.r .rsp) = p := by rw [g1.kept _ (Int.le_refl _) (by omega) (.inl (by omega)), hm]
      have g2 := g1.regs (m2 := { m1 with r := upd m1.r .rdi (m1.mem (m1.r .rsp + 8 * (msz v.length : Int))), pc := m1.pc + 1 }) (At.exec a2 rfl) rfl (by simp [upd]) rfl rfl
      have e2 : upd m1.r .rdi (m1.mem (m1.r .rsp + 8 * (msz v.length : Int))) .rdi = p := by
        rw [upd_same, hsp, show m.r .rsp - 8 * (msz v.length : Int) + 8 * (msz v.length : Int) = m.r .rsp by omega, k1]
      obtain ⟨m3, st3, pc3, rsp3, mm3, bp3, bk3, ou3, -⟩ := store_run (w := w) (b := .rdi) (m := { m1 with r := upd m1.r .rdi (m1.mem (m1.r .rsp + 8 * (msz v.length : Int))), pc := m1.pc + 1 })
        (by decide) (by decide) a2.right.left (held_rdi hd1) (by simp only [e2]; omega)
      simp only [e2] at mm3
      have g3 := g2.heap st3 mm3 bp3 bk3 ou3 (by omega)
      have a3 := a2.right.right
      rw [show ([Instr.ld Reg.rdi Reg.rsp (8 * (msz v.length : Int))].length : Int) = 1 from rfl] at a3
      rw [← pc3] at a3
      have dd : st1.depth - msz v.length = st.depth := by omega
      have hs3 : Sit F G ρ { s1 with heap := write s1.heap (p + 8 * (o : Int)) v } m3 (st1.depth - msz v.length) := by
        rw [dd]; exact hs.next g3 (by omega) (by rw [rsp3, hs.rsp]) hs.dep
      obtain ⟨m4, g4, p4⟩ := ih.env es p (o + v.length) F K ρ _ res s' L _ c2 l2 st' G m3 hF hx (by
          rw [show p + 8 * ((o + v.length : Nat) : Int) = p + 8 * (o : Int) + 8 * (v.length : Int) by omega]; exact he) hc2 (fun h => (ht h).2) hf.2
          (hr.sub (fun X hX => .tail hX) (fun h => by simp [noJumpL, h])) hs3 a3 (by show F.R + 1 ≤ st1.depth - msz v.length; omega) hp (by
          rw [rsp3, mm3, write_out (by omega)]; exact k1)
      have g := g3.trans g4 (by omega)
      rcases res with _ | r
      · obtain ⟨h1, h2, h3⟩ := p4
        refine ⟨m4, g, by rw [Option.isSome_map]; exact h1, ?_, h3.trans rsp3⟩
        rw [h2, pc3]; simp only [List.length_append, List.length_cons, List.length_nil, pc1]; omega
      · exact ⟨m4, g, p4⟩
    · cases he; exact ⟨m1, g1, p1⟩
    · cases he; exact ⟨m1, g1, p1⟩

theorem sim_vars (ih : Sim fx w C E k) (vs : Vars) : SimVars fx w C E (k + 1) vs := by
  intro body
  si
  cases vs with
  | nil =>
    rw [evalVars] at he; cases he
    rw [compVars] at hc; cases hc
    exact ⟨m, .refl hs.sync hs.rbp, rfl, by simp, G, fun _ h => h, hr.sub (fun X hX => .body hX) (fun h => by simp [h]), hs⟩
  | cons x e vs =>
    rw [evalVars] at he; rw [compVars] at hc
    eb he r1 s1 he1
    ob hc c1 l1 st1 hc1
    have te : fx = false → Tame e := fun h => (ht h).1
    have a1 : At C m.pc c1 := by
      cases l1 with
      | none => cases hc; exact ha
      | some n =>
        dsimp only at hc; split at hc
        · simp only [Option.bind_eq_bind, Option.bind_eq_some_iff] at hc
          obtain ⟨o, ho, hc⟩ := hc
          ob hc c2 l2 st2 hc2; cases hc; exact ha.left.left
        · cases hc
    have rm : Room F L K G (Reach (skel e)) (noJump e) := by
      refine ⟨fun X hX => ?_, fun h c hcK l ps d hl X hX => ?_⟩
      · have := hr.fits (x :: X) (.init hX)
        exact Fits.drop (Z := [slot F.cx.off x]) this
      · have := hr.conts (by simp [noJumpV, h]) c hcK l ps d hl (x :: X) (.init hX)
        refine ⟨this.disj.sublist ((List.Sublist.append_left (by simp) _).append_left G), fun r hr => this.lo r (by simp at hr ⊢; exact hr.imp_right .inr), fun r hr => this.hi r (by simp at hr ⊢; exact hr.imp_right .inr)⟩
    obtain ⟨m1, g1, p1⟩ := ih.e e F K ρ s r1 s1 L st c1 l1 st1 G m hF hx he1 hc1 te hf.1 rm hs a1
    rcases r1 with v | v | ⟨j, vs⟩
    · obtain ⟨rfl, pc1, hd1⟩ := p1
      have d1 := (fact e F.cx L st c1 _ st1 hc1).depth1 (fun e => te (hx.symm.trans e))
      dsimp only at hc he
      split at hc
      · next hsz =>
        rw [if_pos hsz] at he
        simp only [Option.bind_eq_bind, Option.bind_eq_some_iff] at hc
        obtain ⟨o, ho, hc⟩ := hc
        ob hc c2 l2 st2 hc2
        cases hc
        simp only [List.append_assoc] at ha
        have a2 := ha.right; rw [← pc1] at a2
        have sl : slot F.cx.off x = (o, v.length) := by rw [slot_eq ho, hsz]
        have fit0 : Fits F G ((o, v.length) :: []) := by
          have := hr.fits (x :: []) (.init .here)
          rw [List.map_cons, sl] at this; exact this
        obtain ⟨m2, g2, pc2, rsp2, rd2⟩ := store_slot g1 hF a2.left hd1 fit0 (lo_le hs)
        have a3 := a2.right; rw [← pc2] at a3
        have dd : st1.depth - msz v.length = st.depth := by omega
        have hs2 : Sit F ((o, v.length) :: G) (bind ρ x.1 v) s1 m2 (st1.depth - msz v.length) := by
          have := hs.next g2 (lo_le hs) (by rw [rsp2, hs.rsp]) hs.dep
          rw [dd]
          exact ⟨this.rbp, this.rsp, this.dep, this.sync, this.env.bind ho rd2, this.gok.cons fit0 hF⟩
        have rm2 : Room F L K ((o, v.length) :: G) (ReachVars (skelV vs) (skel body)) (noJumpV vs && noJump body) := by
          refine ⟨fun X hX => ?_, fun h c hcK l ps d hl X hX => ?_⟩
          · have := hr.fits (x :: X) (.next hX)
            rw [List.map_cons, sl] at this
            exact Fits.move (Z := [(o, v.length)]) this
          · have := hr.conts (by simp [noJumpV]; simp at h; intro _; exact h) c hcK l ps d hl (x :: X) (.next hX)
            rw [List.map_cons, sl] at this
            have pm : (ps.map (slot F.cx.off) ++ (o, v.length) :: X.map (slot F.cx.off)).Perm ((o, v.length) :: (ps.map (slot F.cx.off) ++ X.map (slot F.cx.off))) := List.perm_middle
            exact Fits.move (Z := [(o, v.length)]) ⟨(List.Perm.pairwise_iff (fun {_ _} h => Or.symm h) (pm.append_left G)).1 this.disj, fun r hr => this.lo r (pm.mem_iff.2 hr),
              fun r hr => this.hi r (pm.mem_iff.2 hr)⟩
        obtain ⟨m3, g3, p3⟩ := ih.vars vs body F K _ s1 res s' L _ c2 l st' ((o, v.length) :: G) m2 hF hx he hc2 (fun h => (ht h).2) hf.2 rm2 hs2 a3
        have g := g2.trans (g3.sub (G := G) (fun r hr => by simp [hr])) (by omega)
        rcases res with r | ρ'
        · exact ⟨m3, g, p3⟩
        · obtain ⟨h1, h2, G', h3, h4, h5⟩ := p3
          refine ⟨m3, g, h1, ?_, G', fun r hr => h3 r (by simp [hr]), h4, ?_⟩
          · rw [h2, pc2, pc1]; simp only [List.length_append]; omega
          · have h5 : Sit F G' ρ' s' m3 (st1.depth - msz v.length) := h5
            rwa [dd] at h5
      · cases hc
    · cases he; exact ⟨m1, g1, p1⟩
    · cases he; exact ⟨m1, g1, p1⟩

end Verif.Codegen
