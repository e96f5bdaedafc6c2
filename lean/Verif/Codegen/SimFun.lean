import Verif.Codegen.SimCall

/-!
# Functions
-/
namespace Verif.Codegen
open Spec
open StackFrame.Spec (Reach ReachAny ReachVars ReachConts HasCont Apart Disjoint)
open StackFrame (slot live total collect)
open Verif (HMap)

variable {fx : Bool} {w : World} {C : Code} {E : Env} {k : Nat}

theorem bindAll_total : ∀ {ps : List Binder} {vs : List (List Int)} {ρ ρ'}, bindAll ρ ps vs = some ρ' → vs.reverse.flatten.length = total (ps.map Prod.snd)
  | [], [], _, _, _ => rfl
  | p :: ps, v :: vs, ρ, ρ', h => by
    rw [bindAll] at h
    split at h
    · next hv =>
      have := bindAll_total h
      rw [List.map_cons, StackFrame.total_cons, ← this, ← hv, List.reverse_cons, List.flatten_append, List.length_append]
      simp only [List.flatten_cons, List.flatten_nil, List.append_nil]; omega
    · cases h
  | [], _ :: _, _, _, h => by cases h
  | _ :: _, [], _, _, h => by cases h

/-- The arguments are where the parameters are read. -/
theorem params_stored {F : Fr} {m : M} : ∀ {ps : List Binder} {vs : List (List Int)} {ρ ρ'}, bindAll ρ ps vs = some ρ' →
    (∀ pre p post, ps = pre ++ p :: post → HMap.get F.cx.off p.1 = some (16 + 8 * (total (post.map Prod.snd) : Int))) →
    Spec.read m.mem (F.B + 16) vs.reverse.flatten.length = vs.reverse.flatten → Stored F m ps vs
  | [], [], _, _, _, _, _ => trivial
  | p :: ps, v :: vs, ρ, ρ', h, hp, hr => by
    rw [bindAll] at h
    split at h
    · next hv =>
      have e : (v :: vs).reverse.flatten = vs.reverse.flatten ++ v := by simp
      rw [e, List.length_append, read_add] at hr
      obtain ⟨h1, h2⟩ := List.append_inj hr (read_length _ _ _)
      refine ⟨hv, fun _ => ⟨_, hp [] p ps rfl, ?_⟩, params_stored h (fun pre q post hq => hp (p :: pre) q post (by rw [hq]; rfl)) h1⟩
      rw [← bindAll_total h, ← h2, read_length, ← Int.add_assoc]
    · cases h
  | [], _ :: _, _, _, h, _, _ => by cases h
  | _ :: _, [], _, _, h, _, _ => by cases h

theorem Stored.keep {F : Fr} {m m' : M} : ∀ {ps : List Binder} {vs : List (List Int)}, Stored F m ps vs → (∀ a, ∀ p ∈ ps, ∀ o, HMap.get F.cx.off p.1 = some o → F.B + o ≤ a → a < F.B + o + 8 * (p.2 : Int) → m'.mem a = m.mem a) → Stored F m' ps vs
  | [], [], _, _ => trivial
  | p :: ps, v :: vs, h, hk => by
    refine ⟨h.1, fun hv => ?_, h.2.2.keep fun a q hq => hk a q (.tail _ hq)⟩
    obtain ⟨o, h1, h2⟩ := h.2.1 hv
    exact ⟨o, h1, (read_congr fun a ha hb => hk a p (.head _) o h1 ha (by rw [h.1] at hb; exact hb)).trans h2⟩
  | [], _ :: _, h, _ => h.elim
  | _ :: _, [], h, _ => h.elim

/-- The elements of the environment are stored in their slots. -/
theorem env_run {F : Fr} (hF : F.OK) {s : S} {env : Int} (h0 : 0 ≤ env) : ∀ {bs : List Binder} {o : Nat} {c : Code} {G ρ ρ'} {m : M},
    envCode F.cx.off bs o = some c → At C m.pc c → Fits F G (bs.map (slot F.cx.off)) → Sit F G ρ s m F.R → m.r .rsi = env →
    bindAll ρ bs (readAll s.heap (env + 8 * (o : Int)) bs) = some ρ' →
    ∃ m', Go w C F G (m.r .rsp) s m m' ∧ m'.pc = m.pc + c.length ∧ Sit F (bs.map (slot F.cx.off) ++ G) ρ' s m' F.R
  | [], o, c, G, ρ, ρ', m, hc, ha, hf, hs, hsi, hb => by
    cases hc; cases hb
    exact ⟨m, .refl hs.sync hs.rbp, by simp, hs⟩
  | b :: bs, o, c, G, ρ, ρ', m, hc, ha, hf, hs, hsi, hb => by
    rw [envCode] at hc
    simp only [Option.bind_eq_bind, Option.bind_eq_some_iff] at hc
    obtain ⟨d, hd, c', hc', hc⟩ := hc
    cases hc
    simp only [List.append_assoc] at ha
    rw [readAll, bindAll, if_pos (read_length _ _ _)] at hb
    have neg := lo_neg hF hs
    obtain ⟨m1, t1, pc1, hd1, kp1, kr1⟩ := load_run (w := w) (.inr (.inr rfl)) ha.left (by rw [hsi]; omega)
    have g1 := (Go.refl (w := w) (C := C) (G := G) (lo := m.r .rsp) hs.sync hs.rbp).keep t1 kp1 (Int.le_refl _) neg
    have e1 : Spec.read m.mem (m.r .rsi + 8 * (o : Int)) b.2 = Spec.read s.heap (env + 8 * (o : Int)) b.2 := by
      rw [hsi]; exact read_congr fun a ha _ => hs.sync.mem a (by omega)
    rw [e1] at hd1
    generalize hv : Spec.read s.heap (env + 8 * (o : Int)) b.2 = v at hd1 hb
    have lv : v.length = b.2 := by rw [← hv, read_length]
    have a2 := ha.right; rw [← pc1, ← lv] at a2
    have sl : slot F.cx.off b = (d, v.length) := by rw [slot_eq hd, lv]
    rw [List.map_cons, sl] at hf
    obtain ⟨m2, t2, pc2, rsp2, mm2, bp2, bk2, ou2, kr2⟩ := store_run (w := w) (by decide) (by decide) a2.left hd1 (by
      rw [g1.rbp]; have h1 := hf.lo _ (.head _); have := lo_le hs; simp only at h1; omega)
    have lo := hf.lo _ (.head _); have hi := hf.hi _ (.head _); simp only at lo hi
    rw [g1.rbp] at mm2
    have g2 : Go w C F G (m.r .rsp) s m m2 := g1.stack t2 mm2 bp2 bk2 ou2 (by have := hF.neg; omega) fun a h1 h2 h3 h4 => hf.safe h2 h3 h4
    have rd2 : Spec.read m2.mem (F.B + d) v.length = v := by rw [mm2]; exact read_write _ _ _
    have a3 := a2.right; rw [← pc2] at a3
    have hs2 : Sit F ((d, v.length) :: G) (bind ρ b.1 v) s m2 F.R := by
      have := hs.next g2 (lo_le hs) (by rw [rsp2, hs.rsp]) hs.dep
      exact ⟨this.rbp, this.rsp, this.dep, this.sync, this.env.bind hd rd2, this.gok.cons hf hF⟩
    obtain ⟨m3, g3, pc3, hs3⟩ := env_run hF h0 (m := m2) (G := (d, v.length) :: G) hc' a3 (Fits.move (Z := [_]) hf) hs2 (by rw [kr2.rsi, kr1.rsi, hsi]) (by
      rw [show env + 8 * ((o + b.2 : Nat) : Int) = env + 8 * (o : Int) + 8 * (b.2 : Int) by omega]; exact hb)
    refine ⟨m3, g2.trans (g3.sub fun r hr => .tail _ hr) (by omega), ?_, hs3.rbp, hs3.rsp, hs3.dep, hs3.sync, ?_, ?_⟩
    · rw [pc3, pc2, pc1, lv]; simp only [List.length_append]; omega
    · refine hs3.env.mono fun r hr => ?_
      rw [List.map_cons, sl]
      simp only [List.mem_append, List.mem_cons] at hr ⊢
      rcases hr with h | h | h
      · exact .inl (.inr h)
      · exact .inl (.inl h)
      · exact .inr h
    · intro r hr
      refine hs3.gok r ?_
      rw [List.map_cons, sl] at hr
      simp only [List.mem_append, List.mem_cons] at hr ⊢
      rcases hr with (h | h) | h
      · exact .inr (.inl h)
      · exact .inl h
      · exact .inr (.inr h)

/-- The prologue sets up the frame. -/
theorem prologue_run {f : Fun} {fx : Bool} {n : Nat} (hv : f.frame.Valid) {c0 c : Code} (hp : prologue f (collect f.frame) = some c0) {env : Int} {args : List (List Int)} {s : S} {ρ : Vals}
    (he : entry f env args s = some ρ) {m : M} (ha : At C m.pc (c0 ++ c)) (hs : Sync s m) (hal : m.r .rsp % 16 = 8) (hneg : m.r .rsp + 8 + 8 * (args.reverse.flatten.length : Int) ≤ 0)
    (hargs : Spec.read m.mem (m.r .rsp + 8) args.reverse.flatten.length = args.reverse.flatten) (hsi : m.r .rsi = env) (F : Fr)
    (hF : F = ⟨⟨fx, (collect f.frame).varOffsets, n⟩, m.r .rsp - 8, (collect f.frame).reserved⟩) :
    F.OK ∧ ∃ m', Steps w C m m' ∧ m'.pc = m.pc + c0.length ∧ Sit F (live f.frame (collect f.frame) []) ρ s m' F.R ∧ (∀ a, m.r .rsp ≤ a → a < 0 → m'.mem a = m.mem a) ∧
      m'.mem F.B = m.r .rbp ∧ ∀ o, (collect f.frame).retPtr = some o → m'.mem (F.B + o) = m.r .rdi := by
  have fo : F.OK := by subst hF; exact ⟨by show (m.r .rsp - 8) % 16 = 0; omega, by show m.r .rsp - 8 ≤ 0; omega⟩
  refine ⟨fo, ?_⟩
  have hFo : F.cx.off = (collect f.frame).varOffsets := by subst hF; rfl
  have hFB : F.B = m.r .rsp - 8 := by subst hF; rfl
  have hFR : F.R = (collect f.frame).reserved := by subst hF; rfl
  clear hF
  obtain ⟨hag, -, hsc, hret, -⟩ := StackFrame.frame_facts hv (X := []) .here
  obtain ⟨-, hrm, -, hhas, -, h2⟩ := StackFrame.header_facts hv _ hag
  obtain ⟨rg, -⟩ := h2 rfl
  rw [← hret] at rg
  have hlo : -8 * (F.R : Int) ≤ -8 * ((StackFrame.collectHeader f.frame).scopeVars : Int) := by
    rw [hFR]; unfold StackFrame.St.reserved; omega
  have inFrame := (StackFrame.live_in_frame hv (X := []) .here).2.2
  have hFR' : -8 * (F.R : Int) ≤ -8 * ((collect f.frame).vars : Int) := by
    rw [hFR]; unfold StackFrame.St.reserved; omega
  obtain ⟨ce, hce, rfl⟩ : ∃ ce, (match f.env with
        | none => some []
        | some (id, elems) => (HMap.get (collect f.frame).varOffsets id).bind fun o => (envCode (collect f.frame).varOffsets elems 0).bind fun c => some (.st .rbp o .rsi :: c)) = some ce ∧
      c0 = [.push .rbp, .mov .rbp .rsp] ++ extend (collect f.frame).reserved ++ (match (collect f.frame).retPtr with | some o => [.st .rbp o .rdi] | none => []) ++ ce := by
    unfold prologue at hp
    cases hfe : f.env with
    | none => rw [hfe] at hp; cases hp; exact ⟨_, rfl, rfl⟩
    | some ie =>
      rw [hfe] at hp
      simp only [Option.bind_eq_bind, Option.bind_eq_some_iff] at hp ⊢
      obtain ⟨o, ho, ce, hce, c2, hc2, hp⟩ := hp
      cases hc2; cases hp
      exact ⟨_, ⟨o, ho, ce, hce, rfl⟩, rfl⟩
  simp only [List.append_assoc] at ha
  -- `push rbp; mov rbp, rsp`
  have t1 : Steps w C m { m with r := upd (upd m.r .rsp (m.r .rsp - 8)) .rbp (m.r .rsp - 8), mem := upd m.mem (m.r .rsp - 8) (m.r .rbp), pc := m.pc + 1 + 1 } := by
    refine (At.exec (c := _) ha rfl).trans (At.exec (At.tail ha) ?_)
    simp only [exec, upd_same]
  have a12 := ha.right
  rw [show m.pc + (([.push .rbp, .mov .rbp .rsp] : Code).length : Int) = m.pc + 1 + 1 by simp only [List.length_cons, List.length_nil]; omega] at a12
  obtain ⟨m2, t2, pc2, sp2, rg2, mm2, bk2, ou2⟩ := extend_run (w := w) (m := { m with r := upd (upd m.r .rsp (m.r .rsp - 8)) .rbp (m.r .rsp - 8), mem := upd m.mem (m.r .rsp - 8) (m.r .rbp), pc := m.pc + 1 + 1 }) a12.left
  have bp2 : m2.r .rbp = F.B := by rw [rg2 _ (by decide), hFB]; simp only [upd_same]
  have sp2' : m2.r .rsp = F.B - 8 * (F.R : Int) := by
    rw [sp2, hFB, hFR]; simp only [upd_ne _ _ (by decide : Reg.rsp ≠ .rbp), upd_same]
  have sy2 : Sync s m2 := ⟨bk2.trans hs.brk, ou2.trans hs.out, fun a ha => by
    rw [mm2]; show upd m.mem _ _ a = _; rw [upd_ne _ _ (by omega)]; exact hs.mem a ha, hs.pos⟩
  have ab2 : ∀ a, m.r .rsp ≤ a → m2.mem a = m.mem a := fun a h => by rw [mm2]; exact upd_ne _ _ (by omega)
  have b2 : m2.mem F.B = m.r .rbp := by rw [mm2, hFB]; exact upd_same _ _ _
  have a3 := a12.right
  rw [show m.pc + 1 + 1 + ((extend (collect f.frame).reserved).length : Int) = m2.pc from pc2.symm] at a3
  have g2 : Go w C F [] (m2.r .rsp) s m2 m2 := .refl sy2 bp2
  -- the address of the result
  obtain ⟨m3, g3, pc3, rr3, di3⟩ : ∃ m3, Go w C F [] (m2.r .rsp) s m2 m3 ∧ m3.pc = m2.pc + ((match (collect f.frame).retPtr with | some o => [.st .rbp o .rdi] | none => [] : Code).length : Int) ∧
      m3.r = m2.r ∧ ∀ o, (collect f.frame).retPtr = some o → m3.mem (F.B + o) = m.r .rdi := by
    cases hrp : (collect f.frame).retPtr with
    | none => exact ⟨m2, g2, by simp, rfl, fun o h => by cases h⟩
    | some o =>
      rw [hrp] at a3 rg
      have l := rg.lo (o, 1) (by simp); have h := rg.hi (o, 1) (by simp)
      simp only at l h
      refine ⟨{ m2 with mem := upd m2.mem (m2.r .rbp + o) (m2.r .rdi), pc := m2.pc + 1 }, ?_, rfl, rfl, fun o' ho => ?_⟩
      · refine g2.stack (p := F.B + o) (v := [m2.r .rdi]) (At.exec a3 rfl) (by simp only [write, bp2]) rfl rfl rfl ?_ fun a h1 h2 h3 h4 => ?_
        · have := fo.neg; simp only [List.length_cons, List.length_nil]; omega
        · simp only [List.length_cons, List.length_nil] at h3
          rcases h4 with h4 | h4 | ⟨r, hr, -⟩
          · omega
          · omega
          · cases hr
      · cases ho
        show upd m2.mem (m2.r .rbp + o) _ _ = _
        rw [bp2, upd_same, rg2 _ (by decide)]
        simp only [upd_ne _ _ (by decide : Reg.rdi ≠ .rbp), upd_ne _ _ (by decide : Reg.rdi ≠ .rsp)]
  have a4 := a3.right; rw [← pc3] at a4
  have si3 : m3.r .rsi = env := by
    rw [rr3, rg2 _ (by decide)]
    simp only [upd_ne _ _ (by decide : Reg.rsi ≠ .rbp), upd_ne _ _ (by decide : Reg.rsi ≠ .rsp)]; exact hsi
  have sp3 : m3.r .rsp = F.B - 8 * (F.R : Int) := by rw [rr3, sp2']
  let G0 : List (Int × Nat) := ((collect f.frame).retPtr.map fun o => (o, 1)).toList
  have gok0 : GOK F G0 := by
    intro r hr
    have := rg.lo r (List.mem_append_right _ hr); have := rg.hi r (List.mem_append_right _ hr); have := fo.neg
    omega
  have hs3 : Sit F G0 (fun _ => []) s m3 F.R := ⟨g3.rbp, sp3, Nat.le_refl _, g3.sync, fun x hx => (hx rfl).elim, gok0⟩
  have fit : Fits F G0 (f.frame.envBinders.map (slot F.cx.off)) := by
    rw [hFo]
    refine ⟨?_, fun r hr => ?_, fun r hr => rg.hi r (List.mem_append_left _ hr)⟩
    · exact (List.perm_append_comm.pairwise_iff fun {_ _} h => Or.symm h).1 rg.disjoint
    · have := rg.lo r (List.mem_append_left _ hr); omega
  -- the environment
  obtain ⟨m4, g4, pc4, ρ1, hb1, hs4⟩ : ∃ m4, Go w C F G0 (m3.r .rsp) s m3 m4 ∧ m4.pc = m3.pc + ce.length ∧ ∃ ρ1, bindAll ρ1 f.params args = some ρ ∧
      Sit F (f.frame.envBinders.map (slot F.cx.off) ++ G0) ρ1 s m4 F.R := by
    unfold entry at he
    have eb : f.frame.envBinders = match f.env with | some (id, elems) => (id, 1) :: elems | none => [] := rfl
    rw [eb] at fit ⊢
    cases hfe : f.env with
    | none =>
      rw [hfe] at he hce
      cases hce
      exact ⟨m3, .refl hs3.sync hs3.rbp, by simp, _, he, hs3⟩
    | some ie =>
      obtain ⟨id, elems⟩ := ie
      rw [hfe] at he hce fit
      dsimp only at he hce fit ⊢
      split at he
      · next h0 =>
        simp only [Option.bind_eq_bind, Option.bind_eq_some_iff] at he hce
        obtain ⟨ρ1, hb, he⟩ := he
        obtain ⟨o, ho, c', hc', hce⟩ := hce
        cases hce
        rw [← hFo] at ho hc'
        rw [List.map_cons, slot_eq (x := (id, 1)) ho] at fit ⊢
        have l := fit.lo _ (.head _); have h := fit.hi _ (.head _); simp only at l h
        have g5 : Go w C F G0 (m3.r .rsp) s m3 { m3 with mem := upd m3.mem (m3.r .rbp + o) (m3.r .rsi), pc := m3.pc + 1 } := by
          refine (Go.refl hs3.sync hs3.rbp).stack (p := F.B + o) (v := [m3.r .rsi]) (At.exec a4 rfl) (by simp only [write, g3.rbp]) rfl rfl rfl ?_ fun a h1 h2 h3 h4 => ?_
          · have := fo.neg; simp only [List.length_cons, List.length_nil]; omega
          · exact fit.safe h2 h3 h4
        have rd : Spec.read (upd m3.mem (m3.r .rbp + o) (m3.r .rsi)) (F.B + o) [env].length = [env] := by
          simp only [List.length_cons, List.length_nil, Spec.read, g3.rbp, upd_same, si3]
        have hs5 : Sit F ((o, 1) :: G0) (bind (fun _ => []) id [env]) s { m3 with mem := upd m3.mem (m3.r .rbp + o) (m3.r .rsi), pc := m3.pc + 1 } F.R := by
          have := hs3.next g5 (lo_le hs3) sp3 (Nat.le_refl _)
          exact ⟨this.rbp, this.rsp, this.dep, this.sync, this.env.bind ho rd, this.gok.cons fit fo⟩
        obtain ⟨m6, g6, pc6, hs6⟩ := env_run (w := w) (o := 0) (G := (o, 1) :: G0) fo h0 hc' (At.tail a4).left (Fits.move (Z := [_]) fit) hs5 si3 (by simpa using hb)
        refine ⟨m6, g5.trans (g6.sub fun r hr => .tail _ hr) (Int.le_refl _), ?_, ρ1, he, hs6.rbp, hs6.rsp, hs6.dep, hs6.sync, ?_, ?_⟩
        · rw [pc6]; simp only [List.length_cons]; omega
        · refine hs6.env.mono fun r hr => ?_
          simp only [List.mem_append, List.mem_cons, List.cons_append] at hr ⊢
          rcases hr with h | h | h
          · exact .inr (.inl h)
          · exact .inl h
          · exact .inr (.inr h)
        · intro r hr
          refine hs6.gok r ?_
          simp only [List.mem_append, List.mem_cons, List.cons_append] at hr ⊢
          rcases hr with h | h | h
          · exact .inr (.inl h)
          · exact .inl h
          · exact .inr (.inr h)
      · cases he
  have above : ∀ a, F.B ≤ a → a < 0 → m4.mem a = m2.mem a := fun a h1 h2 =>
    (g4.kept a (by omega) h2 (.inr (.inl h1))).trans (g3.kept a (by omega) h2 (.inr (.inl h1)))
  have kept4 : ∀ a, m.r .rsp ≤ a → a < 0 → m4.mem a = m.mem a := fun a h1 h2 => (above a (by omega) h2).trans (ab2 a h1)
  -- the parameters
  have len := bindAll_total hb1
  have st4 : Stored F m4 f.params args := by
    refine params_stored hb1 (fun pre p post hpp => ?_) ?_
    · rw [hFo]; exact StackFrame.param_where_pushed hv rfl (f := f.frame) hpp
    · refine Eq.trans (read_congr fun a h1 h2 => ?_) (Eq.trans (by rw [hFB, show m.r .rsp - 8 + 16 = m.r .rsp + 8 by omega]) hargs)
      exact kept4 a (by omega) (by omega)
  have env4 := st4.env hb1 hs4.env
  refine ⟨m4, (t1.trans t2).trans (g3.steps.trans g4.steps), ?_, ⟨hs4.rbp, hs4.rsp, hs4.dep, hs4.sync, env4.mono fun r hr => ?_, fun r hr => ?_⟩, kept4, ?_, fun o ho => ?_⟩
  · rw [pc4, pc3, pc2]
    cases (collect f.frame).retPtr <;> simp only [List.length_append, List.length_cons, List.length_nil] <;> omega
  · unfold live
    rw [hFo] at hr
    simp only [List.mem_append] at hr ⊢
    rcases hr with h | h | h
    · exact .inl (.inr h)
    · exact .inl (.inl (.inl h))
    · exact .inl (.inl (.inr h))
  · have := fo.neg
    rcases inFrame r hr with ⟨h1, h2⟩ | ⟨h1, h2⟩
    · omega
    · have : total (f.frame.params.map Prod.snd) = total (f.params.map Prod.snd) := rfl
      omega
  · rw [above _ (Int.le_refl _) (by omega), b2]
  · rw [← di3 o ho]
    have h1 := rg.lo (o, 1) (by rw [ho]; simp); have h2 := rg.hi (o, 1) (by rw [ho]; simp)
    simp only at h1 h2
    exact g4.kept _ (by omega) (by omega) (.inr (.inr ⟨(o, 1), by show _ ∈ G0; simp only [G0, ho]; simp, by simp only; omega, by simp only; omega⟩))

/-- The epilogue delivers the result and returns. -/
theorem epilogue_run {f : Fun} {fr : StackFrame.St} {epi : Nat} {c : Code} {m : M} {B D r0 : Int} {v : List Int} (ha : At C m.pc (epilogue f fr epi ++ c)) (hb : m.r .rbp = B) (hd : Held m r0 v)
    (hr : r0 ≤ B) (hv : v.length = f.ret) (hD : B + 16 ≤ D) (hret : msz f.ret ≠ 0 ↔ fr.retPtr ≠ none) (hp : ∀ o, fr.retPtr = some o → m.mem (B + o) = D) :
    ∃ m', Steps w C m m' ∧ m'.pc = m.mem (B + 8) ∧ m'.r .rsp = B + 16 ∧ m'.r .rbp = m.mem B ∧ m'.brk = m.brk ∧ m'.out = m.out ∧
      (∀ a, a < D ∨ D + 8 * (msz f.ret : Int) ≤ a → m'.mem a = m.mem a) ∧ (if msz f.ret = 0 then Held m' (B + 16) v else Spec.read m'.mem D f.ret = v) := by
  unfold epilogue at ha
  simp only [List.append_assoc] at ha
  have t1 : Steps w C m { m with pc := m.pc + 1 } := At.exec ha rfl
  have a1 := ha.right
  obtain ⟨m2, t2, pc2, bp2, bk2, ou2, mm2, hd2⟩ : ∃ m2, Steps w C { m with pc := m.pc + 1 } m2 ∧
      m2.pc = m.pc + 1 + ((match fr.retPtr with | some o => [.ld .rax .rbp o] ++ storeV .rax 0 f.ret | none => [] : Code).length : Int) ∧ m2.r .rbp = B ∧ m2.brk = m.brk ∧ m2.out = m.out ∧
      (∀ a, a < D ∨ D + 8 * (msz f.ret : Int) ≤ a → m2.mem a = m.mem a) ∧ (if msz f.ret = 0 then Held m2 r0 v else Spec.read m2.mem D f.ret = v) := by
    cases hrp : fr.retPtr with
    | none =>
      have h0 : msz f.ret = 0 := Decidable.not_not.1 fun h => hret.1 h hrp
      exact ⟨_, .refl, by simp, hb, rfl, rfl, fun _ _ => rfl, by rw [if_pos h0]; exact held_pc hd⟩
    | some o =>
      have h0 : msz f.ret ≠ 0 := hret.2 (by rw [hrp]; simp)
      have h2 : 2 < f.ret ∧ msz f.ret = f.ret := by
        unfold msz at h0 ⊢
        split at h0
        · exact (h0 rfl).elim
        · next h => rw [if_neg h]; omega
      rw [hrp] at a1
      have t3 : Steps w C { m with pc := m.pc + 1 } { m with r := upd m.r .rax (m.mem (m.r .rbp + o)), pc := m.pc + 1 + 1 } := At.exec (m := { m with pc := m.pc + 1 }) a1.left.left rfl
      have os := (held_mem (by rw [hv]; exact h2.1)).1 hd
      have hd' : Held { m with r := upd m.r .rax (m.mem (m.r .rbp + o)), pc := m.pc + 1 + 1 } r0 v := by
        refine (held_mem (by rw [hv]; exact h2.1)).2 ⟨?_, ?_⟩
        · simp only [upd_ne _ _ (by decide : Reg.rsp ≠ .rax)]; exact os.1
        · simp only [upd_ne _ _ (by decide : Reg.rsp ≠ .rax)]; exact os.2
      have a2 := a1.left.right
      rw [← hv] at a2
      obtain ⟨m4, t4, pc4, -, mm4, bp4, bk4, ou4, -⟩ := store_run (w := w) (b := .rax) (by decide) (by decide) (m := { m with r := upd m.r .rax (m.mem (m.r .rbp + o)), pc := m.pc + 1 + 1 }) a2 hd' (by
        simp only [upd_same, hb, hp o hrp]; omega)
      simp only [upd_same, hb, hp o hrp, Int.add_zero] at mm4
      refine ⟨m4, t3.trans t4, ?_, ?_, bk4, ou4, fun a h => ?_, ?_⟩
      · rw [pc4, hv]; simp only [List.length_append, List.length_cons, List.length_nil]; omega
      · rw [bp4]; simp only [upd_ne _ _ (by decide : Reg.rbp ≠ .rax)]; exact hb
      · rw [mm4, write_out (by rw [hv]; omega)]
      · rw [if_neg h0, mm4, ← hv]; exact read_write _ _ _
  have a2 : At C m2.pc ([.mov .rsp .rbp, .pop .rbp, .retq] ++ c) := by
    have h := a1.right
    rw [pc2]
    cases hrp : fr.retPtr <;> (rw [hrp] at h; exact h)
  have t5 : Steps w C m2 { m2 with r := upd (upd (upd (upd m2.r .rsp (m2.r .rbp)) .rsp (m2.r .rbp + 8)) .rbp (m2.mem (m2.r .rbp))) .rsp (m2.r .rbp + 8 + 8), pc := m2.mem (m2.r .rbp + 8) } := by
    have s1 : Steps w C m2 { m2 with r := upd m2.r .rsp (m2.r .rbp), pc := m2.pc + 1 } := At.exec a2 rfl
    have s2 : Steps w C { m2 with r := upd m2.r .rsp (m2.r .rbp), pc := m2.pc + 1 }
        { m2 with r := upd (upd (upd m2.r .rsp (m2.r .rbp)) .rsp (m2.r .rbp + 8)) .rbp (m2.mem (m2.r .rbp)), pc := m2.pc + 1 + 1 } := At.exec (At.tail a2) (by simp only [exec, upd_same])
    have s3 : Steps w C { m2 with r := upd (upd (upd m2.r .rsp (m2.r .rbp)) .rsp (m2.r .rbp + 8)) .rbp (m2.mem (m2.r .rbp)), pc := m2.pc + 1 + 1 }
        { m2 with r := upd (upd (upd (upd m2.r .rsp (m2.r .rbp)) .rsp (m2.r .rbp + 8)) .rbp (m2.mem (m2.r .rbp))) .rsp (m2.r .rbp + 8 + 8), pc := m2.mem (m2.r .rbp + 8) } :=
      At.exec (At.tail (At.tail a2)) (by simp only [exec, upd_ne _ _ (by decide : Reg.rsp ≠ .rbp), upd_same])
    exact (s1.trans s2).trans s3
  refine ⟨_, t1.trans (t2.trans t5), ?_, ?_, ?_, bk2, ou2, mm2, ?_⟩
  · show m2.mem (m2.r .rbp + 8) = _
    rw [bp2]; exact mm2 _ (.inl (by omega))
  · simp only [upd_same, bp2]; omega
  · simp only [upd_ne _ _ (by decide : Reg.rbp ≠ .rsp), upd_same, bp2]
    exact mm2 _ (.inl (by omega))
  · split
    · next h0 =>
      rw [if_pos h0] at hd2
      refine held_move hd2 (by rw [hv]; exact h0) ?_ ?_ ?_
      · simp only [upd_same, bp2]; omega
      · simp only [upd_ne _ _ (by decide : Reg.rax ≠ .rsp), upd_ne _ _ (by decide : Reg.rax ≠ .rbp)]
      · simp only [upd_ne _ _ (by decide : Reg.rdx ≠ .rsp), upd_ne _ _ (by decide : Reg.rdx ≠ .rbp)]
    · next h0 => rw [if_neg h0] at hd2; exact hd2

theorem sim_app (P : Prog fx w C E) (ih : Sim fx w C E k) (f : Fun) (hf : f ∈ E.fns) : SimApp w C E (k + 1) f := by
  intro env args s v s' m D hap hs hpc hal hD hD0 hargs hsi hdi
  obtain ⟨hv, ht, hfl, n, c, n', hc, ha⟩ := P.fns f hf
  rw [← hpc] at ha
  rw [apply] at hap
  simp only [Option.bind_eq_bind, Option.bind_eq_some_iff] at hap
  obtain ⟨ρ, hen, hap⟩ := hap
  obtain ⟨⟨r, s1⟩, hev, hap⟩ := hap
  obtain ⟨c0, c1, l, st', hp, hc1, hl, rfl⟩ : ∃ c0 c1 l st', prologue f (collect f.frame) = some c0 ∧
      comp ⟨fx, (collect f.frame).varOffsets, n⟩ (fun _ => none) f.body { depth := (collect f.frame).reserved, next := n + 1 } = some (c1, l, st') ∧
      (∀ x, l = some x → x = f.ret) ∧ c = [.fn f.id] ++ (c0 ++ (c1 ++ epilogue f (collect f.frame) n)) := by
    unfold compFun at hc
    simp only [Option.bind_eq_bind, Option.bind_eq_some_iff] at hc
    obtain ⟨c0, hp, ⟨c1, l, st'⟩, hc1, hc⟩ := hc
    refine ⟨c0, c1, l, st', hp, hc1, ?_⟩
    cases l with
    | none => cases hc; exact ⟨fun x h => (by cases h), by simp⟩
    | some x =>
      dsimp only at hc
      split at hc
      · next h => cases hc; exact ⟨fun y hy => (by cases hy; exact h), by simp⟩
      · cases hc
  have t0 : Steps w C m { m with pc := m.pc + 1 } := At.exec ha rfl
  have a0 := ha.right
  obtain ⟨fo, m1, t1, pc1, hs1, kp1, b1, rp1⟩ := prologue_run (w := w) (fx := fx) (n := n) hv hp hen (m := { m with pc := m.pc + 1 }) a0 ⟨hs.brk, hs.out, hs.mem, hs.pos⟩ hal (by
    show m.r .rsp + _ + _ ≤ _; omega) hargs hsi _ rfl
  dsimp only at t1 pc1 kp1 b1 rp1
  have a1 := a0.right
  rw [show m.pc + (([.fn f.id] : Code).length : Int) + (c0.length : Int) = m1.pc from pc1.symm] at a1
  obtain ⟨hag, -, hsc, hret, -⟩ := StackFrame.frame_facts hv (X := []) .here
  obtain ⟨m2, g2, p2⟩ := ih.e f.body ⟨⟨fx, (collect f.frame).varOffsets, n⟩, m.r .rsp - 8, (collect f.frame).reserved⟩ [] ρ s r s1 (fun _ => none) _ c1 l st' _ m1 fo rfl hev hc1 ht hfl
    ⟨fun X hX => by
      have lv := StackFrame.live_disjoint hv hX
      obtain ⟨-, hX', -⟩ := StackFrame.frame_facts hv hX
      refine ⟨?_, fun q hq => ?_, fun q hq => ?_⟩
      · unfold live at lv ⊢
        rw [List.map_nil, List.append_nil]; exact lv
      · have := hX'.ranges.lo q hq
        show -8 * ((collect f.frame).reserved : Int) ≤ _
        unfold StackFrame.St.reserved; omega
      · have := hX'.ranges.hi q hq; omega, fun _ x hx => by cases hx⟩ hs1 a1.left
  have a2 := a1.right
  have fe := P.uniq.find_label (l := n) (c := _) (by unfold epilogue at a2; simp only [List.append_assoc] at a2; exact a2)
  -- however it ends
  have key : v.length = f.ret ∧ s1 = s' ∧ m2.pc = m1.pc + c1.length ∧ ∃ r0, r0 ≤ m.r .rsp - 8 ∧ Held m2 r0 v := by
    rcases r with u | u | ⟨j, us⟩
    · dsimp only at hap
      split at hap
      · next h =>
        cases hap
        obtain ⟨-, q2, q3⟩ := p2
        exact ⟨h, rfl, q2, _, by rw [hs1.rsp]; show m.r .rsp - 8 - _ ≤ _; omega, q3⟩
      · cases hap
    · dsimp only at hap
      split at hap
      · next h =>
        cases hap
        obtain ⟨q2, r0, q3, q4⟩ := p2
        exact ⟨h, rfl, q2.trans fe, r0, q3, q4⟩
      · cases hap
    · cases hap
  obtain ⟨hvl, rfl, pc2, r0, hr0, hd2⟩ := key
  have sp1 : m1.r .rsp = m.r .rsp - 8 - 8 * ((collect f.frame).reserved : Int) := hs1.rsp
  have kp2 : ∀ a, m.r .rsp - 8 ≤ a → a < 0 → m2.mem a = m1.mem a := fun a h1 h2 => g2.kept a (by omega) h2 (.inr (.inl h1))
  obtain ⟨-, hrm, inF⟩ := StackFrame.live_in_frame hv (X := []) .here
  have hrm' : msz f.ret ≠ 0 ↔ (collect f.frame).retPtr ≠ none := by rw [← hrm]; simp [Fun.frame]
  obtain ⟨m3, t3, pc3, sp3, bp3, bk3, ou3, kp3, hd3⟩ := epilogue_run (w := w) (c := []) (D := D) (B := m.r .rsp - 8) (by rw [List.append_nil, pc2]; exact a2) g2.rbp hd2 hr0 hvl (by omega) hrm' (fun o ho => by
    have h0 : msz f.ret ≠ 0 := hrm'.2 (by rw [ho]; simp)
    rw [← hdi h0, ← rp1 o ho]
    have mem : (o, 1) ∈ live f.frame (collect f.frame) [] := by unfold live; rw [ho]; simp
    obtain ⟨-, -, -, -, -, h2⟩ := StackFrame.header_facts hv _ hag
    obtain ⟨rg, -⟩ := h2 rfl
    rw [← hret, ho] at rg
    have l := rg.lo (o, 1) (by simp); have h := rg.hi (o, 1) (by simp)
    simp only at l h
    refine g2.kept _ ?_ (by omega) (.inr (.inr ⟨(o, 1), mem, Int.le_refl _, by show m.r .rsp - 8 + o < m.r .rsp - 8 + o + _; omega⟩))
    rw [sp1]; unfold StackFrame.St.reserved; omega)
  have sy := g2.sync
  refine ⟨m3, t0.trans (t1.trans (g2.steps.trans t3)), ⟨bk3.trans sy.brk, ou3.trans sy.out, fun a ha => ?_, sy.pos⟩, ?_, by rw [sp3]; omega, ?_, hvl, fun a h1 h2 h3 => ?_, ?_⟩
  · rw [kp3 a (.inr (by omega))]; exact sy.mem a ha
  · rw [pc3, show m.r .rsp - 8 + 8 = m.r .rsp by omega, kp2 _ (by omega) (by omega), kp1 _ (Int.le_refl _) (by omega)]
  · rw [bp3, kp2 _ (Int.le_refl _) (by omega), b1]
  · rw [kp3 a h3, kp2 a (by omega) h2, kp1 a (by omega) h2]
  · rw [show m.r .rsp - 8 + 16 = m.r .rsp + 8 by omega] at hd3; exact hd3

/-- The code of every expression and function does what it means. -/
theorem sim_all (P : Prog fx w C E) : ∀ k, Sim fx w C E k
  | 0 => by
    constructor
    · intro e; si; rw [eval] at he; cases he
    · intro e; si; rw [evals] at he; cases he
    · intro e; si; rw [evals] at he; cases he
    · intro e; si; rw [evalsR] at he; cases he
    · intro e ps F K ρ s res s' L st c l st' G m hF hx he; rw [evals] at he; cases he
    · intro e ts o F K ρ s res s' L st c l st' G m hF hx he; rw [evals] at he; cases he
    · intro e p o F K ρ s res s' L st c l st' G m hF hx he; rw [evalEnv] at he; cases he
    · intro e b; si; rw [evalVars] at he; cases he
    · intro f _ env args s v s' m D h; rw [apply] at h; cases h
  | k + 1 => by
    have ih := sim_all P k
    refine ⟨fun e => ?_, sim_seqs ih, sim_args ih, sim_argsR ih, sim_stores ih, sim_struct ih, sim_env ih, sim_vars ih, sim_app P ih⟩
    cases e with
    | var x n => exact sim_var x n
    | sfun c => exact sim_sfun P c
    | clos c e => exact sim_clos P ih c e
    | const i => exact sim_const i
    | unit => exact sim_unit
    | call c tys ret args => exact sim_call P ih c tys ret args
    | ccall sym ret args => exact sim_ccall P ih sym ret args
    | jump k ret args => exact sim_jump ih k ret args
    | bin op a b => exact sim_bin ih op a b
    | load n p => exact sim_load ih n p
    | store v p => exact sim_store ih v p
    | elem o n a => exact sim_elem ih o n a
    | alloc e => exact sim_alloc ih e
    | mkEnv es => exact sim_mkEnv ih es
    | mkStruct tys es => exact sim_mkStruct ih tys es
    | seq es e => exact sim_seq ih es e
    | ite c t e => exact sim_ite P ih c t e
    | loop c b => exact sim_loop P ih c b
    | ret e => exact sim_ret ih e
    | never => si; rw [eval] at he; cases he
    | letVar vs b => exact sim_letVar ih vs b
    | letCont cs b => exact sim_letCont P ih cs b

end Verif.Codegen
