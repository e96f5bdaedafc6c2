import Verif.StackMachine.Spec
import Verif.MemLayout.Props
namespace Verif.StackMachine

open Verif.MemLayout Spec

theorem exec_append (a b : List Inst) (s : St) : exec (a ++ b) s = (exec a s).bind (exec b) := by
  induction a generalizing s with
  | nil => rfl
  | cons i a ih =>
    simp only [List.cons_append, exec]
    cases step i s with
    | none => rfl
    | some s' => simp [ih]

theorem exec_append_some {a b : List Inst} {s t u : St} (h1 : exec a s = some t) (h2 : exec b t = some u) :
    exec (a ++ b) s = some u := by
  rw [exec_append, h1]; exact h2

theorem upd_same {α} (f : Nat → α) (k v) : upd f k v k = v := by simp [upd]
theorem upd_ne {α} (f : Nat → α) {k x} (v) (h : x ≠ k) : upd f k v x = f x := by simp [upd, h]

/-- Loading up to eight bytes. -/
theorem gprLoad_spec (r : Nat) (hr : r ≠ tmp1) (a : Addr) (n : Nat) (hn : n ≤ 8) (s : St) :
    ∃ s', exec (gprLoad r a n) s = some s' ∧ (∀ i < n, s'.gpr r i = s.mem (s.ea a + i)) ∧
      (∀ q, q ≠ r → q ≠ tmp1 → s'.gpr q = s.gpr q) ∧ s'.xmm = s.xmm ∧ s'.mem = s.mem ∧ s'.rsp = s.rsp ∧
      s'.rbp = s.rbp ∧ s'.rdi = s.rdi := by
  have hoff : ∀ (g : Nat → Nat → Nat) (k : Int), ({ s with gpr := g } : St).ea (a.offset k) = s.ea a + k := by
    intro g k
    obtain ⟨b, o⟩ := a
    cases b <;> simp [St.ea, St.base, Addr.offset] <;> omega
  have hea : ∀ (g : Nat → Nat → Nat), ({ s with gpr := g } : St).ea a = s.ea a := by
    intro g
    obtain ⟨b, o⟩ := a
    cases b <;> rfl
  have h1 : ∀ (x : Nat), x ≠ r → x ≠ tmp1 → True := fun _ _ _ => trivial
  have hr' : tmp1 ≠ r := fun h => hr h.symm
  have cases8 : n = 0 ∨ n = 1 ∨ n = 2 ∨ n = 3 ∨ n = 4 ∨ n = 5 ∨ n = 6 ∨ n = 7 ∨ n = 8 := by omega
  rcases cases8 with h | h | h | h | h | h | h | h | h <;> subst h <;>
    simp only [gprLoad, exec, step, Option.bind_some, Option.some.injEq, exists_eq_left', hoff, hea, and_true] <;>
    refine ⟨fun i hi => ?_, fun q hq hq' => ?_⟩
  all_goals first
    | (simp [upd, hq, hq']; done)
    | rfl
    | (have hi8 : i = 0 ∨ i = 1 ∨ i = 2 ∨ i = 3 ∨ i = 4 ∨ i = 5 ∨ i = 6 ∨ i = 7 := by omega
       rcases hi8 with h | h | h | h | h | h | h | h <;> subst h <;> first
         | omega
         | (simp [upd, hr, hr']; done)
         | (simp [upd, hr, hr']; congr 1; omega))

/-- Storing up to eight bytes. -/
theorem gprStore_spec (r : Nat) (a : Addr) (n : Nat) (hn : n ≤ 8) (s : St) :
    ∃ s', exec (gprStore r a n) s = some s' ∧ (∀ x, s'.mem x = setMem s.mem (s.ea a) n (s.gpr r) x) ∧
      (∀ q, q ≠ r → s'.gpr q = s.gpr q) ∧ s'.xmm = s.xmm ∧ s'.rsp = s.rsp ∧
      s'.rbp = s.rbp ∧ s'.rdi = s.rdi := by
  have hoff : ∀ (g : Nat → Nat → Nat) (m : Int → Nat) (k : Int),
      ({ s with gpr := g, mem := m } : St).ea (a.offset k) = s.ea a + k := by
    intro g m k
    obtain ⟨b, o⟩ := a
    cases b <;> simp [St.ea, St.base, Addr.offset] <;> omega
  generalize hf : s.gpr r = f
  have cases8 : n = 0 ∨ n = 1 ∨ n = 2 ∨ n = 3 ∨ n = 4 ∨ n = 5 ∨ n = 6 ∨ n = 7 ∨ n = 8 := by omega
  rcases cases8 with h | h | h | h | h | h | h | h | h <;> subst h <;>
    simp only [gprStore, exec, step, Option.bind_some, Option.some.injEq, exists_eq_left', hoff, and_true, hf] <;>
    refine ⟨fun x => ?_, fun q hq => ?_⟩
  all_goals first
    | (simp [upd, hq]; done)
    | rfl
    | (simp only [setMem, upd_same]; done)
    | (simp only [setMem, upd_same]
       (repeat' split) <;> first | rfl | omega | (congr 1; omega))

theorem setMem_at {m : Int → Nat} {a : Int} {n : Nat} {f : Nat → Nat} {x : Int} (j : Nat) (h : x = a + j) (hj : j < n) :
    setMem m a n f x = f j := by
  unfold setMem
  rw [if_pos (by omega)]
  congr 1
  omega

theorem setMem_out {m : Int → Nat} {a : Int} {n : Nat} {f : Nat → Nat} {x : Int} (h : x < a ∨ a + n ≤ x) :
    setMem m a n f x = m x := by
  unfold setMem
  rw [if_neg (by omega)]

/-! ## The registers of values -/

/-- The registers a last value can be in. -/
def LastReg (r : AssignedReg) : Prop := r = .gpr 0 ∨ r = .gpr 2 ∨ r = .xmm 0 ∨ r = .xmm 1

/-- The cases of a layout. -/
inductive Shape (l : Layout) : Prop
  | void (h : l.size = 0) (hc : l.cls = .void)
  | mem (hc : l.cls = .memory)
  | one (r g f) (hb : build l gps fps = some ([⟨0, l.size, r⟩], g, f)) (h0 : 0 < l.size) (h8 : l.size ≤ 8) (hr : LastReg r)
      (hc : l.cls ≠ .memory)
  | two (r1 r2 g f) (hb : build l gps fps = some ([⟨0, 8, r1⟩, ⟨8, l.size - 8, r2⟩], g, f)) (h0 : 8 < l.size)
      (h16 : l.size ≤ 16) (h1 : LastReg r1) (h2 : LastReg r2) (hne : r1 ≠ r2) (hc : l.cls ≠ .memory)

theorem build_none {l : Layout} (h : l.cls = .void ∨ l.cls = .memory) : build l gps fps = none := other_on_stack h _ _

theorem Regular.shape {l : Layout} (h : Regular l) : Shape l := by
  by_cases hv : l.cls = .void
  · exact .void ((Wf.parts h.wf).2.2.2.1.1 hv) hv
  by_cases hm : l.cls = .memory
  · exact .mem hm
  obtain ⟨as, g, f, hb, hlen, h0, h2, hnv, hnd, -, -⟩ := value_in_registers h hv hm (g1 := 0) (g2 := 2) (f1 := 0) (f2 := 1)
    (by decide) (by decide)
  have hs0 : 0 < l.size := Nat.pos_of_ne_zero fun h' => hv ((Wf.parts h.wf).2.2.2.1.2 h')
  have hs16 : l.size ≤ 16 := Nat.le_of_not_lt fun h' => hm ((Wf.parts h.wf).2.2.2.2.1 h')
  have hb' := hb
  unfold build at hb'
  rw [if_pos (by cases hc : l.cls <;> simp_all)] at hb'
  have hoff := buildLoop_offsets _ _ _ _ _ _ hb'
  obtain ⟨-, ⟨ug, uf, hug, huf, hp⟩, -⟩ := build_some h hb
  have hreg : ∀ a ∈ as, LastReg a.reg := by
    intro a ha
    have : a.reg ∈ regsOf as := List.mem_map_of_mem ha
    rw [hp.mem_iff, List.mem_append, List.mem_map, List.mem_map] at this
    rcases this with ⟨n, hn, he⟩ | ⟨n, hn, he⟩
    · have : n ∈ [0, 2] := by rw [hug]; exact List.mem_append_left _ hn
      simp only [List.mem_cons, List.not_mem_nil, or_false] at this
      rcases this with h | h <;> subst h <;> simp [LastReg, ← he]
    · have : n ∈ [0, 1] := by rw [huf]; exact List.mem_append_left _ hn
      simp only [List.mem_cons, List.not_mem_nil, or_false] at this
      rcases this with h | h <;> subst h <;> simp [LastReg, ← he]
  by_cases h8 : l.size ≤ 8
  · have hn : l.numEightbytes = 1 := by unfold Layout.numEightbytes; omega
    rw [hn] at hlen
    match as, hlen with
    | [⟨o, z, r⟩], _ =>
      simp only [Layout.eightbytes, hn, List.range_succ, List.range_zero] at hoff
      simp at hoff
      obtain ⟨rfl, rfl⟩ := hoff
      rw [show min l.size 8 = l.size by omega] at hb
      exact .one r g f hb hs0 h8 (hreg ⟨0, min l.size 8, r⟩ (by simp)) hm
  · have hn : l.numEightbytes = 2 := by unfold Layout.numEightbytes; omega
    rw [hn] at hlen
    match as, hlen with
    | [⟨o, z, r⟩, ⟨o', z', r'⟩], _ =>
      simp only [Layout.eightbytes, hn, List.range_succ, List.range_zero] at hoff
      simp at hoff
      obtain ⟨⟨rfl, rfl⟩, rfl, rfl⟩ := hoff
      rw [show min l.size 8 = 8 by omega, show min (l.size - 8) 8 = l.size - 8 by omega] at hb
      refine .two r r' g f hb (by omega) hs16 (hreg ⟨0, min l.size 8, r⟩ (by simp)) (hreg ⟨8, min (l.size - 8) 8, r'⟩ (by simp)) ?_ hm
      simpa [regsOf] using hnd

theorem buildLoop_resize (k : Eightbyte → Eightbyte) (hk : ∀ e, (k e).cls = e.cls ∧ (k e).offset = e.offset ∧ (k e).size = 8) :
    ∀ (es : List Eightbyte) gps fps, buildLoop gps fps (es.map k) =
      (buildLoop gps fps es).map fun r => (r.1.map fun a => { a with size := 8 }, r.2) := by
  intro es
  induction es with
  | nil => intro gps fps; rfl
  | cons e es ih =>
    intro gps fps
    obtain ⟨h1, h2, h3⟩ := hk e
    simp only [List.map_cons]
    unfold buildLoop
    rw [h1, h2, h3]
    cases e.cls <;> simp only [ih]
    · cases buildLoop gps fps es <;> rfl
    · cases gps with
      | nil => rfl
      | cons g gps => simp only []; cases buildLoop gps fps es <;> rfl
    · cases fps with
      | nil => rfl
      | cons g fps => simp only []; cases buildLoop gps fps es <;> rfl
    · rfl

theorem inStack_size (l : Layout) : l.inStack.size = l.numEightbytes * 8 := by
  cases l; rfl
theorem inStack_cls (l : Layout) : l.inStack.cls = l.cls := by cases l; rfl
theorem inStack_num (l : Layout) : l.inStack.numEightbytes = l.numEightbytes := by
  unfold Layout.numEightbytes
  rw [inStack_size]
  unfold Layout.numEightbytes
  omega
theorem inStack_sizeInStack (l : Layout) (b : Bool) : l.inStack.sizeInStack b = l.sizeInStack b := by
  unfold Layout.sizeInStack
  rw [inStack_cls, inStack_num]

theorem inStack_eightbytes (l : Layout) : l.inStack.eightbytes = l.eightbytes.map fun e => { e with size := 8 } := by
  unfold Layout.eightbytes
  rw [inStack_num, List.map_map]
  apply List.map_congr_left
  intro i hi
  have hi : i < l.numEightbytes := List.mem_range.1 hi
  have hs := inStack_size l
  have hc := inStack_cls l
  have hcomp : l.inStack.composite = l.composite := by cases l; rfl
  simp only [Function.comp, hc, hcomp, hs]
  congr 1
  omega

theorem build_inStack (l : Layout) (g f) : build l.inStack g f =
    (build l g f).map fun r => (r.1.map fun a => { a with size := 8 }, r.2) := by
  unfold build
  rw [inStack_cls, inStack_eightbytes]
  split
  · exact buildLoop_resize (fun e => { e with size := 8 }) (fun e => ⟨rfl, rfl, rfl⟩) _ _ _
  · rfl

theorem Shape.inStack {l : Layout} (h : Shape l) : Shape l.inStack := by
  have hs := inStack_size l
  have hc := inStack_cls l
  have hbi := build_inStack l gps fps
  cases h with
  | void h hv => exact .void (by rw [hs]; unfold Layout.numEightbytes; omega) (by rw [hc, hv])
  | mem hm => exact .mem (by rw [hc, hm])
  | one r g f hb h0 h8 hr hm =>
    have hn : l.numEightbytes = 1 := by unfold Layout.numEightbytes; omega
    rw [hb] at hbi
    rw [hn] at hs
    refine .one r g f ?_ (by omega) (by omega) hr (by rw [hc]; exact hm)
    rw [hbi, hs]
    rfl
  | two r1 r2 g f hb h0 h16 h1 h2 hne hm =>
    have hn : l.numEightbytes = 2 := by unfold Layout.numEightbytes; omega
    rw [hb] at hbi
    rw [hn] at hs
    refine .two r1 r2 g f ?_ (by omega) (by omega) h1 h2 hne (by rw [hc]; exact hm)
    rw [hbi, hs]
    rfl

/-! ## One register -/

/-- Everything but the listed parts is kept. -/
structure Keeps (s s' : St) : Prop where
  rbp : s'.rbp = s.rbp
  rdi : s'.rdi = s.rdi

theorem LastReg.gpr_ne {r : Nat} (h : LastReg (.gpr r)) : r ≠ tmp1 ∧ r ≠ tmp2 := by
  simp [LastReg, tmp1, tmp2] at *
  omega

theorem regLoad_spec {r : AssignedReg} (hr : LastReg r) (a : Addr) {n : Nat} (hn : n ≤ 8) (s : St) :
    ∃ s', exec (regLoad r a n) s = some s' ∧ (∀ i < n, regByte s' r i = s.mem (s.ea a + i)) ∧
      (∀ q, LastReg q → q ≠ r → regByte s' q = regByte s q) ∧ s'.mem = s.mem ∧ s'.rsp = s.rsp ∧ Keeps s s' := by
  cases r with
  | gpr r =>
    have h1 := hr.gpr_ne
    obtain ⟨s', he, hb, hg, hx, hm, hs, hbp, hdi⟩ := gprLoad_spec r h1.1 a n hn s
    refine ⟨s', he, hb, ?_, hm, hs, ⟨hbp, hdi⟩⟩
    intro q hq hqr
    funext i
    cases q with
    | gpr q => exact congrFun (hg q (fun h => hqr (by rw [h])) hq.gpr_ne.1) i
    | xmm q => simp [regByte, hx]
    | void => rfl
  | xmm x =>
    obtain ⟨s', he, hb, hg, hx, hm, hs, hbp, hdi⟩ := gprLoad_spec tmp2 (by decide) a n hn s
    refine ⟨_, exec_append_some he rfl, ?_, ?_, hm, hs, ⟨hbp, hdi⟩⟩
    · intro i hi
      simp only [regByte, upd_same]
      exact hb i hi
    · intro q hq hqr
      funext i
      cases q with
      | gpr q => exact congrFun (hg q hq.gpr_ne.2 hq.gpr_ne.1) i
      | xmm q =>
        simp only [regByte]
        rw [upd_ne _ _ (fun h => hqr (by rw [h])), hx]
      | void => rfl
  | void => simp [LastReg] at hr

theorem regStore_spec {r : AssignedReg} (hr : LastReg r) (a : Addr) {n : Nat} (hn : n ≤ 8) (s : St) :
    ∃ s', exec (regStore r a n) s = some s' ∧ (∀ x, s'.mem x = setMem s.mem (s.ea a) n (regByte s r) x) ∧
      (∀ q, LastReg q → q ≠ r → regByte s' q = regByte s q) ∧ s'.rsp = s.rsp ∧ Keeps s s' := by
  cases r with
  | gpr r =>
    obtain ⟨s', he, hm, hg, hx, hs, hbp, hdi⟩ := gprStore_spec r a n hn s
    refine ⟨s', he, hm, ?_, hs, ⟨hbp, hdi⟩⟩
    intro q hq hqr
    funext i
    cases q with
    | gpr q => exact congrFun (hg q (fun h => hqr (by rw [h]))) i
    | xmm q => simp [regByte, hx]
    | void => rfl
  | xmm x =>
    obtain ⟨s', he, hm, hg, hx, hs, hbp, hdi⟩ := gprStore_spec tmp2 a n hn { s with gpr := upd s.gpr tmp2 (s.xmm x) }
    refine ⟨s', exec_append_some (t := { s with gpr := upd s.gpr tmp2 (s.xmm x) }) rfl he, ?_, ?_, hs, ⟨hbp, hdi⟩⟩
    · intro y
      rw [hm y]
      simp only [upd_same]
      have : ({ s with gpr := upd s.gpr tmp2 (s.xmm x) } : St).ea a = s.ea a := by
        obtain ⟨b, o⟩ := a
        cases b <;> rfl
      rw [this]
      rfl
    · intro q hq hqr
      funext i
      cases q with
      | gpr q =>
        simp only [regByte]
        rw [hg q hq.gpr_ne.2]
        simp only
        rw [upd_ne _ _ hq.gpr_ne.2]
      | xmm q => simp [regByte, hx]
      | void => rfl
  | void => simp [LastReg] at hr

theorem regPush_spec {r : AssignedReg} (hr : LastReg r) (s : St) :
    ∃ s', exec (regPush r) s = some s' ∧ s'.mem = setMem s.mem (s.rsp - 8) 8 (regByte s r) ∧
      (∀ q, LastReg q → regByte s' q = regByte s q) ∧ s'.rsp = s.rsp - 8 ∧ Keeps s s' := by
  cases r with
  | gpr r =>
    refine ⟨_, rfl, rfl, ?_, rfl, ⟨rfl, rfl⟩⟩
    intro q hq
    funext i
    cases q <;> rfl
  | xmm x =>
    refine ⟨_, rfl, ?_, ?_, rfl, ⟨rfl, rfl⟩⟩
    · simp only [upd_same]; rfl
    · intro q hq
      funext i
      cases q with
      | gpr q => simp only [regByte]; rw [upd_ne _ _ hq.gpr_ne.2]
      | xmm q => rfl
      | void => rfl
  | void => simp [LastReg] at hr

theorem regPop_spec {r : AssignedReg} (hr : LastReg r) (s : St) :
    ∃ s', exec (regPop r) s = some s' ∧ (∀ i : Nat, regByte s' r i = s.mem (s.rsp + i)) ∧
      (∀ q, LastReg q → q ≠ r → regByte s' q = regByte s q) ∧ s'.mem = s.mem ∧ s'.rsp = s.rsp + 8 ∧ Keeps s s' := by
  cases r with
  | gpr r =>
    refine ⟨_, rfl, ?_, ?_, rfl, rfl, ⟨rfl, rfl⟩⟩
    · intro i; simp only [regByte, upd_same]
    · intro q hq hqr
      funext i
      cases q with
      | gpr q => simp only [regByte]; rw [upd_ne _ _ (fun h => hqr (by rw [h]))]
      | xmm q => rfl
      | void => rfl
  | xmm x =>
    refine ⟨_, rfl, ?_, ?_, rfl, rfl, ⟨rfl, rfl⟩⟩
    · intro i; simp only [regByte, upd_same]
    · intro q hq hqr
      funext i
      cases q with
      | gpr q => simp only [regByte]; rw [upd_ne _ _ hq.gpr_ne.2]
      | xmm q => simp only [regByte]; rw [upd_ne _ _ (fun h => hqr (by rw [h]))]
      | void => rfl
  | void => simp [LastReg] at hr

/-! ## Whole values -/

theorem num_one {l : Layout} (h0 : 0 < l.size) (h8 : l.size ≤ 8) : l.numEightbytes = 1 := by
  unfold Layout.numEightbytes; omega
theorem num_two {l : Layout} (h0 : 8 < l.size) (h8 : l.size ≤ 16) : l.numEightbytes = 2 := by
  unfold Layout.numEightbytes; omega

theorem sizeInStack_mem {l : Layout} (h : l.cls = .memory) (b : Bool) : l.sizeInStack b = l.numEightbytes * 8 := by
  unfold Layout.sizeInStack; rw [if_neg]; simp [h]
theorem sizeInStack_reg {l : Layout} (h : l.cls ≠ .memory) : l.sizeInStack true = 0 := by
  unfold Layout.sizeInStack; rw [if_pos]; simp [h]

theorem held_mem {l : Layout} (hc : l.cls = .memory) {s v} : Held l s v ↔ OnStack l s v := by
  refine ⟨fun h => h.1 hc, fun h => ⟨fun _ => h, ?_⟩⟩
  intro as g f hb
  rw [build_none (.inr hc)] at hb
  cases hb

theorem held_void {l : Layout} (hc : l.cls = .void) {s v} : Held l s v := by
  refine ⟨fun h => ?_, ?_⟩
  · rw [hc] at h; cases h
  · intro as g f hb
    rw [build_none (.inl hc)] at hb
    cases hb

theorem held_one {l : Layout} {r g f} (hb : build l gps fps = some ([⟨0, l.size, r⟩], g, f)) (hc : l.cls ≠ .memory) {s v} :
    Held l s v ↔ ∀ i < l.size, ∀ b, v i = some b → regByte s r i = b := by
  constructor
  · intro h i hi b hv
    exact h.2 _ _ _ hb ⟨0, l.size, r⟩ (by simp) i hi b (by rw [Nat.zero_add]; exact hv)
  · intro h
    refine ⟨fun h' => absurd h' hc, ?_⟩
    intro as g' f' hb' a ha i hi b hv
    rw [hb] at hb'
    cases hb'
    rw [List.mem_singleton] at ha
    subst ha
    rw [Nat.zero_add] at hv
    exact h i hi b hv

theorem held_two {l : Layout} {r1 r2 g f} (hb : build l gps fps = some ([⟨0, 8, r1⟩, ⟨8, l.size - 8, r2⟩], g, f))
    (hc : l.cls ≠ .memory) {s v} :
    Held l s v ↔ (∀ i < 8, ∀ b, v i = some b → regByte s r1 i = b) ∧
      (∀ i < l.size - 8, ∀ b, v (8 + i) = some b → regByte s r2 i = b) := by
  constructor
  · intro h
    refine ⟨fun i hi b hv => ?_, fun i hi b hv => ?_⟩
    · exact h.2 _ _ _ hb ⟨0, 8, r1⟩ (by simp) i hi b (by rw [Nat.zero_add]; exact hv)
    · exact h.2 _ _ _ hb ⟨8, l.size - 8, r2⟩ (by simp) i hi b hv
  · intro h
    refine ⟨fun h' => absurd h' hc, ?_⟩
    intro as g' f' hb' a ha i hi b hv
    rw [hb] at hb'
    cases hb'
    simp only [List.mem_cons, List.not_mem_nil, or_false] at ha
    rcases ha with ha | ha <;> subst ha
    · rw [Nat.zero_add] at hv
      exact h.1 i hi b hv
    · exact h.2 i hi b hv

/-- C54: pushing puts the value on the stack. -/
theorem push_spec {l : Layout} (hl : Shape l) {s : St} {v : Val} (h : Held l s v) :
    ∃ s', exec (push l).1 s = some s' ∧ OnStack l s' v ∧ s'.rsp = s.rsp + l.sizeInStack true - l.numEightbytes * 8 ∧
      s'.rsp = s.rsp - 8 * (push l).2 ∧ (∀ a, s.rsp ≤ a → s'.mem a = s.mem a) ∧ s'.rbp = s.rbp := by
  cases hl with
  | void h0 hc =>
    refine ⟨s, ?_, ?_, ?_, ?_, fun _ _ => rfl, rfl⟩
    · simp [push, build_none (.inl hc), exec]
    · intro i hi; omega
    · rw [sizeInStack_reg (by rw [hc]; simp)]; unfold Layout.numEightbytes; omega
    · simp [push, build_none (.inl hc)]
  | mem hc =>
    refine ⟨s, ?_, (held_mem hc).1 h, ?_, ?_, fun _ _ => rfl, rfl⟩
    · simp [push, build_none (.inr hc), exec]
    · rw [sizeInStack_mem hc]; omega
    · simp [push, build_none (.inr hc)]
  | one r g f hb h0 h8 hr hc =>
    obtain ⟨s', he, hm, hq, hs, hk⟩ := regPush_spec hr s
    have hnum : regNum r = 1 := by rcases hr with h | h | h | h <;> subst h <;> rfl
    refine ⟨s', ?_, ?_, ?_, ?_, ?_, hk.rbp⟩
    · simpa [push, hb, Code.flat, Code.cat, pushEightbyte] using he
    · intro i hi b hv
      rw [hm, hs, setMem_at i rfl (by omega)]
      exact (held_one hb hc).1 h i hi b hv
    · rw [hs, sizeInStack_reg hc, num_one h0 h8]; omega
    · simp [push, hb, Code.flat, Code.cat, pushEightbyte, hnum, hs]
    · intro a ha
      rw [hm, setMem_out (by omega)]
  | two r1 r2 g f hb h0 h16 hr1 hr2 hne hc =>
    obtain ⟨s1, he1, hm1, hq1, hs1, hk1⟩ := regPush_spec hr2 s
    obtain ⟨s2, he2, hm2, hq2, hs2, hk2⟩ := regPush_spec hr1 s1
    have hnum1 : regNum r1 = 1 := by rcases hr1 with h | h | h | h <;> subst h <;> rfl
    have hnum2 : regNum r2 = 1 := by rcases hr2 with h | h | h | h <;> subst h <;> rfl
    obtain ⟨h1, h2⟩ := (held_two hb hc).1 h
    refine ⟨s2, ?_, ?_, ?_, ?_, ?_, by rw [hk2.rbp, hk1.rbp]⟩
    · simpa [push, hb, Code.flat, Code.cat, pushEightbyte] using exec_append_some he1 he2
    · intro i hi b hv
      rw [hm2, hs2]
      by_cases hi8 : i < 8
      · rw [setMem_at i rfl hi8, hq1 _ hr1]
        exact h1 i hi8 b hv
      · rw [setMem_out (by omega), hm1, hs1, setMem_at (i - 8) (by omega) (by omega)]
        exact h2 (i - 8) (by omega) b (by rw [show 8 + (i - 8) = i by omega]; exact hv)
    · rw [hs2, hs1, sizeInStack_reg hc, num_two h0 h16]; omega
    · simp [push, hb, Code.flat, Code.cat, pushEightbyte, hnum1, hnum2, hs1, hs2]; omega
    · intro a ha
      rw [hm2, setMem_out (by omega), hm1, setMem_out (by omega)]

/-- C54: popping takes the value from the stack. -/
theorem pop_spec {l : Layout} (hl : Shape l) {s : St} {v : Val} (h : OnStack l s v) :
    ∃ s', exec (pop l).1 s = some s' ∧ Held l s' v ∧ s'.rsp = s.rsp + l.numEightbytes * 8 - l.sizeInStack true ∧
      s'.rsp = s.rsp - 8 * (pop l).2 ∧ s'.mem = s.mem ∧ s'.rbp = s.rbp := by
  cases hl with
  | void h0 hc =>
    refine ⟨s, ?_, held_void hc, ?_, ?_, rfl, rfl⟩
    · simp [pop, build_none (.inl hc), exec]
    · rw [sizeInStack_reg (by rw [hc]; simp)]; unfold Layout.numEightbytes; omega
    · simp [pop, build_none (.inl hc)]
  | mem hc =>
    refine ⟨s, ?_, (held_mem hc).2 h, ?_, ?_, rfl, rfl⟩
    · simp [pop, build_none (.inr hc), exec]
    · rw [sizeInStack_mem hc]; omega
    · simp [pop, build_none (.inr hc)]
  | one r g f hb h0 h8 hr hc =>
    obtain ⟨s', he, hb', hq, hm, hs, hk⟩ := regPop_spec hr s
    have hnum : regNum r = 1 := by rcases hr with h | h | h | h <;> subst h <;> rfl
    refine ⟨s', ?_, ?_, ?_, ?_, hm, hk.rbp⟩
    · simpa [pop, hb, Code.flat, Code.cat, popEightbyte] using he
    · rw [held_one hb hc]
      intro i hi b hv
      rw [hb']
      exact h i hi b hv
    · rw [hs, sizeInStack_reg hc, num_one h0 h8]; omega
    · simp [pop, hb, Code.flat, Code.cat, popEightbyte, hnum, hs]
  | two r1 r2 g f hb h0 h16 hr1 hr2 hne hc =>
    obtain ⟨s1, he1, hb1, hq1, hm1, hs1, hk1⟩ := regPop_spec hr1 s
    obtain ⟨s2, he2, hb2, hq2, hm2, hs2, hk2⟩ := regPop_spec hr2 s1
    have hnum1 : regNum r1 = 1 := by rcases hr1 with h | h | h | h <;> subst h <;> rfl
    have hnum2 : regNum r2 = 1 := by rcases hr2 with h | h | h | h <;> subst h <;> rfl
    refine ⟨s2, ?_, ?_, ?_, ?_, by rw [hm2, hm1], by rw [hk2.rbp, hk1.rbp]⟩
    · simpa [pop, hb, Code.flat, Code.cat, popEightbyte] using exec_append_some he1 he2
    · rw [held_two hb hc]
      refine ⟨fun i hi b hv => ?_, fun i hi b hv => ?_⟩
      · rw [hq2 r1 hr1 hne, hb1]
        exact h i (by omega) b hv
      · rw [hb2, hm1, hs1]
        have := h (8 + i) (by omega) b hv
        rw [← this]
        congr 1
        omega
    · rw [hs2, hs1, sizeInStack_reg hc, num_two h0 h16]; omega
    · simp [pop, hb, Code.flat, Code.cat, popEightbyte, hnum1, hnum2, hs1, hs2]; omega

end Verif.StackMachine
