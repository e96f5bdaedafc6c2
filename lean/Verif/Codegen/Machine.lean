import Verif.Codegen.Static

/-!
# Running pieces of code
-/
namespace Verif.Codegen
open Spec

/-- Some number of steps. -/
inductive Steps (w : World) (C : Code) : M → M → Prop
  | refl {m} : Steps w C m m
  | head {m m1 m2} : step w C m = some m1 → Steps w C m1 m2 → Steps w C m m2

theorem Steps.trans {w C m m1 m2} (h : Steps w C m m1) (h' : Steps w C m1 m2) : Steps w C m m2 := by
  induction h with
  | refl => exact h'
  | head a _ ih => exact .head a (ih h')

theorem Steps.one {w C m m1} (h : step w C m = some m1) : Steps w C m m1 := .head h .refl

theorem Steps.run {w C m m'} (h : Steps w C m m') : ∃ n, run w C n m = some m' := by
  induction h with
  | refl => exact ⟨0, rfl⟩
  | head a _ ih =>
    obtain ⟨n, hn⟩ := ih
    exact ⟨n + 1, by rw [Codegen.run, a]; exact hn⟩

/-- The code is at that place of the program. -/
def At (C : Code) (pc : Int) (c : Code) : Prop := ∃ pre post, C = pre ++ c ++ post ∧ pc = (pre.length : Int)

theorem At.left {C pc a b} (h : At C pc (a ++ b)) : At C pc a := by
  obtain ⟨pre, post, h, hp⟩ := h
  exact ⟨pre, b ++ post, by rw [h]; simp, hp⟩

theorem At.right {C pc a b} (h : At C pc (a ++ b)) : At C (pc + a.length) b := by
  obtain ⟨pre, post, h, hp⟩ := h
  exact ⟨pre ++ a, post, by rw [h]; simp, by rw [hp, List.length_append]; omega⟩

theorem At.tail {C pc i c} (h : At C pc (i :: c)) : At C (pc + 1) c := At.right (a := [i]) h

theorem At.get {C pc i c} (h : At C pc (i :: c)) : 0 ≤ pc ∧ C[pc.toNat]? = some i := by
  obtain ⟨pre, post, h, hp⟩ := h
  subst hp
  refine ⟨by omega, ?_⟩
  rw [h]; simp

theorem At.step {w C m i c} (h : At C m.pc (i :: c)) : step w C m = exec w C m i := by
  obtain ⟨h0, hg⟩ := h.get
  unfold Codegen.step
  rw [if_neg (by omega), hg]

/-- One instruction, whatever comes after it. -/
theorem At.exec {w C m i c m1} (h : At C m.pc (i :: c)) (he : exec w C m i = some m1) : Steps w C m m1 := .one (h.step.trans he)

/-! ### Labels are found -/

theorem findIdx_of {C : Code} {n : Nat} {i : Instr} (h : C[n]? = some i) (hc : C.count i ≤ 1) : C.findIdx (· = i) = n := by
  induction C generalizing n with
  | nil => simp at h
  | cons j C ih =>
    rw [List.findIdx_cons]
    rw [List.count_cons] at hc
    cases n with
    | zero =>
      simp only [List.getElem?_cons_zero, Option.some.injEq] at h
      simp [h]
    | succ n =>
      rw [List.getElem?_cons_succ] at h
      have hm : i ∈ C := List.mem_of_getElem? h
      have : 0 < C.count i := List.count_pos_iff.2 hm
      have hne : ¬ j = i := by
        intro e; simp [e] at hc; omega
      simp only [hne, decide_false, cond_false]
      rw [ih h (by omega)]

/-- Every label is defined at most once. -/
structure Uniq (C : Code) : Prop where
  lab : ∀ l, cl l C ≤ 1
  fn : ∀ f, cf f C ≤ 1

theorem Uniq.find_label {C : Code} (h : Uniq C) {pc l c} (ha : At C pc (.label l :: c)) : find C (.label l) = pc := by
  obtain ⟨h0, hg⟩ := ha.get
  unfold find; rw [findIdx_of hg (h.lab l)]; omega

theorem Uniq.find_fn {C : Code} (h : Uniq C) {pc l c} (ha : At C pc (.fn l :: c)) : find C (.fn l) = pc := by
  obtain ⟨h0, hg⟩ := ha.get
  unfold find; rw [findIdx_of hg (h.fn l)]; omega

/-! ### Reading and writing -/

theorem upd_same {α : Type} [DecidableEq α] (f : α → Int) (a : α) (v : Int) : upd f a v a = v := by unfold upd; rw [if_pos rfl]
theorem upd_ne {α : Type} [DecidableEq α] (f : α → Int) {a b : α} (v : Int) (h : b ≠ a) : upd f a v b = f b := by unfold upd; rw [if_neg h]

theorem read_length (h : Int → Int) (p : Int) (n : Nat) : (Spec.read h p n).length = n := by
  induction n generalizing p with
  | zero => rfl
  | succ n ih => rw [Spec.read, List.length_cons, ih]

theorem read_congr {h h' : Int → Int} {p : Int} {n : Nat} (he : ∀ a, p ≤ a → a < p + 8 * n → h a = h' a) : Spec.read h p n = Spec.read h' p n := by
  induction n generalizing p with
  | zero => rfl
  | succ n ih =>
    rw [Spec.read, Spec.read, he p (by omega) (by omega), ih fun a h1 h2 => he a (by omega) (by omega)]

theorem read_snoc (h : Int → Int) (p : Int) (n : Nat) : Spec.read h p (n + 1) = Spec.read h p n ++ [h (p + 8 * n)] := by
  induction n generalizing p with
  | zero => simp [Spec.read]
  | succ n ih =>
    rw [Spec.read, ih, Spec.read, List.cons_append]
    congr 4
    omega

theorem read_add (h : Int → Int) (p : Int) (n m : Nat) : Spec.read h p (n + m) = Spec.read h p n ++ Spec.read h (p + 8 * n) m := by
  induction n generalizing p with
  | zero => simp [Spec.read]
  | succ n ih =>
    rw [show n + 1 + m = (n + m) + 1 by omega, Spec.read, ih, Spec.read, List.cons_append]
    congr 3
    omega

theorem read_drop_take (h : Int → Int) (p : Int) (o n N : Nat) (hle : o + n ≤ N) : ((Spec.read h p N).drop o).take n = Spec.read h (p + 8 * o) n := by
  rw [show N = o + (n + (N - o - n)) by omega, read_add, read_add]
  rw [List.drop_left' (read_length _ _ _), List.take_left' (read_length _ _ _)]

theorem write_out {h : Int → Int} {p : Int} {v : List Int} {a : Int} (ho : a < p ∨ p + 8 * v.length ≤ a) : write h p v a = h a := by
  induction v generalizing h p with
  | nil => rfl
  | cons x v ih =>
    rw [List.length_cons] at ho
    rw [write, ih (by omega), upd_ne]
    omega

theorem read_write (h : Int → Int) (p : Int) (v : List Int) : Spec.read (write h p v) p v.length = v := by
  induction v generalizing h p with
  | nil => rfl
  | cons x v ih =>
    rw [List.length_cons, Spec.read, write, write_out (by omega), upd_same, ih]

theorem write_congr {h h' : Int → Int} {p : Int} {v : List Int} {a : Int} (he : h a = h' a) : write h p v a = write h' p v a := by
  induction v generalizing h h' p with
  | nil => exact he
  | cons x v ih => rw [write, write]; exact ih (by unfold upd; rw [he])

/-! ### Values and where they are -/

/-- The last value: up to two eightbytes in registers, more on the stack.  `r0` is where the stack ends below it. -/
def Held (m : M) (r0 : Int) : List Int → Prop
  | [] => m.r .rsp = r0
  | [a] => m.r .rsp = r0 ∧ m.r .rax = a
  | [a, b] => m.r .rsp = r0 ∧ m.r .rax = a ∧ m.r .rdx = b
  | v => m.r .rsp = r0 - 8 * (v.length : Int) ∧ Spec.read m.mem (m.r .rsp) v.length = v

/-- A value on the stack. -/
def OnStack (m : M) (r0 : Int) (v : List Int) : Prop := m.r .rsp = r0 - 8 * (v.length : Int) ∧ Spec.read m.mem (m.r .rsp) v.length = v

theorem Held.rsp {m r0 v} (h : Held m r0 v) : m.r .rsp = r0 - 8 * (msz v.length : Int) := by
  rcases v with _ | ⟨a, _ | ⟨b, _ | ⟨c, v⟩⟩⟩
  · have h : m.r .rsp = r0 := h; simp [msz]; omega
  · have := h.1; simp [msz]; omega
  · have := h.1; simp [msz]; omega
  · have := h.1
    rw [this]; unfold msz
    rw [if_neg (by simp only [List.length_cons]; omega)]

theorem held_mem {m r0 v} (h : 2 < v.length) : Held m r0 v ↔ OnStack m r0 v := by
  rcases v with _ | ⟨a, _ | ⟨b, _ | ⟨c, v⟩⟩⟩
  · simp at h
  · simp at h
  · simp at h
  · exact Iff.rfl

/-- Everything from `r0` upwards, the frame pointer and the outside are as before. -/
structure Keep (r0 : Int) (m m' : M) : Prop where
  mem : ∀ a, r0 ≤ a → m'.mem a = m.mem a
  rbp : m'.r .rbp = m.r .rbp
  brk : m'.brk = m.brk
  out : m'.out = m.out

theorem Keep.refl {r0 m} : Keep r0 m m := ⟨fun _ _ => rfl, rfl, rfl, rfl⟩
theorem Keep.trans {r0 m m' m''} (h : Keep r0 m m') (h' : Keep r0 m' m'') : Keep r0 m m'' :=
  ⟨fun a ha => (h'.mem a ha).trans (h.mem a ha), h'.rbp.trans h.rbp, h'.brk.trans h.brk, h'.out.trans h.out⟩
theorem Keep.mono {r0 r1 m m'} (h : Keep r0 m m') (hr : r0 ≤ r1) : Keep r1 m m' :=
  ⟨fun a ha => h.mem a (Int.le_trans hr ha), h.rbp, h.brk, h.out⟩

/-- Registers that hold addresses while values are moved. -/
structure KeepR (m m' : M) : Prop where
  rdi : m'.r .rdi = m.r .rdi
  rsi : m'.r .rsi = m.r .rsi

theorem KeepR.trans {m m' m''} (h : KeepR m m') (h' : KeepR m' m'') : KeepR m m'' := ⟨h'.rdi.trans h.rdi, h'.rsi.trans h.rsi⟩

variable {w : World} {C : Code}

theorem extend_run {m : M} {n : Nat} (h : At C m.pc (extend n)) :
    ∃ m', Steps w C m m' ∧ m'.pc = m.pc + (extend n).length ∧ m'.r .rsp = m.r .rsp - 8 * (n : Int) ∧ (∀ r, r ≠ .rsp → m'.r r = m.r r) ∧
      m'.mem = m.mem ∧ m'.brk = m.brk ∧ m'.out = m.out := by
  unfold extend at h ⊢
  split
  · next hn => subst hn; exact ⟨m, .refl, by simp, by simp, fun _ _ => rfl, rfl, rfl, rfl⟩
  · next hn =>
    rw [if_neg hn] at h
    refine ⟨_, h.exec rfl, rfl, ?_, fun r hr => upd_ne _ _ hr, rfl, rfl, rfl⟩
    simp only [upd_same]; omega

theorem shrink_run {m : M} {n : Nat} (h : At C m.pc (shrink n)) :
    ∃ m', Steps w C m m' ∧ m'.pc = m.pc + (shrink n).length ∧ m'.r .rsp = m.r .rsp + 8 * (n : Int) ∧ (∀ r, r ≠ .rsp → m'.r r = m.r r) ∧
      m'.mem = m.mem ∧ m'.brk = m.brk ∧ m'.out = m.out := by
  unfold shrink at h ⊢
  split
  · next hn => subst hn; exact ⟨m, .refl, by simp, by simp, fun _ _ => rfl, rfl, rfl, rfl⟩
  · next hn =>
    rw [if_neg hn] at h
    refine ⟨_, h.exec rfl, rfl, ?_, fun r hr => upd_ne _ _ hr, rfl, rfl, rfl⟩
    simp only [upd_same]; omega

theorem push_run {m : M} {r0 : Int} {v : List Int} (h : At C m.pc (pushV v.length)) (hh : Held m r0 v) :
    ∃ m', Steps w C m m' ∧ m'.pc = m.pc + (pushV v.length).length ∧ OnStack m' r0 v ∧ Keep r0 m m' ∧ KeepR m m' := by
  rcases v with _ | ⟨a, _ | ⟨b, _ | ⟨c, v⟩⟩⟩
  · exact ⟨m, .refl, by simp [pushV], ⟨by rw [show m.r .rsp = r0 from hh]; simp, rfl⟩, .refl, ⟨rfl, rfl⟩⟩
  · obtain ⟨h1, h2⟩ := hh
    refine ⟨_, h.exec rfl, rfl, ⟨?_, ?_⟩, ⟨fun a ha => ?_, ?_, rfl, rfl⟩, ⟨?_, ?_⟩⟩
    · simp [upd, h1]
    · simp [Spec.read, upd, h2]
    · exact upd_ne _ _ (by rw [h1]; omega)
    all_goals simp [upd]
  · obtain ⟨h1, h2, h3⟩ := hh
    refine ⟨_, (h.exec rfl).trans (At.exec (At.tail h) rfl), ?_, ⟨?_, ?_⟩, ⟨fun a ha => ?_, ?_, rfl, rfl⟩, ⟨?_, ?_⟩⟩
    · simp [pushV]; omega
    · simp [upd, h1]; omega
    · simp [Spec.read, upd, h2, h3]; intro h; omega
    · simp only [upd_same]
      rw [upd_ne _ _ (by rw [h1]; omega), upd_ne _ _ (by rw [h1]; omega)]
    all_goals simp [upd]
  · exact ⟨m, .refl, by simp [pushV], (held_mem (by simp)).1 hh, .refl, ⟨rfl, rfl⟩⟩

theorem pop_run {m : M} {r0 : Int} {v : List Int} (h : At C m.pc (popV v.length)) (hh : OnStack m r0 v) :
    ∃ m', Steps w C m m' ∧ m'.pc = m.pc + (popV v.length).length ∧ Held m' r0 v ∧ m'.mem = m.mem ∧ m'.r .rbp = m.r .rbp ∧ m'.brk = m.brk ∧
      m'.out = m.out ∧ KeepR m m' := by
  obtain ⟨h1, h2⟩ := hh
  rcases v with _ | ⟨a, _ | ⟨b, _ | ⟨c, v⟩⟩⟩
  · exact ⟨m, .refl, by simp [popV], by show m.r .rsp = r0; simpa using h1, rfl, rfl, rfl, rfl, ⟨rfl, rfl⟩⟩
  · simp only [List.length_cons, List.length_nil, Spec.read, List.cons.injEq, and_true] at h1 h2
    refine ⟨_, h.exec rfl, rfl, ⟨?_, ?_⟩, rfl, ?_, rfl, rfl, ⟨?_, ?_⟩⟩
    · simp [upd, h1]
    · simp [upd, h2]
    all_goals simp [upd]
  · simp only [List.length_cons, List.length_nil, Spec.read, List.cons.injEq, and_true] at h1 h2
    refine ⟨_, (h.exec rfl).trans (At.exec (At.tail h) rfl), ?_, ⟨?_, ?_, ?_⟩, rfl, ?_, rfl, rfl, ⟨?_, ?_⟩⟩
    · simp [popV]; omega
    · simp [upd, h1]; omega
    · simp [upd, h2]
    · simp [upd, h2]
    all_goals simp [upd]
  · exact ⟨m, .refl, by simp [popV], (held_mem (by simp)).2 ⟨h1, h2⟩, rfl, rfl, rfl, rfl, ⟨rfl, rfl⟩⟩

theorem loadMem_run {b : Reg} (hb : b ≠ .rsp) (hb' : b ≠ .r11) (o : Int) (n : Nat) : ∀ {m : M}, At C m.pc (loadMem b o n) → m.r .rsp ≤ m.r b + o →
    ∃ m', Steps w C m m' ∧ m'.pc = m.pc + (loadMem b o n).length ∧ OnStack m' (m.r .rsp) (Spec.read m.mem (m.r b + o) n) ∧ Keep (m.r .rsp) m m' ∧ KeepR m m' := by
  induction n with
  | zero => intro m _ _; exact ⟨m, .refl, by simp [loadMem], ⟨by simp [Spec.read], rfl⟩, .refl, ⟨rfl, rfl⟩⟩
  | succ n ih =>
    intro m h hle
    rw [loadMem] at h
    obtain ⟨m', s', p', o', k', r'⟩ := @ih { m with r := upd (upd m.r .r11 (m.mem (m.r b + (o + 8 * (n : Int))))) .rsp (m.r .rsp - 8), mem := upd m.mem (m.r .rsp - 8) (m.mem (m.r b + (o + 8 * (n : Int)))), pc := m.pc + 1 + 1 } h.tail.tail (by
        simp only [upd_same]; rw [upd_ne _ _ hb, upd_ne _ _ hb']; omega)
    refine ⟨m', ((h.exec rfl).trans (h.tail.exec (m1 := _) ?_)).trans s', ?_, ?_, ?_, ?_⟩
    · simp only [exec, upd_same]
      rw [upd_ne _ _ (by decide : Reg.rsp ≠ .r11)]
    · rw [p']; simp [loadMem]; omega
    · simp only [upd_same, upd_ne _ _ hb, upd_ne _ _ hb'] at o' k'
      obtain ⟨o1, o2⟩ := o'
      rw [read_length] at o1 o2
      refine ⟨by rw [read_length, o1]; omega, ?_⟩
      rw [read_length, read_snoc, o2, read_snoc]
      congr 1
      · exact read_congr fun a h1 _ => upd_ne _ _ (by omega)
      · rw [k'.mem _ (by omega)]
        simp only [o1]
        rw [show m.r .rsp - 8 - 8 * (n : Int) + 8 * (n : Int) = m.r .rsp - 8 by omega, upd_same]
        rw [show m.r b + (o + 8 * (n : Int)) = m.r b + o + 8 * (n : Int) by omega]
    · simp only [upd_same] at k'
      refine ⟨fun a ha => ?_, ?_, k'.brk, k'.out⟩
      · rw [k'.mem a (by omega)]; exact upd_ne _ _ (by omega)
      · rw [k'.rbp]; simp [upd]
    · exact ⟨by rw [r'.rdi]; simp [upd], by rw [r'.rsi]; simp [upd]⟩

theorem load_run {b : Reg} (hb : b = .rbp ∨ b = .rdi ∨ b = .rsi) {o : Int} {n : Nat} {m : M} (h : At C m.pc (loadV b o n)) (hle : m.r .rsp ≤ m.r b + o) :
    ∃ m', Steps w C m m' ∧ m'.pc = m.pc + (loadV b o n).length ∧ Held m' (m.r .rsp) (Spec.read m.mem (m.r b + o) n) ∧ Keep (m.r .rsp) m m' ∧ KeepR m m' := by
  have hb1 : b ≠ .rsp := by rcases hb with rfl | rfl | rfl <;> decide
  have hb2 : b ≠ .r11 := by rcases hb with rfl | rfl | rfl <;> decide
  have hb3 : b ≠ .rax := by rcases hb with rfl | rfl | rfl <;> decide
  rcases n with _ | _ | _ | n
  · exact ⟨m, .refl, by simp [loadV], rfl, .refl, ⟨rfl, rfl⟩⟩
  · refine ⟨_, h.exec rfl, rfl, ⟨?_, ?_⟩, ⟨fun _ _ => rfl, ?_, rfl, rfl⟩, ⟨?_, ?_⟩⟩ <;> simp [upd]
  · refine ⟨_, (h.exec rfl).trans (At.exec (At.tail h) rfl), ?_, ⟨?_, ?_, ?_⟩, ⟨fun _ _ => rfl, ?_, rfl, rfl⟩, ⟨?_, ?_⟩⟩
    · simp [loadV]; omega
    · simp [upd]
    · simp [upd]
    · simp only [upd_same]; rw [upd_ne _ _ hb3]; congr 1; omega
    all_goals simp [upd]
  · obtain ⟨m', s, p, o, k, r⟩ := loadMem_run (w := w) hb1 hb2 o (n + 3) h hle
    exact ⟨m', s, p, (held_mem (by rw [read_length]; omega)).2 o, k, r⟩

theorem storeMem_run {b : Reg} (hb : b ≠ .rsp) (hb' : b ≠ .r11) (v : List Int) : ∀ {m : M} {r0 : Int} (o : Int), At C m.pc (storeMem b o v.length) → OnStack m r0 v →
    r0 ≤ m.r b + o → ∃ m', Steps w C m m' ∧ m'.pc = m.pc + (storeMem b o v.length).length ∧ m'.r .rsp = r0 ∧ m'.mem = write m.mem (m.r b + o) v ∧
      m'.r .rbp = m.r .rbp ∧ m'.brk = m.brk ∧ m'.out = m.out ∧ KeepR m m' := by
  induction v with
  | nil => intro m r0 o _ h _; exact ⟨m, .refl, by simp [storeMem], by rw [h.1]; simp, rfl, rfl, rfl, rfl, ⟨rfl, rfl⟩⟩
  | cons x v ih =>
    intro m r0 o h hs hle
    rw [List.length_cons, storeMem] at h
    obtain ⟨h1, h2⟩ := hs
    rw [List.length_cons, Spec.read, List.cons.injEq] at h2
    rw [List.length_cons] at h1
    have e : exec w C { m with r := upd (upd m.r .rsp (m.r .rsp + 8)) .r11 (m.mem (m.r .rsp)), pc := m.pc + 1 } (.st b o .r11) =
        some { m with r := upd (upd m.r .rsp (m.r .rsp + 8)) .r11 (m.mem (m.r .rsp)), mem := upd m.mem (m.r b + o) x, pc := m.pc + 1 + 1 } := by
      simp only [exec, upd_same]
      rw [upd_ne _ _ hb', upd_ne _ _ hb, h2.1]
    obtain ⟨m', s', p', a', b', c', d', e', r'⟩ := @ih { m with r := upd (upd m.r .rsp (m.r .rsp + 8)) .r11 (m.mem (m.r .rsp)), mem := upd m.mem (m.r b + o) x, pc := m.pc + 1 + 1 }
      r0 (o + 8) h.tail.tail ⟨by simp [upd]; omega, by
        simp only [upd_ne _ _ (by decide : Reg.rsp ≠ .r11), upd_same]
        exact (read_congr fun a h1 h2 => upd_ne _ _ (by omega)).trans h2.2⟩ (by
        show r0 ≤ upd (upd m.r .rsp (m.r .rsp + 8)) .r11 (m.mem (m.r .rsp)) b + (o + 8)
        rw [upd_ne _ _ hb', upd_ne _ _ hb]; omega)
    refine ⟨m', ((h.exec rfl).trans (h.tail.exec e)).trans s', ?_, a', ?_, ?_, d', e', ?_⟩
    · rw [p']; simp [storeMem]; omega
    · rw [b', write]
      simp only [upd_ne _ _ hb', upd_ne _ _ hb]
      rw [show m.r b + (o + 8) = m.r b + o + 8 by omega]
    · rw [c']; simp [upd]
    · exact ⟨by rw [r'.rdi]; simp [upd], by rw [r'.rsi]; simp [upd]⟩

theorem store_run {b : Reg} (hb : b ≠ .rsp) (hb' : b ≠ .r11) {v : List Int} {m : M} {r0 o : Int} (h : At C m.pc (storeV b o v.length)) (hh : Held m r0 v)
    (hle : r0 ≤ m.r b + o) : ∃ m', Steps w C m m' ∧ m'.pc = m.pc + (storeV b o v.length).length ∧ m'.r .rsp = r0 ∧ m'.mem = write m.mem (m.r b + o) v ∧
      m'.r .rbp = m.r .rbp ∧ m'.brk = m.brk ∧ m'.out = m.out ∧ KeepR m m' := by
  rcases v with _ | ⟨x, _ | ⟨y, _ | ⟨z, v⟩⟩⟩
  · exact ⟨m, .refl, by simp [storeV], hh, rfl, rfl, rfl, rfl, ⟨rfl, rfl⟩⟩
  · obtain ⟨h1, h2⟩ := hh
    exact ⟨_, h.exec rfl, rfl, h1, by simp [write, h2], rfl, rfl, rfl, ⟨rfl, rfl⟩⟩
  · obtain ⟨h1, h2, h3⟩ := hh
    refine ⟨_, (h.exec rfl).trans (At.exec (At.tail h) rfl), ?_, h1, ?_, rfl, rfl, rfl, ⟨rfl, rfl⟩⟩
    · simp [storeV]; omega
    · simp only [write, h2, h3]
      rw [show m.r b + (o + 8) = m.r b + o + 8 by omega]
  · exact storeMem_run hb hb' _ _ h ((held_mem (by simp)).1 hh) hle

/-! ### Parts of a value, allocation, operations, arguments of C functions -/

theorem keep_of_mem {r0 : Int} {m m' : M} (h : m'.mem = m.mem) (hb : m'.r .rbp = m.r .rbp) (hk : m'.brk = m.brk) (ho : m'.out = m.out) : Keep r0 m m' :=
  ⟨fun a _ => by rw [h], hb, hk, ho⟩

theorem slideUp_run (src dst : Nat) (hsd : src ≤ dst) (n : Nat) : ∀ {m : M}, At C m.pc (slideUp src dst n) →
    ∃ m', Steps w C m m' ∧ m'.pc = m.pc + (slideUp src dst n).length ∧ m'.r .rsp = m.r .rsp ∧ m'.r .rbp = m.r .rbp ∧ m'.brk = m.brk ∧ m'.out = m.out ∧
      Spec.read m'.mem (m.r .rsp + 8 * (dst : Int)) n = Spec.read m.mem (m.r .rsp + 8 * (src : Int)) n ∧
      ∀ a, a < m.r .rsp + 8 * (dst : Int) ∨ m.r .rsp + 8 * (dst : Int) + 8 * (n : Int) ≤ a → m'.mem a = m.mem a := by
  induction n with
  | zero => intro m _; exact ⟨m, .refl, by simp [slideUp], rfl, rfl, rfl, rfl, rfl, fun _ _ => rfl⟩
  | succ n ih =>
    intro m h
    rw [slideUp] at h
    have e : exec w C { m with r := upd m.r .r11 (m.mem (m.r .rsp + 8 * ((src + n : Nat) : Int))), pc := m.pc + 1 } (.st .rsp (8 * ((dst + n : Nat) : Int)) .r11) =
        some { m with r := upd m.r .r11 (m.mem (m.r .rsp + 8 * ((src + n : Nat) : Int))), mem := upd m.mem (m.r .rsp + 8 * ((dst + n : Nat) : Int)) (m.mem (m.r .rsp + 8 * ((src + n : Nat) : Int))), pc := m.pc + 1 + 1 } := by
      simp only [exec, upd_same]
      rw [upd_ne _ _ (by decide : Reg.rsp ≠ .r11)]
    obtain ⟨m', s', p', a', b', c', d', r', o'⟩ := @ih { m with r := upd m.r .r11 (m.mem (m.r .rsp + 8 * ((src + n : Nat) : Int))), mem := upd m.mem (m.r .rsp + 8 * ((dst + n : Nat) : Int)) (m.mem (m.r .rsp + 8 * ((src + n : Nat) : Int))), pc := m.pc + 1 + 1 } h.tail.tail
    simp only [upd_ne _ _ (by decide : Reg.rsp ≠ .r11), upd_ne _ _ (by decide : Reg.rbp ≠ .r11)] at a' b' r' o'
    refine ⟨m', ((h.exec rfl).trans (h.tail.exec e)).trans s', ?_, a', b', c', d', ?_, fun a ha => ?_⟩
    · rw [p']; simp [slideUp]; omega
    · rw [read_snoc, r', read_snoc]
      congr 1
      · exact read_congr fun a h1 h2 => upd_ne _ _ (by omega)
      · rw [o' _ (by omega), show m.r .rsp + 8 * (dst : Int) + 8 * (n : Int) = m.r .rsp + 8 * ((dst + n : Nat) : Int) by omega, upd_same,
          show m.r .rsp + 8 * (src : Int) + 8 * (n : Int) = m.r .rsp + 8 * ((src + n : Nat) : Int) by omega]
    · rw [o' a (by omega)]; exact upd_ne _ _ (by omega)

theorem elem_run {m : M} {r0 : Int} {v : List Int} {o n : Nat} (hle : o + n ≤ v.length) (h : At C m.pc (elemCode o n v.length)) (hh : Held m r0 v) :
    ∃ m', Steps w C m m' ∧ m'.pc = m.pc + (elemCode o n v.length).length ∧ Held m' r0 ((v.drop o).take n) ∧ Keep r0 m m' := by
  unfold elemCode at h ⊢
  split at h
  · next hc =>
    rw [if_pos hc]
    obtain ⟨m1, s1, p1, o1, k1, -⟩ := push_run (w := w) h.left.left.left hh
    have h2 : At C m1.pc (slide o (v.length - n) n) := by rw [p1]; exact h.left.left.right
    have hl : (List.take n (List.drop o v)).length = n := by rw [List.length_take, List.length_drop]; omega
    have key : ∃ m2, Steps w C m1 m2 ∧ m2.pc = m1.pc + (slide o (v.length - n) n).length ∧ m2.r .rsp = m1.r .rsp ∧ Keep r0 m1 m2 ∧
        Spec.read m2.mem (m1.r .rsp + 8 * ((v.length - n : Nat) : Int)) n = (v.drop o).take n := by
      have e1 : Spec.read m1.mem (m1.r .rsp + 8 * (o : Int)) n = (v.drop o).take n := by
        have := o1.2
        rw [← read_drop_take _ _ _ _ _ hle, this]
      unfold slide at h2 ⊢
      split
      · next he => exact ⟨m1, .refl, by simp, rfl, .refl, by rw [← he]; exact e1⟩
      · next he =>
        rw [if_neg he] at h2
        have hlt : o < v.length - n := by omega
        rw [if_pos hlt] at h2; rw [if_pos hlt]
        obtain ⟨m2, s2, p2, a2, b2, c2, d2, r2, o2⟩ := slideUp_run (w := w) o (v.length - n) (by omega) n h2
        refine ⟨m2, s2, p2, a2, ⟨fun a ha => o2 a (.inr ?_), b2, c2, d2⟩, r2.trans e1⟩
        have := o1.1; omega
    obtain ⟨m2, s2, p2, a2, k2, r2⟩ := key
    have h3 : At C m2.pc (shrink (v.length - n)) := by
      have := h.left.right; rw [List.length_append] at this
      rw [p2, p1]; rwa [Int.natCast_add, ← Int.add_assoc] at this
    obtain ⟨m3, s3, p3, a3, b3, c3, d3, e3⟩ := shrink_run (w := w) h3
    have on3 : OnStack m3 r0 ((v.drop o).take n) := by
      have := o1.1
      refine ⟨by rw [hl, a3, a2, this]; omega, ?_⟩
      rw [hl, a3, a2, c3]; exact r2
    have h4 : At C m3.pc (popV ((v.drop o).take n).length) := by
      rw [hl]
      have := h.right; rw [List.length_append, List.length_append] at this
      rw [p3, p2, p1]
      rwa [Int.natCast_add, Int.natCast_add, ← Int.add_assoc, ← Int.add_assoc] at this
    obtain ⟨m4, s4, p4, a4, b4, c4, d4, e4, -⟩ := pop_run (w := w) h4 on3
    refine ⟨m4, ((s1.trans s2).trans s3).trans s4, ?_, a4, ((k1.trans k2).trans (keep_of_mem c3 (b3 _ (by decide)) d3 e3)).trans (keep_of_mem b4 c4 d4 e4)⟩
    rw [p4, p3, p2, p1, hl]; simp only [List.length_append]; omega
  · next hc =>
    rw [if_neg hc]
    have : o = 0 ∧ n = v.length := by omega
    obtain ⟨rfl, rfl⟩ := this
    exact ⟨m, .refl, by simp, by simpa using hh, .refl⟩

theorem malloc_run {m : M} {d n : Nat} {B : Int} (h : At C m.pc (mallocCode d n)) (hb : B % 16 = 0) (hr : m.r .rsp = B - 8 * (d : Int)) :
    ∃ m', Steps w C m m' ∧ m'.pc = m.pc + (mallocCode d n).length ∧ m'.r .rsp = m.r .rsp ∧ m'.r .rbp = m.r .rbp ∧ m'.r .rax = m.brk ∧ m'.mem = m.mem ∧
      m'.brk = m.brk + n ∧ m'.out = m.out := by
  unfold mallocCode at h ⊢
  have g1 : Steps w C m { m with r := upd m.r .rdi (n : Int), pc := m.pc + 1 } := At.exec h.left.left.left rfl
  obtain ⟨m1, s1, p1, a1, b1, c1, d1, e1⟩ := extend_run (w := w) (m := { m with r := upd m.r .rdi (n : Int), pc := m.pc + 1 }) h.left.left.right
  simp only [upd_ne _ _ (by decide : Reg.rsp ≠ .rdi)] at a1
  have g2 : At C m1.pc ([.malloc] ++ shrink (d % 2)) := by
    rw [p1]
    have := (show At C m.pc (([.imm .rdi (n : Int)] ++ extend (d % 2)) ++ ([.malloc] ++ shrink (d % 2))) by simpa using h).right
    rwa [List.length_append, Int.natCast_add, ← Int.add_assoc] at this
  have al : m1.r .rsp % 16 = 0 := by rw [a1]; omega
  have g3 : exec w C m1 .malloc = some { m1 with r := clobber w m1 m1.brk (w.junk m1 .rdx), brk := m1.brk + m1.r .rdi, pc := m1.pc + 1 } := by
    simp only [exec, al, if_true]
  obtain ⟨m2, s2, p2, a2, b2, c2, d2, e2⟩ := shrink_run (w := w) (m := { m1 with r := clobber w m1 m1.brk (w.junk m1 .rdx), brk := m1.brk + m1.r .rdi, pc := m1.pc + 1 }) g2.right
  refine ⟨m2, ((g1.trans s1).trans (At.exec g2 g3)).trans s2, ?_, ?_, ?_, ?_, ?_, ?_, ?_⟩
  · rw [p2, p1]; simp; omega
  · rw [a2]; simp only [clobber]; rw [a1]; omega
  · rw [b2 _ (by decide)]; simp only [clobber]; rw [b1 _ (by decide)]; simp [upd]
  · rw [b2 _ (by decide)]; simp only [clobber]; rw [d1]
  · rw [c2]; exact c1
  · rw [d2]; simp only []; rw [d1, b1 _ (by decide)]; simp [upd]
  · rw [e2]; exact e1

theorem bin_run {m : M} {r0 : Int} {op : Op} {x y : Int} (h : At C m.pc (binCode op)) (hs : m.r .rsp = r0 - 8) (hx : m.mem (m.r .rsp) = x) (hy : m.r .rax = y) :
    ∃ m', Steps w C m m' ∧ m'.pc = m.pc + (binCode op).length ∧ Held m' r0 [op.run x y] ∧ Keep r0 m m' := by
  unfold binCode at h ⊢
  split at h
  · next hc =>
    rw [if_pos hc]
    refine ⟨_, (h.exec rfl).trans (At.exec (At.tail h) rfl), ?_, ⟨?_, ?_⟩, keep_of_mem rfl ?_ rfl rfl⟩
    · simp; omega
    · simp [upd]; omega
    · simp [upd, hx, hy]
    · simp [upd]
  · next hc =>
    rw [if_neg hc]
    refine ⟨_, ((h.exec rfl).trans (At.exec (At.tail h) rfl)).trans (At.exec (At.tail (At.tail h)) rfl), ?_, ⟨?_, ?_⟩, keep_of_mem rfl ?_ rfl rfl⟩
    · simp; omega
    · simp [upd]; omega
    · simp [upd, hx, hy]
    · simp [upd]

theorem pops_run (rs : List Reg) : ∀ {m : M} {vs : List Int}, rs.Nodup → .rsp ∉ rs → .rbp ∉ rs → At C m.pc (rs.map Instr.pop) → Spec.read m.mem (m.r .rsp) rs.length = vs →
    ∃ m', Steps w C m m' ∧ m'.pc = m.pc + rs.length ∧ m'.r .rsp = m.r .rsp + 8 * (rs.length : Int) ∧ m'.mem = m.mem ∧ m'.brk = m.brk ∧ m'.out = m.out ∧
      rs.map m'.r = vs ∧ (∀ r, r ∉ rs → r ≠ .rsp → m'.r r = m.r r) := by
  induction rs with
  | nil => intro m vs _ _ _ _ h; exact ⟨m, .refl, by simp, by simp, rfl, rfl, rfl, h, fun _ _ _ => rfl⟩
  | cons r rs ih =>
    intro m vs hnd h1 h2 ha hr
    obtain ⟨hn, hnd⟩ := List.nodup_cons.1 hnd
    simp only [List.mem_cons, not_or] at h1 h2
    obtain ⟨m', s', p', a', b', c', d', e', f'⟩ := @ih { m with r := upd (upd m.r .rsp (m.r .rsp + 8)) r (m.mem (m.r .rsp)), pc := m.pc + 1 }
      (Spec.read m.mem (m.r .rsp + 8) rs.length) hnd h1.2 h2.2 ha.tail (by simp only [upd_ne _ _ h1.1, upd_same])
    simp only [upd_ne _ _ h1.1, upd_same] at a'
    refine ⟨m', (ha.exec rfl).trans s', ?_, ?_, b', c', d', ?_, fun x hx hx' => ?_⟩
    · rw [p', List.length_cons]; simp only []; omega
    · rw [a', List.length_cons]; omega
    · rw [← hr, List.length_cons, Spec.read, List.map_cons, e', f' r hn (Ne.symm h1.1)]
      simp only [upd_same]
    · rw [List.mem_cons, not_or] at hx
      rw [f' x hx.2 hx']
      simp only [upd_ne _ _ hx.1, upd_ne _ _ hx']

end Verif.Codegen
