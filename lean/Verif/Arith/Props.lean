import Verif.Arith.Lemmas

/-!
# C61: the code for arithmetic computes the operation it is for
-/
namespace Verif.Arith

/-- After the operands are in place. -/
theorem exec_prefix (is : List Inst) (st : St) (x : BitVec 64) (rest : List (BitVec 64)) (h : st.stack = x :: rest) :
    exec (.mov .q .rcx .rax :: .pop .rax :: is) st = exec is { st with rax := x, rcx := st.rax, stack := rest } := by
  have e : wr 64 st.rcx (rd 64 st.rax) = st.rax := by rw [wr_q, rd_q]
  simp [exec, step, St.set, St.get, h, Sz.bits, e]

theorem exec_append (is js : List Inst) (st : St) : exec (is ++ js) st = (exec is st).bind (exec js) := by
  induction is generalizing st with
  | nil => rfl
  | cons i is ih =>
    rw [List.cons_append, exec, exec]
    cases step i st with
    | none => rfl
    | some st' => exact ih st'

theorem sext_high : ∀ a : BitVec 8, ((a.signExtend 16) >>> 8).setWidth 8 = signs a := by decide +kernel
theorem sext_low : ∀ a : BitVec 8, (a.signExtend 16).setWidth 8 = a := by decide +kernel
theorem zext_high : ∀ a : BitVec 8, ((a.setWidth 16) >>> 8).setWidth 8 = 0#8 := by decide +kernel
theorem zext_low : ∀ a : BitVec 8, (a.setWidth 16).setWidth 8 = a := by decide +kernel

/-- Signed division: what the instructions leave, with `rax` the dividend and `rcx` the divisor. -/
theorem exec_sdiv (s : Sz) (st : St) (post : List Inst) :
    ∃ st0 : St, st0.stack = st.stack ∧
    exec (sdivCode s ++ post) st =
      (if (rd s.bits st.rcx).toInt = 0 ∨ (rd s.bits st.rax).toInt.tdiv (rd s.bits st.rcx).toInt = 2 ^ (s.bits - 1) then none
       else exec post (putPair s st0 (BitVec.ofInt s.bits ((rd s.bits st.rax).toInt.tmod (rd s.bits st.rcx).toInt))
        (BitVec.ofInt s.bits ((rd s.bits st.rax).toInt.tdiv (rd s.bits st.rcx).toInt)))) := by
  have key : ∀ (s : Sz) (st st0 : St), high s st0 = signs (rd s.bits st.rax) → rd s.bits st0.rax = rd s.bits st.rax → st0.rcx = st.rcx →
      exec ([.idiv s .rcx] ++ post) st0 = (if (rd s.bits st.rcx).toInt = 0 ∨ (rd s.bits st.rax).toInt.tdiv (rd s.bits st.rcx).toInt = 2 ^ (s.bits - 1) then none
       else exec post (putPair s st0 (BitVec.ofInt s.bits ((rd s.bits st.rax).toInt.tmod (rd s.bits st.rcx).toInt))
        (BitVec.ofInt s.bits ((rd s.bits st.rax).toInt.tdiv (rd s.bits st.rcx).toInt)))) := by
    intro s st st0 h1 h2 h3
    rw [List.cons_append, exec, step, h1, h2, St.get, h3, sdivide_signs s.pos]
    split <;> rfl
  cases s with
  | b =>
    refine ⟨{ st with rax := wr 16 st.rax ((rd 8 st.rax).signExtend 16) }, rfl, ?_⟩
    refine key .b st { st with rax := wr 16 st.rax ((rd 8 st.rax).signExtend 16) } ?_ ?_ rfl
    · rw [high_b]
      exact sext_high _
    · change rd 8 (wr 16 _ _) = rd 8 _
      rw [rd_wr (by decide) (by decide)]
      exact sext_low _
  | w => exact ⟨{ st with rdx := wr 16 st.rdx (signs (rd 16 st.rax)) }, rfl,
      key .w st { st with rdx := wr 16 st.rdx (signs (rd 16 st.rax)) } (rd_wr_same (by decide) st.rdx _) rfl rfl⟩
  | l => exact ⟨{ st with rdx := wr 32 st.rdx (signs (rd 32 st.rax)) }, rfl,
      key .l st { st with rdx := wr 32 st.rdx (signs (rd 32 st.rax)) } (rd_wr_same (by decide) st.rdx _) rfl rfl⟩
  | q => exact ⟨{ st with rdx := wr 64 st.rdx (signs (rd 64 st.rax)) }, rfl,
      key .q st { st with rdx := wr 64 st.rdx (signs (rd 64 st.rax)) } (rd_wr_same (by decide) st.rdx _) rfl rfl⟩

/-- Unsigned division. -/
theorem exec_udiv (s : Sz) (st : St) (post : List Inst) :
    ∃ st0 : St, st0.stack = st.stack ∧
    exec (udivCode s ++ post) st =
      (if (rd s.bits st.rcx).toNat = 0 then none
       else exec post (putPair s st0 (BitVec.ofNat s.bits ((rd s.bits st.rax).toNat % (rd s.bits st.rcx).toNat))
        (BitVec.ofNat s.bits ((rd s.bits st.rax).toNat / (rd s.bits st.rcx).toNat)))) := by
  have key : ∀ (s : Sz) (st st0 : St), high s st0 = 0#s.bits → rd s.bits st0.rax = rd s.bits st.rax → st0.rcx = st.rcx →
      exec ([.div s .rcx] ++ post) st0 = (if (rd s.bits st.rcx).toNat = 0 then none
       else exec post (putPair s st0 (BitVec.ofNat s.bits ((rd s.bits st.rax).toNat % (rd s.bits st.rcx).toNat))
        (BitVec.ofNat s.bits ((rd s.bits st.rax).toNat / (rd s.bits st.rcx).toNat)))) := by
    intro s st st0 h1 h2 h3
    rw [List.cons_append, exec, step, h1, h2, St.get, h3, udivide_zero]
    split <;> rfl
  have hx : ∀ s : Sz, s ≠ .b → high s { st with rdx := wr 32 st.rdx (rd 32 st.rdx ^^^ rd 32 st.rdx) } = 0#s.bits := by
    intro s hs
    rw [high_of hs, BitVec.xor_self]
    apply BitVec.eq_of_getLsbD_eq
    intro i hi
    simp [rd, wr, hi]
  cases s with
  | b =>
    refine ⟨{ st with rax := wr 16 st.rax ((rd 8 st.rax).setWidth 16) }, rfl, ?_⟩
    refine key .b st { st with rax := wr 16 st.rax ((rd 8 st.rax).setWidth 16) } ?_ ?_ rfl
    · rw [high_b]
      exact zext_high _
    · change rd 8 (wr 16 _ _) = rd 8 _
      rw [rd_wr (by decide) (by decide)]
      exact zext_low _
  | w => exact ⟨{ st with rdx := wr 32 st.rdx (rd 32 st.rdx ^^^ rd 32 st.rdx) }, rfl, key .w st { st with rdx := wr 32 st.rdx (rd 32 st.rdx ^^^ rd 32 st.rdx) } (hx .w (by decide)) rfl rfl⟩
  | l => exact ⟨{ st with rdx := wr 32 st.rdx (rd 32 st.rdx ^^^ rd 32 st.rdx) }, rfl, key .l st { st with rdx := wr 32 st.rdx (rd 32 st.rdx ^^^ rd 32 st.rdx) } (hx .l (by decide)) rfl rfl⟩
  | q => exact ⟨{ st with rdx := wr 32 st.rdx (rd 32 st.rdx ^^^ rd 32 st.rdx) }, rfl, key .q st { st with rdx := wr 32 st.rdx (rd 32 st.rdx ^^^ rd 32 st.rdx) } (hx .q (by decide)) rfl rfl⟩

/-- **C61.** For every integer operation, every size and all operands (whatever else is in the registers), the emitted code leaves the result of
the operation in the low part of `rax` and takes exactly the left operand off the stack. -/
theorem binary_correct (op : BinOp) (s : Sz) (st : St) (x : BitVec 64) (rest : List (BitVec 64)) (hst : st.stack = x :: rest)
    (r : BitVec s.bits) (hr : Spec.binary op (rd s.bits x) (rd s.bits st.rax) = some r) :
    ∃ st', exec (binary op s) st = some st' ∧ rd s.bits st'.rax = r ∧ st'.stack = rest := by
  let st1 : St := { st with rax := x, rcx := st.rax, stack := rest }
  have hp : ∀ is, exec (.mov .q .rcx .rax :: .pop .rax :: is) st = exec is st1 := fun is => exec_prefix is st x rest hst
  have alu : ∀ (o : Alu) (r : BitVec s.bits), aluOp o (rd s.bits x) (rd s.bits st.rax) = r →
      ∃ st', exec (.mov .q .rcx .rax :: .pop .rax :: [.alu o s .rax .rcx]) st = some st' ∧ rd s.bits st'.rax = r ∧ st'.stack = rest := by
    intro o r h
    rw [hp]
    exact ⟨_, rfl, by simp only [St.set, St.get, st1]; rw [rd_wr_same s.le, h], rfl⟩
  have shift : ∀ (k : Shift) (r : BitVec s.bits), (rd s.bits st.rax).toNat < s.bits →
      shiftOp k (rd s.bits x) (rd s.bits st.rax).toNat = r →
      ∃ st', exec (.mov .q .rcx .rax :: .pop .rax :: [.shift k s]) st = some st' ∧ rd s.bits st'.rax = r ∧ st'.stack = rest := by
    intro k r hc h
    rw [hp]
    exact ⟨_, rfl, by simp only [st1]; rw [rd_wr_same s.le, count_eq s st.rax hc, h], rfl⟩
  have mul : ∀ r, BitVec.ofInt s.bits ((rd s.bits x).toInt * (rd s.bits st.rax).toInt) = r →
      ∃ st', exec (.mov .q .rcx .rax :: .pop .rax :: [.imul1 s .rcx]) st = some st' ∧ rd s.bits st'.rax = r ∧ st'.stack = rest := by
    intro r h
    rw [hp]
    exact ⟨_, rfl, by rw [putPair_rax]; exact h, by rw [putPair_stack]⟩
  cases op <;> simp only [Spec.binary] at hr
  case shl =>
    split at hr
    · exact shift .shl r (by assumption) (by rw [shiftOp, shl_spec]; exact Option.some.inj hr)
    · simp at hr
  case ashr =>
    split at hr
    · exact shift .sar r (by assumption) (by rw [shiftOp, sar_spec]; exact Option.some.inj hr)
    · simp at hr
  case lshr =>
    split at hr
    · exact shift .shr r (by assumption) (by rw [shiftOp, shr_spec]; exact Option.some.inj hr)
    · simp at hr
  case and => exact alu .and r (by rw [← Option.some.inj hr, aluOp]; apply BitVec.eq_of_toNat_eq; simp [Nat.mod_eq_of_lt (Nat.and_lt_two_pow _ (BitVec.isLt _))])
  case or => exact alu .or r (by rw [← Option.some.inj hr, aluOp]; apply BitVec.eq_of_toNat_eq; simp [Nat.mod_eq_of_lt (Nat.or_lt_two_pow (BitVec.isLt _) (BitVec.isLt _))])
  case xor => exact alu .xor r (by rw [← Option.some.inj hr, aluOp]; apply BitVec.eq_of_toNat_eq; simp [Nat.mod_eq_of_lt (Nat.xor_lt_two_pow (BitVec.isLt _) (BitVec.isLt _))])
  case sadd => exact alu .add r (by rw [← Option.some.inj hr, aluOp, add_s])
  case uadd => exact alu .add r (by rw [← Option.some.inj hr, aluOp, add_u])
  case ssub => exact alu .sub r (by rw [← Option.some.inj hr, aluOp, sub_s])
  case usub => exact alu .sub r (by rw [← Option.some.inj hr, aluOp, sub_u])
  case smul => exact mul r (Option.some.inj hr)
  case umul => exact mul r (by rw [mul_su]; exact Option.some.inj hr)
  case sdiv =>
    obtain ⟨st0, h0, e⟩ := exec_sdiv s st1 []
    rw [List.append_nil] at e
    split at hr
    · simp at hr
    · rename_i hc
      refine ⟨_, by exact (hp _).trans (e.trans (if_neg hc)), ?_, ?_⟩
      · rw [putPair_rax]; exact Option.some.inj hr
      · rw [putPair_stack, h0]
  case srem =>
    obtain ⟨st0, h0, e⟩ := exec_sdiv s st1 (remMove s)
    split at hr
    · simp at hr
    · rename_i hc
      obtain ⟨st', e', h1, h2⟩ := putPair_high s st0 (BitVec.ofInt s.bits ((rd s.bits x).toInt.tmod (rd s.bits st.rax).toInt))
        (BitVec.ofInt s.bits ((rd s.bits x).toInt.tdiv (rd s.bits st.rax).toInt))
      refine ⟨st', by exact (hp _).trans (e.trans ((if_neg hc).trans e')), ?_, ?_⟩
      · rw [h1]; exact Option.some.inj hr
      · rw [h2, h0]
  case udiv =>
    obtain ⟨st0, h0, e⟩ := exec_udiv s st1 []
    rw [List.append_nil] at e
    split at hr
    · simp at hr
    · rename_i hc
      refine ⟨_, by exact (hp _).trans (e.trans (if_neg hc)), ?_, ?_⟩
      · rw [putPair_rax]; exact Option.some.inj hr
      · rw [putPair_stack, h0]
  case urem =>
    obtain ⟨st0, h0, e⟩ := exec_udiv s st1 (remMove s)
    split at hr
    · simp at hr
    · rename_i hc
      obtain ⟨st', e', h1, h2⟩ := putPair_high s st0 (BitVec.ofNat s.bits ((rd s.bits x).toNat % (rd s.bits st.rax).toNat))
        (BitVec.ofNat s.bits ((rd s.bits x).toNat / (rd s.bits st.rax).toNat))
      refine ⟨st', by exact (hp _).trans (e.trans ((if_neg hc).trans e')), ?_, ?_⟩
      · rw [h1]; exact Option.some.inj hr
      · rw [h2, h0]

/-- **C61.** Divisions without a result stop the program: by zero, or the smallest number by -1. -/
theorem division_traps (op : BinOp) (hop : op = .sdiv ∨ op = .srem ∨ op = .udiv ∨ op = .urem) (s : Sz) (st : St) (x : BitVec 64)
    (rest : List (BitVec 64)) (hst : st.stack = x :: rest) (hr : Spec.binary op (rd s.bits x) (rd s.bits st.rax) = none) :
    exec (binary op s) st = none := by
  let st1 : St := { st with rax := x, rcx := st.rax, stack := rest }
  have hp : ∀ is, exec (.mov .q .rcx .rax :: .pop .rax :: is) st = exec is st1 := fun is => exec_prefix is st x rest hst
  rcases hop with rfl | rfl | rfl | rfl <;> simp only [Spec.binary] at hr <;> split at hr <;> rename_i hc <;> try (simp at hr; done)
  · obtain ⟨st0, _, e⟩ := exec_sdiv s st1 []
    rw [List.append_nil] at e
    exact (hp _).trans (e.trans (if_pos hc))
  · obtain ⟨st0, _, e⟩ := exec_sdiv s st1 (remMove s)
    exact (hp _).trans (e.trans (if_pos hc))
  · obtain ⟨st0, _, e⟩ := exec_udiv s st1 []
    rw [List.append_nil] at e
    exact (hp _).trans (e.trans (if_pos hc))
  · obtain ⟨st0, _, e⟩ := exec_udiv s st1 (remMove s)
    exact (hp _).trans (e.trans (if_pos hc))

/-- **C61.** Comparisons of integers and pointers: `al` is 1 or 0, and exactly the left operand is taken off the stack. -/
theorem compare_correct (op : CmpOp) (s : Sz) (st : St) (x : BitVec 64) (rest : List (BitVec 64)) (hst : st.stack = x :: rest) :
    ∃ st', exec (compare op s) st = some st' ∧
      rd 8 st'.rax = (if Spec.compare op (rd s.bits x) (rd s.bits st.rax) then 1#8 else 0#8) ∧ st'.stack = rest := by
  have hz := zf_eq (rd s.bits x) (rd s.bits st.rax)
  have hl := sf_of s.pos (rd s.bits x) (rd s.bits st.rax)
  simp only [exec, compare, step, hst, St.set, St.get, Option.bind_eq_bind, Option.bind_some]
  refine ⟨_, rfl, ?_, rfl⟩
  rw [rd_wr_same (by decide)]
  generalize rd s.bits x = a at *
  generalize rd s.bits st.rax = b at *
  have hge : ((subFlags a b).sf == (subFlags a b).of) = !decide (a.toInt < b.toInt) := by
    rw [← hl, bne, Bool.not_not]
  have hzf : (subFlags a b).zf = decide (a = b) := hz
  have hcf : (subFlags a b).cf = decide (a.toNat < b.toNat) := rfl
  have hn : a = b ↔ a.toNat = b.toNat := BitVec.toNat_inj.symm
  have hi : a = b ↔ a.toInt = b.toInt := BitVec.toInt_inj.symm
  congr 1
  rw [eq_iff_iff]
  cases op <;> simp only [CC.holds, Spec.compare, hl, hge, hzf, hcf, Bool.or_eq_true, Bool.and_eq_true, Bool.not_eq_true', decide_eq_true_iff,
    decide_eq_false_iff_not] <;> first | (rw [hn]; omega) | (rw [hi]; omega) | omega

/-- **C61.** The complement. -/
theorem complement_correct (s : Sz) (st : St) : ∃ st', exec (complement s) st = some st' ∧
    rd s.bits st'.rax = ~~~(rd s.bits st.rax) ∧ st'.stack = st.stack :=
  ⟨_, rfl, by rw [rd_wr_same s.le, BitVec.xor_allOnes], rfl⟩

theorem ones_add (x k : Nat) (h : x < 2 ^ k) (j : Nat) : Spec.ones x (k + j) = Spec.ones x k := by
  induction j with
  | zero => rfl
  | succ j ih =>
    have : x.testBit (k + j) = false := Nat.testBit_lt_two_pow (Nat.lt_of_lt_of_le h (Nat.pow_le_pow_right (by decide) (Nat.le_add_right ..)))
    rw [← Nat.add_assoc, Spec.ones, this, ih]; rfl

theorem ones_le (x k : Nat) : Spec.ones x k ≤ k := by
  induction k with
  | zero => exact Nat.le_refl 0
  | succ k ih => rw [Spec.ones]; split <;> omega

/-- **C61.** The number of ones. -/
theorem popCount_correct (s : Sz) (st : St) : ∃ st', exec (popCount s) st = some st' ∧
    (rd s.bits st'.rax).toNat = Spec.ones (rd s.bits st.rax).toNat s.bits ∧ st'.stack = st.stack := by
  have hlt : ∀ (s : Sz) (x : Nat), Spec.ones x s.bits < 2 ^ s.bits := by
    intro s x
    have := ones_le x s.bits
    cases s <;> simp [Sz.bits] at * <;> omega
  cases s with
  | b =>
    refine ⟨_, rfl, ?_, rfl⟩
    change (rd 8 (wr 16 (wr 16 st.rax ((rd 8 st.rax).setWidth 16)) (BitVec.ofNat 16 (Spec.ones (rd 16 (wr 16 st.rax ((rd 8 st.rax).setWidth 16))).toNat 16)))).toNat =
      Spec.ones (rd 8 st.rax).toNat 8
    rw [rd_wr_same (n := 16) (by decide), rd_wr (n := 8) (by decide) (by decide)]
    have e : ((rd 8 st.rax).setWidth 16).toNat = (rd 8 st.rax).toNat := by
      rw [BitVec.toNat_setWidth]; exact Nat.mod_eq_of_lt (Nat.lt_trans (BitVec.isLt _) (by decide))
    have := ones_le (rd 8 st.rax).toNat 8
    rw [BitVec.toNat_setWidth, BitVec.toNat_ofNat]
    rw [e, ones_add _ 8 (BitVec.isLt _) 8, Nat.mod_eq_of_lt (by omega), Nat.mod_eq_of_lt (by omega)]
  | w => exact ⟨_, rfl, by rw [rd_wr_same (Sz.le _), BitVec.toNat_ofNat, Nat.mod_eq_of_lt (hlt _ _)], rfl⟩
  | l => exact ⟨_, rfl, by rw [rd_wr_same (Sz.le _), BitVec.toNat_ofNat, Nat.mod_eq_of_lt (hlt _ _)], rfl⟩
  | q => exact ⟨_, rfl, by rw [rd_wr_same (Sz.le _), BitVec.toNat_ofNat, Nat.mod_eq_of_lt (hlt _ _)], rfl⟩

theorem sext_toInt {n m : Nat} (h : n ≤ m) (a : BitVec n) : (a.signExtend m).toInt = a.toInt := BitVec.toInt_signExtend_of_le h

theorem zext_toNat {n m : Nat} (h : n ≤ m) (a : BitVec n) : (a.setWidth m).toNat = a.toNat := by
  rw [BitVec.toNat_setWidth]
  exact Nat.mod_eq_of_lt (Nat.lt_of_lt_of_le a.isLt (Nat.pow_le_pow_right (by decide) h))

/-- **C61.** Sign extension keeps the signed value, zero extension the unsigned one, truncation takes it modulo the width.  The extensions exist for
exactly the pairs of increasing sizes. -/
theorem sext_correct (src dst : Sz) (h : src.bits < dst.bits) (st : St) : ∃ is st', sext src dst = some is ∧ exec is st = some st' ∧
    (rd dst.bits st'.rax).toInt = (rd src.bits st.rax).toInt ∧ st'.stack = st.stack := by
  have key : ∃ st', exec [.movs src dst] st = some st' ∧ (rd dst.bits st'.rax).toInt = (rd src.bits st.rax).toInt ∧ st'.stack = st.stack :=
    ⟨_, rfl, by rw [rd_wr_same dst.le, sext_toInt (Nat.le_of_lt h)], rfl⟩
  cases src <;> cases dst <;> first | exact ⟨_, _, rfl, key.choose_spec⟩ | simp [Sz.bits] at h

theorem uext_correct (src dst : Sz) (h : src.bits < dst.bits) (st : St) : ∃ is st', uext src dst = some is ∧ exec is st = some st' ∧
    (rd dst.bits st'.rax).toNat = (rd src.bits st.rax).toNat ∧ st'.stack = st.stack := by
  have key : ∃ st', exec [.movz src dst] st = some st' ∧ (rd dst.bits st'.rax).toNat = (rd src.bits st.rax).toNat ∧ st'.stack = st.stack :=
    ⟨_, rfl, by rw [rd_wr_same dst.le, zext_toNat (Nat.le_of_lt h)], rfl⟩
  have movl : ∃ st', exec [.mov .l .rax .rax] st = some st' ∧ (rd 64 st'.rax).toNat = (rd 32 st.rax).toNat ∧ st'.stack = st.stack :=
    ⟨_, rfl, by simp only [St.set, St.get, Sz.bits, wr, if_true]; rw [rd_q, zext_toNat (by decide)], rfl⟩
  cases src <;> cases dst <;> first
    | exact ⟨_, _, rfl, key.choose_spec⟩
    | exact ⟨_, _, rfl, movl.choose_spec⟩
    | simp [Sz.bits] at h

theorem trunc_correct (src dst : Sz) (h : dst.bits ≤ src.bits) (st : St) : exec (trunc src dst) st = some st ∧
    (rd dst.bits st.rax).toNat = (rd src.bits st.rax).toNat % 2 ^ dst.bits := by
  refine ⟨rfl, ?_⟩
  rw [rd, rd, BitVec.toNat_setWidth, BitVec.toNat_setWidth]
  exact (Nat.mod_mod_of_dvd _ (Nat.pow_dvd_pow 2 h)).symm

/-! ## Floats -/

/-- **C61.** Comparisons of floats are right when neither operand is not-a-number. -/
theorem fcompare_correct_partial (op : FCmpOp) (o : Ordering) : fcompare op (some o) = Spec.fcompare op (some o) := by
  cases op <;> cases o <;> rfl

/-- With not-a-number, `=`, `<` and `<=` hold in code made by the Chibi backend; they should not. -/
theorem fcompare_unordered : ∀ op, fcompare op none = decide (op = .feq ∨ op = .flt ∨ op = .fle) ∧ Spec.fcompare op none = false := by
  intro op; cases op <;> decide

/-- **C61.** The number handed to the conversion from a signed integer is the operand, for all sizes. -/
theorem stof_input (s : Sz) (st : St) : ∃ st', exec (stofInput s).1 st = some st' ∧
    (rd (stofInput s).2.bits st'.rax).toInt = (rd s.bits st.rax).toInt ∧ st'.stack = st.stack := by
  cases s with
  | b => exact ⟨_, rfl, by change (rd 32 (wr 32 st.rax ((rd 8 st.rax).signExtend 32))).toInt = (rd 8 st.rax).toInt; rw [rd_wr_same (by decide), sext_toInt (by decide)], rfl⟩
  | w => exact ⟨_, rfl, by change (rd 32 (wr 32 st.rax ((rd 16 st.rax).signExtend 32))).toInt = (rd 16 st.rax).toInt; rw [rd_wr_same (by decide), sext_toInt (by decide)], rfl⟩
  | l => exact ⟨_, rfl, rfl, rfl⟩
  | q => exact ⟨_, rfl, rfl, rfl⟩

/-- **C61.** The number handed to the conversion from an unsigned integer below 8 bytes is the operand, and is not negative there. -/
theorem utof_input (s : Sz) (hs : s ≠ .q) (st : St) : ∃ is s' st', utofInput s = some (is, s') ∧ exec is st = some st' ∧
    (rd s'.bits st'.rax).toInt = (rd s.bits st.rax).toNat ∧ st'.stack = st.stack := by
  have pos : ∀ {n m : Nat}, n < m → ∀ a : BitVec n, (a.setWidth m).toInt = a.toNat := by
    intro n m h a
    rw [BitVec.toInt_eq_toNat_cond, zext_toNat (Nat.le_of_lt h), if_pos]
    have := a.isLt
    have e : (2 : Nat) ^ m = 2 ^ (m - 1) * 2 := by rw [← Nat.pow_succ]; congr 1; omega
    have : (2 : Nat) ^ n ≤ 2 ^ (m - 1) := Nat.pow_le_pow_right (by decide) (by omega)
    omega
  cases s with
  | b => exact ⟨_, _, _, rfl, rfl, by change (rd 32 (wr 32 st.rax ((rd 8 st.rax).setWidth 32))).toInt = (rd 8 st.rax).toNat; rw [rd_wr_same (by decide), pos (by decide)], rfl⟩
  | w => exact ⟨_, _, _, rfl, rfl, by change (rd 32 (wr 32 st.rax ((rd 16 st.rax).setWidth 32))).toInt = (rd 16 st.rax).toNat; rw [rd_wr_same (by decide), pos (by decide)], rfl⟩
  | l =>
    refine ⟨_, _, _, rfl, rfl, ?_, rfl⟩
    change (rd 64 (wr 32 st.rax (rd 32 st.rax))).toInt = (rd 32 st.rax).toNat
    rw [rd_q, wr, if_pos rfl, pos (by decide)]
  | q => exact absurd rfl hs

theorem roundTo_double (k y : Nat) : 2 * Spec.roundTo k y = Spec.roundTo (k + 1) (2 * y) := by
  have e : (2 : Nat) ^ (k + 1) = 2 * 2 ^ k := by rw [Nat.pow_succ, Nat.mul_comm]
  have hq : 2 * y / 2 ^ (k + 1) = y / 2 ^ k := by rw [e, Nat.mul_div_mul_left _ _ (by decide)]
  have hr : 2 * y % 2 ^ (k + 1) = 2 * (y % 2 ^ k) := by rw [e, Nat.mul_mod_mul_left]
  simp only [Spec.roundTo, hq, hr]
  rw [e]
  generalize y / 2 ^ k = q
  generalize y % 2 ^ k = r
  generalize (2 : Nat) ^ k = M
  by_cases h : 2 * r < M ∨ (2 * r = M ∧ q % 2 = 0)
  · rw [if_pos h, if_pos (by omega), Nat.mul_left_comm]
  · rw [if_neg h, if_neg (by omega), Nat.mul_left_comm]

/-- A sticky bit: numbers with the same quotient by four, both odd or equal to twice an odd number, round alike to multiples of eight and more. -/
theorem roundTo_sticky {k x z : Nat} (hk : 3 ≤ k) (hq : x / 4 = z / 4) (hx : x % 4 ≠ 0) (hz : z % 4 ≠ 0) : Spec.roundTo k x = Spec.roundTo k z := by
  obtain ⟨j, rfl⟩ : ∃ j, k = j + 3 := ⟨k - 3, by omega⟩
  have e : (2 : Nat) ^ (j + 3) = 4 * (2 * 2 ^ j) := by rw [Nat.pow_add]; omega
  have hqq : x / 2 ^ (j + 3) = z / 2 ^ (j + 3) := by rw [e, ← Nat.div_div_eq_div_mul x 4, ← Nat.div_div_eq_div_mul z 4, hq]
  have hm : ∀ y, y % 2 ^ (j + 3) = 4 * (y / 4 % (2 * 2 ^ j)) + y % 4 := by
    intro y; rw [e, Nat.mod_mul, Nat.add_comm]
  have h4x := Nat.mod_lt x (show 4 > 0 by decide)
  have h4z := Nat.mod_lt z (show 4 > 0 by decide)
  simp only [Spec.roundTo, hqq, hm, hq]
  rw [e]
  generalize z / 4 % (2 * 2 ^ j) = t
  generalize (2 : Nat) ^ j = M
  generalize z / (4 * (2 * M)) = q
  by_cases h : 2 * (4 * t + x % 4) < 4 * (2 * M)
  · rw [if_pos (Or.inl h), if_pos (Or.inl (by omega))]
  · rw [if_neg (by omega), if_neg (by omega)]

/-- **C61.** Converting an unsigned quad word to a float rounds it to the nearest, for the precisions of both formats: the halving with the lost bit
kept gives the same result as rounding the number itself. -/
theorem utof_correct (p : Nat) (hp : p = 24 ∨ p = 53) (x : BitVec 64) : utof p x = Spec.toFloat p x.toNat := by
  unfold utof
  split
  · rename_i hm
    have hx : 2 ^ 63 ≤ x.toNat := by
      rw [BitVec.msb_eq_decide] at hm
      simpa using hm
    have hlt := x.isLt
    have hhalf : ((x >>> 1) ||| ((x &&& 1#64).setWidth 32).setWidth 64).toNat = x.toNat / 2 ||| x.toNat % 2 := by
      rw [BitVec.toNat_or, BitVec.toNat_ushiftRight, zext_toNat (by decide), BitVec.toNat_setWidth, BitVec.toNat_and]
      rw [Nat.shiftRight_eq_div_pow]
      have : x.toNat &&& (1#64).toNat = x.toNat % 2 := Nat.and_one_is_mod _
      rw [this, Nat.mod_eq_of_lt (show x.toNat % 2 < 2 ^ 32 by omega)]
    simp only [cvtsi, hhalf]
    generalize x.toNat = n at *
    have hy : n / 2 ||| n % 2 = n / 2 + (if n % 2 = 1 ∧ n / 2 % 2 = 0 then 1 else 0) := by
      rcases Nat.mod_two_eq_zero_or_one n with h | h
      · simp [h]
      · rw [h]
        have h1 : (n / 2 ||| 1) / 2 = n / 2 / 2 := by rw [Nat.or_div_two]; simp
        have h2 : (n / 2 ||| 1) % 2 = 1 := Nat.or_mod_two_eq_one.2 (Or.inr rfl)
        split <;> omega
    generalize n / 2 ||| n % 2 = y at *
    have hlog : n.log2 = 63 := by
      rw [Nat.log2_eq_iff (by omega)]; omega
    have hlogy : y.log2 = 62 := by
      rw [Nat.log2_eq_iff (by split at hy <;> omega)]; split at hy <;> omega
    rw [Spec.toFloat, Spec.toFloat, hlog, hlogy, roundTo_double]
    have hk : 62 + 1 - p + 1 = 63 + 1 - p := by omega
    rw [hk]
    by_cases hn : n % 2 = 1
    · apply roundTo_sticky (by omega) <;> (split at hy <;> omega)
    · have : 2 * y = n := by split at hy <;> omega
      rw [this]
  · rfl

/-- In the range, the conversion gives the integer part. -/
theorem cvtt_in {n : Nat} {i : Int} (h : -2 ^ (n - 1) ≤ i ∧ i < 2 ^ (n - 1)) : cvtt n i = BitVec.ofInt n i := if_pos h

/-- The lower bits of a number taken modulo a larger power of two. -/
theorem ofInt_low (m n : Nat) (i : Int) (hn : n ≤ m) : (BitVec.ofInt m i).setWidth n = BitVec.ofInt n i := by
  apply BitVec.eq_of_toNat_eq
  rw [BitVec.toNat_setWidth, BitVec.toNat_ofInt, BitVec.toNat_ofInt]
  have hd : ((2 ^ n : Nat) : Int) ∣ ((2 ^ m : Nat) : Int) := Int.natCast_dvd_natCast.2 (Nat.pow_dvd_pow 2 hn)
  have hp : 0 < (2 : Nat) ^ n := Nat.two_pow_pos n
  have hq : 0 < (2 : Nat) ^ m := Nat.two_pow_pos m
  have h0 : 0 ≤ i % ((2 ^ m : Nat) : Int) := Int.emod_nonneg _ (by omega)
  have h1 : 0 ≤ i % ((2 ^ n : Nat) : Int) := Int.emod_nonneg _ (by omega)
  apply Int.ofNat_inj.1
  rw [Int.natCast_emod, Int.toNat_of_nonneg h0, Int.toNat_of_nonneg h1, Int.emod_emod_of_dvd _ hd]

/-- A number in the range of `m` bits converted there and cut to `n`. -/
theorem cvtt_low {m n : Nat} {i : Int} (hn : n ≤ m) (h : -2 ^ (m - 1) ≤ i ∧ i < 2 ^ (m - 1)) :
    (cvtt m i).setWidth n = BitVec.ofInt n i := by
  rw [cvtt_in h, ofInt_low m n i hn]

/-- A smaller range lies in a larger. -/
theorem range_mono {m n : Nat} {i : Int} (hn : n ≤ m) (h : -2 ^ (n - 1) ≤ i ∧ i < 2 ^ (n - 1)) :
    -2 ^ (m - 1) ≤ i ∧ i < 2 ^ (m - 1) := by
  have : ((2 ^ (n - 1) : Nat) : Int) ≤ ((2 ^ (m - 1) : Nat) : Int) :=
    Int.ofNat_le.2 (Nat.pow_le_pow_right (by decide) (by omega))
  simp only [Int.natCast_pow] at this
  have e : ((2 : Nat) : Int) = 2 := rfl
  rw [e] at this
  omega

/-- An unsigned range lies in a larger signed one. -/
theorem range_unsigned {m n : Nat} {i : Int} (hn : n < m) (h : 0 ≤ i ∧ i < 2 ^ n) :
    -2 ^ (m - 1) ≤ i ∧ i < 2 ^ (m - 1) := by
  have : ((2 ^ n : Nat) : Int) ≤ ((2 ^ (m - 1) : Nat) : Int) :=
    Int.ofNat_le.2 (Nat.pow_le_pow_right (by decide) (by omega))
  simp only [Int.natCast_pow] at this
  have e : ((2 : Nat) : Int) = 2 := rfl
  rw [e] at this
  omega

/-- A signed number in the range is its own bits. -/
theorem ofInt_signed {n : Nat} {i : Int} (hn : 0 < n) (h : -2 ^ (n - 1) ≤ i ∧ i < 2 ^ (n - 1)) :
    (BitVec.ofInt n i).toInt = i := by
  rw [BitVec.toInt_ofInt]
  obtain ⟨k, rfl⟩ : ∃ k, n = k + 1 := ⟨n - 1, by omega⟩
  have e : ((2 ^ (k + 1) : Nat) : Int) = 2 * 2 ^ k := by
    rw [Nat.pow_succ, Int.natCast_mul, Int.natCast_pow]
    exact Int.mul_comm _ _
  rw [Nat.add_sub_cancel] at h
  apply Int.bmod_eq_of_le <;> omega

/-- An unsigned number in the range is its own bits. -/
theorem ofInt_unsigned {n : Nat} {i : Int} (h : 0 ≤ i ∧ i < 2 ^ n) : ((BitVec.ofInt n i).toNat : Int) = i := by
  rw [BitVec.toNat_ofInt]
  have e : ((2 ^ n : Nat) : Int) = 2 ^ n := Int.natCast_pow 2 n
  rw [e, Int.emod_eq_of_lt h.1 h.2, Int.toNat_of_nonneg h.1]

/-- **C61.** Converting to a signed integer gives the integer part when the type can hold it. -/
theorem ftos_correct (s : Sz) (i : Int) (h : -2 ^ (s.bits - 1) ≤ i ∧ i < 2 ^ (s.bits - 1)) : (ftos s i).toInt = i := by
  have hs : 0 < s.bits := by cases s <;> decide
  have e : ftos s i = BitVec.ofInt s.bits i := by
    cases s with
    | q => exact cvtt_in h
    | b => exact cvtt_low (by decide) (range_mono (m := 32) (by decide) h)
    | w => exact cvtt_low (by decide) (range_mono (m := 32) (by decide) h)
    | l => exact cvtt_low (by decide) (range_mono (m := 32) (by decide) h)
  rw [e]
  exact ofInt_signed hs h

/-- **C61.** Converting to an unsigned integer gives the integer part when the type can hold it, up to 4 bytes. -/
theorem ftou_correct_partial (s : Sz) (hs : s ≠ .q) (i : Int) (h : 0 ≤ i ∧ i < 2 ^ s.bits) : ((ftou s i).toNat : Int) = i := by
  have e : ftou s i = BitVec.ofInt s.bits i := by
    cases s with
    | q => exact absurd rfl hs
    | b => exact cvtt_low (by decide) (range_unsigned (m := 32) (by decide) h)
    | w => exact cvtt_low (by decide) (range_unsigned (m := 32) (by decide) h)
    | l => exact cvtt_low (by decide) (range_unsigned (m := 64) (by decide) h)
  rw [e]
  exact ofInt_unsigned h

/-- **C61.** For 8 bytes the conversion is right in the lower half of the range … -/
theorem ftou_lower (i : Int) (h : 0 ≤ i ∧ i < 2 ^ 63) : ((ftou .q i).toNat : Int) = i := by
  have r := range_unsigned (m := 64) (n := 63) (by decide) h
  have e : ftou .q i = BitVec.ofInt 64 i := cvtt_low (m := 64) (Nat.le_refl _) r
  rw [e]
  refine ofInt_unsigned ⟨h.1, Int.lt_trans h.2 (by decide)⟩

/-- … and every number of the upper half becomes `2 ^ 63`: the FIXME of codegen.rs:802. -/
theorem ftou_upper (i : Int) (h : 2 ^ 63 ≤ i) : ftou .q i = 1#64 <<< 63 := by
  have e : cvtt 64 i = BitVec.ofInt 64 (-2 ^ 63) := if_neg (fun c => absurd (Int.lt_of_lt_of_le c.2 h) (Int.lt_irrefl _))
  show (cvtt 64 i).setWidth 64 = _
  rw [e]
  decide +kernel

/-- The conversion to 8 unsigned bytes does not keep the integer part: `2 ^ 63 + 2048` is a float and becomes `2 ^ 63`. -/
theorem ftou_fails : ¬ ∀ i : Int, 0 ≤ i ∧ i < 2 ^ 64 → ((ftou .q i).toNat : Int) = i := by
  intro h
  have := h (2 ^ 63 + 2048) (by decide)
  rw [ftou_upper _ (by decide)] at this
  exact absurd this (by decide +kernel)

/-! ## Cases -/

/-- A state with rubbish in the other registers: the right operand in `rax`, the left one on the stack. -/
def start (l r : BitVec 64) : St :=
  { rax := r, rcx := 0xdeadbeef#64, rdx := 0x123456789abcdef0#64, flags := ⟨true, true, true, true⟩, stack := [l, 7#64] }

/-- The result of the code for an operation, and the depth of the stack after it. -/
def result (s : Sz) (is : List Inst) (st : St) : Option (Nat × Nat) :=
  (exec is st).map fun st' => ((rd s.bits st'.rax).toNat, st'.stack.length)

/-- -7 / 2 = -3 and -7 rem 2 = -1 in every size. -/
example : [Sz.b, .w, .l, .q].all (fun s =>
    (result s (binary .sdiv s) (start (-7) 2)).map (·.1 == 2 ^ s.bits - 3) == some true
      && (result s (binary .srem s) (start (-7) 2)).map (·.1 == 2 ^ s.bits - 1) == some true) = true := by decide +kernel

/-- The unsigned remainder of bytes is moved out of `ah`. -/
example : result .b (binary .urem .b) (start 250 100) = some (50, 1) := by decide +kernel
example : result .b (binary .udiv .b) (start 250 100) = some (2, 1) := by decide +kernel

/-- -128 / -1 and 5 / 0 trap. -/
example : exec (binary .sdiv .b) (start (-128) (-1)) = none := by decide +kernel
example : exec (binary .urem .q) (start 5 0) = none := by decide +kernel

/-- Signed and unsigned comparisons differ on 200 and 100 as bytes. -/
example : result .b (compare .slt .b) (start 200 100) = some (1, 1) ∧ result .b (compare .ult .b) (start 200 100) = some (0, 1) := by
  decide +kernel

/-- The condition of `binary_correct` on shifts is needed: processors take the count modulo 32, so a byte shifted by 32 stays as it was. -/
example : result .b (binary .shl .b) (start 1 32) = some (1, 1) := by decide +kernel
example : result .b (binary .shl .b) (start 1 8) = some (0, 1) := by decide +kernel

/-- The largest quad word becomes `2 ^ 64` in both formats. -/
example : utof 53 (-1) = 2 ^ 64 ∧ utof 24 (-1) = 2 ^ 64 := by decide +kernel
/-- Above `2 ^ 63`, with `x = 2 ^ 63 + 2 ^ 10 + 1`: just above a tie, so upwards; the bit lost by the halving decides. -/
example : utof 53 0x8000000000000401#64 = 2 ^ 63 + 2 ^ 11 := by decide +kernel
example : utof 53 0x8000000000000400#64 = 2 ^ 63 := by decide +kernel

example : (ftos .b (-128)).toInt = -128 ∧ (ftou .b 255).toNat = 255 ∧ (ftou .l 4294967295).toNat = 4294967295 := by decide +kernel

end Verif.Arith
